import Verif.Replay.Heap

/-! Lemmas about the indexed heap. -/

namespace LLab.Replay

variable {α : Type} [LinearOrder α]

/-- Well-formedness carried through the proofs: arrays of size `cap`, index maps
inverse below `N`. -/
structure Wf (h : Heap α) (cap N : Nat) : Prop where
  sized : h.Sized cap
  bij : h.Bij N
  le : N ≤ cap

theorem Wf.at_eq {h : Heap α} {cap N p : Nat} (w : Wf h cap N) (hp : p < N) :
    h.at p = some (h.val p) := by
  obtain ⟨⟨hv, hi, hr⟩, ⟨b1, b2⟩, hle⟩ := w
  have h1 : p < h.ind.len := by omega
  have h2 : h.ind.get p < h.values.len := by have := (b1 p hp).1; omega
  simp [Heap.at, Arr.read_eq h1, Arr.read_eq h2, Heap.val]

theorem swap_spec {h : Heap α} {cap N i l : Nat} (w : Wf h cap N) (hi : i < N) (hl : l < N)
    (hil : i ≠ l) :
    ∃ h', h.swap i l = some h' ∧ Wf h' cap N ∧ h'.values = h.values ∧
      ∀ p, h'.ind.get p = if p = l then h.ind.get i else if p = i then h.ind.get l
        else h.ind.get p := by
  obtain ⟨⟨hv, hin, hr⟩, ⟨b1, b2⟩, hle⟩ := w
  have h1 : i < h.ind.len := by omega
  have h2 : l < h.ind.len := by omega
  have h3 : h.ind.get l < h.rev.len := by have := (b1 l hl).1; omega
  have h4 : h.ind.get i < h.rev.len := by have := (b1 i hi).1; omega
  have hli : l ≠ i := fun e => hil e.symm
  refine ⟨⟨h.values, ⟨h.ind.len, Function.update (Function.update h.ind.get i (h.ind.get l)) l
    (h.ind.get i)⟩, ⟨h.rev.len, Function.update (Function.update h.rev.get (h.ind.get l) i)
    (h.ind.get i) l⟩⟩, ?_, ?_, rfl, ?_⟩
  · simp [Heap.swap, Arr.read, Arr.write, h1, h2, h3, h4, hli]
  · refine ⟨⟨hv, hin, hr⟩, ⟨?_, ?_⟩, hle⟩
    · intro p hp
      have hne : h.ind.get i ≠ h.ind.get l := by
        intro e
        have e1 := (b1 i hi).2
        have e2 := (b1 l hl).2
        rw [e, e2] at e1
        exact hil e1.symm
      simp only [Function.update_apply]
      by_cases hpl : p = l
      · subst hpl
        simp [(b1 i hi).1]
      · by_cases hpi : p = i
        · subst hpi
          have : h.ind.get l ≠ h.ind.get p := fun e => hne e.symm
          simp [hpl, this, (b1 l hl).1]
        · simp only [hpl, hpi, if_false]
          have e3 := (b1 p hp)
          have n1 : h.ind.get p ≠ h.ind.get i := by
            intro e
            have e1 := (b1 i hi).2
            rw [← e, e3.2] at e1
            exact hpi e1
          have n2 : h.ind.get p ≠ h.ind.get l := by
            intro e
            have e1 := (b1 l hl).2
            rw [← e, e3.2] at e1
            exact hpl e1
          simp [n1, n2, e3]
    · intro s hs
      simp only [Function.update_apply]
      by_cases hsi : s = h.ind.get i
      · simp [hsi, hl]
      · by_cases hsl : s = h.ind.get l
        · have : h.ind.get l ≠ h.ind.get i := by rw [← hsl]; exact hsi
          simp [hsl, this, hi, hil]
        · simp only [hsi, hsl, if_false]
          have e3 := b2 s hs
          have n1 : h.rev.get s ≠ l := by
            intro e; rw [e] at e3; exact hsl e3.2.symm
          have n2 : h.rev.get s ≠ i := by
            intro e; rw [e] at e3; exact hsi e3.2.symm
          simp [n1, n2, e3]
  · intro p
    simp only [Function.update_apply]

theorem swap_val {h h' : Heap α} {i l : Nat} (hv : h'.values = h.values)
    (hi : ∀ p, h'.ind.get p = if p = l then h.ind.get i else if p = i then h.ind.get l
        else h.ind.get p) (p : Nat) :
    h'.val p = if p = l then h.val i else if p = i then h.val l else h.val p := by
  simp only [Heap.val, hv, hi]
  split_ifs <;> rfl

/-- Order broken only between `i` and its children. -/
def DownPre (h : Heap α) (n i : Nat) : Prop :=
  (∀ p, 0 < p → p < n → (p - 1) / 2 ≠ i → h.val p ≤ h.val ((p - 1) / 2)) ∧
  (∀ p, 0 < p → p < n → (p - 1) / 2 = i → 0 < i → h.val p ≤ h.val ((i - 1) / 2))

/-- Order broken only between `i` and its parent. -/
def UpPre (h : Heap α) (n i : Nat) : Prop :=
  (∀ p, 0 < p → p < n → p ≠ i → h.val p ≤ h.val ((p - 1) / 2)) ∧
  (∀ p, 0 < p → p < n → (p - 1) / 2 = i → 0 < i → h.val p ≤ h.val ((i - 1) / 2))

theorem largest_spec {h : Heap α} {cap N n i : Nat} (w : Wf h cap N) (hn : n ≤ N) (hi : i < n) :
    ∃ l, h.largest n i = some l ∧ l < n ∧ (l = i ∨ (0 < l ∧ (l - 1) / 2 = i)) ∧
      h.val i ≤ h.val l ∧ (∀ p, 0 < p → p < n → (p - 1) / 2 = i → h.val p ≤ h.val l) := by
  unfold Heap.largest
  by_cases hL : 2 * i + 1 < n
  · have a1 := w.at_eq (p := 2 * i + 1) (by omega)
    have a2 := w.at_eq (p := i) (by omega)
    simp only [hL, if_true, a1, a2, Option.bind_eq_bind, Option.bind_some]
    by_cases hR : 2 * i + 2 < n
    · have a3 := w.at_eq (p := 2 * i + 2) (by omega)
      simp only [hR, if_true, a3, Option.bind_some]
      have hch : ∀ p, 0 < p → (p - 1) / 2 = i → p = 2 * i + 1 ∨ p = 2 * i + 2 := by
        intro p _ _; omega
      by_cases c1 : h.val (2 * i + 1) ≥ h.val i
      · simp only [c1, if_true, a1, Option.bind_some]
        by_cases c2 : h.val (2 * i + 2) ≥ h.val (2 * i + 1)
        · refine ⟨2 * i + 2, by simp [c2], hR, Or.inr ⟨by omega, by omega⟩, c1.trans c2, ?_⟩
          intro p hp _ hpar
          rcases hch p hp hpar with rfl | rfl
          · exact c2
          · exact le_rfl
        · refine ⟨2 * i + 1, by simp [c2], hL, Or.inr ⟨by omega, by omega⟩, c1, ?_⟩
          intro p hp _ hpar
          rcases hch p hp hpar with rfl | rfl
          · exact le_rfl
          · exact (not_le.1 c2).le
      · simp only [c1, if_false, a2, Option.bind_some]
        by_cases c2 : h.val (2 * i + 2) ≥ h.val i
        · refine ⟨2 * i + 2, by simp [c2], hR, Or.inr ⟨by omega, by omega⟩, c2, ?_⟩
          intro p hp _ hpar
          rcases hch p hp hpar with rfl | rfl
          · exact (not_le.1 c1).le.trans c2
          · exact le_rfl
        · refine ⟨i, by simp [c2], hi, Or.inl rfl, le_rfl, ?_⟩
          intro p hp _ hpar
          rcases hch p hp hpar with rfl | rfl
          · exact (not_le.1 c1).le
          · exact (not_le.1 c2).le
    · simp only [hR, if_false]
      have hch : ∀ p, 0 < p → p < n → (p - 1) / 2 = i → p = 2 * i + 1 := by
        intro p _ _ _; omega
      by_cases c1 : h.val (2 * i + 1) ≥ h.val i
      · refine ⟨2 * i + 1, by simp [c1], hL, Or.inr ⟨by omega, by omega⟩, c1, ?_⟩
        intro p hp hpn hpar
        rw [hch p hp hpn hpar]
      · refine ⟨i, by simp [c1], hi, Or.inl rfl, le_rfl, ?_⟩
        intro p hp hpn hpar
        rw [hch p hp hpn hpar]
        exact (not_le.1 c1).le
  · have hR : ¬ 2 * i + 2 < n := by omega
    refine ⟨i, by simp [hL, hR], hi, Or.inl rfl, le_rfl, ?_⟩
    intro p hp hpn hpar
    omega

theorem down_spec {cap N n : Nat} (hn : n ≤ N) : ∀ (fuel : Nat) (h : Heap α) (i : Nat),
    n - i < fuel → Wf h cap N → i < n → DownPre h n i →
    ∃ h', Heap.down fuel h n i = some h' ∧ Wf h' cap N ∧ h'.values = h.values ∧
      h'.Ordered n ∧ ∀ p, n ≤ p → h'.ind.get p = h.ind.get p := by
  intro fuel
  induction fuel with
  | zero => intro h i hf; omega
  | succ fuel ih =>
    intro h i hf w hi hpre
    obtain ⟨l, hl, hln, hcase, hil, hall⟩ := largest_spec w hn hi
    simp only [Heap.down, hl, Option.bind_eq_bind, Option.bind_some]
    by_cases hli : l = i
    · subst hli
      refine ⟨h, by simp, w, rfl, ?_, fun _ _ => rfl⟩
      intro p hp hpn
      by_cases hpar : (p - 1) / 2 = l
      · rw [hpar]; exact hall p hp hpn hpar
      · exact hpre.1 p hp hpn hpar
    · have hc : 0 < l ∧ (l - 1) / 2 = i := hcase.resolve_left hli
      obtain ⟨h1, e1, w1, v1, i1⟩ := swap_spec w (by omega : i < N) (by omega : l < N)
        (fun e => hli e.symm)
      simp only [hli, ne_eq, not_false_eq_true, if_true, e1, Option.bind_some]
      have hval := swap_val v1 i1
      have hpre1 : DownPre h1 n l := by
        constructor
        · intro p hp hpn hpar
          rw [hval p, hval ((p - 1) / 2)]
          by_cases hpl : p = l
          · subst hpl
            have : i ≠ p := by omega
            simp only [if_true, hc.2, this, if_false]
            exact hil
          · by_cases hpi : p = i
            · subst hpi
              have n1 : (p - 1) / 2 ≠ p := by omega
              have n2 : (p - 1) / 2 ≠ l := hpar
              simp only [hpl, if_false, if_true, n1, n2]
              exact hpre.2 l hc.1 hln hc.2 hp
            · simp only [hpl, hpi, if_false, hpar]
              by_cases hpp : (p - 1) / 2 = i
              · simp only [hpp, if_true]
                exact hall p hp hpn hpp
              · simp only [hpp, if_false]
                exact hpre.1 p hp hpn hpp
        · intro p hp hpn hpar hl0
          rw [hval p, hval ((l - 1) / 2)]
          have n1 : p ≠ l := by omega
          have n2 : p ≠ i := by omega
          have n3 : i ≠ l := by omega
          simp only [n1, n2, hc.2, n3, if_false, if_true]
          have := hpre.1 p hp hpn (by omega)
          rwa [hpar] at this
      obtain ⟨h2, e2, w2, v2, o2, i2⟩ := ih h1 l (by omega) w1 hln hpre1
      refine ⟨h2, e2, w2, v2.trans v1, o2, ?_⟩
      intro p hp
      rw [i2 p hp, i1 p, if_neg (by omega), if_neg (by omega)]

theorem parentC_eq {i : Nat} (hi : 0 < i) : parentC i = (i - 1) / 2 := by
  unfold parentC; split_ifs <;> omega

theorem up_spec {cap N n : Nat} (hn : n ≤ N) : ∀ (fuel : Nat) (h : Heap α) (i : Nat),
    i < fuel → Wf h cap N → i < n → UpPre h n i →
    ∃ h', Heap.up fuel h i = some h' ∧ Wf h' cap N ∧ h'.values = h.values ∧
      h'.Ordered n ∧ ∀ p, n ≤ p → h'.ind.get p = h.ind.get p := by
  intro fuel
  induction fuel with
  | zero => intro h i hf; omega
  | succ fuel ih =>
    intro h i hf w hi hpre
    by_cases hi0 : i = 0
    · refine ⟨h, by simp [Heap.up, hi0], w, rfl, ?_, fun _ _ => rfl⟩
      intro p hp hpn
      exact hpre.1 p hp hpn (by omega)
    · have hpos : 0 < i := by omega
      have a1 := w.at_eq (p := (i - 1) / 2) (by omega)
      have a2 := w.at_eq (p := i) (by omega)
      rw [Heap.up, if_neg hi0, parentC_eq hpos]
      simp only [a1, a2, Option.bind_eq_bind, Option.bind_some]
      by_cases hc : h.val ((i - 1) / 2) ≤ h.val i
      · obtain ⟨h1, e1, w1, v1, i1⟩ := swap_spec w (by omega : i < N)
          (by omega : (i - 1) / 2 < N) (by omega)
        simp only [hc, if_true, e1, Option.bind_some]
        have hval := swap_val v1 i1
        have hpre1 : UpPre h1 n ((i - 1) / 2) := by
          constructor
          · intro p hp hpn hne
            rw [hval p, hval ((p - 1) / 2)]
            by_cases hpi : p = i
            · subst hpi
              simp only [hne, if_false, if_true]
              exact hc
            · simp only [hne, hpi, if_false]
              by_cases hpp : (p - 1) / 2 = (i - 1) / 2
              · simp only [hpp, if_true]
                have := hpre.1 p hp hpn hpi
                rw [hpp] at this
                exact this.trans hc
              · simp only [hpp, if_false]
                by_cases hpc : (p - 1) / 2 = i
                · simp only [hpc, if_true]
                  exact hpre.2 p hp hpn hpc hpos
                · simp only [hpc, if_false]
                  exact hpre.1 p hp hpn hpi
          · intro p hp hpn hpar hq
            have n1 : ((i - 1) / 2 - 1) / 2 ≠ (i - 1) / 2 := by omega
            have n2 : ((i - 1) / 2 - 1) / 2 ≠ i := by omega
            have hg := hpre.1 ((i - 1) / 2) hq (by omega) (by omega)
            rw [hval p, hval (((i - 1) / 2 - 1) / 2), if_neg n1, if_neg n2]
            have n3 : p ≠ (i - 1) / 2 := by omega
            simp only [n3, if_false]
            by_cases hpi : p = i
            · simp only [hpi, if_true]; exact hg
            · simp only [hpi, if_false]
              have := hpre.1 p hp hpn hpi
              rw [hpar] at this
              exact this.trans hg
        obtain ⟨h2, e2, w2, v2, o2, i2⟩ := ih h1 ((i - 1) / 2) (by omega) w1 (by omega) hpre1
        refine ⟨h2, e2, w2, v2.trans v1, o2, ?_⟩
        intro p hp
        rw [i2 p hp, i1 p, if_neg (by omega), if_neg (by omega)]
      · refine ⟨h, by simp [hc], w, rfl, ?_, fun _ _ => rfl⟩
        intro p hp hpn
        by_cases hpi : p = i
        · subst hpi; exact (not_le.1 hc).le
        · exact hpre.1 p hp hpn hpi

theorem removeAt_spec {h : Heap α} {cap n i : Nat} (w : Wf h cap n) (ho : h.Ordered n)
    (hi : i < n) :
    ∃ h', h.removeAt n i = some h' ∧ Wf h' cap n ∧ h'.values = h.values ∧
      h'.Ordered (n - 1) ∧ h'.ind.get (n - 1) = h.ind.get i := by
  have w0 := w
  obtain ⟨⟨hv, hin, hr⟩, ⟨b1, b2⟩, hle⟩ := w
  have a1 := w0.at_eq (p := i) hi
  have a2 := w0.at_eq (p := n - 1) (by omega)
  have h1 : i < h.ind.len := by omega
  have h2 : n - 1 < h.ind.len := by omega
  have h3 : h.ind.get i < h.rev.len := by have := (b1 i hi).1; omega
  have h4 : h.ind.get (n - 1) < h.rev.len := by have := (b1 (n - 1) (by omega)).1; omega
  by_cases hil : i = n - 1
  · -- the last element: nothing moves
    subst hil
    refine ⟨⟨h.values, ⟨h.ind.len, h.ind.get⟩, ⟨h.rev.len, h.rev.get⟩⟩, ?_, ⟨⟨hv, hin, hr⟩,
      ⟨b1, b2⟩, hle⟩, rfl, ?_, rfl⟩
    · have e1 : Function.update h.rev.get (h.ind.get (n - 1)) (n - 1) = h.rev.get := by
        funext s
        by_cases hs : s = h.ind.get (n - 1)
        · subst hs; simp [(b1 (n - 1) hi).2]
        · simp [hs]
      simp [Heap.removeAt, Nat.not_le.2 hi, a2, Arr.read, Arr.write, h2, h4, e1]
    · intro p hp hpn
      exact ho p hp (by omega)
  · obtain ⟨hs, es, ws, vs, is⟩ := swap_spec w0 hi (by omega : n - 1 < n) hil
    -- the explicit statement order of `remove_ith` computes the same swap
    have hne : h.ind.get i ≠ h.ind.get (n - 1) := by
      intro e
      have e1 := (b1 i hi).2
      have e2 := (b1 (n - 1) (by omega)).2
      rw [e, e2] at e1
      exact hil e1.symm
    have hli : n - 1 ≠ i := fun e => hil e.symm
    have hs_eq : hs = ⟨h.values, ⟨h.ind.len, Function.update (Function.update h.ind.get i
        (h.ind.get (n - 1))) (n - 1) (h.ind.get i)⟩, ⟨h.rev.len, Function.update
        (Function.update h.rev.get (h.ind.get i) (n - 1)) (h.ind.get (n - 1)) i⟩⟩ := by
      have := es
      simp [Heap.swap, Arr.read, Arr.write, h1, h2, h3, h4, hli] at this
      rw [← this, Function.update_comm hne]
    have hval0 := swap_val vs is
    have hval : ∀ p, p < n - 1 → hs.val p = if p = i then h.val (n - 1) else h.val p := by
      intro p hp
      rw [hval0, if_neg (by omega : p ≠ n - 1)]
    have hstep : h.removeAt n i = if h.val (n - 1) < h.val i then Heap.down (n + 1) hs (n - 1) i
        else if h.val (n - 1) > h.val i then Heap.up (i + 1) hs i else some hs := by
      rw [hs_eq]
      simp [Heap.removeAt, Nat.not_le.2 hi, a1, a2, Arr.read, Arr.write, h1, h2, h3, h4]
    rw [hstep]
    have hind : hs.ind.get (n - 1) = h.ind.get i := by rw [is]; simp
    have hgp : ∀ p, 0 < p → p < n - 1 → (p - 1) / 2 = i → 0 < i →
        hs.val p ≤ hs.val ((i - 1) / 2) := by
      intro p hp hpn hpar hi0
      rw [hval p hpn, hval _ (by omega), if_neg (by omega : p ≠ i), if_neg (by omega)]
      have x1 := ho p hp (by omega)
      have x2 := ho i hi0 (by omega)
      rw [hpar] at x1
      exact x1.trans x2
    by_cases c1 : h.val (n - 1) < h.val i
    · rw [if_pos c1]
      obtain ⟨h', e', w', v', o', i'⟩ := down_spec (by omega : n - 1 ≤ n) (n + 1) hs i (by omega)
        ws (by omega) ⟨by
          intro p hp hpn hpar
          rw [hval p hpn, hval _ (by omega)]
          by_cases hpi : p = i
          · subst hpi
            rw [if_pos rfl, if_neg hpar]
            exact c1.le.trans (ho p hp (by omega))
          · rw [if_neg hpi, if_neg hpar]
            exact ho p hp (by omega), hgp⟩
      exact ⟨h', e', w', v'.trans vs, o', by rw [i' _ le_rfl, hind]⟩
    · rw [if_neg c1]
      by_cases c2 : h.val (n - 1) > h.val i
      · rw [if_pos c2]
        obtain ⟨h', e', w', v', o', i'⟩ := up_spec (by omega : n - 1 ≤ n) (i + 1) hs i (by omega)
          ws (by omega) ⟨by
            intro p hp hpn hpi
            rw [hval p hpn, hval _ (by omega), if_neg hpi]
            by_cases hpar : (p - 1) / 2 = i
            · rw [if_pos hpar]
              have := ho p hp (by omega)
              rw [hpar] at this
              exact this.trans c2.le
            · rw [if_neg hpar]
              exact ho p hp (by omega), hgp⟩
        exact ⟨h', e', w', v'.trans vs, o', by rw [i' _ le_rfl, hind]⟩
      · rw [if_neg c2]
        have heq : h.val (n - 1) = h.val i := le_antisymm (not_lt.1 c2) (not_lt.1 c1)
        refine ⟨hs, rfl, ws, vs, ?_, hind⟩
        have hv' : ∀ p, p < n - 1 → hs.val p = h.val p := by
          intro p hp
          rw [hval p hp]
          split_ifs with hh
          · rw [hh, heq]
          · rfl
        intro p hp hpn
        rw [hv' p hpn, hv' _ (by omega)]
        exact ho p hp (by omega)

/-- `add_buffer_state` for the next free slot. -/
theorem add_spec {h : Heap α} {cap n : Nat} (hundred : α) (hs : h.Sized cap) (hb : h.Bij n)
    (ho : h.Ordered n) (hn : n < cap) :
    ∃ h', h.add hundred n = some h' ∧ h'.Sized cap ∧ h'.Bij (n + 1) ∧ h'.Ordered (n + 1) ∧
      ∀ s, h'.values.get s = if s = n then (if n = 0 then hundred else h.val 0)
        else h.values.get s := by
  obtain ⟨hv, hin, hr⟩ := hs
  obtain ⟨b1, b2⟩ := hb
  have hbest : h.best hundred n =
      some (if n = 0 then hundred else h.val 0) := by
    unfold Heap.best
    by_cases h0 : n = 0
    · simp [h0]
    · simp only [h0, if_false]
      exact Wf.at_eq (N := n) ⟨⟨hv, hin, hr⟩, ⟨b1, b2⟩, by omega⟩ (by omega)
  set best := (if n = 0 then hundred else h.val 0) with hbe
  set h1 : Heap α := ⟨⟨h.values.len, Function.update h.values.get n best⟩,
    ⟨h.ind.len, Function.update h.ind.get n n⟩, ⟨h.rev.len, Function.update h.rev.get n n⟩⟩
    with hh1
  have hstep : h.add hundred n = Heap.up (n + 1) h1 n := by
    unfold Heap.add
    rw [hbest]
    simp [Arr.write, show n < h.values.len by omega, show n < h.ind.len by omega,
      show n < h.rev.len by omega, hh1]
  have w1 : Wf h1 cap (n + 1) := by
    refine ⟨⟨hv, hin, hr⟩, ⟨?_, ?_⟩, hn⟩
    · intro p hp
      by_cases hpn : p = n
      · subst hpn; simp [hh1]
      · have := b1 p (by omega)
        have hne : h.ind.get p ≠ n := by omega
        simp only [hh1, Function.update_apply, hpn, hne, if_false]
        exact ⟨by omega, this.2⟩
    · intro s hs
      by_cases hsn : s = n
      · subst hsn; simp [hh1]
      · have := b2 s (by omega)
        have hne : h.rev.get s ≠ n := by omega
        simp only [hh1, Function.update_apply, hsn, hne, if_false]
        exact ⟨by omega, this.2⟩
  have hval : ∀ p, p < n → h1.val p = h.val p := by
    intro p hp
    have := b1 p hp
    have hne : h.ind.get p ≠ n := by omega
    simp only [Heap.val, hh1, Function.update_apply, show p ≠ n by omega, hne, if_false]
  obtain ⟨h', e', w', v', o', _⟩ := up_spec (le_refl (n + 1)) (n + 1) h1 n (by omega) w1
    (by omega) ⟨by
      intro p hp hpn hne
      rw [hval p (by omega), hval _ (by omega)]
      exact ho p hp (by omega), by intro p hp hpn hpar; omega⟩
  refine ⟨h', hstep.trans e', w'.sized, w'.bij, o', ?_⟩
  intro s
  rw [v']
  simp only [hh1, Function.update_apply]

/-- `update_buffer_state` on heap position `pos`. -/
theorem update_spec {h : Heap α} {cap n pos : Nat} (error : α) (w : Wf h cap n)
    (ho : h.Ordered n) (hp : pos < n) :
    ∃ h', h.update n pos error = some h' ∧ Wf h' cap n ∧ h'.Ordered n ∧
      ∀ s, h'.values.get s = if s = h.ind.get pos then error else h.values.get s := by
  obtain ⟨h1, e1, w1, v1, o1, i1⟩ := removeAt_spec w ho hp
  have hlast := w1.bij.1 (n - 1) (by omega)
  have h2 : n - 1 < h1.ind.len := by have := w1.sized.2.1; have := w1.le; omega
  have h3 : h1.ind.get (n - 1) < h1.values.len := by
    have := w1.sized.1; have := w1.le; omega
  set h2' : Heap α := ⟨⟨h1.values.len, Function.update h1.values.get (h1.ind.get (n - 1)) error⟩,
    h1.ind, h1.rev⟩ with hh2
  have hstep : h.update n pos error = Heap.up n h2' (n - 1) := by
    simp [Heap.update, e1, show n ≠ 0 by omega, Arr.read, Arr.write, h2, h3, hh2]
  have w2 : Wf h2' cap n := ⟨⟨w1.sized.1, w1.sized.2.1, w1.sized.2.2⟩, w1.bij, w1.le⟩
  have hval : ∀ p, p < n - 1 → h2'.val p = h1.val p := by
    intro p hpp
    have hne : h1.ind.get p ≠ h1.ind.get (n - 1) := by
      intro e
      have x1 := (w1.bij.1 p (by omega)).2
      rw [e, hlast.2] at x1
      omega
    simp only [Heap.val, hh2, Function.update_apply, hne, if_false]
  obtain ⟨h', e', w', v', o', _⟩ := up_spec (le_refl n) n h2' (n - 1) (by omega) w2
    (by omega) ⟨by
      intro p hp hpn hne
      rw [hval p (by omega), hval _ (by omega)]
      exact o1 p hp (by omega), by intro p hp hpn hpar; omega⟩
  refine ⟨h', hstep.trans e', w', o', ?_⟩
  intro s
  rw [v']
  simp only [hh2, Function.update_apply, i1, v1]

end LLab.Replay
