import Verif.RL.ConsensusOrder
import Mathlib.Analysis.Real.Sqrt
import Mathlib.Tactic.IntervalCases
import Mathlib.Tactic.NormNum

/-!
C151: what the consensus of the scores does to a set of networks.
-/

namespace LLab.Consensus

open LLab

variable {K : Type} [Field K] [LinearOrder K] [IsStrictOrderedRing K]

/-! ### Specification -/

/-- The layer that starts at `o` has `n` scores. -/
def IsLayer (sizes : List Nat) (o n : Nat) : Prop :=
  ∃ l, ∃ h : l < sizes.length, o = (sizes.take l).sum ∧ n = sizes[l]

/-- Sum over the `m` networks of the value at position `i`. -/
def total (v : Nat → Nat → K) (m i : Nat) : K := ∑ j ∈ Finset.range m, v j i

/-- What the code calls the mean of position `i` of a layer of `n` scores. -/
def meanOf (v : Nat → Nat → K) (m n i : Nat) : K := total v m i / (n : K)

/-- What the code calls the deviation of position `i` of a layer of `n` scores. -/
def stdOf (v : Nat → Nat → K) (m n i : Nat) : K :=
  (∑ j ∈ Finset.range m, (v j i - meanOf v m n i) * (v j i - meanOf v m n i)) / (n : K)

/-- The layer at `o` lists its positions by decreasing total. -/
def Decreasing (v : Nat → Nat → K) (m o n : Nat) (q : Nat → Nat) : Prop :=
  ∀ k, k + 1 < n → total v m (o + q (o + (k + 1))) ≤ total v m (o + q (o + k))

/-- Rows with room for `N` entries each. -/
def Rows {α : Type} (m N : Nat) (a : Arr (Arr α)) : Prop := a.len = m ∧ ∀ j, j < m → (a.get j).len = N

/-! ### The layer walk -/

theorem nextSum_cases (l : List Nat) (acc s : Nat) (h : acc ≤ s) :
    (nextSum l acc s = acc + l.sum ∧ acc + l.sum ≤ s) ∨
    ∃ i, ∃ _ : i < l.length, nextSum l acc s = acc + (l.take (i + 1)).sum ∧ acc + (l.take i).sum ≤ s ∧
      s < acc + (l.take (i + 1)).sum := by
  induction l generalizing acc with
  | nil => exact Or.inl ⟨by simp [nextSum], by simpa using h⟩
  | cons n l ih =>
    by_cases hs : acc + n > s
    · exact Or.inr ⟨0, by simp, by simp [nextSum, hs], by simpa using h, by simpa using hs⟩
    · rcases ih (acc + n) (by omega) with ⟨h1, h2⟩ | ⟨i, hi, h1, h2, h3⟩
      · exact Or.inl ⟨by rw [nextSum, if_neg hs, h1, List.sum_cons]; omega, by rw [List.sum_cons]; omega⟩
      · refine Or.inr ⟨i + 1, by simpa using hi, ?_, ?_, ?_⟩
        · rw [nextSum, if_neg hs, h1, List.take_succ_cons, List.sum_cons]; omega
        · rw [List.take_succ_cons, List.sum_cons]; omega
        · rw [List.take_succ_cons, List.sum_cons]; omega

theorem take_sum_mono (l : List Nat) {i j : Nat} (h : i ≤ j) : (l.take i).sum ≤ (l.take j).sum := by
  induction l generalizing i j with
  | nil => simp
  | cons n l ih =>
    cases i with
    | zero => simp
    | succ i =>
      cases j with
      | zero => omega
      | succ j => simpa using ih (show i ≤ j by omega)

theorem take_sum_le (l : List Nat) (i : Nat) : (l.take i).sum ≤ l.sum := by
  have := take_sum_mono l (show i ≤ i + l.length by omega)
  rwa [List.take_of_length_le (i := i + l.length) (by omega)] at this

theorem take_sum_succ (l : List Nat) {i : Nat} (h : i < l.length) :
    (l.take (i + 1)).sum = (l.take i).sum + l[i] := by
  induction l generalizing i with
  | nil => simp at h
  | cons n l ih =>
    cases i with
    | zero => simp
    | succ i => simp [ih (show i < l.length by simpa using h)]; omega

/-- A boundary of a layer. -/
def IsStart (sizes : List Nat) (s : Nat) : Prop := ∃ l, s = (sizes.take l).sum

theorem nextSum_start {sizes : List Nat} {s : Nat} (h : IsStart sizes s) :
    (nextSum sizes 0 s = s ∧ s = sizes.sum) ∨
    ∃ n, 0 < n ∧ IsLayer sizes s n ∧ nextSum sizes 0 s = s + n := by
  obtain ⟨l, rfl⟩ := h
  have hle := take_sum_le sizes l
  rcases nextSum_cases sizes 0 (sizes.take l).sum (Nat.zero_le _) with ⟨h1, h2⟩ | ⟨i, hi, h1, h2, h3⟩
  · rw [Nat.zero_add] at h1 h2
    exact Or.inl ⟨by rw [h1]; omega, by omega⟩
  · rw [Nat.zero_add] at h1 h2 h3
    have hli : l ≤ i := by
      by_contra hh
      have := take_sum_mono sizes (show i + 1 ≤ l by omega)
      omega
    have hm := take_sum_mono sizes hli
    have hs := take_sum_succ sizes hi
    exact Or.inr ⟨sizes[i], by omega, ⟨i, hi, by omega, rfl⟩, by rw [h1]; omega⟩

theorem layer_start {sizes : List Nat} {o n : Nat} (h : IsLayer sizes o n) : IsStart sizes (o + n) := by
  obtain ⟨l, hl, rfl, rfl⟩ := h
  exact ⟨l + 1, (take_sum_succ sizes hl).symm⟩

theorem layer_le {sizes : List Nat} {o n : Nat} (h : IsLayer sizes o n) : o + n ≤ sizes.sum := by
  obtain ⟨l, hl⟩ := layer_start h
  rw [hl]; exact take_sum_le sizes l

theorem layer_unique {sizes : List Nat} {o n o' n' : Nat} (h : IsLayer sizes o n) (h' : IsLayer sizes o' n')
    (hn : 0 < n) (h1 : o + n ≤ o' + n') (h2 : o' < o + n) : o = o' ∧ n = n' := by
  obtain ⟨l, hl, rfl, rfl⟩ := h
  obtain ⟨l', hl', rfl, rfl⟩ := h'
  rw [← take_sum_succ sizes hl] at h1 h2
  rw [← take_sum_succ sizes hl'] at h1
  have e1 := take_sum_succ sizes hl
  have : l = l' := by
    rcases Nat.lt_trichotomy l l' with hh | hh | hh
    · have := take_sum_mono sizes (show l + 1 ≤ l' by omega)
      omega
    · exact hh
    · have := take_sum_mono sizes (show l' + 1 ≤ l by omega)
      omega
  subst this
  exact ⟨rfl, rfl⟩

/-- The walk treats every layer once and stops. -/
theorem walk_layers {σ : Type} {sizes : List Nat} {f : Nat → Nat → σ → Option σ} (Inv : Nat → σ → Prop)
    (Q : Nat → Nat → σ → Prop) {st : σ} (h0 : Inv 0 st)
    (hs : ∀ o n, IsLayer sizes o n → 0 < n → ∀ st, Inv o st →
      (∀ o' n', IsLayer sizes o' n' → o' + n' ≤ o → Q o' n' st) →
      ∃ st', f o (o + n) st = some st' ∧ Inv (o + n) st' ∧ Q o n st' ∧
        ∀ o' n', IsLayer sizes o' n' → o' + n' ≤ o → Q o' n' st → Q o' n' st')
    (hQ : ∀ o st, Q o 0 st)
    (he : ∀ st, Inv sizes.sum st → f sizes.sum sizes.sum st = some st) :
    ∃ st', walk sizes f (sizes.sum + 1) 0 st = some st' ∧ Inv sizes.sum st' ∧
      ∀ o n, IsLayer sizes o n → Q o n st' := by
  have main : ∀ fuel s st, IsStart sizes s → sizes.sum + 1 ≤ s + fuel → s ≤ sizes.sum → Inv s st →
      (∀ o n, IsLayer sizes o n → o + n ≤ s → Q o n st) →
      ∃ st', walk sizes f fuel s st = some st' ∧ Inv sizes.sum st' ∧ ∀ o n, IsLayer sizes o n → Q o n st' := by
    intro fuel
    induction fuel with
    | zero => intro s st _ h1 h2; omega
    | succ fuel ih =>
      intro s st hst hf hle hi hq
      rcases nextSum_start hst with ⟨h1, h2⟩ | ⟨n, hn, hl, h1⟩
      · subst h2
        refine ⟨st, ?_, hi, fun o n hl => hq o n hl (layer_le hl)⟩
        rw [walk, h1, he st hi]
        simp
      · obtain ⟨st', e, i', q', keep⟩ := hs s n hl hn st hi hq
        obtain ⟨st'', e2, r⟩ := ih (s + n) st' (layer_start hl) (by omega) (layer_le hl) i' (by
          intro o' n' hl' hle'
          by_cases hh : o' + n' ≤ s
          · exact keep o' n' hl' hh (hq o' n' hl' hh)
          · rcases Nat.eq_zero_or_pos n' with hz | hz
            · subst hz; exact hQ o' st'
            · obtain ⟨rfl, rfl⟩ := layer_unique hl' hl hz hle' (by omega)
              exact q')
        refine ⟨st'', ?_, r⟩
        rw [walk, h1, e]
        simp only [Option.bind_eq_bind, Option.bind_some]
        rw [if_pos (by omega), e2]
  exact main (sizes.sum + 1) 0 st ⟨0, by simp⟩ (by omega) (Nat.zero_le _) h0
    (fun o n _ hle => by
      have : n = 0 := by omega
      subst this; exact hQ o st)

/-! ### The passes -/

omit [LinearOrder K] [IsStrictOrderedRing K] in
theorem accum {m i : Nat} {f : Nat → Arr K → Option (Arr K)} (v : Nat → K) {a : Arr K} (hi : i < a.len)
    (h : ∀ j, j < m → ∀ b : Arr K, b.len = a.len → f j b = b.addAt i (v j)) :
    loop m f a = some ⟨a.len, Function.update a.get i (a.get i + ∑ j ∈ Finset.range m, v j)⟩ := by
  obtain ⟨s, e, r1⟩ := loop_inv (fun t (b : Arr K) =>
      b = ⟨a.len, Function.update a.get i (a.get i + ∑ j ∈ Finset.range t, v j)⟩) (n := m) (f := f) (s := a)
    (by simp) (by
      rintro j hj b rfl
      refine ⟨_, ?_, rfl⟩
      refine (h j hj _ (by rfl)).trans ?_
      rw [Arr.addAt_eq _ (by exact hi)]
      simp [Finset.sum_range_succ, add_assoc])
  rw [e, r1]

omit [LinearOrder K] [IsStrictOrderedRing K] in
theorem sums_eq {vals : Arr (Arr K)} {m N : Nat} (h : Rows m N vals) :
    ∃ a, sums vals m N = some a ∧ a.len = N ∧
      ∀ k, k < N → a.get k = total (fun j i => (vals.get j).get i) m k := by
  refine ⟨_, loop_fill (fun i => total (fun j i => (vals.get j).get i) m i) ?_, rfl, ?_⟩
  · intro i hi b hb hk
    rw [accum (fun j => (vals.get j).get i) (by rw [hb]; exact hi)]
    · rw [hk i (le_refl i)]
      simp [total]
    · intro j hj c _
      simp [Arr.read_eq (show j < vals.len by rw [h.1]; exact hj), Arr.read_eq (show i < (vals.get j).len by rw [h.2 j hj]; exact hi)]
  · intro k hk
    simp [hk]

omit [LinearOrder K] [IsStrictOrderedRing K] in
theorem squares_eq {vals : Arr (Arr K)} {means : Arr K} {m N : Nat} (h : Rows m N vals) (hm : means.len = N) :
    ∃ a, squares vals means m N = some a ∧ a.len = N ∧ ∀ k, k < N → a.get k =
      ∑ j ∈ Finset.range m, ((vals.get j).get k - means.get k) * ((vals.get j).get k - means.get k) := by
  refine ⟨_, loop_fill (fun i => ∑ j ∈ Finset.range m,
    ((vals.get j).get i - means.get i) * ((vals.get j).get i - means.get i)) ?_, rfl, ?_⟩
  · intro i hi b hb hk
    rw [accum (fun j => ((vals.get j).get i - means.get i) * ((vals.get j).get i - means.get i))
      (by rw [hb]; exact hi)]
    · rw [hk i (le_refl i)]
      simp
    · intro j hj c _
      simp [Arr.read_eq (show j < vals.len by rw [h.1]; exact hj),
        Arr.read_eq (show i < (vals.get j).len by rw [h.2 j hj]; exact hi),
        Arr.read_eq (show i < means.len by rw [hm]; exact hi)]
  · intro k hk
    simp [hk]

omit [LinearOrder K] [IsStrictOrderedRing K] in
theorem divide_eq {lo n : Nat} {a : Arr K} (h : lo + n ≤ a.len) :
    ∃ a', divide lo (lo + n) a = some a' ∧ a'.len = a.len ∧
      (∀ k, k < n → a'.get (lo + k) = a.get (lo + k) / (n : K)) ∧
      ∀ k, (k < lo ∨ lo + n ≤ k) → a'.get k = a.get k := by
  obtain ⟨s, e, r1, r2, r3⟩ := loop_inv (fun t (b : Arr K) => b.len = a.len ∧
      (∀ k, k < t → b.get (lo + k) = a.get (lo + k) / (n : K)) ∧
      ∀ k, (k < lo ∨ lo + t ≤ k) → b.get k = a.get k) (n := lo + n - lo)
    (f := fun i a => (fun i (a : Arr K) => (do
      let x ← a.read i
      a.write i (x / ((lo + n - lo : Nat) : K)) : Option (Arr K))) (lo + i) a) (s := a)
    ⟨rfl, fun k hk => absurd hk (by omega), fun k _ => rfl⟩ (by
      rintro t ht b ⟨r1, r2, r3⟩
      have hl : lo + t < b.len := by omega
      refine ⟨⟨b.len, Function.update b.get (lo + t) (b.get (lo + t) / (n : K))⟩, ?_, r1, ?_, ?_⟩
      · simp [Arr.read_eq hl, Arr.write_eq _ hl]
      · intro k hk
        dsimp only
        by_cases hkt : k = t
        · subst hkt
          rw [Function.update_self, r3 _ (by omega)]
        · rw [Function.update_of_ne (by omega), r2 k (by omega)]
      · intro k hk
        dsimp only
        rw [Function.update_of_ne (by omega), r3 k (by omega)])
  exact ⟨s, e, r1, fun k hk => r2 k (by omega), fun k hk => r3 k (by omega)⟩

omit [IsStrictOrderedRing K] in
theorem layer_eq (F : Fn K) {means : Arr K} {lo n : Nat} (hn : 0 < n) {q : Arr Nat} {d : Arr K}
    (hm : lo + n ≤ means.len) (hq : lo + n ≤ q.len) (hd : lo + n ≤ d.len) :
    ∃ q' d', layer F means lo (lo + n) (q, d) = some (q', d') ∧ q'.len = q.len ∧ d'.len = d.len ∧
      (∀ k, k < n → d'.get (lo + k) = d.get (lo + k) / (n : K)) ∧
      (∀ k, k < n → q'.get (lo + k) =
        orderOf F n (fun t => means.get (lo + t)) (fun t => d'.get (lo + t)) k ∧
        orderOf F n (fun t => means.get (lo + t)) (fun t => d'.get (lo + t)) k < n) ∧
      (∀ k, (k < lo ∨ lo + n ≤ k) → q'.get k = q.get k ∧ d'.get k = d.get k) := by
  obtain ⟨⟨q1, d1⟩, e, r1, r2, r3, r4⟩ := loop_inv (fun t (b : Arr Nat × Arr K) => b.1.len = q.len ∧
      b.2.len = d.len ∧
      (∀ k, k < t → b.1.get (lo + k) = k ∧ b.2.get (lo + k) = d.get (lo + k) / (n : K)) ∧
      ∀ k, (k < lo ∨ lo + t ≤ k) → b.1.get k = q.get k ∧ b.2.get k = d.get k) (n := lo + n - lo)
    (f := fun i a => (fun i (s : Arr Nat × Arr K) => (do
      let q ← s.1.write i (i - lo)
      let x ← s.2.read i
      let d ← s.2.write i (x / ((lo + n - lo : Nat) : K))
      some (q, d) : Option (Arr Nat × Arr K))) (lo + i) a) (s := (q, d))
    ⟨rfl, rfl, fun k hk => absurd hk (by omega), fun k _ => ⟨rfl, rfl⟩⟩ (by
      rintro t ht ⟨b, c⟩ ⟨r1, r2, r3, r4⟩
      dsimp only at r1 r2 r3 r4
      have hl : lo + t < b.len := by omega
      have hl2 : lo + t < c.len := by omega
      refine ⟨(⟨b.len, Function.update b.get (lo + t) t⟩,
        ⟨c.len, Function.update c.get (lo + t) (c.get (lo + t) / (n : K))⟩), ?_, r1, r2, ?_, ?_⟩
      · simp [Arr.read_eq hl2, Arr.write_eq _ hl, Arr.write_eq _ hl2]
      · intro k hk
        dsimp only
        by_cases hkt : k = t
        · subst hkt
          rw [Function.update_self, Function.update_self, (r4 _ (by omega)).2]
          exact ⟨rfl, rfl⟩
        · rw [Function.update_of_ne (by omega), Function.update_of_ne (by omega)]
          exact r3 k (by omega)
      · intro k hk
        dsimp only
        rw [Function.update_of_ne (by omega), Function.update_of_ne (by omega)]
        exact r4 k (by omega))
  dsimp only at r1 r2 r3 r4
  obtain ⟨q', e2, s1, s2, s3, s4⟩ := getSorted_eq F (means := means) (std := d1) (off := lo) (n := n) (q := q1)
    hm (by omega) (by omega)
  have e' : loopFrom lo (lo + n) (fun i (s : Arr Nat × Arr K) => (do
      let q ← s.1.write i (i - lo)
      let x ← s.2.read i
      let d ← s.2.write i (x / ((lo + n - lo : Nat) : K))
      some (q, d) : Option (Arr Nat × Arr K))) (q, d) = some (q1, d1) := e
  refine ⟨q', d1, ?_, by omega, r2, fun k hk => (r3 k (by omega)).2, ?_, ?_⟩
  · unfold layer
    rw [e']
    simp only [Option.bind_eq_bind, Option.bind_some]
    rw [if_pos (by omega), Nat.add_sub_cancel_left, e2]
    rfl
  · intro k hk
    rw [s3 k hk]
    exact ⟨(r3 _ (by have := s2 k hk; omega)).1, s2 k hk⟩
  · intro k hk
    rw [s4 k hk]
    exact r4 k (by omega)

omit [IsStrictOrderedRing K] in
theorem orderOf_ext (F : Fn K) {n : Nat} {μ μ' s s' : Nat → K} (h : ∀ k, k < n → μ k = μ' k)
    (hs : ∀ k, k < n → s k = s' k) : orderOf F n μ s = orderOf F n μ' s' := by
  obtain ⟨t, e, _⟩ := visits_perm (n := n) (above F μ' s')
  have en : ∀ a b, a < n → b < n → entry F μ s a b = entry F μ' s' a b := by
    intro a b ha hb
    rw [entry, entry, h a ha, h b hb, hs a ha, hs b hb]
  rw [orderOf_congr F (above F μ' s') (fun a b ha hb _ => by
    rw [above, above, en a b ha hb, en b a hb ha]) e, orderOf, e]
  rfl

omit [IsStrictOrderedRing K] in
/-- The new index of every layer. -/
theorem readapt_eq (F : Fn K) {sizes : List Nat} {vals : Arr (Arr K)} {m : Nat} {index : Arr Nat}
    (hv : Rows m sizes.sum vals) (hq : index.len = sizes.sum) :
    ∃ q, readapt F sizes vals m sizes.sum index = some q ∧ q.len = sizes.sum ∧
      ∀ o n, IsLayer sizes o n → ∀ k, k < n →
        q.get (o + k) = orderOf F n (fun t => meanOf (fun j i => (vals.get j).get i) m n (o + t))
          (fun t => stdOf (fun j i => (vals.get j).get i) m n (o + t)) k ∧ q.get (o + k) < n := by
  obtain ⟨a, e1, l1, v1⟩ := sums_eq hv
  obtain ⟨means, e2, ⟨l2, -⟩, v2⟩ := walk_layers (sizes := sizes) (f := divide)
    (fun s (b : Arr K) => b.len = sizes.sum ∧ ∀ k, s ≤ k → b.get k = a.get k)
    (fun o n b => ∀ k, k < n → b.get (o + k) = meanOf (fun j i => (vals.get j).get i) m n (o + k))
    (st := a) ⟨l1, fun k _ => rfl⟩ (by
      rintro o n hl hn b ⟨r1, r2⟩ -
      have hle := layer_le hl
      obtain ⟨b', e, s1, s2, s3⟩ := divide_eq (lo := o) (n := n) (a := b) (by omega)
      refine ⟨b', e, ⟨by omega, fun k hk => by rw [s3 k (by omega), r2 k (by omega)]⟩, ?_, ?_⟩
      · intro k hk
        rw [s2 k hk, r2 _ (by omega), v1 _ (by omega), meanOf]
      · intro o' n' _ hle' hQ k hk
        rw [s3 _ (by omega)]
        exact hQ k hk) (fun o b k hk => absurd hk (by omega)) (by
      rintro b -
      simp [divide, loopFrom, loop])
  obtain ⟨std, e3, l3, v3⟩ := squares_eq hv l2
  obtain ⟨⟨q, d⟩, e4, ⟨l4, l5, -⟩, v4⟩ := walk_layers (sizes := sizes) (f := layer F means)
    (fun s (b : Arr Nat × Arr K) => b.1.len = sizes.sum ∧ b.2.len = sizes.sum ∧
      ∀ k, s ≤ k → b.2.get k = std.get k)
    (fun o n b => ∀ k, k < n →
        b.1.get (o + k) = orderOf F n (fun t => meanOf (fun j i => (vals.get j).get i) m n (o + t))
          (fun t => stdOf (fun j i => (vals.get j).get i) m n (o + t)) k ∧ b.1.get (o + k) < n)
    (st := (index, std)) ⟨hq, l3, fun k _ => rfl⟩ (by
      rintro o n hl hn ⟨b, c⟩ ⟨r1, r2, r3⟩ -
      have hle := layer_le hl
      dsimp only at r1 r2 r3
      obtain ⟨q', d', e, s1, s2, s3, s4, s5⟩ := layer_eq F (means := means) (lo := o) hn (q := b) (d := c)
        (by omega) (by omega) (by omega)
      refine ⟨(q', d'), e, ⟨by dsimp only; omega, by dsimp only; omega,
        fun k hk => by dsimp only; rw [(s5 k (by omega)).2, r3 k (by omega)]⟩, ?_, ?_⟩
      · intro k hk
        dsimp only
        obtain ⟨h1, h2⟩ := s4 k hk
        have hx := orderOf_ext F (n := n) (μ := fun t => means.get (o + t)) (s := fun t => d'.get (o + t))
          (μ' := fun t => meanOf (fun j i => (vals.get j).get i) m n (o + t))
          (s' := fun t => stdOf (fun j i => (vals.get j).get i) m n (o + t))
          (fun t ht => v2 o n hl t ht) (fun t ht => by
            rw [s3 t ht, r3 _ (by omega), v3 _ (by omega), v2 o n hl t ht, stdOf])
        rw [hx] at h1 h2
        rw [h1]
        exact ⟨rfl, h2⟩
      · intro o' n' _ hle' hQ k hk
        dsimp only
        rw [(s5 _ (by omega)).1]
        exact hQ k hk) (fun o b k hk => absurd hk (by omega)) (by
      rintro b -
      simp [layer, loopFrom, loop])
  refine ⟨q, ?_, l4, v4⟩
  unfold readapt
  simp only [e1, e2, e3, e4, Option.bind_eq_bind, Option.bind_some]

omit [LinearOrder K] [IsStrictOrderedRing K] in
theorem setScores_eq {v2 : Arr Nat} {step : K} {lo n : Nat} {v1 : Arr K} (h1 : lo + n ≤ v1.len)
    (h2 : lo + n ≤ v2.len) (hlt : ∀ k, k < n → v2.get (lo + k) < n)
    (hinj : ∀ a b, a < n → b < n → v2.get (lo + a) = v2.get (lo + b) → a = b) :
    ∃ v, setScores v2 step lo (lo + n) v1 = some v ∧ v.len = v1.len ∧
      (∀ k, k < n → v.get (lo + v2.get (lo + k)) = (k : K) * step) ∧
      ∀ k, (k < lo ∨ lo + n ≤ k) → v.get k = v1.get k := by
  obtain ⟨s, e, r1, r2, r3⟩ := loop_inv (fun t (b : Arr K) => b.len = v1.len ∧
      (∀ k, k < t → b.get (lo + v2.get (lo + k)) = (k : K) * step) ∧
      ∀ k, (k < lo ∨ lo + n ≤ k) → b.get k = v1.get k) (n := lo + n - lo)
    (f := fun i v1 => (do
      let t ← v2.read (lo + i)
      v1.write (lo + t) ((i : K) * step) : Option (Arr K))) (s := v1)
    ⟨rfl, fun k hk => absurd hk (by omega), fun k _ => rfl⟩ (by
      rintro t ht b ⟨r1, r2, r3⟩
      have hv := hlt t (by omega)
      have hl : lo + v2.get (lo + t) < b.len := by omega
      refine ⟨⟨b.len, Function.update b.get (lo + v2.get (lo + t)) ((t : K) * step)⟩, ?_, r1, ?_, ?_⟩
      · simp [Arr.read_eq (show lo + t < v2.len by omega), Arr.write_eq _ hl]
      · intro k hk
        dsimp only
        by_cases hkt : k = t
        · subst hkt
          rw [Function.update_self]
        · rw [Function.update_of_ne, r2 k (by omega)]
          intro hh
          exact hkt (hinj k t (by omega) (by omega) (by omega))
      · intro k hk
        dsimp only
        rw [Function.update_of_ne (by omega), r3 k hk])
  exact ⟨s, e, r1, fun k hk => r2 k (by omega), r3⟩

theorem spreadRows_eq {α : Type} {m N : Nat} {a : Arr (Arr α)} (hm : 0 < m) (h : Rows m N a) :
    ∃ b, spreadRows m N a = some b ∧ Rows m N b ∧ b.get 0 = a.get 0 ∧
      ∀ j, j < m → ∀ k, k < N → (b.get j).get k = (a.get 0).get k := by
  obtain ⟨s, e, r1, r2, r3, r4⟩ := loop_inv (fun t (b : Arr (Arr α)) => b.len = m ∧
      (∀ j, j < m → (b.get j).len = N) ∧ b.get 0 = a.get 0 ∧
      ∀ j, j < 1 + t → ∀ k, k < N → (b.get j).get k = (a.get 0).get k) (n := m - 1)
    (f := fun i a => (fun i (a : Arr (Arr α)) => (do
      let s ← a.read 0
      let d ← a.read i
      let r ← copyRow s d N
      a.write i r : Option (Arr (Arr α)))) (1 + i) a) (s := a)
    ⟨h.1, h.2, rfl, fun j hj k _ => by have : j = 0 := by omega
                                       subst this; rfl⟩ (by
      rintro t ht b ⟨r1, r2, r3, r4⟩
      have l0 : 0 < b.len := by omega
      have l1 : 1 + t < b.len := by omega
      refine ⟨⟨b.len, Function.update b.get (1 + t) ⟨N, fun k => if k < N then (b.get 0).get k
        else (b.get (1 + t)).get k⟩⟩, ?_, r1, ?_, ?_, ?_⟩
      · simp only [Arr.read_eq l0, Arr.read_eq l1, Option.bind_eq_bind, Option.bind_some]
        rw [copyRow, if_pos ⟨(r2 0 (by omega)).ge, (r2 (1 + t) (by omega)).ge⟩, Option.bind_some,
          Arr.write_eq _ l1, r2 (1 + t) (by omega)]
      · intro j hj
        dsimp only
        by_cases hjt : j = 1 + t
        · subst hjt; rw [Function.update_self]
        · rw [Function.update_of_ne hjt]; exact r2 j hj
      · dsimp only
        rw [Function.update_of_ne (by omega)]; exact r3
      · intro j hj k hk
        dsimp only
        by_cases hjt : j = 1 + t
        · subst hjt
          rw [Function.update_self]
          dsimp only
          rw [if_pos hk, r3]
        · rw [Function.update_of_ne hjt]
          exact r4 j (by omega) k hk)
  exact ⟨s, e, ⟨r1, r2⟩, r3, fun j hj k hk => r4 j (by omega) k hk⟩

omit [IsStrictOrderedRing K] in
/-- Both versions: the result in terms of the values that decide the order. -/
theorem finish_eq (F : Fn K) {sizes : List Nat} {m : Nat} (step : K) {vals : Arr (Arr K)}
    {indices : Arr (Arr Nat)} {scores : Arr (Arr K)} (hm : 0 < m) (hv : Rows m sizes.sum vals)
    (hi : Rows m sizes.sum indices) (hs : Rows m sizes.sum scores) :
    ∃ indices' scores', finish F sizes m sizes.sum step vals indices scores = some (indices', scores') ∧
      Rows m sizes.sum indices' ∧ Rows m sizes.sum scores' ∧
      (∀ j, j < m → ∀ k, k < sizes.sum → (indices'.get j).get k = (indices'.get 0).get k ∧
        (scores'.get j).get k = (scores'.get 0).get k) ∧
      ∀ o n, IsLayer sizes o n → ∀ k, k < n →
        (indices'.get 0).get (o + k) = orderOf F n (fun t => meanOf (fun j i => (vals.get j).get i) m n (o + t))
          (fun t => stdOf (fun j i => (vals.get j).get i) m n (o + t)) k ∧
        (indices'.get 0).get (o + k) < n ∧
        (scores'.get 0).get (o + (indices'.get 0).get (o + k)) = (k : K) * step := by
  obtain ⟨q, e1, lq, vq⟩ := readapt_eq F hv (hi.2 0 hm)
  have hinj : ∀ o n, IsLayer sizes o n → ∀ a b, a < n → b < n → q.get (o + a) = q.get (o + b) → a = b := by
    intro o n hl a b ha hb hab
    rw [(vq o n hl a ha).1, (vq o n hl b hb).1] at hab
    exact orderOf_inj F n _ _ hab
  obtain ⟨s0, e2, l2, v2⟩ := walk_layers (sizes := sizes) (f := setScores q step)
    (fun _ (b : Arr K) => b.len = sizes.sum)
    (fun o n b => ∀ k, k < n → b.get (o + q.get (o + k)) = (k : K) * step)
    (st := scores.get 0) (hs.2 0 hm) (by
      rintro o n hl hn b r1 -
      have hle := layer_le hl
      obtain ⟨b', e, s1, s2, s3⟩ := setScores_eq (v2 := q) (step := step) (lo := o) (n := n) (v1 := b) (by omega)
        (by omega) (fun k hk => (vq o n hl k hk).2) (hinj o n hl)
      refine ⟨b', e, by omega, s2, ?_⟩
      intro o' n' hl' hle' hQ k hk
      have := (vq o' n' hl' k hk).2
      rw [s3 _ (by omega)]
      exact hQ k hk) (fun o b k hk => absurd hk (by omega)) (by
      rintro b -
      simp [setScores, loop])
  obtain ⟨sc, e3, r3, z3, c3⟩ := spreadRows_eq (a := ⟨scores.len, Function.update scores.get 0 s0⟩) (N := sizes.sum)
    hm ⟨hs.1, fun j hj => by
      dsimp only
      by_cases h : j = 0
      · subst h; rw [Function.update_self]; exact l2
      · rw [Function.update_of_ne h]; exact hs.2 j hj⟩
  obtain ⟨ix, e4, r4, z4, c4⟩ := spreadRows_eq (a := ⟨indices.len, Function.update indices.get 0 q⟩) (N := sizes.sum)
    hm ⟨hi.1, fun j hj => by
      dsimp only
      by_cases h : j = 0
      · subst h; rw [Function.update_self]; exact lq
      · rw [Function.update_of_ne h]; exact hi.2 j hj⟩
  dsimp only at z3 z4
  rw [Function.update_self] at z3 z4
  refine ⟨ix, sc, ?_, r4, r3, ?_, ?_⟩
  · unfold finish
    have l0 : 0 < indices.len := by rw [hi.1]; exact hm
    have l1 : 0 < scores.len := by rw [hs.1]; exact hm
    simp only [Arr.read_eq l0, Arr.read_eq l1, Option.bind_eq_bind, Option.bind_some, e1, Arr.write_eq _ l0,
      e2, Arr.write_eq _ l1, e3, e4]
  · intro j hj k hk
    rw [c4 j hj k hk, c3 j hj k hk, c4 0 hm k hk, c3 0 hm k hk]
    exact ⟨rfl, rfl⟩
  · intro o n hl k hk
    rw [z4, z3]
    exact ⟨(vq o n hl k hk).1, (vq o n hl k hk).2, v2 o n hl k hk⟩

/-! ### C151 -/

/-- The outcome promised for a set of networks: all networks hold the same indices and scores, the indices of
every layer are a permutation of its positions, and the scores follow them in steps. -/
def Agreed (sizes : List Nat) (m : Nat) (step : K) (indices : Arr (Arr Nat)) (scores : Arr (Arr K)) : Prop :=
  Rows m sizes.sum indices ∧ Rows m sizes.sum scores ∧
  (∀ j, j < m → ∀ k, k < sizes.sum → (indices.get j).get k = (indices.get 0).get k ∧
    (scores.get j).get k = (scores.get 0).get k) ∧
  ∀ o n, IsLayer sizes o n →
    (∀ k, k < n → (indices.get 0).get (o + k) < n) ∧
    (∀ a b, a < n → b < n → (indices.get 0).get (o + a) = (indices.get 0).get (o + b) → a = b) ∧
    ∀ k, k < n → (scores.get 0).get (o + (indices.get 0).get (o + k)) = (k : K) * step

omit [IsStrictOrderedRing K] in
/-- C151 (by indices): the networks agree afterwards, for all layers, networks, values and library functions. -/
theorem C151_agreed (F : Fn K) (sizes : List Nat) (m : Nat) (step : K) (indices : Arr (Arr Nat))
    (scores : Arr (Arr K)) (hm : 0 < m) (hi : Rows m sizes.sum indices) (hs : Rows m sizes.sum scores) :
    ∃ indices' scores', readapter F sizes m sizes.sum step indices scores = some (indices', scores') ∧
      Agreed sizes m step indices' scores' := by
  obtain ⟨ix, sc, e, r1, r2, r3, r4⟩ := finish_eq F step (vals := asFloat indices) hm ⟨hi.1, hi.2⟩ hi hs
  refine ⟨ix, sc, e, r1, r2, r3, fun o n hl => ⟨fun k hk => (r4 o n hl k hk).2.1, ?_,
    fun k hk => (r4 o n hl k hk).2.2⟩⟩
  intro a b ha hb hab
  rw [(r4 o n hl a ha).1, (r4 o n hl b hb).1] at hab
  exact orderOf_inj F n _ _ hab

omit [IsStrictOrderedRing K] in
/-- C151 (by scores): the same for the version that orders by the scores. -/
theorem C151_agreed_float (F : Fn K) (sizes : List Nat) (m : Nat) (step : K) (indices : Arr (Arr Nat))
    (scores : Arr (Arr K)) (hm : 0 < m) (hi : Rows m sizes.sum indices) (hs : Rows m sizes.sum scores) :
    ∃ indices' scores', readapterFloat F sizes m sizes.sum step indices scores = some (indices', scores') ∧
      Agreed sizes m step indices' scores' := by
  obtain ⟨ix, sc, e, r1, r2, r3, r4⟩ := finish_eq F step (vals := scores) hm hs hi hs
  refine ⟨ix, sc, e, r1, r2, r3, fun o n hl => ⟨fun k hk => (r4 o n hl k hk).2.1, ?_,
    fun k hk => (r4 o n hl k hk).2.2⟩⟩
  intro a b ha hb hab
  rw [(r4 o n hl a ha).1, (r4 o n hl b hb).1] at hab
  exact orderOf_inj F n _ _ hab

/-- The scores of the networks as a table. -/
abbrev scoreOf (scores : Arr (Arr K)) : Nat → Nat → K := fun j i => (scores.get j).get i

omit [IsStrictOrderedRing K] in
/-- The order found for a layer, read from the result of the version by scores. -/
theorem order_of_run (F : Fn K) {sizes : List Nat} {m : Nat} {step : K} {indices indices' : Arr (Arr Nat)}
    {scores scores' : Arr (Arr K)} (hm : 0 < m) (hi : Rows m sizes.sum indices) (hs : Rows m sizes.sum scores)
    (h : readapterFloat F sizes m sizes.sum step indices scores = some (indices', scores')) {o n : Nat}
    (hl : IsLayer sizes o n) {k : Nat} (hk : k < n) :
    (indices'.get 0).get (o + k) = orderOf F n (fun t => meanOf (scoreOf scores) m n (o + t))
      (fun t => stdOf (scoreOf scores) m n (o + t)) k := by
  obtain ⟨ix, sc, e, _, _, _, r4⟩ := finish_eq F step (vals := scores) hm hs hi hs
  have e' : readapterFloat F sizes m sizes.sum step indices scores = some (ix, sc) := e
  rw [h] at e'
  obtain ⟨rfl, rfl⟩ := Prod.mk.inj (Option.some.inj e')
  exact (r4 o n hl k hk).1

theorem meanOf_le {v : Nat → Nat → K} {m n i j : Nat} (hn : 0 < n) :
    meanOf v m n i ≤ meanOf v m n j ↔ total v m i ≤ total v m j := by
  have : (0 : K) < n := by exact_mod_cast hn
  simp only [meanOf]
  exact div_le_div_iff_of_pos_right this

/-- The order seen on positions `a < b` of a layer. -/
theorem above_total {F : Fn K} (hF : Good F) {v : Nat → Nat → K} {m o n a b : Nat} (hn : 0 < n)
    (ha : 0 < stdOf v m n (o + a)) (hb : 0 < stdOf v m n (o + b)) (hab : a < b) :
    (above F (fun t => meanOf v m n (o + t)) (fun t => stdOf v m n (o + t)) a b =
      decide (total v m (o + b) ≤ total v m (o + a))) ∧
    (above F (fun t => meanOf v m n (o + t)) (fun t => stdOf v m n (o + t)) b a =
      decide (total v m (o + a) < total v m (o + b))) := by
  obtain ⟨h1, h2⟩ := above_iff hF (μ := fun t => meanOf v m n (o + t)) (s := fun t => stdOf v m n (o + t)) ha hb hab
  refine ⟨?_, ?_⟩
  · rw [Bool.eq_iff_iff, h1, decide_eq_true_eq]
    exact meanOf_le hn
  · rw [Bool.eq_iff_iff, h2, decide_eq_true_eq, lt_iff_not_ge, lt_iff_not_ge]
    exact not_congr (meanOf_le hn)

/-- C151 (order, partial): in a layer of two scores the larger total comes first. Missing: layers of other
sizes, where the claim is refuted below. -/
theorem C151_pair_partial (F : Fn K) (hF : Good F) (sizes : List Nat) (m : Nat) (step : K)
    (indices indices' : Arr (Arr Nat)) (scores scores' : Arr (Arr K)) (hm : 0 < m)
    (hi : Rows m sizes.sum indices) (hs : Rows m sizes.sum scores)
    (h : readapterFloat F sizes m sizes.sum step indices scores = some (indices', scores')) (o : Nat)
    (hl : IsLayer sizes o 2) (hd : ∀ k, k < 2 → 0 < stdOf (scoreOf scores) m 2 (o + k)) :
    Decreasing (scoreOf scores) m o 2 (indices'.get 0).get := by
  have run := fun k hk => order_of_run F hm hi hs h hl (k := k) hk
  obtain ⟨a1, a2⟩ := above_total hF (m := m) (v := scoreOf scores) (o := o) (n := 2) (by omega)
    (hd 0 (by omega)) (hd 1 (by omega)) (show 0 < 1 by omega)
  intro k hk
  obtain rfl : k = 0 := by omega
  rw [run 0 (by omega), run (0 + 1) (by omega)]
  by_cases hc : total (scoreOf scores) m (o + 0) < total (scoreOf scores) m (o + 1)
  · have := orderOf_congr F (n := 2) (μ := fun t => meanOf (scoreOf scores) m 2 (o + t))
      (s := fun t => stdOf (scoreOf scores) m 2 (o + t)) (fun a b => decide (b < a)) (by
        intro a b ha hb hab
        have : (a = 0 ∧ b = 1) ∨ (a = 1 ∧ b = 0) := by omega
        rcases this with ⟨rfl, rfl⟩ | ⟨rfl, rfl⟩
        · rw [a1]; simpa using hc
        · rw [a2]; simpa using hc) (t := ((visits 2 (fun a b => decide (b < a), id)).getD (fun _ _ => false, id)))
      rfl
    rw [this]
    exact le_of_lt hc
  · have := orderOf_congr F (n := 2) (μ := fun t => meanOf (scoreOf scores) m 2 (o + t))
      (s := fun t => stdOf (scoreOf scores) m 2 (o + t)) (fun a b => decide (a < b)) (by
        intro a b ha hb hab
        have : (a = 0 ∧ b = 1) ∨ (a = 1 ∧ b = 0) := by omega
        rcases this with ⟨rfl, rfl⟩ | ⟨rfl, rfl⟩
        · rw [a1]; simpa using hc
        · rw [a2]; simpa using hc) (t := ((visits 2 (fun a b => decide (a < b), id)).getD (fun _ _ => false, id)))
      rfl
    rw [this]
    exact not_lt.mp hc

/-- C151 (order, partial): a layer of any size whose totals increase strictly is turned into decreasing order.
Missing: layers in another order, where the claim is refuted below. -/
theorem C151_increasing_partial (F : Fn K) (hF : Good F) (sizes : List Nat) (m : Nat) (step : K)
    (indices indices' : Arr (Arr Nat)) (scores scores' : Arr (Arr K)) (hm : 0 < m)
    (hi : Rows m sizes.sum indices) (hs : Rows m sizes.sum scores)
    (h : readapterFloat F sizes m sizes.sum step indices scores = some (indices', scores')) (o n : Nat)
    (hl : IsLayer sizes o n) (hd : ∀ k, k < n → 0 < stdOf (scoreOf scores) m n (o + k))
    (hinc : ∀ a b, a < b → b < n → total (scoreOf scores) m (o + a) < total (scoreOf scores) m (o + b)) :
    Decreasing (scoreOf scores) m o n (indices'.get 0).get := by
  have run := fun k hk => order_of_run F hm hi hs h hl (k := k) hk
  obtain ⟨t, e, ht⟩ := visits_rev n
  have := orderOf_congr F (n := n) (μ := fun t => meanOf (scoreOf scores) m n (o + t))
      (s := fun t => stdOf (scoreOf scores) m n (o + t)) (fun a b => decide (b < a)) (by
        intro a b ha hb hab
        rcases Nat.lt_or_gt_of_ne hab with hh | hh
        · rw [(above_total hF (by omega) (hd a ha) (hd b hb) hh).1]
          simp [hinc a b hh hb, show ¬ b < a by omega]
        · rw [(above_total hF (by omega) (hd b hb) (hd a ha) hh).2]
          simp [hinc b a hh ha, hh]) e
  intro k hk
  rw [run k (by omega), run (k + 1) hk, this, ht k (by omega), ht (k + 1) hk]
  exact le_of_lt (hinc _ _ (by omega) (by omega))

/-- C151 (order, refuted): a layer of four scores whose totals already decrease strictly is never listed in
decreasing order; position two comes first. -/
theorem C151_sorted_refuted (F : Fn K) (hF : Good F) (sizes : List Nat) (m : Nat) (step : K)
    (indices indices' : Arr (Arr Nat)) (scores scores' : Arr (Arr K)) (hm : 0 < m)
    (hi : Rows m sizes.sum indices) (hs : Rows m sizes.sum scores)
    (h : readapterFloat F sizes m sizes.sum step indices scores = some (indices', scores')) (o : Nat)
    (hl : IsLayer sizes o 4) (hd : ∀ k, k < 4 → 0 < stdOf (scoreOf scores) m 4 (o + k))
    (hdec : ∀ a b, a < b → b < 4 → total (scoreOf scores) m (o + b) < total (scoreOf scores) m (o + a)) :
    (indices'.get 0).get o = 2 ∧ (indices'.get 0).get (o + 1) = 0 ∧
      ¬ Decreasing (scoreOf scores) m o 4 (indices'.get 0).get := by
  have run := fun k hk => order_of_run F hm hi hs h hl (k := k) hk
  have := orderOf_congr F (n := 4) (μ := fun t => meanOf (scoreOf scores) m 4 (o + t))
      (s := fun t => stdOf (scoreOf scores) m 4 (o + t)) (fun a b => decide (a < b)) (by
        intro a b ha hb hab
        rcases Nat.lt_or_gt_of_ne hab with hh | hh
        · rw [(above_total hF (by omega) (hd a ha) (hd b hb) hh).1]
          simp [le_of_lt (hdec a b hh hb), hh]
        · rw [(above_total hF (by omega) (hd b hb) (hd a ha) hh).2]
          simp [le_of_lt (hdec b a hh ha), show ¬ a < b by omega])
      (t := ((visits 4 (fun a b => decide (a < b), id)).getD (fun _ _ => false, id))) rfl
  have r0 : (indices'.get 0).get (o + 0) = 2 := by rw [run 0 (by omega), this]; decide
  have r1 : (indices'.get 0).get (o + 1) = 0 := by rw [run 1 (by omega), this]; decide
  refine ⟨r0, r1, fun hdc => ?_⟩
  have := hdc 0 (by omega)
  rw [r0, show o + (0 + 1) = o + 1 from rfl, r1] at this
  have := hdec 0 2 (by omega) (by omega)
  linarith

/-- C151 (order, refuted): a layer of three scores whose totals are low, high, middle is never listed in
decreasing order: the highest total comes last. -/
theorem C151_three_refuted (F : Fn K) (hF : Good F) (sizes : List Nat) (m : Nat) (step : K)
    (indices indices' : Arr (Arr Nat)) (scores scores' : Arr (Arr K)) (hm : 0 < m)
    (hi : Rows m sizes.sum indices) (hs : Rows m sizes.sum scores)
    (h : readapterFloat F sizes m sizes.sum step indices scores = some (indices', scores')) (o : Nat)
    (hl : IsLayer sizes o 3) (hd : ∀ k, k < 3 → 0 < stdOf (scoreOf scores) m 3 (o + k))
    (h1 : total (scoreOf scores) m (o + 0) < total (scoreOf scores) m (o + 2))
    (h2 : total (scoreOf scores) m (o + 2) < total (scoreOf scores) m (o + 1)) :
    (indices'.get 0).get (o + 2) = 1 ∧ ¬ Decreasing (scoreOf scores) m o 3 (indices'.get 0).get := by
  have run := fun k hk => order_of_run F hm hi hs h hl (k := k) hk
  have a01 := above_total hF (m := m) (v := scoreOf scores) (o := o) (n := 3) (by omega)
    (hd 0 (by omega)) (hd 1 (by omega)) (show 0 < 1 by omega)
  have a02 := above_total hF (m := m) (v := scoreOf scores) (o := o) (n := 3) (by omega)
    (hd 0 (by omega)) (hd 2 (by omega)) (show 0 < 2 by omega)
  have a12 := above_total hF (m := m) (v := scoreOf scores) (o := o) (n := 3) (by omega)
    (hd 1 (by omega)) (hd 2 (by omega)) (show 1 < 2 by omega)
  have this := orderOf_congr F (n := 3) (μ := fun t => meanOf (scoreOf scores) m 3 (o + t))
      (s := fun t => stdOf (scoreOf scores) m 3 (o + t))
      (fun a b => decide ((a = 1 ∧ b = 0) ∨ (a = 2 ∧ b = 0) ∨ (a = 1 ∧ b = 2))) (by
        intro a b ha hb hab
        have : (a = 0 ∧ b = 1) ∨ (a = 1 ∧ b = 0) ∨ (a = 0 ∧ b = 2) ∨ (a = 2 ∧ b = 0) ∨ (a = 1 ∧ b = 2) ∨
          (a = 2 ∧ b = 1) := by omega
        rcases this with ⟨rfl, rfl⟩ | ⟨rfl, rfl⟩ | ⟨rfl, rfl⟩ | ⟨rfl, rfl⟩ | ⟨rfl, rfl⟩ | ⟨rfl, rfl⟩
        · rw [a01.1]; exact decide_eq_false (by linarith)
        · rw [a01.2]; exact decide_eq_true (by linarith)
        · rw [a02.1]; exact decide_eq_false (by linarith)
        · rw [a02.2]; exact decide_eq_true (by linarith)
        · rw [a12.1]; exact decide_eq_true (by linarith)
        · rw [a12.2]; exact decide_eq_false (by linarith))
      (t := ((visits 3 (fun a b => decide ((a = 1 ∧ b = 0) ∨ (a = 2 ∧ b = 0) ∨ (a = 1 ∧ b = 2)), id)).getD
        (fun _ _ => false, id))) rfl
  have r1 : (indices'.get 0).get (o + 1) = 0 := by rw [run 1 (by omega), this]; decide
  have r2 : (indices'.get 0).get (o + 2) = 1 := by rw [run 2 (by omega), this]; decide
  refine ⟨r2, fun hdc => ?_⟩
  have := hdc 1 (by omega)
  rw [show o + (1 + 1) = o + 2 from rfl, r1, r2] at this
  linarith

/-- C151 (mean, refuted): what the order is computed from is the total divided by the number of scores of the
layer; it is the mean over the networks only if that number is the number of networks or the total is zero. -/
theorem C151_mean_refuted (v : Nat → Nat → K) (m n i : Nat) (hm : 0 < m) (hn : 0 < n) :
    meanOf v m n i = total v m i / (m : K) ↔ n = m ∨ total v m i = 0 := by
  have h1 : (n : K) ≠ 0 := by exact_mod_cast hn.ne'
  have h2 : (m : K) ≠ 0 := by exact_mod_cast hm.ne'
  rw [meanOf, div_eq_div_iff h1 h2]
  constructor
  · intro h
    by_cases ht : total v m i = 0
    · exact Or.inr ht
    · left
      have := mul_left_cancel₀ ht h
      exact_mod_cast this.symm
  · rintro (rfl | h)
    · rfl
    · rw [h]; ring

omit [Field K] [IsStrictOrderedRing K] in
theorem merge_none {p : Arr K} {index : Arr Nat} {n middle : Nat} (hn : 2 ≤ n) (hp : p.len = n * n)
    (hmid : middle < n - 1) : merge p index 0 middle (n - 1) n = none := by
  by_contra hne
  obtain ⟨r, hr⟩ := Option.ne_none_iff_exists'.mp hne
  unfold merge at hr
  dsimp only at hr
  obtain ⟨l, -, hr⟩ := Option.bind_eq_some_iff.mp hr
  obtain ⟨rr, -, hr⟩ := Option.bind_eq_some_iff.mp hr
  obtain ⟨s, hs, -⟩ := Option.bind_eq_some_iff.mp hr
  have hN : middle - 0 + 1 + (n - 1 - middle) = (n - 1) + 1 := by omega
  rw [hN, loop] at hs
  obtain ⟨s', hs', hlast⟩ := Option.bind_eq_some_iff.mp hs
  have hlen : s'.p.len = n * n := by
    refine loop_some (fun s : MState K => s.p.len = n * n) hp ?_ hs'
    intro t _ a b ha hb
    have wr : ∀ {i : Nat} {x : K} {w : Arr K}, a.p.write i x = some w → w.len = n * n := by
      intro i x w hw
      unfold Arr.write at hw
      split at hw
      · rw [← Option.some.inj hw]; exact ha
      · simp at hw
    split at hb
    · split at hb
      all_goals
        obtain ⟨w, hw, hb⟩ := Option.bind_eq_some_iff.mp hb
        obtain ⟨q, _, hb⟩ := Option.bind_eq_some_iff.mp hb
        rw [← Option.some.inj hb]
        exact wr hw
    · obtain ⟨w, hw, hb⟩ := Option.bind_eq_some_iff.mp hb
      obtain ⟨q, _, hb⟩ := Option.bind_eq_some_iff.mp hb
      rw [← Option.some.inj hb]
      exact wr hw
    · obtain ⟨w, hw, hb⟩ := Option.bind_eq_some_iff.mp hb
      obtain ⟨q, _, hb⟩ := Option.bind_eq_some_iff.mp hb
      rw [← Option.some.inj hb]
      exact wr hw
    · simp at hb
  obtain ⟨d, rfl⟩ : ∃ d, n = d + 1 := ⟨n - 1, by omega⟩
  have o1 : ∀ x : K, s'.p.write ((0 + (d + 1 - 1)) * (d + 1) + (0 + (d + 1 - 1)) + middle + s'.j + 1) x = none := by
    intro x
    unfold Arr.write
    rw [if_neg]
    rw [hlen]
    simp only [Nat.add_sub_cancel, Nat.zero_add]
    have : (d + 1) * (d + 1) = d * (d + 1) + (d + 1) := by ring
    omega
  have o2 : ∀ x : K, s'.p.write ((0 + (d + 1 - 1) + s'.j + 1) * (d + 1) + (d + 1 - 1)) x = none := by
    intro x
    unfold Arr.write
    rw [if_neg]
    rw [hlen]
    simp only [Nat.add_sub_cancel, Nat.zero_add]
    have : (d + s'.j + 1) * (d + 1) = (d + 1) * (d + 1) + s'.j * (d + 1) := by ring
    omega
  split at hlast
  · split at hlast
    · rw [o1] at hlast; simp at hlast
    · rw [o2] at hlast; simp at hlast
  · rw [o1] at hlast; simp at hlast
  · rw [o2] at hlast; simp at hlast
  · simp at hlast

omit [Field K] [IsStrictOrderedRing K] in
theorem mergeSort_len {fuel : Nat} : ∀ {p : Arr K} {index : Arr Nat} {l r n : Nat} {s : Arr K × Arr Nat},
    mergeSort fuel p index l r n = some s → s.1.len = p.len := by
  induction fuel with
  | zero => intro p index l r n s h; simp [mergeSort] at h
  | succ fuel ih =>
    intro p index l r n s h
    rw [mergeSort] at h
    split at h
    · obtain ⟨s1, h1, h⟩ := Option.bind_eq_some_iff.mp h
      obtain ⟨s2, h2, h⟩ := Option.bind_eq_some_iff.mp h
      rw [← ih h1, ← ih h2]
      unfold merge at h
      dsimp only at h
      obtain ⟨_, -, h⟩ := Option.bind_eq_some_iff.mp h
      obtain ⟨_, -, h⟩ := Option.bind_eq_some_iff.mp h
      obtain ⟨t, ht, h⟩ := Option.bind_eq_some_iff.mp h
      rw [← Option.some.inj h]
      refine loop_some (fun s : MState K => s.p.len = s2.1.len) rfl ?_ ht
      intro t _ a b ha hb
      have wr : ∀ {i : Nat} {x : K} {w : Arr K}, a.p.write i x = some w → w.len = s2.1.len := by
        intro i x w hw
        unfold Arr.write at hw
        split at hw
        · rw [← Option.some.inj hw]; exact ha
        · simp at hw
      split at hb
      · split at hb
        all_goals
          obtain ⟨w, hw, hb⟩ := Option.bind_eq_some_iff.mp hb
          obtain ⟨q, _, hb⟩ := Option.bind_eq_some_iff.mp hb
          rw [← Option.some.inj hb]
          exact wr hw
      · obtain ⟨w, hw, hb⟩ := Option.bind_eq_some_iff.mp hb
        obtain ⟨q, _, hb⟩ := Option.bind_eq_some_iff.mp hb
        rw [← Option.some.inj hb]
        exact wr hw
      · obtain ⟨w, hw, hb⟩ := Option.bind_eq_some_iff.mp hb
        obtain ⟨q, _, hb⟩ := Option.bind_eq_some_iff.mp hb
        rw [← Option.some.inj hb]
        exact wr hw
      · simp at hb
    · rw [← Option.some.inj h]

omit [Field K] [IsStrictOrderedRing K] in
/-- C151 (merge sort, refuted): the exported merge sort leaves the table of `n * n` numbers for every `n` of at
least two, every table and every index. -/
theorem C151_merge_sort_refuted (fuel n : Nat) (p : Arr K) (index : Arr Nat) (hn : 2 ≤ n)
    (hp : p.len = n * n) : mergeSort fuel p index 0 (n - 1) n = none := by
  cases fuel with
  | zero => rfl
  | succ fuel =>
    rw [mergeSort, if_pos (by omega)]
    cases h1 : mergeSort fuel p index 0 (0 + (n - 1 - 0) / 2) n with
    | none => rfl
    | some s1 =>
      simp only [Option.bind_eq_bind, Option.bind_some]
      cases h2 : mergeSort fuel s1.1 s1.2 (0 + (n - 1 - 0) / 2 + 1) (n - 1) n with
      | none => rfl
      | some s2 =>
        simp only [Option.bind_some]
        refine merge_none hn ?_ (by omega)
        rw [mergeSort_len h2, mergeSort_len h1, hp]

/-- A single score is left alone: the recursion itself stops. -/
example : mergeSort 1 (⟨1, fun _ => 0⟩ : Arr ℚ) ⟨1, fun _ => 0⟩ 0 0 1 = some (⟨1, fun _ => 0⟩, ⟨1, fun _ => 0⟩) := rfl

/-! ### The hypotheses are met -/

/-- A function with the stated properties of `erf`, with the square root. -/
noncomputable def sample : Fn ℝ := ⟨fun x => x / (1 + |x|), Real.sqrt⟩

theorem sample_good : Good sample where
  odd x := by simp [sample, abs_neg, neg_div]
  pos x hx := by
    have : 0 < 1 + |x| := by positivity
    exact div_pos hx this
  lt x hx := by
    show x / (1 + |x|) < 1
    rw [abs_of_pos hx, div_lt_one (by linarith)]
    linarith
  sqrt_pos x hx := Real.sqrt_pos.2 hx

/-- Two networks with one layer of four scores: totals 16, 12, 8, 4, all spread. -/
noncomputable def four : Arr (Arr ℝ) := ⟨2, fun j => ⟨4, fun i => if j = 0 then 0 else 16 - 4 * i⟩⟩

/-- Two networks with one layer of three scores: totals 3, 9, 6. -/
noncomputable def three : Arr (Arr ℝ) := ⟨2, fun j => ⟨3, fun i => if j = 0 then 0 else if i = 0 then 3 else if i = 1 then 9 else 6⟩⟩

/-- Two networks with one layer of two scores: totals 2, 4. -/
noncomputable def two : Arr (Arr ℝ) := ⟨2, fun j => ⟨2, fun i => if j = 0 then 0 else 2 + 2 * i⟩⟩

/-- Indices to be overwritten. -/
def zeros (N : Nat) : Arr (Arr Nat) := ⟨2, fun _ => ⟨N, fun _ => 0⟩⟩

theorem single (n : Nat) : IsLayer [n] 0 n := ⟨0, by simp, by simp, by simp⟩

example : ∃ indices' scores', readapterFloat sample [4] 2 4 1 (zeros 4) four = some (indices', scores') ∧
    (indices'.get 0).get 0 = 2 ∧ ¬ Decreasing (scoreOf four) 2 0 4 (indices'.get 0).get := by
  obtain ⟨ix, sc, e, -⟩ := C151_agreed_float sample [4] 2 1 (zeros 4) four (by norm_num) ⟨rfl, fun _ _ => rfl⟩
    ⟨rfl, fun _ _ => rfl⟩
  obtain ⟨h1, h2, h3⟩ := C151_sorted_refuted sample sample_good [4] 2 1 (zeros 4) ix four sc (by norm_num)
    ⟨rfl, fun _ _ => rfl⟩ ⟨rfl, fun _ _ => rfl⟩ e 0 (single 4) (by
      intro k hk
      simp only [stdOf, meanOf, total, scoreOf, four, Finset.sum_range_succ, Finset.sum_range_zero]
      interval_cases k <;> norm_num) (by
      intro a b hab hb
      simp only [total, scoreOf, four, Finset.sum_range_succ, Finset.sum_range_zero]
      have : (a : ℝ) < b := by exact_mod_cast hab
      norm_num
      linarith)
  exact ⟨ix, sc, e, h1, h3⟩

example : ∃ indices' scores', readapterFloat sample [3] 2 3 1 (zeros 3) three = some (indices', scores') ∧
    (indices'.get 0).get 2 = 1 := by
  obtain ⟨ix, sc, e, -⟩ := C151_agreed_float sample [3] 2 1 (zeros 3) three (by norm_num) ⟨rfl, fun _ _ => rfl⟩
    ⟨rfl, fun _ _ => rfl⟩
  obtain ⟨h1, -⟩ := C151_three_refuted sample sample_good [3] 2 1 (zeros 3) ix three sc (by norm_num)
    ⟨rfl, fun _ _ => rfl⟩ ⟨rfl, fun _ _ => rfl⟩ e 0 (single 3) (by
      intro k hk
      simp only [stdOf, meanOf, total, scoreOf, three, Finset.sum_range_succ, Finset.sum_range_zero]
      interval_cases k <;> norm_num) (by
      simp only [total, scoreOf, three, Finset.sum_range_succ, Finset.sum_range_zero]; norm_num) (by
      simp only [total, scoreOf, three, Finset.sum_range_succ, Finset.sum_range_zero]; norm_num)
  exact ⟨ix, sc, e, h1⟩

example : ∃ indices' scores', readapterFloat sample [2] 2 2 1 (zeros 2) two = some (indices', scores') ∧
    Decreasing (scoreOf two) 2 0 2 (indices'.get 0).get := by
  obtain ⟨ix, sc, e, -⟩ := C151_agreed_float sample [2] 2 1 (zeros 2) two (by norm_num) ⟨rfl, fun _ _ => rfl⟩
    ⟨rfl, fun _ _ => rfl⟩
  have hd : ∀ k, k < 2 → 0 < stdOf (scoreOf two) 2 2 (0 + k) := by
    intro k hk
    simp only [stdOf, meanOf, total, scoreOf, two, Finset.sum_range_succ, Finset.sum_range_zero]
    interval_cases k <;> norm_num
  exact ⟨ix, sc, e, C151_increasing_partial sample sample_good [2] 2 1 (zeros 2) ix two sc (by norm_num)
    ⟨rfl, fun _ _ => rfl⟩ ⟨rfl, fun _ _ => rfl⟩ e 0 2 (single 2) hd (by
      intro a b hab hb
      simp only [total, scoreOf, two, Finset.sum_range_succ, Finset.sum_range_zero]
      have : (a : ℝ) < b := by exact_mod_cast hab
      norm_num
      linarith)⟩

end LLab.Consensus
