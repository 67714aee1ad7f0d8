import Verif.RL.Consensus

/-!
The exchange loops of one layer reduced to an order on positions, and the layer walk.
-/

namespace LLab.Consensus

open LLab

variable {K : Type} [Field K] [LinearOrder K] [IsStrictOrderedRing K]

/-! ### Arrays and loops -/

theorem loop_rel {σ τ : Type} (R : σ → τ → Prop) {n : Nat} {f : Nat → σ → Option σ}
    {g : Nat → τ → Option τ} {s : σ} {t : τ} (h0 : R s t)
    (hs : ∀ i, i < n → ∀ s t, R s t → ∃ s' t', f i s = some s' ∧ g i t = some t' ∧ R s' t') :
    ∃ s' t', loop n f s = some s' ∧ loop n g t = some t' ∧ R s' t' := by
  induction n with
  | zero => exact ⟨s, t, rfl, rfl, h0⟩
  | succ n ih =>
    obtain ⟨s1, t1, e1, e2, r1⟩ := ih (fun i hi => hs i (by omega))
    obtain ⟨s2, t2, e3, e4, r2⟩ := hs n (by omega) s1 t1 r1
    exact ⟨s2, t2, by simp [loop, e1, e3], by simp [loop, e2, e4], r2⟩

theorem loop_some {σ : Type} (P : σ → Prop) {n : Nat} {f : Nat → σ → Option σ} {s s' : σ} (h0 : P s)
    (hs : ∀ i, i < n → ∀ s s', P s → f i s = some s' → P s') (h : loop n f s = some s') : P s' := by
  induction n generalizing s' with
  | zero => simp only [loop, Option.some.injEq] at h; exact h ▸ h0
  | succ n ih =>
    simp only [loop] at h
    obtain ⟨t, e1, e2⟩ := Option.bind_eq_some_iff.mp h
    exact hs n (by omega) t s' (ih (fun i hi => hs i (by omega)) e1) e2

theorem cell_inj {n a b c d : Nat} (hb : b < n) (hd : d < n) (h : a * n + b = c * n + d) :
    a = c ∧ b = d := by
  have h1 : (a * n + b) / n = a := by
    rw [Nat.mul_comm, Nat.mul_add_div (by omega), Nat.div_eq_of_lt hb, Nat.add_zero]
  have h2 : (c * n + d) / n = c := by
    rw [Nat.mul_comm, Nat.mul_add_div (by omega), Nat.div_eq_of_lt hd, Nat.add_zero]
  have h3 : a = c := by rw [← h1, ← h2, h]
  subst h3
  exact ⟨rfl, by omega⟩

theorem cell_lt {n a b : Nat} (ha : a < n) (hb : b < n) : a * n + b < n * n :=
  calc a * n + b < a * n + n := by omega
    _ = (a + 1) * n := by ring
    _ ≤ n * n := Nat.mul_le_mul_right n (by omega)

theorem update_swap {α : Type} (g : Nat → α) (a b : Nat) :
    Function.update (Function.update g a (g b)) b (g a) = fun k => g (Equiv.swap a b k) := by
  funext k
  by_cases hb : k = b
  · subst hb; simp
  · by_cases ha : k = a
    · subst ha; simp [hb]
    · simp [ha, hb, Equiv.swap_apply_of_ne_of_ne ha hb]

/-! ### The exchange loops on positions -/

/-- The order seen by the loops, `c a b` when the entry of `(a, b)` is above that of `(b, a)`, with the
position that each place of the index came from. -/
abbrev PState := (Nat → Nat → Bool) × (Nat → Nat)

/-- One visit. -/
def visit (i j : Nat) (s : PState) : PState :=
  if j ≠ i ∧ s.1 i j = true then
    (fun a b => if (a = i ∧ b = j) ∨ (a = j ∧ b = i) then s.1 b a else s.1 a b,
      fun k => s.2 (Equiv.swap i j k))
  else s

/-- All visits. -/
def visits (n : Nat) (s : PState) : Option PState :=
  loop n (fun i => loop (n - 1) (fun j s => some (visit i j s))) s

/-- The relation of the two levels. -/
def Same (n off : Nat) (q0 : Arr Nat) (s : Arr K × Arr Nat) (t : PState) : Prop :=
  s.1.len = n * n ∧ s.2.len = q0.len ∧
  (∀ a b, a < n → b < n → (t.1 a b = true ↔ s.1.get (b * n + a) < s.1.get (a * n + b))) ∧
  (∀ k, k < n → t.2 k < n) ∧
  (∀ k, k < n → s.2.get (off + k) = q0.get (off + t.2 k)) ∧
  (∀ k, (k < off ∨ off + n ≤ k) → s.2.get k = q0.get k)

omit [Field K] [IsStrictOrderedRing K] in
theorem exchange_same {n off i j : Nat} {q0 : Arr Nat} (hq : off + n ≤ q0.len) (hi : i < n) (hj : j < n)
    {s : Arr K × Arr Nat} {t : PState} (h : Same n off q0 s t) :
    ∃ s', exchange n off i j s = some s' ∧ Same n off q0 s' (visit i j t) := by
  obtain ⟨p, q⟩ := s
  obtain ⟨h1, h2, h3, h4, h5, h6⟩ := h
  dsimp only at h1 h2 h3 h5 h6
  by_cases hij : j = i
  · refine ⟨(p, q), by simp [exchange, hij], ?_⟩
    have : visit i j t = t := by simp [visit, hij]
    rw [this]
    exact ⟨h1, h2, h3, h4, h5, h6⟩
  · have c1 : j * n + i < p.len := by rw [h1]; exact cell_lt hj hi
    have c2 : i * n + j < p.len := by rw [h1]; exact cell_lt hi hj
    by_cases hc : p.get (j * n + i) < p.get (i * n + j)
    · have ht : t.1 i j = true := (h3 i j hi hj).2 hc
      have e : exchange n off i j (p, q) = some
          (⟨p.len, fun k => p.get (Equiv.swap (i * n + j) (j * n + i) k)⟩,
            ⟨q.len, fun k => q.get (Equiv.swap (off + i) (off + j) k)⟩) := by
        unfold exchange
        rw [if_neg hij]
        simp only [Arr.read_eq c1, Arr.read_eq c2, Option.bind_eq_bind, Option.bind_some, if_pos hc,
          Arr.write_eq _ c2, Arr.read_eq (show off + i < q.len by omega),
          Arr.read_eq (show off + j < q.len by omega), Arr.write_eq _ (show off + i < q.len by omega)]
        rw [Arr.write_eq _ (by exact c1), Option.bind_some, Arr.write_eq _ (by show off + j < q.len; omega),
          Option.bind_some, ← update_swap, ← update_swap]
      refine ⟨_, e, ?_⟩
      have hv : visit i j t = (fun a b => if (a = i ∧ b = j) ∨ (a = j ∧ b = i) then t.1 b a else t.1 a b,
          fun k => t.2 (Equiv.swap i j k)) := by
        rw [visit, if_pos ⟨hij, ht⟩]
      rw [hv]
      have sw : ∀ k, off + Equiv.swap i j k = Equiv.swap (off + i) (off + j) (off + k) := by
        intro k
        by_cases k1 : k = i
        · subst k1; simp
        · by_cases k2 : k = j
          · subst k2; simp
          · rw [Equiv.swap_apply_of_ne_of_ne k1 k2, Equiv.swap_apply_of_ne_of_ne (by omega) (by omega)]
      have swlt : ∀ k, k < n → Equiv.swap i j k < n := by
        intro k hk
        by_cases k1 : k = i
        · subst k1; simpa using hj
        · by_cases k2 : k = j
          · subst k2; simpa using hi
          · rwa [Equiv.swap_apply_of_ne_of_ne k1 k2]
      refine ⟨h1, h2, ?_, fun k hk => h4 _ (swlt k hk), ?_, ?_⟩
      · intro a b ha hb
        dsimp only
        by_cases hab : (a = i ∧ b = j) ∨ (a = j ∧ b = i)
        · rw [if_pos hab]
          rcases hab with ⟨rfl, rfl⟩ | ⟨rfl, rfl⟩
          · rw [Equiv.swap_apply_left, Equiv.swap_apply_right]
            exact h3 b a hb ha
          · rw [Equiv.swap_apply_left, Equiv.swap_apply_right]
            exact h3 b a hb ha
        · rw [if_neg hab]
          rw [Equiv.swap_apply_of_ne_of_ne, Equiv.swap_apply_of_ne_of_ne]
          · exact h3 a b ha hb
          all_goals
            intro hh
            have := cell_inj (by assumption) (by assumption) hh
            omega
      · intro k hk
        dsimp only
        rw [← sw]
        exact h5 _ (swlt k hk)
      · intro k hk
        dsimp only
        rw [Equiv.swap_apply_of_ne_of_ne (by omega) (by omega)]
        exact h6 k hk
    · have ht : ¬ t.1 i j = true := fun hh => hc ((h3 i j hi hj).1 hh)
      refine ⟨(p, q), ?_, ?_⟩
      · unfold exchange
        rw [if_neg hij]
        simp only [Arr.read_eq c1, Arr.read_eq c2, Option.bind_eq_bind, Option.bind_some, if_neg hc]
      · rw [visit, if_neg (fun hh => ht hh.2)]
        exact ⟨h1, h2, h3, h4, h5, h6⟩

omit [Field K] [IsStrictOrderedRing K] in
theorem exchanges_same {n off : Nat} {q0 : Arr Nat} (hq : off + n ≤ q0.len)
    {s : Arr K × Arr Nat} {t : PState} (h : Same n off q0 s t) :
    ∃ s' t', loop n (fun i => loop (n - 1) (fun j => exchange n off i j)) s = some s' ∧
      visits n t = some t' ∧ Same n off q0 s' t' := by
  refine loop_rel (Same n off q0) h ?_
  intro i hi s t hst
  refine loop_rel (Same n off q0) hst ?_
  intro j hj s t hst
  obtain ⟨s', e, r⟩ := exchange_same hq hi (show j < n by omega) hst
  exact ⟨s', _, e, rfl, r⟩

/-! ### The table -/

/-- math_functions.c 97-108 as a function. -/
def entry (F : Fn K) (μ s : Nat → K) (a b : Nat) : K :=
  if a < b then probGreater F (μ a) (μ b) (s a) (s b) else 1 - probGreater F (μ b) (μ a) (s b) (s a)

omit [IsStrictOrderedRing K] in
theorem table_eq (F : Fn K) {means std : Arr K} {off n : Nat} (hm : off + n ≤ means.len)
    (hs : off + n ≤ std.len) :
    ∃ p, table F means std off n = some p ∧ p.len = n * n ∧ ∀ a b, a < n → b < n → a ≠ b →
      p.get (a * n + b) = entry F (fun k => means.get (off + k)) (fun k => std.get (off + k)) a b := by
  have main : ∃ p, table F means std off n = some p ∧ (p.len = n * n ∧ ∀ a b, a < b → b < n → a < n →
      p.get (a * n + b) = entry F (fun k => means.get (off + k)) (fun k => std.get (off + k)) a b ∧
      p.get (b * n + a) = entry F (fun k => means.get (off + k)) (fun k => std.get (off + k)) b a) := by
    refine loop_inv (fun i (p : Arr K) => p.len = n * n ∧ ∀ a b, a < b → b < n → a < i →
      p.get (a * n + b) = entry F (fun k => means.get (off + k)) (fun k => std.get (off + k)) a b ∧
      p.get (b * n + a) = entry F (fun k => means.get (off + k)) (fun k => std.get (off + k)) b a)
      ⟨rfl, fun a b _ _ h => absurd h (by omega)⟩ ?_
    rintro i hi p ⟨hp, hd⟩
    have row := loop_inv (fun t (p : Arr K) => p.len = n * n ∧ ∀ a b, a < b → b < n →
        (a < i ∨ (a = i ∧ b < i + 1 + t)) →
        p.get (a * n + b) = entry F (fun k => means.get (off + k)) (fun k => std.get (off + k)) a b ∧
        p.get (b * n + a) = entry F (fun k => means.get (off + k)) (fun k => std.get (off + k)) b a)
      (n := n - (i + 1))
      (f := fun t p => (fun j (p : Arr K) => (do
        let si ← std.read (off + i)
        let sj ← std.read (off + j)
        let mi ← means.read (off + i)
        let mj ← means.read (off + j)
        let p ← p.write (i * n + j) (probGreater F mi mj si sj)
        let x ← p.read (i * n + j)
        p.write (j * n + i) (1 - x) : Option (Arr K))) (i + 1 + t) p) (s := p)
      ⟨hp, fun a b hab hb h => hd a b hab hb (by omega)⟩ (by
        rintro t ht p ⟨hp, hd⟩
        have hj : i + 1 + t < n := by omega
        generalize hjj : i + 1 + t = j at *
        have c1 : i * n + j < p.len := by rw [hp]; exact cell_lt hi hj
        have c2 : j * n + i < p.len := by rw [hp]; exact cell_lt hj hi
        refine ⟨⟨p.len, Function.update (Function.update p.get (i * n + j)
            (probGreater F (means.get (off + i)) (means.get (off + j)) (std.get (off + i)) (std.get (off + j))))
            (j * n + i) (1 - probGreater F (means.get (off + i)) (means.get (off + j)) (std.get (off + i))
              (std.get (off + j)))⟩, ?_, hp, ?_⟩
        · simp only [Arr.read_eq (show off + i < std.len by omega), Arr.read_eq (show off + j < std.len by omega),
            Arr.read_eq (show off + i < means.len by omega), Arr.read_eq (show off + j < means.len by omega),
            Option.bind_eq_bind, Option.bind_some, Arr.write_eq _ c1]
          rw [Arr.read_eq (by exact c1), Option.bind_some, Arr.write_eq _ (by exact c2)]
          simp
        · intro a b hab hb hcase
          by_cases hnew : a = i ∧ b = j
          · obtain ⟨rfl, rfl⟩ := hnew
            have hne : a * n + b ≠ b * n + a := by
              intro hh
              have := cell_inj hb (by omega) hh
              omega
            dsimp only
            rw [Function.update_of_ne hne, Function.update_self, Function.update_self]
            refine ⟨?_, ?_⟩
            · simp only [entry, if_pos hab]
            · simp only [entry, if_neg (show ¬ b < a by omega)]
          · have old := hd a b hab hb (by omega)
            dsimp only
            rw [Function.update_of_ne, Function.update_of_ne, Function.update_of_ne, Function.update_of_ne]
            · exact old
            all_goals
              intro hh
              have := cell_inj (by omega) (by omega) hh
              omega)
    obtain ⟨p', e, hp', hd'⟩ := row
    exact ⟨p', e, hp', fun a b hab hb h => hd' a b hab hb (by omega)⟩
  obtain ⟨p, e, hp, hd⟩ := main
  refine ⟨p, e, hp, fun a b ha hb hab => ?_⟩
  rcases Nat.lt_or_gt_of_ne hab with h | h
  · exact (hd a b h hb ha).1
  · exact (hd b a h ha hb).2

/-- The order of the table. -/
def above (F : Fn K) (μ s : Nat → K) (a b : Nat) : Bool :=
  decide (a ≠ b) && decide (entry F μ s b a < entry F μ s a b)

/-- Where each place of a sorted layer came from. -/
def orderOf (F : Fn K) (n : Nat) (μ s : Nat → K) : Nat → Nat :=
  ((visits n (above F μ s, id)).getD (above F μ s, id)).2

omit [IsStrictOrderedRing K] in
theorem getSorted_eq (F : Fn K) {means std : Arr K} {off n : Nat} {q : Arr Nat} (hm : off + n ≤ means.len)
    (hs : off + n ≤ std.len) (hq : off + n ≤ q.len) :
    ∃ q', getSorted F means std off n q = some q' ∧ q'.len = q.len ∧
      (∀ k, k < n → orderOf F n (fun k => means.get (off + k)) (fun k => std.get (off + k)) k < n) ∧
      (∀ k, k < n → q'.get (off + k) =
        q.get (off + orderOf F n (fun k => means.get (off + k)) (fun k => std.get (off + k)) k)) ∧
      (∀ k, (k < off ∨ off + n ≤ k) → q'.get k = q.get k) := by
  obtain ⟨p, e, hp, hd⟩ := table_eq F hm hs
  obtain ⟨s', t', e1, e2, r⟩ := exchanges_same hq (s := (p, q))
    (t := (above F (fun k => means.get (off + k)) (fun k => std.get (off + k)), id))
    ⟨hp, rfl, by
      intro a b ha hb
      dsimp only
      by_cases hab : a = b
      · subst hab; simp [above]
      · rw [hd a b ha hb hab, hd b a hb ha (Ne.symm hab)]
        simp [above, hab], fun k hk => hk, fun k _ => rfl, fun k _ => rfl⟩
  have ho : orderOf F n (fun k => means.get (off + k)) (fun k => std.get (off + k)) = t'.2 := by
    rw [orderOf, e2]; rfl
  refine ⟨s'.2, ?_, r.2.1, ?_, ?_, r.2.2.2.2.2⟩
  · simp [getSorted, e, e1]
  · rw [ho]; exact r.2.2.2.1
  · rw [ho]; exact r.2.2.2.2.1

/-! ### Facts about the order -/

theorem visits_perm {n : Nat} (c : Nat → Nat → Bool) :
    ∃ t, visits n (c, id) = some t ∧ ∃ e : Equiv.Perm Nat, t.2 = e := by
  refine loop_inv (fun _ (t : PState) => ∃ e : Equiv.Perm Nat, t.2 = e) ⟨Equiv.refl _, rfl⟩ ?_
  intro i _ s hs
  refine loop_inv (fun _ (t : PState) => ∃ e : Equiv.Perm Nat, t.2 = e) hs ?_
  rintro j _ t ⟨e, he⟩
  refine ⟨_, rfl, ?_⟩
  by_cases h : j ≠ i ∧ t.1 i j = true
  · rw [visit, if_pos h]
    exact ⟨(Equiv.swap i j).trans e, by funext k; simp [he]⟩
  · rw [visit, if_neg h]
    exact ⟨e, he⟩

omit [IsStrictOrderedRing K] in
theorem orderOf_inj (F : Fn K) (n : Nat) (μ s : Nat → K) : Function.Injective (orderOf F n μ s) := by
  obtain ⟨t, e, p, hp⟩ := visits_perm (n := n) (above F μ s)
  rw [orderOf, e]
  simp only [Option.getD_some, hp]
  exact p.injective

/-- What the theorems about the order ask of the library functions: `erf` is odd with values strictly between
zero and one on positive numbers, `sqrt` is positive on positive numbers. -/
structure Good (F : Fn K) : Prop where
  odd : ∀ x, F.erf (-x) = - F.erf x
  pos : ∀ x, 0 < x → 0 < F.erf x
  lt : ∀ x, 0 < x → F.erf x < 1
  sqrt_pos : ∀ x, 0 < x → 0 < F.sqrt x

theorem probGreater_ge {F : Fn K} (hF : Good F) {mi mj si sj : K} (hi : 0 < si) (hj : 0 < sj) (h : mj ≤ mi) :
    1 / 2 < probGreater F mi mj si sj := by
  have hd : 0 < F.sqrt 2 * F.sqrt (si * si + sj * sj) :=
    mul_pos (hF.sqrt_pos 2 (by norm_num)) (hF.sqrt_pos _ (by positivity))
  unfold probGreater
  generalize F.sqrt 2 * F.sqrt (si * si + sj * sj) = d at *
  rcases eq_or_lt_of_le h with h | h
  · have h0 : F.erf 0 = 0 := by have := hF.odd 0; rw [neg_zero] at this; linarith
    subst h
    rw [sub_self, zero_div, h0]; norm_num
  · have hx : 0 < (mi - mj) / d := div_pos (by linarith) hd
    have := hF.pos _ hx
    have := hF.lt _ hx
    rw [if_neg (by linarith)]; linarith

theorem probGreater_lt {F : Fn K} (hF : Good F) {mi mj si sj : K} (hi : 0 < si) (hj : 0 < sj) (h : mi < mj) :
    probGreater F mi mj si sj < 1 / 2 := by
  have hd : 0 < F.sqrt 2 * F.sqrt (si * si + sj * sj) :=
    mul_pos (hF.sqrt_pos 2 (by norm_num)) (hF.sqrt_pos _ (by positivity))
  unfold probGreater
  generalize F.sqrt 2 * F.sqrt (si * si + sj * sj) = d at *
  have hx : 0 < (mj - mi) / d := div_pos (by linarith) hd
  have e : (mi - mj) / d = - ((mj - mi) / d) := by ring
  have := hF.pos _ hx
  have := hF.lt _ hx
  rw [e, hF.odd, if_pos (by linarith)]; linarith

/-- The table says which mean is larger. -/
theorem above_iff {F : Fn K} (hF : Good F) {μ s : Nat → K} {a b : Nat} (ha : 0 < s a) (hb : 0 < s b)
    (hab : a < b) : (above F μ s a b = true ↔ μ b ≤ μ a) ∧ (above F μ s b a = true ↔ μ a < μ b) := by
  simp only [above, entry, if_pos hab, if_neg (show ¬ b < a by omega), Bool.and_eq_true, decide_eq_true_eq]
  rcases le_or_gt (μ b) (μ a) with h | h
  · have := probGreater_ge hF ha hb h
    exact ⟨⟨fun _ => h, fun _ => ⟨by omega, by linarith⟩⟩, ⟨fun hh => absurd hh.2 (by linarith), fun hh => absurd hh (not_lt.2 h)⟩⟩
  · have := probGreater_lt hF ha hb h
    exact ⟨⟨fun hh => absurd hh.2 (by linarith), fun hh => absurd hh (not_le.2 h)⟩, ⟨fun _ => h, fun _ => ⟨by omega, by linarith⟩⟩⟩

/-- The visits see only the pairs of the layer. -/
theorem visits_congr {n : Nat} {c d : Nat → Nat → Bool} (h : ∀ a b, a < n → b < n → a ≠ b → c a b = d a b) :
    ∃ s t, visits n (c, id) = some s ∧ visits n (d, id) = some t ∧ s.2 = t.2 := by
  have := loop_rel (fun (s t : PState) => (∀ a b, a < n → b < n → a ≠ b → s.1 a b = t.1 a b) ∧ s.2 = t.2)
    (n := n) (f := fun i => loop (n - 1) (fun j s => some (visit i j s)))
    (g := fun i => loop (n - 1) (fun j s => some (visit i j s))) (s := (c, id)) (t := (d, id)) ⟨h, rfl⟩ (by
      intro i hi s t hst
      refine loop_rel (fun (s t : PState) => (∀ a b, a < n → b < n → a ≠ b → s.1 a b = t.1 a b) ∧ s.2 = t.2) hst ?_
      rintro j hj s t ⟨h1, h2⟩
      refine ⟨_, _, rfl, rfl, ?_⟩
      by_cases hij : j = i
      · simp only [visit, hij, ne_eq, not_true_eq_false, false_and, if_false]; exact ⟨h1, h2⟩
      · have e := h1 i j hi (by omega) (Ne.symm hij)
        unfold visit
        rw [e]
        split
        · refine ⟨?_, by dsimp only; rw [h2]⟩
          intro a b ha hb hab
          dsimp only
          split
          · exact h1 b a hb ha (Ne.symm hab)
          · exact h1 a b ha hb hab
        · exact ⟨h1, h2⟩)
  obtain ⟨s, t, e1, e2, _, r⟩ := this
  exact ⟨s, t, e1, e2, r⟩

omit [IsStrictOrderedRing K] in
theorem orderOf_congr (F : Fn K) {n : Nat} {μ s : Nat → K} (d : Nat → Nat → Bool)
    (h : ∀ a b, a < n → b < n → a ≠ b → above F μ s a b = d a b) {t : PState} (ht : visits n (d, id) = some t) :
    orderOf F n μ s = t.2 := by
  obtain ⟨s1, t1, e1, e2, r⟩ := visits_congr h
  rw [ht] at e2
  obtain rfl := Option.some.inj e2
  rw [orderOf, e1]
  exact r

/-- When every later position is above every earlier one, the visits reverse the layer. -/
theorem visits_rev (n : Nat) : ∃ t, visits n (fun a b => decide (b < a), id) = some t ∧
    ∀ k, k < n → t.2 k = n - 1 - k := by
  have main : ∃ t, visits n (fun a b => decide (b < a), id) = some t ∧
      ((∀ a b, a < n → b < n → n ≤ a ∨ n ≤ b → t.1 a b = decide (b < a)) ∧
       ∀ k, t.2 k = if k < n then n - 1 - k else k) := by
    refine loop_inv (fun i (t : PState) => (∀ a b, a < n → b < n → i ≤ a ∨ i ≤ b → t.1 a b = decide (b < a)) ∧
      ∀ k, t.2 k = if k < i then i - 1 - k else k) ⟨fun a b _ _ _ => rfl, fun k => by simp⟩ ?_
    rintro i hi t ⟨h1, h2⟩
    have := loop_inv (fun j (t : PState) =>
        (∀ a b, a < n → b < n → (i < a ∨ i < b ∨ (a = i ∧ j ≤ b) ∨ (b = i ∧ j ≤ a)) → t.1 a b = decide (b < a)) ∧
        ∀ k, t.2 k = if k < i then (if k < j then i - k else i - 1 - k) else if k = i then i - min j i else k)
      (n := n - 1) (f := fun j s => some (visit i j s)) (s := t)
      ⟨fun a b ha hb h => h1 a b ha hb (by omega), fun k => by
        rw [h2]
        by_cases hk : k < i
        · simp [hk]
        · by_cases hk2 : k = i
          · simp [hk2]
          · simp [hk, hk2]⟩ (by
        rintro j hj t ⟨h1, h2⟩
        refine ⟨_, rfl, ?_⟩
        by_cases hji : j < i
        · have hc : t.1 i j = true := by
            rw [h1 i j hi (by omega) (by omega)]; simpa using hji
          rw [visit, if_pos ⟨by omega, hc⟩]
          refine ⟨?_, ?_⟩
          · intro a b ha hb h
            dsimp only
            rw [if_neg (by omega)]
            exact h1 a b ha hb (by omega)
          · intro k
            dsimp only
            rw [h2]
            by_cases k1 : k = i
            · subst k1
              rw [Equiv.swap_apply_left]
              have : min (j + 1) k = j + 1 := by omega
              simp only [hji, if_true, Nat.lt_irrefl, if_false, this]
              omega
            · by_cases k2 : k = j
              · subst k2
                rw [Equiv.swap_apply_right]
                have : min k i = k := by omega
                simp [hji, this]
              · rw [Equiv.swap_apply_of_ne_of_ne k1 k2]
                simp only [k1, if_false]
                by_cases k3 : k < i
                · simp only [k3, if_true]
                  by_cases k4 : k < j
                  · simp [k4, show k < j + 1 by omega]
                  · simp [k4, show ¬ k < j + 1 by omega]
                · simp [k3]
        · have e2 : min (j + 1) i = min j i := by omega
          have same : visit i j t = t := by
            unfold visit
            rw [if_neg]
            rintro ⟨hne, hc⟩
            rw [h1 i j hi (by omega) (by omega)] at hc
            have := of_decide_eq_true hc
            omega
          rw [same]
          refine ⟨fun a b ha hb h => h1 a b ha hb (by omega), fun k => ?_⟩
          rw [h2 k, e2]
          by_cases hk : k < i
          · simp [hk, show k < j by omega, show k < j + 1 by omega]
          · simp [hk])
    obtain ⟨t', e, r1, r2⟩ := this
    refine ⟨t', e, fun a b ha hb h => r1 a b ha hb (by omega), fun k => ?_⟩
    rw [r2]
    have : min (n - 1) i = i := by omega
    by_cases hk : k < i
    · simp [hk, show k < n - 1 by omega, show k < i + 1 by omega]
    · by_cases hk2 : k = i
      · simp [hk2, this]
      · simp [hk, hk2, show ¬ k < i + 1 by omega]
  obtain ⟨t, e, _, r⟩ := main
  exact ⟨t, e, fun k hk => by rw [r, if_pos hk]⟩

end LLab.Consensus
