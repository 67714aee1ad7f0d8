import Verif.Utils.Shuffle

namespace LLab.Utils

variable {β γ δ ε ζ : Type}

theorem pickIndex_lt {RM n i r : Nat} (hr : r ≤ RM) (hi : i < n) : pickIndex RM n i r < n := by
  unfold pickIndex
  have hk : 0 < n - i := by omega
  have h : r / (RM / (n - i) + 1) < n - i := by
    rw [Nat.div_lt_iff_lt_mul (Nat.succ_pos _)]
    have := Nat.lt_mul_div_succ RM hk
    calc r ≤ RM := hr
      _ < (n - i) * (RM / (n - i) + 1) := this
  omega

theorem le_pickIndex (RM n i r : Nat) : i ≤ pickIndex RM n i r := by
  unfold pickIndex; exact Nat.le_add_right _ _

theorem swapAt_spec (m : List β) {i j : Nat} (hi : i < m.length) (hj : j < m.length) :
    ∃ m', swapAt m i j = some m' ∧ m'.length = m.length ∧
      ∀ k : Nat, m'[k]? = m[Equiv.swap i j k]? := by
  refine ⟨(m.set j m[i]).set i m[j], ?_, by simp, ?_⟩
  · simp [swapAt, List.getElem?_eq_getElem hi, List.getElem?_eq_getElem hj]
  · intro k
    by_cases hki : k = i
    · subst hki
      rw [List.getElem?_set_self (by simpa using hi), Equiv.swap_apply_left,
        List.getElem?_eq_getElem hj]
    · rw [List.getElem?_set_ne (Ne.symm hki)]
      by_cases hkj : k = j
      · subst hkj
        rw [List.getElem?_set_self hj, Equiv.swap_apply_right, List.getElem?_eq_getElem hi]
      · rw [List.getElem?_set_ne (Ne.symm hkj), Equiv.swap_apply_of_ne_of_ne hki hkj]

theorem copyAt_spec (m : List β) {i j : Nat} (hi : i < m.length) (hj : j < m.length) :
    ∃ m', copyAt m i j = some m' ∧ m'.length = m.length := by
  refine ⟨(m.set i m[i]).set i m[j], ?_, by simp⟩
  simp [copyAt, List.getElem?_eq_getElem hi, List.getElem?_eq_getElem hj]

/-- The permutation performed by `k` iterations starting at `i`. -/
def shufflePerm (RM n : Nat) (rs : Nat → Nat) : Nat → Nat → Equiv.Perm Nat
  | 0, _ => 1
  | k + 1, i => Equiv.swap i (pickIndex RM n i (rs i)) * shufflePerm RM n rs k (i + 1)

theorem shufflePerm_fix (RM n : Nat) (rs : Nat → Nat) (hrs : ∀ i, rs i ≤ RM) :
    ∀ k i, i + k ≤ n → ∀ x, (x < i ∨ n ≤ x) → shufflePerm RM n rs k i x = x := by
  intro k
  induction k with
  | zero => intro i _ x _; rfl
  | succ k ih =>
    intro i h x hx
    rw [shufflePerm, Equiv.Perm.mul_apply, ih (i + 1) (by omega) x (by omega)]
    have h1 := pickIndex_lt (i := i) (hrs i) (show i < n by omega)
    have h2 := le_pickIndex RM n i (rs i)
    exact Equiv.swap_apply_of_ne_of_ne (by omega) (by omega)

/-- `m'` is `m` read through `p`. -/
def ReadsThrough (p : Equiv.Perm Nat) (m m' : List β) : Prop :=
  ∀ k : Nat, m'[k]? = m[p k]?

/-- Generic loop lemma: if a step swaps the arrays seen through every view in
`views` then the loop applies `shufflePerm` to them. -/
theorem shuffleLoop_spec {σ : Type} (step : Nat → Nat → σ → Option σ) (RM n : Nat)
    (rs : Nat → Nat) (hrs : ∀ i, rs i ≤ RM)
    (good : σ → Prop)
    (rel : Equiv.Perm Nat → σ → σ → Prop)
    (hrefl : ∀ s, rel 1 s s)
    (hstep : ∀ i j s, i < n → j < n → good s →
      ∃ s', step i j s = some s' ∧ good s' ∧ ∀ p s'', rel p s' s'' → rel (Equiv.swap i j * p) s s'') :
    ∀ k i s, i + k ≤ n → good s →
      ∃ s', shuffleLoop step RM n rs k i s = some s' ∧ good s' ∧
        rel (shufflePerm RM n rs k i) s s' := by
  intro k
  induction k with
  | zero => intro i s _ hg; exact ⟨s, rfl, hg, hrefl s⟩
  | succ k ih =>
    intro i s h hg
    obtain ⟨s1, e1, g1, r1⟩ := hstep i (pickIndex RM n i (rs i)) s (by omega)
      (pickIndex_lt (hrs i) (by omega)) hg
    obtain ⟨s2, e2, g2, r2⟩ := ih (i + 1) s1 (by omega) g1
    exact ⟨s2, by simp [shuffleLoop, e1, e2], g2, r1 _ _ r2⟩

theorem ReadsThrough.comp {p : Equiv.Perm Nat} {i j : Nat} {m m1 m2 : List β}
    (h : ∀ k : Nat, m1[k]? = m[Equiv.swap i j k]?) (h2 : ReadsThrough p m1 m2) :
    ReadsThrough (Equiv.swap i j * p) m m2 := by
  intro k
  rw [h2 k, h (p k), Equiv.Perm.mul_apply]

theorem shuffleLoop1_spec (RM n : Nat) (rs : Nat → Nat) (hrs : ∀ i, rs i ≤ RM) (k i : Nat)
    (m : List β) (hk : i + k ≤ n) (hm : n ≤ m.length) :
    ∃ m', shuffleLoop (fun i j m => swapAt m i j) RM n rs k i m = some m' ∧
      m'.length = m.length ∧ ReadsThrough (shufflePerm RM n rs k i) m m' := by
  obtain ⟨m', e, g, r⟩ := shuffleLoop_spec (fun i j (m : List β) => swapAt m i j) RM n rs hrs
    (fun s => s.length = m.length) (fun p s s' => ReadsThrough p s s')
    (fun s k => rfl)
    (by
      intro i j s hi hj hg
      obtain ⟨s', e, l, r⟩ := swapAt_spec s (i := i) (j := j) (by omega) (by omega)
      exact ⟨s', e, by omega, fun p s'' h => ReadsThrough.comp r h⟩)
    k i m hk rfl
  exact ⟨m', e, g, r⟩

end LLab.Utils
