import Verif.Common.Loop
import Mathlib.Analysis.SpecialFunctions.Exp
import Mathlib.Analysis.SpecialFunctions.ExpDeriv
import Mathlib.Analysis.Complex.ExponentialBounds
import Mathlib.Algebra.Order.BigOperators.Group.Finset
import Mathlib.Algebra.BigOperators.Field
import Mathlib.Analysis.Calculus.Deriv.Add
import Mathlib.Analysis.Calculus.Deriv.Mul
import Mathlib.Analysis.Calculus.Deriv.Inv
import Mathlib.Tactic.FieldSimp
import Mathlib.Tactic.Positivity
import Mathlib.Tactic.Linarith

/-!
Model of `softmax`, `softmax_array_not_complete`, `derivative_softmax` and
`derivative_softmax_array` (`/repo/src/math_functions.c`), over the reals, with
properties C18 and C19.
-/

namespace LLab.Softmax

open Finset

/-- `softmax(input, output, size)` (`/repo/src/math_functions.c` 158-172). -/
noncomputable def softmax (input output : Arr ℝ) (size : Nat) : Option (Arr ℝ) := do
  let sum ← loop size (fun i s => do
    let x ← input.read i
    some (s + Real.exp x)) 0
  loop size (fun i (o : Arr ℝ) => do
    let x ← input.read i
    o.write i (Real.exp x / sum)) output

/-- `softmax_array_not_complete` (`/repo/src/math_functions.c` 757-770). -/
noncomputable def softmaxMasked (input output : Arr ℝ) (mask : Arr Int) (size : Nat) :
    Option (Arr ℝ) := do
  let sum ← loop size (fun i s => do
    let m ← mask.read i
    if m ≠ 0 then do
      let x ← input.read i
      some (s + Real.exp x)
    else some s) 0
  loop size (fun i (o : Arr ℝ) => do
    let m ← mask.read i
    if m ≠ 0 then do
      let x ← input.read i
      o.write i (Real.exp x / sum)
    else some o) output

/-- `derivative_softmax(output, softmax_arr, error, size)`
(`/repo/src/math_functions.c` 242-255). -/
noncomputable def derivativeSoftmax (output s error : Arr ℝ) (size : Nat) : Option (Arr ℝ) :=
  loop size (fun j (o : Arr ℝ) =>
    loop size (fun i (o : Arr ℝ) => do
      let si ← s.read i
      let sj ← s.read j
      let e ← error.read i
      if i = j then o.addAt j (si * (1 - sj) * e)
      else o.addAt j (-(sj * si * e))) o) output

/-- `derivative_softmax_array(mask, output, softmax_arr, error, size)`
(`/repo/src/math_functions.c` 225-241). -/
noncomputable def derivativeSoftmaxMasked (mask : Arr Int) (output s error : Arr ℝ) (size : Nat) :
    Option (Arr ℝ) :=
  loop size (fun j (o : Arr ℝ) => do
    let mj ← mask.read j
    if mj ≠ 0 then
      loop size (fun i (o : Arr ℝ) => do
        let mi ← mask.read i
        if mi ≠ 0 then do
          let si ← s.read i
          let sj ← s.read j
          let e ← error.read i
          if i = j then o.addAt j (si * (1 - sj) * e)
          else o.addAt j (-sj * si * e)
        else some o) o
    else some o) output

/-! ### Specification -/

/-- The mathematical softmax of `x 0, …, x (n-1)`. -/
noncomputable def smax (n : Nat) (x : Nat → ℝ) (i : Nat) : ℝ :=
  Real.exp (x i) / ∑ k ∈ range n, Real.exp (x k)

/-- The softmax over the positions selected by `m`. -/
noncomputable def smaxOn (m : Nat → Prop) [DecidablePred m] (n : Nat) (x : Nat → ℝ) (i : Nat) : ℝ :=
  Real.exp (x i) / ∑ k ∈ (range n).filter m, Real.exp (x k)

theorem sum_exp_pos (S : Finset Nat) (hS : S.Nonempty) (x : Nat → ℝ) :
    0 < ∑ k ∈ S, Real.exp (x k) :=
  Finset.sum_pos (fun k _ => Real.exp_pos _) hS

theorem softmax_eq (input output : Arr ℝ) (size : Nat) (hi : size ≤ input.len)
    (ho : size ≤ output.len) :
    softmax input output size =
      some ⟨output.len, fun k => if k < size then smax size input.get k else output.get k⟩ := by
  unfold softmax
  rw [loop_sum (fun i => Real.exp (input.get i)) (fun i h t => by
    simp [Arr.read_eq (show i < input.len by omega)])]
  simp only [Option.bind_eq_bind, Option.bind_some, zero_add]
  rw [loop_fill (smax size input.get) (fun i h b hb _ => by
    simp [Arr.read_eq (show i < input.len by omega), Arr.write_eq _ (show i < b.len by omega), smax])]

theorem softmaxMasked_eq (input output : Arr ℝ) (mask : Arr Int) (size : Nat) (hi : size ≤ input.len)
    (hm : size ≤ mask.len) (ho : size ≤ output.len) :
    softmaxMasked input output mask size =
      some ⟨output.len, fun k => if k < size then
        (if mask.get k ≠ 0 then smaxOn (fun i => mask.get i ≠ 0) size input.get k else output.get k)
        else output.get k⟩ := by
  unfold softmaxMasked
  rw [loop_sum (fun i => if mask.get i ≠ 0 then Real.exp (input.get i) else 0) (fun i h t => by
    by_cases hz : mask.get i = 0 <;>
    simp [Arr.read_eq (show i < input.len by omega), Arr.read_eq (show i < mask.len by omega), hz])]
  simp only [Option.bind_eq_bind, Option.bind_some, zero_add]
  rw [loop_fill (fun k => if mask.get k ≠ 0 then smaxOn (fun i => mask.get i ≠ 0) size input.get k
      else output.get k) (fun i h b hb hk => by
    by_cases hz : mask.get i = 0
    · simp only [Arr.read_eq (show i < mask.len by omega), hz, ne_eq, not_true_eq_false, if_false,
        Option.bind_some]
      rw [← hk i (le_refl _), Function.update_eq_self]
    · simp [Arr.read_eq (show i < input.len by omega), Arr.read_eq (show i < mask.len by omega), hz,
        Arr.write_eq _ (show i < b.len by omega), smaxOn, Finset.sum_filter])]

/-! ### C18 -/

/-- **C18.** For arrays large enough and every `size ≥ 1`, `softmax` stays in
bounds and writes a probability vector: positive entries summing to one, whose
ratios are the exponentials of the input differences; other cells keep their
content. -/
theorem C18_softmax (input output : Arr ℝ) (size : Nat) (h1 : 1 ≤ size) (hi : size ≤ input.len)
    (ho : size ≤ output.len) :
    ∃ o, softmax input output size = some o ∧ o.len = output.len ∧
      (∀ i, i < size → 0 < o.get i) ∧ ∑ i ∈ range size, o.get i = 1 ∧
      (∀ i j, i < size → j < size → o.get i = o.get j * Real.exp (input.get i - input.get j)) ∧
      (∀ i, size ≤ i → o.get i = output.get i) := by
  have hpos := sum_exp_pos (range size) ⟨0, by simp; omega⟩ input.get
  refine ⟨_, softmax_eq input output size hi ho, rfl, ?_, ?_, ?_, ?_⟩
  · intro i h
    simp only [h, if_true, smax]
    have := Real.exp_pos (input.get i)
    positivity
  · rw [Finset.sum_congr rfl (g := fun i => smax size input.get i)
      (fun i h => by simp [Finset.mem_range.1 h])]
    simp only [smax]
    rw [← Finset.sum_div]
    exact div_self hpos.ne'
  · intro i j h h'
    simp only [h, h', if_true, smax, Real.exp_sub]
    have := Real.exp_pos (input.get j)
    field_simp
  · intro i h
    simp [show ¬ i < size by omega]

example : (1 : Nat) ≤ 2 ∧ 2 ≤ (Arr.ofList [(0 : ℝ), 1]).len := by simp [Arr.ofList]

/-- **C18, shift invariance.** Adding a constant to every input does not change
the output. -/
theorem C18_shift (input input' output : Arr ℝ) (size : Nat) (hi : size ≤ input.len)
    (hi' : size ≤ input'.len) (ho : size ≤ output.len) (c : ℝ)
    (h : ∀ i, i < size → input'.get i = input.get i + c) :
    softmax input' output size = softmax input output size := by
  rw [softmax_eq _ _ _ hi ho, softmax_eq _ _ _ hi' ho]
  congr 2
  funext k
  split_ifs with hk
  · unfold smax
    rw [Finset.sum_congr rfl (g := fun i => Real.exp (input.get i) * Real.exp c)
      (fun i hi => by rw [h i (Finset.mem_range.1 hi), Real.exp_add]), h k hk, Real.exp_add,
      ← Finset.sum_mul, mul_div_mul_right _ _ (Real.exp_pos c).ne']
  · rfl

/-- **C18, masked variant.** `softmax_array_not_complete` writes a probability
vector on the selected positions and leaves every other cell alone. -/
theorem C18_masked (input output : Arr ℝ) (mask : Arr Int) (size : Nat) (hi : size ≤ input.len)
    (hm : size ≤ mask.len) (ho : size ≤ output.len) (hne : ∃ i < size, mask.get i ≠ 0) :
    ∃ o, softmaxMasked input output mask size = some o ∧
      (∀ i, i < size → mask.get i ≠ 0 → 0 < o.get i) ∧
      ∑ i ∈ (range size).filter (fun i => mask.get i ≠ 0), o.get i = 1 ∧
      (∀ i j, i < size → j < size → mask.get i ≠ 0 → mask.get j ≠ 0 →
        o.get i = o.get j * Real.exp (input.get i - input.get j)) ∧
      (∀ i, (size ≤ i ∨ mask.get i = 0) → o.get i = output.get i) := by
  have hpos := sum_exp_pos ((range size).filter (fun i => mask.get i ≠ 0)) (by
    obtain ⟨i, h, h'⟩ := hne
    exact ⟨i, by simp [h, h']⟩) input.get
  refine ⟨_, softmaxMasked_eq input output mask size hi hm ho, ?_, ?_, ?_, ?_⟩
  · intro i h h'
    simp only [h, h', if_true, smaxOn, ne_eq, not_false_eq_true]
    have := Real.exp_pos (input.get i)
    exact div_pos this hpos
  · rw [Finset.sum_congr rfl (g := fun i => smaxOn (fun i => mask.get i ≠ 0) size input.get i)
      (fun i h => by
        rw [Finset.mem_filter, Finset.mem_range] at h
        simp [h.1, h.2])]
    simp only [smaxOn]
    rw [← Finset.sum_div]
    exact div_self hpos.ne'
  · intro i j h h' m m'
    simp only [h, h', m, m', if_true, smaxOn, Real.exp_sub, ne_eq, not_false_eq_true]
    have := Real.exp_pos (input.get j)
    field_simp
  · intro i h
    rcases h with h | h
    · simp [show ¬ i < size by omega]
    · simp [h]

/-! #### Overflow of the accumulator -/

/-- The single-precision accumulator: `none` is `+inf`. `fmax` is the largest
finite `float`; the exponentials are computed in double precision. -/
noncomputable def toFloat (fmax x : ℝ) : Option ℝ := if x ≤ fmax then some x else none

/-- `softmax` on one element with the `float sum` of `/repo/src/math_functions.c`
160-163 overflowing to infinity; a finite number divided by infinity is 0. -/
noncomputable def softmaxFloat1 (fmax x : ℝ) : ℝ :=
  match toFloat fmax (0 + Real.exp x) with
  | some s => Real.exp x / s
  | none => 0

/-- **C18 (refuted for large inputs).** With single precision (largest finite
value below `3.41·10^38`), the softmax of the one-element vector `(89)` is `(0)`:
the entries are not positive and do not sum to one. The code does not subtract
the maximum before exponentiating. -/
theorem C18_overflow_refuted (fmax : ℝ) (h : fmax < 3.41e38) : softmaxFloat1 fmax 89 = 0 := by
  have h1 : (2.7182818283 : ℝ) < Real.exp 1 := Real.exp_one_gt_d9
  have h2 : Real.exp 89 = Real.exp 1 ^ 89 := by
    rw [← Real.exp_nat_mul]; norm_num
  have h3 : (2.7182818283 : ℝ) ^ 89 ≤ Real.exp 1 ^ 89 :=
    pow_le_pow_left₀ (by norm_num) h1.le 89
  have h4 : (3.41e38 : ℝ) < 2.7182818283 ^ 89 := by norm_num
  have h5 : ¬ Real.exp 89 ≤ fmax := by
    rw [h2]; linarith
  simp [softmaxFloat1, toFloat, h5]

/-! ### C19 -/

theorem derivativeSoftmax_eq (output s error : Arr ℝ) (size : Nat) (hs : size ≤ s.len)
    (he : size ≤ error.len) (ho : size ≤ output.len) :
    derivativeSoftmax output s error size = some ⟨output.len, fun k => output.get k +
      ∑ j ∈ range size, ∑ i ∈ range size, if k = j then
        (if i = j then s.get i * (1 - s.get j) * error.get i
          else -(s.get j * s.get i * error.get i)) else 0⟩ := by
  unfold derivativeSoftmax
  apply loop_add
  intro j hj b hb
  apply loop_add
  intro i hi c hc
  simp only [Arr.read_eq (show i < s.len by omega), Arr.read_eq (show j < s.len by omega),
    Arr.read_eq (show i < error.len by omega), Option.bind_eq_bind, Option.bind_some]
  split_ifs
  · rw [Arr.addAt_eq' _ (by omega)]
  · rw [Arr.addAt_eq' _ (by omega)]

/-- Derivative of the error-weighted softmax over a set of positions in one
coordinate. -/
theorem hasDerivAt_wsum (S : Finset Nat) (e x : Nat → ℝ) (j : Nat) (hj : j ∈ S) :
    HasDerivAt (fun t => ∑ i ∈ S, e i * (Real.exp (Function.update x j t i) /
        ∑ k ∈ S, Real.exp (Function.update x j t k)))
      (∑ i ∈ S, (if i = j then
          Real.exp (x i) / (∑ k ∈ S, Real.exp (x k)) *
            (1 - Real.exp (x j) / (∑ k ∈ S, Real.exp (x k))) * e i
        else -(Real.exp (x j) / (∑ k ∈ S, Real.exp (x k)) *
          (Real.exp (x i) / (∑ k ∈ S, Real.exp (x k))) * e i))) (x j) := by
  set Z := ∑ k ∈ S, Real.exp (x k) with hZ
  have hZpos : 0 < Z := sum_exp_pos S ⟨j, hj⟩ x
  have hnum : ∀ i, HasDerivAt (fun t => Real.exp (Function.update x j t i))
      (if i = j then Real.exp (x j) else 0) (x j) := by
    intro i
    by_cases h : i = j
    · subst h
      simpa using Real.hasDerivAt_exp (x i)
    · simp only [h, if_false]
      have : (fun t => Real.exp (Function.update x j t i)) = fun _ => Real.exp (x i) := by
        funext t; simp [h]
      rw [this]
      exact hasDerivAt_const _ _
  have hden : HasDerivAt (fun t => ∑ k ∈ S, Real.exp (Function.update x j t k))
      (Real.exp (x j)) (x j) := by
    have := HasDerivAt.fun_sum (u := S) (A := fun k t => Real.exp (Function.update x j t k))
      (A' := fun k => if k = j then Real.exp (x j) else 0) (x := x j) (fun k _ => hnum k)
    simpa [Finset.sum_ite_eq', hj] using this
  have hself : ∀ i, Function.update x j (x j) i = x i := by
    intro i; simp
  have hfrac : ∀ i, HasDerivAt (fun t => e i * (Real.exp (Function.update x j t i) /
      ∑ k ∈ S, Real.exp (Function.update x j t k)))
      (e i * (((if i = j then Real.exp (x j) else 0) * Z - Real.exp (x i) * Real.exp (x j)) / Z ^ 2))
      (x j) := by
    intro i
    have h := (hnum i).fun_div hden (by simp only [hself]; exact hZpos.ne')
    simp only [hself, ← hZ] at h
    exact h.const_mul (e i)
  have := HasDerivAt.fun_sum (u := S) (x := x j) (fun i _ => hfrac i)
  refine this.congr_deriv ?_
  apply Finset.sum_congr rfl
  intro i _
  by_cases h : i = j
  · subst h
    simp only [if_true]
    field_simp
  · simp only [h, if_false]
    field_simp
    ring

/-- **C19.** With the softmax of `x` in `s`, `derivative_softmax` stays in bounds
and adds to each output `j` the partial derivative with respect to `x j` of the
error-weighted softmax `Σ error_i · softmax(x)_i`; other cells are unchanged. -/
theorem C19_softmax_gradient (output s error : Arr ℝ) (size : Nat) (hs : size ≤ s.len)
    (he : size ≤ error.len) (ho : size ≤ output.len) (x : Nat → ℝ)
    (hx : ∀ i, i < size → s.get i = smax size x i) :
    ∃ o, derivativeSoftmax output s error size = some o ∧
      (∀ j, j < size → HasDerivAt
        (fun t => ∑ i ∈ range size, error.get i * smax size (Function.update x j t) i)
        (o.get j - output.get j) (x j)) ∧
      (∀ j, size ≤ j → o.get j = output.get j) := by
  refine ⟨_, derivativeSoftmax_eq output s error size hs he ho, ?_, ?_⟩
  · intro j hj
    have h := hasDerivAt_wsum (range size) error.get x j (by simp [hj])
    unfold smax
    refine h.congr_deriv ?_
    simp only [add_sub_cancel_left]
    symm
    rw [Finset.sum_eq_single j]
    · apply Finset.sum_congr rfl
      intro i hi
      simp only [if_true, hx i (Finset.mem_range.1 hi), hx j hj, smax]
    · intro b _ hb
      simp [Ne.symm hb]
    · intro hj'; exact absurd (Finset.mem_range.2 hj) hj'
  · intro j hj
    dsimp only
    rw [Finset.sum_eq_zero, add_zero]
    intro i hi
    apply Finset.sum_eq_zero
    intro k hk
    rw [if_neg (by have := Finset.mem_range.1 hi; omega)]

/-- The softmax model output meets the hypothesis of C19. -/
example (input output : Arr ℝ) (hi : 3 ≤ input.len) (ho : 3 ≤ output.len) :
    ∃ o, softmax input output 3 = some o ∧ ∀ i, i < 3 → o.get i = smax 3 input.get i :=
  ⟨_, softmax_eq input output 3 hi ho, fun i h => by simp [h]⟩

theorem derivativeSoftmaxMasked_eq (mask : Arr Int) (output s error : Arr ℝ) (size : Nat)
    (hm : size ≤ mask.len) (hs : size ≤ s.len)
    (he : size ≤ error.len) (ho : size ≤ output.len) :
    derivativeSoftmaxMasked mask output s error size = some ⟨output.len, fun k => output.get k +
      ∑ j ∈ range size, if mask.get j ≠ 0 then ∑ i ∈ range size, if mask.get i ≠ 0 then
        (if k = j then
        (if i = j then s.get i * (1 - s.get j) * error.get i
          else -(s.get j * s.get i * error.get i)) else 0) else 0 else 0⟩ := by
  unfold derivativeSoftmaxMasked
  apply loop_add (D := fun j k => if mask.get j ≠ 0 then ∑ i ∈ range size, if mask.get i ≠ 0 then
        (if k = j then
        (if i = j then s.get i * (1 - s.get j) * error.get i
          else -(s.get j * s.get i * error.get i)) else 0) else 0 else 0)
  intro j hj b hb
  simp only [Arr.read_eq (show j < mask.len by omega), Option.bind_eq_bind, Option.bind_some]
  by_cases hz : mask.get j = 0
  · simp [hz]
  · simp only [hz, ne_eq, not_false_eq_true, if_true]
    apply loop_add (D := fun i k => if ¬ mask.get i = 0 then
        (if k = j then
        (if i = j then s.get i * (1 - s.get j) * error.get i
          else -(s.get j * s.get i * error.get i)) else 0) else 0)
    intro i hi c hc
    simp only [Arr.read_eq (show i < mask.len by omega), Option.bind_some]
    by_cases hz' : mask.get i = 0
    · simp [hz']
    · simp only [hz', not_false_eq_true, if_true,
        Arr.read_eq (show i < s.len by omega), Arr.read_eq (show j < s.len by omega),
        Arr.read_eq (show i < error.len by omega), Option.bind_some]
      split_ifs
      · rw [Arr.addAt_eq' _ (by omega)]
      · rw [Arr.addAt_eq' _ (by omega)]
        simp only [neg_mul]

/-- **C19, masked variant.** -/
theorem C19_masked_gradient (mask : Arr Int) (output s error : Arr ℝ) (size : Nat)
    (hm : size ≤ mask.len) (hs : size ≤ s.len) (he : size ≤ error.len) (ho : size ≤ output.len)
    (x : Nat → ℝ)
    (hx : ∀ i, i < size → mask.get i ≠ 0 → s.get i = smaxOn (fun i => mask.get i ≠ 0) size x i) :
    ∃ o, derivativeSoftmaxMasked mask output s error size = some o ∧
      (∀ j, j < size → mask.get j ≠ 0 → HasDerivAt
        (fun t => ∑ i ∈ (range size).filter (fun i => mask.get i ≠ 0),
          error.get i * smaxOn (fun i => mask.get i ≠ 0) size (Function.update x j t) i)
        (o.get j - output.get j) (x j)) ∧
      (∀ j, (size ≤ j ∨ mask.get j = 0) → o.get j = output.get j) := by
  refine ⟨_, derivativeSoftmaxMasked_eq mask output s error size hm hs he ho, ?_, ?_⟩
  · intro j hj hz
    have h := hasDerivAt_wsum ((range size).filter (fun i => mask.get i ≠ 0)) error.get x j
      (by simp [hj, hz])
    unfold smaxOn
    refine h.congr_deriv ?_
    simp only [add_sub_cancel_left]
    symm
    rw [Finset.sum_eq_single j]
    · rw [if_pos hz, Finset.sum_filter]
      apply Finset.sum_congr rfl
      intro i hi
      by_cases hzi : mask.get i = 0
      · simp [hzi]
      · simp only [if_true, hx i (Finset.mem_range.1 hi) hzi, hx j hj hz, smaxOn, hzi, ne_eq,
          not_false_eq_true]
    · intro b _ hb
      simp [Ne.symm hb]
    · intro hj'; exact absurd (Finset.mem_range.2 hj) hj'
  · intro j hj
    dsimp only
    rw [Finset.sum_eq_zero, add_zero]
    intro i hi
    rcases hj with hj | hj
    · have : ¬ j = i := by have := Finset.mem_range.1 hi; omega
      simp [this]
    · by_cases hij : j = i
      · subst hij; simp [hj]
      · simp [hij]

end LLab.Softmax
