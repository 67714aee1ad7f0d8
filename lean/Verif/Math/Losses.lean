import Verif.Math.Activations
import Verif.Math.Softmax

/-!
Loss functions of `/repo/src/math_functions.c` over the reals, and property C21.
Each theorem says that the library's derivative function is the derivative of
the library's loss function with respect to the prediction `p`.
-/

namespace LLab.Loss

open Set

/-- `mse` (`/repo/src/math_functions.c` 393-396). -/
noncomputable def mse (p y : ℝ) : ℝ := (p - y) * (p - y) / 2
/-- `derivative_mse` (405-407). -/
noncomputable def dMse (p y : ℝ) : ℝ := p - y

/-- `cross_entropy` (`/repo/src/math_functions.c` 416-429). The NaN test on
`constant` cannot succeed for `p < 1` and is not modelled. -/
noncomputable def crossEntropy (p y : ℝ) : ℝ :=
  let logOne := if p = 0 then -999999 else Real.log p;
  let constant := (1 - y) * Real.log (1 - p);
  -y * logOne - constant
/-- `derivative_cross_entropy` (469-471). -/
noncomputable def dCrossEntropy (p y : ℝ) : ℝ := (p - y) / ((1 - p) * p)

/-- `cross_entropy_reduced_form` (`/repo/src/math_functions.c` 480-489). -/
noncomputable def crossEntropyReduced (p y : ℝ) : ℝ :=
  let logOne := if p = 0 then -999999 else Real.log p;
  -y * logOne
/-- `derivative_cross_entropy_reduced_form_with_softmax` (492-494). -/
noncomputable def dCrossEntropyReduced (p y : ℝ) : ℝ := p - y

/-- `huber_loss` (`/repo/src/math_functions.c` 542-549). -/
noncomputable def huber (p y t : ℝ) : ℝ :=
  if |p - y| ≤ t then |p - y| * |p - y| / 2 else t * |p - y| - t * t / 2
/-- `derivative_huber_loss` (551-558). -/
noncomputable def dHuber (p y t : ℝ) : ℝ :=
  if |p - y| ≤ t then y - p else t * (y - p) / |p - y|

/-- `modified_huber_loss` (`/repo/src/math_functions.c` 575-586). -/
noncomputable def modHuber (p y t1 t2 : ℝ) : ℝ :=
  if y * p ≥ -1 then (if t1 - p * y > 0 then (t1 - p * y) * (t1 - p * y) else 0)
  else -t2 * p * y
/-- `derivative_modified_huber_loss` (588-599). -/
noncomputable def dModHuber (p y t1 t2 : ℝ) : ℝ :=
  if y * p ≥ -1 then (if t1 - p * y > 0 then -2 * y * t1 + 2 * p * y * y else 0)
  else -t2 * y

/-- `focal_loss` (`/repo/src/math_functions.c` 616-632). -/
noncomputable def focal (p y gamma : ℝ) : ℝ :=
  let temp := if y = 1 then p else 1 - p
  if temp = 0 then -(1 : ℝ) ^ gamma * -999999
  else -(1 - temp) ^ gamma * Real.log temp
/-- `derivative_focal_loss` (641-657). -/
noncomputable def dFocal (p y gamma : ℝ) : ℝ :=
  let temp := if y = 1 then p else 1 - p
  let power := (1 - temp) ^ gamma / temp
  let temp2 := gamma * (1 - temp) ^ (gamma - 1) * Real.log temp - power
  if y = 1 then temp2 else -temp2

/-- `EPSILON` (`/repo/src/llab.h` 110). -/
noncomputable def EPS : ℝ := 1e-7

/-- One element of `kl_divergence(input1, input2)` (`/repo/src/math_functions.c`
666-687) for finite values. -/
noncomputable def kl (p q : ℝ) : ℝ :=
  if q = 0 then 1 / EPS else if p = 0 then EPS * Real.log (EPS / q) else p * Real.log (p / q)
/-- One element of `derivative_kl_divergence` (689-704). -/
noncomputable def dKl (p q : ℝ) : ℝ := if p = 0 ∨ q = 0 then 0 else Real.log (p / q) + 1

/-- `entropy` (`/repo/src/math_functions.c` 706-708). -/
noncomputable def entropy (p : ℝ) : ℝ := -p * Real.log p
/-- `derivative_entropy` (717-719). -/
noncomputable def dEntropy (p : ℝ) : ℝ := -1 - Real.log p

/-- `max_float(0, x)` (`/repo/src/math_functions.c` 44-48). -/
noncomputable def maxZero (x : ℝ) : ℝ := if 0 > x then 0 else x

/-- `constrantive_loss` (`/repo/src/math_functions.c` 729-731). -/
noncomputable def contrastive (p y margin : ℝ) : ℝ :=
  y * p * p * 1 / 2 + (1 - y) * maxZero (margin - p) * maxZero (margin - p) * 1 / 2
/-- `derivative_constrantive_loss` (733-742). The C function falls off its end
without a `return` when `y = 0` and `margin ≤ p`; the value is then undefined
(`none`). -/
noncomputable def dContrastive (p y margin : ℝ) : Option ℝ :=
  if y = 0 then (if maxZero (margin - p) > 0 then some (p - margin) else none) else some p

/-! ### C21 -/

/-- **C21, mean squared error.** -/
theorem C21_mse (p y : ℝ) : HasDerivAt (fun p => mse p y) (dMse p y) p := by
  have h := (((hasDerivAt_id p).sub_const y).fun_mul ((hasDerivAt_id p).sub_const y)).div_const 2
  refine HasDerivAt.congr_deriv h ?_
  simp only [dMse, id]; ring

/-- **C21, cross entropy.** For predictions strictly between 0 and 1. -/
theorem C21_cross_entropy (p y : ℝ) (h0 : 0 < p) (h1 : p < 1) :
    HasDerivAt (fun p => crossEntropy p y) (dCrossEntropy p y) p := by
  have ha : HasDerivAt (fun p : ℝ => -y * Real.log p - (1 - y) * Real.log (1 - p))
      (-y * (p)⁻¹ - (1 - y) * (-1 / (1 - p))) p := by
    apply HasDerivAt.sub
    · exact (Real.hasDerivAt_log h0.ne').const_mul (-y)
    · exact (((hasDerivAt_id p).const_sub 1).log (by simp; linarith)).const_mul (1 - y)
  have hb : HasDerivAt (fun p => crossEntropy p y) (-y * (p)⁻¹ - (1 - y) * (-1 / (1 - p))) p := by
    refine ha.congr_of_eventuallyEq ?_
    filter_upwards [Ioi_mem_nhds h0] with q hq
    simp [crossEntropy, (show (0 : ℝ) < q from hq).ne']
  refine hb.congr_deriv ?_
  have h2 : 1 - p ≠ 0 := by linarith
  unfold dCrossEntropy
  field_simp
  ring

example : (0 : ℝ) < 1 / 2 ∧ (1 / 2 : ℝ) < 1 := by norm_num

/-- **C21, reduced cross entropy after softmax.** For targets summing to one, the
derivative of `Σ_i cross_entropy_reduced(softmax(x)_i, y_i)` in `x_j` is the
library's `softmax(x)_j - y_j`. -/
theorem C21_cross_entropy_softmax (n : Nat) (x y : Nat → ℝ) (j : Nat) (hj : j < n)
    (hy : ∑ i ∈ Finset.range n, y i = 1) :
    HasDerivAt (fun t => ∑ i ∈ Finset.range n,
        crossEntropyReduced (Softmax.smax n (Function.update x j t) i) (y i))
      (dCrossEntropyReduced (Softmax.smax n x j) (y j)) (x j) := by
  have hpos : ∀ t, 0 < ∑ k ∈ Finset.range n, Real.exp (Function.update x j t k) := fun t =>
    Softmax.sum_exp_pos _ ⟨j, by simp [hj]⟩ _
  have heq : (fun t => ∑ i ∈ Finset.range n,
        crossEntropyReduced (Softmax.smax n (Function.update x j t) i) (y i)) =
      fun t => Real.log (∑ k ∈ Finset.range n, Real.exp (Function.update x j t k)) -
        ∑ i ∈ Finset.range n, y i * Function.update x j t i := by
    funext t
    have : ∀ i, crossEntropyReduced (Softmax.smax n (Function.update x j t) i) (y i) =
        y i * Real.log (∑ k ∈ Finset.range n, Real.exp (Function.update x j t k)) -
          y i * Function.update x j t i := by
      intro i
      unfold crossEntropyReduced Softmax.smax
      have h1 := Real.exp_pos (Function.update x j t i)
      rw [if_neg (div_pos h1 (hpos t)).ne', Real.log_div h1.ne' (hpos t).ne', Real.log_exp]
      ring
    simp only [this]
    rw [Finset.sum_sub_distrib, ← Finset.sum_mul, hy, one_mul]
  rw [heq]
  have hnum : ∀ i, HasDerivAt (fun t => Real.exp (Function.update x j t i))
      (if i = j then Real.exp (x j) else 0) (x j) := by
    intro i
    by_cases h : i = j
    · subst h
      simpa using Real.hasDerivAt_exp (x i)
    · simp only [h, if_false]
      have : (fun t => Real.exp (Function.update x j t i)) = fun _ => Real.exp (x i) := by
        funext t; simp [h]
      rw [this]
      exact hasDerivAt_const _ _
  have hden : HasDerivAt (fun t => ∑ k ∈ Finset.range n, Real.exp (Function.update x j t k))
      (Real.exp (x j)) (x j) := by
    have := HasDerivAt.fun_sum (u := Finset.range n)
      (A := fun k t => Real.exp (Function.update x j t k))
      (A' := fun k => if k = j then Real.exp (x j) else 0) (x := x j) (fun k _ => hnum k)
    simpa [Finset.sum_ite_eq', hj] using this
  have hlin : HasDerivAt (fun t => ∑ i ∈ Finset.range n, y i * Function.update x j t i)
      (y j) (x j) := by
    have := HasDerivAt.fun_sum (u := Finset.range n)
      (A := fun i t => y i * Function.update x j t i)
      (A' := fun i => if i = j then y j else 0) (x := x j) (fun i _ => by
        by_cases h : i = j
        · subst h
          simpa using (hasDerivAt_id (x i)).const_mul (y i)
        · have : (fun t => y i * Function.update x j t i) = fun _ => y i * x i := by
            funext t; simp [h]
          rw [this]
          simpa [h] using hasDerivAt_const (x j) (y i * x i))
    simpa [Finset.sum_ite_eq', hj] using this
  have h := (hden.log (hpos (x j)).ne').sub hlin
  refine h.congr_deriv ?_
  simp [dCrossEntropyReduced, Softmax.smax]

/-- A target vector meeting the hypothesis. -/
example : ∑ i ∈ Finset.range 3, (fun i : Nat => if i = 1 then (1 : ℝ) else 0) i = 1 := by simp

/-- **C21, KL divergence.** For positive predictions and targets. -/
theorem C21_kl (p q : ℝ) (hp : 0 < p) (hq : 0 < q) :
    HasDerivAt (fun p => kl p q) (dKl p q) p := by
  have ha : HasDerivAt (fun p : ℝ => p * Real.log (p / q)) (1 * Real.log (p / q) + p * (1 / q / (p / q))) p := by
    apply (hasDerivAt_id p).mul
    exact ((hasDerivAt_id p).div_const q).log (by simpa using (div_pos hp hq).ne')
  have hb : HasDerivAt (fun p => kl p q) (1 * Real.log (p / q) + p * (1 / q / (p / q))) p := by
    refine ha.congr_of_eventuallyEq ?_
    filter_upwards [Ioi_mem_nhds hp] with r hr
    simp [kl, (show (0 : ℝ) < r from hr).ne', hq.ne']
  refine hb.congr_deriv ?_
  simp only [dKl, hp.ne', hq.ne', or_self, if_false]
  field_simp

/-- **C21, entropy.** -/
theorem C21_entropy (p : ℝ) (hp : 0 < p) : HasDerivAt entropy (dEntropy p) p := by
  have h := (hasDerivAt_neg p).fun_mul (Real.hasDerivAt_log hp.ne')
  refine HasDerivAt.congr_deriv h ?_
  unfold dEntropy
  field_simp
  ring

/-- **C21, focal loss.** For predictions strictly between 0 and 1, every exponent
and every label. -/
theorem C21_focal (p y gamma : ℝ) (h0 : 0 < p) (h1 : p < 1) :
    HasDerivAt (fun p => focal p y gamma) (dFocal p y gamma) p := by
  -- derivative of `-(1-t)^γ log t` at `0 < t < 1`
  have key : ∀ t : ℝ, 0 < t → t < 1 → HasDerivAt (fun t : ℝ => -(1 - t) ^ gamma * Real.log t)
      (gamma * (1 - t) ^ (gamma - 1) * Real.log t - (1 - t) ^ gamma / t) t := by
    intro t ht0 ht1
    have ha : HasDerivAt (fun t : ℝ => (1 - t) ^ gamma) (-1 * gamma * (1 - t) ^ (gamma - 1)) t := by
      have := ((hasDerivAt_id t).const_sub 1).rpow_const (p := gamma) (Or.inl (by simp; linarith))
      simpa using this
    have hb := ha.fun_neg.fun_mul (Real.hasDerivAt_log ht0.ne')
    refine HasDerivAt.congr_deriv hb ?_
    rw [div_eq_mul_inv]
    ring
  by_cases hy : y = 1
  · have hb : HasDerivAt (fun p => focal p y gamma)
        (gamma * (1 - p) ^ (gamma - 1) * Real.log p - (1 - p) ^ gamma / p) p := by
      refine (key p h0 h1).congr_of_eventuallyEq ?_
      filter_upwards [Ioi_mem_nhds h0] with q hq
      simp [focal, hy, (show (0 : ℝ) < q from hq).ne']
    refine hb.congr_deriv ?_
    simp [dFocal, hy]
  · have hc := (key (1 - p) (by linarith) (by linarith)).comp p ((hasDerivAt_id p).const_sub 1)
    have hb : HasDerivAt (fun p => focal p y gamma)
        ((gamma * (1 - (1 - p)) ^ (gamma - 1) * Real.log (1 - p) -
          (1 - (1 - p)) ^ gamma / (1 - p)) * -1) p := by
      refine hc.congr_of_eventuallyEq ?_
      filter_upwards [Iio_mem_nhds h1] with q hq
      have : 1 - q ≠ 0 := by have : q < 1 := hq; linarith
      simp [focal, hy, this]
    refine hb.congr_deriv ?_
    simp only [dFocal, hy, if_false]
    ring

/-- **C21, modified Huber loss.** Where the two outer pieces do not meet the
derivative is exact; where they meet (`y·p = -1`) the library value is the
derivative whenever there is one. -/
theorem C21_modified_huber (p y t1 t2 : ℝ) :
    (y * p ≠ -1 → HasDerivAt (fun p => modHuber p y t1 t2) (dModHuber p y t1 t2) p) ∧
    (∀ d, HasDerivAt (fun p => modHuber p y t1 t2) d p → dModHuber p y t1 t2 = d) := by
  -- the inner piece `max(0, t1 - p y)²`
  have hin : ∀ p, HasDerivAt (fun p => if t1 - p * y > 0 then (t1 - p * y) * (t1 - p * y) else 0)
      (if t1 - p * y > 0 then -2 * y * t1 + 2 * p * y * y else 0) p := by
    intro p
    have hsq : ∀ p, HasDerivAt (fun p : ℝ => (t1 - p * y) * (t1 - p * y))
        (-2 * y * t1 + 2 * p * y * y) p := by
      intro p
      have h := ((hasDerivAt_id p).mul_const y).const_sub t1
      refine HasDerivAt.congr_deriv (h.fun_mul h) ?_
      simp only [id]; ring
    have hcont : Continuous fun p : ℝ => t1 - p * y := by fun_prop
    rcases lt_trichotomy (t1 - p * y) 0 with hlt | heq | hgt
    · rw [if_neg (by linarith)]
      refine (hasDerivAt_const p (0 : ℝ)).congr_of_eventuallyEq ?_
      filter_upwards [hcont.continuousAt.eventually_lt_const (show t1 - p * y < 0 from hlt)] with q hq
      simp [not_lt.2 hq.le, show ¬ q * y < t1 by linarith]
    · rw [if_neg (by linarith)]
      -- bounded by the square, which has derivative 0 here
      have hz : -2 * y * t1 + 2 * p * y * y = 0 := by
        have : t1 = p * y := by linarith
        rw [this]; ring
      have h2 := hasDerivAt_iff_isLittleO.1 (hsq p)
      rw [hz, heq] at h2
      rw [hasDerivAt_iff_isLittleO]
      refine (Asymptotics.IsBigO.of_norm_le (fun q => ?_)).trans_isLittleO h2
      simp only [heq, lt_irrefl, gt_iff_lt, if_false, smul_zero, sub_zero, mul_zero]
      split_ifs
      · rw [Real.norm_eq_abs, abs_of_nonneg (mul_self_nonneg _)]
      · rw [norm_zero]; exact mul_self_nonneg _
    · rw [if_pos hgt]
      refine (hsq p).congr_of_eventuallyEq ?_
      filter_upwards [hcont.continuousAt.eventually_const_lt (show 0 < t1 - p * y from hgt)] with q hq
      simp [show q * y < t1 by linarith]
  have hcont : Continuous fun p : ℝ => y * p := by fun_prop
  have h1 : y * p ≠ -1 → HasDerivAt (fun p => modHuber p y t1 t2) (dModHuber p y t1 t2) p := by
    intro hne
    rcases lt_or_gt_of_ne hne with h | h
    · have hl : HasDerivAt (fun p : ℝ => -t2 * p * y) (-t2 * y) p := by
        simpa using ((hasDerivAt_id p).const_mul (-t2)).mul_const y
      unfold dModHuber
      rw [if_neg (by linarith)]
      refine hl.congr_of_eventuallyEq ?_
      filter_upwards [hcont.continuousAt.eventually_lt_const (show y * p < -1 from h)] with q hq
      simp [modHuber, not_le.2 hq]
    · unfold dModHuber
      rw [if_pos (by linarith)]
      refine (hin p).congr_of_eventuallyEq ?_
      filter_upwards [hcont.continuousAt.eventually_const_lt (show -1 < y * p from h)] with q hq
      simp [modHuber, hq.le]
  refine ⟨h1, fun d hd => ?_⟩
  by_cases hne : y * p = -1
  · have hy : y ≠ 0 := by rintro rfl; norm_num at hne
    have hval : dModHuber p y t1 t2 = if t1 - p * y > 0 then -2 * y * t1 + 2 * p * y * y else 0 := by
      unfold dModHuber; rw [if_pos (by linarith)]
    rw [hval]
    rcases lt_or_gt_of_ne hy with h | h
    · have hw : HasDerivWithinAt (fun p => if t1 - p * y > 0 then (t1 - p * y) * (t1 - p * y) else 0)
          d (Iic p) p := by
        refine hd.hasDerivWithinAt.congr (fun q hq => ?_) ?_
        · have : y * p ≤ y * q := mul_le_mul_of_nonpos_left hq h.le
          simp [modHuber, show -1 ≤ y * q by linarith]
        · simp [modHuber, show -1 ≤ y * p by linarith]
      exact (uniqueDiffWithinAt_Iic p).eq_deriv (s := Iic p) (hin p).hasDerivWithinAt hw
    · have hw : HasDerivWithinAt (fun p => if t1 - p * y > 0 then (t1 - p * y) * (t1 - p * y) else 0)
          d (Ici p) p := by
        refine hd.hasDerivWithinAt.congr (fun q hq => ?_) ?_
        · have : y * p ≤ y * q := mul_le_mul_of_nonneg_left hq h.le
          simp [modHuber, show -1 ≤ y * q by linarith]
        · simp [modHuber, show -1 ≤ y * p by linarith]
      exact (uniqueDiffWithinAt_Ici p).eq_deriv (s := Ici p) (hin p).hasDerivWithinAt hw
  · exact (h1 hne).unique hd

/-- The Huber loss is differentiable with derivative `p - y` inside the threshold. -/
theorem huber_inner (p y t : ℝ) (h : |p - y| < t) : HasDerivAt (fun p => huber p y t) (p - y) p := by
  have hm := C21_mse p y
  refine HasDerivAt.congr_of_eventuallyEq (f := fun p => mse p y) hm ?_
  have hcont : Continuous fun p : ℝ => |p - y| := by fun_prop
  filter_upwards [hcont.continuousAt.eventually_lt_const (show |p - y| < t from h)] with q hq
  simp [huber, mse, hq.le, abs_mul_abs_self]

/-- **C21 (refuted for Huber).** Inside the threshold the library returns the
*negated* derivative: whenever prediction and target differ by less than the
threshold it is not the derivative of the loss. -/
theorem C21_huber_refuted (p y t : ℝ) (h : |p - y| < t) (hne : p ≠ y) :
    ¬ HasDerivAt (fun p => huber p y t) (dHuber p y t) p := by
  intro hd
  have := hd.unique (huber_inner p y t h)
  unfold dHuber at this
  rw [if_pos h.le] at this
  exact hne (by linarith)

/-- **C21, Huber (partial).** The library's value is the negated derivative at
every point, on both sides of the threshold; missing: the sign. -/
theorem C21_huber_partial (p y t : ℝ) (ht : 0 < t) :
    HasDerivAt (fun p => huber p y t) (-dHuber p y t) p := by
  have hcont : Continuous fun p : ℝ => |p - y| := by fun_prop
  -- right and left outer pieces
  have hR : HasDerivAt (fun p : ℝ => t * (p - y) - t * t / 2) t p := by
    simpa using (((hasDerivAt_id p).sub_const y).const_mul t).sub_const (t * t / 2)
  have hL : HasDerivAt (fun p : ℝ => t * -(p - y) - t * t / 2) (-t) p := by
    simpa using (((hasDerivAt_id p).sub_const y).neg.const_mul t).sub_const (t * t / 2)
  rcases lt_trichotomy |p - y| t with h | h | h
  · refine (huber_inner p y t h).congr_deriv ?_
    unfold dHuber
    rw [if_pos h.le]; ring
  · -- the boundary: compare with the parabola, the difference is quadratic
    have hm := C21_mse p y
    have hd : -dHuber p y t = dMse p y := by
      unfold dHuber dMse
      rw [if_pos h.le]; ring
    rw [hd]
    have hdiff : HasDerivAt (fun q => huber q y t - mse q y) 0 p := by
      have h2 : HasDerivAt (fun q : ℝ => (q - p) * (q - p)) 0 p := by
        have := ((hasDerivAt_id p).sub_const p).fun_mul ((hasDerivAt_id p).sub_const p)
        simpa using this
      have h3 := hasDerivAt_iff_isLittleO.1 h2
      rw [hasDerivAt_iff_isLittleO]
      have hpp : huber p y t - mse p y = 0 := by
        simp [huber, mse, h.le, abs_mul_abs_self]
      refine (Asymptotics.IsBigO.of_norm_le (fun q => ?_)).trans_isLittleO h3
      simp only [hpp, smul_zero, sub_zero, sub_self, mul_zero]
      unfold huber
      split_ifs with hq
      · rw [abs_mul_abs_self, mse, sub_self, norm_zero]
        exact mul_self_nonneg _
      · have e : t * |q - y| - t * t / 2 - mse q y = -((|q - y| - t) * (|q - y| - t)) / 2 := by
          have : mse q y = |q - y| * |q - y| / 2 := by rw [abs_mul_abs_self]; rfl
          rw [this]; ring
        rw [e, Real.norm_eq_abs, ← abs_mul_abs_self (q - p), abs_div, abs_neg, abs_mul]
        have hb : |(|q - y| - t)| ≤ |q - p| := by
          rw [← h]
          calc |(|q - y| - |p - y|)| ≤ |(q - y) - (p - y)| := abs_abs_sub_abs_le _ _
            _ = |q - p| := by congr 1; ring
        have hb2 := mul_le_mul hb hb (abs_nonneg _) (abs_nonneg _)
        have h2 : |(2 : ℝ)| = 2 := by norm_num
        rw [h2]
        have := mul_nonneg (abs_nonneg (|q - y| - t)) (abs_nonneg (|q - y| - t))
        linarith
    have hsum := hdiff.add hm
    rw [zero_add] at hsum
    refine hsum.congr_of_eventuallyEq ?_
    filter_upwards with q
    simp
  · have hne : p - y ≠ 0 := by
      intro h0; rw [h0, abs_zero] at h; linarith
    unfold dHuber
    rw [if_neg (by linarith)]
    rcases lt_or_gt_of_ne hne with hs | hs
    · rw [abs_of_neg hs]
      have : -(t * (y - p) / -(p - y)) = -t := by
        rw [show y - p = -(p - y) by ring, mul_div_assoc, div_self (neg_ne_zero.2 hne), mul_one]
      rw [this]
      refine hL.congr_of_eventuallyEq ?_
      have hc2 : Continuous fun p : ℝ => p - y := by fun_prop
      filter_upwards [hcont.continuousAt.eventually_const_lt (show t < |p - y| from h),
        hc2.continuousAt.eventually_lt_const (show p - y < 0 from hs)] with q hq hq2
      unfold huber
      rw [if_neg (by linarith), abs_of_neg hq2]
    · rw [abs_of_pos hs]
      have : -(t * (y - p) / (p - y)) = t := by
        rw [show y - p = -(p - y) by ring, mul_neg, neg_div, neg_neg, mul_div_assoc, div_self hne,
          mul_one]
      rw [this]
      refine hR.congr_of_eventuallyEq ?_
      have hc2 : Continuous fun p : ℝ => p - y := by fun_prop
      filter_upwards [hcont.continuousAt.eventually_const_lt (show t < |p - y| from h),
        hc2.continuousAt.eventually_const_lt (show 0 < p - y from hs)] with q hq hq2
      unfold huber
      rw [if_neg (by linarith), abs_of_pos hq2]

example : |(1 : ℝ) - 0| < 2 ∧ (1 : ℝ) ≠ 0 := by norm_num

/-- **C21, contrastive loss (partial).** For labels 0 and 1 the derivative is
exact wherever the library returns a value. -/
theorem C21_contrastive_partial (p y margin d : ℝ) (hy : y = 0 ∨ y = 1)
    (hd : dContrastive p y margin = some d) :
    HasDerivAt (fun p => contrastive p y margin) d p := by
  unfold dContrastive at hd
  rcases hy with rfl | rfl
  · rw [if_pos rfl] at hd
    split_ifs at hd with h
    obtain rfl : p - margin = d := by simpa using hd
    have hm : margin - p > 0 := by
      unfold maxZero at h
      split_ifs at h with h2
      · exact absurd h (lt_irrefl _)
      · exact h
    have hs := (hasDerivAt_id p).const_sub margin
    have h3 := (hs.fun_mul hs).div_const 2
    have hb : HasDerivAt (fun p => contrastive p 0 margin)
        ((-1 * (margin - p) + (margin - p) * -1) / 2) p := by
      refine HasDerivAt.congr_of_eventuallyEq (f := fun p => (margin - p) * (margin - p) / 2) h3 ?_
      have hcont : Continuous fun p : ℝ => margin - p := by fun_prop
      filter_upwards [hcont.continuousAt.eventually_const_lt (show 0 < margin - p from hm)] with q hq
      simp [contrastive, maxZero, not_lt.2 hq.le]
    refine hb.congr_deriv ?_
    ring
  · rw [if_neg one_ne_zero] at hd
    obtain rfl : p = d := by simpa using hd
    have h3 := ((hasDerivAt_id p).fun_mul (hasDerivAt_id p)).div_const 2
    have hb : HasDerivAt (fun p => contrastive p 1 margin) ((1 * p + p * 1) / 2) p := by
      refine HasDerivAt.congr_of_eventuallyEq (f := fun p : ℝ => p * p / 2) h3 ?_
      filter_upwards with q
      simp [contrastive]
    refine hb.congr_deriv ?_
    ring

example : dContrastive 1 0 3 = some (1 - 3) := by
  norm_num [dContrastive, maxZero]

/-- **C21 (refuted for the contrastive loss).** For a negative pair at or beyond
the margin the derivative function returns no value at all. -/
theorem C21_contrastive_refuted (p margin : ℝ) (h : margin ≤ p) : dContrastive p 0 margin = none := by
  unfold dContrastive maxZero
  rw [if_pos rfl]
  split_ifs with h1 h2 h2
  · exact absurd h2 (lt_irrefl _)
  · rfl
  · linarith
  · rfl

end LLab.Loss
