import Mathlib.Analysis.SpecialFunctions.Exp
import Mathlib.Analysis.SpecialFunctions.ExpDeriv
import Mathlib.Analysis.SpecialFunctions.Log.Deriv
import Mathlib.Analysis.SpecialFunctions.Pow.Deriv
import Mathlib.Analysis.Calculus.Deriv.Add
import Mathlib.Analysis.Calculus.Deriv.Mul
import Mathlib.Analysis.Calculus.Deriv.Inv
import Mathlib.Analysis.Calculus.Deriv.Pow
import Mathlib.Analysis.Calculus.Deriv.Comp
import Mathlib.Analysis.Calculus.TangentCone.Real
import Mathlib.Analysis.Complex.Trigonometric
import Mathlib.Tactic.FieldSimp
import Mathlib.Tactic.Positivity
import Mathlib.Tactic.Linarith
import Mathlib.Tactic.NormNum

/-!
Activation functions of `/repo/src/math_functions.c` over the reals and
property C20.  The `_array` functions of the C code apply these pointwise.
-/

namespace LLab.Act

open Set

/-- `sigmoid` (`/repo/src/math_functions.c` 258-265). -/
noncomputable def sigmoid (x : ℝ) : ℝ := 1 / (1 + Real.exp (-x))

/-- `derivative_sigmoid` (`/repo/src/math_functions.c` 289-292). -/
noncomputable def dSigmoid (x : ℝ) : ℝ := sigmoid x * (1 - sigmoid x)

/-- `derivative_sigmoid_given_the_sigmoid` (`/repo/src/math_functions.c` 293-295). -/
noncomputable def dSigmoidGiven (y : ℝ) : ℝ := y * (1 - y)

/-- `abs_sigmoid` (`/repo/src/math_functions.c` 267-274). -/
noncomputable def absSigmoid (x : ℝ) : ℝ := 1 / (1 + Real.exp (-|x|))

/-- `relu` (`/repo/src/math_functions.c` 310-315). -/
noncomputable def relu (x : ℝ) : ℝ := if x > 0 then x else 0

/-- `derivative_relu` (`/repo/src/math_functions.c` 324-329). -/
noncomputable def dRelu (x : ℝ) : ℝ := if x > 0 then 1 else 0

/-- `LEAKY_RELU_THRESHOLD` (`/repo/src/llab.h` 131). -/
noncomputable def leakyThreshold : ℝ := 0.1

/-- `leaky_relu` (`/repo/src/math_functions.c` 338-343). -/
noncomputable def leakyRelu (x : ℝ) : ℝ := if x > 0 then x else x * leakyThreshold

/-- `derivative_leaky_relu` (`/repo/src/math_functions.c` 352-357). -/
noncomputable def dLeakyRelu (x : ℝ) : ℝ := if x > 0 then 1 else leakyThreshold

/-- `tanhh` (`/repo/src/math_functions.c` 366-372). -/
noncomputable def tanhh (x : ℝ) : ℝ := (Real.exp (2 * x) - 1) / (Real.exp (2 * x) + 1)

/-- `derivative_tanhh` (`/repo/src/math_functions.c` 381-384). -/
noncomputable def dTanhh (x : ℝ) : ℝ := 1 - tanhh x * tanhh x

/-- `elu` (`/repo/src/math_functions.c` 772-776). -/
noncomputable def elu (z a : ℝ) : ℝ := if z > 0 then z else a * (Real.exp z - 1)

/-- `derivative_elu` (`/repo/src/math_functions.c` 786-791). -/
noncomputable def dElu (z a : ℝ) : ℝ := if z > 0 then 1 else a * Real.exp z

/-! ### C20 -/

/-- **C20, sigmoid.** -/
theorem C20_sigmoid (x : ℝ) : HasDerivAt sigmoid (dSigmoid x) x := by
  have hp : 0 < 1 + Real.exp (-x) := by have := Real.exp_pos (-x); linarith
  have h1 : HasDerivAt (fun x : ℝ => Real.exp (-x)) (Real.exp (-x) * -1) x :=
    (hasDerivAt_neg x).exp
  have h2 : HasDerivAt (fun x : ℝ => 1 + Real.exp (-x)) (Real.exp (-x) * -1) x := h1.const_add 1
  have h3 := (hasDerivAt_const x (1 : ℝ)).fun_div h2 hp.ne'
  refine HasDerivAt.congr_deriv h3 ?_
  unfold dSigmoid sigmoid
  field_simp
  ring

/-- **C20, sigmoid from its value.** -/
theorem C20_sigmoid_given (x : ℝ) : HasDerivAt sigmoid (dSigmoidGiven (sigmoid x)) x :=
  C20_sigmoid x

/-- **C20, tanh.** -/
theorem C20_tanh (x : ℝ) : HasDerivAt tanhh (dTanhh x) x := by
  have hp : 0 < Real.exp (2 * x) + 1 := by have := Real.exp_pos (2 * x); linarith
  have h1 : HasDerivAt (fun x : ℝ => Real.exp (2 * x)) (Real.exp (2 * x) * (2 * 1)) x :=
    ((hasDerivAt_id x).const_mul 2).exp
  have h3 := (h1.sub_const 1).fun_div (h1.add_const 1) hp.ne'
  refine HasDerivAt.congr_deriv h3 ?_
  unfold dTanhh tanhh
  field_simp
  ring

/-- A function that is `f` to the right of 0 and `g` up to 0 has the derivative of
the right piece for `x > 0` and of the left piece for `x < 0`. -/
theorem hasDerivAt_pieces {f g : ℝ → ℝ} {x f' : ℝ} (hx : x ≠ 0)
    (h1 : 0 < x → HasDerivAt f f' x) (h2 : x < 0 → HasDerivAt g f' x) :
    HasDerivAt (fun x => if x > 0 then f x else g x) f' x := by
  rcases lt_or_gt_of_ne hx with h | h
  · refine (h2 h).congr_of_eventuallyEq ?_
    filter_upwards [Iio_mem_nhds h] with y hy
    simp [not_lt.2 (le_of_lt (show y < 0 from hy))]
  · refine (h1 h).congr_of_eventuallyEq ?_
    filter_upwards [Ioi_mem_nhds h] with y hy
    simp [show (0 : ℝ) < y from hy]

/-- If the function given by two pieces that agree at 0 is differentiable at 0,
its derivative is that of either piece. -/
theorem deriv_pieces_zero {f g : ℝ → ℝ} {d f' g' : ℝ} (h0 : f 0 = g 0)
    (hf : HasDerivAt f f' 0) (hg : HasDerivAt g g' 0)
    (h : HasDerivAt (fun x => if x > 0 then f x else g x) d 0) : d = f' ∧ d = g' := by
  constructor
  · have h1 : HasDerivWithinAt f d (Ici 0) 0 := by
      refine h.hasDerivWithinAt.congr (fun y hy => ?_) (by simp [h0])
      rcases eq_or_lt_of_le (show (0 : ℝ) ≤ y from hy) with h' | h'
      · subst h'; simp [h0]
      · simp [h']
    exact (uniqueDiffWithinAt_Ici (0 : ℝ)).eq_deriv (s := Ici (0 : ℝ)) h1 hf.hasDerivWithinAt
  · have h1 : HasDerivWithinAt g d (Iic 0) 0 := by
      refine h.hasDerivWithinAt.congr (fun y hy => ?_) (by simp)
      simp [not_lt.2 (show y ≤ 0 from hy)]
    exact (uniqueDiffWithinAt_Iic (0 : ℝ)).eq_deriv (s := Iic (0 : ℝ)) h1 hg.hasDerivWithinAt

/-- **C20, relu.** Away from 0 the library derivative is the derivative, and
wherever relu has a derivative it is the library's (at 0 it has none). -/
theorem C20_relu (x : ℝ) : (x ≠ 0 → HasDerivAt relu (dRelu x) x) ∧
    (∀ d, HasDerivAt relu d x → dRelu x = d) := by
  have h1 : x ≠ 0 → HasDerivAt relu (dRelu x) x := by
    intro hx
    unfold relu dRelu
    apply hasDerivAt_pieces hx
    · intro h; simp only [gt_iff_lt, h, if_true]; exact hasDerivAt_id x
    · intro h; simp only [gt_iff_lt, not_lt.2 h.le, if_false]; exact hasDerivAt_const x 0
  refine ⟨h1, fun d hd => ?_⟩
  by_cases hx : x = 0
  · subst hx
    obtain ⟨a, b⟩ := deriv_pieces_zero (f := fun x => x) (g := fun _ => 0) rfl (hasDerivAt_id 0)
      (hasDerivAt_const 0 0) hd
    rw [a] at b; norm_num at b
  · exact (h1 hx).unique hd

/-- **C20, leaky relu.** -/
theorem C20_leaky_relu (x : ℝ) : (x ≠ 0 → HasDerivAt leakyRelu (dLeakyRelu x) x) ∧
    (∀ d, HasDerivAt leakyRelu d x → dLeakyRelu x = d) := by
  have hl : ∀ x : ℝ, HasDerivAt (fun x : ℝ => x * leakyThreshold) leakyThreshold x := fun x => by
    simpa using (hasDerivAt_id x).mul_const leakyThreshold
  have h1 : x ≠ 0 → HasDerivAt leakyRelu (dLeakyRelu x) x := by
    intro hx
    unfold leakyRelu dLeakyRelu
    apply hasDerivAt_pieces hx
    · intro h; simp only [gt_iff_lt, h, if_true]; exact hasDerivAt_id x
    · intro h; simp only [gt_iff_lt, not_lt.2 h.le, if_false]; exact hl x
  refine ⟨h1, fun d hd => ?_⟩
  by_cases hx : x = 0
  · subst hx
    obtain ⟨a, b⟩ := deriv_pieces_zero (f := fun x => x) (g := fun x => x * leakyThreshold) (by simp)
      (hasDerivAt_id 0) (hl 0) hd
    rw [a] at b; unfold leakyThreshold at b; norm_num at b
  · exact (h1 hx).unique hd

/-- **C20, elu.** At 0 the derivative exists only for `a = 1`, and then the
library returns it. -/
theorem C20_elu (a x : ℝ) : (x ≠ 0 → HasDerivAt (fun z => elu z a) (dElu x a) x) ∧
    (∀ d, HasDerivAt (fun z => elu z a) d x → dElu x a = d) := by
  have hl : ∀ x : ℝ, HasDerivAt (fun x : ℝ => a * (Real.exp x - 1)) (a * Real.exp x) x := fun x =>
    ((Real.hasDerivAt_exp x).sub_const 1).const_mul a
  have h1 : x ≠ 0 → HasDerivAt (fun z => elu z a) (dElu x a) x := by
    intro hx
    unfold elu dElu
    apply hasDerivAt_pieces hx
    · intro h; simp only [gt_iff_lt, h, if_true]; exact hasDerivAt_id x
    · intro h; simp only [gt_iff_lt, not_lt.2 h.le, if_false]; exact hl x
  refine ⟨h1, fun d hd => ?_⟩
  by_cases hx : x = 0
  · subst hx
    obtain ⟨_, b⟩ := deriv_pieces_zero (f := fun x => x) (g := fun x => a * (Real.exp x - 1)) (by simp)
      (hasDerivAt_id 0) (hl 0) hd
    simp [dElu, b]
  · exact (h1 hx).unique hd

/-- The forward functions on a non-trivial value: relu is not the identity, elu
has a genuine left piece. -/
example : relu (-3) = 0 ∧ relu 2 = 2 ∧ leakyRelu (-10) = -1 ∧ elu 0 5 = 0 := by
  norm_num [relu, leakyRelu, leakyThreshold, elu]

/-! ### Ranges -/

theorem sigmoid_pos (x : ℝ) : 0 < sigmoid x := by
  unfold sigmoid; have := Real.exp_pos (-x); positivity

theorem sigmoid_lt_one (x : ℝ) : sigmoid x < 1 := by
  unfold sigmoid
  have := Real.exp_pos (-x)
  rw [div_lt_one (by linarith)]
  linarith

theorem tanhh_lt_one (x : ℝ) : tanhh x < 1 := by
  unfold tanhh
  have := Real.exp_pos (2 * x)
  rw [div_lt_one (by linarith)]
  linarith

theorem neg_one_lt_tanhh (x : ℝ) : -1 < tanhh x := by
  unfold tanhh
  have := Real.exp_pos (2 * x)
  rw [lt_div_iff₀ (by linarith)]
  linarith

/-- **C20, values.** The activations are the functions their names promise:
the hyperbolic tangent, the logistic function, `max x 0`, the piecewise linear
leaky rectifier with slope 1/10 and, for a scale of at least zero, an `elu` that is
the identity above zero and never below `-a`. -/
theorem C20_values (x : ℝ) :
    tanhh x = Real.tanh x ∧ sigmoid x = (1 + Real.tanh (x / 2)) / 2 ∧ absSigmoid x = sigmoid |x| ∧
    relu x = max x 0 ∧ leakyRelu x = max x (x / 10) ∧
    ∀ a, 0 ≤ a → (0 < x → elu x a = x) ∧ (x ≤ 0 → -a ≤ elu x a ∧ elu x a ≤ 0) ∧ elu 0 a = 0 := by
  have ht : ∀ x, tanhh x = Real.tanh x := by
    intro x
    have h1 := Real.exp_pos x
    rw [Real.tanh_eq_sinh_div_cosh, Real.sinh_eq, Real.cosh_eq, Real.exp_neg, tanhh, two_mul, Real.exp_add]
    field_simp
  refine ⟨ht x, ?_, rfl, ?_, ?_, fun a ha => ⟨fun h => ?_, fun h => ?_, ?_⟩⟩
  · rw [← ht, tanhh, sigmoid, show 2 * (x / 2) = x by ring, Real.exp_neg]
    have := Real.exp_pos x
    field_simp
    ring
  · unfold relu
    split_ifs with h
    · exact (max_eq_left h.le).symm
    · exact (max_eq_right (not_lt.1 h)).symm
  · unfold leakyRelu leakyThreshold
    split_ifs with h
    · rw [max_eq_left]; linarith
    · rw [max_eq_right] <;> linarith
  · simp [elu, h]
  · rw [elu, if_neg (not_lt.2 h)]
    have h1 := Real.exp_pos x
    have h2 : Real.exp x ≤ 1 := Real.exp_le_one_iff.2 h
    constructor <;> nlinarith
  · simp [elu]

end LLab.Act
