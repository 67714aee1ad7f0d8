import Verif.Aco.Whale
import Verif.Aco.Gravity
import Mathlib.Analysis.SpecialFunctions.Trigonometric.Basic
import Mathlib.Analysis.SpecialFunctions.Exp
import Mathlib.Analysis.Real.Pi.Bounds

/-!
How the swarm parameters of the ant colony search change over the iterations (`get_lambda_pso`, `get_lvalue_pso`, `update_gsa_params`,
`update_fa_params`, `update_woa_params` and the parts of `update_pso_params` and `update_psogsa_params` that do not concern the inertia, `/repo/src/aco_process.c` 1109-1154).
Property C169. Real arithmetic; `t` is the current, `T` the last iteration.
-/

namespace LLab.Aco.Schedules

/-! ### Model -/

/-- `get_lambda_pso` (`/repo/src/aco_process.c` 1109-1112), with the draw `r`. `none`: the end of the function is reached without a value. -/
noncomputable def lambdaPso (T t : Int) (r : ℝ) : Option ℝ := if (t : ℝ) < 0.75 * T then some r else none

/-- `get_lvalue_pso` (`/repo/src/aco_process.c` 1114-1118). -/
noncomputable def lvaluePso (T t : Int) (r : ℝ) : ℝ := if (t : ℝ) < 0.75 * T then 4 * r else -4

/-- `g` after `update_gsa_params` (`/repo/src/aco_process.c` 1120-1122) or `update_psogsa_params` (1153). -/
noncomputable def gravity (gZero alpha tc T t : ℝ) : ℝ := gZero / (1.0 + Real.exp (alpha * (t - tc) / T))

/-- `step_size` after `update_fa_params` (`/repo/src/aco_process.c` 1124-1126). -/
noncomputable def stepSize (T t : ℝ) : ℝ := 0.4 / (1.0 + Real.exp (0.015 * (t - T) / 3.0))

/-- `alpha_woa` after `update_woa_params` (`/repo/src/aco_process.c` 1138). -/
noncomputable def alphaWoa (T t : ℝ) : ℝ := 2.0 - 2.0 * t / T

/-- `weight_woa` after `update_woa_params` (`/repo/src/aco_process.c` 1139-1141). -/
noncomputable def weightWoa (T t : ℝ) : ℝ :=
  let temp := t / T
  let temp := temp * (temp * temp)
  1.0 - 2.0 * temp

/-! ### Theorems -/

theorem quot_range {T t : ℝ} (hT : 0 < T) (h0 : 0 ≤ t) (h1 : t ≤ T) : 0 ≤ t / T ∧ t / T ≤ 1 :=
  ⟨div_nonneg h0 hT.le, (div_le_one hT).2 h1⟩

/-- **C169 (gravity).** The gravity lies strictly between zero and `g_zero`, falls over the iterations, and is half of `g_zero` at `t_c`. -/
theorem C169_gravity (gZero alpha tc T : ℝ) (hg : 0 < gZero) (ha : 0 < alpha) (hT : 0 < T) (t : ℝ) :
    0 < gravity gZero alpha tc T t ∧ gravity gZero alpha tc T t < gZero ∧ gravity gZero alpha tc T tc = gZero / 2 ∧
      ∀ t', t < t' → gravity gZero alpha tc T t' < gravity gZero alpha tc T t := by
  have hpos := Real.exp_pos (alpha * (t - tc) / T)
  refine ⟨div_pos hg (by norm_num; linarith), ?_, ?_, ?_⟩
  · rw [gravity, div_lt_iff₀ (by norm_num; linarith)]
    nlinarith
  · rw [gravity, sub_self, mul_zero, zero_div, Real.exp_zero]
    norm_num
  · intro t' h
    rw [gravity, gravity]
    refine div_lt_div_of_pos_left hg (by norm_num; linarith) ?_
    have : Real.exp (alpha * (t - tc) / T) < Real.exp (alpha * (t' - tc) / T) :=
      Real.exp_lt_exp.2 (div_lt_div_of_pos_right (by nlinarith) hT)
    linarith

/-- **C169 (firefly step, partly).** The step size lies between 0.2 and 0.4 up to the last iteration and falls over the iterations.
Missing: it should fade out, see `C169_step_refuted`. -/
theorem C169_step_partial (T t : ℝ) (h : t ≤ T) : 0.2 ≤ stepSize T t ∧ stepSize T t < 0.4 ∧ ∀ t', t < t' → stepSize T t' < stepSize T t := by
  have hpos := Real.exp_pos (0.015 * (t - T) / 3.0)
  have hle : Real.exp (0.015 * (t - T) / 3.0) ≤ 1 := by
    refine (Real.exp_le_exp.2 (?_ : _ ≤ (0 : ℝ))).trans (le_of_eq Real.exp_zero)
    norm_num
    linarith
  have e1 : (1.0 : ℝ) = 1 := by norm_num
  have e2 : (0.2 : ℝ) * 2 = 0.4 := by norm_num
  refine ⟨?_, ?_, ?_⟩
  · rw [stepSize, e1, le_div_iff₀ (by linarith), ← e2]
    exact mul_le_mul_of_nonneg_left (by linarith) (by norm_num)
  · rw [stepSize, div_lt_iff₀ (by norm_num; linarith)]
    norm_num at hpos ⊢
    linarith
  · intro t' ht
    rw [stepSize, stepSize]
    refine div_lt_div_of_pos_left (by norm_num) (by norm_num at hpos ⊢; linarith) ?_
    have : Real.exp (0.015 * (t - T) / 3.0) < Real.exp (0.015 * (t' - T) / 3.0) := by
      refine Real.exp_lt_exp.2 ?_
      norm_num
      linarith
    linarith

/-- **C169 (refuted: the firefly step fades out).** At the last iteration, however many there are, the step size is still 0.2, half of its bound. -/
theorem C169_step_refuted (T : ℝ) : stepSize T T = 0.2 := by
  rw [stepSize, sub_self, mul_zero, zero_div, Real.exp_zero]
  norm_num

/-- **C169 (whales).** `alpha_woa` falls from 2 to 0, and is below one exactly in the second half. -/
theorem C169_alpha (T t : ℝ) (hT : 0 < T) (h0 : 0 ≤ t) (h1 : t ≤ T) :
    0 ≤ alphaWoa T t ∧ alphaWoa T t ≤ 2 ∧ alphaWoa T 0 = 2 ∧ alphaWoa T T = 0 ∧ (alphaWoa T t < 1 ↔ T / 2 < t) ∧ ∀ t', t < t' → alphaWoa T t' < alphaWoa T t := by
  obtain ⟨q0, q1⟩ := quot_range hT h0 h1
  have e : ∀ s, alphaWoa T s = 2 - 2 * (s / T) := by
    intro s
    rw [alphaWoa, mul_div_assoc]
    norm_num
  refine ⟨by rw [e]; linarith, by rw [e]; linarith, by rw [e]; norm_num, by rw [e, div_self hT.ne']; norm_num, ?_, ?_⟩
  · rw [e]
    constructor
    · intro h
      have : 1 / 2 < t / T := by linarith
      rw [lt_div_iff₀ hT] at this
      linarith
    · intro h
      have : 1 / 2 < t / T := by
        rw [lt_div_iff₀ hT]
        linarith
      linarith
  · intro t' h
    rw [e, e]
    have := div_lt_div_of_pos_right h hT
    linarith

/-- **C169 (whales stop searching).** In the second half of the iterations no candidate is drawn to another one any more: every move of a step is one around the best value. -/
theorem C169_exploit (T t : ℝ) (hT : 0 < T) (h0 : T / 2 < t) (h1 : t ≤ T) (R : Woa.Rule ℝ) (hR : R.alpha = alphaWoa T t) (best : ℝ) (d : Woa.Draw ℝ) (hd0 : 0 ≤ d.ra) (hd1 : d.ra ≤ 1)
    (p p' : Particle ℝ) (E : ℝ → Prop) (hm : Woa.Moved R best d p E p') : Woa.Moved R best d p (fun _ => False) p' := by
  obtain ⟨a0, -, -, -, a1, -⟩ := C169_alpha T t hT (by linarith) h1
  exact (Woa.C166_exploit R best d p p' E hd0 hd1 (by rw [hR]; exact a0) hm).2 (by rw [hR]; exact a1.2 h0)

/-- **C169 (whale weight, partly).** The weight of a whale's move falls from 1 to -1. Missing: a weight should not be negative, see `C169_weight_refuted`. -/
theorem C169_weight_partial (T t : ℝ) (hT : 0 < T) (h0 : 0 ≤ t) (h1 : t ≤ T) :
    weightWoa T t ≤ 1 ∧ -1 ≤ weightWoa T t ∧ ∀ t', t < t' → weightWoa T t' < weightWoa T t := by
  obtain ⟨q0, q1⟩ := quot_range hT h0 h1
  have e : ∀ s, weightWoa T s = 1 - 2 * (s / T) ^ 3 := by
    intro s
    show 1.0 - 2.0 * (s / T * (s / T * (s / T))) = _
    norm_num
    ring
  refine ⟨?_, ?_, ?_⟩
  · rw [e]
    have := pow_nonneg q0 3
    linarith
  · rw [e]
    have := pow_le_one₀ q0 q1 (n := 3)
    linarith
  · intro t' h
    rw [e, e]
    have := pow_lt_pow_left₀ (div_lt_div_of_pos_right h hT) q0 (n := 3) (by norm_num)
    linarith

/-- **C169 (refuted: the weight is one).** From four fifths of the iterations on the weight is negative, and at the end it is -1. -/
theorem C169_weight_refuted (T t : ℝ) (hT : 0 < T) (h0 : 0.8 * T ≤ t) : weightWoa T t < 0 ∧ weightWoa T T = -1 := by
  have e : ∀ s, weightWoa T s = 1 - 2 * (s / T) ^ 3 := by
    intro s
    show 1.0 - 2.0 * (s / T * (s / T * (s / T))) = _
    norm_num
    ring
  constructor
  · rw [e]
    have hq : (0.8 : ℝ) ≤ t / T := (le_div_iff₀ hT).2 h0
    have := pow_le_pow_left₀ (by norm_num) hq 3
    norm_num at this ⊢
    linarith
  · rw [e, div_self hT.ne']
    norm_num

/-- **C169 (refuted: the own pull gives way to the common one).** Both pulls of the particle swarm (bounded by `C109_constants`) rise over the iterations, and in the
second half the own one, `c1`, is the larger. -/
theorem C169_pulls_refuted (T t : ℝ) (hT : 0 < T) (h0 : 0 ≤ t) (h1 : t ≤ T) :
    (∀ t', t < t' → t' ≤ T → (psoConstants t T).1 < (psoConstants t' T).1 ∧ (psoConstants t T).2 < (psoConstants t' T).2) ∧
      (T / 2 ≤ t → (psoConstants t T).2 < (psoConstants t T).1) := by
  have hpi := Real.pi_gt_d2
  have top : ∀ s, s ≤ T → 3.14 * s / T ≤ Real.pi := by
    intro s hs
    rw [div_le_iff₀ hT]
    norm_num at hpi ⊢
    nlinarith
  constructor
  · intro t' h h'
    have : Real.cos (3.14 * t' / T) < Real.cos (3.14 * t / T) := by
      refine Real.cos_lt_cos_of_nonneg_of_le_pi (div_nonneg (by norm_num; linarith) hT.le) (top t' h') (div_lt_div_of_pos_right (by linarith) hT)
    rw [psoConstants, psoConstants]
    norm_num at this ⊢
    constructor <;> linarith
  · intro h
    have hc : Real.cos (3.14 * t / T) ≤ 1 / 2 := by
      rw [← Real.cos_pi_div_three]
      refine Real.cos_le_cos_of_nonneg_of_le_pi (by positivity) (top t h1) ?_
      rw [le_div_iff₀ hT]
      have := Real.pi_le_four
      norm_num
      nlinarith
    rw [psoConstants]
    norm_num at hc ⊢
    linarith

/-- **C169 (refuted: a factor in every iteration).** In the last quarter `get_lambda_pso` ends without returning a value. -/
theorem C169_lambda_refuted (T t : Int) (r : ℝ) (h : (0.75 : ℝ) * T ≤ t) : lambdaPso T t r = none := if_neg (not_lt.2 h)

/-- **C169 (lambda and l before the last quarter).** Before it both are the draw and four times the draw; in it `l` is -4. -/
theorem C169_lambda_partial (T t : Int) (r : ℝ) (h0 : 0 ≤ r) (h1 : r ≤ 1) :
    ((t : ℝ) < 0.75 * T → ∃ v, lambdaPso T t r = some v ∧ 0 ≤ v ∧ v ≤ 1 ∧ 0 ≤ lvaluePso T t r ∧ lvaluePso T t r ≤ 4) ∧ ((0.75 : ℝ) * T ≤ t → lvaluePso T t r = -4) := by
  constructor
  · intro h
    refine ⟨r, if_pos h, h0, h1, ?_⟩
    rw [lvaluePso, if_pos h]
    constructor <;> linarith
  · intro h
    rw [lvaluePso, if_neg (not_lt.2 h)]

/-- **C167 (refuted: rest, with the default parameters).** `omega` is 10 by default (`/repo/src/aco_process.c` 144), an even number, so the sign of `-t/T` is lost: at the last
iteration the plain gravitational step multiplies every value by `e`. -/
theorem C167_growth_refuted (R : Gsa.Rule ℝ) (hdec : ∀ t, R.dec t = Real.exp ((-t) ^ 10)) (d : Gsa.Draws ℝ) (l l' : List (Particle ℝ)) (hl : l ≠ []) (hf : R.fade 1 = 1)
    (h : Gsa.gsa R 1 d l = some l') : ∀ (k : Nat) (p : Particle ℝ), l[k]? = some p → ∃ p', l'[k]? = some p' ∧ p'.x = Real.exp 1 * p.x := by
  intro k p hp
  obtain ⟨p', e, -, hx⟩ := Gsa.C167_rest_refuted R d l l' hl hf h k p hp
  refine ⟨p', e, ?_⟩
  rw [hx, hdec]
  norm_num

/-- The hypotheses are met by the 90th of 100 iterations, where the weight is negative and no whale searches. -/
example : weightWoa 100 90 < 0 ∧ alphaWoa 100 90 < 1 :=
  ⟨(C169_weight_refuted 100 90 (by norm_num) (by norm_num)).1, ((C169_alpha 100 90 (by norm_num) (by norm_num) (by norm_num)).2.2.2.2.1).2 (by norm_num)⟩

end LLab.Aco.Schedules
