import Mathlib.Analysis.SpecialFunctions.Pow.Real
import Mathlib.Analysis.SpecialFunctions.Exp
import Mathlib.Analysis.SpecialFunctions.Sqrt
import Mathlib.Algebra.BigOperators.Intervals
import Mathlib.Tactic.Linarith
import Mathlib.Tactic.FieldSimp
import Mathlib.Tactic.Ring
import Mathlib.Tactic.NormNum
import Mathlib.Tactic.Positivity

/-! The optimisers of `/repo/src/gd.c` (one parameter) and
`update_training_parameters` (`/repo/src/update.c` 1363-1367). Property C41.
Real numbers; `B` is `mini_batch_size`. -/

namespace LLab.Optim

open Finset

/-- `nesterov_momentum` (`/repo/src/gd.c` 37-41); the state is `(p, delta)`. -/
noncomputable def nesterov (lr m B dp : ℝ) (s : ℝ × ℝ) : ℝ × ℝ :=
  (s.1 + (m * m * s.2 - (1 + m) * lr * (dp / B)), m * s.2 - lr * (dp / B))

/-- A parameter with its two moments. -/
structure Par where
  p : ℝ
  d1 : ℝ
  d2 : ℝ

/-- `adam_algorithm` (`/repo/src/gd.c` 59-64). -/
noncomputable def adam (lr b1 b2 bb1 bb2 eps B dp : ℝ) (s : Par) : Par :=
  let temp := dp / B
  let d1 := b1 * s.d1 + (1 - b1) * temp
  let d2 := b2 * s.d2 + (1 - b2) * (temp * temp)
  ⟨s.p - (lr * d1 / (1 - bb1)) / (Real.sqrt (d2 / (1 - bb2)) + eps), d1, d2⟩

/-- The rectification factor of `radam_algorithm` (`/repo/src/gd.c` 92); `pInf`
and `pT` are the two locals. -/
noncomputable def rectify (pInf pT : ℝ) : ℝ :=
  Real.sqrt (((pT - 4) * (pT - 2) * pInf) / ((pInf - 4) * (pInf - 2) * pT))

/-- `p_inf` (`/repo/src/gd.c` 85). -/
noncomputable def pInf (b2 : ℝ) : ℝ := 2 / (1 - b2) - 1

/-- `p_t` (`/repo/src/gd.c` 89). -/
noncomputable def pT (b2 bb2 : ℝ) (t : Nat) : ℝ := pInf b2 - 2 * t * bb2 / (1 - bb2)

/-- `radam_algorithm` (`/repo/src/gd.c` 83-98): `EPSILON` is the constant used
instead of the parameter `epsilon`; `RADAM_THRESHOLD` is 4 (`/repo/src/llab.h`
110-111). -/
noncomputable def radam (EPSILON lr b1 b2 bb1 bb2 B dp : ℝ) (t : Nat) (s : Par) : Par :=
  let temp := dp / B
  let d1 := b1 * s.d1 + (1 - b1) * temp
  let d2 := b2 * s.d2 + (1 - b2) * (temp * temp)
  let mHat := d1 / (1 - bb1)
  if pT b2 bb2 t > 4 then
    ⟨s.p - lr * rectify (pInf b2) (pT b2 bb2 t) * mHat * (Real.sqrt (1 - bb2) / (Real.sqrt d2 + EPSILON)), d1, d2⟩
  else ⟨s.p - lr * mHat, d1, d2⟩

/-- `abs_sigmoid` (`/repo/src/math_functions.c` 267-274). -/
noncomputable def absSigmoid (x : ℝ) : ℝ := 1 / (1 + Real.exp (-|x|))

/-- `adam_diff_grad_algorithm` (`/repo/src/gd.c` 116-123); the second component
is `ex_d`. -/
noncomputable def diffGrad (lr b1 b2 bb1 bb2 eps B dp : ℝ) (s : Par × ℝ) : Par × ℝ :=
  let temp := dp / B
  let d1 := b1 * s.1.d1 + (1 - b1) * temp
  let d2 := b2 * s.1.d2 + (1 - b2) * (temp * temp)
  let friction := absSigmoid (s.2 - dp / B)
  (⟨s.1.p - (lr * friction * d1 / (1 - bb1)) / (Real.sqrt (d2 / (1 - bb2)) + eps), d1, d2⟩, dp / B)

/-- `adamod` (`/repo/src/gd.c` 127-138); the second component is `delta3`. -/
noncomputable def adamod (lr b1 b2 b3 bb1 bb2 eps B dp : ℝ) (s : Par × ℝ) : Par × ℝ :=
  let temp := dp / B
  let d1 := b1 * s.1.d1 + (1 - b1) * temp
  let d2 := b2 * s.1.d2 + (1 - b2) * (temp * temp)
  let m := d1 / (1 - bb1)
  let v := d2 / (1 - bb2)
  let n := lr / (Real.sqrt v + eps)
  let d3 := b3 * s.2 + (1 - b3) * n
  (⟨s.1.p - (if n > d3 then d3 else n) * m, d1, d2⟩, d3)

/-- The running powers and the time step. -/
structure Clock where
  bb1 : ℝ
  bb2 : ℝ
  t : Nat

/-- `update_training_parameters` (`/repo/src/update.c` 1363-1367). -/
noncomputable def tick (start1 start2 : ℝ) (c : Clock) : Clock := ⟨c.bb1 * start1, c.bb2 * start2, c.t + 1⟩

/-- `n` rounds of training one parameter with Adam on the gradients `g 0`, `g 1`,
…: an Adam step, then `update_training_parameters`. The powers start at the
betas (`/repo/src/training.c`), the moments at zero. -/
noncomputable def adamRun (lr b1 b2 eps B p0 : ℝ) (g : Nat → ℝ) : Nat → Par × Clock
  | 0 => (⟨p0, 0, 0⟩, ⟨b1, b2, 1⟩)
  | n + 1 =>
    let s := adamRun lr b1 b2 eps B p0 g n
    (adam lr b1 b2 s.2.bb1 s.2.bb2 eps B (g n) s.1, tick b1 b2 s.2)

/-- `n` rounds of `nesterov_momentum` from velocity zero. -/
noncomputable def nesterovRun (lr m B p0 : ℝ) (g : Nat → ℝ) : Nat → ℝ × ℝ
  | 0 => (p0, 0)
  | n + 1 => nesterov lr m B (g n) (nesterovRun lr m B p0 g n)

/-- `n` rounds of `adamod`. -/
noncomputable def adamodRun (lr b1 b2 b3 eps B p0 : ℝ) (g : Nat → ℝ) : Nat → (Par × ℝ) × Clock
  | 0 => ((⟨p0, 0, 0⟩, 0), ⟨b1, b2, 1⟩)
  | n + 1 =>
    let s := adamodRun lr b1 b2 b3 eps B p0 g n
    (adamod lr b1 b2 b3 s.2.bb1 s.2.bb2 eps B (g n) s.1, tick b1 b2 s.2)

/-! ### Nesterov -/

/-- **C41, zero momentum.** Over any gradient history `nesterov_momentum` with
zero momentum is plain gradient descent. -/
theorem C41_nesterov_zero (lr B p0 : ℝ) (g : Nat → ℝ) (n : Nat) :
    (nesterovRun lr 0 B p0 g n).1 = p0 - ∑ i ∈ range n, lr * (g i / B) := by
  induction n with
  | zero => simp [nesterovRun]
  | succ n ih =>
    rw [nesterovRun, nesterov, ih, Finset.sum_range_succ]
    ring

/-- **C41, Nesterov momentum.** Over any history the parameter is the look-ahead
point `θ + m v` of a velocity recursion `v' = m v - lr g`, `θ' = θ + v'`. -/
theorem C41_nesterov_lookahead (lr m B p0 : ℝ) (g : Nat → ℝ) :
    ∃ θ v : Nat → ℝ, θ 0 = p0 ∧ v 0 = 0 ∧
      (∀ n, v (n + 1) = m * v n - lr * (g n / B)) ∧ (∀ n, θ (n + 1) = θ n + v (n + 1)) ∧
      ∀ n, (nesterovRun lr m B p0 g n).1 = θ n + m * v n := by
  refine ⟨fun n => (nesterovRun lr m B p0 g n).1 - m * (nesterovRun lr m B p0 g n).2,
    fun n => (nesterovRun lr m B p0 g n).2, by simp [nesterovRun], rfl, fun n => rfl, fun n => ?_, fun n => by ring⟩
  simp only [nesterovRun, nesterov]
  ring

/-! ### Adam -/

theorem adam_clock (lr b1 b2 eps B p0 : ℝ) (g : Nat → ℝ) (n : Nat) :
    (adamRun lr b1 b2 eps B p0 g n).2 = ⟨b1 ^ (n + 1), b2 ^ (n + 1), n + 1⟩ := by
  induction n with
  | zero => simp [adamRun]
  | succ n ih =>
    rw [adamRun]
    simp only [tick, ih, Clock.mk.injEq, and_true]
    exact ⟨by ring, by ring⟩

/-- **C41, moments.** After `n` steps Adam's moments are the exponentially
weighted sums of the averaged gradients and of their squares, and the running
powers are the betas to the power of the next step's number. -/
theorem C41_adam_moments (lr b1 b2 eps B p0 : ℝ) (g : Nat → ℝ) (n : Nat) :
    (adamRun lr b1 b2 eps B p0 g n).1.d1 = (1 - b1) * ∑ i ∈ range n, b1 ^ (n - 1 - i) * (g i / B) ∧
    (adamRun lr b1 b2 eps B p0 g n).1.d2 = (1 - b2) * ∑ i ∈ range n, b2 ^ (n - 1 - i) * (g i / B) ^ 2 ∧
    (adamRun lr b1 b2 eps B p0 g n).2 = ⟨b1 ^ (n + 1), b2 ^ (n + 1), n + 1⟩ := by
  refine ⟨?_, ?_, adam_clock lr b1 b2 eps B p0 g n⟩
  · induction n with
    | zero => simp [adamRun]
    | succ n ih =>
      have : ∑ i ∈ range n, b1 ^ (n + 1 - 1 - i) * (g i / B) = b1 * ∑ i ∈ range n, b1 ^ (n - 1 - i) * (g i / B) := by
        rw [Finset.mul_sum]
        refine Finset.sum_congr rfl fun i hi => ?_
        have := Finset.mem_range.1 hi
        rw [show n + 1 - 1 - i = (n - 1 - i) + 1 by omega, pow_succ]
        ring
      rw [adamRun, Finset.sum_range_succ, this]
      simp only [adam, ih, show n + 1 - 1 - n = 0 by omega, pow_zero]
      ring
  · induction n with
    | zero => simp [adamRun]
    | succ n ih =>
      have : ∑ i ∈ range n, b2 ^ (n + 1 - 1 - i) * (g i / B) ^ 2 = b2 * ∑ i ∈ range n, b2 ^ (n - 1 - i) * (g i / B) ^ 2 := by
        rw [Finset.mul_sum]
        refine Finset.sum_congr rfl fun i hi => ?_
        have := Finset.mem_range.1 hi
        rw [show n + 1 - 1 - i = (n - 1 - i) + 1 by omega, pow_succ]
        ring
      rw [adamRun, Finset.sum_range_succ, this]
      simp only [adam, ih, show n + 1 - 1 - n = 0 by omega, pow_zero]
      ring

/-- **C41, sign.** The second moment is never negative. -/
theorem C41_second_moment_nonneg (lr b1 b2 eps B p0 : ℝ) (h0 : 0 ≤ b2) (h1 : b2 ≤ 1) (g : Nat → ℝ) (n : Nat) :
    0 ≤ (adamRun lr b1 b2 eps B p0 g n).1.d2 := by
  rw [(C41_adam_moments lr b1 b2 eps B p0 g n).2.1]
  exact mul_nonneg (by linarith) (Finset.sum_nonneg fun i _ => mul_nonneg (pow_nonneg h0 _) (sq_nonneg _))

theorem geom_const (b c : ℝ) (n : Nat) : (1 - b) * ∑ i ∈ range n, b ^ (n - 1 - i) * c = (1 - b ^ n) * c := by
  rw [← Finset.sum_mul, Finset.sum_range_reflect (fun i => b ^ i) n, ← mul_assoc]
  congr 1
  have := geom_sum_mul b n
  linear_combination -this

/-- **C41, bias correction.** On a constant gradient every Adam step, from the
first one on, subtracts `lr * c / (|c| + eps)` where `c` is the averaged
gradient: the corrected moments are exactly `c` and `c²`. -/
theorem C41_adam_constant (lr b1 b2 eps B p0 dp : ℝ) (h1 : |b1| < 1) (h2 : |b2| < 1) (n : Nat) :
    (adamRun lr b1 b2 eps B p0 (fun _ => dp) (n + 1)).1.p =
      (adamRun lr b1 b2 eps B p0 (fun _ => dp) n).1.p - lr * (dp / B) / (|dp / B| + eps) := by
  have k1 : (1 : ℝ) - b1 ^ (n + 1) ≠ 0 := by
    have := pow_lt_one₀ (abs_nonneg b1) h1 (Nat.succ_ne_zero n)
    rw [← abs_pow] at this
    have := (abs_lt.1 this).2
    simp only [Nat.succ_eq_add_one] at this
    linarith
  have k2 : (1 : ℝ) - b2 ^ (n + 1) ≠ 0 := by
    have := pow_lt_one₀ (abs_nonneg b2) h2 (Nat.succ_ne_zero n)
    rw [← abs_pow] at this
    have := (abs_lt.1 this).2
    simp only [Nat.succ_eq_add_one] at this
    linarith
  have m1 := (C41_adam_moments lr b1 b2 eps B p0 (fun _ => dp) (n + 1)).1
  have m2 := (C41_adam_moments lr b1 b2 eps B p0 (fun _ => dp) (n + 1)).2.1
  rw [geom_const] at m1 m2
  have hc := adam_clock lr b1 b2 eps B p0 (fun _ => dp) n
  have hp : (adamRun lr b1 b2 eps B p0 (fun _ => dp) (n + 1)).1.p =
      (adamRun lr b1 b2 eps B p0 (fun _ => dp) n).1.p -
        (lr * (adamRun lr b1 b2 eps B p0 (fun _ => dp) (n + 1)).1.d1 /
          (1 - (adamRun lr b1 b2 eps B p0 (fun _ => dp) n).2.bb1)) /
        (Real.sqrt ((adamRun lr b1 b2 eps B p0 (fun _ => dp) (n + 1)).1.d2 /
          (1 - (adamRun lr b1 b2 eps B p0 (fun _ => dp) n).2.bb2)) + eps) := rfl
  rw [hp, m1, m2, hc]
  dsimp only
  rw [mul_div_cancel_left₀ _ k2, Real.sqrt_sq_eq_abs]
  congr 2
  field_simp

theorem young (x y θ : ℝ) (h0 : 0 < θ) (h1 : θ < 1) : (x + y) ^ 2 ≤ x ^ 2 / θ + y ^ 2 / (1 - θ) := by
  have h1' : 0 < 1 - θ := by linarith
  rw [div_add_div _ _ h0.ne' h1'.ne', le_div_iff₀ (mul_pos h0 h1')]
  nlinarith [sq_nonneg ((1 - θ) * x - θ * y)]

/-- The first moment is dominated by the second (Cauchy-Schwarz along the
history). -/
theorem moment_bound (lr b1 b2 eps B p0 : ℝ) (h1 : 0 < b1) (h2 : b2 < 1) (h12 : b1 ^ 2 < b2)
    (g : Nat → ℝ) (n : Nat) :
    (adamRun lr b1 b2 eps B p0 g n).1.d1 ^ 2 ≤
      (1 - b1) ^ 2 / ((1 - b2) * (1 - b1 ^ 2 / b2)) * (adamRun lr b1 b2 eps B p0 g n).1.d2 := by
  have hb2 : 0 < b2 := lt_of_le_of_lt (sq_nonneg b1) h12
  have hθ : b1 ^ 2 / b2 < 1 := (div_lt_one hb2).2 h12
  have hθ0 : 0 < b1 ^ 2 / b2 := div_pos (pow_pos h1 2) hb2
  have k1 : 0 < 1 - b2 := by linarith
  have k2 : 0 < 1 - b1 ^ 2 / b2 := by linarith
  induction n with
  | zero => simp [adamRun]
  | succ n ih =>
    rw [adamRun]
    simp only [adam]
    set s := adamRun lr b1 b2 eps B p0 g n
    set C := (1 - b1) ^ 2 / ((1 - b2) * (1 - b1 ^ 2 / b2)) with hC
    refine (young (b1 * s.1.d1) ((1 - b1) * (g n / B)) (b1 ^ 2 / b2) hθ0 hθ).trans ?_
    have e1 : (b1 * s.1.d1) ^ 2 / (b1 ^ 2 / b2) = b2 * s.1.d1 ^ 2 := by
      field_simp
    have e2 : ((1 - b1) * (g n / B)) ^ 2 / (1 - b1 ^ 2 / b2) = C * ((1 - b2) * (g n / B * (g n / B))) := by
      rw [hC, div_mul_eq_mul_div, div_eq_div_iff k2.ne' (mul_pos k1 k2).ne']
      ring
    rw [e1, e2, mul_add]
    have := mul_le_mul_of_nonneg_left ih hb2.le
    linarith [this, show b2 * (C * s.1.d2) = C * (b2 * s.1.d2) by ring]

/-- **C41, bounded steps.** For the usual betas (`0 < b1 < 1`, `b1² < b2 < 1`),
whatever the gradients, step `n+1` of Adam moves the parameter by at most
`lr · (1-b1)/√((1-b2)(1-b1²/b2)) · √(1-b2^(n+1)) / (1-b1^(n+1))`. -/
theorem C41_adam_step_bound (lr b1 b2 eps B p0 : ℝ) (hlr : 0 ≤ lr) (he : 0 < eps) (h0 : 0 < b1) (h1 : b1 < 1)
    (h2 : b2 < 1) (h12 : b1 ^ 2 < b2) (g : Nat → ℝ) (n : Nat) :
    |(adamRun lr b1 b2 eps B p0 g (n + 1)).1.p - (adamRun lr b1 b2 eps B p0 g n).1.p| ≤
      lr * ((1 - b1) / Real.sqrt ((1 - b2) * (1 - b1 ^ 2 / b2))) *
        (Real.sqrt (1 - b2 ^ (n + 1)) / (1 - b1 ^ (n + 1))) := by
  have hb2 : 0 < b2 := lt_of_le_of_lt (sq_nonneg b1) h12
  have hθ : b1 ^ 2 / b2 < 1 := (div_lt_one hb2).2 h12
  have k0 : 0 < (1 - b2) * (1 - b1 ^ 2 / b2) := mul_pos (by linarith) (by linarith)
  have k1 : 0 < 1 - b1 ^ (n + 1) := by
    have := pow_lt_one₀ h0.le h1 (Nat.succ_ne_zero n); simp only [Nat.succ_eq_add_one] at this; linarith
  have k2 : 0 < 1 - b2 ^ (n + 1) := by
    have := pow_lt_one₀ hb2.le h2 (Nat.succ_ne_zero n); simp only [Nat.succ_eq_add_one] at this; linarith
  have hc := adam_clock lr b1 b2 eps B p0 g n
  have hp : (adamRun lr b1 b2 eps B p0 g (n + 1)).1.p = (adamRun lr b1 b2 eps B p0 g n).1.p -
        (lr * (adamRun lr b1 b2 eps B p0 g (n + 1)).1.d1 / (1 - (adamRun lr b1 b2 eps B p0 g n).2.bb1)) /
        (Real.sqrt ((adamRun lr b1 b2 eps B p0 g (n + 1)).1.d2 /
          (1 - (adamRun lr b1 b2 eps B p0 g n).2.bb2)) + eps) := rfl
  have hm := moment_bound lr b1 b2 eps B p0 h0 h2 h12 g (n + 1)
  have hv := C41_second_moment_nonneg lr b1 b2 eps B p0 hb2.le h2.le g (n + 1)
  rw [hp, hc]
  dsimp only
  set d1 := (adamRun lr b1 b2 eps B p0 g (n + 1)).1.d1
  set d2 := (adamRun lr b1 b2 eps B p0 g (n + 1)).1.d2
  have habs : |d1| ≤ (1 - b1) / Real.sqrt ((1 - b2) * (1 - b1 ^ 2 / b2)) * Real.sqrt d2 := by
    have hr : 0 ≤ (1 - b1) / Real.sqrt ((1 - b2) * (1 - b1 ^ 2 / b2)) * Real.sqrt d2 :=
      mul_nonneg (div_nonneg (by linarith) (Real.sqrt_nonneg _)) (Real.sqrt_nonneg _)
    refine abs_le_of_sq_le_sq ?_ hr
    rw [mul_pow, div_pow, Real.sq_sqrt k0.le, Real.sq_sqrt hv]
    exact hm
  rw [sub_sub_cancel_left, abs_neg, abs_div, abs_div, abs_mul, abs_of_nonneg hlr, abs_of_pos k1,
    abs_of_pos (add_pos_of_nonneg_of_pos (Real.sqrt_nonneg _) he), Real.sqrt_div hv]
  have hs2 : 0 < Real.sqrt (1 - b2 ^ (n + 1)) := Real.sqrt_pos.2 k2
  rw [div_le_iff₀ (add_pos_of_nonneg_of_pos (by positivity) he)]
  have hR : 0 ≤ lr * ((1 - b1) / Real.sqrt ((1 - b2) * (1 - b1 ^ 2 / b2))) *
      (Real.sqrt (1 - b2 ^ (n + 1)) / (1 - b1 ^ (n + 1))) := by
    have : 0 ≤ 1 - b1 := by linarith
    positivity
  have key : lr * |d1| / (1 - b1 ^ (n + 1)) ≤ lr * ((1 - b1) / Real.sqrt ((1 - b2) * (1 - b1 ^ 2 / b2))) *
      (Real.sqrt (1 - b2 ^ (n + 1)) / (1 - b1 ^ (n + 1))) * (Real.sqrt d2 / Real.sqrt (1 - b2 ^ (n + 1))) := by
    have e : lr * ((1 - b1) / Real.sqrt ((1 - b2) * (1 - b1 ^ 2 / b2))) *
      (Real.sqrt (1 - b2 ^ (n + 1)) / (1 - b1 ^ (n + 1))) * (Real.sqrt d2 / Real.sqrt (1 - b2 ^ (n + 1))) =
      lr * ((1 - b1) / Real.sqrt ((1 - b2) * (1 - b1 ^ 2 / b2)) * Real.sqrt d2) / (1 - b1 ^ (n + 1)) := by
      field_simp
    rw [e]
    exact div_le_div_of_nonneg_right (mul_le_mul_of_nonneg_left habs hlr) k1.le
  refine key.trans ?_
  rw [mul_add]
  have := mul_nonneg hR he.le
  linarith

example : (0 : ℝ) < 9 / 10 ∧ (9 / 10 : ℝ) < 1 ∧ (999 / 1000 : ℝ) < 1 ∧ (9 / 10 : ℝ) ^ 2 < 999 / 1000 := by norm_num

/-! ### DiffGrad, AdaMod, RAdam -/

/-- **C41, friction.** A diffGrad step moves the parameter in the direction of
the Adam step with the same moments, by between half of it and all of it. -/
theorem C41_diff_grad (lr b1 b2 bb1 bb2 eps B dp : ℝ) (s : Par) (ex : ℝ) :
    ∃ f : ℝ, 1 / 2 ≤ f ∧ f < 1 ∧
      (diffGrad lr b1 b2 bb1 bb2 eps B dp (s, ex)).1.p - s.p = f * ((adam lr b1 b2 bb1 bb2 eps B dp s).p - s.p) ∧
      (diffGrad lr b1 b2 bb1 bb2 eps B dp (s, ex)).1.d1 = (adam lr b1 b2 bb1 bb2 eps B dp s).d1 ∧
      (diffGrad lr b1 b2 bb1 bb2 eps B dp (s, ex)).1.d2 = (adam lr b1 b2 bb1 bb2 eps B dp s).d2 ∧
      (diffGrad lr b1 b2 bb1 bb2 eps B dp (s, ex)).2 = dp / B := by
  refine ⟨absSigmoid (ex - dp / B), ?_, ?_, ?_, rfl, rfl, rfl⟩
  · unfold absSigmoid
    have h : Real.exp (-|ex - dp / B|) ≤ 1 := Real.exp_le_one_iff.2 (neg_nonpos.2 (abs_nonneg _))
    exact one_div_le_one_div_of_le (by positivity) (by linarith)
  · unfold absSigmoid
    rw [div_lt_one (by positivity)]
    linarith [Real.exp_pos (-|ex - dp / B|)]
  · simp only [diffGrad, adam]
    ring

/-- **C41, AdaMod.** Over any history the running step size never exceeds
`lr / eps`, and every step uses a step size that is at most the running one and
at most Adam's. -/
theorem C41_adamod (lr b1 b2 b3 eps B p0 : ℝ) (hlr : 0 ≤ lr) (he : 0 < eps) (h0 : 0 ≤ b3) (h1 : b3 ≤ 1)
    (g : Nat → ℝ) (n : Nat) :
    0 ≤ (adamodRun lr b1 b2 b3 eps B p0 g n).1.2 ∧ (adamodRun lr b1 b2 b3 eps B p0 g n).1.2 ≤ lr / eps ∧
    ∃ η : ℝ, η ≤ (adamodRun lr b1 b2 b3 eps B p0 g (n + 1)).1.2 ∧
      η ≤ lr / (Real.sqrt ((adamodRun lr b1 b2 b3 eps B p0 g (n + 1)).1.1.d2 / (1 - b2 ^ (n + 1))) + eps) ∧
      (adamodRun lr b1 b2 b3 eps B p0 g (n + 1)).1.1.p = (adamodRun lr b1 b2 b3 eps B p0 g n).1.1.p -
        η * ((adamodRun lr b1 b2 b3 eps B p0 g (n + 1)).1.1.d1 / (1 - b1 ^ (n + 1))) := by
  have hclock : ∀ n, (adamodRun lr b1 b2 b3 eps B p0 g n).2 = ⟨b1 ^ (n + 1), b2 ^ (n + 1), n + 1⟩ := by
    intro n
    induction n with
    | zero => simp [adamodRun]
    | succ n ih =>
      rw [adamodRun]
      simp only [tick, ih, Clock.mk.injEq, and_true]
      exact ⟨by ring, by ring⟩
  have hd3 : ∀ n, 0 ≤ (adamodRun lr b1 b2 b3 eps B p0 g n).1.2 ∧
      (adamodRun lr b1 b2 b3 eps B p0 g n).1.2 ≤ lr / eps := by
    intro n
    induction n with
    | zero => exact ⟨le_refl _, div_nonneg hlr he.le⟩
    | succ n ih =>
      rw [adamodRun]
      simp only [adamod]
      set s := adamodRun lr b1 b2 b3 eps B p0 g n
      set v := (b2 * s.1.1.d2 + (1 - b2) * (g n / B * (g n / B))) / (1 - s.2.bb2)
      have q0 : 0 ≤ lr / (Real.sqrt v + eps) := div_nonneg hlr (by positivity)
      have q1 : lr / (Real.sqrt v + eps) ≤ lr / eps :=
        div_le_div_of_nonneg_left hlr he (by linarith [Real.sqrt_nonneg v])
      refine ⟨add_nonneg (mul_nonneg h0 ih.1) (mul_nonneg (by linarith) q0), ?_⟩
      have a1 := mul_le_mul_of_nonneg_left ih.2 h0
      have a2 := mul_le_mul_of_nonneg_left q1 (show 0 ≤ 1 - b3 by linarith)
      linarith
  refine ⟨(hd3 n).1, (hd3 n).2, ?_⟩
  have hc := hclock n
  rw [adamodRun]
  simp only [adamod, hc]
  refine ⟨_, ?_, ?_, rfl⟩
  · split_ifs with h
    · exact le_refl _
    · exact not_lt.1 h
  · split_ifs with h
    · exact h.le
    · exact le_refl _

/-- **C41, RAdam.** With `0 ≤ bb2 < 1`, whenever the
rectified branch is taken its factor lies in `[0, 1]`; otherwise the step is a
plain momentum step. -/
theorem C41_radam (EPSILON lr b1 b2 bb1 bb2 B dp : ℝ) (t : Nat) (s : Par) (h0 : 0 ≤ bb2) (h1 : bb2 < 1) :
    (pT b2 bb2 t > 4 ∧ ∃ r : ℝ, 0 ≤ r ∧ r ≤ 1 ∧
      (radam EPSILON lr b1 b2 bb1 bb2 B dp t s).p = s.p - lr * r *
        ((b1 * s.d1 + (1 - b1) * (dp / B)) / (1 - bb1)) *
        (Real.sqrt (1 - bb2) / (Real.sqrt (b2 * s.d2 + (1 - b2) * (dp / B) ^ 2) + EPSILON))) ∨
    (pT b2 bb2 t ≤ 4 ∧ (radam EPSILON lr b1 b2 bb1 bb2 B dp t s).p =
      s.p - lr * ((b1 * s.d1 + (1 - b1) * (dp / B)) / (1 - bb1))) := by
  by_cases h : pT b2 bb2 t > 4
  · left
    refine ⟨h, rectify (pInf b2) (pT b2 bb2 t), Real.sqrt_nonneg _, ?_, ?_⟩
    · have hle : pT b2 bb2 t ≤ pInf b2 := by
        unfold pT
        have : 0 ≤ 2 * (t : ℝ) * bb2 / (1 - bb2) := div_nonneg (by positivity) (by linarith)
        linarith
      set x := pT b2 bb2 t
      set y := pInf b2
      unfold rectify
      rw [Real.sqrt_le_one]
      have hx : 4 < x := h
      have hy : 4 < y := lt_of_lt_of_le hx hle
      rw [div_le_one (mul_pos (mul_pos (by linarith) (by linarith)) (by linarith))]
      have : 0 ≤ (y - x) * (x * y - 8) := mul_nonneg (by linarith) (by nlinarith)
      nlinarith
    · unfold radam
      simp only [h, if_true, pow_two]
  · right
    refine ⟨not_lt.1 h, ?_⟩
    unfold radam
    simp only [h, if_false]

example : pT (999 / 1000) ((999 / 1000) ^ 10) 10 > 4 := by
  unfold pT pInf; norm_num

end LLab.Optim
