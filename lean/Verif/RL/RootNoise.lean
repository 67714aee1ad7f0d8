import Mathlib.Analysis.SpecialFunctions.Log.Basic
import Mathlib.Analysis.SpecialFunctions.Sqrt
import Mathlib.Tactic.Linarith
import Mathlib.Tactic.Ring
import Mathlib.Tactic.FieldSimp
import Mathlib.Tactic.NormNum
import Mathlib.Algebra.BigOperators.Group.List.Basic
import Mathlib.Algebra.BigOperators.Ring.List

/-!
Property C171: the noise at the root of the search: `random_gamma` and `dirichlet_sample` (`/repo/src/math_functions.c` 1256-1284) and
the mixture with the prior (`/repo/src/mcts.c` 234-236).

The numbers of `rand` are given as a list of pairs, each in [0, 1). Real arithmetic. `none` is a loop that has not ended with the
draws given, a logarithm of zero or a division by zero.
-/

namespace LLab.RootNoise

/-! ### Model -/

/-- `w` (`/repo/src/math_functions.c` 1262-1264). -/
noncomputable def radius (u : ℝ × ℝ) : ℝ := (2 * u.1 - 1) * (2 * u.1 - 1) + (2 * u.2 - 1) * (2 * u.2 - 1)

open Classical in
/-- The rejection loop (`/repo/src/math_functions.c` 1259-1265): the accepted pair and the draws left. -/
noncomputable def accept : List (ℝ × ℝ) → Option ((ℝ × ℝ) × List (ℝ × ℝ))
  | [] => none
  | u :: us => if 1 ≤ radius u then accept us else some (u, us)

open Classical in
/-- `random_gamma` (`/repo/src/math_functions.c` 1256-1271). -/
noncomputable def randomGamma (alpha : ℝ) (us : List (ℝ × ℝ)) : Option (ℝ × List (ℝ × ℝ)) :=
  (accept us).bind fun a =>
    if radius a.1 = 0 then none
    else some (alpha * ((2 * a.1.1 - 1) * Real.sqrt (-2 * Real.log (radius a.1) / radius a.1)), a.2)

/-- The first loop of `dirichlet_sample` (`/repo/src/math_functions.c` 1275-1278). -/
noncomputable def gammas (alpha : ℝ) : Nat → List (ℝ × ℝ) → Option (List ℝ × List (ℝ × ℝ))
  | 0, us => some ([], us)
  | n + 1, us => (randomGamma alpha us).bind fun a => (gammas alpha n a.2).bind fun b => some (a.1 :: b.1, b.2)

open Classical in
/-- `dirichlet_sample` (`/repo/src/math_functions.c` 1273-1284). -/
noncomputable def dirichlet (alpha : ℝ) (n : Nat) (us : List (ℝ × ℝ)) : Option (List ℝ × List (ℝ × ℝ)) :=
  (gammas alpha n us).bind fun s => if s.1.sum = 0 then none else some (s.1.map fun x => x / s.1.sum, s.2)

/-- The mixture with the prior of the root (`/repo/src/mcts.c` 234-236). -/
noncomputable def mix (eps : ℝ) (p prior : List ℝ) : List ℝ := List.zipWith (fun a b => a * eps + (1 - eps) * b) p prior

/-! ### Lemmas -/

theorem accept_spec : ∀ (us : List (ℝ × ℝ)) (a : (ℝ × ℝ) × List (ℝ × ℝ)), accept us = some a ↔
    ∃ pre, us = pre ++ a.1 :: a.2 ∧ (∀ u ∈ pre, 1 ≤ radius u) ∧ radius a.1 < 1
  | [], a => by simp [accept]
  | u :: us, a => by
    rw [accept]
    by_cases h : 1 ≤ radius u
    · rw [if_pos h, accept_spec us a]
      constructor
      · rintro ⟨pre, rfl, h1, h2⟩
        refine ⟨u :: pre, rfl, fun v hv => ?_, h2⟩
        rcases List.mem_cons.mp hv with rfl | hv
        · exact h
        · exact h1 v hv
      · rintro ⟨pre, he, h1, h2⟩
        cases pre with
        | nil =>
          have : u = a.1 := (List.cons.inj he).1
          rw [this] at h
          linarith
        | cons v pre =>
          obtain ⟨_, he'⟩ := List.cons.inj he
          exact ⟨pre, he', fun w hw => h1 w (List.mem_cons_of_mem _ hw), h2⟩
    · rw [if_neg h]
      constructor
      · intro he
        cases he
        exact ⟨[], rfl, by simp, by push Not at h; exact h⟩
      · rintro ⟨pre, he, h1, h2⟩
        cases pre with
        | nil =>
          obtain ⟨rfl, rfl⟩ := List.cons.inj he
          rfl
        | cons v pre =>
          obtain ⟨rfl, he⟩ := List.cons.inj he
          exact absurd (h1 u (by simp)) h

theorem gammas_length (alpha : ℝ) : ∀ (n : Nat) (us : List (ℝ × ℝ)) (s : List ℝ × List (ℝ × ℝ)), gammas alpha n us = some s → s.1.length = n
  | 0, us, s, h => by cases h; rfl
  | n + 1, us, s, h => by
    obtain ⟨a, _, h⟩ := Option.bind_eq_some_iff.mp h
    obtain ⟨b, hb, h⟩ := Option.bind_eq_some_iff.mp h
    cases h
    simp [gammas_length alpha n _ _ hb]

theorem gammas_scale (alpha beta : ℝ) (ha : alpha ≠ 0) : ∀ (n : Nat) (us : List (ℝ × ℝ)),
    gammas beta n us = (gammas alpha n us).map fun s => (s.1.map fun x => beta / alpha * x, s.2)
  | 0, us => rfl
  | n + 1, us => by
    have hr : randomGamma beta us = (randomGamma alpha us).map fun a => (beta / alpha * a.1, a.2) := by
      rw [randomGamma, randomGamma]
      cases accept us with
      | none => rfl
      | some a =>
        simp only [Option.bind_some]
        by_cases hz : radius a.1 = 0
        · rw [if_pos hz, if_pos hz]; rfl
        · rw [if_neg hz, if_neg hz]
          simp only [Option.map_some, Option.some.injEq, Prod.mk.injEq, and_true]
          field_simp
    rw [gammas, gammas, hr]
    cases randomGamma alpha us with
    | none => rfl
    | some a =>
      simp only [Option.map_some, Option.bind_some]
      rw [gammas_scale alpha beta ha n a.2]
      cases gammas alpha n a.2 with
      | none => rfl
      | some b => rfl

/-! ### Theorems -/

/-- The loop takes the first pair of draws in the unit disc, and ends if there is one. -/
theorem C171_loop (us : List (ℝ × ℝ)) (h : ∃ u ∈ us, radius u < 1) :
    ∃ pre u post, us = pre ++ u :: post ∧ (∀ v ∈ pre, 1 ≤ radius v) ∧ radius u < 1 ∧ accept us = some (u, post) := by
  have hs : (accept us).isSome := by
    induction us with
    | nil => simp at h
    | cons v us ih =>
      rw [accept]
      by_cases hv : 1 ≤ radius v
      · rw [if_pos hv]
        obtain ⟨u, hu, h1⟩ := h
        rcases List.mem_cons.mp hu with rfl | hu
        · linarith
        · exact ih ⟨u, hu, h1⟩
      · rw [if_neg hv]; rfl
  obtain ⟨a, ha⟩ := Option.isSome_iff_exists.mp hs
  obtain ⟨pre, h1, h2, h3⟩ := (accept_spec us a).mp ha
  exact ⟨pre, a.1, a.2, h1, h2, h3, ha⟩

/-- If the sample is defined, it has one entry for each action and they add up to one. -/
theorem C171_sum_partial (alpha : ℝ) (n : Nat) (us rest : List (ℝ × ℝ)) (l : List ℝ) (h : dirichlet alpha n us = some (l, rest)) :
    l.length = n ∧ l.sum = 1 := by
  obtain ⟨s, hs, h⟩ := Option.bind_eq_some_iff.mp h
  by_cases hz : s.1.sum = 0
  · rw [if_pos hz] at h; cases h
  · rw [if_neg hz] at h
    cases h
    refine ⟨by rw [List.length_map, gammas_length _ _ _ _ hs], ?_⟩
    have : (s.1.map fun x => x / s.1.sum) = s.1.map fun x => x * (s.1.sum)⁻¹ := by simp only [div_eq_mul_inv]
    rw [this, List.sum_map_mul_right, List.map_id']
    exact mul_inv_cancel₀ hz

/-- The mixture of a sample that adds up to one with a prior that does adds up to one. -/
theorem C171_mix (eps : ℝ) : ∀ (p prior : List ℝ), p.length = prior.length → (mix eps p prior).sum = eps * p.sum + (1 - eps) * prior.sum
  | [], [], _ => by simp [mix]
  | a :: p, b :: q, h => by
    have ih := C171_mix eps p q (by simpa using h)
    rw [mix] at ih
    rw [mix, List.zipWith_cons_cons, List.sum_cons, ih, List.sum_cons, List.sum_cons]
    ring
  | [], _ :: _, h => by simp at h
  | _ :: _, [], h => by simp at h

/-- The concentration should shape the sample: it cancels, the same draws give the same sample for all of its values except zero, for which
there is none. -/
theorem C171_alpha_refuted (alpha beta : ℝ) (ha : alpha ≠ 0) (hb : beta ≠ 0) (n : Nat) (us : List (ℝ × ℝ)) :
    dirichlet beta n us = dirichlet alpha n us ∧ dirichlet 0 n us = none := by
  have hsum : ∀ (c : ℝ) (l : List ℝ), (l.map fun x => c * x).sum = c * l.sum := fun c l => by
    rw [List.sum_map_mul_left, List.map_id']
  rw [dirichlet, dirichlet, dirichlet, gammas_scale alpha beta ha, gammas_scale alpha 0 ha]
  cases gammas alpha n us with
  | none => exact ⟨rfl, rfl⟩
  | some s =>
    simp only [Option.map_some, Option.bind_some, hsum]
    have hc : beta / alpha ≠ 0 := div_ne_zero hb ha
    refine ⟨?_, by rw [if_pos (by simp)]⟩
    by_cases hz : s.1.sum = 0
    · rw [if_pos (by rw [hz, mul_zero]), if_pos hz]
    · rw [if_neg (mul_ne_zero hc hz), if_neg hz, List.map_map]
      congr 2
      refine List.map_congr_left fun x _ => ?_
      show beta / alpha * x / (beta / alpha * s.1.sum) = x / s.1.sum
      exact mul_div_mul_left _ _ hc

/-- A gamma variate should be positive: for half of the draws it is negative. -/
theorem C171_gamma_refuted (alpha : ℝ) (ha : 0 < alpha) (u : ℝ × ℝ) (us : List (ℝ × ℝ)) (hu : u.1 < 1 / 2) (h1 : radius u < 1) :
    ∃ x, randomGamma alpha (u :: us) = some (x, us) ∧ x < 0 := by
  have h0 : 0 < radius u := by
    rw [radius]
    have : 0 < (2 * u.1 - 1) * (2 * u.1 - 1) := mul_pos_of_neg_of_neg (by linarith) (by linarith)
    have := mul_self_nonneg (2 * u.2 - 1)
    linarith
  have hy : 0 < Real.sqrt (-2 * Real.log (radius u) / radius u) :=
    Real.sqrt_pos.mpr (div_pos (by have := Real.log_neg h0 h1; linarith) h0)
  refine ⟨_, by rw [randomGamma, accept, if_neg (not_le.mpr h1), Option.bind_some, if_neg h0.ne'], ?_⟩
  exact mul_neg_of_pos_of_neg ha (mul_neg_of_neg_of_pos (by linarith) hy)

/-- The sample should be a probability vector: with these draws it is (2, -1) for every concentration. -/
theorem C171_probability_refuted (alpha : ℝ) (ha : alpha ≠ 0) : dirichlet alpha 2 [(3 / 4, 1 / 2), (1 / 4, 1 / 4)] = some ([2, -1], []) := by
  rw [(C171_alpha_refuted 1 alpha one_ne_zero ha _ _).1]
  have r1 : radius (3 / 4, 1 / 2) = 1 / 4 := by rw [radius]; norm_num
  have r2 : radius (1 / 4, 1 / 4) = 1 / 2 := by rw [radius]; norm_num
  have hl : 0 < Real.log 2 := Real.log_pos (by norm_num)
  have hs : 0 < Real.sqrt (Real.log 2) := Real.sqrt_pos.mpr hl
  have l1 : -2 * Real.log (1 / 4) / (1 / 4) = 4 ^ 2 * Real.log 2 := by
    rw [show (1 / 4 : ℝ) = (2 ^ 2)⁻¹ by norm_num, Real.log_inv, Real.log_pow]
    push_cast
    ring
  have l2 : -2 * Real.log (1 / 2) / (1 / 2) = 2 ^ 2 * Real.log 2 := by
    rw [show (1 / 2 : ℝ) = 2⁻¹ by norm_num, Real.log_inv]
    ring
  have s1 : Real.sqrt (-2 * Real.log (1 / 4) / (1 / 4)) = 4 * Real.sqrt (Real.log 2) := by
    rw [l1, Real.sqrt_mul (by norm_num), Real.sqrt_sq (by norm_num)]
  have s2 : Real.sqrt (-2 * Real.log (1 / 2) / (1 / 2)) = 2 * Real.sqrt (Real.log 2) := by
    rw [l2, Real.sqrt_mul (by norm_num), Real.sqrt_sq (by norm_num)]
  have hg : gammas 1 2 [(3 / 4, 1 / 2), (1 / 4, 1 / 4)] = some ([2 * Real.sqrt (Real.log 2), -Real.sqrt (Real.log 2)], []) := by
    have a1 : ∀ us, randomGamma 1 ((3 / 4, 1 / 2) :: us) = some (2 * Real.sqrt (Real.log 2), us) := fun us => by
      rw [randomGamma, accept, if_neg (by rw [r1]; norm_num), Option.bind_some, if_neg (by rw [r1]; norm_num)]
      dsimp only
      rw [r1, s1]
      congr 2
      ring
    have a2 : ∀ us, randomGamma 1 ((1 / 4, 1 / 4) :: us) = some (-Real.sqrt (Real.log 2), us) := fun us => by
      rw [randomGamma, accept, if_neg (by rw [r2]; norm_num), Option.bind_some, if_neg (by rw [r2]; norm_num)]
      dsimp only
      rw [r2, s2]
      congr 2
      ring
    rw [gammas, a1, Option.bind_some, gammas, a2, Option.bind_some]
    rfl
  rw [dirichlet, hg, Option.bind_some]
  have hsum : ([2 * Real.sqrt (Real.log 2), -Real.sqrt (Real.log 2)] : List ℝ).sum = Real.sqrt (Real.log 2) := by
    simp only [List.sum_cons, List.sum_nil]; ring
  dsimp only
  rw [hsum, if_neg hs.ne']
  simp only [List.map_cons, List.map_nil, Option.some.injEq, Prod.mk.injEq, List.cons.injEq, and_true]
  exact ⟨by rw [mul_div_assoc, div_self hs.ne', mul_one], by rw [neg_div, div_self hs.ne']⟩

/-- The weights of the actions at the root should be probabilities: with these draws, a prior of one half for each of two actions and a
share of the noise above one third, the second action has a negative weight and the first one above one. -/
theorem C171_weights_refuted (alpha eps : ℝ) (ha : alpha ≠ 0) (he : 1 / 3 < eps) : ∃ l a b,
    dirichlet alpha 2 [(3 / 4, 1 / 2), (1 / 4, 1 / 4)] = some (l, []) ∧ mix eps l [1 / 2, 1 / 2] = [a, b] ∧ 1 < a ∧ b < 0 :=
  ⟨[2, -1], 2 * eps + (1 - eps) * (1 / 2), -1 * eps + (1 - eps) * (1 / 2), C171_probability_refuted alpha ha, rfl, by linarith, by linarith⟩

/-- The sample should always exist: for a pair of draws at the centre the logarithm of zero is taken, and mirrored draws have the sum
zero, by which it is divided. -/
theorem C171_exists_refuted (alpha : ℝ) (u : ℝ × ℝ) (us : List (ℝ × ℝ)) :
    randomGamma alpha ((1 / 2, 1 / 2) :: us) = none ∧ dirichlet alpha 2 (u :: (1 - u.1, u.2) :: []) = none := by
  constructor
  · have r : radius (1 / 2, 1 / 2) = 0 := by rw [radius]; norm_num
    rw [randomGamma, accept, if_neg (by rw [r]; norm_num), Option.bind_some, if_pos r]
  · have hr : radius (1 - u.1, u.2) = radius u := by rw [radius, radius]; ring
    by_cases h1 : 1 ≤ radius u
    · have h : accept (u :: (1 - u.1, u.2) :: []) = none := by rw [accept, if_pos h1, accept, if_pos (by rw [hr]; exact h1)]; rfl
      rw [dirichlet, gammas, randomGamma, h]; rfl
    · by_cases hz : radius u = 0
      · rw [dirichlet, gammas, randomGamma, accept, if_neg h1, Option.bind_some, if_pos hz]; rfl
      · rw [dirichlet, gammas, randomGamma, accept, if_neg h1, Option.bind_some, if_neg hz, Option.bind_some, gammas, randomGamma, accept, if_neg (by rw [hr]; exact h1), Option.bind_some,
          if_neg (by rw [hr]; exact hz)]
        simp only [gammas, Option.bind_some]
        rw [if_pos]
        rw [hr]
        simp only [List.sum_cons, List.sum_nil]
        ring

/-- The hypotheses are met. -/
example : (∃ u ∈ [((0 : ℝ), (0 : ℝ)), (3 / 4, 1 / 2)], radius u < 1) ∧ (∃ l, dirichlet 3 2 [(3 / 4, 1 / 2), (1 / 4, 1 / 4)] = some (l, [])) ∧
    ((1 / 4 : ℝ) < 1 / 2 ∧ radius (1 / 4, 1 / 4) < 1) :=
  ⟨⟨(3 / 4, 1 / 2), by simp, by rw [radius]; norm_num⟩, ⟨_, C171_probability_refuted 3 (by norm_num)⟩, by norm_num, by rw [radius]; norm_num⟩

end LLab.RootNoise
