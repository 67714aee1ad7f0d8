import Mathlib.Analysis.SpecialFunctions.Trigonometric.Basic
import Mathlib.Analysis.SpecialFunctions.Pow.Real
import Mathlib.Tactic.Linarith
import Mathlib.Data.Rat.Floor
import Mathlib.Algebra.Order.Floor.Semifield
import Mathlib.Tactic.NormNum
import Mathlib.Tactic.Positivity

/-!
Model of `/repo/src/learning_rate_decay.c` and property C15.
Learning rates are real numbers; `epoch` and `epoch_threshold` are `uint`
(`Nat` here). A remainder or integer division by zero is undefined (`none`).
-/

namespace LLab.Schedule

open Real

/-- `constant_decay` (`/repo/src/learning_rate_decay.c` 28-32). -/
noncomputable def constantDecay (lr decay minimum : ℝ) : ℝ :=
  if lr ≤ minimum then lr else lr - decay

/-- `time_based_decay` (`/repo/src/learning_rate_decay.c` 35-39). -/
noncomputable def timeBasedDecay (lr decay minimum : ℝ) (iterations : Nat) : ℝ :=
  if lr ≤ minimum then lr else lr * (1 / (1 + decay * iterations))

/-- C unsigned division and remainder. -/
def udiv (a b : Nat) : Option Nat := if b = 0 then none else some (a / b)

/-- C `%` on `uint`. -/
def umod (a b : Nat) : Option Nat := if b = 0 then none else some (a % b)

/-- `step_decay` (`/repo/src/learning_rate_decay.c` 42-44). The quotient is an
integer division, so `floor` does nothing. -/
noncomputable def stepDecay (initial drop : ℝ) (epoch drops : Nat) : Option ℝ := do
  let q ← udiv (1 + epoch) drops
  some (initial * drop ^ q)

/-- `cosine_annealing` (`/repo/src/learning_rate_decay.c` 46-48). -/
noncomputable def cosineAnnealing (lrMin lrMax : ℝ) (epoch threshold : Nat) : Option ℝ := do
  let q ← udiv epoch threshold
  some (lrMin + (lrMax - lrMin) * (1 + Real.cos (1 + π * q)))

/-- The guard of `update_lr` (`/repo/src/learning_rate_decay.c` 54-60): `true`
means the function goes on. The `else` belongs to the inner `if`. -/
def guardLr (epoch threshold : Nat) : Option Bool :=
  if threshold ≥ epoch then do
    let m ← umod threshold epoch
    if m ≠ 0 then some false
    else do
      let m' ← umod epoch threshold
      some (m' == 0)
  else some true

/-- The dispatch of `update_lr` (`/repo/src/learning_rate_decay.c` 62-69), with
`LR_NO_DECAY = 0`, `LR_CONSTANT_DECAY = 1`, `LR_TIME_BASED_DECAY = 2`,
`LR_STEP_DECAY = 3`, `LR_ANNEALING_DECAY = 4` (`/repo/src/llab.h` 222-226). The
last branch tests `LR_CONSTANT_DECAY` again. -/
noncomputable def dispatch (lr lrMin lrMax initial decay : ℝ) (epoch threshold flag : Nat) : Option ℝ :=
  if flag = 1 then some (constantDecay lr decay lrMin)
  else if flag = 2 then some (timeBasedDecay lr decay lrMin epoch)
  else if flag = 3 then stepDecay initial decay epoch threshold
  else if flag = 1 then cosineAnnealing lrMin lrMax epoch threshold
  else some lr

/-- `update_lr` (`/repo/src/learning_rate_decay.c` 51-70). -/
noncomputable def updateLr (lr lrMin lrMax initial decay : ℝ) (epoch threshold flag : Nat) : Option ℝ :=
  if flag = 0 then some lr
  else do
    let go ← guardLr epoch threshold
    if go then dispatch lr lrMin lrMax initial decay epoch threshold flag else some lr

/-! ### C15 -/

/-- The guard, exactly: defined from epoch 1 on, it lets the update through at
the period and at *every* later epoch. -/
theorem guardLr_eq (epoch threshold : Nat) (h : 1 ≤ epoch) :
    guardLr epoch threshold = some (decide (threshold ≤ epoch)) := by
  unfold guardLr umod
  by_cases h1 : threshold ≥ epoch
  · rw [if_pos h1, if_neg (by omega : ¬ epoch = 0)]
    simp only [Option.bind_eq_bind, Option.bind_some]
    by_cases h2 : threshold % epoch = 0
    · rw [if_neg (by simpa using h2), if_neg (by omega : ¬ threshold = 0)]
      simp only [Option.bind_some]
      by_cases h3 : threshold = epoch
      · subst h3; simp
      · rw [Nat.mod_eq_of_lt (by omega)]
        have h4 : ¬ epoch = 0 := by omega
        have h5 : ¬ threshold ≤ epoch := by omega
        simp [h4, h5]
    · rw [if_pos h2]
      have : threshold ≠ epoch := by rintro rfl; simp at h2
      simp
      omega
  · rw [if_neg h1]
    simp
    omega

/-- **C15 (partial).** From epoch 1 on, the learning rate does not move before
the configured period is reached; missing from the full property: afterwards it
moves at every epoch, not only at multiples. -/
theorem C15_not_before_period_partial (lr lrMin lrMax initial decay : ℝ) (epoch threshold flag : Nat)
    (h : 1 ≤ epoch) (hp : epoch < threshold) :
    updateLr lr lrMin lrMax initial decay epoch threshold flag = some lr := by
  unfold updateLr
  split_ifs with h0
  · rfl
  · rw [guardLr_eq epoch threshold h]
    simp [show ¬ threshold ≤ epoch by omega]

example : (1 : Nat) ≤ 3 ∧ 3 < 10 := by decide

/-- **C15 (refuted: period).** With period 2 the rate changes at epoch 3, which
is not a multiple of 2; the same happens at every epoch above the period. -/
theorem C15_period_refuted (epoch threshold : Nat) (h : threshold < epoch) :
    ∃ lr lr' : ℝ, updateLr lr 0 1 1 (1 / 10) epoch threshold 1 = some lr' ∧ lr' ≠ lr := by
  refine ⟨1, 1 - 1 / 10, ?_, by norm_num⟩
  unfold updateLr
  rw [if_neg (by decide), guardLr_eq epoch threshold (by omega)]
  simp [show threshold ≤ epoch by omega, dispatch, constantDecay]

/-- **C15 (refuted: epoch 0).** At epoch 0 every schedule divides by zero. -/
theorem C15_epoch_zero_refuted (lr lrMin lrMax initial decay : ℝ) (threshold flag : Nat)
    (hf : flag ≠ 0) : updateLr lr lrMin lrMax initial decay 0 threshold flag = none := by
  simp [updateLr, hf, guardLr, umod]

/-- **C15 (refuted: annealing).** The cosine schedule is never run. -/
theorem C15_annealing_refuted (lr lrMin lrMax initial decay : ℝ) (epoch threshold : Nat)
    (h : 1 ≤ epoch) : updateLr lr lrMin lrMax initial decay epoch threshold 4 = some lr := by
  unfold updateLr
  rw [if_neg (by decide), guardLr_eq epoch threshold h]
  by_cases h : threshold ≤ epoch <;> simp [h, dispatch]

/-- **C15 (refuted: minimum).** Constant decay can step below the minimum, and
step decay ignores it altogether. -/
theorem C15_minimum_refuted :
    (∃ lr', updateLr (3 / 20) (1 / 10) 1 1 (1 / 10) 5 5 1 = some lr' ∧ lr' < 1 / 10) ∧
    (∃ lr', updateLr 1 (1 / 10) 1 1 (1 / 100) 5 5 3 = some lr' ∧ lr' < 1 / 10) := by
  constructor
  · refine ⟨3 / 20 - 1 / 10, ?_, by norm_num⟩
    unfold updateLr
    rw [if_neg (by decide), guardLr_eq 5 5 (by decide)]
    simp [dispatch, constantDecay]
    norm_num
  · refine ⟨1 * (1 / 100) ^ 1, ?_, by norm_num⟩
    unfold updateLr
    rw [if_neg (by decide), guardLr_eq 5 5 (by decide)]
    simp [dispatch, stepDecay, udiv]

/-- **C15 (values).** At and after the period, one call applies the documented
formula of the chosen schedule: constant decay subtracts `decay`, time-based
decay divides by `1 + decay * epoch`, both only above the minimum; step decay
sets `initial * decay ^ ⌊(1 + epoch) / period⌋`. (Partial: see the refutations
for the period, the minimum and annealing.) -/
theorem C15_values_partial (lr lrMin lrMax initial decay : ℝ) (epoch threshold : Nat)
    (h : 1 ≤ epoch) (hp : threshold ≤ epoch) :
    (lrMin < lr → updateLr lr lrMin lrMax initial decay epoch threshold 1 = some (lr - decay)) ∧
    (lrMin < lr → updateLr lr lrMin lrMax initial decay epoch threshold 2 =
      some (lr / (1 + decay * epoch))) ∧
    (lr ≤ lrMin → updateLr lr lrMin lrMax initial decay epoch threshold 1 = some lr ∧
      updateLr lr lrMin lrMax initial decay epoch threshold 2 = some lr) ∧
    (0 < threshold → updateLr lr lrMin lrMax initial decay epoch threshold 3 =
      some (initial * decay ^ ⌊((1 + epoch : Nat) : ℚ) / threshold⌋₊)) := by
  have e : ∀ f, f ≠ 0 → updateLr lr lrMin lrMax initial decay epoch threshold f =
      dispatch lr lrMin lrMax initial decay epoch threshold f := by
    intro f hf
    unfold updateLr
    rw [if_neg hf, guardLr_eq epoch threshold h]
    simp [hp]
  refine ⟨fun hl => ?_, fun hl => ?_, fun hl => ⟨?_, ?_⟩, fun ht => ?_⟩ <;> rw [e _ (by decide)]
  · simp [dispatch, constantDecay, not_le.2 hl]
  · simp [dispatch, timeBasedDecay, not_le.2 hl, div_eq_mul_inv]
  · simp [dispatch, constantDecay, hl]
  · simp [dispatch, timeBasedDecay, hl]
  · rw [Nat.floor_div_natCast, Nat.floor_natCast]
    simp [dispatch, stepDecay, udiv, Nat.pos_iff_ne_zero.1 ht]

example : (1 : Nat) ≤ 12 ∧ 10 ≤ 12 := by decide

/-- A history of calls at the given epochs. -/
noncomputable def runLr (lrMin lrMax initial decay : ℝ) (threshold flag : Nat) : ℝ → List Nat → Option ℝ
  | lr, [] => some lr
  | lr, e :: es => do
    let lr' ← updateLr lr lrMin lrMax initial decay e threshold flag
    runLr lrMin lrMax initial decay threshold flag lr' es

/-- **C15 (partial: limits).** Over any history of calls from epoch 1 on, with a
non-negative decay, constant and time-based decay never raise the rate, and
constant decay stays above `minimum - decay`, time-based decay above 0. -/
theorem C15_limits_partial (lrMin lrMax initial decay : ℝ) (threshold : Nat) (es : List Nat)
    (he : ∀ e ∈ es, 1 ≤ e) (hd : 0 ≤ decay) (lr : ℝ) :
    (lrMin - decay ≤ lr → ∃ lr', runLr lrMin lrMax initial decay threshold 1 lr es = some lr' ∧
      lrMin - decay ≤ lr' ∧ lr' ≤ lr) ∧
    (0 < lr → ∃ lr', runLr lrMin lrMax initial decay threshold 2 lr es = some lr' ∧
      0 < lr' ∧ lr' ≤ lr) := by
  induction es generalizing lr with
  | nil => exact ⟨fun h => ⟨lr, rfl, h, le_refl _⟩, fun h => ⟨lr, rfl, h, le_refl _⟩⟩
  | cons e es ih =>
    have ih' := fun lr => ih (fun x hx => he x (by simp [hx])) lr
    have h1 : 1 ≤ e := he e (by simp)
    constructor
    · intro h
      have step : ∃ l, updateLr lr lrMin lrMax initial decay e threshold 1 = some l ∧
          lrMin - decay ≤ l ∧ l ≤ lr := by
        unfold updateLr
        rw [if_neg (by decide), guardLr_eq e threshold h1]
        by_cases hc : threshold ≤ e
        · refine ⟨constantDecay lr decay lrMin, by simp [hc, dispatch], ?_⟩
          unfold constantDecay
          split_ifs with h2
          · exact ⟨h, le_refl _⟩
          · constructor <;> linarith
        · exact ⟨lr, by simp [hc], h, le_refl _⟩
      obtain ⟨l, e1, a, b⟩ := step
      obtain ⟨l', e2, c, d⟩ := (ih' l).1 a
      exact ⟨l', by simp [runLr, e1, e2], c, d.trans b⟩
    · intro h
      have step : ∃ l, updateLr lr lrMin lrMax initial decay e threshold 2 = some l ∧
          0 < l ∧ l ≤ lr := by
        unfold updateLr
        rw [if_neg (by decide), guardLr_eq e threshold h1]
        by_cases hc : threshold ≤ e
        · refine ⟨timeBasedDecay lr decay lrMin e, by simp [hc, dispatch], ?_⟩
          unfold timeBasedDecay
          split_ifs with h2
          · exact ⟨h, le_refl _⟩
          · have hp : (0 : ℝ) < 1 + decay * e := by positivity
            have hq : (1 : ℝ) ≤ 1 + decay * e := by
              have : (0 : ℝ) ≤ decay * e := by positivity
              linarith
            refine ⟨by positivity, ?_⟩
            have : 1 / (1 + decay * e) ≤ 1 := by
              rw [div_le_one hp]; exact hq
            calc lr * (1 / (1 + decay * e)) ≤ lr * 1 := mul_le_mul_of_nonneg_left this h.le
              _ = lr := mul_one lr
        · exact ⟨lr, by simp [hc], h, le_refl _⟩
      obtain ⟨l, e1, a, b⟩ := step
      obtain ⟨l', e2, c, d⟩ := (ih' l).2 a
      exact ⟨l', by simp [runLr, e1, e2], c, d.trans b⟩

example : ∀ e ∈ [1, 2, 3, 10], 1 ≤ e := by decide

end LLab.Schedule
