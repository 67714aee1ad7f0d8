import Verif.Common.Loop
import Mathlib.Algebra.Order.Field.Basic
import Mathlib.Algebra.Order.Field.Rat
import Mathlib.Data.Real.Basic
import Mathlib.Tactic.Linarith
import Mathlib.Tactic.Ring
import Mathlib.Tactic.NormNum

/-!
The Ornstein-Uhlenbeck exploration noise (`/repo/src/noise.c`). Properties C53 and C78.
Rounding is not modelled.
-/

namespace LLab.Noise

/-- `oustrategy` (`/repo/src/llab.h` 675-682). -/
structure OU where
  mu : ℝ
  theta : ℝ
  sigma : ℝ
  maxSigma : ℝ
  minSigma : ℝ
  decay : Nat
  dim : Nat
  space : Arr ℝ
  state : Arr ℝ
  actMax : Arr ℝ
  actMin : Arr ℝ

/-- `init_oustrategy` (`/repo/src/noise.c` 28-42). -/
noncomputable def init (dim : Nat) (actMax actMin : Arr ℝ) : OU where
  mu := 0
  theta := 0.15
  sigma := 0.3
  maxSigma := 0.3
  minSigma := 0.3
  decay := 100000
  dim := dim
  space := ⟨dim, fun _ => 0⟩
  state := ⟨dim, fun _ => 0⟩
  actMax := actMax
  actMin := actMin

/-- `reset_oustrategy` (`/repo/src/noise.c` 53-58). -/
noncomputable def reset (ou : OU) : Option OU :=
  (loop ou.dim (fun i a => a.write i ou.mu) ou.space).bind fun a => some { ou with space := a }

/-- `evolve_state` (`/repo/src/noise.c` 61-70); `noise i` is the `i`-th value
returned by `random_normal`. -/
noncomputable def evolve (noise : Nat → ℝ) (ou : OU) : Option OU :=
  (loop ou.dim (fun i s => (s.read i).bind fun x => s.addAt i (ou.theta * (ou.mu - x) + ou.sigma * noise i)) ou.state).bind
    fun s => some { ou with state := s }

/-- Body of the loop of `get_action` (`/repo/src/noise.c` 82-88). -/
noncomputable def clampAt (ou : OU) (i : Nat) (a : Arr ℝ) : Option (Arr ℝ) :=
  (ou.state.read i).bind fun s => (a.addAt i s).bind fun a =>
    (a.read i).bind fun x => (ou.actMax.read i).bind fun hi =>
      (if x > hi then a.write i hi else some a).bind fun a =>
        (a.read i).bind fun x => (ou.actMin.read i).bind fun lo => if x < lo then a.write i lo else some a

/-- `get_action` (`/repo/src/noise.c` 73-90); the new strategy and the new actions.
`t/decay_period` is an integer division; by zero it is undefined. -/
noncomputable def getAction (noise : Nat → ℝ) (ou : OU) (t : Nat) (actions : Arr ℝ) : Option (OU × Arr ℝ) :=
  (evolve noise ou).bind fun ou =>
    if ou.decay = 0 then none
    else
      let m : ℝ := if (1 : ℝ) < ((t / ou.decay : Nat) : ℝ) then 1 else ((t / ou.decay : Nat) : ℝ)
      let ou := { ou with sigma := ou.maxSigma - (ou.maxSigma - ou.minSigma) * m }
      (loop ou.dim (clampAt ou) actions).bind fun a => some (ou, a)

/-- Sizes of a strategy; the bounds passed by the user are long enough and ordered. -/
structure OU.WF (ou : OU) : Prop where
  space : ou.space.len = ou.dim
  state : ou.state.len = ou.dim
  actMax : ou.dim ≤ ou.actMax.len
  actMin : ou.dim ≤ ou.actMin.len
  ordered : ∀ i, i < ou.dim → ou.actMin.get i ≤ ou.actMax.get i
  decay : 0 < ou.decay

/-- The state after one evolution. -/
noncomputable def nextState (noise : Nat → ℝ) (ou : OU) (i : Nat) : ℝ :=
  ou.state.get i + ou.theta * (ou.mu - ou.state.get i) + ou.sigma * noise i

theorem evolve_eq (noise : Nat → ℝ) (ou : OU) (h : ou.WF) :
    evolve noise ou =
      some { ou with state := ⟨ou.dim, fun k => if k < ou.dim then nextState noise ou k else ou.state.get k⟩ } := by
  unfold evolve
  rw [loop_fill (fun i => nextState noise ou i)]
  · rw [h.state]
    rfl
  · intro i hi b hb hk
    rw [Arr.read_eq (by rw [hb, h.state]; exact hi)]
    refine (Arr.addAt_eq _ (by rw [hb, h.state]; exact hi)).trans ?_
    rw [hk i (le_refl _)]
    unfold nextState
    congr 3
    ring

theorem clampAt_eq (ou : OU) (h : ou.WF) (i : Nat) (hi : i < ou.dim) (a : Arr ℝ) (ha : i < a.len) :
    clampAt ou i a = some ⟨a.len, Function.update a.get i
      (max (ou.actMin.get i) (min (ou.actMax.get i) (a.get i + ou.state.get i)))⟩ := by
  have ho := h.ordered i hi
  unfold clampAt
  rw [Arr.read_eq (by rw [h.state]; exact hi)]
  dsimp only [Option.bind_some]
  rw [Arr.addAt_eq _ ha]
  dsimp only [Option.bind_some]
  rw [Arr.read_eq (by exact ha), Arr.read_eq (lt_of_lt_of_le hi h.actMax), Arr.read_eq (lt_of_lt_of_le hi h.actMin)]
  dsimp only [Option.bind_some]
  rw [Function.update_self]
  by_cases h1 : a.get i + ou.state.get i > ou.actMax.get i
  · rw [if_pos h1, Arr.write_eq _ (by exact ha)]
    dsimp only [Option.bind_some]
    rw [Arr.read_eq (by exact ha)]
    dsimp only [Option.bind_some]
    rw [Function.update_self, if_neg (not_lt.2 ho), Function.update_idem, min_eq_left (le_of_lt h1), max_eq_right ho]
  · rw [if_neg h1]
    dsimp only [Option.bind_some]
    rw [Arr.read_eq (by exact ha)]
    dsimp only [Option.bind_some]
    rw [Function.update_self, min_eq_right (not_lt.1 h1)]
    by_cases h2 : a.get i + ou.state.get i < ou.actMin.get i
    · rw [if_pos h2, Arr.write_eq _ (by exact ha), max_eq_left (le_of_lt h2)]
      dsimp only
      rw [Function.update_idem]
    · rw [if_neg h2, max_eq_right (not_lt.1 h2)]

/-- **C53.** From every state of the strategy, for every draw of the noise, every
time and every action vector, `get_action` returns the actions plus the evolved
state, clamped: every component is between its bounds. The strategy stays well
formed, so the same holds after any history of calls. -/
theorem C53_bounds (noise : Nat → ℝ) (ou : OU) (h : ou.WF) (t : Nat) (actions : Arr ℝ) (ha : ou.dim ≤ actions.len) :
    ∃ ou' a', getAction noise ou t actions = some (ou', a') ∧ ou'.WF ∧ ou'.dim = ou.dim ∧ a'.len = actions.len ∧
      ou'.actMin = ou.actMin ∧ ou'.actMax = ou.actMax ∧
      (∀ i, i < ou.dim → ou'.state.get i = ou.state.get i + ou.theta * (ou.mu - ou.state.get i) + ou.sigma * noise i ∧
        ou.actMin.get i ≤ a'.get i ∧ a'.get i ≤ ou.actMax.get i ∧
        a'.get i = max (ou.actMin.get i) (min (ou.actMax.get i) (actions.get i + ou'.state.get i))) ∧
      (∀ i, ou.dim ≤ i → a'.get i = actions.get i) ∧
      ou'.sigma = if t < ou.decay then ou.maxSigma else ou.minSigma := by
  unfold getAction
  rw [evolve_eq noise ou h]
  dsimp only [Option.bind_some]
  rw [if_neg (by have := h.decay; omega)]
  generalize hσ : ou.maxSigma - (ou.maxSigma - ou.minSigma) * (if (1 : ℝ) < ((t / ou.decay : Nat) : ℝ) then 1 else ((t / ou.decay : Nat) : ℝ)) = σ
  have hs : σ = if t < ou.decay then ou.maxSigma else ou.minSigma := by
    rw [← hσ]
    by_cases ht : t < ou.decay
    · rw [Nat.div_eq_of_lt ht, if_pos ht]
      norm_num
    · have h1 : 1 ≤ t / ou.decay := (Nat.one_le_div_iff h.decay).2 (not_lt.1 ht)
      have h2 : (1 : ℝ) ≤ ((t / ou.decay : Nat) : ℝ) := by exact_mod_cast h1
      rw [if_neg ht]
      split_ifs with h3
      · ring
      · rw [le_antisymm (not_lt.1 h3) h2]
        ring
  generalize hou : ({ ou with
      sigma := σ
      state := ⟨ou.dim, fun k => if k < ou.dim then nextState noise ou k else ou.state.get k⟩ } : OU) = ou'
  have hwf : ou'.WF := by
    subst hou
    exact ⟨h.space, rfl, h.actMax, h.actMin, h.ordered, h.decay⟩
  have hd : ou'.dim = ou.dim := by subst hou; rfl
  have hmin : ou'.actMin = ou.actMin := by subst hou; rfl
  have hmax : ou'.actMax = ou.actMax := by subst hou; rfl
  have hsig : ou'.sigma = σ := by subst hou; rfl
  have hst : ∀ i, i < ou.dim → ou'.state.get i = nextState noise ou i := by
    subst hou
    intro i hi
    exact if_pos hi
  have hl : loop ou.dim (clampAt ou') actions = some ⟨actions.len, fun k => if k < ou.dim then
      max (ou.actMin.get k) (min (ou.actMax.get k) (actions.get k + ou'.state.get k)) else actions.get k⟩ := by
    refine loop_fill (fun i => max (ou.actMin.get i) (min (ou.actMax.get i) (actions.get i + ou'.state.get i))) ?_
    intro i hi b hb hk
    rw [clampAt_eq ou' hwf i (by omega) b (by omega), hk i (le_refl _), hmin, hmax]
  rw [hl]
  refine ⟨ou', _, rfl, hwf, hd, rfl, hmin, hmax, fun i hi => ?_, fun i hi => ?_, hsig.trans hs⟩
  · dsimp only
    rw [if_pos hi]
    refine ⟨hst i hi, le_max_left _ _, max_le (h.ordered i hi) (min_le_left _ _), rfl⟩
  · dsimp only
    rw [if_neg (by omega)]

/-- A fresh strategy with ordered bounds meets the hypothesis. -/
theorem init_wf (dim : Nat) (hi lo : Arr ℝ) (h1 : dim ≤ hi.len) (h2 : dim ≤ lo.len)
    (h : ∀ i, i < dim → lo.get i ≤ hi.get i) : (init dim hi lo).WF :=
  ⟨rfl, rfl, h1, h2, h, by simp [init]⟩

example : (init 2 ⟨2, fun _ => 1⟩ ⟨2, fun _ => -1⟩).WF := init_wf _ _ _ (by simp) (by simp) (by intros; norm_num)

/-- The strategy after any sequence of calls. -/
inductive Reach (ou : OU) : OU → Prop
  | start : Reach ou ou
  | act {o o' : OU} (noise : Nat → ℝ) (t : Nat) (a a' : Arr ℝ) : Reach ou o → ou.dim ≤ a.len →
      getAction noise o t a = some (o', a') → Reach ou o'
  | reset {o o' : OU} : Reach ou o → reset o = some o' → Reach ou o'

theorem reset_eq (ou : OU) (h : ou.WF) : reset ou = some { ou with
    space := ⟨ou.dim, fun k => if k < ou.dim then ou.mu else ou.space.get k⟩ } := by
  unfold reset
  rw [loop_fill (fun _ => ou.mu)]
  · rw [h.space]
    rfl
  · intro i hi b hb _
    exact Arr.write_eq _ (by rw [hb, h.space]; exact hi)

/-- **C53, histories.** After any history of `get_action` and `reset_oustrategy`
calls, the next action vector is again within the bounds given at the start. -/
theorem C53_history (ou o : OU) (h : ou.WF) (hr : Reach ou o) (noise : Nat → ℝ) (t : Nat) (a : Arr ℝ) (ha : ou.dim ≤ a.len) :
    ∃ o' a', getAction noise o t a = some (o', a') ∧
      ∀ i, i < ou.dim → ou.actMin.get i ≤ a'.get i ∧ a'.get i ≤ ou.actMax.get i := by
  have key : o.WF ∧ o.dim = ou.dim ∧ o.actMin = ou.actMin ∧ o.actMax = ou.actMax := by
    induction hr with
    | start => exact ⟨h, rfl, rfl, rfl⟩
    | act noise t a a' _ hl hg ih =>
      obtain ⟨h1, h2, h3, h4⟩ := ih
      obtain ⟨o'', a'', e, w, d, _, m1, m2, _⟩ := C53_bounds noise _ h1 t a (by omega)
      rw [e] at hg
      obtain ⟨rfl, rfl⟩ := Prod.mk.inj (Option.some.inj hg)
      exact ⟨w, d.trans h2, m1.trans h3, m2.trans h4⟩
    | reset _ hg ih =>
      obtain ⟨h1, h2, h3, h4⟩ := ih
      rw [reset_eq _ h1] at hg
      obtain rfl := Option.some.inj hg
      exact ⟨⟨rfl, h1.state, h1.actMax, h1.actMin, h1.ordered, h1.decay⟩, h2, h3, h4⟩
  obtain ⟨h1, h2, h3, h4⟩ := key
  obtain ⟨o', a', e, _, _, _, _, _, hb, _⟩ := C53_bounds noise o h1 t a (by omega)
  refine ⟨o', a', e, fun i hi => ?_⟩
  have := hb i (by omega)
  rw [h3, h4] at this
  exact ⟨this.2.1, this.2.2.1⟩

/-- **C78 (partial).** `reset_oustrategy` sets the unused `action_space` to the mean
and changes nothing else. -/
theorem C78_reset_partial (ou : OU) (h : ou.WF) : ∃ ou', reset ou = some ou' ∧ ou'.WF ∧
    (∀ i, i < ou.dim → ou'.space.get i = ou.mu) ∧ ou' = { ou with space := ou'.space } := by
  refine ⟨_, reset_eq ou h, ⟨rfl, h.state, h.actMax, h.actMin, h.ordered, h.decay⟩, fun i hi => if_pos hi, rfl⟩

/-- **C78, refuted.** `reset_oustrategy` does not restart the noise process: the
noise state is left as it is. -/
theorem C78_reset_refuted : ∃ ou ou' : OU, ou.WF ∧ reset ou = some ou' ∧ ou'.state.get 0 ≠ ou'.mu := by
  let ou : OU := { init 1 ⟨1, fun _ => 1⟩ ⟨1, fun _ => -1⟩ with state := ⟨1, fun _ => 7⟩ }
  have hw : ou.WF := ⟨rfl, rfl, le_refl _, le_refl _, fun _ _ => by simp [ou, init], by simp [ou, init]⟩
  refine ⟨ou, _, hw, reset_eq ou hw, ?_⟩
  simp [ou, init]

end LLab.Noise
