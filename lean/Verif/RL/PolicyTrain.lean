import Verif.Common.Arr
import Verif.Common.Loop
import Verif.Math.Schedule
import Verif.Train.SumTree
import Mathlib.Algebra.BigOperators.Intervals
import Mathlib.Data.Real.Basic

/-!
Training a policy (`/repo/src/policy_gradient.c`): `init_policy_gradient`,
`policy_gradient_training_passage` and `get_policies`. Property C122.

The network itself is a parameter: what one pass adds to the derivatives is an
arbitrary function of the buffers, the parameters, the rewards, the state and the
other state (C120 says which function for a policy; the passes of the networks are
the subject of other properties). What is modelled is which passes are made, on
which of the networks, in what state, and where their derivatives go.
-/

namespace LLab.PolicyTrain

open Finset LLab.SumTree LLab.Schedule

/-- The numerical content of a model: parameters `Θ`, components `C` of the
derivatives, buffers `B`, states `X`, other outputs `O`. -/
structure Fns (Θ C B X O : Type) where
  /-- the buffers after any of the resets -/
  clean : B
  /-- `ff_error_bp_model_once` and its `_opt` version: new buffers and the
  derivatives added -/
  once : B → Θ → (Nat → ℝ) → ℝ → X → O → B × (C → ℝ)
  /-- a forward pass alone: new buffers and the output layer -/
  fwd : B → Θ → X → B × (Nat → ℝ)

/-- A model without its parameters: derivatives, buffers, `error_alpha` and
`error_gamma`. -/
structure Net (C B : Type) where
  d : C → ℝ
  buf : B
  alpha : Nat → ℝ
  gamma : ℝ

variable {Θ C B X O : Type}

/-- One pass, adding to the derivatives. -/
def Net.once (F : Fns Θ C B X O) (θ : Θ) (x : X) (o : O) (n : Net C B) : Net C B :=
  { n with buf := (F.once n.buf θ n.alpha n.gamma x o).1,
           d := fun c => n.d c + (F.once n.buf θ n.alpha n.gamma x o).2 c }

/-- `reset_model_except_partial_derivatives`. -/
def Net.keep (F : Fns Θ C B X O) (n : Net C B) : Net C B := { n with buf := F.clean }

/-- `reset_model`, `reset_model_without_learning_parameters`. -/
def Net.zero (F : Fns Θ C B X O) (n : Net C B) : Net C B := { n with buf := F.clean, d := fun _ => 0 }

/-- The loop over the actions: the reward at the action taken, 0 elsewhere
(`/repo/src/policy_gradient.c` 145-150, 156-161). -/
def setAlpha (n : Nat) (action : Int) (reward : ℝ) (alpha : Nat → ℝ) : Nat → ℝ :=
  (List.range n).foldl (fun a j => Function.update a j (if action = (j : Int) then reward else 0)) alpha

/-- The samples of one training passage. -/
structure Samples (X O : Type) where
  state : Nat → X
  reward : Nat → ℝ
  action : Nat → Int
  other : Nat → O
  length : Nat

/-- The agent: settings, parameters, the main model and one model per thread. -/
structure Agent (Θ C B : Type) where
  threads : Nat
  outDim : Nat
  θ : Θ
  m : Net C B
  ms : Nat → Net C B
  lr : ℝ
  lrMin : ℝ
  lrMax : ℝ
  initialLr : ℝ
  lrDecay : ℝ
  lrThreshold : Nat
  lrFlag : Nat
  beta1 : ℝ
  beta2 : ℝ
  startBeta1 : ℝ
  startBeta2 : ℝ
  iteration : Nat
  clipFlag : Bool
  /-- `none`: never assigned -/
  clipValue : Option ℝ

/-- One round with one thread (lines 144-153). -/
def single (F : Fns Θ C B X O) (s : Samples X O) (i : Nat) (a : Agent Θ C B) : Agent Θ C B :=
  { a with m := ((({ a.m with alpha := setAlpha a.outDim (s.action i) (s.reward i) a.m.alpha } : Net C B).once F a.θ
      (s.state i) (s.other i)).keep F) }

/-- The models of the threads after their passes (lines 155-163): thread `k` takes
sample `i+k`, with the parameters of the main model. The threads work on disjoint
models. -/
def passes (F : Fns Θ C B X O) (s : Samples X O) (i min : Nat) (a : Agent Θ C B) : Nat → Net C B :=
  fun k => if k < min then
    ({ a.ms k with alpha := setAlpha a.outDim (s.action (i + k)) (s.reward (i + k)) (a.ms k).alpha } : Net C B).once F a.θ
      (s.state (i + k)) (s.other (i + k))
  else a.ms k

/-- The loop over the samples (lines 139-169), from sample `i` on. Its runs are the
finite derivations: with several threads the derivatives are summed by
`sum_models_partial_derivatives_multithread`, under any interleaving. -/
inductive Rounds [DecidableEq C] (F : Fns Θ C B X O) (comps : List C) (s : Samples X O) :
    Nat → Agent Θ C B → Agent Θ C B → Prop
  | done {i : Nat} {a : Agent Θ C B} (h : s.length ≤ i) : Rounds F comps s i a a
  | one {i : Nat} {a a' : Agent Θ C B} (h : i < s.length) (h1 : a.threads = 1)
      (r : Rounds F comps s (i + min 1 (s.length - i)) (single F s i a) a') : Rounds F comps s i a a'
  | many {i : Nat} {a a' : Agent Θ C B} {d : C → ℝ} (h : i < s.length) (h1 : a.threads ≠ 1)
      (hd : Multithread comps (min a.threads (s.length - i))
        (fun k => (passes F s i (min a.threads (s.length - i)) a k).d) a.m.d d)
      (r : Rounds F comps s (i + min a.threads (s.length - i))
        { a with m := { a.m with d := d },
                 ms := fun k => if k < min a.threads (s.length - i) then
                   (passes F s i (min a.threads (s.length - i)) a k).zero F else a.ms k } a') :
      Rounds F comps s i a a'

/-- The derivatives after the clipping (lines 171-173): `adaptive_gradient_clipping_model`
is the parameter `K`; reading the threshold when it was never assigned is
undefined. -/
def clipped (K : ℝ → Θ → (C → ℝ) → C → ℝ) (a : Agent Θ C B) : Option (C → ℝ) :=
  if a.clipFlag then do
    let v ← a.clipValue
    some (K v a.θ a.m.d)
  else some a.m.d

/-- The end of the passage (lines 174-177): `update_model` is the parameter `U`, of
the rate, batch size, betas, time step, parameters and derivatives. -/
noncomputable def finish (F : Fns Θ C B X O) (K : ℝ → Θ → (C → ℝ) → C → ℝ)
    (U : ℝ → Nat → ℝ → ℝ → Nat → Θ → (C → ℝ) → Θ) (batch : Nat) (a : Agent Θ C B) : Option (Agent Θ C B) := do
  let d ← clipped K a
  let lr ← updateLr a.lr a.lrMin a.lrMax a.initialLr a.lrDecay a.iteration a.lrThreshold a.lrFlag
  some { a with θ := U a.lr batch a.beta1 a.beta2 a.iteration a.θ d, m := a.m.zero F, lr := lr,
                beta1 := a.beta1 * a.startBeta1, beta2 := a.beta2 * a.startBeta2, iteration := a.iteration + 1 }

/-- `policy_gradient_training_passage`: `r` is the result, `none` if undefined
behaviour is reached after the loop. -/
def Passage [DecidableEq C] (F : Fns Θ C B X O) (K : ℝ → Θ → (C → ℝ) → C → ℝ)
    (U : ℝ → Nat → ℝ → ℝ → Nat → Θ → (C → ℝ) → Θ) (comps : List C) (s : Samples X O) (batch : Nat)
    (a : Agent Θ C B) (r : Option (Agent Θ C B)) : Prop :=
  ∃ a1, Rounds F comps s 0 a a1 ∧ r = finish F K U batch a1

/-- `init_policy_gradient` (lines 28-120) on the fields used here; the checks of
the flags are left out. The clipping threshold is not assigned. -/
def init (m : Net C B) (ms : Nat → Net C B) (θ : Θ) (batch threads outDim : Nat) (clipFlag : Bool) (lr lrMin lrMax decay : ℝ)
    (lrThreshold lrFlag : Nat) (beta1 beta2 gamma : ℝ) : Agent Θ C B :=
  { threads := if batch < threads then batch else threads, outDim := outDim, θ := θ,
    m := { m with alpha := fun _ => 0, gamma := gamma },
    ms := fun k => if 1 < (if batch < threads then batch else threads) ∧ k < (if batch < threads then batch else threads) then
      { ms k with alpha := fun _ => 0, gamma := gamma } else ms k,
    lr := lr, lrMin := lrMin, lrMax := lrMax, initialLr := lr, lrDecay := decay, lrThreshold := lrThreshold, lrFlag := lrFlag,
    beta1 := beta1, beta2 := beta2, startBeta1 := beta1, startBeta2 := beta2, iteration := 0, clipFlag := clipFlag,
    clipValue := none }

/-! ### Specification -/

/-- The rewards of a sample: its reward at the action taken. -/
def credit (s : Samples X O) (i : Nat) : Nat → ℝ := fun j => if s.action i = (j : Int) then s.reward i else 0

/-- What sample `i` contributes, on clean buffers. -/
def contribution (F : Fns Θ C B X O) (θ : Θ) (gamma : ℝ) (s : Samples X O) (i : Nat) : C → ℝ :=
  (F.once F.clean θ (credit s i) gamma (s.state i) (s.other i)).2

/-- The pass reads as many rewards as there are actions. -/
def Reads (F : Fns Θ C B X O) (n : Nat) : Prop :=
  ∀ b θ α α' γ x o, (∀ j, j < n → α j = α' j) → F.once b θ α γ x o = F.once b θ α' γ x o

/-- Nothing is left of earlier passes: the model that makes the passes has clean
buffers, and so have the models of the threads, which hold no derivatives. -/
structure Ready (F : Fns Θ C B X O) (gamma : ℝ) (a : Agent Θ C B) : Prop where
  m : a.threads = 1 → a.m.buf = F.clean ∧ a.m.gamma = gamma
  ms : a.threads ≠ 1 → ∀ k, k < a.threads → (a.ms k).buf = F.clean ∧ (a.ms k).gamma = gamma ∧ (a.ms k).d = fun _ => 0

/-- Everything but the derivatives, buffers and rewards. -/
def SameSettings (a a' : Agent Θ C B) : Prop :=
  a'.threads = a.threads ∧ a'.outDim = a.outDim ∧ a'.lrMin = a.lrMin ∧ a'.lrMax = a.lrMax ∧ a'.initialLr = a.initialLr ∧
    a'.lrDecay = a.lrDecay ∧ a'.lrThreshold = a.lrThreshold ∧ a'.lrFlag = a.lrFlag ∧ a'.startBeta1 = a.startBeta1 ∧
    a'.startBeta2 = a.startBeta2 ∧ a'.clipFlag = a.clipFlag ∧ a'.clipValue = a.clipValue

/-! ### Proofs -/

theorem loop_succ {σ : Type} (n : Nat) (f : Nat → σ → Option σ) (s : σ) : loop (n + 1) f s = (loop n f s).bind (f n) := rfl

theorem setAlpha_get (n : Nat) (act : Int) (r : ℝ) (alpha : Nat → ℝ) (j : Nat) :
    setAlpha n act r alpha j = if j < n then (if act = (j : Int) then r else 0) else alpha j := by
  unfold setAlpha
  induction n with
  | zero => simp
  | succ n ih =>
    rw [List.range_succ, List.foldl_append]
    show Function.update (β := fun _ => ℝ) _ n (if act = (n : Int) then r else 0) j = _
    by_cases h : j = n
    · subst h
      rw [Function.update_self, if_pos (Nat.lt_succ_self j)]
    · rw [Function.update_of_ne h, ih]
      by_cases h' : j < n
      · rw [if_pos h', if_pos (show j < n + 1 by omega)]
      · rw [if_neg h', if_neg (by omega)]

theorem once_eq {F : Fns Θ C B X O} {n : Nat} (hR : Reads F n) (s : Samples X O) (i : Nat) (θ : Θ) (γ : ℝ) (al : Nat → ℝ) :
    F.once F.clean θ (setAlpha n (s.action i) (s.reward i) al) γ (s.state i) (s.other i) =
      F.once F.clean θ (credit s i) γ (s.state i) (s.other i) :=
  hR _ _ _ _ _ _ _ fun j hj => by rw [setAlpha_get, if_pos hj]; rfl

theorem multithread_exists [DecidableEq C] (comps : List C) (n : Nat) (b : Nat → C → ℝ) (m : C → ℝ) :
    ∃ m', Multithread comps n b m m' := by
  unfold Multithread
  by_cases h : n ≤ 3
  · simp only [if_pos h]
    exact ⟨_, rfl⟩
  · simp only [if_neg h]
    obtain ⟨t1, r1⟩ := runs_exists comps (n / 2) 0
    obtain ⟨t2, r2⟩ := runs_exists comps (n - n / 2) (n / 2)
    have hi : ∀ a b : List (Op C), Interleave a b (a ++ b) := by
      intro a b
      induction a with
      | nil =>
        induction b with
        | nil => exact .nil
        | cons x b ih => exact .right x ih
      | cons x a ih => exact .left x ih
    exact ⟨_, t1, t2, _, r1, r2, hi t1 t2, rfl⟩

theorem rounds_run [DecidableEq C] {F : Fns Θ C B X O} {comps : List C} {s : Samples X O} {gamma : ℝ} (hn : comps.Nodup)
    (hall : ∀ c, c ∈ comps) {i : Nat} {a a' : Agent Θ C B} (hr : Rounds F comps s i a a') (hR : Reads F a.outDim)
    (hA : Ready F gamma a) :
    Ready F gamma a' ∧ SameSettings a a' ∧ a'.θ = a.θ ∧ a'.lr = a.lr ∧ a'.beta1 = a.beta1 ∧ a'.beta2 = a.beta2 ∧
      a'.iteration = a.iteration ∧
      ∀ c, a'.m.d c = a.m.d c + ∑ t ∈ Finset.Ico i s.length, contribution F a.θ gamma s t c := by
  induction hr with
  | done h =>
    refine ⟨hA, ⟨rfl, rfl, rfl, rfl, rfl, rfl, rfl, rfl, rfl, rfl, rfl, rfl⟩, rfl, rfl, rfl, rfl, rfl, fun c => ?_⟩
    rw [Finset.Ico_eq_empty (by omega), Finset.sum_empty, add_zero]
  | @one i a a' h h1 r ih =>
    obtain ⟨hb, hg⟩ := hA.m h1
    obtain ⟨i1, i2, i3, i4, i5, i6, i7, i8⟩ := ih hR ⟨fun _ => ⟨rfl, hg⟩, fun h' => absurd h1 h'⟩
    refine ⟨i1, i2, i3, i4, i5, i6, i7, fun c => ?_⟩
    rw [i8 c, Finset.sum_eq_sum_Ico_succ_bot h]
    have : min 1 (s.length - i) = 1 := by omega
    rw [this, ← add_assoc]
    congr 1
    show a.m.d c + (F.once a.m.buf a.θ (setAlpha a.outDim (s.action i) (s.reward i) a.m.alpha) a.m.gamma (s.state i)
      (s.other i)).2 c = _
    rw [hb, hg, once_eq hR]
    rfl
  | @many i a a' d h h1 hd r ih =>
    set q := min a.threads (s.length - i) with hq
    have hms := hA.ms h1
    obtain ⟨i1, i2, i3, i4, i5, i6, i7, i8⟩ := ih hR ⟨fun h' => absurd h' h1, fun _ k hk => by
      dsimp only
      by_cases hkq : k < q
      · rw [if_pos hkq]
        refine ⟨rfl, ?_, rfl⟩
        show (passes F s i q a k).gamma = gamma
        unfold passes
        rw [if_pos hkq]
        exact (hms k hk).2.1
      · rw [if_neg hkq]
        exact hms k hk⟩
    refine ⟨i1, i2, i3, i4, i5, i6, i7, fun c => ?_⟩
    have hs := (C39_multithread comps hn q _ a.m.d d hd).1 c
    rw [if_pos (hall c)] at hs
    rw [i8 c]
    show d c + _ = _
    rw [hs, add_assoc]
    congr 1
    have hsplit : ∑ t ∈ Finset.Ico i s.length, contribution F a.θ gamma s t c =
        ∑ t ∈ Finset.Ico i (i + q), contribution F a.θ gamma s t c +
          ∑ t ∈ Finset.Ico (i + q) s.length, contribution F a.θ gamma s t c :=
      (Finset.sum_Ico_consecutive _ (by omega) (by omega)).symm
    rw [hsplit]
    congr 1
    rw [Finset.sum_Ico_eq_sum_range, Nat.add_sub_cancel_left]
    refine Finset.sum_congr rfl fun k hk => ?_
    have hk' := Finset.mem_range.1 hk
    obtain ⟨hb, hg, h0⟩ := hms k (lt_of_lt_of_le hk' (min_le_left _ _))
    unfold passes
    rw [if_pos hk']
    show (a.ms k).d c + (F.once (a.ms k).buf a.θ (setAlpha a.outDim (s.action (i + k)) (s.reward (i + k)) (a.ms k).alpha)
      (a.ms k).gamma (s.state (i + k)) (s.other (i + k))).2 c = _
    rw [h0, hb, hg, once_eq hR, zero_add]
    rfl

theorem rounds_exist [DecidableEq C] (F : Fns Θ C B X O) (comps : List C) (s : Samples X O) (i : Nat) (a : Agent Θ C B)
    (ht : 0 < a.threads) : ∃ a', Rounds F comps s i a a' := by
  induction hk : s.length - i using Nat.strong_induction_on generalizing i a with
  | _ k ih =>
    by_cases h : i < s.length
    · by_cases h1 : a.threads = 1
      · obtain ⟨a', r⟩ := ih (s.length - (i + min 1 (s.length - i))) (by omega) _ (single F s i a) (by exact ht) rfl
        exact ⟨a', .one h h1 r⟩
      · obtain ⟨d, hd⟩ := multithread_exists comps (min a.threads (s.length - i))
          (fun k => (passes F s i (min a.threads (s.length - i)) a k).d) a.m.d
        obtain ⟨a', r⟩ := ih (s.length - (i + min a.threads (s.length - i))) (by omega) _
          { a with m := { a.m with d := d },
                   ms := fun k => if k < min a.threads (s.length - i) then
                     (passes F s i (min a.threads (s.length - i)) a k).zero F else a.ms k } (by exact ht) rfl
        exact ⟨a', .many h h1 hd r⟩
    · exact ⟨a, .done (by omega)⟩

/-- **C122, one passage.** For every number of threads and every interleaving, a
training passage without learning rate decay and clipping terminates, updates the
parameters once with the sum over all the samples of what each contributes on
clean buffers at the parameters before the passage, with its reward credited to
the action taken, and leaves the agent ready for the next passage, with no
derivatives. The result depends neither on the number of threads nor on the
schedule. -/
theorem C122_passage_partial [DecidableEq C] (F : Fns Θ C B X O) (K : ℝ → Θ → (C → ℝ) → C → ℝ)
    (U : ℝ → Nat → ℝ → ℝ → Nat → Θ → (C → ℝ) → Θ) (comps : List C) (s : Samples X O) (batch : Nat) (gamma : ℝ)
    (a : Agent Θ C B) (hn : comps.Nodup) (hall : ∀ c, c ∈ comps) (ht : 0 < a.threads) (hR : Reads F a.outDim)
    (hA : Ready F gamma a) (h0 : a.m.d = fun _ => 0) (hf : a.lrFlag = 0) (hc : a.clipFlag = false) :
    (∃ r, Passage F K U comps s batch a r) ∧ ∀ r, Passage F K U comps s batch a r → ∃ a', r = some a' ∧
      a'.θ = U a.lr batch a.beta1 a.beta2 a.iteration a.θ (fun c => ∑ t ∈ range s.length, contribution F a.θ gamma s t c) ∧
      Ready F gamma a' ∧ (a'.m.d = fun _ => 0) ∧ SameSettings a a' ∧ a'.lr = a.lr ∧
      a'.beta1 = a.beta1 * a.startBeta1 ∧ a'.beta2 = a.beta2 * a.startBeta2 ∧ a'.iteration = a.iteration + 1 := by
  refine ⟨?_, ?_⟩
  · obtain ⟨a', r⟩ := rounds_exist F comps s 0 a ht
    exact ⟨_, a', r, rfl⟩
  · rintro r ⟨a1, hr, rfl⟩
    obtain ⟨i1, i2, i3, i4, i5, i6, i7, i8⟩ := rounds_run hn hall hr hR hA
    obtain ⟨s1, s2, s3, s4, s5, s6, s7, s8, s9, s10, s11, s12⟩ := i2
    have hcl : clipped K a1 = some a1.m.d := by
      unfold clipped
      rw [s11, hc]
      rfl
    have hlr : updateLr a1.lr a1.lrMin a1.lrMax a1.initialLr a1.lrDecay a1.iteration a1.lrThreshold a1.lrFlag = some a1.lr := by
      unfold updateLr
      rw [s8, hf]
      rfl
    unfold finish
    rw [hcl, Option.bind_eq_bind, Option.bind_some, hlr, Option.bind_eq_bind, Option.bind_some]
    refine ⟨_, rfl, ?_, ⟨fun h => ⟨rfl, (i1.m h).2⟩, i1.ms⟩, rfl,
      ⟨s1, s2, s3, s4, s5, s6, s7, s8, s9, s10, s11, s12⟩, i4, ?_, ?_, ?_⟩
    · show U a1.lr batch a1.beta1 a1.beta2 a1.iteration a1.θ a1.m.d = _
      rw [i4, i5, i6, i7, i3]
      congr 1
      funext c
      rw [i8 c, h0, zero_add, Finset.range_eq_Ico]
    · show a1.beta1 * a1.startBeta1 = _
      rw [i5, s9]
    · show a1.beta2 * a1.startBeta2 = _
      rw [i6, s10]
    · show a1.iteration + 1 = _
      rw [i7]

/-- A history of training passages. -/
inductive History [DecidableEq C] (F : Fns Θ C B X O) (K : ℝ → Θ → (C → ℝ) → C → ℝ)
    (U : ℝ → Nat → ℝ → ℝ → Nat → Θ → (C → ℝ) → Θ) (comps : List C) (batch : Nat) :
    List (Samples X O) → Agent Θ C B → Agent Θ C B → Prop
  | nil (a : Agent Θ C B) : History F K U comps batch [] a a
  | cons {s : Samples X O} {l : List (Samples X O)} {a a1 a' : Agent Θ C B} (h : Passage F K U comps s batch a (some a1))
      (r : History F K U comps batch l a1 a') : History F K U comps batch (s :: l) a a'

/-- Plain training: every passage uses the gradient of its own samples. -/
noncomputable def train (F : Fns Θ C B X O) (U : ℝ → Nat → ℝ → ℝ → Nat → Θ → (C → ℝ) → Θ) (batch : Nat) (gamma lr b1 b2 : ℝ) :
    List (Samples X O) → ℝ → ℝ → Nat → Θ → Θ
  | [], _, _, _, θ => θ
  | s :: l, p1, p2, t, θ => train F U batch gamma lr b1 b2 l (p1 * b1) (p2 * b2) (t + 1)
      (U lr batch p1 p2 t θ fun c => ∑ i ∈ range s.length, contribution F θ gamma s i c)

/-- **C122, histories.** After any sequence of passages from a new agent the
parameters are those of plain training: no passage sees the derivatives or the
buffers of an earlier one. -/
theorem C122_history_partial [DecidableEq C] (F : Fns Θ C B X O) (K : ℝ → Θ → (C → ℝ) → C → ℝ)
    (U : ℝ → Nat → ℝ → ℝ → Nat → Θ → (C → ℝ) → Θ) (comps : List C) (l : List (Samples X O)) (batch : Nat) (gamma : ℝ)
    (a a' : Agent Θ C B) (hn : comps.Nodup) (hall : ∀ c, c ∈ comps) (ht : 0 < a.threads) (hR : Reads F a.outDim)
    (hA : Ready F gamma a) (h0 : a.m.d = fun _ => 0) (hf : a.lrFlag = 0) (hc : a.clipFlag = false)
    (h : History F K U comps batch l a a') :
    a'.θ = train F U batch gamma a.lr a.startBeta1 a.startBeta2 l a.beta1 a.beta2 a.iteration a.θ := by
  induction h with
  | nil a => rfl
  | @cons s l a a1 a' h r ih =>
    obtain ⟨a2, e, e1, e2, e3, ⟨s1, s2, s3, s4, s5, s6, s7, s8, s9, s10, s11, s12⟩, e5, e6, e7, e8⟩ :=
      (C122_passage_partial F K U comps s batch gamma a hn hall ht hR hA h0 hf hc).2 _ h
    obtain rfl : a1 = a2 := Option.some.inj e
    rw [ih (by rw [s1]; exact ht) (by rw [s2]; exact hR) e2 e3 (by rw [s8]; exact hf) (by rw [s11]; exact hc)]
    rw [e5, e6, e7, e8, s9, s10, e1]
    rfl

/-- Non-vacuity: three threads, five samples, one parameter whose derivative is
the credited reward times the state; the update is `θ - lr·d`. -/
noncomputable def demoF : Fns ℝ (Fin 1) Unit ℝ Unit :=
  ⟨(), fun _ θ α _ x _ => ((), fun _ => θ * α 0 * x + α 1), fun _ θ x => ((), fun _ => θ * x)⟩

example (s : Samples ℝ Unit) (θ : ℝ) : ∃ r, Passage demoF (fun _ _ d => d) (fun lr _ _ _ _ θ d => θ - lr * d 0) [0] s 8
    (init ⟨fun _ => 0, (), fun _ => 7, 3⟩ (fun _ => ⟨fun _ => 0, (), fun _ => 9, 3⟩) θ 8 3 2 false 1 0 1 0 10 0 1 1 1) r ∧
    ∃ a', r = some a' ∧ a'.θ = θ - 1 * ∑ t ∈ range s.length, (θ * credit s t 0 * s.state t + credit s t 1) := by
  obtain ⟨⟨r, hr⟩, H⟩ := C122_passage_partial demoF (fun _ _ d => d) (fun lr _ _ _ _ θ d => θ - lr * d 0) [0] s 8 1
    (init ⟨fun _ => 0, (), fun _ => 7, 3⟩ (fun _ => ⟨fun _ => 0, (), fun _ => 9, 3⟩) θ 8 3 2 false 1 0 1 0 10 0 1 1 1)
    (by simp) (fun c => by simp [Subsingleton.elim c 0]) (by show 0 < 3; decide)
    (fun b θ α α' γ x o h => by
      show (_, _) = (_, _)
      rw [h 0 (by show 0 < 2; decide), h 1 (by show 1 < 2; decide)])
    ⟨fun h => absurd h (by show ¬ (3 = 1); decide), fun _ k hk => ⟨rfl, by
      show (if 1 < 3 ∧ k < 3 then _ else _ : Net (Fin 1) Unit).gamma = 1
      rw [if_pos ⟨by decide, hk⟩], by
      show (if 1 < 3 ∧ k < 3 then _ else _ : Net (Fin 1) Unit).d = _
      rw [if_pos ⟨by decide, hk⟩]⟩⟩ rfl rfl rfl
  obtain ⟨a', e, e1, -⟩ := H r hr
  exact ⟨r, hr, a', e, e1⟩

/-- **C122, refutation.** A new agent with any learning rate schedule divides by
zero at the end of its first passage: the passage count, which is 0, is the epoch
given to the schedule. -/
theorem C122_decay_refuted [DecidableEq C] (F : Fns Θ C B X O) (K : ℝ → Θ → (C → ℝ) → C → ℝ)
    (U : ℝ → Nat → ℝ → ℝ → Nat → Θ → (C → ℝ) → Θ) (comps : List C) (s : Samples X O) (batch : Nat)
    (a : Agent Θ C B) (hn : comps.Nodup) (hall : ∀ c, c ∈ comps) (hR : Reads F a.outDim) (gamma : ℝ) (hA : Ready F gamma a)
    (hf : a.lrFlag ≠ 0) (hi : a.iteration = 0) (r : Option (Agent Θ C B)) (h : Passage F K U comps s batch a r) :
    r = none := by
  obtain ⟨a1, hr, rfl⟩ := h
  obtain ⟨-, ⟨-, -, -, -, -, -, -, s8, -⟩, -, -, -, -, i7, -⟩ := rounds_run hn hall hr hR hA
  unfold finish
  rw [Option.bind_eq_bind, Option.bind_eq_none_iff]
  intro d _
  rw [i7, hi, C15_epoch_zero_refuted _ _ _ _ _ _ _ (by rw [s8]; exact hf)]
  rfl

/-- **C122, refutation.** With adaptive clipping, an agent made by the constructor
reads a threshold that the constructor never assigned. -/
theorem C122_clipping_refuted [DecidableEq C] (F : Fns Θ C B X O) (K : ℝ → Θ → (C → ℝ) → C → ℝ)
    (U : ℝ → Nat → ℝ → ℝ → Nat → Θ → (C → ℝ) → Θ) (comps : List C) (s : Samples X O) (hn : comps.Nodup)
    (hall : ∀ c, c ∈ comps) (m : Net C B) (ms : Nat → Net C B) (hm : m.buf = F.clean)
    (hms : ∀ k, (ms k).buf = F.clean ∧ (ms k).d = fun _ => 0) (θ : Θ) (batch threads outDim : Nat) (hR : Reads F outDim)
    (ht : 0 < threads) (hb : 0 < batch) (lr lrMin lrMax decay : ℝ) (lrThreshold lrFlag : Nat) (beta1 beta2 gamma : ℝ)
    (r : Option (Agent Θ C B))
    (h : Passage F K U comps s batch (init m ms θ batch threads outDim true lr lrMin lrMax decay lrThreshold lrFlag beta1 beta2 gamma) r) :
    r = none := by
  obtain ⟨a1, hr, rfl⟩ := h
  have hA : Ready F gamma (init m ms θ batch threads outDim true lr lrMin lrMax decay lrThreshold lrFlag beta1 beta2 gamma) := by
    refine ⟨fun _ => ⟨hm, rfl⟩, fun h1 k hk => ?_⟩
    have h1' : (if batch < threads then batch else threads) ≠ 1 := h1
    have hk' : k < (if batch < threads then batch else threads) := hk
    have h2 : 1 < (if batch < threads then batch else threads) := by
      split_ifs at h1' ⊢ <;> omega
    unfold init
    dsimp only
    rw [if_pos ⟨h2, hk'⟩]
    exact ⟨(hms k).1, rfl, (hms k).2⟩
  obtain ⟨-, ⟨-, -, -, -, -, -, -, -, -, -, s11, s12⟩, -⟩ := rounds_run hn hall hr hR hA
  unfold finish clipped
  rw [s11, s12]
  rfl

/-- **C122, refutation.** The constructor accepts 0 threads, and then no passage
over any sample ever ends. -/
theorem C122_zero_threads_refuted [DecidableEq C] (F : Fns Θ C B X O) (K : ℝ → Θ → (C → ℝ) → C → ℝ)
    (U : ℝ → Nat → ℝ → ℝ → Nat → Θ → (C → ℝ) → Θ) (comps : List C) (s : Samples X O) (batch : Nat) (a : Agent Θ C B)
    (h0 : a.threads = 0) (hl : 0 < s.length) : ¬ ∃ r, Passage F K U comps s batch a r := by
  rintro ⟨r, a1, hr, -⟩
  have : ∀ (i : Nat) (b b' : Agent Θ C B), Rounds F comps s i b b' → b.threads = 0 → i < s.length → False := by
    intro i b b' hr
    induction hr with
    | done h => intro _ h'; omega
    | one h h1 _ _ => intro h' _; omega
    | many h h1 hd r ih =>
      intro h' h''
      exact ih h' (by rw [h']; omega)
  exact this 0 a a1 hr h0 hl

/-! ### `get_policies` -/

/-- The array of one policy as copied: `n` cells of `src` into a new array of
`cap` cells. -/
def copyInto (cap n : Nat) (src : Arr ℝ) : Option (Arr ℝ) :=
  loop n (fun j (p : Arr ℝ) => do
    let x ← src.read j
    p.write j x) ⟨cap, fun _ => 0⟩

/-- `get_policies` (`/repo/src/policy_gradient.c` 180-204), the rounds starting at
sample `i`, with `fuel` rounds at most; `f` is the network on clean buffers, whose
output has `outDim` cells; `inDim` is the size of the input. In the threaded
branch the outputs of the networks are not used and `reset_model_only_for_ff` is
called on the model number `i`: `i < threads` or the access is out of range. -/
def policiesFrom (threads inDim outDim : Nat) (f : Arr ℝ → Arr ℝ) (inputs : Nat → Arr ℝ) (size : Nat) :
    Nat → Nat → (Nat → Option (Arr ℝ)) → Option (Nat → Option (Arr ℝ))
  | 0, i, p => if i < size then none else some p
  | fuel + 1, i, p =>
    if i < size then
      if threads = 1 then do
        let c ← copyInto inDim outDim (f (inputs i))
        policiesFrom threads inDim outDim f inputs size fuel (i + 1) (Function.update p i (some c))
      else do
        let p ← loop (min threads (size - i)) (fun j (p : Nat → Option (Arr ℝ)) => do
          let c ← copyInto inDim outDim (inputs (i + j))
          if i < threads then some (Function.update p (i + j) (some c)) else none) p
        policiesFrom threads inDim outDim f inputs size fuel (i + threads) p
    else some p

/-- `get_policies`. -/
def getPolicies (threads inDim outDim : Nat) (f : Arr ℝ → Arr ℝ) (inputs : Nat → Arr ℝ) (size : Nat) :
    Option (Nat → Option (Arr ℝ)) :=
  policiesFrom threads inDim outDim f inputs size size 0 fun _ => none

theorem copyInto_eq (cap n : Nat) (src : Arr ℝ) (h1 : n ≤ cap) (h2 : n ≤ src.len) :
    copyInto cap n src = some ⟨cap, fun k => if k < n then src.get k else 0⟩ := by
  unfold copyInto
  exact loop_fill (a := ⟨cap, fun _ => 0⟩) (fun k => src.get k) fun i hi b hb _ => by
    have hb' : b.len = cap := hb
    rw [Arr.read_eq (show i < src.len by omega), Option.bind_eq_bind, Option.bind_some, Arr.write_eq _ (show i < b.len by omega)]

/-- **C122, policies.** With one thread, and no more outputs than inputs,
`get_policies` returns for every input the output of the network on it. -/
theorem C122_policies_partial (inDim outDim : Nat) (f : Arr ℝ → Arr ℝ) (inputs : Nat → Arr ℝ) (size : Nat)
    (hf : ∀ i, i < size → outDim ≤ (f (inputs i)).len) (ho : outDim ≤ inDim) :
    ∃ p, getPolicies 1 inDim outDim f inputs size = some p ∧ ∀ i, i < size → ∃ q, p i = some q ∧ q.len = inDim ∧
      ∀ j, j < outDim → q.get j = (f (inputs i)).get j := by
  have key : ∀ fuel i p, size ≤ i + fuel → i ≤ size → ∃ p', policiesFrom 1 inDim outDim f inputs size fuel i p = some p' ∧
      (∀ k, k < i → p' k = p k) ∧
      ∀ k, i ≤ k → k < size → p' k = some ⟨inDim, fun j => if j < outDim then (f (inputs k)).get j else 0⟩ := by
    intro fuel
    induction fuel with
    | zero =>
      intro i p h _
      unfold policiesFrom
      rw [if_neg (by omega)]
      exact ⟨p, rfl, fun _ _ => rfl, fun k h1 h2 => by omega⟩
    | succ fuel ih =>
      intro i p h hi
      unfold policiesFrom
      by_cases h' : i < size
      · rw [if_pos h', if_pos rfl, copyInto_eq _ _ _ ho (hf i h'), Option.bind_eq_bind, Option.bind_some]
        obtain ⟨p', e, a, b⟩ := ih (i + 1) (Function.update p i _) (by omega) (by omega)
        refine ⟨p', e, fun k hk => ?_, fun k h1 h2 => ?_⟩
        · rw [a k (by omega), Function.update_of_ne (by omega)]
        · by_cases hk : k = i
          · subst hk
            rw [a k (by omega), Function.update_self]
          · exact b k (by omega) h2
      · rw [if_neg h']
        exact ⟨p, rfl, fun _ _ => rfl, fun k h1 h2 => by omega⟩
  obtain ⟨p, e, -, b⟩ := key size 0 (fun _ => none) (by omega) (by omega)
  refine ⟨p, e, fun i hi => ⟨_, b i (by omega) hi, rfl, fun j hj => ?_⟩⟩
  exact if_pos hj

example : ∃ p, getPolicies 1 3 2 (fun _ => ⟨2, fun j => j + 5⟩) (fun _ => ⟨3, fun _ => 0⟩) 4 = some p ∧
    ∀ i, i < 4 → ∃ q, p i = some q ∧ q.len = 3 ∧ ∀ j, j < 2 → q.get j = j + 5 :=
  C122_policies_partial 3 2 (fun _ => ⟨2, fun j => j + 5⟩) (fun _ => ⟨3, fun _ => 0⟩) 4 (fun _ _ => le_refl _) (by decide)

/-- **C122, refutation.** With several threads and no more inputs than threads,
what `get_policies` returns are the inputs: the network plays no role. -/
theorem C122_policies_threads_refuted (threads inDim outDim : Nat) (f : Arr ℝ → Arr ℝ) (inputs : Nat → Arr ℝ) (size : Nat)
    (ht : 2 ≤ threads) (hs : size ≤ threads) (h0 : 0 < size) (hf : ∀ i, i < size → inDim ≤ (inputs i).len) (ho : outDim ≤ inDim) :
    ∃ p, getPolicies threads inDim outDim f inputs size = some p ∧ ∀ i, i < size → ∃ q, p i = some q ∧
      ∀ j, j < outDim → q.get j = (inputs i).get j := by
  have hl : ∀ n, n ≤ size → ∃ p, loop n (fun j (p : Nat → Option (Arr ℝ)) => do
          let c ← copyInto inDim outDim (inputs (0 + j))
          if 0 < threads then some (Function.update p (0 + j) (some c)) else none) (fun _ => none) = some p ∧
      ∀ i, i < n → p i = some ⟨inDim, fun j => if j < outDim then (inputs i).get j else 0⟩ := by
    intro n
    induction n with
    | zero => exact fun _ => ⟨_, rfl, fun i hi => by omega⟩
    | succ n ih =>
      intro hn
      obtain ⟨p, e, h⟩ := ih (by omega)
      refine ⟨Function.update p n (some ⟨inDim, fun j => if j < outDim then (inputs n).get j else 0⟩), ?_, fun i hi => ?_⟩
      · rw [loop_succ, e, Option.bind_some, Nat.zero_add, copyInto_eq _ _ _ ho (le_trans ho (hf n (by omega))),
          Option.bind_eq_bind, Option.bind_some, if_pos (by omega)]
      · by_cases hk : i = n
        · subst hk
          rw [Function.update_self]
        · rw [Function.update_of_ne hk]
          exact h i (by omega)
  obtain ⟨p, e, h⟩ := hl size (le_refl _)
  refine ⟨p, ?_, fun i hi => ⟨_, h i hi, fun j hj => if_pos hj⟩⟩
  unfold getPolicies
  obtain ⟨m, rfl⟩ : ∃ m, size = m + 1 := ⟨size - 1, by omega⟩
  unfold policiesFrom
  rw [if_pos h0, if_neg (by omega), Nat.sub_zero, Nat.min_eq_right hs, e, Option.bind_eq_bind, Option.bind_some]
  cases m with
  | zero =>
    unfold policiesFrom
    rw [if_neg (by omega)]
  | succ m =>
    unfold policiesFrom
    rw [if_neg (by omega)]

/-- **C122, refutation.** With several threads and more inputs than threads, and
with one thread and more outputs than inputs, memory out of range is accessed. -/
theorem C122_policies_range_refuted :
    (∀ (threads inDim outDim size : Nat) (f : Arr ℝ → Arr ℝ) (inputs : Nat → Arr ℝ), 2 ≤ threads → threads < size →
      getPolicies threads inDim outDim f inputs size = none) ∧
    ∀ (inDim outDim size : Nat) (f : Arr ℝ → Arr ℝ) (inputs : Nat → Arr ℝ), inDim < outDim → 0 < size →
      getPolicies 1 inDim outDim f inputs size = none := by
  refine ⟨?_, ?_⟩
  · intro threads inDim outDim size f inputs ht hs
    unfold getPolicies
    obtain ⟨m, rfl⟩ : ∃ m, size = m + 2 := ⟨size - 2, by omega⟩
    unfold policiesFrom
    rw [if_pos (by omega), if_neg (by omega), Option.bind_eq_bind, Option.bind_eq_none_iff]
    intro p _
    unfold policiesFrom
    rw [if_pos (by omega), if_neg (by omega)]
    obtain ⟨q, hq⟩ : ∃ q, min threads (m + 2 - (0 + threads)) = q + 1 := ⟨min threads (m + 2 - (0 + threads)) - 1, by omega⟩
    rw [hq]
    have : ∀ n p, loop (n + 1) (fun j (p : Nat → Option (Arr ℝ)) => do
          let c ← copyInto inDim outDim (inputs (0 + threads + j))
          if 0 + threads < threads then some (Function.update p (0 + threads + j) (some c)) else none) p = none := by
      intro n p
      rw [loop_succ, Option.bind_eq_none_iff]
      intro b _
      rw [Option.bind_eq_bind, Option.bind_eq_none_iff]
      intro c _
      rw [if_neg (by omega)]
    rw [this]
    rfl
  · intro inDim outDim size f inputs ho h0
    unfold getPolicies
    obtain ⟨m, rfl⟩ : ∃ m, size = m + 1 := ⟨size - 1, by omega⟩
    unfold policiesFrom
    rw [if_pos (by omega), if_pos rfl]
    have hinv : ∀ n b, loop n (fun j (p : Arr ℝ) => do
        let x ← (f (inputs 0)).read j
        p.write j x) ⟨inDim, fun _ => 0⟩ = some b → b.len = inDim ∧ n ≤ inDim := by
      intro n
      induction n with
      | zero => intro b h; cases h; exact ⟨rfl, by omega⟩
      | succ n ih =>
        intro b h
        rw [loop_succ, Option.bind_eq_some_iff] at h
        obtain ⟨c, e, h⟩ := h
        rw [Option.bind_eq_bind, Option.bind_eq_some_iff] at h
        obtain ⟨x, -, h⟩ := h
        obtain ⟨l, hle⟩ := ih c e
        unfold Arr.write at h
        split at h
        · cases h; exact ⟨l, by omega⟩
        · cases h
    have : copyInto inDim outDim (f (inputs 0)) = none := by
      unfold copyInto
      cases h : loop outDim (fun j (p : Arr ℝ) => do
        let x ← (f (inputs 0)).read j
        p.write j x) ⟨inDim, fun _ => 0⟩ with
      | none => rfl
      | some b => have := (hinv _ _ h).2; omega
    rw [this]
    rfl

end LLab.PolicyTrain
