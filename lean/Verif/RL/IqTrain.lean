import Verif.RL.PolicyTrain

/-!
Training of inverse Q-learning: `train_iqn` (`/repo/src/iq.c` 170-296).
Property C123. As in `PolicyTrain`, the network is a parameter; the output given
to a pass is a vector of next values.
-/

namespace LLab.IqTrain

open Finset LLab.SumTree LLab.PolicyTrain

variable {Θ C B X : Type}

/-- The demonstrations: `size` states with the action taken and whether the
episode ends there (`init_iq`, `/repo/src/iq.c` 28-162). -/
structure Demo (X : Type) where
  state : Nat → X
  action : Nat → Int
  done : Nat → Bool
  size : Nat

/-- The learner. -/
structure Iq (Θ C B : Type) where
  threads : Nat
  batch : Nat
  outDim : Nat
  gamma : ℝ
  θ : Θ
  m : Net C B
  ms : Nat → Net C B
  /-- `next_q` -/
  nq : Nat → Nat → ℝ
  lr : ℝ
  beta1 : ℝ
  beta2 : ℝ
  iter : Nat

/-- `min` of both inner loops (lines 188-192, 222-226). -/
def width (threads batch size j k : Nat) : Nat := min (min threads (size - k)) (j + batch - k)

/-- Is there a next state (lines 195, 206)? -/
def hasNext (w : Demo X) (t : Nat) : Bool := !(w.done t) && !(decide (t + 1 = w.size))

/-- The copies into `next_q` of one round (lines 194-217): with one thread on the
main model, otherwise on the models of the threads, each of which is reset after
its forward pass. The `count`-th of the models having a next state receives the
`count`-th of the inputs, so that sample `z` goes through the model `z - k`. -/
def nextRound (F : Fns Θ C B X (Nat → ℝ)) (w : Demo X) (index : Nat → Nat) (j k q : Nat) (a : Iq Θ C B) : Iq Θ C B :=
  if a.threads = 1 then
    if hasNext w (index k) then
      { a with nq := Function.update a.nq (k - j) fun i => if i < a.outDim then (F.fwd a.m.buf a.θ (w.state (index k + 1))).2 i
                 else a.nq (k - j) i,
               m := a.m.keep F }
    else a
  else
    { a with
      nq := fun t i => if k ≤ t + j ∧ t + j < k + q ∧ hasNext w (index (t + j)) then
        (if i < a.outDim then (F.fwd (a.ms (t + j - k)).buf a.θ (w.state (index (t + j) + 1))).2 i else a.nq t i)
        else a.nq t i
      ms := fun z => if z < q ∧ hasNext w (index (k + z)) then (a.ms z).keep F else a.ms z }

/-- The loop computing the next values (lines 187-218). -/
inductive NextRounds (F : Fns Θ C B X (Nat → ℝ)) (w : Demo X) (index : Nat → Nat) (j : Nat) :
    Nat → Iq Θ C B → Iq Θ C B → Prop
  | done {k : Nat} {a : Iq Θ C B} (h : ¬ (k < w.size ∧ k < j + a.batch)) : NextRounds F w index j k a a
  | step {k : Nat} {a a' : Iq Θ C B} (h : k < w.size ∧ k < j + a.batch)
      (r : NextRounds F w index j (k + width a.threads a.batch w.size j k)
        (nextRound F w index j k (width a.threads a.batch w.size j k) a) a') : NextRounds F w index j k a a'

/-- A model prepared for sample `t` (lines 230-241, 251-262): 1 at the action, and
the discount, or 0 without a next state. -/
def prepare (w : Demo X) (n : Nat) (gamma : ℝ) (t : Nat) (m : Net C B) : Net C B :=
  { m with alpha := setAlpha n (w.action t) 1 m.alpha, gamma := if hasNext w t then gamma else 0 }

/-- The models after the passes of one round with several threads. -/
def passes (F : Fns Θ C B X (Nat → ℝ)) (w : Demo X) (index : Nat → Nat) (j k q : Nat) (a : Iq Θ C B) : Nat → Net C B :=
  fun z => if z < q then (prepare w a.outDim a.gamma (index (k + z)) (a.ms z)).once F a.θ (w.state (index (k + z)))
    (a.nq (k + z - j)) else a.ms z

/-- One round with one thread (lines 228-248). -/
def roundOne (F : Fns Θ C B X (Nat → ℝ)) (w : Demo X) (index : Nat → Nat) (j k : Nat) (a : Iq Θ C B) : Iq Θ C B :=
  { a with m := ((prepare w a.outDim a.gamma (index k) a.m).once F a.θ (w.state (index k)) (a.nq (k - j))).keep F }

/-- One round with several threads (lines 250-269): the passes, the sum of their
derivatives into the main model, the resets. -/
def roundMany [DecidableEq C] (F : Fns Θ C B X (Nat → ℝ)) (comps : List C) (w : Demo X) (index : Nat → Nat) (j k q : Nat)
    (a : Iq Θ C B) : Iq Θ C B :=
  { a with
    m := { a.m with d := sumSeq comps q (fun z => (passes F w index j k q a z).d) a.m.d }
    ms := fun z => if z < q then (passes F w index j k q a z).zero F else a.ms z }

/-- The training loop over one batch (lines 221-270). -/
inductive TrainRounds [DecidableEq C] (F : Fns Θ C B X (Nat → ℝ)) (comps : List C) (w : Demo X) (index : Nat → Nat) (j : Nat) :
    Nat → Iq Θ C B → Iq Θ C B → Prop
  | done {k : Nat} {a : Iq Θ C B} (h : ¬ (k < w.size ∧ k < j + a.batch)) : TrainRounds F comps w index j k a a
  | one {k : Nat} {a a' : Iq Θ C B} (h : k < w.size ∧ k < j + a.batch) (h1 : a.threads = 1)
      (r : TrainRounds F comps w index j (k + width a.threads a.batch w.size j k)
        (roundOne F w index j k a) a') :
      TrainRounds F comps w index j k a a'
  | many {k : Nat} {a a' : Iq Θ C B} (h : k < w.size ∧ k < j + a.batch) (h1 : a.threads ≠ 1)
      (r : TrainRounds F comps w index j (k + width a.threads a.batch w.size j k)
        (roundMany F comps w index j k (width a.threads a.batch w.size j k) a) a') :
      TrainRounds F comps w index j k a a'

/-- The end of one batch (lines 273-286), without clipping and without schedule of
the learning rate: the update, the betas and the time step, and the next values
set to 0. The derivatives are not touched. -/
def finish (U : ℝ → Nat → ℝ → ℝ → Nat → Θ → (C → ℝ) → Θ) (b1 b2 : ℝ) (a : Iq Θ C B) : Iq Θ C B :=
  { a with θ := U a.lr a.batch a.beta1 a.beta2 a.iter a.θ a.m.d, beta1 := a.beta1 * b1, beta2 := a.beta2 * b2, iter := a.iter + 1,
           nq := fun t i => if t < a.batch ∧ i < a.outDim then 0 else a.nq t i }

/-- The loop over the batches (lines 184-287), from position `j` on. -/
inductive Batches [DecidableEq C] (F : Fns Θ C B X (Nat → ℝ)) (U : ℝ → Nat → ℝ → ℝ → Nat → Θ → (C → ℝ) → Θ) (b1 b2 : ℝ)
    (comps : List C) (w : Demo X) (index : Nat → Nat) : Nat → Iq Θ C B → Iq Θ C B → Prop
  | done {j : Nat} {a : Iq Θ C B} (h : w.size ≤ j) : Batches F U b1 b2 comps w index j a a
  | step {j : Nat} {a a1 a2 a' : Iq Θ C B} (h : j < w.size) (r1 : NextRounds F w index j j a a1)
      (r2 : TrainRounds F comps w index j j a1 a2) (r : Batches F U b1 b2 comps w index (j + a.batch) (finish U b1 b2 a2) a') :
      Batches F U b1 b2 comps w index j a a'

/-- `train_iqn`: one epoch per shuffled index (lines 181-290; saving is left
out). -/
inductive Epochs [DecidableEq C] (F : Fns Θ C B X (Nat → ℝ)) (U : ℝ → Nat → ℝ → ℝ → Nat → Θ → (C → ℝ) → Θ) (b1 b2 : ℝ)
    (comps : List C) (w : Demo X) : List (Nat → Nat) → Iq Θ C B → Iq Θ C B → Prop
  | nil {a : Iq Θ C B} : Epochs F U b1 b2 comps w [] a a
  | cons {index : Nat → Nat} {l : List (Nat → Nat)} {a a1 a' : Iq Θ C B} (r : Batches F U b1 b2 comps w index 0 a a1)
      (rs : Epochs F U b1 b2 comps w l a1 a') : Epochs F U b1 b2 comps w (index :: l) a a'

/-! ### Specification -/

/-- Demonstration `t` is the last of its episode, or the last of all. -/
def Ends (w : Demo X) (t : Nat) : Prop := w.done t = true ∨ t + 1 = w.size

instance (w : Demo X) (t : Nat) : Decidable (Ends w t) := inferInstanceAs (Decidable (_ ∨ _))

/-- The next values of demonstration `t`: the outputs on the next state, or 0 at
an end. -/
def nextValues (F : Fns Θ C B X (Nat → ℝ)) (w : Demo X) (n : Nat) (θ : Θ) (t : Nat) : Nat → ℝ :=
  fun i => if ¬ Ends w t ∧ i < n then (F.fwd F.clean θ (w.state (t + 1))).2 i else 0

/-- What demonstration `t` contributes at the parameters `θ`: no discounting past
an end. -/
def contribution (F : Fns Θ C B X (Nat → ℝ)) (w : Demo X) (n : Nat) (gamma : ℝ) (θ : Θ) (t : Nat) : C → ℝ :=
  (F.once F.clean θ (fun i => if w.action t = (i : Int) then 1 else 0) (if Ends w t then 0 else gamma) (w.state t)
    (nextValues F w n θ t)).2

theorem hasNext_iff (w : Demo X) (t : Nat) : hasNext w t = true ↔ ¬ Ends w t := by
  unfold hasNext Ends
  simp

theorem gamma_eq (w : Demo X) (t : Nat) (g : ℝ) : (if hasNext w t then g else 0) = if Ends w t then 0 else g := by
  by_cases h : Ends w t
  · rw [if_pos h, if_neg (fun h' => (hasNext_iff w t).1 h' h)]
  · rw [if_neg h, if_pos ((hasNext_iff w t).2 h)]

/-- The derivatives of the batch starting at position `j`. -/
noncomputable def batchSum (F : Fns Θ C B X (Nat → ℝ)) (w : Demo X) (n : Nat) (gamma : ℝ) (index : Nat → Nat) (batch : Nat)
    (θ : Θ) (j : Nat) : C → ℝ :=
  fun c => ∑ k ∈ Finset.Ico j (j + batch), contribution F w n gamma θ (index k) c

/-- Training in which the derivatives are never cleared: every update uses the
sum of the derivatives of all batches so far, each at the parameters of its own
time. State: parameters, derivatives, betas, time step. -/
noncomputable def accumulate (F : Fns Θ C B X (Nat → ℝ)) (U : ℝ → Nat → ℝ → ℝ → Nat → Θ → (C → ℝ) → Θ) (lr b1 b2 gamma : ℝ)
    (w : Demo X) (n batch : Nat) (index : Nat → Nat) :
    Nat → Nat → Θ × (C → ℝ) × ℝ × ℝ × Nat → Θ × (C → ℝ) × ℝ × ℝ × Nat
  | 0, _, s => s
  | b + 1, j, (θ, d, p1, p2, t) =>
    accumulate F U lr b1 b2 gamma w n batch index b (j + batch)
      (U lr batch p1 p2 t θ (fun c => d c + batchSum F w n gamma index batch θ j c),
        (fun c => d c + batchSum F w n gamma index batch θ j c), p1 * b1, p2 * b2, t + 1)

/-- Nothing of earlier passes is left: clean buffers, no derivatives in the models
of the threads, next values 0. -/
structure Ready (F : Fns Θ C B X (Nat → ℝ)) (a : Iq Θ C B) : Prop where
  m : a.threads = 1 → a.m.buf = F.clean
  ms : a.threads ≠ 1 → ∀ k, k < a.threads → (a.ms k).buf = F.clean ∧ (a.ms k).d = fun _ => 0

/-- The settings and the parameters are the same. -/
def Same (a a' : Iq Θ C B) : Prop :=
  a'.threads = a.threads ∧ a'.batch = a.batch ∧ a'.outDim = a.outDim ∧ a'.gamma = a.gamma ∧ a'.θ = a.θ ∧ a'.lr = a.lr ∧
    a'.beta1 = a.beta1 ∧ a'.beta2 = a.beta2 ∧ a'.iter = a.iter

theorem Same.refl (a : Iq Θ C B) : Same a a := ⟨rfl, rfl, rfl, rfl, rfl, rfl, rfl, rfl, rfl⟩

theorem Same.trans {a b c : Iq Θ C B} (h : Same a b) (h' : Same b c) : Same a c := by
  obtain ⟨a1, a2, a3, a4, a5, a6, a7, a8, a9⟩ := h
  obtain ⟨b1, b2, b3, b4, b5, b6, b7, b8, b9⟩ := h'
  exact ⟨b1.trans a1, b2.trans a2, b3.trans a3, b4.trans a4, b5.trans a5, b6.trans a6, b7.trans a7, b8.trans a8, b9.trans a9⟩

/-! ### Proofs -/

theorem width_pos {T b size j k : Nat} (hT : 0 < T) (h : k < size ∧ k < j + b) : 0 < width T b size j k := by
  unfold width; omega

theorem width_le {T b size j k : Nat} (h : k < size ∧ k < j + b) :
    width T b size j k ≤ T ∧ k + width T b size j k ≤ size ∧ k + width T b size j k ≤ j + b := by
  unfold width; omega

theorem width_one {b size j k : Nat} (h : k < size ∧ k < j + b) : width 1 b size j k = 1 := by
  unfold width; omega

/-- What the loop of the next values does, from position `k`. -/
theorem next_run {F : Fns Θ C B X (Nat → ℝ)} {w : Demo X} {index : Nat → Nat} {j k : Nat} {a a' : Iq Θ C B}
    (hr : NextRounds F w index j k a a') (hA : Ready F a) (hjk : j ≤ k) (hs : j + a.batch ≤ w.size) :
    Ready F a' ∧ Same a a' ∧ a'.m.d = a.m.d ∧
      ∀ t i, a'.nq t i = if k ≤ t + j ∧ t < a.batch ∧ hasNext w (index (t + j)) = true ∧ i < a.outDim then
        (F.fwd F.clean a.θ (w.state (index (t + j) + 1))).2 i else a.nq t i := by
  induction hr with
  | @done k a h =>
    refine ⟨hA, Same.refl a, rfl, fun t i => ?_⟩
    rw [if_neg]
    rintro ⟨h1, h2, -⟩
    omega
  | @step k a a' h r ih =>
    by_cases h1 : a.threads = 1
    · have hw : width a.threads a.batch w.size j k = 1 := by rw [h1]; exact width_one h
      rw [hw] at ih r
      have e : nextRound F w index j k 1 a = if hasNext w (index k) then
          { a with nq := Function.update a.nq (k - j) fun i => if i < a.outDim then (F.fwd a.m.buf a.θ (w.state (index k + 1))).2 i
                     else a.nq (k - j) i,
                   m := a.m.keep F }
          else a := by
        unfold nextRound
        rw [if_pos h1]
      rw [e] at ih
      by_cases hn : hasNext w (index k) = true
      · rw [if_pos hn] at ih
        obtain ⟨i1, i2, i3, i4⟩ := ih ⟨fun _ => rfl, fun h' => absurd h1 h'⟩ (by omega) hs
        refine ⟨i1, Same.trans ⟨rfl, rfl, rfl, rfl, rfl, rfl, rfl, rfl, rfl⟩ i2, i3, fun t i => ?_⟩
        rw [i4 t i]
        dsimp only
        rw [hA.m h1]
        by_cases hk : t + j = k
        · have ht : t = k - j := by omega
          rw [if_neg (fun hh => by omega), ht, Function.update_self, ← ht, hk]
          by_cases hi : i < a.outDim
          · rw [if_pos hi, if_pos ⟨le_refl _, by omega, hn, hi⟩]
          · rw [if_neg hi, if_neg (fun hh => hi hh.2.2.2)]
        · rw [Function.update_of_ne (by omega)]
          refine if_congr ?_ rfl rfl
          constructor
          · rintro ⟨x, y⟩; exact ⟨by omega, y⟩
          · rintro ⟨x, y⟩; exact ⟨by omega, y⟩
      · rw [if_neg hn] at ih
        obtain ⟨i1, i2, i3, i4⟩ := ih hA (by omega) hs
        refine ⟨i1, i2, i3, fun t i => ?_⟩
        rw [i4 t i]
        refine if_congr ?_ rfl rfl
        constructor
        · rintro ⟨x, y⟩; exact ⟨by omega, y⟩
        · rintro ⟨x, y, z, u⟩
          refine ⟨?_, y, z, u⟩
          by_contra hc
          have : t + j = k := by omega
          rw [this] at z
          exact hn z
    · obtain ⟨w1, w2, w3⟩ := width_le (T := a.threads) h
      set q := width a.threads a.batch w.size j k with hq
      have e : nextRound F w index j k q a =
          { a with
            nq := fun t i => if k ≤ t + j ∧ t + j < k + q ∧ hasNext w (index (t + j)) then
              (if i < a.outDim then (F.fwd (a.ms (t + j - k)).buf a.θ (w.state (index (t + j) + 1))).2 i else a.nq t i)
              else a.nq t i
            ms := fun z => if z < q ∧ hasNext w (index (k + z)) then (a.ms z).keep F else a.ms z } := by
        unfold nextRound
        rw [if_neg h1]
      rw [e] at ih
      obtain ⟨i1, i2, i3, i4⟩ := ih ⟨fun h' => absurd h' h1, fun _ z hz => by
        dsimp only
        by_cases hc : z < q ∧ hasNext w (index (k + z)) = true
        · rw [if_pos hc]; exact ⟨rfl, (hA.ms h1 z hz).2⟩
        · rw [if_neg hc]; exact hA.ms h1 z hz⟩ (by omega) hs
      refine ⟨i1, Same.trans ⟨rfl, rfl, rfl, rfl, rfl, rfl, rfl, rfl, rfl⟩ i2, i3, fun t i => ?_⟩
      rw [i4 t i]
      dsimp only
      by_cases hk : k ≤ t + j ∧ t + j < k + q
      · rw [if_neg (fun hh => by omega)]
        by_cases hn : hasNext w (index (t + j)) = true
        · rw [if_pos ⟨hk.1, hk.2, hn⟩, (hA.ms h1 (t + j - k) (by omega)).1]
          by_cases hi : i < a.outDim
          · rw [if_pos hi, if_pos ⟨hk.1, by omega, hn, hi⟩]
          · rw [if_neg hi, if_neg (fun hh => hi hh.2.2.2)]
        · rw [if_neg (fun hh => hn hh.2.2), if_neg (fun hh => hn hh.2.2.1)]
      · rw [if_neg (c := k ≤ t + j ∧ t + j < k + q ∧ _) (fun hh => hk ⟨hh.1, hh.2.1⟩)]
        refine if_congr ?_ rfl rfl
        constructor
        · rintro ⟨x, y⟩; exact ⟨by omega, y⟩
        · rintro ⟨x, y⟩; exact ⟨by omega, y⟩

theorem once_eq {F : Fns Θ C B X (Nat → ℝ)} {n : Nat} (hR : Reads F n) (w : Demo X) (t : Nat) (θ : Θ) (γ : ℝ) (al : Nat → ℝ)
    (x : X) (o : Nat → ℝ) :
    F.once F.clean θ (setAlpha n (w.action t) 1 al) γ x o =
      F.once F.clean θ (fun i => if w.action t = (i : Int) then 1 else 0) γ x o :=
  hR _ _ _ _ _ _ _ fun j hj => by rw [setAlpha_get, if_pos hj]

theorem train_run [DecidableEq C] {F : Fns Θ C B X (Nat → ℝ)} {comps : List C} {w : Demo X} {index : Nat → Nat} {j k : Nat}
    {a a' : Iq Θ C B} (hn : comps.Nodup) (hall : ∀ c, c ∈ comps) (hr : TrainRounds F comps w index j k a a')
    (hR : Reads F a.outDim) (hA : Ready F a) (hjk : j ≤ k) (hs : j + a.batch ≤ w.size)
    (hq : ∀ t, t < a.batch → a.nq t = nextValues F w a.outDim a.θ (index (t + j))) :
    Ready F a' ∧ Same a a' ∧ a'.nq = a.nq ∧
      ∀ c, a'.m.d c = a.m.d c + ∑ t ∈ Finset.Ico k (j + a.batch), contribution F w a.outDim a.gamma a.θ (index t) c := by
  induction hr with
  | @done k a h =>
    refine ⟨hA, Same.refl a, rfl, fun c => ?_⟩
    rw [Finset.Ico_eq_empty (by omega), Finset.sum_empty, add_zero]
  | @one k a a' h h1 r ih =>
    have hw : width a.threads a.batch w.size j k = 1 := by rw [h1]; exact width_one h
    rw [hw] at ih
    obtain ⟨i1, i2, i3, i4⟩ := ih hR ⟨fun _ => rfl, fun h' => absurd h1 h'⟩ (by omega) hs hq
    refine ⟨i1, Same.trans ⟨rfl, rfl, rfl, rfl, rfl, rfl, rfl, rfl, rfl⟩ i2, i3, fun c => ?_⟩
    rw [i4 c, Finset.sum_eq_sum_Ico_succ_bot h.2, ← add_assoc]
    congr 1
    show a.m.d c + (F.once a.m.buf a.θ (setAlpha a.outDim (w.action (index k)) 1 a.m.alpha)
      (if hasNext w (index k) then a.gamma else 0) (w.state (index k)) (a.nq (k - j))).2 c = _
    rw [gamma_eq, hA.m h1, once_eq hR, hq (k - j) (by omega), Nat.sub_add_cancel hjk]
    rfl
  | @many k a a' h h1 r ih =>
    obtain ⟨w1, w2, w3⟩ := width_le (T := a.threads) h
    set q := width a.threads a.batch w.size j k with hqd
    obtain ⟨i1, i2, i3, i4⟩ := ih hR ⟨fun h' => absurd h' h1, fun _ z hz => by
      unfold roundMany
      dsimp only
      by_cases hc : z < q
      · rw [if_pos hc]; exact ⟨rfl, rfl⟩
      · rw [if_neg hc]; exact hA.ms h1 z hz⟩ (by omega) hs hq
    refine ⟨i1, Same.trans ⟨rfl, rfl, rfl, rfl, rfl, rfl, rfl, rfl, rfl⟩ i2, i3, fun c => ?_⟩
    rw [i4 c]
    show sumSeq comps q (fun z => (passes F w index j k q a z).d) a.m.d c + _ = _
    rw [sumSeq_eq comps hn, if_pos (hall c), add_assoc]
    congr 1
    rw [← Finset.sum_Ico_consecutive (fun t => contribution F w a.outDim a.gamma a.θ (index t) c)
      (show k ≤ k + q by omega) w3]
    congr 1
    rw [Finset.sum_Ico_eq_sum_range, Nat.add_sub_cancel_left]
    refine Finset.sum_congr rfl fun z hz => ?_
    have hz' := Finset.mem_range.1 hz
    obtain ⟨hb, h0⟩ := hA.ms h1 z (lt_of_lt_of_le hz' w1)
    unfold passes
    rw [if_pos hz']
    show (a.ms z).d c + (F.once (a.ms z).buf a.θ (setAlpha a.outDim (w.action (index (k + z))) 1 (a.ms z).alpha)
      (if hasNext w (index (k + z)) then a.gamma else 0) (w.state (index (k + z))) (a.nq (k + z - j))).2 c = _
    rw [gamma_eq, h0, hb, once_eq hR, hq (k + z - j) (by omega), Nat.sub_add_cancel (by omega), zero_add]
    rfl

/-- The next values are 0, as at the start and after every batch. -/
def Cleared (a : Iq Θ C B) : Prop := ∀ t i, t < a.batch → a.nq t i = 0

theorem batches_run [DecidableEq C] {F : Fns Θ C B X (Nat → ℝ)} {U : ℝ → Nat → ℝ → ℝ → Nat → Θ → (C → ℝ) → Θ} {b1 b2 : ℝ}
    {comps : List C} {w : Demo X} {index : Nat → Nat} (hn : comps.Nodup) (hall : ∀ c, c ∈ comps) {j : Nat} {a a' : Iq Θ C B}
    (hr : Batches F U b1 b2 comps w index j a a') (hR : Reads F a.outDim) (hA : Ready F a) (hC : Cleared a) (b : Nat)
    (hb : 0 < a.batch) (hj : j + b * a.batch = w.size) :
    Ready F a' ∧ Cleared a' ∧ (a'.threads = a.threads ∧ a'.batch = a.batch ∧ a'.outDim = a.outDim ∧ a'.gamma = a.gamma ∧ a'.lr = a.lr) ∧
      (a'.θ, a'.m.d, a'.beta1, a'.beta2, a'.iter) = accumulate F U a.lr b1 b2 a.gamma w a.outDim a.batch index b j
        (a.θ, a.m.d, a.beta1, a.beta2, a.iter) := by
  induction hr generalizing b with
  | @done j a h =>
    obtain rfl : b = 0 := by
      rcases Nat.eq_zero_or_pos b with h' | h'
      · exact h'
      · have := Nat.mul_pos h' hb; omega
    exact ⟨hA, hC, ⟨rfl, rfl, rfl, rfl, rfl⟩, rfl⟩
  | @step j a a1 a2 a' h r1 r2 r ih =>
    obtain ⟨b, rfl⟩ : ∃ b', b = b' + 1 := by
      cases b with
      | zero => rw [Nat.zero_mul] at hj; omega
      | succ b => exact ⟨b, rfl⟩
    rw [Nat.add_mul, Nat.one_mul] at hj
    have hs : j + a.batch ≤ w.size := by omega
    obtain ⟨p1, ⟨q1, q2, q3, q4, q5, q6, q7, q8, q9⟩, p3, p4⟩ := next_run r1 hA (le_refl j) hs
    have hq : ∀ t, t < a1.batch → a1.nq t = nextValues F w a1.outDim a1.θ (index (t + j)) := by
      intro t ht
      funext i
      rw [p4 t i, q3, q5]
      unfold nextValues
      simp only [hasNext_iff]
      rw [q2] at ht
      by_cases hh : ¬ Ends w (index (t + j)) ∧ i < a.outDim
      · rw [if_pos ⟨by omega, ht, hh⟩, if_pos hh]
      · rw [if_neg (fun x => hh ⟨x.2.2.1, x.2.2.2⟩), if_neg hh, hC t i ht]
    obtain ⟨t1, ⟨u1, u2, u3, u4, u5, u6, u7, u8, u9⟩, t3, t4⟩ :=
      train_run hn hall r2 (by rw [q3]; exact hR) p1 (le_refl j) (by rw [q2]; exact hs) hq
    have hd : a2.m.d = fun c => a.m.d c + batchSum F w a.outDim a.gamma index a.batch a.θ j c := by
      funext c
      rw [t4 c, p3, q2, q3, q4, q5]
      rfl
    have hcl : Cleared (finish U b1 b2 a2) := by
      intro t i ht
      have ht' : t < a2.batch := ht
      show (if t < a2.batch ∧ i < a2.outDim then 0 else a2.nq t i) = 0
      by_cases hi : i < a2.outDim
      · rw [if_pos ⟨ht', hi⟩]
      · rw [if_neg (fun x => hi x.2), t3, p4, if_neg, hC t i (by omega)]
        rintro ⟨-, -, -, x⟩
        rw [u3, q3] at hi
        exact hi x
    obtain ⟨v1, v2, ⟨x1, x2, x3, x4, x5⟩, v4⟩ := ih (show Reads F a2.outDim by rw [u3, q3]; exact hR)
      (show Ready F (finish U b1 b2 a2) from ⟨t1.m, t1.ms⟩) hcl b
      (show 0 < a2.batch by omega) (show j + a.batch + b * a2.batch = w.size by rw [u2, q2]; omega)
    have y1 : a2.threads = a.threads := u1.trans q1
    have y2 : a2.batch = a.batch := u2.trans q2
    have y3 : a2.outDim = a.outDim := u3.trans q3
    have y4 : a2.gamma = a.gamma := u4.trans q4
    have y6 : a2.lr = a.lr := u6.trans q6
    refine ⟨v1, v2, ⟨x1.trans y1, x2.trans y2, x3.trans y3, x4.trans y4, x5.trans y6⟩, v4.trans ?_⟩
    show accumulate F U a2.lr b1 b2 a2.gamma w a2.outDim a2.batch index b (j + a.batch)
      (U a2.lr a2.batch a2.beta1 a2.beta2 a2.iter a2.θ a2.m.d, a2.m.d, a2.beta1 * b1, a2.beta2 * b2, a2.iter + 1) = _
    rw [y2, y3, y4, y6, hd, u5, u7, u8, u9, q5, q7, q8, q9]
    rfl

theorem next_exists (F : Fns Θ C B X (Nat → ℝ)) (w : Demo X) (index : Nat → Nat) (j k : Nat) (a : Iq Θ C B) (hT : 0 < a.threads) :
    ∃ a', NextRounds F w index j k a a' ∧ a'.threads = a.threads ∧ a'.batch = a.batch := by
  induction hm : w.size - k using Nat.strong_induction_on generalizing k a with
  | _ n ih =>
    by_cases h : k < w.size ∧ k < j + a.batch
    · have hp := width_pos (T := a.threads) hT h
      have e : ∀ q, (nextRound F w index j k q a).threads = a.threads ∧ (nextRound F w index j k q a).batch = a.batch := by
        intro q
        unfold nextRound
        split_ifs <;> exact ⟨rfl, rfl⟩
      obtain ⟨a', r, h1, h2⟩ := ih (w.size - (k + width a.threads a.batch w.size j k)) (by omega) _
        (nextRound F w index j k (width a.threads a.batch w.size j k) a) (by rw [(e _).1]; exact hT) rfl
      exact ⟨a', .step h r, h1.trans (e _).1, h2.trans (e _).2⟩
    · exact ⟨a, .done h, rfl, rfl⟩

theorem train_exists [DecidableEq C] (F : Fns Θ C B X (Nat → ℝ)) (comps : List C) (w : Demo X) (index : Nat → Nat) (j k : Nat)
    (a : Iq Θ C B) (hT : 0 < a.threads) :
    ∃ a', TrainRounds F comps w index j k a a' ∧ a'.threads = a.threads ∧ a'.batch = a.batch := by
  induction hm : w.size - k using Nat.strong_induction_on generalizing k a with
  | _ n ih =>
    by_cases h : k < w.size ∧ k < j + a.batch
    · have hp := width_pos (T := a.threads) hT h
      by_cases h1 : a.threads = 1
      · obtain ⟨a', r, x, y⟩ := ih (w.size - (k + width a.threads a.batch w.size j k)) (by omega) _
          (roundOne F w index j k a) (by exact hT) rfl
        exact ⟨a', .one h h1 r, x, y⟩
      · obtain ⟨a', r, x, y⟩ := ih (w.size - (k + width a.threads a.batch w.size j k)) (by omega) _
          (roundMany F comps w index j k (width a.threads a.batch w.size j k) a) (by exact hT) rfl
        exact ⟨a', .many h h1 r, x, y⟩
    · exact ⟨a, .done h, rfl, rfl⟩

theorem batches_exist [DecidableEq C] (F : Fns Θ C B X (Nat → ℝ)) (U : ℝ → Nat → ℝ → ℝ → Nat → Θ → (C → ℝ) → Θ) (b1 b2 : ℝ)
    (comps : List C) (w : Demo X) (index : Nat → Nat) (j : Nat) (a : Iq Θ C B) (hT : 0 < a.threads) (hb : 0 < a.batch) :
    ∃ a', Batches F U b1 b2 comps w index j a a' := by
  induction hm : w.size - j using Nat.strong_induction_on generalizing j a with
  | _ n ih =>
    by_cases h : j < w.size
    · obtain ⟨a1, r1, x1, x2⟩ := next_exists F w index j j a hT
      obtain ⟨a2, r2, y1, y2⟩ := train_exists F comps w index j j a1 (by rw [x1]; exact hT)
      obtain ⟨a', r⟩ := ih (w.size - (j + a.batch)) (by omega) _ (finish U b1 b2 a2) (show 0 < a2.threads by omega)
        (show 0 < a2.batch by omega) rfl
      exact ⟨a', .step h r1 r2 r⟩
    · exact ⟨a, .done (by omega)⟩

/-- **C123, one epoch.** For every number of threads, every order of the
demonstrations and every batch size dividing their number, an epoch of inverse
Q-learning ends, and does exactly what `accumulate` says: the batches are
consecutive pieces of the order; a demonstration contributes with 1 at its action,
the outputs on the following state as next values and the discount, both 0 at the
end of an episode and at the last demonstration; and each update uses the
derivatives of *all* batches so far. Threads do not change the result. -/
theorem C123_epoch_partial [DecidableEq C] (F : Fns Θ C B X (Nat → ℝ)) (U : ℝ → Nat → ℝ → ℝ → Nat → Θ → (C → ℝ) → Θ) (b1 b2 : ℝ)
    (comps : List C) (w : Demo X) (index : Nat → Nat) (a : Iq Θ C B) (hn : comps.Nodup) (hall : ∀ c, c ∈ comps)
    (hT : 0 < a.threads) (hb : 0 < a.batch) (hdvd : w.size % a.batch = 0) (hR : Reads F a.outDim) (hA : Ready F a) (hC : Cleared a) :
    (∃ a', Batches F U b1 b2 comps w index 0 a a') ∧ ∀ a', Batches F U b1 b2 comps w index 0 a a' →
      Ready F a' ∧ Cleared a' ∧ (a'.θ, a'.m.d, a'.beta1, a'.beta2, a'.iter) =
        accumulate F U a.lr b1 b2 a.gamma w a.outDim a.batch index (w.size / a.batch) 0 (a.θ, a.m.d, a.beta1, a.beta2, a.iter) := by
  refine ⟨batches_exist F U b1 b2 comps w index 0 a hT hb, fun a' h => ?_⟩
  obtain ⟨x, y, -, z⟩ := batches_run hn hall h hR hA hC (w.size / a.batch) hb (by
    rw [Nat.zero_add]
    exact Nat.div_mul_cancel (Nat.dvd_of_mod_eq_zero hdvd))
  exact ⟨x, y, z⟩

/-- A network with one parameter: the pass adds the state plus twice the first
next value. -/
noncomputable def demoF : Fns ℝ (Fin 1) Unit ℝ (Nat → ℝ) :=
  ⟨(), fun _ _ α _ x o => ((), fun _ => α 0 * x + 2 * o 0), fun _ θ x => ((), fun _ => θ * x)⟩

/-- Four demonstrations in two batches, two threads. -/
noncomputable def demoIq (θ : ℝ) : Iq ℝ (Fin 1) Unit :=
  ⟨2, 2, 1, 1, θ, ⟨fun _ => 0, (), fun _ => 0, 0⟩, fun _ => ⟨fun _ => 0, (), fun _ => 0, 0⟩, fun _ _ => 0, 1, 1, 1, 1⟩

noncomputable def demoW : Demo ℝ := ⟨fun t => t, fun _ => 0, fun _ => true, 4⟩

theorem demo_reads : Reads demoF 1 := by
  intro b θ α α' γ x o h
  show (_, _) = (_, _)
  rw [h 0 (by decide)]

theorem demo_ready (θ : ℝ) : Ready demoF (demoIq θ) := ⟨fun _ => rfl, fun _ _ _ => ⟨rfl, rfl⟩⟩

example (θ : ℝ) : ∃ a', Batches demoF (fun lr _ _ _ _ θ d => θ - lr * d 0) 1 1 [0] ⟨fun t => t, fun _ => 0, fun t => t == 1, 4⟩ id 0 (demoIq θ) a' ∧ Ready demoF a' := by
  obtain ⟨⟨a', h⟩, H⟩ := C123_epoch_partial demoF (fun lr _ _ _ _ θ d => θ - lr * d 0) 1 1 [0] ⟨fun t => t, fun _ => 0, fun t => t == 1, 4⟩ id (demoIq θ) (by simp)
    (fun c => by simp [Subsingleton.elim c 0]) (by show 0 < 2; decide) (by show 0 < 2; decide) (by show 4 % 2 = 0; decide)
    demo_reads (demo_ready θ) (fun _ _ _ => rfl)
  exact ⟨a', h, (H a' h).1⟩

/-- **C123, refutation.** The derivatives of a batch are not cleared after its
update: on four demonstrations `0, 1, 2, 3` in two batches, with gradient descent,
the second update moves the parameter by the sum over both batches. -/
theorem C123_own_batch_refuted (θ : ℝ) (a' : Iq ℝ (Fin 1) Unit)
    (h : Batches demoF (fun lr _ _ _ _ θ d => θ - lr * d 0) 1 1 [0] demoW id 0 (demoIq θ) a') :
    a'.θ = θ - (0 + 1) - ((0 + 1) + (2 + 3)) ∧ a'.θ ≠ θ - (0 + 1) - (2 + 3) := by
  obtain ⟨-, H⟩ := C123_epoch_partial demoF (fun lr _ _ _ _ θ d => θ - lr * d 0) 1 1 [0] demoW id (demoIq θ) (by simp)
    (fun c => by simp [Subsingleton.elim c 0]) (by show 0 < 2; decide) (by show 0 < 2; decide) (by show 4 % 2 = 0; decide)
    demo_reads (demo_ready θ) (fun _ _ _ => rfl)
  have e := congrArg Prod.fst (H a' h).2.2
  have hc : ∀ (γ θ : ℝ) (t : Nat) (c : Fin 1), contribution demoF demoW 1 γ θ t c = t := by
    intro γ θ t c
    show (if (0 : Int) = ((0 : Nat) : Int) then (1 : ℝ) else 0) * (t : ℝ) + 2 * nextValues demoF demoW 1 θ t 0 = t
    have : nextValues demoF demoW 1 θ t 0 = 0 := if_neg (fun h => by simp [Ends, demoW] at h)
    rw [this]
    simp
  have hs : ∀ (γ θ : ℝ) (j : Nat) (c : Fin 1), batchSum demoF demoW 1 γ id 2 θ j c = j + (j + 1) := by
    intro γ θ j c
    unfold batchSum
    rw [Finset.sum_Ico_eq_sum_range, Nat.add_sub_cancel_left, Finset.sum_range_succ, Finset.sum_range_one, hc, hc]
    simp
  have e' : a'.θ = θ - (0 + 1) - ((0 + 1) + (2 + 3)) := by
    refine e.trans ?_
    have h2 : demoW.size / (demoIq θ).batch = 1 + 1 := by show 4 / 2 = 2; decide
    rw [h2]
    show θ - 1 * ((0 : ℝ) + batchSum demoF demoW 1 1 id 2 θ 0 0) -
      1 * (((0 : ℝ) + batchSum demoF demoW 1 1 id 2 θ 0 0) + batchSum demoF demoW 1 1 id 2 _ (0 + 2) 0) = _
    rw [hs, hs]
    push_cast
    ring
  refine ⟨e', ?_⟩
  rw [e']
  intro h
  linarith

/-- **C123, all epochs.** Whole trainings: a run of `train_iqn` over any list of
orders is the iteration of `accumulate` over them, the derivatives being carried
from one epoch to the next. -/
theorem C123_training_partial [DecidableEq C] (F : Fns Θ C B X (Nat → ℝ)) (U : ℝ → Nat → ℝ → ℝ → Nat → Θ → (C → ℝ) → Θ)
    (b1 b2 : ℝ) (comps : List C) (w : Demo X) (l : List (Nat → Nat)) (a a' : Iq Θ C B) (hn : comps.Nodup) (hall : ∀ c, c ∈ comps)
    (hT : 0 < a.threads) (hb : 0 < a.batch) (hdvd : w.size % a.batch = 0) (hR : Reads F a.outDim) (hA : Ready F a) (hC : Cleared a)
    (h : Epochs F U b1 b2 comps w l a a') :
    (a'.θ, a'.m.d, a'.beta1, a'.beta2, a'.iter) = l.foldl (fun s index =>
      accumulate F U a.lr b1 b2 a.gamma w a.outDim a.batch index (w.size / a.batch) 0 s) (a.θ, a.m.d, a.beta1, a.beta2, a.iter) := by
  induction h with
  | nil => rfl
  | @cons index l a a1 a' r rs ih =>
    obtain ⟨x, y, ⟨z1, z2, z3, z4, z5⟩, e⟩ := batches_run hn hall r hR hA hC (w.size / a.batch) hb (by
      rw [Nat.zero_add]
      exact Nat.div_mul_cancel (Nat.dvd_of_mod_eq_zero hdvd))
    rw [ih (by omega) (by omega) (by rw [z2]; exact hdvd) (by rw [z3]; exact hR) x y, List.foldl_cons, e, z2, z3, z4, z5]

end LLab.IqTrain
