import Verif.Common.Mat
import Mathlib.Algebra.Field.Rat
import Mathlib.Tactic.Ring
import Mathlib.Tactic.LinearCombination

/-!
`ddpg_train` (`/repo/src/drl.c` 262-375): the regression targets of the critic, and
which hyper-parameters each of the four networks is updated with. Properties C52, C81.

A network is its input/output function together with the arrays of its last
fully-connected layer, because `ddpg` keeps pointers into those arrays
(`tm4_output_array[i] = tm4[i]->output_layer`) and reads them after `reset_model`.
The layers before the last are not modelled. The phases of the batch are run sample by
sample: sample `i` only uses the replicas number `i`.
-/

namespace LLab.Ddpg

/-- The last layer of a network: its flags, and the arrays feed-forward leaves values in. -/
structure Last (α : Type) where
  dropoutFlag : Bool
  normFlag : Bool
  actFlag : Bool
  pre : List α
  act : List α
  norm : List α
  drop : List α

/-- The array `output_layer` points to (`/repo/src/model.c` 275-284). -/
def Last.output {α : Type} (l : Last α) : List α :=
  if l.dropoutFlag then l.drop else if l.normFlag then l.norm else if l.actFlag then l.act else l.pre

/-- Feed-forward leaves the network's output in that array (what it leaves in the other
arrays is not modelled). -/
def Last.store {α : Type} (l : Last α) (y : List α) : Last α :=
  if l.dropoutFlag then { l with drop := y } else if l.normFlag then { l with norm := y }
  else if l.actFlag then { l with act := y } else { l with pre := y }

/-- `reset_fcl` on those arrays (`/repo/src/fully_connected_layers.c` 1359-1381). -/
def Last.reset {α : Type} [Zero α] [One α] (l : Last α) : Last α :=
  { l with
    pre := l.pre.map fun _ => 0
    act := if l.actFlag then l.act.map fun _ => 0 else l.act
    norm := if l.normFlag then l.norm.map fun _ => 0 else l.norm
    drop := if l.dropoutFlag then l.drop.map fun _ => 1 else l.drop }

/-- A network. -/
structure Net (α : Type) where
  fn : List α → List α
  last : Last α

/-- `model_tensor_input_ff` on one replica. -/
def Net.feed {α : Type} (m : Net α) (x : List α) : Net α := { m with last := m.last.store (m.fn x) }

/-- `reset_model` on one replica (`/repo/src/model.c` 666-685). -/
def Net.reset {α : Type} [Zero α] [One α] (m : Net α) : Net α := { m with last := m.last.reset }

/-- The two `copy_array` into the `cap` floats allocated for `inputx3[i]`
(`/repo/src/drl.c` 271-274); `none` is writing past the end of the buffer or reading
past the end of an output array. -/
def joined {α : Type} (cap n2 n3 : Nat) (a b : List α) : Option (List α) :=
  if n2 + n3 ≤ cap ∧ n2 ≤ a.length ∧ n3 ≤ b.length then some (a.take n2 ++ b.take n3) else none

/-- One transition of the batch. -/
structure Sample (α : Type) where
  next : List α
  reward : α
  terminal : α

/-- The replicas for one sample. -/
structure Replicas (α : Type) where
  tm1 : Net α
  tm2 : Net α
  tm3 : Net α
  tm4 : Net α

/-- The critic target of one sample (`/repo/src/drl.c` 266-287). -/
def target {α : Type} [Ring α] (lam : α) (n2 n3 : Nat) (r : Replicas α) (s : Sample α) : Option α :=
  let tm1 := r.tm1.feed s.next
  let tm2 := r.tm2.feed s.next
  let tm3 := r.tm3.feed tm1.last.output
  (joined (n2 * n3) n2 n3 tm2.last.output tm3.last.output).bind fun x =>
    let tm4 := (r.tm4.feed x).reset
    tm4.last.output[0]?.bind fun q => some (s.reward + lam * (1 - s.terminal) * q)

/-- The targets of the batch. -/
def targets {α : Type} [Ring α] (lam : α) (n2 n3 : Nat) (batch : List (Replicas α × Sample α)) : Option (List α) :=
  batch.mapM fun p => target lam n2 n3 p.1 p.2

/-! ### Specification -/

/-- The value the target critic gives to the next state and the action of the target
policy there. -/
def qNext {α : Type} (r : Replicas α) (s : Sample α) : Option α :=
  (r.tm4.fn (r.tm2.fn s.next ++ r.tm3.fn (r.tm1.fn s.next)))[0]?

/-- The networks have the sizes given to `init_ddpg`. -/
def Sized {α : Type} (n2 n3 : Nat) (r : Replicas α) : Prop :=
  (∀ x, (r.tm2.fn x).length = n2) ∧ (∀ x, (r.tm3.fn x).length = n3) ∧ ∀ x, (r.tm4.fn x).length = 1

theorem output_store {α : Type} (l : Last α) (y : List α) : (l.store y).output = y := by
  unfold Last.store Last.output
  split_ifs <;> simp_all

theorem output_reset {α : Type} [Zero α] [One α] (l : Last α) :
    l.reset.output = l.output.map fun _ => if l.dropoutFlag then (1 : α) else 0 := by
  unfold Last.reset Last.output
  by_cases h1 : l.dropoutFlag = true
  · simp [h1]
  · by_cases h2 : l.normFlag = true
    · simp [h1, h2]
    · by_cases h3 : l.actFlag = true
      · simp [h1, h2, h3]
      · simp [h1, h2, h3]

theorem dropoutFlag_store {α : Type} (l : Last α) (y : List α) : (l.store y).dropoutFlag = l.dropoutFlag := by
  unfold Last.store
  split_ifs <;> simp_all

/-- What the code computes: the target network's value is replaced by what `reset_model`
left in the array. -/
theorem target_eq {α : Type} [Ring α] (lam : α) (n2 n3 : Nat) (r : Replicas α) (s : Sample α) (hs : Sized n2 n3 r)
    (hcap : n2 + n3 ≤ n2 * n3) :
    target lam n2 n3 r s = some (s.reward + lam * (1 - s.terminal) * if r.tm4.last.dropoutFlag then 1 else 0) := by
  obtain ⟨h2, h3, h4⟩ := hs
  unfold target
  dsimp only [Net.feed]
  rw [output_store, output_store, output_store]
  have hj : joined (n2 * n3) n2 n3 (r.tm2.fn s.next) (r.tm3.fn (r.tm1.fn s.next)) =
      some (r.tm2.fn s.next ++ r.tm3.fn (r.tm1.fn s.next)) := by
    unfold joined
    rw [if_pos ⟨hcap, (h2 _).ge, (h3 _).ge⟩, List.take_of_length_le (h2 _).le, List.take_of_length_le (h3 _).le]
  refine (bind_some_of hj).trans ?_
  unfold Net.reset
  dsimp only
  rw [output_reset, output_store, dropoutFlag_store]
  have h1 := h4 (r.tm2.fn s.next ++ r.tm3.fn (r.tm1.fn s.next))
  rw [List.getElem?_map, List.getElem?_eq_getElem (by omega)]
  rfl

/-- **C52 (partial: terminal transitions).** For a batch of terminal transitions, and
encoder widths for which the joined input fits its buffer, the targets are
`reward + lambda*(1-terminal)*Q`. -/
theorem C52_terminal_partial {α : Type} [Ring α] (lam : α) (n2 n3 : Nat) (hcap : n2 + n3 ≤ n2 * n3)
    (batch : List (Replicas α × Sample α)) (hs : ∀ p ∈ batch, Sized n2 n3 p.1) (ht : ∀ p ∈ batch, p.2.terminal = 1)
    (q : Replicas α → Sample α → α) (_hq : ∀ p ∈ batch, qNext p.1 p.2 = some (q p.1 p.2)) :
    targets lam n2 n3 batch = some (batch.map fun p => p.2.reward + lam * (1 - p.2.terminal) * q p.1 p.2) := by
  unfold targets
  induction batch with
  | nil => rfl
  | cons p batch ih =>
    rw [List.mapM_cons, target_eq lam n2 n3 p.1 p.2 (hs p (by simp)) hcap, ih (fun p hp => hs p (by simp [hp])) (fun p hp => ht p (by simp [hp])) fun p hp => _hq p (by simp [hp])]
    simp [ht p (by simp)]

/-- **C52 is refuted.** For every non-terminal transition, discount other than zero, and
target critic without dropout at the end whose value of the next state is not zero,
the target is not `reward + lambda*(1-terminal)*Q`. -/
theorem C52_refuted {α : Type} [Field α] (lam : α) (n2 n3 : Nat) (hcap : n2 + n3 ≤ n2 * n3) (r : Replicas α) (s : Sample α)
    (hs : Sized n2 n3 r) (hd : r.tm4.last.dropoutFlag = false) (q : α) (_hq : qNext r s = some q) (hq0 : q ≠ 0) (hl : lam ≠ 0)
    (ht : s.terminal = 0) :
    target lam n2 n3 r s = some s.reward ∧ target lam n2 n3 r s ≠ some (s.reward + lam * (1 - s.terminal) * q) := by
  have e := target_eq lam n2 n3 r s hs hcap
  rw [hd] at e
  have e' : target lam n2 n3 r s = some s.reward := by rw [e]; simp
  refine ⟨e', fun h => ?_⟩
  rw [e'] at h
  have := Option.some.inj h
  rw [ht] at this
  have h0 : lam * q = 0 := by linear_combination -this
  rcases mul_eq_zero.1 h0 with h | h
  · exact hl h
  · exact hq0 h

/-- **C52 is refuted.** With an encoder of one output, the buffer for the joined input is
too short for every pair of networks: the function writes past its end. -/
theorem C52_overflow_refuted {α : Type} [Ring α] (lam : α) (n : Nat) (r : Replicas α) (s : Sample α) :
    target lam 1 n r s = none ∧ target lam n 1 r s = none := by
  constructor
  · unfold target joined
    dsimp only
    rw [if_neg (fun h => by have := h.1; omega)]
    rfl
  · unfold target joined
    dsimp only
    rw [if_neg (fun h => by have := h.1; omega)]
    rfl

/-- Networks of the sizes of the theorems. -/
def demo : Replicas ℚ :=
  let last : Last ℚ := ⟨false, false, true, [0, 0], [0, 0], [], []⟩
  ⟨⟨fun x => x, last⟩, ⟨fun x => [x.sum, 1], last⟩, ⟨fun x => [2, x.sum], last⟩, ⟨fun x => [x.sum], ⟨false, false, false, [0], [0], [], []⟩⟩⟩

example : Sized 2 2 demo ∧ qNext demo ⟨[1, 2], 5, 0⟩ = some 9 ∧ targets (1 / 2) 2 2 [(demo, ⟨[1, 2], 5, 0⟩), (demo, ⟨[1, 2], 7, 1⟩)] = some [5, 7] :=
  ⟨⟨fun _ => rfl, fun _ => rfl, fun _ => rfl⟩, by decide +kernel, by decide +kernel⟩

/-! ### Which hyper-parameters update which network -/

/-- The hyper-parameters of one optimiser, as given to `init_ddpg`. -/
structure Hyper where
  lr : Rat
  momentum : Rat
  descentFlag : Nat
  regularization : Nat
  lambda : Rat
deriving DecidableEq

/-- The four networks. -/
inductive Part | policy | criticFrames | criticActions | criticHead
deriving DecidableEq

/-- The calls of `update_model` in `ddpg_train`, with the set of hyper-parameters each
takes: `h1` are the fields ending in 1 and `h2` those ending in 2
(`/repo/src/drl.c` 317-321, 355). -/
def updates (h1 h2 : Hyper) : List (Part × Hyper) :=
  [(.criticHead, h1), (.criticActions, h1), (.criticFrames, h1), (.policy, h2)]

/-- The steps counted by `t1` over one call: incremented by each `update_model`, and
decremented by hand between the updates (`/repo/src/drl.c` 317-321). -/
def stepT1 (t1 : Int) : Int := t1 + 1 - 1 + 1 - 1 + 1

/-- The documented assignment (`/repo/src/drl.c` 30-34, 50-62): the first set of
hyper-parameters is the policy's and the second the critic's. -/
def documented (h1 h2 : Hyper) : Part → Hyper
  | .policy => h1
  | _ => h2

/-- **C81 is refuted.** Whenever the two sets differ, every network is updated with the
set documented for the other one. -/
theorem C81_refuted (h1 h2 : Hyper) (h : h1 ≠ h2) : ∀ u ∈ updates h1 h2, u.2 ≠ documented h1 h2 u.1 := by
  intro u hu
  simp only [updates, List.mem_cons, List.not_mem_nil, or_false] at hu
  rcases hu with rfl | rfl | rfl | rfl
  · exact h
  · exact h
  · exact h
  · exact fun e => h e.symm

/-- **C81 (partial).** All four networks are updated exactly once per call, the three
parts of the critic with one common set of hyper-parameters and one common step count. -/
theorem C81_partial (h1 h2 : Hyper) (t1 : Int) :
    (∀ p : Part, ((updates h1 h2).map Prod.fst).count p = 1) ∧
      (∃ c, ∀ u ∈ updates h1 h2, u.1 ≠ .policy → u.2 = c) ∧ stepT1 t1 = t1 + 1 := by
  refine ⟨fun p => by cases p <;> rfl, ⟨h1, fun u hu hp => ?_⟩, by unfold stepT1; ring⟩
  simp only [updates, List.mem_cons, List.not_mem_nil, or_false] at hu
  rcases hu with rfl | rfl | rfl | rfl
  · rfl
  · rfl
  · rfl
  · exact absurd rfl hp

example : (⟨1, 0, 0, 0, 0⟩ : Hyper) ≠ ⟨2, 0, 0, 0, 0⟩ := by decide

end LLab.Ddpg
