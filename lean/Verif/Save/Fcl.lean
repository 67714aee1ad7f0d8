import Verif.Save.Cells

/-!
Saving and loading batch-normalisation and fully-connected layers
(`/repo/src/batch_norm_layers.c`, `/repo/src/fully_connected_layers.c`), scaled
L2-normalisation layers and vectors. Property C45.

A layer is its configuration and its parameters; the arrays of derivatives and the
temporary arrays, which no file contains, are left out, and so are the noise arrays of
a noisy layer, which are drawn again. A `NULL` array is the empty list.
-/

namespace LLab.Save

variable {α : Type}

/-! ### Constants (`/repo/src/llab.h` 78-101, 162-169, 234-235) -/

def NO_NORMALIZATION : Int := 0
def LOCAL_RESPONSE_NORMALIZATION : Int := 1
def BATCH_NORMALIZATION : Int := 2
def GROUP_NORMALIZATION : Int := 3
def LAYER_NORMALIZATION : Int := 4
def GRADIENT_DESCENT : Int := 1
def EDGE_POPUP : Int := 2
def FULLY_FEED_FORWARD : Int := 3
def FREEZE_TRAINING : Int := 4
def ONLY_FF : Int := 6
def ONLY_DROPOUT : Int := 5
def NO_DROPOUT : Int := 0
def NOISY : Int := 1
def STANDARD : Int := 0

/-! ### Batch normalisation -/

/-- The saved part of `bn` (`/repo/src/llab.h` 255-277); `epsilon` and `training_mode`
are only ever set by the constructor, to constants. -/
@[ext] structure Bn (α : Type) where
  batch : Int
  dim : Int
  gamma : List α
  beta : List α
deriving DecidableEq

/-- `batch_normalization` (`/repo/src/batch_norm_layers.c` 35-83). -/
def bnNew [Zero α] [One α] (batch dim : Int) : Option (Bn α) :=
  if batch ≤ 0 ∨ dim < 1 then none
  else some ⟨batch, dim, List.replicate dim.toNat 1, List.replicate dim.toNat 0⟩

/-- `save_bn` (`/repo/src/batch_norm_layers.c` 265-321): the cells appended. -/
def saveBn (b : Bn α) : Option (File α) :=
  (wrFlts b.gamma b.dim.toNat).bind fun g => (wrFlts b.beta b.dim.toNat).bind fun be =>
    some ([.int b.batch, .int b.dim] ++ (g ++ be))

/-- `load_bn` (`/repo/src/batch_norm_layers.c` 330-384). -/
def loadBn [Zero α] [One α] : Read α (Bn α) := do
  let batch ← rdInt
  let dim ← rdInt
  let gamma ← rdFlts dim.toNat
  let beta ← rdFlts dim.toNat
  let b ← Read.lift (bnNew batch dim)
  let g ← Read.lift (copyN gamma b.gamma dim.toNat)
  let be ← Read.lift (copyN beta b.beta dim.toNat)
  return { b with gamma := g, beta := be }

/-- The copy of `gamma` and `beta` in `paste_bn` (`/repo/src/batch_norm_layers.c`
601-618); the derivatives are not modelled. -/
def pasteBn (b1 b2 : Bn α) : Option (Bn α) :=
  (copyN b1.gamma b2.gamma b1.dim.toNat).bind fun g => (copyN b1.beta b2.beta b1.dim.toNat).bind fun be =>
    some { b2 with gamma := g, beta := be }

/-- A batch-normalisation layer as the constructor makes it, with any parameters. -/
structure Bn.WF (b : Bn α) : Prop where
  batch : 0 < b.batch
  dim : 1 ≤ b.dim
  gamma : b.gamma.length = b.dim.toNat
  beta : b.beta.length = b.dim.toNat

theorem bnNew_wf [Zero α] [One α] {batch dim : Int} {b : Bn α} (h : bnNew batch dim = some b) :
    b.WF ∧ b.batch = batch ∧ b.dim = dim := by
  unfold bnNew at h
  split at h
  · simp at h
  · next hc =>
    cases h
    exact ⟨⟨by dsimp; omega, by dsimp; omega, by simp, by simp⟩, rfl, rfl⟩

/-- The cells of a batch-normalisation layer. -/
def bnCells (b : Bn α) : File α := .int b.batch :: .int b.dim :: (b.gamma.map .flt ++ b.beta.map .flt)

theorem saveBn_eq {b : Bn α} (h : b.WF) : saveBn b = some (bnCells b) := by
  have hd := h.dim
  unfold saveBn
  rw [wrFlts_eq h.gamma (by omega), Option.bind_some, wrFlts_eq h.beta (by omega)]
  rfl

theorem loadBn_rd [Zero α] [One α] {b : Bn α} (h : b.WF) : Rd loadBn (bnCells b) b := by
  have hd := h.dim
  have hb := h.batch
  unfold loadBn bnCells
  refine Rd.int (Rd.int (Rd.bind (Rd.flts h.gamma (by omega)) (Rd.bind (w2 := []) (Rd.flts h.beta (by omega)) ?_
    (by simp)) rfl))
  refine Rd.lift (x := ⟨b.batch, b.dim, List.replicate b.dim.toNat 1, List.replicate b.dim.toNat 0⟩)
    (by unfold bnNew; rw [if_neg (by omega)]) ?_
  exact Rd.lift (copyN_eq h.gamma (by simp)) (Rd.lift (copyN_eq h.beta (by simp)) (Rd.pure _))

/-! ### Fully-connected layers -/

/-- The arguments of `fully_connected`. -/
@[ext] structure FclArgs (α : Type) where
  input : Int
  output : Int
  layer : Int
  dropoutFlag : Int
  activationFlag : Int
  dropoutThreshold : α
  nGroups : Int
  normFlag : Int
  trainingMode : Int
  ffFlag : Int
  mode : Int
deriving DecidableEq

/-- The modelled part of `fcl` (`/repo/src/llab.h` 281-332). -/
@[ext] structure Fcl (α : Type) where
  args : FclArgs α
  kPercentage : α
  weights : List α
  biases : List α
  active : List Int
  noisyWeights : List α
  noisyBiases : List α
  scores : List α
  indices : List Int
  layerNorm : Option (Bn α)
deriving DecidableEq

/-- `exists_edge_popup_stuff_fcl` (`/repo/src/fully_connected_layers.c` 664-666), once
`feed_forward_flag` is known not to be `ONLY_DROPOUT`. -/
def FclArgs.edge (a : FclArgs α) : Prop := a.ffFlag ≠ ONLY_DROPOUT ∧ (a.ffFlag = EDGE_POPUP ∨ a.trainingMode = EDGE_POPUP)

instance (a : FclArgs α) : Decidable a.edge := by unfold FclArgs.edge; infer_instance

/-- The conditions under which `fully_connected` does not call `exit(1)`
(`/repo/src/fully_connected_layers.c` 44-102), after the replacement of
`GROUP_NORMALIZATION` by `LAYER_NORMALIZATION` (79-80). -/
def FclArgs.ok [LinearOrder α] [Zero α] [One α] (a : FclArgs α) : Prop :=
  ¬(a.input ≤ 0 ∨ a.output ≤ 0 ∨ a.layer < 0 ∨ a.input * a.output ≤ 0) ∧
  (a.dropoutFlag = 0 ∨ a.dropoutFlag = 1 ∨ a.dropoutFlag = 2) ∧
  (0 ≤ a.activationFlag ∧ a.activationFlag ≤ 6) ∧
  ¬(1 < a.dropoutThreshold ∨ a.dropoutThreshold < 0) ∧
  (a.trainingMode = EDGE_POPUP ∨ a.trainingMode = FREEZE_TRAINING ∨ a.trainingMode = GRADIENT_DESCENT ∨
    a.trainingMode = ONLY_FF) ∧
  (a.ffFlag = FULLY_FEED_FORWARD ∨ a.ffFlag = EDGE_POPUP) ∧
  (a.normFlag = LAYER_NORMALIZATION ∨ a.normFlag = LOCAL_RESPONSE_NORMALIZATION ∨ a.normFlag = NO_NORMALIZATION) ∧
  (a.normFlag = LAYER_NORMALIZATION → ¬(a.nGroups ≤ 0 ∨ a.output ≤ a.nGroups ∨ a.output.tmod a.nGroups ≠ 0)) ∧
  ¬(a.normFlag ≠ NO_NORMALIZATION ∧ a.dropoutFlag ≠ NO_DROPOUT) ∧
  ¬((a.ffFlag = EDGE_POPUP ∨ a.trainingMode = EDGE_POPUP) ∧ a.normFlag = LAYER_NORMALIZATION) ∧
  (a.mode = STANDARD ∨ a.mode = NOISY)

instance [LinearOrder α] [Zero α] [One α] (a : FclArgs α) : Decidable a.ok := by
  unfold FclArgs.ok; infer_instance

/-- `GROUP_NORMALIZATION` becomes `LAYER_NORMALIZATION`
(`/repo/src/fully_connected_layers.c` 79-80). -/
def FclArgs.norm (a : FclArgs α) : FclArgs α :=
  if a.normFlag = GROUP_NORMALIZATION then { a with normFlag := LAYER_NORMALIZATION } else a

/-- `fully_connected` (`/repo/src/fully_connected_layers.c` 43-298). `rnd` are the random
initial weights, `noisy` the initial noisy weights. `none`: `exit(1)`. -/
def fclNew [LinearOrder α] [Zero α] [One α] (rnd noisy : Nat → α) (a0 : FclArgs α) : Option (Fcl α) :=
  let a := a0.norm
  if ¬a.ok then none
  else
    let n := (a.input * a.output).toNat
    let o := a.output.toNat
    let mk := fun ln => Fcl.mk a 1 ((List.range n).map rnd) (List.replicate o 0) (List.replicate o 1)
      (if a.mode = NOISY then (List.range n).map noisy else []) (if a.mode = NOISY then List.replicate o 0 else [])
      (if a.edge then List.replicate n 0 else []) (if a.edge then (List.range n).map Int.ofNat else []) ln
    if a.normFlag = LAYER_NORMALIZATION then
      (bnNew a.nGroups (a.output.tdiv a.nGroups)).bind fun b => some (mk (some b))
    else some (mk none)

/-- `save_fcl` (`/repo/src/fully_connected_layers.c` 820-989): the cells appended. -/
def saveFcl (f : Fcl α) : Option (File α) :=
  let n := (f.args.input * f.args.output).toNat
  let o := f.args.output.toNat
  (if f.args.ffFlag ≠ ONLY_DROPOUT then
    (wrFlts f.weights n).bind fun w => (wrFlts f.biases o).bind fun b => (wrInts f.active o).bind fun a =>
      some (w ++ (b ++ a))
  else some []).bind fun ps =>
    (if f.args.mode = NOISY then
      (wrFlts f.noisyWeights n).bind fun w => (wrFlts f.noisyBiases o).bind fun b => some (w ++ b)
    else some []).bind fun ns =>
      (if f.args.edge then
        (wrFlts f.scores n).bind fun s => (wrInts f.indices n).bind fun i => some (s ++ i)
      else some []).bind fun es =>
        (if f.args.normFlag = LAYER_NORMALIZATION then (f.layerNorm.elim (some []) saveBn) else some []).bind fun bs =>
          some ([.int f.args.mode, .int f.args.nGroups, .int f.args.normFlag, .int f.args.ffFlag,
            .int f.args.trainingMode, .int f.args.input, .int f.args.output, .int f.args.layer,
            .int f.args.dropoutFlag, .int f.args.activationFlag, .flt f.args.dropoutThreshold] ++
            (ps ++ (ns ++ (es ++ bs))))

/-- `load_fcl` (`/repo/src/fully_connected_layers.c` 1021-1208). -/
def loadFcl [LinearOrder α] [Zero α] [One α] (rnd noisy : Nat → α) : Read α (Fcl α) := do
  let mode ← rdInt
  let nGroups ← rdInt
  let normFlag ← rdInt
  let ffFlag ← rdInt
  let trainingMode ← rdInt
  let input ← rdInt
  let output ← rdInt
  let layer ← rdInt
  let dropoutFlag ← rdInt
  let activationFlag ← rdInt
  let dropoutThreshold ← rdFlt
  let n := (input * output).toNat
  let o := output.toNat
  let ps ← (if ffFlag ≠ ONLY_DROPOUT then
      (do let w ← rdFlts n; let b ← rdFlts o; let a ← rdInts o; return (w, b, a))
    else pure ([], [], []) : Read α (List α × List α × List Int))
  let ns ← (if mode = NOISY then (do let w ← rdFlts n; let b ← rdFlts o; return (w, b))
    else pure ([], []) : Read α (List α × List α))
  let es ← (if ffFlag ≠ ONLY_DROPOUT ∧ (ffFlag = EDGE_POPUP ∨ trainingMode = EDGE_POPUP) then
      (do let s ← rdFlts n; let i ← rdInts n; return (s, i))
    else pure ([], []) : Read α (List α × List Int))
  let f ← Read.lift (fclNew rnd noisy ⟨input, output, layer, dropoutFlag, activationFlag, dropoutThreshold,
    nGroups, normFlag, trainingMode, ffFlag, mode⟩)
  let weights ← Read.lift (if f.args.ffFlag ≠ ONLY_DROPOUT then copyN ps.1 f.weights n else some f.weights)
  let biases ← Read.lift (if f.args.ffFlag ≠ ONLY_DROPOUT then copyN ps.2.1 f.biases o else some f.biases)
  let nw ← Read.lift (if f.args.mode = NOISY then copyN ns.1 f.noisyWeights n else some f.noisyWeights)
  let nb ← Read.lift (if f.args.mode = NOISY then copyN ns.2 f.noisyBiases o else some f.noisyBiases)
  let scores ← Read.lift (if f.args.edge then copyN es.1 f.scores n else some f.scores)
  let indices ← Read.lift (if f.args.edge then copyN es.2 f.indices n else some f.indices)
  let active ← Read.lift (if f.args.ffFlag ≠ ONLY_DROPOUT then copyN ps.2.2 f.active o else some f.active)
  let ln ← (if normFlag = LAYER_NORMALIZATION then
      (do let b ← loadBn
          let l ← Read.lift (f.layerNorm.elim (some none) fun b2 => (pasteBn b b2).map some)
          return l)
    else pure f.layerNorm : Read α (Option (Bn α)))
  return { f with weights := weights, biases := biases, noisyWeights := nw, noisyBiases := nb, scores := scores,
                  indices := indices, active := active, layerNorm := ln }

/-- A fully-connected layer as the constructor makes it, with any contents of its arrays
and any `k_percentage`: what training can turn it into. -/
structure Fcl.WF [LinearOrder α] [Zero α] [One α] (f : Fcl α) : Prop where
  ok : f.args.ok
  weights : f.weights.length = (f.args.input * f.args.output).toNat
  biases : f.biases.length = f.args.output.toNat
  active : f.active.length = f.args.output.toNat
  noisyWeights : f.noisyWeights.length = if f.args.mode = NOISY then (f.args.input * f.args.output).toNat else 0
  noisyBiases : f.noisyBiases.length = if f.args.mode = NOISY then f.args.output.toNat else 0
  scores : f.scores.length = if f.args.edge then (f.args.input * f.args.output).toNat else 0
  indices : f.indices.length = if f.args.edge then (f.args.input * f.args.output).toNat else 0
  norm : f.args.normFlag = LAYER_NORMALIZATION →
    ∃ b, f.layerNorm = some b ∧ b.WF ∧ b.batch = f.args.nGroups ∧ b.dim = f.args.output.tdiv f.args.nGroups
  noNorm : f.args.normFlag ≠ LAYER_NORMALIZATION → f.layerNorm = none

section
variable [LinearOrder α] [Zero α] [One α]

theorem FclArgs.ok.normFlag {a : FclArgs α} (h : a.ok) : a.norm = a := by
  obtain ⟨-, -, -, -, -, -, h, -⟩ := h
  unfold FclArgs.norm
  rw [if_neg]
  intro e
  rw [e] at h
  simp [GROUP_NORMALIZATION, LAYER_NORMALIZATION, LOCAL_RESPONSE_NORMALIZATION, NO_NORMALIZATION] at h

/-- The constructor makes a well-formed layer. -/
theorem fclNew_wf {rnd noisy : Nat → α} {a : FclArgs α} {f : Fcl α} (h : fclNew rnd noisy a = some f) :
    f.WF ∧ f.args = a.norm ∧ f.kPercentage = 1 := by
  unfold fclNew at h
  dsimp only at h
  split at h
  · simp at h
  · next hok =>
    have hok := not_not.mp hok
    split at h
    · next hn =>
      cases hb : bnNew (α := α) a.norm.nGroups (a.norm.output.tdiv a.norm.nGroups) with
      | none => rw [hb] at h; simp at h
      | some b =>
        rw [hb, Option.bind_some] at h
        cases h
        obtain ⟨h1, h2, h3⟩ := bnNew_wf hb
        refine ⟨⟨hok, by simp, by simp, by simp, ?_, ?_, ?_, ?_, fun _ => ⟨b, rfl, h1, h2, h3⟩, fun e => absurd hn e⟩,
          rfl, rfl⟩ <;> dsimp only <;> split <;> simp
    · next hn =>
      cases h
      refine ⟨⟨hok, by simp, by simp, by simp, ?_, ?_, ?_, ?_, fun e => absurd e hn, fun _ => rfl⟩,
          rfl, rfl⟩ <;> dsimp only <;> split <;> simp

/-- Given the arguments of a well-formed layer the constructor succeeds. -/
theorem fclNew_some (rnd noisy : Nat → α) {f : Fcl α} (h : f.WF) : ∃ g, fclNew rnd noisy f.args = some g := by
  unfold fclNew
  dsimp only
  rw [h.ok.normFlag, if_neg (not_not.mpr h.ok)]
  split
  · next hn =>
    obtain ⟨b, -, hb, h1, h2⟩ := h.norm hn
    have h3 := hb.batch
    have h4 := hb.dim
    unfold bnNew
    rw [if_neg (by rw [← h2, ← h1]; omega)]
    exact ⟨_, rfl⟩
  · exact ⟨_, rfl⟩

/-- The cells of a fully-connected layer. -/
def fclCells (f : Fcl α) : File α :=
  .int f.args.mode :: .int f.args.nGroups :: .int f.args.normFlag :: .int f.args.ffFlag :: .int f.args.trainingMode ::
    .int f.args.input :: .int f.args.output :: .int f.args.layer :: .int f.args.dropoutFlag ::
    .int f.args.activationFlag :: .flt f.args.dropoutThreshold ::
  ((f.weights.map .flt ++ (f.biases.map .flt ++ f.active.map .int)) ++
    ((if f.args.mode = NOISY then f.noisyWeights.map .flt ++ f.noisyBiases.map .flt else []) ++
      ((if f.args.edge then f.scores.map .flt ++ f.indices.map .int else []) ++
        (if f.args.normFlag = LAYER_NORMALIZATION then f.layerNorm.elim [] bnCells else []))))

theorem Fcl.WF.pos {f : Fcl α} (h : f.WF) :
    (f.args.input * f.args.output).toNat ≠ 0 ∧ f.args.output.toNat ≠ 0 ∧ f.args.ffFlag ≠ ONLY_DROPOUT := by
  obtain ⟨h1, -, -, -, -, h2, -⟩ := h.ok
  refine ⟨by omega, by omega, ?_⟩
  rcases h2 with e | e <;> rw [e] <;> decide

theorem saveFcl_eq {f : Fcl α} (h : f.WF) : saveFcl f = some (fclCells f) := by
  obtain ⟨p1, p2, p3⟩ := h.pos
  unfold saveFcl fclCells
  dsimp only
  rw [if_pos p3, wrFlts_eq h.weights p1, Option.bind_some, wrFlts_eq h.biases p2, Option.bind_some,
    wrInts_eq h.active p2, Option.bind_some, Option.bind_some]
  have e1 : (if f.args.mode = NOISY then
      (wrFlts f.noisyWeights (f.args.input * f.args.output).toNat).bind fun w =>
        (wrFlts f.noisyBiases f.args.output.toNat).bind fun b => some (w ++ b)
      else some []) = some (if f.args.mode = NOISY then f.noisyWeights.map .flt ++ f.noisyBiases.map .flt else []) := by
    have n1 := h.noisyWeights
    have n2 := h.noisyBiases
    split
    · next c =>
      rw [if_pos c] at n1 n2
      rw [wrFlts_eq n1 p1, Option.bind_some, wrFlts_eq n2 p2]
      rfl
    · rfl
  have e2 : (if f.args.edge then
        (wrFlts f.scores (f.args.input * f.args.output).toNat).bind fun s =>
          (wrInts f.indices (f.args.input * f.args.output).toNat).bind fun i => some (s ++ i)
      else some []) = some (if f.args.edge then f.scores.map .flt ++ f.indices.map .int else []) := by
    have n1 := h.scores
    have n2 := h.indices
    split
    · next c =>
      rw [if_pos c] at n1 n2
      rw [wrFlts_eq n1 p1, Option.bind_some, wrInts_eq n2 p1]
      rfl
    · rfl
  have e3 : (if f.args.normFlag = LAYER_NORMALIZATION then (f.layerNorm.elim (some []) saveBn) else some []) =
      some (if f.args.normFlag = LAYER_NORMALIZATION then f.layerNorm.elim [] bnCells else []) := by
    split
    · next c =>
      obtain ⟨b, e, hb, -⟩ := h.norm c
      rw [e]
      exact saveBn_eq hb
    · rfl
  rw [e1, Option.bind_some, e2, Option.bind_some, e3, Option.bind_some]
  rfl

/-- Loading reads back the layer, with `k_percentage` set to 1. -/
theorem loadFcl_rd (rnd noisy : Nat → α) {f : Fcl α} (h : f.WF) :
    Rd (loadFcl rnd noisy) (fclCells f) { f with kPercentage := 1 } := by
  obtain ⟨p1, p2, p3⟩ := h.pos
  obtain ⟨g, hg⟩ := fclNew_some rnd noisy h
  obtain ⟨w, ha, hk⟩ := fclNew_wf hg
  rw [h.ok.normFlag] at ha
  unfold loadFcl fclCells
  refine Rd.int (Rd.int (Rd.int (Rd.int (Rd.int (Rd.int (Rd.int (Rd.int (Rd.int (Rd.int (Rd.flt ?_))))))))))
  dsimp only
  refine Rd.bind (x := (f.weights, f.biases, f.active)) ?_ ?_ rfl
  · rw [if_pos p3]
    exact Rd.bind (Rd.flts h.weights p1) (Rd.bind (Rd.flts h.biases p2)
      (Rd.bind (w2 := []) (Rd.ints h.active p2) (Rd.pure _) (by simp)) rfl) rfl
  refine Rd.bind (x := (f.noisyWeights, f.noisyBiases)) ?_ ?_ rfl
  · have n1 := h.noisyWeights
    have n2 := h.noisyBiases
    refine Rd.ite (fun c => ?_) (fun c => ?_)
    · rw [if_pos c] at n1 n2
      exact Rd.bind (Rd.flts n1 p1) (Rd.bind (w2 := []) (Rd.flts n2 p2) (Rd.pure _) (by simp)) rfl
    · rw [if_neg c] at n1 n2
      rw [List.length_eq_zero_iff.mp n1, List.length_eq_zero_iff.mp n2]
      exact Rd.pure _
  refine Rd.bind (x := (f.scores, f.indices)) ?_ ?_ rfl
  · have n1 := h.scores
    have n2 := h.indices
    refine Rd.ite (c := f.args.edge) (fun c => ?_) (fun c => ?_)
    · rw [if_pos c] at n1 n2
      exact Rd.bind (Rd.flts n1 p1) (Rd.bind (w2 := []) (Rd.ints n2 p1) (Rd.pure _) (by simp)) rfl
    · rw [if_neg c] at n1 n2
      rw [List.length_eq_zero_iff.mp n1, List.length_eq_zero_iff.mp n2]
      exact Rd.pure _
  have w1 := w.weights
  have w2 := w.biases
  have w3 := w.active
  have w4 := w.noisyWeights
  have w5 := w.noisyBiases
  have w6 := w.scores
  have w7 := w.indices
  have v4 := h.noisyWeights
  have v5 := h.noisyBiases
  have v6 := h.scores
  have v7 := h.indices
  rw [ha] at w1 w2 w3 w4 w5 w6 w7
  refine Rd.lift hg ?_
  rw [ha]
  refine Rd.lift (x := f.weights) (by rw [if_pos p3]; exact copyN_eq h.weights w1) ?_
  refine Rd.lift (x := f.biases) (by rw [if_pos p3]; exact copyN_eq h.biases w2) ?_
  refine Rd.lift (x := f.noisyWeights) ?_ ?_
  · split
    · next c => rw [if_pos c] at w4 v4; exact copyN_eq v4 w4
    · next c => rw [if_neg c] at w4 v4; rw [List.length_eq_zero_iff.mp w4, List.length_eq_zero_iff.mp v4]
  refine Rd.lift (x := f.noisyBiases) ?_ ?_
  · split
    · next c => rw [if_pos c] at w5 v5; exact copyN_eq v5 w5
    · next c => rw [if_neg c] at w5 v5; rw [List.length_eq_zero_iff.mp w5, List.length_eq_zero_iff.mp v5]
  refine Rd.lift (x := f.scores) ?_ ?_
  · split
    · next c => rw [if_pos c] at w6 v6; exact copyN_eq v6 w6
    · next c => rw [if_neg c] at w6 v6; rw [List.length_eq_zero_iff.mp w6, List.length_eq_zero_iff.mp v6]
  refine Rd.lift (x := f.indices) ?_ ?_
  · split
    · next c => rw [if_pos c] at w7 v7; exact copyN_eq v7 w7
    · next c => rw [if_neg c] at w7 v7; rw [List.length_eq_zero_iff.mp w7, List.length_eq_zero_iff.mp v7]
  refine Rd.lift (x := f.active) (by rw [if_pos p3]; exact copyN_eq h.active w3) ?_
  refine Rd.last (x := f.layerNorm) ?_ ?_
  · refine Rd.ite (fun c => ?_) (fun c => ?_)
    · obtain ⟨b, e, hb, q1, q2⟩ := h.norm c
      obtain ⟨b', e', hb', q1', q2'⟩ := w.norm (by rw [ha]; exact c)
      rw [ha] at q1' q2'
      rw [e, e']
      refine Rd.last (loadBn_rd hb) (Rd.lift' ?_)
      show (pasteBn b b').map some = some (some b)
      unfold pasteBn
      have g1 := hb'.gamma
      have g2 := hb'.beta
      rw [copyN_eq hb.gamma (by rw [g1, q2', q2]), Option.bind_some, copyN_eq hb.beta (by rw [g2, q2', q2])]
      show some (some (Bn.mk b'.batch b'.dim b.gamma b.beta)) = _
      rw [q1', q2', ← q2, ← q1]
    · rw [h.noNorm c, w.noNorm (by rw [ha]; exact c)]
      exact Rd.pure _
  · rw [hk]
    exact Rd.pure _

end

/-! ### Scaled L2 normalisation -/

/-- The saved part of `scaled_l2_norm` (`/repo/src/llab.h` 485-496). -/
@[ext] structure L2 (α : Type) where
  dim : Int
  trainingMode : Int
  g : α
deriving DecidableEq

/-- `scaled_l2_normalization_layer` (`/repo/src/scaled_l2_norm_layers.c` 34-53); `root`
is the square root. -/
def l2New (root : Int → α) (dim : Int) : Option (L2 α) :=
  if dim ≤ 0 then none else some ⟨dim, GRADIENT_DESCENT, root dim⟩

/-- `save_scaled_l2_norm` (`/repo/src/scaled_l2_norm_layers.c` 77-121). -/
def saveL2 (l : L2 α) : Option (File α) := some [.int l.dim, .int l.trainingMode, .flt l.g]

/-- `load_scaled_l2_norm` (`/repo/src/scaled_l2_norm_layers.c` 130-161). -/
def loadL2 (root : Int → α) : Read α (L2 α) := do
  let dim ← rdInt
  let tm ← rdInt
  let g ← rdFlt
  let l ← Read.lift (l2New root dim)
  return { l with g := g, trainingMode := tm }

theorem loadL2_rd (root : Int → α) {l : L2 α} (h : 0 < l.dim) :
    ∃ w, saveL2 l = some w ∧ Rd (loadL2 root) w l := by
  refine ⟨_, rfl, ?_⟩
  unfold loadL2
  refine Rd.int (Rd.int (Rd.flt (Rd.lift (x := ⟨l.dim, GRADIENT_DESCENT, root l.dim⟩) ?_ (Rd.pure _))))
  unfold l2New
  rw [if_neg (by omega)]

/-! ### Vectors -/

/-- The saved part of `vector_struct` (`/repo/src/llab.h` 703-707); `v = none` is `NULL`. -/
@[ext] structure Vec (α : Type) where
  inputSize : Int
  vSize : Int
  outputSize : Int
  action : Int
  activationFlag : Int
  dropoutFlag : Int
  index : Int
  dropoutThreshold : α
  v : Option (List α)
deriving DecidableEq

/-- The flag and the array written last by `save_vector` (`/repo/src/vector.c` 167-192). -/
def vecTail (v : Option (List α)) (n : Nat) : Option (File α) :=
  match v with
  | none => some [.int 1]
  | some v => (wrFlts v n).bind fun w => some (.int 0 :: w)

/-- `save_vector` (`/repo/src/vector.c` 102-207). -/
def saveVec (x : Vec α) : Option (File α) :=
  (vecTail x.v x.vSize.toNat).bind fun t =>
    some (.int x.inputSize :: .int x.vSize :: .int x.outputSize :: .int x.action :: .int x.activationFlag ::
      .int x.dropoutFlag :: .int x.index :: .flt x.dropoutThreshold :: t)

/-- `load_vector` (`/repo/src/vector.c` 209-282): the array is read into a local variable
that hides the one passed to `create_vector`, which stays `NULL`. -/
def loadVec : Read α (Vec α) := do
  let inputSize ← rdInt
  let vSize ← rdInt
  let outputSize ← rdInt
  let action ← rdInt
  let activationFlag ← rdInt
  let dropoutFlag ← rdInt
  let index ← rdInt
  let dropoutThreshold ← rdFlt
  let isNull ← rdInt
  let _ ← (if isNull = 0 then rdFlts vSize.toNat else pure [] : Read α (List α))
  return ⟨inputSize, vSize, outputSize, action, activationFlag, dropoutFlag, index, dropoutThreshold, none⟩

theorem loadVec_rd {x : Vec α} (h : ∀ v, x.v = some v → v.length = x.vSize.toNat ∧ v ≠ []) :
    ∃ w, saveVec x = some w ∧ Rd loadVec w { x with v := none } := by
  unfold saveVec vecTail
  cases hv : x.v with
  | none =>
    refine ⟨_, rfl, ?_⟩
    unfold loadVec
    exact Rd.int (Rd.int (Rd.int (Rd.int (Rd.int (Rd.int (Rd.int (Rd.flt (Rd.int (Rd.last (Rd.pure _) (Rd.pure _))))))))))
  | some v =>
    obtain ⟨h1, h2⟩ := h v hv
    have h3 : x.vSize.toNat ≠ 0 := by
      rw [← h1]
      exact fun e => h2 (List.length_eq_zero_iff.mp e)
    dsimp only
    rw [wrFlts_eq h1 h3]
    refine ⟨_, rfl, ?_⟩
    unfold loadVec
    exact Rd.int (Rd.int (Rd.int (Rd.int (Rd.int (Rd.int (Rd.int (Rd.flt (Rd.int
      (Rd.last (Rd.flts h1 h3) (Rd.pure _))))))))))

end LLab.Save
