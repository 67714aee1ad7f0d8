import Verif.Save.Fcl

/-!
Saving and loading convolutional and residual layers
(`/repo/src/convolutional_layers.c`, `/repo/src/residual_layers.c`). Property C45.
-/

namespace LLab.Save

variable {α : Type}

/-! ### Constants (`/repo/src/llab.h` 78-89, 118-120) -/

def NO_CONVOLUTION : Int := 1
def CONVOLUTION : Int := 2
def TRANSPOSED_CONVOLUTION : Int := 3
def NO_POOLING : Int := 0
def MAX_POOLING : Int := 1
def AVERAGE_POOLING : Int := 2
def SOFTMAX : Int := 3
def RELU : Int := 2

/-- The arguments of `convolutional`. -/
@[ext] structure ClArgs where
  channels : Int
  inputRows : Int
  inputCols : Int
  kernelRows : Int
  kernelCols : Int
  nKernels : Int
  stride1Rows : Int
  stride1Cols : Int
  padding1Rows : Int
  padding1Cols : Int
  stride2Rows : Int
  stride2Cols : Int
  padding2Rows : Int
  padding2Cols : Int
  poolingRows : Int
  poolingCols : Int
  normFlag : Int
  activationFlag : Int
  poolingFlag : Int
  groupNormChannels : Int
  convFlag : Int
  trainingMode : Int
  ffFlag : Int
  layer : Int
deriving DecidableEq

/-- The modelled part of `cl` (`/repo/src/llab.h` 334-382). -/
@[ext] structure Cl (α : Type) where
  args : ClArgs
  kPercentage : α
  rows1 : Int
  cols1 : Int
  rows2 : Int
  cols2 : Int
  kernels : List (List α)
  biases : List α
  scores : List α
  indices : List Int
  usedKernels : List Int
  groupNorm : List (Bn α)
deriving DecidableEq

namespace ClArgs

/-- Output rows or columns of the convolution
(`/repo/src/convolutional_layers.c` 237-250, 263-276). -/
def dim1 (a : ClArgs) (input kernel stride padding : Int) : Int :=
  if a.convFlag = TRANSPOSED_CONVOLUTION then (input - 1) * stride + kernel - 2 * padding
  else (input - kernel).tdiv stride + 1 + 2 * padding

/-- Output rows or columns of the pooling (`/repo/src/convolutional_layers.c` 251-262,
277-288). -/
def dim2 (a : ClArgs) (input d1 pooling stride padding : Int) : Int :=
  if a.convFlag = NO_CONVOLUTION then (input - pooling).tdiv stride + 1 + 2 * padding
  else (d1 - pooling).tdiv stride + 1 + 2 * padding

def rows1 (a : ClArgs) : Int := a.dim1 a.inputRows a.kernelRows a.stride1Rows a.padding1Rows
def cols1 (a : ClArgs) : Int := a.dim1 a.inputCols a.kernelCols a.stride1Cols a.padding1Cols
def rows2 (a : ClArgs) : Int := a.dim2 a.inputRows a.rows1 a.poolingRows a.stride2Rows a.padding2Rows
def cols2 (a : ClArgs) : Int := a.dim2 a.inputCols a.cols1 a.poolingCols a.stride2Cols a.padding2Cols

/-- The conditions under which `convolutional` neither calls `exit(1)` nor divides by zero
(`/repo/src/convolutional_layers.c` 59-157, and the divisions by `stride2` at 251-288 and
by `group_norm_channels` at 88 and 367). -/
def ok (a : ClArgs) : Prop :=
  ¬(a.groupNormChannels < 0 ∨ a.groupNormChannels > a.nKernels ∨ a.channels ≤ 0 ∨ a.inputRows ≤ 0 ∨
    a.inputCols ≤ 0 ∨ a.kernelRows ≤ 0 ∨ a.kernelCols ≤ 0 ∨ a.nKernels ≤ 0 ∨ a.stride1Rows ≤ 0 ∨ a.stride1Cols ≤ 0 ∨
    (a.poolingFlag ≠ 0 ∧ (a.stride2Rows ≤ 0 ∨ a.stride2Cols ≤ 0))) ∧
  ¬(a.padding1Rows ≠ a.padding1Cols ∨ a.padding2Rows ≠ a.padding2Cols) ∧
  ¬(a.padding1Rows ≠ 0 ∧ a.normFlag = BATCH_NORMALIZATION) ∧
  ¬(a.convFlag = NO_CONVOLUTION ∧ a.poolingFlag = NO_POOLING) ∧
  ¬(a.convFlag = NO_CONVOLUTION ∧ a.nKernels ≠ a.channels) ∧
  (a.convFlag ≠ NO_CONVOLUTION ∧ a.normFlag = GROUP_NORMALIZATION →
    a.groupNormChannels ≠ 0 ∧ a.nKernels.tmod a.groupNormChannels = 0) ∧
  ¬(a.convFlag = NO_CONVOLUTION ∧ a.normFlag ≠ 0) ∧
  (a.convFlag = CONVOLUTION →
    (a.inputRows - a.kernelRows).tmod a.stride1Rows = 0 ∧ (a.inputCols - a.kernelCols).tmod a.stride1Cols = 0 ∧
    (a.poolingFlag = MAX_POOLING ∨ a.poolingFlag = AVERAGE_POOLING →
      (a.rows1 - a.poolingRows).tmod a.stride2Rows = 0 ∧ (a.cols1 - a.poolingCols).tmod a.stride2Cols = 0)) ∧
  (a.convFlag = TRANSPOSED_CONVOLUTION → ¬(a.rows1 ≤ 0)) ∧
  (a.convFlag = NO_CONVOLUTION →
    (a.inputRows - a.poolingRows).tmod a.stride2Rows = 0 ∧ (a.inputCols - a.poolingCols).tmod a.stride2Cols = 0) ∧
  (a.normFlag = NO_NORMALIZATION ∨ a.normFlag = GROUP_NORMALIZATION ∨ a.normFlag = LOCAL_RESPONSE_NORMALIZATION) ∧
  (a.convFlag = NO_CONVOLUTION ∨ a.convFlag = CONVOLUTION ∨ a.convFlag = TRANSPOSED_CONVOLUTION) ∧
  (0 ≤ a.activationFlag ∧ a.activationFlag ≤ 6 ∧ a.activationFlag ≠ SOFTMAX) ∧
  (a.trainingMode = EDGE_POPUP ∨ a.trainingMode = FREEZE_TRAINING ∨ a.trainingMode = GRADIENT_DESCENT ∨
    a.trainingMode = ONLY_FF) ∧
  (a.ffFlag = FULLY_FEED_FORWARD ∨ a.ffFlag = EDGE_POPUP) ∧
  ¬((a.ffFlag = EDGE_POPUP ∨ a.trainingMode = EDGE_POPUP) ∧ a.normFlag = GROUP_NORMALIZATION) ∧
  (a.stride2Rows ≠ 0 ∧ a.stride2Cols ≠ 0)

set_option synthInstance.maxSize 2000 in
set_option synthInstance.maxHeartbeats 200000 in
instance (a : ClArgs) : Decidable a.ok := by unfold ok; infer_instance

/-- Without group normalisation `group_norm_channels` is set to 0
(`/repo/src/convolutional_layers.c` 361-364). -/
def norm (a : ClArgs) : ClArgs := if a.normFlag = GROUP_NORMALIZATION then a else { a with groupNormChannels := 0 }

/-- `exists_edge_popup_stuff_cl` (`/repo/src/convolutional_layers.c` 943-945). -/
def edge (a : ClArgs) : Prop := a.convFlag ≠ NO_CONVOLUTION ∧ (a.ffFlag = EDGE_POPUP ∨ a.trainingMode = EDGE_POPUP)

instance (a : ClArgs) : Decidable a.edge := by unfold edge; infer_instance

/-- `channels*kernel_rows*kernel_cols` -/
def kernelSize (a : ClArgs) : Nat := (a.channels * a.kernelRows * a.kernelCols).toNat

/-- `n_kernels*channels*kernel_rows*kernel_cols` -/
def totalSize (a : ClArgs) : Nat := (a.nKernels * a.channels * a.kernelRows * a.kernelCols).toNat

/-- The size of the vectors of a group-normalisation layer
(`/repo/src/convolutional_layers.c` 369-372). -/
def normDim (a : ClArgs) : Int :=
  if a.convFlag = TRANSPOSED_CONVOLUTION then a.rows1 * a.cols1
  else a.rows1 * a.cols1 - 2 * a.padding1Rows - 2 * a.padding1Cols

/-- The number of group-normalisation layers. -/
def nNorm (a : ClArgs) : Nat := (a.nKernels.tdiv a.groupNormChannels).toNat

end ClArgs

/-- `convolutional` (`/repo/src/convolutional_layers.c` 58-377); `rnd` are the random
initial weights. The scores are always allocated together with the indices, which are
initialised only when `training_mode` is not one of the modes with derivatives (346).
`none`: `exit(1)` or division by zero. -/
def clNew [Zero α] [One α] (rnd : Nat → α) (a : ClArgs) : Option (Cl α) :=
  if ¬a.ok then none
  else
    let mk := fun gn => Cl.mk a.norm 1 a.rows1 a.cols1 a.rows2 a.cols2
      (if a.convFlag ≠ NO_CONVOLUTION then
        (List.range a.nKernels.toNat).map fun i => (List.range a.kernelSize).map fun j => rnd (i * a.kernelSize + j)
      else [])
      (if a.convFlag ≠ NO_CONVOLUTION then List.replicate a.nKernels.toNat 0 else [])
      (if a.edge then List.replicate a.totalSize 0 else [])
      (if a.edge then
        if a.trainingMode = EDGE_POPUP then (List.range a.totalSize).map Int.ofNat else List.replicate a.totalSize 0
      else [])
      (List.replicate a.nKernels.toNat 1) gn
    if a.normFlag = GROUP_NORMALIZATION then
      (bnNew a.groupNormChannels a.normDim).bind fun b => some (mk (List.replicate a.nNorm b))
    else some (mk [])

/-- `save_cl` (`/repo/src/convolutional_layers.c` 1114-1403): the cells appended. -/
def saveCl (f : Cl α) : Option (File α) :=
  let a := f.args
  (if a.convFlag ≠ NO_CONVOLUTION then
    if f.kernels.length < a.nKernels.toNat then none
    else ((f.kernels.take a.nKernels.toNat).mapM fun k => wrFlts k a.kernelSize).bind fun l => some l.flatten
  else some []).bind fun ks =>
    (if a.convFlag ≠ NO_CONVOLUTION then wrFlts f.biases a.nKernels.toNat else some []).bind fun bs =>
      (if a.edge then
        (wrFlts f.scores a.totalSize).bind fun s => (wrInts f.indices a.totalSize).bind fun i => some (s ++ i)
      else some []).bind fun es =>
        (wrInts f.usedKernels a.nKernels.toNat).bind fun us =>
          (if a.normFlag = GROUP_NORMALIZATION then
            if f.groupNorm.length < a.nNorm then none
            else ((f.groupNorm.take a.nNorm).mapM saveBn).bind fun l => some l.flatten
          else some []).bind fun gs =>
            some (.flt f.kPercentage :: .int a.ffFlag :: .int a.trainingMode :: .int a.groupNormChannels ::
              .int a.convFlag :: .int a.channels :: .int a.inputRows :: .int a.inputCols :: .int a.layer ::
              .int a.kernelRows :: .int a.kernelCols :: .int a.nKernels :: .int a.stride1Rows :: .int a.stride1Cols ::
              .int a.padding1Rows :: .int a.padding1Cols :: .int a.stride2Rows :: .int a.stride2Cols ::
              .int a.padding2Rows :: .int a.padding2Cols :: .int a.poolingRows :: .int a.poolingCols ::
              .int a.normFlag :: .int a.activationFlag :: .int a.poolingFlag :: .int f.rows1 :: .int f.cols1 ::
              .int f.rows2 :: .int f.cols2 :: (ks ++ (bs ++ (es ++ (us ++ gs)))))

/-- Copy a kernel into every kernel of the layer (`/repo/src/convolutional_layers.c`
1414-1416). -/
def copyKernels (n size : Nat) (src dst : List (List α)) : Option (List (List α)) :=
  if src.length < n ∨ dst.length < n then none
  else ((src.zip dst).take n).mapM (fun p => copyN p.1 p.2 size) |>.map fun l => l ++ dst.drop n

/-- `load_cl` (`/repo/src/convolutional_layers.c` 1432-1757). -/
def loadCl [Zero α] [One α] (rnd : Nat → α) : Read α (Cl α) := do
  let kPercentage ← rdFlt
  let ffFlag ← rdInt
  let trainingMode ← rdInt
  let groupNormChannels ← rdInt
  let convFlag ← rdInt
  let channels ← rdInt
  let inputRows ← rdInt
  let inputCols ← rdInt
  let layer ← rdInt
  let kernelRows ← rdInt
  let kernelCols ← rdInt
  let nKernels ← rdInt
  let stride1Rows ← rdInt
  let stride1Cols ← rdInt
  let padding1Rows ← rdInt
  let padding1Cols ← rdInt
  let stride2Rows ← rdInt
  let stride2Cols ← rdInt
  let padding2Rows ← rdInt
  let padding2Cols ← rdInt
  let poolingRows ← rdInt
  let poolingCols ← rdInt
  let normFlag ← rdInt
  let activationFlag ← rdInt
  let poolingFlag ← rdInt
  let _rows1 ← rdInt
  let _cols1 ← rdInt
  let _rows2 ← rdInt
  let _cols2 ← rdInt
  let a : ClArgs := ⟨channels, inputRows, inputCols, kernelRows, kernelCols, nKernels, stride1Rows, stride1Cols,
    padding1Rows, padding1Cols, stride2Rows, stride2Cols, padding2Rows, padding2Cols, poolingRows, poolingCols,
    normFlag, activationFlag, poolingFlag, groupNormChannels, convFlag, trainingMode, ffFlag, layer⟩
  let ks ← (if convFlag ≠ NO_CONVOLUTION then rdMany (rdFlts a.kernelSize) nKernels.toNat
    else pure [] : Read α (List (List α)))
  let bs ← (if convFlag ≠ NO_CONVOLUTION then rdFlts nKernels.toNat else pure [] : Read α (List α))
  let es ← (if convFlag ≠ NO_CONVOLUTION ∧ (ffFlag = EDGE_POPUP ∨ trainingMode = EDGE_POPUP) then
      (do let s ← rdFlts a.totalSize; let i ← rdInts a.totalSize; return (s, i))
    else pure ([], []) : Read α (List α × List Int))
  let us ← rdInts nKernels.toNat
  let gs ← (if normFlag = GROUP_NORMALIZATION then rdMany loadBn a.nNorm else pure [] : Read α (List (Bn α)))
  let f ← Read.lift (clNew rnd a)
  let kernels ← Read.lift (if convFlag ≠ NO_CONVOLUTION then copyKernels nKernels.toNat a.kernelSize ks f.kernels
    else some f.kernels)
  let biases ← Read.lift (if convFlag ≠ NO_CONVOLUTION then copyN bs f.biases nKernels.toNat else some f.biases)
  let scores ← Read.lift (if a.edge then copyN es.1 f.scores a.totalSize else some f.scores)
  let indices ← Read.lift (if a.edge then copyN es.2 f.indices a.totalSize else some f.indices)
  let used ← Read.lift (copyN us f.usedKernels nKernels.toNat)
  return { f with kernels := kernels, biases := biases, scores := scores, indices := indices, usedKernels := used,
                  groupNorm := if normFlag = GROUP_NORMALIZATION then gs else f.groupNorm, kPercentage := kPercentage }

/-- A convolutional layer as the constructor makes it, with any contents of its arrays
and any `k_percentage`. -/
structure Cl.WF (f : Cl α) : Prop where
  ok : f.args.ok
  norm : f.args.normFlag ≠ GROUP_NORMALIZATION → f.args.groupNormChannels = 0
  rows1 : f.rows1 = f.args.rows1
  cols1 : f.cols1 = f.args.cols1
  rows2 : f.rows2 = f.args.rows2
  cols2 : f.cols2 = f.args.cols2
  kernels : f.kernels.length = if f.args.convFlag ≠ NO_CONVOLUTION then f.args.nKernels.toNat else 0
  kernel : ∀ k ∈ f.kernels, k.length = f.args.kernelSize
  biases : f.biases.length = if f.args.convFlag ≠ NO_CONVOLUTION then f.args.nKernels.toNat else 0
  scores : f.scores.length = if f.args.edge then f.args.totalSize else 0
  indices : f.indices.length = if f.args.edge then f.args.totalSize else 0
  used : f.usedKernels.length = f.args.nKernels.toNat
  groups : f.groupNorm.length = if f.args.normFlag = GROUP_NORMALIZATION then f.args.nNorm else 0
  group : ∀ b ∈ f.groupNorm, b.WF ∧ b.batch = f.args.groupNormChannels ∧ b.dim = f.args.normDim
  normOk : f.args.normFlag = GROUP_NORMALIZATION → 0 < f.args.groupNormChannels ∧ 1 ≤ f.args.normDim

theorem ClArgs.norm_eq {a : ClArgs} (h : a.normFlag ≠ GROUP_NORMALIZATION → a.groupNormChannels = 0) : a.norm = a := by
  unfold ClArgs.norm
  split
  · rfl
  · next c => rw [← h c]

theorem ClArgs.ok.norm {a : ClArgs} (h : a.ok) : a.norm.ok := by
  unfold ClArgs.norm
  split
  · exact h
  · next c =>
    obtain ⟨h1, h2, h3, h4, h5, h6, h7, h8, h9, h10, h11, h12, h13, h14, h15, h16, h17⟩ := h
    have h1' : ¬((0 : Int) < 0 ∨ 0 > a.nKernels ∨ a.channels ≤ 0 ∨ a.inputRows ≤ 0 ∨
        a.inputCols ≤ 0 ∨ a.kernelRows ≤ 0 ∨ a.kernelCols ≤ 0 ∨ a.nKernels ≤ 0 ∨ a.stride1Rows ≤ 0 ∨ a.stride1Cols ≤ 0 ∨
        (a.poolingFlag ≠ 0 ∧ (a.stride2Rows ≤ 0 ∨ a.stride2Cols ≤ 0))) := by
      clear h2 h3 h4 h5 h6 h7 h8 h9 h10 h11 h12 h13 h14 h15 h16 h17
      omega
    exact ⟨h1', h2, h3, h4, h5, fun e => absurd e.2 c, h7, h8, h9, h10, h11, h12, h13, h14, h15, h16, h17⟩

theorem ClArgs.norm_norm (a : ClArgs) (h : a.norm.normFlag ≠ GROUP_NORMALIZATION) : a.norm.groupNormChannels = 0 := by
  unfold ClArgs.norm at h ⊢
  split
  · next c => rw [if_pos c] at h; exact absurd c h
  · rfl

section
variable [Zero α] [One α]

/-- The constructor makes a well-formed layer. -/
theorem clNew_wf {rnd : Nat → α} {a : ClArgs} {f : Cl α} (h : clNew rnd a = some f) :
    f.WF ∧ f.args = a.norm := by
  unfold clNew at h
  split at h
  · simp at h
  · next hok =>
    have hok := not_not.mp hok
    dsimp only at h
    by_cases hn : a.normFlag = GROUP_NORMALIZATION
    · rw [if_pos hn] at h
      cases hb : bnNew (α := α) a.groupNormChannels a.normDim with
      | none => rw [hb] at h; simp at h
      | some b =>
        rw [hb, Option.bind_some] at h
        obtain ⟨h1, h2, h3⟩ := bnNew_wf hb
        have en : a.norm = a := by unfold ClArgs.norm; rw [if_pos hn]
        rw [en] at h ⊢
        cases h
        have k1 := h1.batch
        have k2 := h1.dim
        refine ⟨⟨hok, fun c => absurd hn c, rfl, rfl, rfl, rfl, ?_, ?_, ?_, ?_, ?_, by simp, ?_, ?_, fun _ => ?_⟩, rfl⟩ <;>
          dsimp only
        · split <;> simp
        · intro k hk
          split at hk
          · obtain ⟨i, -, rfl⟩ := List.mem_map.mp hk; simp
          · simp at hk
        · split <;> simp
        · split <;> simp
        · split
          · split <;> simp
          · simp
        · rw [if_pos hn]; simp
        · intro b' hb'
          rw [List.eq_of_mem_replicate hb']
          exact ⟨h1, h2, h3⟩
        · rw [← h2, ← h3]; exact ⟨k1, k2⟩
    · rw [if_neg hn] at h
      cases h
      have en : a.norm = { a with groupNormChannels := 0 } := by unfold ClArgs.norm; rw [if_neg hn]
      have en' : a.norm.ok := hok.norm
      rw [en] at en' ⊢
      refine ⟨⟨en', fun _ => rfl, rfl, rfl, rfl, rfl, ?_, ?_, ?_, ?_, ?_, by simp, ?_, ?_, fun c => absurd c hn⟩, rfl⟩ <;>
        dsimp only
      · split <;> simp
      · intro k hk
        split at hk
        · obtain ⟨i, -, rfl⟩ := List.mem_map.mp hk
          simp [ClArgs.kernelSize]
        · simp at hk
      · split <;> simp
      · change List.length (if a.edge then _ else _) = if a.edge then a.totalSize else 0
        split <;> simp
      · change List.length (if a.edge then _ else _) = if a.edge then a.totalSize else 0
        split
        · split <;> simp
        · simp
      · rw [if_neg hn]; simp
      · simp

theorem clNew_some (rnd : Nat → α) {f : Cl α} (h : f.WF) : ∃ g, clNew rnd f.args = some g := by
  unfold clNew
  rw [if_neg (not_not.mpr h.ok)]
  dsimp only
  split
  · next hn =>
    obtain ⟨h1, h2⟩ := h.normOk hn
    unfold bnNew
    rw [if_neg (by omega)]
    exact ⟨_, rfl⟩
  · exact ⟨_, rfl⟩

/-- The cells of a convolutional layer. -/
def clCells (f : Cl α) : File α :=
  let a := f.args
  .flt f.kPercentage :: .int a.ffFlag :: .int a.trainingMode :: .int a.groupNormChannels ::
    .int a.convFlag :: .int a.channels :: .int a.inputRows :: .int a.inputCols :: .int a.layer ::
    .int a.kernelRows :: .int a.kernelCols :: .int a.nKernels :: .int a.stride1Rows :: .int a.stride1Cols ::
    .int a.padding1Rows :: .int a.padding1Cols :: .int a.stride2Rows :: .int a.stride2Cols ::
    .int a.padding2Rows :: .int a.padding2Cols :: .int a.poolingRows :: .int a.poolingCols ::
    .int a.normFlag :: .int a.activationFlag :: .int a.poolingFlag :: .int f.rows1 :: .int f.cols1 ::
    .int f.rows2 :: .int f.cols2 ::
    ((if a.convFlag ≠ NO_CONVOLUTION then f.kernels.flatMap fun k => k.map .flt else []) ++
      ((if a.convFlag ≠ NO_CONVOLUTION then f.biases.map .flt else []) ++
        ((if a.edge then f.scores.map .flt ++ f.indices.map .int else []) ++
          (f.usedKernels.map .int ++
            (if a.normFlag = GROUP_NORMALIZATION then f.groupNorm.flatMap bnCells else [])))))

omit [Zero α] [One α] in
theorem Cl.WF.pos {f : Cl α} (h : f.WF) :
    f.args.kernelSize ≠ 0 ∧ f.args.totalSize ≠ 0 ∧ f.args.nKernels.toNat ≠ 0 := by
  obtain ⟨h1, -⟩ := h.ok
  have a1 : 0 < f.args.channels := by omega
  have a2 : 0 < f.args.kernelRows := by omega
  have a3 : 0 < f.args.kernelCols := by omega
  have a4 : 0 < f.args.nKernels := by omega
  have b1 := mul_pos (mul_pos a1 a2) a3
  have b2 := mul_pos (mul_pos (mul_pos a4 a1) a2) a3
  unfold ClArgs.kernelSize ClArgs.totalSize
  omega

omit [Zero α] [One α] in
theorem saveCl_eq {f : Cl α} (h : f.WF) : saveCl f = some (clCells f) := by
  obtain ⟨p1, p2, p3⟩ := h.pos
  have e1 : (if f.args.convFlag ≠ NO_CONVOLUTION then
      if f.kernels.length < f.args.nKernels.toNat then none
      else ((f.kernels.take f.args.nKernels.toNat).mapM fun k => wrFlts k f.args.kernelSize).bind fun l => some l.flatten
    else some []) = some (if f.args.convFlag ≠ NO_CONVOLUTION then f.kernels.flatMap fun k => k.map .flt else []) := by
    have n := h.kernels
    split
    · next c =>
      rw [if_pos c] at n
      rw [if_neg (by omega), List.take_of_length_le (by omega),
        mapM_eq (w := fun k => k.map .flt) _ fun k hk => wrFlts_eq (h.kernel k hk) p1, Option.bind_some, List.flatMap_def]
    · rfl
  have e2 : (if f.args.convFlag ≠ NO_CONVOLUTION then wrFlts f.biases f.args.nKernels.toNat else some []) =
      some (if f.args.convFlag ≠ NO_CONVOLUTION then f.biases.map .flt else []) := by
    have n := h.biases
    split
    · next c => rw [if_pos c] at n; exact wrFlts_eq n p3
    · rfl
  have e3 : (if f.args.edge then
        (wrFlts f.scores f.args.totalSize).bind fun s => (wrInts f.indices f.args.totalSize).bind fun i => some (s ++ i)
      else some []) = some (if f.args.edge then f.scores.map .flt ++ f.indices.map .int else []) := by
    have n1 := h.scores
    have n2 := h.indices
    split
    · next c =>
      rw [if_pos c] at n1 n2
      rw [wrFlts_eq n1 p2, Option.bind_some, wrInts_eq n2 p2]
      rfl
    · rfl
  have e4 : (if f.args.normFlag = GROUP_NORMALIZATION then
            if f.groupNorm.length < f.args.nNorm then none
            else ((f.groupNorm.take f.args.nNorm).mapM saveBn).bind fun l => some l.flatten
          else some []) = some (if f.args.normFlag = GROUP_NORMALIZATION then f.groupNorm.flatMap bnCells else []) := by
    have n := h.groups
    split
    · next c =>
      rw [if_pos c] at n
      rw [if_neg (by omega), List.take_of_length_le (by omega),
        mapM_eq (w := bnCells) _ fun b hb => saveBn_eq (h.group b hb).1, Option.bind_some, List.flatMap_def]
    · rfl
  unfold saveCl clCells
  dsimp only
  rw [e1, Option.bind_some, e2, Option.bind_some, e3, Option.bind_some, wrInts_eq h.used p3, Option.bind_some, e4,
    Option.bind_some]

omit [Zero α] [One α] in
theorem copyKernels_eq {n size : Nat} {src dst : List (List α)} (e : src.length = n) (e' : dst.length = n)
    (h : ∀ k ∈ src, k.length = size) (h' : ∀ k ∈ dst, k.length = size) : copyKernels n size src dst = some src := by
  unfold copyKernels
  rw [if_neg (by omega), List.drop_eq_nil_of_le (by omega), List.take_of_length_le (by simp; omega)]
  have : (src.zip dst).mapM (fun p => copyN p.1 p.2 size) = some src := by
    rw [← e] at e'
    clear e
    induction src generalizing dst with
    | nil => rfl
    | cons x s ih =>
      cases dst with
      | nil => simp at e'
      | cons y d =>
        rw [List.zip_cons_cons, List.mapM_cons, copyN_eq (h x (by simp)) (h' y (by simp)),
          ih (by simpa using e') (fun k hk => h k (by simp [hk])) (fun k hk => h' k (by simp [hk]))]
        rfl
  rw [this]
  simp

theorem loadCl_rd (rnd : Nat → α) {f : Cl α} (h : f.WF) : Rd (loadCl rnd) (clCells f) f := by
  obtain ⟨p1, p2, p3⟩ := h.pos
  obtain ⟨g, hg⟩ := clNew_some rnd h
  obtain ⟨w, ha⟩ := clNew_wf hg
  rw [ClArgs.norm_eq h.norm] at ha
  unfold loadCl clCells
  refine Rd.flt (Rd.int (Rd.int (Rd.int (Rd.int (Rd.int (Rd.int (Rd.int (Rd.int (Rd.int (Rd.int (Rd.int (Rd.int
    (Rd.int (Rd.int (Rd.int (Rd.int (Rd.int (Rd.int (Rd.int (Rd.int (Rd.int (Rd.int (Rd.int (Rd.int (Rd.int (Rd.int
    (Rd.int (Rd.int ?_))))))))))))))))))))))))))))
  dsimp only
  have v1 := h.kernels
  have v2 := h.biases
  have v3 := h.scores
  have v4 := h.indices
  have v5 := h.used
  have v6 := h.groups
  have w1 := w.kernels
  have w2 := w.biases
  have w3 := w.scores
  have w4 := w.indices
  have w5 := w.used
  have w6 := w.groups
  have w7 := w.kernel
  rw [ha] at w1 w2 w3 w4 w5 w6 w7
  refine Rd.bind (x := f.kernels) ?_ ?_ rfl
  · refine Rd.ite (fun c => ?_) (fun c => ?_)
    · rw [if_pos c] at v1
      have := Rd.many (p := rdFlts f.args.kernelSize) (g := fun k => k.map Cell.flt) f.kernels
        fun k hk => Rd.flts (h.kernel k hk) p1
      rw [v1] at this
      exact this
    · rw [if_neg c] at v1
      rw [List.length_eq_zero_iff.mp v1]
      exact Rd.pure _
  refine Rd.bind (x := f.biases) ?_ ?_ rfl
  · refine Rd.ite (fun c => ?_) (fun c => ?_)
    · rw [if_pos c] at v2
      exact Rd.flts v2 p3
    · rw [if_neg c] at v2
      rw [List.length_eq_zero_iff.mp v2]
      exact Rd.pure _
  refine Rd.bind (x := (f.scores, f.indices)) ?_ ?_ rfl
  · refine Rd.ite (c := f.args.edge) (fun c => ?_) (fun c => ?_)
    · rw [if_pos c] at v3 v4
      exact Rd.bind (Rd.flts v3 p2) (Rd.last (Rd.ints v4 p2) (Rd.pure _)) rfl
    · rw [if_neg c] at v3 v4
      rw [List.length_eq_zero_iff.mp v3, List.length_eq_zero_iff.mp v4]
      exact Rd.pure _
  refine Rd.bind (Rd.ints v5 p3) ?_ rfl
  refine Rd.last (x := f.groupNorm) ?_ ?_
  · refine Rd.ite (fun c => ?_) (fun c => ?_)
    · rw [if_pos c] at v6
      have := Rd.many (p := loadBn) (g := bnCells) f.groupNorm fun b hb => loadBn_rd (h.group b hb).1
      rw [v6] at this
      exact this
    · rw [if_neg c] at v6
      rw [List.length_eq_zero_iff.mp v6]
      exact Rd.pure _
  refine Rd.lift hg ?_
  refine Rd.lift (x := f.kernels) ?_ ?_
  · split
    · next c =>
      rw [if_pos c] at v1 w1
      exact copyKernels_eq v1 w1 h.kernel w7
    · next c => rw [if_neg c] at v1 w1; rw [List.length_eq_zero_iff.mp w1, List.length_eq_zero_iff.mp v1]
  refine Rd.lift (x := f.biases) ?_ ?_
  · split
    · next c => rw [if_pos c] at v2 w2; exact copyN_eq v2 w2
    · next c => rw [if_neg c] at v2 w2; rw [List.length_eq_zero_iff.mp w2, List.length_eq_zero_iff.mp v2]
  refine Rd.lift (x := f.scores) ?_ ?_
  · change (if f.args.edge then _ else _) = _
    split
    · next c => rw [if_pos c] at v3 w3; exact copyN_eq v3 w3
    · next c => rw [if_neg c] at v3 w3; rw [List.length_eq_zero_iff.mp w3, List.length_eq_zero_iff.mp v3]
  refine Rd.lift (x := f.indices) ?_ ?_
  · change (if f.args.edge then _ else _) = _
    split
    · next c => rw [if_pos c] at v4 w4; exact copyN_eq v4 w4
    · next c => rw [if_neg c] at v4 w4; rw [List.length_eq_zero_iff.mp w4, List.length_eq_zero_iff.mp v4]
  refine Rd.lift (copyN_eq v5 w5) ?_
  have e : (if f.args.normFlag = GROUP_NORMALIZATION then f.groupNorm else g.groupNorm) = f.groupNorm := by
    split
    · rfl
    · next c => rw [if_neg c] at v6 w6; rw [List.length_eq_zero_iff.mp w6, List.length_eq_zero_iff.mp v6]
  rw [e, w.rows1, w.rows2, w.cols1, w.cols2, ha, ← h.rows1, ← h.rows2, ← h.cols1, ← h.cols2]
  exact Rd.pure _

end

/-! ### Residual layers -/

/-- The modelled part of `rl` (`/repo/src/llab.h`): of `cl_output` the activation flag,
the only field of it that can change. -/
@[ext] structure Rl (α : Type) where
  channels : Int
  inputRows : Int
  inputCols : Int
  cls : List (Cl α)
  act : Int
deriving DecidableEq

/-- `residual` (`/repo/src/residual_layers.c` 45-60). Its result `NULL` is `none`: all
callers read fields of the result. -/
def rlNew (channels inputRows inputCols : Int) (cls : List (Cl α)) : Option (Rl α) :=
  if channels ≤ 0 ∨ inputRows ≤ 0 ∨ inputCols ≤ 0 ∨ cls = [] then none
  else some ⟨channels, inputRows, inputCols, cls, RELU⟩

/-- `save_rl` (`/repo/src/residual_layers.c` 148-213). -/
def saveRl (f : Rl α) : Option (File α) :=
  (f.cls.mapM saveCl).bind fun l =>
    some (.int f.act :: .int f.channels :: .int f.inputRows :: .int f.inputCols :: .int f.cls.length :: l.flatten)

/-- `load_rl` (`/repo/src/residual_layers.c` 221-272). -/
def loadRl [Zero α] [One α] (rnd : Nat → α) : Read α (Rl α) := do
  let act ← rdInt
  let channels ← rdInt
  let inputRows ← rdInt
  let inputCols ← rdInt
  let n ← rdInt
  let cls ← rdMany (loadCl rnd) n.toNat
  let f ← Read.lift (rlNew channels inputRows inputCols cls)
  return { f with act := act }

/-- A residual layer as the constructor makes it, its layers and activation flag changed
in any way that keeps the layers well-formed. -/
structure Rl.WF (f : Rl α) : Prop where
  channels : 0 < f.channels
  rows : 0 < f.inputRows
  cols : 0 < f.inputCols
  ne : f.cls ≠ []
  cls : ∀ c ∈ f.cls, c.WF

theorem rlNew_wf {ch r c : Int} {cls : List (Cl α)} {f : Rl α} (h : rlNew ch r c cls = some f)
    (hc : ∀ c ∈ cls, c.WF) : f.WF := by
  unfold rlNew at h
  split at h
  · simp at h
  · next hn =>
    cases h
    exact ⟨by dsimp; omega, by dsimp; omega, by dsimp; omega, fun e => hn (by simp [show cls = [] from e]), hc⟩

/-- The cells of a residual layer. -/
def rlCells (f : Rl α) : File α :=
  .int f.act :: .int f.channels :: .int f.inputRows :: .int f.inputCols :: .int f.cls.length :: f.cls.flatMap clCells

theorem saveRl_eq {f : Rl α} (h : f.WF) : saveRl f = some (rlCells f) := by
  unfold saveRl rlCells
  rw [mapM_eq (w := clCells) _ fun c hc => saveCl_eq (h.cls c hc), Option.bind_some, List.flatMap_def]

theorem loadRl_rd [Zero α] [One α] (rnd : Nat → α) {f : Rl α} (h : f.WF) : Rd (loadRl rnd) (rlCells f) f := by
  unfold loadRl rlCells
  refine Rd.int (Rd.int (Rd.int (Rd.int (Rd.int (Rd.last (x := f.cls) ?_ ?_)))))
  · rw [Int.toNat_natCast]
    exact Rd.many f.cls fun c hc => loadCl_rd rnd (h.cls c hc)
  · have h1 := h.channels
    have h2 := h.rows
    have h3 := h.cols
    refine Rd.lift (x := ⟨f.channels, f.inputRows, f.inputCols, f.cls, RELU⟩) ?_ (Rd.pure _)
    unfold rlNew
    rw [if_neg]
    rintro (e | e | e | e)
    · omega
    · omega
    · omega
    · exact h.ne e

end LLab.Save
