import Verif.Save.Props

/-!
Saving and loading transformers: `save_transformer_encoder`,
`load_transformer_encoder` (`/repo/src/transformer_encoder.c` 377-553),
`save_transformer_decoder`, `load_transformer_decoder`
(`/repo/src/transformer_decoder.c` 235-461), `save_transf`, `load_transf`
(`/repo/src/transformer.c` 284-396). Property C128.

A layer is what its file should contain: configuration, normalisation layers and
networks. Buffers and derivatives are left out. `copy_model` and
`copy_scaled_l2_norm`, which `load_transformer_decoder` applies to the parts of the
encoder inside, are the identity here.
-/

namespace LLab.Save

variable {α : Type}

def SCALED_L2_NORMALIZATION : Int := 5
def TRANSFORMER_RESIDUAL : Int := 1
def TRANSFORMER_NO_RESIDUAL : Int := 0

/-! ### Networks -/

/-- `output_dimension` (`/repo/src/model.c` 284-313). -/
def _root_.LLab.Network.Out.size : Network.Out → Nat
  | .fcl l => l.size
  | .cl l => l.size
  | .rl r => r.size

/-- `save_model(m,n)` for a file that is already there (`/repo/src/model.c` 899-966):
the cells added. -/
def saveNet (m : Net α) : Option (File α) := (saveLayers m).bind fun w => some (headModel m ++ w)

/-- `load_model_with_file_already_opened` (`/repo/src/model.c` 1146-1215): the model and
its `output_dimension`. -/
def loadNet [LinearOrder α] [Zero α] [One α] (rnd noisy : Nat → α) : Read α (Net α × Nat) := do
  let r ← loadModel rnd noisy
  Read.lift (match r.2 with
    | .exit => none
    | .ok x => some (r.1, x.out.size))

/-! ### Encoders -/

/-- The saved part of `transformer_encoder` (`/repo/src/llab.h` 498-522); `heads` are
`q[i]`, `k[i]`, `v[i]`. -/
structure SEnc (α : Type) where
  (kd vd attn inputDim nHead res1 res2 norm1 norm2 : Int)
  l2 : List (L2 α)
  heads : List (Net α × Net α × Net α)
  (m lin : Net α)

/-- Number of normalisation layers. -/
def SEnc.count (t : SEnc α) : Nat :=
  (if t.norm1 = SCALED_L2_NORMALIZATION then 1 else 0) + if t.norm2 = SCALED_L2_NORMALIZATION then 1 else 0

/-- The checks of `transformer_encoder_layer` (`/repo/src/transformer_encoder.c` 56-117).
`l2Null` tells whether the list of normalisation layers is a null pointer, `dm` and `dl`
are the output dimensions of `m` and `linear_after_attention`. -/
structure SEnc.Passes (l2Null : Bool) (dm dl : Nat) (t : SEnc α) : Prop where
  null : ¬(l2Null = true ∧ (t.norm1 ≠ NO_NORMALIZATION ∨ t.norm2 ≠ NO_NORMALIZATION))
  flags : ¬(l2Null = false ∧ t.norm1 ≠ SCALED_L2_NORMALIZATION ∧ t.norm2 ≠ SCALED_L2_NORMALIZATION)
  pos : ¬(t.inputDim ≤ 0 ∨ t.nHead ≤ 0 ∨ t.kd ≤ 0 ∨ t.vd ≤ 0)
  div : t.inputDim % t.nHead = 0
  dim1 : t.norm1 = SCALED_L2_NORMALIZATION → t.l2[0]?.map L2.dim = some (dl : Int)
  dim2 : t.norm2 = SCALED_L2_NORMALIZATION →
    t.l2[if t.norm1 = SCALED_L2_NORMALIZATION then 1 else 0]?.map L2.dim = some (dm : Int)

/-- A flag that is not `a` becomes `b`. -/
def setFlag (a b x : Int) : Int := if x ≠ a then b else x

/-- The flags with unknown values replaced (`/repo/src/transformer_encoder.c` 124-136). -/
def SEnc.setFlags (t : SEnc α) : SEnc α :=
  { t with
    norm1 := setFlag SCALED_L2_NORMALIZATION NO_NORMALIZATION t.norm1
    norm2 := setFlag SCALED_L2_NORMALIZATION NO_NORMALIZATION t.norm2
    res1 := setFlag TRANSFORMER_RESIDUAL TRANSFORMER_NO_RESIDUAL t.res1
    res2 := setFlag TRANSFORMER_RESIDUAL TRANSFORMER_NO_RESIDUAL t.res2 }

open Classical in
/-- `transformer_encoder_layer` (`/repo/src/transformer_encoder.c` 54-190) on the parts of
`t`; `none` is `exit(1)`. -/
noncomputable def encLayer (l2Null : Bool) (dm dl : Nat) (t : SEnc α) : Option (SEnc α) :=
  if t.Passes l2Null dm dl then some t.setFlags else none

/-- `save_model(t->q[i],n); save_model(t->k[i],n); save_model(t->v[i],n);` -/
def saveHead (h : Net α × Net α × Net α) : Option (File α) :=
  (saveNet h.1).bind fun a => (saveNet h.2.1).bind fun b => (saveNet h.2.2).bind fun c => some (a ++ (b ++ c))

/-- The nine numbers at the beginning. -/
def headEnc (t : SEnc α) : File α :=
  [.int t.kd, .int t.vd, .int t.attn, .int t.inputDim, .int t.nHead, .int t.res1, .int t.res2, .int t.norm1, .int t.norm2]

/-- `save_transformer_encoder` (`/repo/src/transformer_encoder.c` 377-467). -/
def saveEnc (t : SEnc α) : Option (File α) :=
  (t.l2.mapM saveL2).bind fun a => (t.heads.mapM saveHead).bind fun b => (saveNet t.m).bind fun c =>
    (saveNet t.lin).bind fun d => some (headEnc t ++ (a.flatten ++ (b.flatten ++ (c ++ d))))

section
variable [LinearOrder α] [Zero α] [One α]

/-- Three networks read one after another. -/
def loadHead (rnd noisy : Nat → α) : Read α (Net α × Net α × Net α) := do
  let q ← loadNet rnd noisy
  let k ← loadNet rnd noisy
  let v ← loadNet rnd noisy
  return (q.1, k.1, v.1)

/-- `load_transformer_encoder` (`/repo/src/transformer_encoder.c` 476-553), with the output
dimensions of `m` and `linear_after_attention`. -/
noncomputable def loadEnc (root : Int → α) (rnd noisy : Nat → α) : Read α (SEnc α × Nat × Nat) := do
  let kd ← rdInt
  let vd ← rdInt
  let attn ← rdInt
  let inputDim ← rdInt
  let nHead ← rdInt
  let res1 ← rdInt
  let res2 ← rdInt
  let norm1 ← rdInt
  let norm2 ← rdInt
  let count := (if norm1 = SCALED_L2_NORMALIZATION then 1 else 0) + if norm2 = SCALED_L2_NORMALIZATION then 1 else 0
  let l2 ← rdMany (loadL2 root) count
  let heads ← rdMany (loadHead rnd noisy) nHead.toNat
  let m ← loadNet rnd noisy
  let lin ← loadNet rnd noisy
  let t ← Read.lift (encLayer (count == 0) m.2 lin.2 ⟨kd, vd, attn, inputDim, nHead, res1, res2, norm1, norm2, l2, heads, m.1, lin.1⟩)
  return (t, m.2, lin.2)

end

/-! ### Decoders -/

/-- The saved part of `transformer_decoder` (`/repo/src/llab.h` 524-546); `l2` and `heads`
are its own ones, `e` has the rest. -/
structure SDec (α : Type) where
  (kd vd inputDim leftDim nHead attn res norm encDim : Int)
  l2 : List (L2 α)
  heads : List (Net α × Net α × Net α)
  lin : Net α
  e : SEnc α

/-- The encoder with another input dimension. -/
def SEnc.withInput (t : SEnc α) (z : Int) : SEnc α := { t with inputDim := z }

/-- `transformer_decoder_layer` (`/repo/src/transformer_decoder.c` 58-133) on the parts of
`d`: its checks, those for the encoder inside, and the flags with unknown values
replaced. `dm`, `dl` as in `encLayer`, for the encoder inside. The list of normalisation
layers of the encoder inside is null when that of the decoder is null and the decoder has
no normalisation of its own. -/
noncomputable def decLayer (dm dl : Nat) (d : SDec α) : Option (SDec α) :=
  if d.nHead ≤ 0 ∨ d.inputDim ≤ 0 ∨ d.encDim ≤ 0 ∨ d.e.nHead ≤ 0 then none
  else if d.inputDim % d.nHead ≠ 0 then none
  else if d.nHead * d.vd = 0 ∨ d.inputDim % (d.nHead * d.vd) ≠ 0 then none
  else
    (encLayer (decide (d.norm ≠ SCALED_L2_NORMALIZATION ∧ d.e.count = 0)) dm dl (d.e.withInput d.encDim)).bind fun e =>
      some { d with
        e := e
        norm := setFlag SCALED_L2_NORMALIZATION NO_NORMALIZATION d.norm
        res := setFlag TRANSFORMER_RESIDUAL TRANSFORMER_NO_RESIDUAL d.res }

/-- The nine numbers at the beginning. -/
def headDec (t : SDec α) : File α :=
  [.int t.kd, .int t.vd, .int t.inputDim, .int t.leftDim, .int t.nHead, .int t.attn, .int t.res, .int t.norm, .int t.encDim]

/-- `save_transformer_decoder` (`/repo/src/transformer_decoder.c` 235-333). -/
def saveDec (t : SDec α) : Option (File α) :=
  (t.l2.mapM saveL2).bind fun a => (t.heads.mapM saveHead).bind fun b => (saveNet t.lin).bind fun c =>
    (saveEnc t.e).bind fun d => some (headDec t ++ (a.flatten ++ (b.flatten ++ (c ++ d))))

/-- `load_transformer_decoder` (`/repo/src/transformer_decoder.c` 342-461). The result of
the last `fread` is not checked in the code; at the end of the file the next function
exits. -/
noncomputable def loadDec [LinearOrder α] [Zero α] [One α] (root : Int → α) (rnd noisy : Nat → α) : Read α (SDec α) := do
  let kd ← rdInt
  let vd ← rdInt
  let inputDim ← rdInt
  let leftDim ← rdInt
  let nHead ← rdInt
  let attn ← rdInt
  let res ← rdInt
  let norm ← rdInt
  let encDim ← rdInt
  let l2 ← rdMany (loadL2 root) (if norm = SCALED_L2_NORMALIZATION then 1 else 0)
  let heads ← rdMany (loadHead rnd noisy) nHead.toNat
  let lin ← loadNet rnd noisy
  let e ← loadEnc root rnd noisy
  Read.lift (decLayer e.2.1 e.2.2 ⟨kd, vd, inputDim, leftDim, nHead, attn, res, norm, encDim, l2, heads, lin.1, e.1⟩)

/-! ### Transformers -/

/-- `transformer` (`/repo/src/llab.h` 550-559); `conn = none` is a null pointer. -/
structure STr (α : Type) where
  te : List (SEnc α)
  td : List (SDec α)
  conn : Option (List (List Int))
  (beta1 beta2 beta3 : α)

/-- Row `j` of the connections in the file (`/repo/src/transformer.c` 316-323): `n_td`
numbers are copied from the address of the *pointer* to the row, and `exit(1)` follows
unless `n_td` is one. `ptr j` are the first four bytes of that pointer. -/
def saveRow (ptr : Nat → Int) (nTd j : Nat) : Option (File α) :=
  if nTd ≠ 1 then none else some [.int (ptr j)]

/-- `save_transf` (`/repo/src/transformer.c` 284-346). -/
def saveTr (ptr : Nat → Int) (t : STr α) : Option (File α) :=
  (if t.td.length ≠ 0 ∧ t.conn.isSome = true then (List.range t.te.length).mapM (saveRow ptr t.td.length) else some []).bind
    fun rows => (t.te.mapM saveEnc).bind fun a => (t.td.mapM saveDec).bind fun b =>
      some (.int t.te.length :: .int t.td.length :: (rows.flatten ++ (a.flatten ++ b.flatten)))

/-- Row `j` read by `load_transf` (`/repo/src/transformer.c` 376-384): the array of rows
has room for one, and `exit(1)` follows unless one number was read. -/
def loadRow (nTd : Int) (j : Nat) : Read α (List Int) :=
  if j ≠ 0 ∨ nTd ≠ 1 then Read.lift none else rdInt >>= fun z => pure [z]

/-- The rows `j`, …, `j+k-1`. -/
def loadRows (nTd : Int) : Nat → Nat → Read α (List (List Int))
  | _, 0 => Read.pure []
  | j, k + 1 => do let r ← loadRow nTd j; let l ← loadRows nTd (j + 1) k; return r :: l

/-- `enc_dec_conn` of `load_transf`. -/
def loadConn (nTe nTd : Int) : Read α (Option (List (List Int))) :=
  if nTd = 0 then pure none else loadRows nTd 0 nTe.toNat >>= fun l => pure (some l)

/-- `load_transf` (`/repo/src/transformer.c` 355-396) and `transf` (46-67). `b1`, `b2`,
`b3` are the initial values `BETA1_ADAM`, `BETA2_ADAM`, `BETA3_ADAMOD`. -/
noncomputable def loadTr [LinearOrder α] [Zero α] [One α] (root : Int → α) (rnd noisy : Nat → α) (b1 b2 b3 : α) : Read α (STr α) := do
  let nTe ← rdInt
  let nTd ← rdInt
  let conn ← loadConn nTe nTd
  let te ← rdMany (loadEnc root rnd noisy) nTe.toNat
  let td ← rdMany (loadDec root rnd noisy) nTd.toNat
  if nTe = 0 then Read.lift none else return ⟨te.map Prod.fst, td, conn, b1, b2, b3⟩

/-! ### What can be saved -/

section
variable [LinearOrder α] [Zero α] [One α]

/-- A network made by `network` from well-formed layers (as in C82), with output
dimension `d`. -/
def Net.Good (m : Net α) (d : Nat) : Prop :=
  m.WF ∧ (∃ rls cls fcls o, Network.network m.layers rls cls fcls = some (.ok ⟨m.vRls, m.vCls, m.vFcls, o⟩) ∧ o.size = d) ∧
    ∀ r ∈ m.rls, ∃ c, r.cls.getLast? = some c ∧ c.size.toNat = (r.channels * r.inputRows * r.inputCols).toNat

/-- The same for the networks of a head. -/
def goodHead (h : Net α × Net α × Net α) : Prop := ∃ a b c, h.1.Good a ∧ h.2.1.Good b ∧ h.2.2.Good c

/-- The three networks with `k_percentage` 1. -/
def resetHead (h : Net α × Net α × Net α) : Net α × Net α × Net α := (h.1.reset, h.2.1.reset, h.2.2.reset)

/-- An encoder made by `transformer_encoder_layer`: the call was given `t0`, networks made
by `network`, as many of them as heads, and as many normalisation layers as the flags
say. -/
structure SEnc.Made (t : SEnc α) (dm dl : Nat) : Prop where
  made : ∃ b t0, encLayer b dm dl t0 = some t
  l2 : t.l2.length = t.count
  pos : ∀ l ∈ t.l2, 0 < l.dim
  nHeads : (t.heads.length : Int) = t.nHead
  heads : ∀ h ∈ t.heads, goodHead h
  m : t.m.Good dm
  lin : t.lin.Good dl

/-- The encoder with every `k_percentage` equal to 1. -/
def SEnc.reset (t : SEnc α) : SEnc α := { t with heads := t.heads.map resetHead, m := t.m.reset, lin := t.lin.reset }

/-- A decoder made by `transformer_decoder_layer`. -/
structure SDec.Made (t : SDec α) : Prop where
  made : ∃ dm dl t0, decLayer dm dl t0 = some t ∧ t.e.Made dm dl
  l2 : t.l2.length = if t.norm = SCALED_L2_NORMALIZATION then 1 else 0
  pos : ∀ l ∈ t.l2, 0 < l.dim
  nHeads : (t.heads.length : Int) = t.nHead
  heads : ∀ h ∈ t.heads, goodHead h
  lin : ∃ d, t.lin.Good d

/-- The decoder with every `k_percentage` equal to 1. -/
def SDec.reset (t : SDec α) : SDec α := { t with heads := t.heads.map resetHead, lin := t.lin.reset, e := t.e.reset }

/-! ### Proofs -/

/-- The cells of a network. -/
def netCells (m : Net α) : File α :=
  headModel m ++ (m.rls.flatMap rlCells ++ (m.cls.flatMap clCells ++ m.fcls.flatMap fclCells))

theorem saveNet_eq {m : Net α} {d : Nat} (h : m.Good d) : saveNet m = some (netCells m) := by
  unfold saveNet netCells
  rw [saveLayers_eq h.1, Option.bind_some]

theorem loadNet_rd (rnd noisy : Nat → α) {m : Net α} {d : Nat} (h : m.Good d) :
    Rd (loadNet rnd noisy) (netCells m) (m.reset, d) := by
  obtain ⟨wf, ⟨rls, cls, fcls, o, hn, ho⟩, hsz⟩ := h
  have hb' : m.build = some (.ok ⟨m.vRls, m.vCls, m.vFcls, o⟩) := by
    refine Network.C82_rebuild_partial m.layers rls cls fcls _ hn ?_
    intro r hr
    obtain ⟨⟨x, i⟩, hx, rfl⟩ := List.mem_map.mp hr
    obtain ⟨c, e1, e2⟩ := hsz x (List.fst_mem_of_mem_zipIdx hx)
    refine ⟨c.view (x.cls.length - 1), ?_, e2⟩
    show (x.cls.zipIdx.map fun p => p.1.view p.2).getLast? = _
    rw [List.getLast?_map, List.getLast?_eq_getElem?, List.getElem?_zipIdx, List.length_zipIdx, ← List.getLast?_eq_getElem?,
      e1]
    simp
  unfold loadNet
  exact Rd.last (loadModel_rd rnd noisy wf hb') (Rd.lift' (by simp [ho]))

def headCells (h : Net α × Net α × Net α) : File α := netCells h.1 ++ (netCells h.2.1 ++ netCells h.2.2)

theorem saveHead_eq {h : Net α × Net α × Net α} (hg : goodHead h) : saveHead h = some (headCells h) := by
  obtain ⟨a, b, c, h1, h2, h3⟩ := hg
  unfold saveHead headCells
  rw [saveNet_eq h1, saveNet_eq h2, saveNet_eq h3]
  rfl

theorem loadHead_rd (rnd noisy : Nat → α) {h : Net α × Net α × Net α} (hg : goodHead h) :
    Rd (loadHead rnd noisy) (headCells h) (resetHead h) := by
  obtain ⟨a, b, c, h1, h2, h3⟩ := hg
  unfold loadHead headCells
  refine Rd.bind (loadNet_rd rnd noisy h1) ?_ rfl
  refine Rd.bind (loadNet_rd rnd noisy h2) ?_ rfl
  exact Rd.last (loadNet_rd rnd noisy h3) (Rd.pure _)

def l2Cells (l : L2 α) : File α := [.int l.dim, .int l.trainingMode, .flt l.g]

omit [LinearOrder α] [Zero α] [One α] in
theorem l2_rd (root : Int → α) {l : L2 α} (h : 0 < l.dim) : Rd (loadL2 root) (l2Cells l) l := by
  obtain ⟨w, e, h⟩ := loadL2_rd root h
  cases e
  exact h

def encCells (t : SEnc α) : File α :=
  headEnc t ++ (t.l2.flatMap l2Cells ++ (t.heads.flatMap headCells ++ (netCells t.m ++ netCells t.lin)))

theorem setFlag_eq {a b : Int} (h : b ≠ a) (x : Int) : setFlag a b x = a ↔ x = a := by
  unfold setFlag
  split
  · tauto
  · tauto

theorem setFlag_again (a b x : Int) : setFlag a b (setFlag a b x) = setFlag a b x := by
  unfold setFlag
  split
  · split
    · rfl
    · rfl
  · rfl

theorem l2_ne : NO_NORMALIZATION ≠ SCALED_L2_NORMALIZATION := by decide

omit [LinearOrder α] [Zero α] [One α] in
theorem encLayer_some {b : Bool} {dm dl : Nat} {t0 t : SEnc α} (h : encLayer b dm dl t0 = some t) :
    t0.Passes b dm dl ∧ t = t0.setFlags := by
  unfold encLayer at h
  split at h
  · exact ⟨‹_›, (Option.some.inj h).symm⟩
  · cases h

omit [LinearOrder α] [Zero α] [One α] in
theorem setFlags_again (t : SEnc α) : t.setFlags.setFlags = t.setFlags := by
  simp only [SEnc.setFlags, setFlag_again]

omit [LinearOrder α] [Zero α] [One α] in
theorem setFlags_count (t : SEnc α) : t.setFlags.count = t.count := by
  simp only [SEnc.setFlags, SEnc.count, setFlag_eq l2_ne]

omit [LinearOrder α] [Zero α] [One α] in
theorem Passes.isNull {b : Bool} {dm dl : Nat} {t : SEnc α} (h : t.Passes b dm dl) : b = decide (t.count = 0) := by
  have h1 := h.null
  have h2 := h.flags
  unfold SEnc.count
  cases b
  · by_cases e1 : t.norm1 = SCALED_L2_NORMALIZATION
    · simp [e1]
    · by_cases e2 : t.norm2 = SCALED_L2_NORMALIZATION
      · simp [e2]
      · exact absurd ⟨rfl, e1, e2⟩ h2
  · have e1 : t.norm1 = NO_NORMALIZATION := by tauto
    have e2 : t.norm2 = NO_NORMALIZATION := by tauto
    rw [e1, e2]
    decide

omit [LinearOrder α] [Zero α] [One α] in
/-- What the constructor returned passes the constructor unchanged. -/
theorem encLayer_again {b : Bool} {dm dl : Nat} {t0 t : SEnc α} (h : encLayer b dm dl t0 = some t) :
    encLayer (decide (t.count = 0)) dm dl t = some t := by
  obtain ⟨hp, rfl⟩ := encLayer_some h
  rw [setFlags_count, ← Passes.isNull hp]
  unfold encLayer
  rw [if_pos, setFlags_again]
  refine ⟨?_, ?_, hp.pos, hp.div, fun e => hp.dim1 ((setFlag_eq l2_ne _).1 e), ?_⟩
  · rintro ⟨e, e'⟩
    have h1 : t0.norm1 = NO_NORMALIZATION := by have := hp.null; tauto
    have h2 : t0.norm2 = NO_NORMALIZATION := by have := hp.null; tauto
    simp only [SEnc.setFlags, h1, h2] at e'
    revert e'
    decide
  · rintro ⟨e, e1, e2⟩
    exact hp.flags ⟨e, fun x => e1 ((setFlag_eq l2_ne _).2 x), fun x => e2 ((setFlag_eq l2_ne _).2 x)⟩
  · intro e
    have := hp.dim2 ((setFlag_eq l2_ne _).1 e)
    show t0.l2[if setFlag SCALED_L2_NORMALIZATION NO_NORMALIZATION t0.norm1 = SCALED_L2_NORMALIZATION then 1 else 0]?.map _ = _
    simp only [setFlag_eq l2_ne]
    exact this

omit [LinearOrder α] [Zero α] [One α] in
theorem saveL2s (l : List (L2 α)) : l.mapM saveL2 = some (l.map l2Cells) := mapM_eq l fun _ _ => rfl

theorem saveEnc_eq {t : SEnc α} {dm dl : Nat} (h : t.Made dm dl) : saveEnc t = some (encCells t) := by
  unfold saveEnc encCells
  rw [saveL2s, Option.bind_some, mapM_eq (w := headCells) _ fun r hr => saveHead_eq (h.heads r hr), Option.bind_some,
    saveNet_eq h.m, Option.bind_some, saveNet_eq h.lin, Option.bind_some]
  simp only [List.flatMap_def]

omit [LinearOrder α] [Zero α] in
theorem encLayer_reset {b : Bool} {dm dl : Nat} {t : SEnc α} (h : encLayer b dm dl t = some t) :
    encLayer b dm dl t.reset = some t.reset := by
  obtain ⟨hp, e⟩ := encLayer_some h
  unfold encLayer
  rw [if_pos ⟨hp.null, hp.flags, hp.pos, hp.div, hp.dim1, hp.dim2⟩]
  have : t.reset.setFlags = t.setFlags.reset := rfl
  rw [this, ← e]

theorem loadEnc_rd (root : Int → α) (rnd noisy : Nat → α) {t : SEnc α} {dm dl : Nat} (h : t.Made dm dl) :
    Rd (loadEnc root rnd noisy) (encCells t) (t.reset, dm, dl) := by
  obtain ⟨b, t0, hm⟩ := h.made
  unfold loadEnc encCells headEnc
  simp only [List.cons_append, List.nil_append]
  refine Rd.int (Rd.int (Rd.int (Rd.int (Rd.int (Rd.int (Rd.int (Rd.int (Rd.int ?_))))))))
  have hc : t.count = t.l2.length := h.l2.symm
  have e1 : (if t.norm1 = SCALED_L2_NORMALIZATION then 1 else 0) + (if t.norm2 = SCALED_L2_NORMALIZATION then 1 else 0) =
      t.l2.length := hc
  rw [e1, ← h.nHeads, Int.toNat_natCast]
  refine Rd.bind (Rd.many t.l2 fun l hl => l2_rd root (h.pos l hl)) ?_ rfl
  refine Rd.bind (rd_many_map t.heads fun x hx => loadHead_rd rnd noisy (h.heads x hx)) ?_ rfl
  refine Rd.bind (loadNet_rd rnd noisy h.m) ?_ rfl
  refine Rd.last (loadNet_rd rnd noisy h.lin) ?_
  refine Rd.lift (x := t.reset) ?_ (Rd.pure _)
  rw [h.nHeads]
  have := encLayer_reset (encLayer_again hm)
  rw [hc] at this
  exact this

def decCells (t : SDec α) : File α :=
  headDec t ++ (t.l2.flatMap l2Cells ++ (t.heads.flatMap headCells ++ (netCells t.lin ++ encCells t.e)))

theorem saveDec_eq {t : SDec α} (h : t.Made) : saveDec t = some (decCells t) := by
  obtain ⟨dm, dl, t0, -, he⟩ := h.made
  obtain ⟨d, hl⟩ := h.lin
  unfold saveDec decCells
  rw [saveL2s, Option.bind_some, mapM_eq (w := headCells) _ fun r hr => saveHead_eq (h.heads r hr), Option.bind_some,
    saveNet_eq hl, Option.bind_some, saveEnc_eq he, Option.bind_some]
  simp only [List.flatMap_def]

omit [LinearOrder α] [Zero α] in
/-- What the constructor returned passes the constructor unchanged. -/
theorem decLayer_again {dm dl : Nat} {t0 t : SDec α} (h : decLayer dm dl t0 = some t) :
    decLayer dm dl t.reset = some t.reset := by
  unfold decLayer at h
  split at h
  · cases h
  · split at h
    · cases h
    · split at h
      · cases h
      · rename_i h1 h2 h3
        obtain ⟨e, he, h⟩ := Option.bind_eq_some_iff.1 h
        cases h
        obtain ⟨hp, hs⟩ := encLayer_some he
        have hcnt : e.count = t0.e.count := by
          rw [hs, setFlags_count]
          rfl
        have hin : e.inputDim = t0.encDim := by rw [hs]; rfl
        have hh : e.nHead = t0.e.nHead := by rw [hs]; rfl
        have hb := Passes.isNull hp
        unfold decLayer SDec.reset
        dsimp only
        have hh' : e.reset.nHead = t0.e.nHead := hh
        have hcnt' : e.reset.count = t0.e.count := hcnt
        have hin' : e.reset.withInput t0.encDim = e.reset := by rw [← hin]; rfl
        rw [hh', hcnt', hin', if_neg h1, if_neg h2, if_neg h3]
        simp only [ne_eq, setFlag_eq l2_ne, setFlag_again]
        have := encLayer_reset (encLayer_again he)
        have hc2 : decide (¬t0.norm = SCALED_L2_NORMALIZATION ∧ t0.e.count = 0) = decide (e.count = 0) := by
          rw [hcnt]
          exact hb
        rw [hc2, this]
        rfl

theorem loadDec_rd (root : Int → α) (rnd noisy : Nat → α) {t : SDec α} (h : t.Made) :
    Rd (loadDec root rnd noisy) (decCells t) t.reset := by
  obtain ⟨dm, dl, t0, hm, he⟩ := h.made
  obtain ⟨d, hl⟩ := h.lin
  unfold loadDec decCells headDec
  simp only [List.cons_append, List.nil_append]
  refine Rd.int (Rd.int (Rd.int (Rd.int (Rd.int (Rd.int (Rd.int (Rd.int (Rd.int ?_))))))))
  rw [← h.l2, ← h.nHeads, Int.toNat_natCast]
  refine Rd.bind (Rd.many t.l2 fun l hl => l2_rd root (h.pos l hl)) ?_ rfl
  refine Rd.bind (rd_many_map t.heads fun x hx => loadHead_rd rnd noisy (h.heads x hx)) ?_ rfl
  refine Rd.bind (loadNet_rd rnd noisy hl) ?_ rfl
  refine Rd.last (loadEnc_rd root rnd noisy he) (Rd.lift' ?_)
  rw [h.nHeads]
  exact decLayer_again hm

/-- **C128 (partial: `k_percentage`).** An encoder made by the constructor is loaded back
as it was: configuration, normalisation layers and all networks in their places. Only the
`k_percentage` of fully-connected layers becomes 1 (refuted in C45). -/
theorem C128_encoder_partial (root : Int → α) (rnd noisy : Nat → α) (t : SEnc α) (dm dl : Nat) (h : t.Made dm dl) :
    GivesBack saveEnc (fun s => (loadEnc root rnd noisy s).map fun r => (r.1.1, r.2)) t t.reset :=
  givesBack_of (saveEnc_eq h) fun rest => by rw [loadEnc_rd root rnd noisy h rest]; rfl

/-- **C128 (partial: `k_percentage`).** The same for decoders. -/
theorem C128_decoder_partial (root : Int → α) (rnd noisy : Nat → α) (t : SDec α) (h : t.Made) :
    GivesBack saveDec (loadDec root rnd noisy) t t.reset :=
  givesBack_of (saveDec_eq h) (loadDec_rd root rnd noisy h)

/-- **C128 (partial: no decoders, `k_percentage`, state of the optimiser).** A transformer
without decoders is loaded back with its encoders in order; the connections, which nobody
reads then, become null, and the moments of the optimiser start again.

Full statement: the same with decoders and their connections, and with the state of the
optimiser; see the refutations below. -/
theorem C128_encoders_partial (root : Int → α) (rnd noisy : Nat → α) (b1 b2 b3 : α) (ptr : Nat → Int) (t : STr α)
    (hd : t.td = []) (hne : t.te ≠ []) (h : ∀ e ∈ t.te, ∃ dm dl, e.Made dm dl) :
    GivesBack (saveTr ptr) (loadTr root rnd noisy b1 b2 b3) t ⟨t.te.map SEnc.reset, [], none, b1, b2, b3⟩ := by
  refine givesBack_of (w := .int t.te.length :: .int 0 :: t.te.flatMap encCells) ?_ ?_
  · unfold saveTr
    rw [hd, if_neg (by simp), Option.bind_some, mapM_eq (w := encCells) _ fun e he => by
      obtain ⟨dm, dl, h⟩ := h e he
      exact saveEnc_eq h]
    simp [List.flatMap_def]
  · unfold loadTr
    refine Rd.int (Rd.int ?_)
    refine Rd.bind (w1 := []) (x := none) (by unfold loadConn; rw [if_pos rfl]; exact Rd.pure _) ?_ rfl
    rw [Int.toNat_natCast]
    have hmany : ∀ l : List (SEnc α), (∀ e ∈ l, ∃ dm dl, e.Made dm dl) →
        ∃ r, Rd (rdMany (loadEnc root rnd noisy) l.length) (l.flatMap encCells) r ∧ r.map Prod.fst = l.map SEnc.reset := by
      intro l
      induction l with
      | nil => intro _; exact ⟨[], Rd.pure _, rfl⟩
      | cons e l ih =>
        intro hl
        obtain ⟨dm, dl, he⟩ := hl e (by simp)
        obtain ⟨r, h1, h2⟩ := ih fun x hx => hl x (by simp [hx])
        exact ⟨(e.reset, dm, dl) :: r, Rd.bind (loadEnc_rd root rnd noisy he) (Rd.last h1 (Rd.pure _)) (List.flatMap_cons ..),
          by simp [h2]⟩
    obtain ⟨r, h1, h2⟩ := hmany t.te h
    refine Rd.last h1 ?_
    refine Rd.bind (w1 := []) (w2 := []) (x := []) (Rd.pure _) ?_ rfl
    have : (t.te.length : Int) ≠ 0 := by
      have := List.length_pos_of_ne_nil hne
      omega
    rw [if_neg this, h2]
    exact Rd.pure _

omit [LinearOrder α] [Zero α] [One α] in
/-- **C128, constructors.** Layers made with documented flags are stored as they were
given, so the layers of the theorems above are the ones the user described. -/
theorem C128_constructors (b : Bool) (dm dl : Nat) (t t' : SEnc α) (h : encLayer b dm dl t = some t')
    (hn1 : t.norm1 = SCALED_L2_NORMALIZATION ∨ t.norm1 = NO_NORMALIZATION)
    (hn2 : t.norm2 = SCALED_L2_NORMALIZATION ∨ t.norm2 = NO_NORMALIZATION)
    (hr1 : t.res1 = TRANSFORMER_RESIDUAL ∨ t.res1 = TRANSFORMER_NO_RESIDUAL)
    (hr2 : t.res2 = TRANSFORMER_RESIDUAL ∨ t.res2 = TRANSFORMER_NO_RESIDUAL) :
    t' = t ∧ ∀ d d' : SDec α, d.e = t → d.encDim = t.inputDim → decLayer dm dl d = some d' →
      d.norm = SCALED_L2_NORMALIZATION ∨ d.norm = NO_NORMALIZATION →
      d.res = TRANSFORMER_RESIDUAL ∨ d.res = TRANSFORMER_NO_RESIDUAL → d' = d := by
  have key : ∀ {a b x : Int}, x = a ∨ x = b → setFlag a b x = x := by
    intro a b x h
    unfold setFlag
    split
    · tauto
    · rfl
  have hs : t.setFlags = t := by
    unfold SEnc.setFlags
    rw [key hn1, key hn2, key hr1, key hr2]
  refine ⟨(encLayer_some h).2.trans hs, ?_⟩
  intro d d' he hi hd hn hr
  unfold decLayer at hd
  split at hd
  · cases hd
  · split at hd
    · cases hd
    · split at hd
      · cases hd
      · obtain ⟨e, h1, h2⟩ := Option.bind_eq_some_iff.1 hd
        have h3 : d.e.withInput d.encDim = t := by rw [he, hi]; rfl
        rw [h3] at h1
        have h4 : e = d.e := by rw [(encLayer_some h1).2, hs, he]
        cases h2
        rw [key hn, key hr, h4]

omit [LinearOrder α] [Zero α] [One α] in
/-- **C128 refuted for two or more decoders.** Saving any such transformer ends the
program. -/
theorem C128_decoders_refuted (ptr : Nat → Int) (t : STr α) (hne : t.te ≠ []) (hc : t.conn.isSome = true) (hd : 2 ≤ t.td.length) :
    saveTr ptr t = none := by
  unfold saveTr
  rw [if_pos ⟨by omega, hc⟩]
  have : (List.range t.te.length).mapM (saveRow (α := α) ptr t.td.length) = none := by
    obtain ⟨k, hk⟩ : ∃ k, t.te.length = k + 1 := ⟨t.te.length - 1, by have := List.length_pos_of_ne_nil hne; omega⟩
    rw [hk, List.range_succ_eq_map, List.mapM_cons]
    have : saveRow (α := α) ptr t.td.length 0 = none := by
      unfold saveRow
      rw [if_pos (by omega)]
    rw [this]
    rfl
  rw [this]
  rfl

/-- **C128 refuted for one decoder and two or more encoders.** Whatever follows the two
numbers at the beginning of the file, loading it is undefined: the array of the rows of
connections is too small. -/
theorem C128_one_decoder_refuted (root : Int → α) (rnd noisy : Nat → α) (b1 b2 b3 : α) (ptr : Nat → Int) (t : STr α)
    (he : 2 ≤ t.te.length) (hd : t.td.length = 1) (w rest : File α) (h : saveTr ptr t = some w) :
    loadTr root rnd noisy b1 b2 b3 (w ++ rest) = none := by
  obtain ⟨v, rfl⟩ : ∃ v, w = .int t.te.length :: .int t.td.length :: v := by
    unfold saveTr at h
    obtain ⟨rows, -, h⟩ := Option.bind_eq_some_iff.1 h
    obtain ⟨a, -, h⟩ := Option.bind_eq_some_iff.1 h
    obtain ⟨b, -, h⟩ := Option.bind_eq_some_iff.1 h
    exact ⟨_, (Option.some.inj h).symm⟩
  have hrow : ∀ s : File α, loadRow (1 : Int) 1 s = none := by
    intro s
    unfold loadRow
    rw [if_pos (by simp)]
    rfl
  have hconn : ∀ s : File α, loadConn (t.te.length : Int) ((t.td.length : Nat) : Int) s = none := by
    intro s
    unfold loadConn
    rw [hd, if_neg (by decide), Int.toNat_natCast]
    obtain ⟨k, hk⟩ : ∃ k, t.te.length = k + 2 := ⟨t.te.length - 2, by omega⟩
    rw [hk]
    have h2 : ∀ s : File α, loadRows (1 : Int) 1 (k + 1) s = none := by
      intro s
      show (loadRow (1 : Int) 1 s).bind (fun r => (loadRows (1 : Int) 2 k r.2).bind fun l => some (r.1 :: l.1, l.2)) = none
      rw [hrow]
      rfl
    have h1 : loadRows (1 : Int) 0 (k + 2) s = none := by
      show (loadRow (1 : Int) 0 s).bind (fun r => (loadRows (1 : Int) 1 (k + 1) r.2).bind fun l => some (r.1 :: l.1, l.2)) = none
      simp only [h2, Option.bind_none, Option.bind_fun_none]
    show (loadRows (1 : Int) 0 (k + 2) s).bind (fun l => some (some l.1, l.2)) = none
    rw [h1]
    rfl
  show (loadConn (t.te.length : Int) ((t.td.length : Nat) : Int) (v ++ rest)).bind _ = none
  rw [hconn]
  rfl

/-- **C128 refuted for one encoder and one decoder.** The connection that is loaded is the
beginning of the address at which the row of connections happened to be. -/
theorem C128_connection_refuted (root : Int → α) (rnd noisy : Nat → α) (b1 b2 b3 : α) (ptr : Nat → Int) (e : SEnc α) (d : SDec α)
    (c : Int) (β1 β2 β3 : α) (he : ∃ dm dl, e.Made dm dl) (hd : d.Made) :
    GivesBack (saveTr ptr) (loadTr root rnd noisy b1 b2 b3) ⟨[e], [d], some [[c]], β1, β2, β3⟩
      ⟨[e.reset], [d.reset], some [[ptr 0]], b1, b2, b3⟩ := by
  obtain ⟨dm, dl, he⟩ := he
  refine givesBack_of (w := .int 1 :: .int 1 :: .int (ptr 0) :: (encCells e ++ decCells d)) ?_ ?_
  · unfold saveTr
    rw [if_pos (by simp)]
    have h1 : (List.range 1).mapM (saveRow (α := α) ptr 1) = some [[.int (ptr 0)]] := rfl
    show ((List.range 1).mapM (saveRow (α := α) ptr 1)).bind _ = _
    rw [h1, Option.bind_some, mapM_eq (w := encCells) [e] (fun x hx => by
      obtain rfl : x = e := by simpa using hx
      exact saveEnc_eq he), Option.bind_some, mapM_eq (w := decCells) [d] (fun x hx => by
      obtain rfl : x = d := by simpa using hx
      exact saveDec_eq hd), Option.bind_some]
    simp
  · unfold loadTr
    refine Rd.int (Rd.int ?_)
    refine Rd.bind (w1 := [.int (ptr 0)]) (x := some [[ptr 0]]) (fun _ => rfl) ?_ rfl
    have h1 : Rd (rdMany (loadEnc root rnd noisy) 1) (encCells e) [(e.reset, dm, dl)] :=
      Rd.last (loadEnc_rd root rnd noisy he) (Rd.last (Rd.pure _) (Rd.pure _))
    have h2 : Rd (rdMany (loadDec root rnd noisy) 1) (decCells d) [d.reset] :=
      Rd.last (loadDec_rd root rnd noisy hd) (Rd.last (Rd.pure _) (Rd.pure _))
    refine Rd.bind h1 ?_ rfl
    refine Rd.last h2 ?_
    rw [if_neg (by decide)]
    exact Rd.pure _

end

/-! ### Non-vacuity -/

/-- An encoder of two heads with both normalisations, made of `net1`. -/
def enc1 : SEnc ℚ := ⟨1, 1, 2, 2, 2, 1, 0, 5, 5, [⟨1, 0, 3⟩, ⟨1, 0, 4⟩], [(net1, net1, net1), (net1, net1, net1)], net1, net1⟩

theorem net1_good : net1.Good 1 :=
  ⟨net1_wf, ⟨[], [], net1.vFcls, .fcl ⟨0, 1, 0⟩, by decide, rfl⟩, by simp [net1]⟩

theorem enc1_passes : encLayer false 1 1 enc1 = some enc1 := by
  unfold encLayer
  rw [if_pos ⟨by decide, by decide, by decide, by decide, fun _ => rfl, fun _ => rfl⟩]
  rfl

theorem enc1_made : enc1.Made 1 1 := by
  refine ⟨⟨false, enc1, enc1_passes⟩, rfl, by decide, rfl, ?_, net1_good, net1_good⟩
  intro h hh
  have : h = (net1, net1, net1) := by
    rcases List.mem_cons.1 hh with h | h
    · exact h
    · simpa using h
  rw [this]
  exact ⟨1, 1, 1, net1_good, net1_good, net1_good⟩

/-- A decoder of one head with its own normalisation. -/
def dec1 : SDec ℚ := ⟨1, 1, 2, 1, 1, 2, 1, 5, 2, [⟨1, 0, 7⟩], [(net1, net1, net1)], net1, enc1⟩

theorem dec1_passes : decLayer 1 1 dec1 = some dec1 := by
  unfold decLayer
  rw [if_neg (by decide), if_neg (by decide), if_neg (by decide)]
  have : encLayer (decide (dec1.norm ≠ SCALED_L2_NORMALIZATION ∧ dec1.e.count = 0)) 1 1 (dec1.e.withInput dec1.encDim) = some enc1 :=
    enc1_passes
  rw [this]
  rfl

theorem dec1_made : dec1.Made := by
  refine ⟨⟨1, 1, dec1, dec1_passes, enc1_made⟩, rfl, by decide, rfl, ?_, 1, net1_good⟩
  intro h hh
  obtain rfl : h = (net1, net1, net1) := by simpa [dec1] using hh
  exact ⟨1, 1, 1, net1_good, net1_good, net1_good⟩

/-- Non-vacuity of C128. -/
example : (∃ dm dl, enc1.Made dm dl) ∧ dec1.Made ∧
    (∀ e ∈ [enc1, enc1], ∃ dm dl, e.Made dm dl) :=
  ⟨⟨1, 1, enc1_made⟩, dec1_made, fun e he => by
    have : e = enc1 := by
      rcases List.mem_cons.1 he with h | h
      · exact h
      · simpa using h
    rw [this]
    exact ⟨1, 1, enc1_made⟩⟩

/-- Non-vacuity of `C128_constructors`. -/
example : encLayer false 1 1 enc1 = some enc1 ∧ dec1.e = enc1 ∧ dec1.encDim = enc1.inputDim ∧ ∃ d', decLayer 1 1 dec1 = some d' :=
  ⟨enc1_passes, rfl, rfl, _, dec1_passes⟩

/-- Two encoders and a decoder can be saved. -/
example : ∃ w, saveTr (fun j => 1000 + j) (⟨[enc1, enc1], [dec1], some [[1], [0]], 0, 0, 0⟩ : STr ℚ) = some w := by
  unfold saveTr
  rw [if_pos (by decide)]
  have h1 : (List.range 2).mapM (saveRow (α := ℚ) (fun j => 1000 + j) 1) = some [[.int 1000], [.int 1001]] := rfl
  show ∃ w, ((List.range 2).mapM (saveRow (α := ℚ) (fun j => 1000 + j) 1)).bind _ = some w
  rw [h1, Option.bind_some, mapM_eq (w := encCells) [enc1, enc1] (fun x hx => by
      obtain rfl : x = enc1 := by simpa using hx
      exact saveEnc_eq enc1_made), Option.bind_some, mapM_eq (w := decCells) [dec1] (fun x hx => by
      obtain rfl : x = dec1 := by simpa using hx
      exact saveDec_eq dec1_made), Option.bind_some]
  exact ⟨_, rfl⟩

end LLab.Save
