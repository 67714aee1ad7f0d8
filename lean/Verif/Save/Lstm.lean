import Verif.Save.Fcl

/-!
Saving and loading LSTM layers (`/repo/src/recurrent_layers.c`). Property C45.

The arrays `w_active_output_neurons` and `u_active_output_neurons`, which `load_lstm`
recomputes, are not modelled.
-/

namespace LLab.Save

variable {α : Type}

/-- `LSTM_RESIDUAL` (`/repo/src/llab.h` 135) -/
def LSTM_RESIDUAL : Int := 1

/-- The arguments of `recurrent_lstm`. -/
@[ext] structure LstmArgs (α : Type) where
  inputSize : Int
  outputSize : Int
  dropoutFlagUp : Int
  dropoutThresholdUp : α
  dropoutFlagRight : Int
  dropoutThresholdRight : α
  layer : Int
  window : Int
  residualFlag : Int
  normFlag : Int
  nGroupedCell : Int
  trainingMode : Int
  ffFlag : Int
deriving DecidableEq

/-- The arrays of one of the four gates. An array that is not allocated is empty. -/
@[ext] structure Gate (α : Type) where
  w : List α
  u : List α
  b : List α
  wScores : List α
  wIndices : List Int
  uIndices : List Int
  uScores : List α
deriving DecidableEq

/-- The modelled part of `lstm` (`/repo/src/llab.h` 384-428). -/
@[ext] structure Lstm (α : Type) where
  args : LstmArgs α
  kPercentage : α
  gates : List (Gate α)
  bns : List (Bn α)
deriving DecidableEq

namespace LstmArgs

/-- The conditions under which `recurrent_lstm` neither calls `exit(1)` nor divides by
zero (`/repo/src/recurrent_layers.c` 43-64). -/
def ok (a : LstmArgs α) : Prop :=
  ¬(a.layer < 0 ∨ a.inputSize ≤ 0 ∨ a.outputSize ≤ 0) ∧ ¬(a.window < 2) ∧
  (a.normFlag = GROUP_NORMALIZATION →
    a.nGroupedCell ≠ 0 ∧ ¬(a.nGroupedCell > a.window ∨ a.window.tmod a.nGroupedCell ≠ 0)) ∧
  ¬(a.residualFlag = LSTM_RESIDUAL ∧ a.inputSize ≠ a.outputSize)

instance (a : LstmArgs α) : Decidable a.ok := by unfold ok; infer_instance

/-- Without dropout the threshold is set to 0 (`/repo/src/recurrent_layers.c` 124-127). -/
def norm [Zero α] (a : LstmArgs α) : LstmArgs α :=
  { a with
    dropoutThresholdUp := if a.dropoutFlagUp = NO_DROPOUT then 0 else a.dropoutThresholdUp
    dropoutThresholdRight := if a.dropoutFlagRight = NO_DROPOUT then 0 else a.dropoutThresholdRight }

/-- `exists_edge_popup_stuff_lstm` (`/repo/src/recurrent_layers.c` 429-431). -/
def edge (a : LstmArgs α) : Prop := a.trainingMode = EDGE_POPUP ∨ a.ffFlag = EDGE_POPUP

instance (a : LstmArgs α) : Decidable a.edge := by unfold edge; infer_instance

def wSize (a : LstmArgs α) : Nat := (a.outputSize * a.inputSize).toNat
def uSize (a : LstmArgs α) : Nat := (a.outputSize * a.outputSize).toNat
def bSize (a : LstmArgs α) : Nat := a.outputSize.toNat

/-- `window/n_grouped_cell` -/
def nNorm (a : LstmArgs α) : Nat := (a.window.tdiv a.nGroupedCell).toNat

end LstmArgs

/-- `recurrent_lstm` (`/repo/src/recurrent_layers.c` 42-243). The arrays of scores and
indices are allocated in the `else if` of `training_mode != EDGE_POPUP` (196-216): when
only `feed_forward_flag` is `EDGE_POPUP` their pointers stay uninitialised. -/
def lstmNew [Zero α] [One α] (rndW rndU : Nat → Nat → α) (a : LstmArgs α) : Option (Lstm α) :=
  if ¬a.ok then none
  else
    ((List.range (if a.normFlag = GROUP_NORMALIZATION then a.nNorm else 0)).mapM fun _ =>
      bnNew a.nGroupedCell a.outputSize).bind fun bns =>
      some ⟨a.norm, 1,
        (List.range 4).map fun i =>
          { w := (List.range a.wSize).map (rndW i), u := (List.range a.uSize).map (rndU i),
            b := List.replicate a.bSize 0,
            wScores := if a.trainingMode = EDGE_POPUP then List.replicate a.wSize 0 else [],
            wIndices := if a.trainingMode = EDGE_POPUP then (List.range a.wSize).map Int.ofNat else [],
            uIndices := if a.trainingMode = EDGE_POPUP then (List.range a.uSize).map Int.ofNat else [],
            uScores := if a.trainingMode = EDGE_POPUP then List.replicate a.uSize 0 else [] },
        bns⟩

/-- `w`, `u` and `biases` of a gate (`/repo/src/recurrent_layers.c` 789-811). -/
def saveGateW (a : LstmArgs α) (g : Gate α) : Option (File α) :=
  (wrFlts g.w a.wSize).bind fun w => (wrFlts g.u a.uSize).bind fun u => (wrFlts g.b a.bSize).bind fun b =>
    some (w ++ (u ++ b))

/-- Scores and indices of a gate (`/repo/src/recurrent_layers.c` 813-843). -/
def saveGateS (a : LstmArgs α) (g : Gate α) : Option (File α) :=
  (wrFlts g.wScores a.wSize).bind fun ws => (wrInts g.wIndices a.wSize).bind fun wi =>
    (wrInts g.uIndices a.uSize).bind fun ui => (wrFlts g.uScores a.uSize).bind fun us =>
      some (ws ++ (wi ++ (ui ++ us)))

/-- `save_lstm` (`/repo/src/recurrent_layers.c` 670-858): the cells appended. -/
def saveLstm (f : Lstm α) : Option (File α) :=
  (f.gates.mapM (saveGateW f.args)).bind fun gs =>
    (if f.args.edge then (f.gates.mapM (saveGateS f.args)).bind fun l => some l.flatten else some []).bind fun es =>
      (if f.args.normFlag = GROUP_NORMALIZATION then
        if f.bns.length < f.args.nNorm then none
        else ((f.bns.take f.args.nNorm).mapM saveBn).bind fun l => some l.flatten
      else some []).bind fun bs =>
        some (.int f.args.ffFlag :: .flt f.kPercentage :: .int f.args.trainingMode :: .int f.args.residualFlag ::
          .int f.args.normFlag :: .int f.args.nGroupedCell :: .int f.args.inputSize :: .int f.args.outputSize ::
          .int f.args.layer :: .int f.args.dropoutFlagUp :: .int f.args.dropoutFlagRight :: .int f.args.window ::
          .flt f.args.dropoutThresholdUp :: .flt f.args.dropoutThresholdRight :: (gs.flatten ++ (es ++ bs)))

/-- Reading `w`, `u` and `biases` of a gate (`/repo/src/recurrent_layers.c` 989-1013). -/
def loadGateW (a : LstmArgs α) : Read α (List α × List α × List α) := do
  let w ← rdFlts a.wSize
  let u ← rdFlts a.uSize
  let b ← rdFlts a.bSize
  return (w, u, b)

/-- Reading scores and indices of a gate (`/repo/src/recurrent_layers.c` 1015-1045). -/
def loadGateS (a : LstmArgs α) : Read α (List α × List Int × List Int × List α) := do
  let ws ← rdFlts a.wSize
  let wi ← rdInts a.wSize
  let ui ← rdInts a.uSize
  let us ← rdFlts a.uSize
  return (ws, wi, ui, us)

/-- The copies into a gate of the new layer (`/repo/src/recurrent_layers.c` 1056-1064). -/
def copyGate (a : LstmArgs α) (x : List α × List α × List α) (y : List α × List Int × List Int × List α)
    (g : Gate α) : Option (Gate α) :=
  (copyN x.1 g.w a.wSize).bind fun w => (copyN x.2.1 g.u a.uSize).bind fun u => (copyN x.2.2 g.b a.bSize).bind fun b =>
    if a.edge then
      (copyN y.1 g.wScores a.wSize).bind fun ws => (copyN y.2.2.2 g.uScores a.uSize).bind fun us =>
        (copyN y.2.2.1 g.uIndices a.uSize).bind fun ui => (copyN y.2.1 g.wIndices a.wSize).bind fun wi =>
          some ⟨w, u, b, ws, wi, ui, us⟩
    else some { g with w := w, u := u, b := b }

/-- The copies into the four gates. -/
def copyGates (a : LstmArgs α) : List (List α × List α × List α) → List (List α × List Int × List Int × List α) →
    List (Gate α) → Option (List (Gate α))
  | x :: xs, y :: ys, g :: gs => (copyGate a x y g).bind fun g => (copyGates a xs ys gs).bind fun gs => some (g :: gs)
  | [], _, [] => some []
  | _, _, _ => none

/-- `load_lstm` (`/repo/src/recurrent_layers.c` 867-1107). -/
def loadLstm [Zero α] [One α] (rndW rndU : Nat → Nat → α) : Read α (Lstm α) := do
  let ffFlag ← rdInt
  let kPercentage ← rdFlt
  let trainingMode ← rdInt
  let residualFlag ← rdInt
  let normFlag ← rdInt
  let nGroupedCell ← rdInt
  let inputSize ← rdInt
  let outputSize ← rdInt
  let layer ← rdInt
  let dropoutFlagUp ← rdInt
  let dropoutFlagRight ← rdInt
  let window ← rdInt
  let dropoutThresholdUp ← rdFlt
  let dropoutThresholdRight ← rdFlt
  let a : LstmArgs α := ⟨inputSize, outputSize, dropoutFlagUp, dropoutThresholdUp, dropoutFlagRight,
    dropoutThresholdRight, layer, window, residualFlag, normFlag, nGroupedCell, trainingMode, ffFlag⟩
  let gs ← rdMany (loadGateW a) 4
  let es ← (if a.edge then rdMany (loadGateS a) 4 else pure (List.replicate 4 ([], [], [], [])) :
    Read α (List (List α × List Int × List Int × List α)))
  let bs ← (if normFlag = GROUP_NORMALIZATION then rdMany loadBn a.nNorm else pure [] : Read α (List (Bn α)))
  let l ← Read.lift (lstmNew rndW rndU a)
  let gates ← Read.lift (copyGates a gs es l.gates)
  return { l with gates := gates, kPercentage := kPercentage,
                  bns := if normFlag = GROUP_NORMALIZATION then bs else l.bns }

/-- The sizes of the arrays of a gate. -/
structure Gate.WF (a : LstmArgs α) (g : Gate α) : Prop where
  w : g.w.length = a.wSize
  u : g.u.length = a.uSize
  b : g.b.length = a.bSize
  wScores : g.wScores.length = if a.trainingMode = EDGE_POPUP then a.wSize else 0
  wIndices : g.wIndices.length = if a.trainingMode = EDGE_POPUP then a.wSize else 0
  uIndices : g.uIndices.length = if a.trainingMode = EDGE_POPUP then a.uSize else 0
  uScores : g.uScores.length = if a.trainingMode = EDGE_POPUP then a.uSize else 0

/-- An LSTM layer as the constructor makes it, with any contents of its arrays and any
`k_percentage`. -/
structure Lstm.WF [Zero α] (f : Lstm α) : Prop where
  ok : f.args.ok
  norm : f.args.norm = f.args
  len : f.gates.length = 4
  gates : ∀ g ∈ f.gates, g.WF f.args
  bns : f.bns.length = if f.args.normFlag = GROUP_NORMALIZATION then f.args.nNorm else 0
  bn : ∀ b ∈ f.bns, b.WF ∧ b.batch = f.args.nGroupedCell ∧ b.dim = f.args.outputSize

section
variable [Zero α]

theorem Lstm.WF.pos {f : Lstm α} (h : f.WF) : f.args.wSize ≠ 0 ∧ f.args.uSize ≠ 0 ∧ f.args.bSize ≠ 0 := by
  obtain ⟨h1, -⟩ := h.ok
  have a1 : 0 < f.args.inputSize := by omega
  have a2 : 0 < f.args.outputSize := by omega
  have b1 := mul_pos a2 a1
  have b2 := mul_pos a2 a2
  unfold LstmArgs.wSize LstmArgs.uSize LstmArgs.bSize
  omega

theorem mapM_bnNew [One α] {β : Type} {x y : Int} {l : List β} {r : List (Bn α)}
    (h : l.mapM (fun _ => bnNew x y) = some r) :
    r.length = l.length ∧ ∀ b ∈ r, b.WF ∧ b.batch = x ∧ b.dim = y := by
  induction l generalizing r with
  | nil => cases h; simp
  | cons c l ih =>
    rw [List.mapM_cons] at h
    cases hl : l.mapM (fun _ => bnNew (α := α) x y) with
    | none => rw [hl] at h; cases hb : bnNew (α := α) x y <;> simp at h
    | some r' =>
      rw [hl] at h
      cases hb : bnNew (α := α) x y with
      | none => rw [hb] at h; simp at h
      | some b =>
        rw [hb] at h
        cases h
        obtain ⟨i1, i2⟩ := ih hl
        refine ⟨by simp [i1], ?_⟩
        intro b' hb'
        rcases List.mem_cons.mp hb' with rfl | hb'
        · exact bnNew_wf hb
        · exact i2 _ hb'

theorem LstmArgs.norm_norm (a : LstmArgs α) : a.norm.norm = a.norm := by
  unfold LstmArgs.norm
  dsimp only
  congr 1 <;> split <;> simp_all

/-- The constructor makes a well-formed layer. -/
theorem lstmNew_wf [One α] {rndW rndU : Nat → Nat → α} {a : LstmArgs α} {f : Lstm α} (h : lstmNew rndW rndU a = some f) :
    f.WF ∧ f.args = a.norm := by
  unfold lstmNew at h
  split at h
  · simp at h
  · next hok =>
    have hok := not_not.mp hok
    cases hb : (List.range (if a.normFlag = GROUP_NORMALIZATION then a.nNorm else 0)).mapM fun _ =>
      bnNew (α := α) a.nGroupedCell a.outputSize with
    | none => rw [hb] at h; simp at h
    | some bns =>
      rw [hb, Option.bind_some] at h
      cases h
      obtain ⟨h1, h2⟩ := mapM_bnNew hb
      refine ⟨⟨hok, LstmArgs.norm_norm a, by simp, ?_, by rw [h1, List.length_range]; rfl, h2⟩, rfl⟩
      intro g hg
      obtain ⟨i, -, rfl⟩ := List.mem_map.mp hg
      refine ⟨by simp [LstmArgs.wSize, LstmArgs.norm], by simp [LstmArgs.uSize, LstmArgs.norm],
        by simp [LstmArgs.bSize, LstmArgs.norm], ?_, ?_, ?_, ?_⟩ <;>
        simp only [LstmArgs.wSize, LstmArgs.uSize, LstmArgs.norm] <;> split <;> simp [*]

theorem mapM_some_of {β γ : Type} {g : β → Option γ} : (l : List β) → (∀ x ∈ l, ∃ y, g x = some y) → ∃ r, l.mapM g = some r
  | [], _ => ⟨_, rfl⟩
  | x :: l, h => by
    obtain ⟨y, hy⟩ := h x (by simp)
    obtain ⟨r, hr⟩ := mapM_some_of l fun z hz => h z (by simp [hz])
    exact ⟨y :: r, by rw [List.mapM_cons, hy, hr]; rfl⟩

theorem lstmNew_some [One α] (rndW rndU : Nat → Nat → α) {f : Lstm α} (h : f.WF) :
    ∃ g, lstmNew rndW rndU f.args = some g := by
  unfold lstmNew
  rw [if_neg (not_not.mpr h.ok)]
  obtain ⟨r, hr⟩ := mapM_some_of (g := fun _ => bnNew (α := α) f.args.nGroupedCell f.args.outputSize)
      (List.range (if f.args.normFlag = GROUP_NORMALIZATION then f.args.nNorm else 0)) (by
    intro i hi
    have hl := h.bns
    split at hi
    · next c =>
      rw [if_pos c] at hl
      have : 0 < f.bns.length := by rw [hl]; exact lt_of_le_of_lt (Nat.zero_le _) (List.mem_range.mp hi)
      obtain ⟨k1, k2, k3⟩ := h.bn _ (List.getElem_mem this)
      have k4 := k1.batch
      have k5 := k1.dim
      unfold bnNew
      rw [if_neg (by omega)]
      exact ⟨_, rfl⟩
    · simp at hi)
  rw [hr, Option.bind_some]
  exact ⟨_, rfl⟩

omit [Zero α] in
/-- The cells of `w`, `u` and `biases`. -/
def gateWCells (g : Gate α) : File α := g.w.map .flt ++ (g.u.map .flt ++ g.b.map .flt)

omit [Zero α] in
/-- The cells of scores and indices. -/
def gateSCells (g : Gate α) : File α :=
  g.wScores.map .flt ++ (g.wIndices.map .int ++ (g.uIndices.map .int ++ g.uScores.map .flt))

/-- The cells of an LSTM layer. -/
def lstmCells (f : Lstm α) : File α :=
  .int f.args.ffFlag :: .flt f.kPercentage :: .int f.args.trainingMode :: .int f.args.residualFlag ::
    .int f.args.normFlag :: .int f.args.nGroupedCell :: .int f.args.inputSize :: .int f.args.outputSize ::
    .int f.args.layer :: .int f.args.dropoutFlagUp :: .int f.args.dropoutFlagRight :: .int f.args.window ::
    .flt f.args.dropoutThresholdUp :: .flt f.args.dropoutThresholdRight ::
    (f.gates.flatMap gateWCells ++ ((if f.args.edge then f.gates.flatMap gateSCells else []) ++
      (if f.args.normFlag = GROUP_NORMALIZATION then f.bns.flatMap bnCells else [])))

theorem saveLstm_eq {f : Lstm α} (h : f.WF) (he : f.args.edge → f.args.trainingMode = EDGE_POPUP) :
    saveLstm f = some (lstmCells f) := by
  obtain ⟨p1, p2, p3⟩ := h.pos
  have e1 : f.gates.mapM (saveGateW f.args) = some (f.gates.map gateWCells) := by
    refine mapM_eq _ fun g hg => ?_
    have k := h.gates g hg
    unfold saveGateW
    rw [wrFlts_eq k.w p1, Option.bind_some, wrFlts_eq k.u p2, Option.bind_some, wrFlts_eq k.b p3]
    rfl
  have e2 : (if f.args.edge then (f.gates.mapM (saveGateS f.args)).bind fun l => some l.flatten else some []) =
      some (if f.args.edge then f.gates.flatMap gateSCells else []) := by
    split
    · next c =>
      have c' := he c
      rw [mapM_eq (w := gateSCells), Option.bind_some, List.flatMap_def]
      intro g hg
      have k := h.gates g hg
      have k1 := k.wScores
      have k2 := k.wIndices
      have k3 := k.uIndices
      have k4 := k.uScores
      rw [if_pos c'] at k1 k2 k3 k4
      unfold saveGateS
      rw [wrFlts_eq k1 p1, Option.bind_some, wrInts_eq k2 p1, Option.bind_some, wrInts_eq k3 p2, Option.bind_some,
        wrFlts_eq k4 p2]
      rfl
    · rfl
  have e3 : (if f.args.normFlag = GROUP_NORMALIZATION then
        if f.bns.length < f.args.nNorm then none
        else ((f.bns.take f.args.nNorm).mapM saveBn).bind fun l => some l.flatten
      else some []) = some (if f.args.normFlag = GROUP_NORMALIZATION then f.bns.flatMap bnCells else []) := by
    have n := h.bns
    split
    · next c =>
      rw [if_pos c] at n
      rw [if_neg (by omega), List.take_of_length_le (by omega),
        mapM_eq (w := bnCells) _ fun b hb => saveBn_eq (h.bn b hb).1, Option.bind_some, List.flatMap_def]
    · rfl
  unfold saveLstm lstmCells
  rw [e1, Option.bind_some, e2, Option.bind_some, e3, Option.bind_some, ← List.flatMap_def]

omit [Zero α] in
theorem copyGates_eq {a : LstmArgs α} (he : a.edge → a.trainingMode = EDGE_POPUP) :
    (gs hs : List (Gate α)) → gs.length = hs.length → (∀ g ∈ gs, g.WF a) → (∀ g ∈ hs, g.WF a) →
    copyGates a (gs.map fun g => (g.w, g.u, g.b)) (gs.map fun g => (g.wScores, g.wIndices, g.uIndices, g.uScores)) hs =
      some gs
  | [], [], _, _, _ => rfl
  | g :: gs, k :: ks, e, h1, h2 => by
    have a1 := h1 g (by simp)
    have a2 := h2 k (by simp)
    have c : copyGate a (g.w, g.u, g.b) (g.wScores, g.wIndices, g.uIndices, g.uScores) k = some g := by
      unfold copyGate
      rw [copyN_eq a1.w a2.w, Option.bind_some, copyN_eq a1.u a2.u, Option.bind_some, copyN_eq a1.b a2.b,
        Option.bind_some]
      obtain ⟨w, u, b, b1, b2, b3, b4⟩ := a1
      obtain ⟨-, -, -, c1, c2, c3, c4⟩ := a2
      split
      · next c =>
        rw [if_pos (he c)] at b1 b2 b3 b4 c1 c2 c3 c4
        rw [copyN_eq b1 c1, Option.bind_some, copyN_eq b4 c4, Option.bind_some, copyN_eq b3 c3, Option.bind_some,
          copyN_eq b2 c2, Option.bind_some]
      · next c =>
        have c' : a.trainingMode ≠ EDGE_POPUP := fun e => c (Or.inl e)
        rw [if_neg c'] at b1 b2 b3 b4 c1 c2 c3 c4
        rw [List.length_eq_zero_iff] at b1 b2 b3 b4 c1 c2 c3 c4
        congr 1
        exact Gate.ext rfl rfl rfl (by rw [b1]; exact c1) (by rw [b2]; exact c2) (by rw [b3]; exact c3)
          (by rw [b4]; exact c4)
    rw [List.map_cons, List.map_cons]
    unfold copyGates
    rw [c, Option.bind_some, copyGates_eq he gs ks (by simpa using e) (fun x hx => h1 x (by simp [hx]))
      (fun x hx => h2 x (by simp [hx])), Option.bind_some]

/-- Loading reads back the layer. -/
theorem loadLstm_rd [One α] (rndW rndU : Nat → Nat → α) {f : Lstm α} (h : f.WF)
    (he : f.args.edge → f.args.trainingMode = EDGE_POPUP) : Rd (loadLstm rndW rndU) (lstmCells f) f := by
  obtain ⟨p1, p2, p3⟩ := h.pos
  obtain ⟨g, hg⟩ := lstmNew_some rndW rndU h
  obtain ⟨w, ha⟩ := lstmNew_wf hg
  rw [h.norm] at ha
  unfold loadLstm lstmCells
  refine Rd.int (Rd.flt (Rd.int (Rd.int (Rd.int (Rd.int (Rd.int (Rd.int (Rd.int (Rd.int (Rd.int (Rd.int (Rd.flt
    (Rd.flt ?_)))))))))))))
  dsimp only
  refine Rd.bind (x := f.gates.map fun g => (g.w, g.u, g.b)) ?_ ?_ rfl
  · have := Rd.many (p := loadGateW f.args) (g := fun x => x.1.map .flt ++ (x.2.1.map .flt ++ x.2.2.map .flt))
      (f.gates.map fun g => (g.w, g.u, g.b)) (by
        intro x hx
        obtain ⟨g, hg, rfl⟩ := List.mem_map.mp hx
        have k := h.gates g hg
        exact Rd.bind (Rd.flts k.w p1) (Rd.bind (Rd.flts k.u p2) (Rd.last (Rd.flts k.b p3) (Rd.pure _)) rfl) rfl)
    rw [List.length_map, h.len, List.flatMap_map] at this
    exact this
  refine Rd.bind (x := f.gates.map fun g => (g.wScores, g.wIndices, g.uIndices, g.uScores)) ?_ ?_ rfl
  · refine Rd.ite (c := f.args.edge) (fun c => ?_) (fun c => ?_)
    · have := Rd.many (p := loadGateS f.args)
        (g := fun x => x.1.map .flt ++ (x.2.1.map .int ++ (x.2.2.1.map .int ++ x.2.2.2.map .flt)))
        (f.gates.map fun g => (g.wScores, g.wIndices, g.uIndices, g.uScores)) (by
          intro x hx
          obtain ⟨g, hg, rfl⟩ := List.mem_map.mp hx
          have k := h.gates g hg
          have k1 := k.wScores
          have k2 := k.wIndices
          have k3 := k.uIndices
          have k4 := k.uScores
          rw [if_pos (he c)] at k1 k2 k3 k4
          exact Rd.bind (Rd.flts k1 p1) (Rd.bind (Rd.ints k2 p1) (Rd.bind (Rd.ints k3 p2)
            (Rd.last (Rd.flts k4 p2) (Rd.pure _)) rfl) rfl) rfl)
      rw [List.length_map, h.len, List.flatMap_map] at this
      exact this
    · have : f.gates.map (fun g => (g.wScores, g.wIndices, g.uIndices, g.uScores)) =
          List.replicate 4 ([], [], [], []) := by
        rw [← h.len, ← List.map_const']
        refine List.map_congr_left fun g hg => ?_
        have k := h.gates g hg
        have k1 := k.wScores
        have k2 := k.wIndices
        have k3 := k.uIndices
        have k4 := k.uScores
        have c' : f.args.trainingMode ≠ EDGE_POPUP := fun e => c (Or.inl e)
        rw [if_neg c', List.length_eq_zero_iff] at k1 k2 k3 k4
        rw [k1, k2, k3, k4]
      rw [this]
      exact Rd.pure _
  refine Rd.last (x := f.bns) ?_ ?_
  · have n := h.bns
    refine Rd.ite (fun c => ?_) (fun c => ?_)
    · rw [if_pos c] at n
      have := Rd.many (p := loadBn) (g := bnCells) f.bns fun b hb => loadBn_rd (h.bn b hb).1
      rw [n] at this
      exact this
    · rw [if_neg c] at n
      rw [List.length_eq_zero_iff.mp n]
      exact Rd.pure _
  refine Rd.lift hg ?_
  refine Rd.lift (x := f.gates) ?_ ?_
  · refine copyGates_eq he f.gates g.gates (by rw [h.len, w.len]) h.gates ?_
    have := w.gates
    rw [ha] at this
    exact this
  have e : (if f.args.normFlag = GROUP_NORMALIZATION then f.bns else g.bns) = f.bns := by
    have v6 := h.bns
    have w6 := w.bns
    rw [ha] at w6
    split
    · rfl
    · next c => rw [if_neg c] at v6 w6; rw [List.length_eq_zero_iff.mp w6, List.length_eq_zero_iff.mp v6]
  rw [e, ha]
  exact Rd.pure _

end

end LLab.Save
