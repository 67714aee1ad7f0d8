import Verif.Save.Model
import Verif.Save.RModel

/-!
Saving and loading an EfficientZero model (`/repo/src/efficientzeromodel.c` 28-120, 776-1016). The parts
are saved with `save_model` and `save_rmodel` (`Save/Model.lean`, `Save/RModel.lean`). Property C147.
-/

namespace LLab.Save

variable {α : Type}

/-! ### Model -/

/-- The fields of an `efficientzeromodel` that are saved; the copies for the batch are made anew. -/
structure Ez (α : Type) where
  batchSize : Int
  lstmWindow : Int
  p1 : Option (Net α)
  p2 : Option (Net α)
  rapresentation : Net α
  dynamics : Net α
  prediction : Net α
  policy : Net α
  value : Net α
  reward : Net α
  temporal : Net α
  rmodel : RNet α

/-- The checks of `init_efficientzero_model` (`/repo/src/efficientzeromodel.c` 28-46); `none` is `exit(1)`.
The window of the recurrent model is not compared with `lstm_window`. -/
def initEz (m : Ez α) : Option (Ez α) :=
  if m.batchSize < 1 ∨ m.lstmWindow < 2 then none
  else if m.p1.isSome ≠ m.p2.isSome then none
  else some m

/-- The four numbers written first (`/repo/src/efficientzeromodel.c` 794-830). -/
def headEz (m : Ez α) : File α :=
  [.int m.batchSize, .int m.lstmWindow, .int (if m.p1.isSome then 1 else 0), .int (if m.p2.isSome then 1 else 0)]

/-- `if(p) save_model(p,n)`. -/
def saveOpt (p : Option (Net α)) (n : Nat) (d : Disk α) : Option (Disk α) :=
  match p with
  | none => some d
  | some m => saveModel m n d

/-- The calls after the header (`/repo/src/efficientzeromodel.c` 839-852). -/
def saveParts (m : Ez α) (n : Nat) (d : Disk α) : Option (Disk α) :=
  (saveOpt m.p1 n d).bind fun d => (saveOpt m.p2 n d).bind fun d =>
    (saveModel m.rapresentation n d).bind fun d => (saveModel m.dynamics n d).bind fun d =>
      (saveModel m.prediction n d).bind fun d => (saveModel m.policy n d).bind fun d =>
        (saveModel m.value n d).bind fun d => (saveModel m.reward n d).bind fun d =>
          (saveModel m.temporal n d).bind fun d => (saveRModel m.rmodel).bind fun w => some (append d "" n w)

/-- `save_efficientzero_model(m,n)` (`/repo/src/efficientzeromodel.c` 776-855). -/
def saveEz (m : Ez α) (n : Nat) (d : Disk α) : Option (Disk α) :=
  saveParts m n (append d "" n (headEz m))

/-- `save_efficientzero_model_given_directory(m,n,directory)` (`/repo/src/efficientzeromodel.c` 934-1016):
the header goes to the directory, the parts to the current directory. -/
def saveEzDir (m : Ez α) (n : Nat) (dir : String) (d : Disk α) : Option (Disk α) :=
  saveParts m n (append d dir n (headEz m))

/-- `load_model_with_file_already_opened`; when `network` refuses the layers the program ends. -/
def loadPart [LinearOrder α] [Zero α] [One α] (rnd noisy : Nat → α) : Read α (Net α) := do
  let r ← loadModel rnd noisy
  Read.lift (match r.2 with
    | .exit => none
    | .ok _ => some r.1)

/-- `if(p) load_model_with_file_already_opened(fr)`. -/
def loadOpt [LinearOrder α] [Zero α] [One α] (rnd noisy : Nat → α) (p : Int) : Read α (Option (Net α)) :=
  if p = 0 then pure none else do
    let m ← loadPart rnd noisy
    pure (some m)

/-- `load_efficientzeromodel(file,batch_size)` (`/repo/src/efficientzeromodel.c` 857-930). -/
def loadEz [LinearOrder α] [Zero α] [One α] (rnd noisy : Nat → α) (rndW rndU : Nat → Nat → α) (batch : Int) : Read α (Ez α) := do
  let _ ← rdInt
  let window ← rdInt
  let p1 ← rdInt
  let p2 ← rdInt
  let q1 ← loadOpt rnd noisy p1
  let q2 ← loadOpt rnd noisy p2
  let a ← loadPart rnd noisy
  let b ← loadPart rnd noisy
  let c ← loadPart rnd noisy
  let e ← loadPart rnd noisy
  let f ← loadPart rnd noisy
  let g ← loadPart rnd noisy
  let h ← loadPart rnd noisy
  let r ← loadRModel rndW rndU
  Read.lift (initEz ⟨batch, window, q1, q2, a, b, c, e, f, g, h, r⟩)

/-! ### Specification -/

section
variable [LinearOrder α] [Zero α] [One α]

/-- A model made by `network` from well-formed layers, as in C82. -/
structure Net.Saved (m : Net α) : Prop where
  wf : m.WF
  built : m.Built
  sizes : ∀ r ∈ m.rls, ∃ c, r.cls.getLast? = some c ∧ c.size.toNat = (r.channels * r.inputRows * r.inputCols).toNat

/-- All parts well formed, and the checks of the constructor. -/
structure Ez.Good (m : Ez α) : Prop where
  window : 2 ≤ m.lstmWindow
  both : m.p1.isSome = m.p2.isSome
  p1 : ∀ q ∈ m.p1, q.Saved
  p2 : ∀ q ∈ m.p2, q.Saved
  rapresentation : m.rapresentation.Saved
  dynamics : m.dynamics.Saved
  prediction : m.prediction.Saved
  policy : m.policy.Saved
  value : m.value.Saved
  reward : m.reward.Saved
  temporal : m.temporal.Saved
  rwf : m.rmodel.WF
  rbuilt : ∃ layers lstms window mode, recurrentNetwork layers lstms window mode = some (some m.rmodel)

/-- The model with the batch size `b` and every `k_percentage` of a fully-connected layer equal to 1. -/
def Ez.loaded (m : Ez α) (b : Int) : Ez α :=
  ⟨b, m.lstmWindow, m.p1.map Net.reset, m.p2.map Net.reset, m.rapresentation.reset, m.dynamics.reset, m.prediction.reset, m.policy.reset,
    m.value.reset, m.reward.reset, m.temporal.reset, m.rmodel⟩

/-! ### Proofs -/

/-- The cells of a model. -/
def partNetCells (m : Net α) : File α :=
  headModel m ++ (m.rls.flatMap rlCells ++ (m.cls.flatMap clCells ++ m.fcls.flatMap fclCells))

/-- The cells of a recurrent model. -/
def rnetCells (m : RNet α) : File α :=
  .int m.layers :: .int m.lstms.length :: .int m.window :: .int m.hiddenStateMode :: m.lstms.flatMap lstmCells

omit [LinearOrder α] [Zero α] [One α] in
theorem ezAppend (d : Disk α) (dir : String) (n : Nat) (v w : File α) :
    append (append d dir n v) dir n w = append d dir n (v ++ w) := by
  funext dir' n'
  unfold append
  by_cases h : dir' = dir ∧ n' = n
  · rw [if_pos h, if_pos h, if_pos h, List.append_assoc]
  · rw [if_neg h, if_neg h, if_neg h]

theorem saveModel_cells {m : Net α} (h : m.WF) (n : Nat) (d : Disk α) : saveModel m n d = some (append d "" n (partNetCells m)) := by
  unfold saveModel
  rw [saveLayers_eq h, Option.bind_some, ezAppend]
  rfl

omit [LinearOrder α] [One α] in
theorem saveRModel_cells {m : RNet α} (h : m.WF) : saveRModel m = some (rnetCells m) := by
  unfold saveRModel
  rw [mapM_eq (w := lstmCells) _ fun l hl => saveLstm_eq (h.lstms l hl) (h.scores l hl), Option.bind_some, rnetCells,
    List.flatMap_def]

theorem Net.Saved.build {m : Net α} (h : m.Saved) : ∃ o, m.build = some (.ok ⟨m.vRls, m.vCls, m.vFcls, o⟩) := by
  obtain ⟨rls, cls, fcls, o, hn⟩ := h.built
  refine ⟨o, Network.C82_rebuild_partial m.layers rls cls fcls _ hn ?_⟩
  intro r hr
  obtain ⟨⟨x, i⟩, hx, rfl⟩ := List.mem_map.mp hr
  obtain ⟨c, e1, e2⟩ := h.sizes x (List.fst_mem_of_mem_zipIdx hx)
  refine ⟨c.view (x.cls.length - 1), ?_, e2⟩
  show (x.cls.zipIdx.map fun p => p.1.view p.2).getLast? = _
  rw [List.getLast?_map, List.getLast?_eq_getElem?, List.getElem?_zipIdx, List.length_zipIdx, ← List.getLast?_eq_getElem?, e1]
  simp

theorem loadPart_rd (rnd noisy : Nat → α) {m : Net α} (h : m.Saved) : Rd (loadPart rnd noisy) (partNetCells m) m.reset := by
  obtain ⟨o, hb⟩ := h.build
  exact Rd.last (loadModel_rd rnd noisy h.wf hb) (Rd.lift' rfl)

omit [LinearOrder α] in
theorem loadRModel_rd (rndW rndU : Nat → Nat → α) {m : RNet α} (h : m.WF)
    (hb : ∃ layers lstms window mode, recurrentNetwork layers lstms window mode = some (some m)) :
    Rd (loadRModel rndW rndU) (rnetCells m) m := by
  obtain ⟨layers, lstms, window, mode, hb⟩ := hb
  have hb' := recurrentNetwork_self hb
  unfold loadRModel rnetCells
  refine Rd.int (Rd.int (Rd.int (Rd.int (Rd.last (x := m.lstms) ?_ ?_))))
  · rw [Int.toNat_natCast]
    exact Rd.many m.lstms fun l hl => loadLstm_rd rndW rndU (h.lstms l hl) (h.scores l hl)
  · refine Rd.lift' ?_
    rw [if_neg (by omega), Int.toNat_natCast, hb']
    rfl

/-- The cells of an optional model. -/
def optCells (p : Option (Net α)) : File α :=
  match p with
  | none => []
  | some m => partNetCells m

theorem saveOpt_cells {p : Option (Net α)} (h : ∀ q ∈ p, q.Saved) (n : Nat) (d : Disk α) :
    saveOpt p n d = some (append d "" n (optCells p)) := by
  cases p with
  | none =>
    refine congrArg some (funext fun dir => funext fun k => ?_)
    unfold append optCells
    rw [List.append_nil, ite_self]
  | some m => exact saveModel_cells (h m rfl).wf n d

theorem loadOpt_rd (rnd noisy : Nat → α) {p : Option (Net α)} (h : ∀ q ∈ p, q.Saved) :
    Rd (loadOpt rnd noisy (if p.isSome then 1 else 0)) (optCells p) (p.map Net.reset) := by
  cases p with
  | none => exact Rd.pure _
  | some m => exact Rd.last (loadPart_rd rnd noisy (h m rfl)) (Rd.pure _)

/-- The cells of the parts. -/
def partCells (m : Ez α) : File α :=
  optCells m.p1 ++ (optCells m.p2 ++ (partNetCells m.rapresentation ++ (partNetCells m.dynamics ++ (partNetCells m.prediction ++ (partNetCells m.policy ++
    (partNetCells m.value ++ (partNetCells m.reward ++ (partNetCells m.temporal ++ rnetCells m.rmodel))))))))

theorem saveParts_cells {m : Ez α} (h : m.Good) (n : Nat) (d : Disk α) : saveParts m n d = some (append d "" n (partCells m)) := by
  unfold saveParts
  rw [saveOpt_cells h.p1, Option.bind_some, saveOpt_cells h.p2, Option.bind_some, saveModel_cells h.rapresentation.wf, Option.bind_some,
    saveModel_cells h.dynamics.wf, Option.bind_some, saveModel_cells h.prediction.wf, Option.bind_some, saveModel_cells h.policy.wf,
    Option.bind_some, saveModel_cells h.value.wf, Option.bind_some, saveModel_cells h.reward.wf, Option.bind_some,
    saveModel_cells h.temporal.wf, Option.bind_some, saveRModel_cells h.rwf, Option.bind_some]
  simp only [ezAppend, partCells, List.append_assoc]

theorem loadEz_rd (rnd noisy : Nat → α) (rndW rndU : Nat → Nat → α) (b : Int) (hb : 1 ≤ b) {m : Ez α} (h : m.Good) :
    Rd (loadEz rnd noisy rndW rndU b) (headEz m ++ partCells m) (m.loaded b) := by
  unfold loadEz headEz partCells
  simp only [List.cons_append, List.nil_append]
  refine Rd.int (Rd.int (Rd.int (Rd.int ?_)))
  refine Rd.bind (loadOpt_rd rnd noisy h.p1) ?_ rfl
  refine Rd.bind (loadOpt_rd rnd noisy h.p2) ?_ rfl
  refine Rd.bind (loadPart_rd rnd noisy h.rapresentation) ?_ rfl
  refine Rd.bind (loadPart_rd rnd noisy h.dynamics) ?_ rfl
  refine Rd.bind (loadPart_rd rnd noisy h.prediction) ?_ rfl
  refine Rd.bind (loadPart_rd rnd noisy h.policy) ?_ rfl
  refine Rd.bind (loadPart_rd rnd noisy h.value) ?_ rfl
  refine Rd.bind (loadPart_rd rnd noisy h.reward) ?_ rfl
  refine Rd.bind (loadPart_rd rnd noisy h.temporal) ?_ rfl
  refine Rd.last (loadRModel_rd rndW rndU h.rwf h.rbuilt) (Rd.lift' ?_)
  unfold initEz Ez.loaded
  have hw := h.window
  rw [if_neg (by dsimp only; omega), if_neg]
  dsimp only
  rw [Option.isSome_map, Option.isSome_map, h.both]
  exact fun e => e rfl

/-- **C147 (partial: new file, batch size, `k_percentage`).** An EfficientZero model saved under a number
not used before and loaded for `b ≥ 1` threads has the same window and the same ten networks (every
`k_percentage` of a fully-connected layer becomes 1), and no other file changes. Missing: a number
used before (`C147_overwrite_refuted`) and a directory (`C147_directory_refuted`). -/
theorem C147_save_partial (rnd noisy : Nat → α) (rndW rndU : Nat → Nat → α) (m : Ez α) (h : m.Good) (b : Int) (hb : 1 ≤ b) (n : Nat)
    (d : Disk α) (hd : d "" n = []) :
    ∃ d', saveEz m n d = some d' ∧ (∀ dir k, (dir, k) ≠ ("", n) → d' dir k = d dir k) ∧
      loadFrom (loadEz rnd noisy rndW rndU b) "" n d' = some (m.loaded b) := by
  refine ⟨append d "" n (headEz m ++ partCells m), ?_, ?_, ?_⟩
  · unfold saveEz
    rw [saveParts_cells h, ezAppend]
  · intro dir k hk
    unfold append
    exact if_neg fun e => hk (by rw [e.1, e.2])
  · unfold loadFrom append
    rw [if_pos ⟨rfl, rfl⟩, hd, List.nil_append]
    have := loadEz_rd rnd noisy rndW rndU b hb h []
    rw [List.append_nil] at this
    rw [this]
    rfl

/-- **C147 (refuted, number used before).** Two models saved under the same number, one after the other:
loading gives the first, whatever the second is. -/
theorem C147_overwrite_refuted (rnd noisy : Nat → α) (rndW rndU : Nat → Nat → α) (m m' : Ez α) (h : m.Good) (h' : m'.Good) (b : Int) (hb : 1 ≤ b)
    (n : Nat) (d : Disk α) (hd : d "" n = []) :
    ∃ d1 d2, saveEz m n d = some d1 ∧ saveEz m' n d1 = some d2 ∧
      loadFrom (loadEz rnd noisy rndW rndU b) "" n d2 = some (m.loaded b) := by
  refine ⟨append d "" n (headEz m ++ partCells m), append d "" n (headEz m ++ partCells m ++ (headEz m' ++ partCells m')), ?_, ?_, ?_⟩
  · unfold saveEz
    rw [saveParts_cells h, ezAppend]
  · unfold saveEz
    rw [saveParts_cells h', ezAppend, ezAppend]
  · unfold loadFrom append
    rw [if_pos ⟨rfl, rfl⟩, hd, List.nil_append, loadEz_rd rnd noisy rndW rndU b hb h]
    rfl

omit [LinearOrder α] [Zero α] [One α] in
theorem ezBind_none {β γ : Type} {p : Read α β} {f : β → Read α γ} {w : File α} (h : p w = none) : (p >>= f) w = none := by
  show (p w).bind _ = none
  rw [h]
  rfl

omit [LinearOrder α] [Zero α] [One α] in
theorem ezBind_int {γ : Type} {f : Int → Read α γ} {x : Int} {w : File α} : (rdInt >>= f) (.int x :: w) = f x w := rfl

omit [LinearOrder α] [Zero α] [One α] in
theorem ezBind_pure {β γ : Type} {p : Read α β} {f : β → Read α γ} {x : β} {w w' : File α} (h : p w = some (x, w')) :
    (p >>= f) w = f x w' := by
  show (p w).bind _ = _
  rw [h]
  rfl

theorem loadPart_nil (rnd noisy : Nat → α) : loadPart rnd noisy [] = none := ezBind_none (ezBind_none rfl)

/-- **C147 (refuted, directory).** Whatever the model: loading the file made in a directory other than the
current one ends the program, because only the header is there; all the networks are added to the file
of that number in the current directory. -/
theorem C147_directory_refuted (rnd noisy : Nat → α) (rndW rndU : Nat → Nat → α) (m : Ez α) (h : m.Good) (b : Int) (n : Nat) (dir : String)
    (hdir : dir ≠ "") (d : Disk α) (hd : d dir n = []) :
    ∃ d', saveEzDir m n dir d = some d' ∧ loadFrom (loadEz rnd noisy rndW rndU b) dir n d' = none ∧
      d' "" n = d "" n ++ partCells m := by
  refine ⟨append (append d dir n (headEz m)) "" n (partCells m), ?_, ?_, ?_⟩
  · unfold saveEzDir
    rw [saveParts_cells h]
  · unfold loadFrom append
    rw [if_neg (fun e => hdir e.1), if_pos ⟨rfl, rfl⟩, hd, List.nil_append]
    have : loadEz rnd noisy rndW rndU b (headEz m) = none := by
      unfold loadEz headEz
      rw [ezBind_int, ezBind_int, ezBind_int, ezBind_int]
      cases h1 : m.p1 with
      | some q => exact ezBind_none (ezBind_none (loadPart_nil rnd noisy))
      | none =>
        rw [ezBind_pure (x := none) rfl]
        cases h2 : m.p2 with
        | some q => exact ezBind_none (ezBind_none (loadPart_nil rnd noisy))
        | none =>
          rw [ezBind_pure (x := none) rfl]
          exact ezBind_none (loadPart_nil rnd noisy)
    rw [this]
    rfl
  · unfold append
    rw [if_pos ⟨rfl, rfl⟩, if_neg (fun e => hdir e.1.symm)]

end

/-- An EfficientZero model of one-weight networks. -/
def ez1 (w : Int) : Ez ℚ := ⟨4, w, some net1, some net1, net1, net1, net1, net1, net1, net1, net1, ⟨1, [lstm1 0 3 1], 2, 0⟩⟩

theorem net1_saved : net1.Saved :=
  ⟨net1_wf, ⟨[], [], net1.vFcls, .fcl ⟨0, 1, 0⟩, by decide⟩, by simp [net1]⟩

theorem ez1_good (w : Int) (hw : 2 ≤ w) : (ez1 w).Good where
  window := hw
  both := rfl
  p1 q hq := by
    obtain rfl : net1 = q := by simpa [ez1] using hq
    exact net1_saved
  p2 q hq := by
    obtain rfl : net1 = q := by simpa [ez1] using hq
    exact net1_saved
  rapresentation := net1_saved
  dynamics := net1_saved
  prediction := net1_saved
  policy := net1_saved
  value := net1_saved
  reward := net1_saved
  temporal := net1_saved
  rwf := ⟨by simp [ez1, lstm1_wf], by simp [ez1, lstm1, LstmArgs.edge, GRADIENT_DESCENT, EDGE_POPUP, FULLY_FEED_FORWARD]⟩
  rbuilt := ⟨1, [lstm1 0 3 1], 2, 0, by
    show recurrentNetwork 1 [lstm1 0 3 1] 2 0 = some (some ⟨1, [lstm1 0 3 1], 2, 0⟩)
    decide +kernel⟩

example : ∃ d', saveEz (ez1 2) 7 (fun _ _ => []) = some d' ∧
    loadFrom (loadEz (fun _ => 0) (fun _ => 0) (fun _ _ => 0) (fun _ _ => 0) 3) "" 7 d' = some ((ez1 2).loaded 3) := by
  obtain ⟨d', e1, -, e2⟩ := C147_save_partial (fun _ => 0) (fun _ => 0) (fun _ _ => 0) (fun _ _ => 0) (ez1 2) (ez1_good 2 (by decide)) 3 (by decide)
    7 (fun _ _ => []) rfl
  exact ⟨d', e1, e2⟩

/-- Saved twice, with windows 2 and 5: the loaded window is 2. -/
example : ∃ d1 d2 m, saveEz (ez1 2) 7 (fun _ _ => []) = some d1 ∧ saveEz (ez1 5) 7 d1 = some d2 ∧
    loadFrom (loadEz (fun _ => 0) (fun _ => 0) (fun _ _ => 0) (fun _ _ => 0) 3) "" 7 d2 = some m ∧ m.lstmWindow = 2 := by
  obtain ⟨d1, d2, e1, e2, e3⟩ := C147_overwrite_refuted (fun _ => 0) (fun _ => 0) (fun _ _ => 0) (fun _ _ => 0) (ez1 2) (ez1 5)
    (ez1_good 2 (by decide)) (ez1_good 5 (by decide)) 3 (by decide) 7 (fun _ _ => []) rfl
  exact ⟨d1, d2, _, e1, e2, e3, rfl⟩

example : ∃ d', saveEzDir (ez1 2) 7 "d/" (fun _ _ => []) = some d' ∧
    loadFrom (loadEz (fun _ => 0) (fun _ => 0) (fun _ _ => 0) (fun _ _ => 0) 3) "d/" 7 d' = none := by
  obtain ⟨d', e1, e2, -⟩ := C147_directory_refuted (fun _ => 0) (fun _ => 0) (fun _ _ => 0) (fun _ _ => 0) (ez1 2) (ez1_good 2 (by decide)) 3
    7 "d/" (by decide) (fun _ _ => []) rfl
  exact ⟨d', e1, e2⟩

end LLab.Save
