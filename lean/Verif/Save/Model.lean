import Verif.Save.Lstm
import Verif.Save.Cl
import Verif.Net.Rebuild
import Mathlib.Algebra.Order.Ring.Rat

/-!
Saving and loading whole models (`/repo/src/model.c` 890-1140, `/repo/src/rmodel.c`
334-474). Properties C82, C83.
-/

namespace LLab.Save

variable {α : Type}

/-! ### Models -/

/-- What is saved of a model: its layers. The state of the optimiser, the error function
and the other settings are not written. -/
@[ext] structure Net (α : Type) where
  layers : Nat
  rls : List (Rl α)
  cls : List (Cl α)
  fcls : List (Fcl α)
deriving DecidableEq

/-- `n_kernels*rows2*cols2` or, without pooling, `n_kernels*rows1*cols1`
(`/repo/src/model.c` 65-78). -/
def Cl.size (c : Cl α) : Int :=
  if c.args.poolingFlag ≠ 0 then c.args.nKernels * c.rows2 * c.cols2 else c.args.nKernels * c.rows1 * c.cols1

/-- A convolutional layer as `network` sees it; `tag` tells which of the array it is. -/
def Cl.view (c : Cl α) (tag : Nat) : Network.Layer := ⟨c.args.layer.toNat, c.size.toNat, tag⟩

/-- A fully-connected layer as `network` sees it. -/
def Fcl.view (f : Fcl α) (tag : Nat) : Network.Layer := ⟨f.args.layer.toNat, f.args.output.toNat, tag⟩

/-- A residual layer as `network` sees it. -/
def Rl.view (r : Rl α) (tag : Nat) : Network.Rl :=
  ⟨r.cls.zipIdx.map fun p => p.1.view p.2, (r.channels * r.inputRows * r.inputCols).toNat, tag⟩

/-- The layers of a model as `network` sees them. -/
def Net.vRls (m : Net α) : List Network.Rl := m.rls.zipIdx.map fun p => p.1.view p.2
def Net.vCls (m : Net α) : List Network.Layer := m.cls.zipIdx.map fun p => p.1.view p.2
def Net.vFcls (m : Net α) : List Network.Layer := m.fcls.zipIdx.map fun p => p.1.view p.2

/-- `network` on layers as `Verif/Net/Network.lean` models it. -/
def Net.build (m : Net α) : Option Network.Res := Network.network m.layers m.vRls m.vCls m.vFcls

/-- The header written by `save_model` (`/repo/src/model.c` 917-943). -/
def headModel (m : Net α) : File α :=
  [.int m.layers, .int m.rls.length, .int m.cls.length, .int m.fcls.length]

/-- The layers, written by `save_rl`, `save_cl` and `save_fcl` (`/repo/src/model.c`
951-961). -/
def saveLayers (m : Net α) : Option (File α) :=
  (m.rls.mapM saveRl).bind fun a => (m.cls.mapM saveCl).bind fun b => (m.fcls.mapM saveFcl).bind fun c =>
    some (a.flatten ++ (b.flatten ++ c.flatten))

/-- `load_model` (`/repo/src/model.c` 1057-1140): the layers read, and what `network`
makes of them (the tags in its result say in which order). -/
def loadModel [LinearOrder α] [Zero α] [One α] (rnd noisy : Nat → α) : Read α (Net α × Network.Res) := do
  let layers ← rdInt
  let nRl ← rdInt
  let nCl ← rdInt
  let nFcl ← rdInt
  let rls ← rdMany (loadRl rnd) nRl.toNat
  let cls ← rdMany (loadCl rnd) nCl.toNat
  let fcls ← rdMany (loadFcl rnd noisy) nFcl.toNat
  let m : Net α := ⟨layers.toNat, rls, cls, fcls⟩
  let r ← Read.lift (if layers < 0 then none else m.build)
  return (m, r)

/-- The files of a file system: `dir ++ n ++ ".bin"`. The empty string is the current
directory. -/
abbrev Disk (α : Type) := String → Nat → File α

/-- `fopen(…,"a+")`, writing, `fclose`: the cells are added at the end of the file. -/
def append (d : Disk α) (dir : String) (n : Nat) (w : File α) : Disk α :=
  fun dir' n' => if dir' = dir ∧ n' = n then d dir' n' ++ w else d dir' n'

/-- `save_model(m,n)` (`/repo/src/model.c` 899-966). -/
def saveModel (m : Net α) (n : Nat) (d : Disk α) : Option (Disk α) :=
  (saveLayers m).bind fun w => some (append (append d "" n (headModel m)) "" n w)

/-- `save_model_given_directory(m,n,directory)` (`/repo/src/model.c` 977-1045): the
header goes to the file in the directory, but the layers are saved by `save_rl`,
`save_cl` and `save_fcl`, which know only `n`. -/
def saveModelDir (m : Net α) (n : Nat) (dir : String) (d : Disk α) : Option (Disk α) :=
  (saveLayers m).bind fun w => some (append (append d dir n (headModel m)) "" n w)

/-- Well-formed layers. -/
structure Net.WF [LinearOrder α] [Zero α] [One α] (m : Net α) : Prop where
  rls : ∀ r ∈ m.rls, r.WF
  cls : ∀ c ∈ m.cls, c.WF
  fcls : ∀ f ∈ m.fcls, f.WF

/-- The model was made by `network`, whose result lists the layers in the order of the
arrays. -/
def Net.Built (m : Net α) : Prop :=
  ∃ rls cls fcls o, Network.network m.layers rls cls fcls = some (.ok ⟨m.vRls, m.vCls, m.vFcls, o⟩)

section
variable [LinearOrder α] [Zero α] [One α]

theorem saveLayers_eq {m : Net α} (h : m.WF) :
    saveLayers m = some (m.rls.flatMap rlCells ++ (m.cls.flatMap clCells ++ m.fcls.flatMap fclCells)) := by
  unfold saveLayers
  rw [mapM_eq (w := rlCells) _ fun r hr => saveRl_eq (h.rls r hr), Option.bind_some,
    mapM_eq (w := clCells) _ fun r hr => saveCl_eq (h.cls r hr), Option.bind_some,
    mapM_eq (w := fclCells) _ fun r hr => saveFcl_eq (h.fcls r hr), Option.bind_some]
  simp only [List.flatMap_def]

omit [LinearOrder α] [Zero α] [One α] in
theorem rd_many_map {β : Type} {p : Read α β} {g : β → File α} {t : β → β} :
    (l : List β) → (∀ x ∈ l, Rd p (g x) (t x)) → Rd (rdMany p l.length) (l.flatMap g) (l.map t)
  | [], _ => Rd.pure _
  | x :: l, h => Rd.bind (h x (by simp)) (Rd.last (rd_many_map l fun y hy => h y (by simp [hy])) (Rd.pure _))
      (List.flatMap_cons ..)

/-- The model with every `k_percentage` of a fully-connected layer equal to 1. -/
def Net.reset (m : Net α) : Net α := { m with fcls := m.fcls.map fun f => { f with kPercentage := 1 } }

omit [LinearOrder α] [Zero α] in
theorem Net.reset_view (m : Net α) : m.reset.vFcls = m.vFcls := by
  unfold Net.reset Net.vFcls
  rw [List.zipIdx_map, List.map_map]
  rfl

theorem loadModel_rd (rnd noisy : Nat → α) {m : Net α} (h : m.WF) {r : Network.Res} (hb : m.build = some r) :
    Rd (loadModel rnd noisy)
      (headModel m ++ (m.rls.flatMap rlCells ++ (m.cls.flatMap clCells ++ m.fcls.flatMap fclCells))) (m.reset, r) := by
  unfold loadModel headModel
  simp only [List.cons_append, List.nil_append]
  refine Rd.int (Rd.int (Rd.int (Rd.int ?_)))
  refine Rd.bind (x := m.rls) (by rw [Int.toNat_natCast]; exact Rd.many m.rls fun r hr => loadRl_rd rnd (h.rls r hr)) ?_ rfl
  refine Rd.bind (x := m.cls) (by rw [Int.toNat_natCast]; exact Rd.many m.cls fun r hr => loadCl_rd rnd (h.cls r hr)) ?_ rfl
  refine Rd.last (x := m.reset.fcls)
    (by rw [Int.toNat_natCast]; exact rd_many_map m.fcls fun r hr => loadFcl_rd rnd noisy (h.fcls r hr)) ?_
  rw [Int.toNat_natCast]
  refine Rd.lift (x := r) ?_ (Rd.pure _)
  rw [if_neg (by omega)]
  have : m.build = m.reset.build := by
    unfold Net.build
    rw [m.reset_view]
    rfl
  rw [this] at hb
  exact hb

/-- Reading a model from the file `dir ++ n ++ ".bin"`. -/
def loadFrom {β : Type} (p : Read α β) (dir : String) (n : Nat) (d : Disk α) : Option β := (p (d dir n)).map Prod.fst

/-- **C82 (partial: new file, sizes of the stored residual layers, `k_percentage`).** A
model made by `network` from well-formed layers and saved under a number not used before
is loaded with the same layers in the same order and accepted; only the `k_percentage` of
fully-connected layers becomes 1. No other file changes. -/
theorem C82_model_partial (rnd noisy : Nat → α) (m : Net α) (h : m.WF) (hb : m.Built)
    (hsz : ∀ r ∈ m.rls, ∃ c, r.cls.getLast? = some c ∧ c.size.toNat = (r.channels * r.inputRows * r.inputCols).toNat)
    (n : Nat) (d : Disk α) (hd : d "" n = []) :
    ∃ d', saveModel m n d = some d' ∧ (∀ dir k, (dir, k) ≠ ("", n) → d' dir k = d dir k) ∧
      ∃ o, loadFrom (loadModel rnd noisy) "" n d' =
        some ({ m with fcls := m.fcls.map fun f => { f with kPercentage := 1 } }, .ok ⟨m.vRls, m.vCls, m.vFcls, o⟩) := by
  obtain ⟨rls, cls, fcls, o, hn⟩ := hb
  have hb' : m.build = some (.ok ⟨m.vRls, m.vCls, m.vFcls, o⟩) := by
    refine Network.C82_rebuild_partial m.layers rls cls fcls _ hn ?_
    intro r hr
    obtain ⟨⟨x, i⟩, hx, rfl⟩ := List.mem_map.mp hr
    obtain ⟨c, e1, e2⟩ := hsz x (List.fst_mem_of_mem_zipIdx hx)
    have hne : x.cls ≠ [] := fun e => by rw [e] at e1; simp at e1
    refine ⟨c.view (x.cls.length - 1), ?_, e2⟩
    show (x.cls.zipIdx.map fun p => p.1.view p.2).getLast? = _
    rw [List.getLast?_map, List.getLast?_eq_getElem?, List.getElem?_zipIdx, List.length_zipIdx, ← List.getLast?_eq_getElem?,
      e1]
    simp
  refine ⟨append (append d "" n (headModel m)) "" n
    (m.rls.flatMap rlCells ++ (m.cls.flatMap clCells ++ m.fcls.flatMap fclCells)), ?_, ?_, o, ?_⟩
  · unfold saveModel
    rw [saveLayers_eq h, Option.bind_some]
  · intro dir k hk
    have : ¬(dir = "" ∧ k = n) := fun e => hk (by rw [e.1, e.2])
    unfold append
    rw [if_neg this, if_neg this]
  · unfold loadFrom append
    rw [if_pos ⟨rfl, rfl⟩, if_pos ⟨rfl, rfl⟩, hd, List.nil_append]
    have := loadModel_rd rnd noisy h hb' []
    rw [List.append_nil] at this
    rw [this]
    rfl

omit [LinearOrder α] [Zero α] [One α] in
theorem rdMany_nil {β : Type} {p : Read α β} (h : p [] = none) {n : Nat} (hn : n ≠ 0) : rdMany p n [] = none := by
  obtain ⟨k, rfl⟩ := Nat.exists_eq_succ_of_ne_zero hn
  show (p []).bind _ = none
  rw [h]
  rfl

/-- **C82, refuted for a directory.** Whatever the model, loading the file that
`save_model_given_directory` made in a directory other than the current one fails: it
contains only the header. The layers are added to the file of that number in the current
directory. -/
theorem C82_directory_refuted (rnd noisy : Nat → α) (m : Net α) (h : m.WF)
    (hne : ¬(m.rls = [] ∧ m.cls = [] ∧ m.fcls = [])) (n : Nat) (dir : String) (hdir : dir ≠ "") (d : Disk α)
    (hd : d dir n = []) :
    ∃ d', saveModelDir m n dir d = some d' ∧ loadFrom (loadModel rnd noisy) dir n d' = none ∧
      d' "" n = d "" n ++ (m.rls.flatMap rlCells ++ (m.cls.flatMap clCells ++ m.fcls.flatMap fclCells)) := by
  refine ⟨append (append d dir n (headModel m)) "" n
    (m.rls.flatMap rlCells ++ (m.cls.flatMap clCells ++ m.fcls.flatMap fclCells)), ?_, ?_, ?_⟩
  · unfold saveModelDir
    rw [saveLayers_eq h, Option.bind_some]
  · unfold loadFrom append
    rw [if_neg (fun e => hdir e.1), if_pos ⟨rfl, rfl⟩, hd, List.nil_append]
    have e : loadModel rnd noisy (headModel m) = none := by
      unfold loadModel headModel
      show (rdMany (loadRl rnd) (m.rls.length : Int).toNat []).bind _ = none
      by_cases h1 : m.rls = []
      · rw [h1]
        show (rdMany (loadCl rnd) (m.cls.length : Int).toNat []).bind _ = none
        by_cases h2 : m.cls = []
        · rw [h2]
          show (rdMany (loadFcl rnd noisy) (m.fcls.length : Int).toNat []).bind _ = none
          rw [rdMany_nil (p := loadFcl rnd noisy) rfl]
          · rfl
          · intro e
            rw [Int.toNat_natCast, List.length_eq_zero_iff] at e
            exact hne ⟨h1, h2, e⟩
        · rw [rdMany_nil (p := loadCl rnd) rfl]
          · rfl
          · intro e
            rw [Int.toNat_natCast, List.length_eq_zero_iff] at e
            exact h2 e
      · rw [rdMany_nil (p := loadRl rnd) rfl]
        · rfl
        · intro e
          rw [Int.toNat_natCast, List.length_eq_zero_iff] at e
          exact h1 e
    rw [e]
    rfl
  · unfold append
    rw [if_pos ⟨rfl, rfl⟩, if_neg (fun e => hdir e.1.symm)]

end

/-- A fully-connected layer of one weight. -/
def fcl1 (k : ℚ) : Fcl ℚ :=
  ⟨⟨1, 1, 0, 0, 1, 0, 0, 0, GRADIENT_DESCENT, FULLY_FEED_FORWARD, STANDARD⟩, k, [2], [3], [1], [], [], [], [], none⟩

theorem fcl1_wf (k : ℚ) : (fcl1 k).WF :=
  ⟨by unfold FclArgs.ok fcl1; simp [GRADIENT_DESCENT, FULLY_FEED_FORWARD, STANDARD, NO_NORMALIZATION, EDGE_POPUP,
      FREEZE_TRAINING, ONLY_FF, LAYER_NORMALIZATION, LOCAL_RESPONSE_NORMALIZATION],
    rfl, rfl, rfl, rfl, rfl, rfl, rfl, fun e => absurd e (by simp [fcl1, LAYER_NORMALIZATION]), fun _ => rfl⟩

/-- A model of one fully-connected layer meets the hypotheses of both theorems. -/
def net1 : Net ℚ := ⟨1, [], [], [fcl1 1]⟩

theorem net1_wf : net1.WF := ⟨by simp [net1], by simp [net1], by
  intro f hf
  rw [show f = fcl1 1 by simpa [net1] using hf]
  exact fcl1_wf 1⟩

example : net1.WF ∧ net1.Built ∧ (∀ r ∈ net1.rls, ∃ c, r.cls.getLast? = some c ∧
      c.size.toNat = (r.channels * r.inputRows * r.inputCols).toNat) ∧
    ¬(net1.rls = [] ∧ net1.cls = [] ∧ net1.fcls = []) :=
  ⟨net1_wf, ⟨[], [], net1.vFcls, .fcl ⟨0, 1, 0⟩, by decide⟩, by simp [net1], by simp [net1]⟩

/-- Saved in a directory and loaded from it: the program ends. -/
example : (saveModelDir net1 3 "d/" fun _ _ => []).bind
    (fun d => loadFrom (loadModel (fun _ => 0) fun _ => 0) "d/" 3 d) = none := by decide +kernel

end LLab.Save
