import Verif.Save.RModel

/-!
Property C45: what is saved is loaded back. A layer is well-formed (`WF`) when it is as
its constructor makes it (`bnNew_wf`, `fclNew_wf`, `clNew_wf`, `rlNew_wf`, `lstmNew_wf`),
with any contents of its arrays.
-/

namespace LLab.Save

variable {α : Type}

/-- Saving `x` under a number whose file does not exist and loading that file gives `y`;
no other file changes. -/
def GivesBack {β : Type} (save : β → Option (File α)) (load : Read α β) (x y : β) : Prop :=
  ∀ (n : Nat) (d : Disk α), d "" n = [] → ∃ w, save x = some w ∧
    loadFrom load "" n (append d "" n w) = some y ∧
    ∀ dir k, (dir, k) ≠ ("", n) → append d "" n w dir k = d dir k

/-- Saving `x` and then `y` under one number and loading that file gives `z`. -/
def TwiceGives {β : Type} (save : β → Option (File α)) (load : Read α β) (x y z : β) : Prop :=
  ∀ (n : Nat) (d : Disk α), d "" n = [] → ∃ w v, save x = some w ∧ save y = some v ∧
    loadFrom load "" n (append (append d "" n w) "" n v) = some z

theorem givesBack_of {β : Type} {save : β → Option (File α)} {load : Read α β} {x y : β} {w : File α}
    (h1 : save x = some w) (h2 : Rd load w y) : GivesBack save load x y := by
  intro n d hd
  refine ⟨w, h1, ?_, ?_⟩
  · unfold loadFrom append
    have := h2 []
    rw [List.append_nil] at this
    rw [if_pos ⟨rfl, rfl⟩, hd, List.nil_append, this]
    rfl
  · intro dir k hk
    unfold append
    rw [if_neg]
    rintro ⟨rfl, rfl⟩
    exact hk rfl

theorem twiceGives_of {β : Type} {save : β → Option (File α)} {load : Read α β} {x y z : β} {w v : File α}
    (h1 : save x = some w) (h2 : Rd load w z) (h3 : save y = some v) : TwiceGives save load x y z := by
  intro n d hd
  refine ⟨w, v, h1, h3, ?_⟩
  unfold loadFrom append
  rw [if_pos ⟨rfl, rfl⟩, if_pos ⟨rfl, rfl⟩, hd, List.nil_append, h2]
  rfl

/-- **C45 for batch normalisations.** -/
theorem C45_bn [Zero α] [One α] (b : Bn α) (h : b.WF) : GivesBack saveBn loadBn b b :=
  givesBack_of (saveBn_eq h) (loadBn_rd h)

example : (Bn.mk 2 3 [1, 2, 3] [4, 5, 6] : Bn ℚ).WF := ⟨by decide, by decide, rfl, rfl⟩

/-- **C45 for scaled L2 normalisations.** -/
theorem C45_l2 (root : Int → α) (l : L2 α) (h : 0 < l.dim) : GivesBack saveL2 (loadL2 root) l l := by
  obtain ⟨w, h1, h2⟩ := loadL2_rd root h
  exact givesBack_of h1 h2

/-- **C45 for convolutional layers.** Every configuration, parameters, scores, indices,
used kernels and normalisations come back. -/
theorem C45_cl [Zero α] [One α] (rnd : Nat → α) (f : Cl α) (h : f.WF) : GivesBack saveCl (loadCl rnd) f f :=
  givesBack_of (saveCl_eq h) (loadCl_rd rnd h)

/-- **C45 for residual layers.** -/
theorem C45_rl [Zero α] [One α] (rnd : Nat → α) (f : Rl α) (h : f.WF) : GivesBack saveRl (loadRl rnd) f f :=
  givesBack_of (saveRl_eq h) (loadRl_rd rnd h)

/-- A convolutional layer of two 1×1 kernels on a 2×2 input, and a residual layer of it. -/
example : ∃ f : Cl ℚ, clNew (fun i => (i : ℚ)) ⟨1, 2, 2, 1, 1, 2, 1, 1, 0, 0, 1, 1, 0, 0, 1, 1, 0, 2, 0, 0, 2, 1, 3, 0⟩ = some f ∧
    f.WF ∧ f.kernels = [[0], [1]] ∧ (Rl.mk 2 2 2 [f] RELU).WF := by
  obtain ⟨f, hf⟩ : ∃ f : Cl ℚ, clNew (fun i => (i : ℚ)) ⟨1, 2, 2, 1, 1, 2, 1, 1, 0, 0, 1, 1, 0, 0, 1, 1, 0, 2, 0, 0, 2, 1, 3, 0⟩ =
      some f := Option.isSome_iff_exists.mp (by decide +kernel)
  have hw := (clNew_wf hf).1
  refine ⟨f, hf, hw, ?_, ⟨by simp, by simp, by simp, by simp, by simpa using hw⟩⟩
  have : (clNew (fun i => (i : ℚ)) ⟨1, 2, 2, 1, 1, 2, 1, 1, 0, 0, 1, 1, 0, 0, 1, 1, 0, 2, 0, 0, 2, 1, 3, 0⟩).map Cl.kernels =
      some [[0], [1]] := by decide +kernel
  rw [hf] at this
  exact Option.some.inj this

/-- **C45 for fully-connected layers (partial: `k_percentage` is lost).** Everything else
comes back. -/
theorem C45_fcl_partial [LinearOrder α] [Zero α] [One α] (rnd noisy : Nat → α) (f : Fcl α) (h : f.WF) :
    GivesBack saveFcl (loadFcl rnd noisy) f { f with kPercentage := 1 } :=
  givesBack_of (saveFcl_eq h) (loadFcl_rd rnd noisy h)

example : (fcl1 (1 / 2)).WF := fcl1_wf _

/-- **C45, refuted for `k_percentage`.** The share of the weights that edge-popup uses is
not written by `save_fcl`; `load_fcl` returns a layer that uses all of them. -/
theorem C45_k_percentage_refuted : ∃ f : Fcl ℚ, f.WF ∧ ¬ GivesBack saveFcl (loadFcl (fun _ => 0) fun _ => 0) f f := by
  refine ⟨fcl1 (1 / 2), fcl1_wf _, ?_⟩
  intro h
  obtain ⟨w, h1, h2, -⟩ := h 0 (fun _ _ => []) rfl
  obtain ⟨w', h1', h2', -⟩ := C45_fcl_partial (fun _ => 0) (fun _ => 0) _ (fcl1_wf (1 / 2)) 0 (fun _ _ => []) rfl
  rw [h1] at h1'
  cases h1'
  rw [h2] at h2'
  have := congrArg Fcl.kPercentage (Option.some.inj h2')
  norm_num [fcl1] at this

/-- **C45 for LSTM layers (partial: not for edge-popup in the forward pass only).** -/
theorem C45_lstm_partial [Zero α] [One α] (rndW rndU : Nat → Nat → α) (f : Lstm α) (h : f.WF)
    (he : f.args.ffFlag = EDGE_POPUP → f.args.trainingMode = EDGE_POPUP) : GivesBack saveLstm (loadLstm rndW rndU) f f := by
  have he' : f.args.edge → f.args.trainingMode = EDGE_POPUP := by
    rintro (e | e)
    · exact e
    · exact he e
  exact givesBack_of (saveLstm_eq h he') (loadLstm_rd rndW rndU h he')

example : (lstm1 0 3 1).WF ∧ ((lstm1 0 3 1).args.ffFlag = EDGE_POPUP → (lstm1 0 3 1).args.trainingMode = EDGE_POPUP) :=
  ⟨lstm1_wf, by simp [lstm1, FULLY_FEED_FORWARD, EDGE_POPUP]⟩

/-- **C45, refuted for edge-popup in the forward pass only.** Every LSTM layer made with
`feed_forward_flag` `EDGE_POPUP` and another training mode has no scores, and `save_lstm`
reads them all the same. -/
theorem C45_lstm_refuted [Zero α] (f : Lstm α) (h : f.WF) (h1 : f.args.ffFlag = EDGE_POPUP)
    (h2 : f.args.trainingMode ≠ EDGE_POPUP) : saveLstm f = none := by
  obtain ⟨p1, -⟩ := h.pos
  have he : f.args.edge := Or.inr h1
  have : f.gates.mapM (saveGateS f.args) = none := by
    cases hg : f.gates with
    | nil => have := h.len; rw [hg] at this; simp at this
    | cons g gs =>
      have k := (h.gates g (by simp [hg])).wScores
      rw [if_neg h2] at k
      have e : saveGateS f.args g = none := by
        unfold saveGateS wrFlts
        rw [if_pos (Or.inr (by omega))]
        rfl
      rw [List.mapM_cons, e]
      rfl
  unfold saveLstm
  rw [if_pos he, this]
  cases f.gates.mapM (saveGateW f.args) <;> rfl

/-- The constructor makes such layers. -/
example : ∃ f : Lstm ℚ, lstmNew (fun _ _ => 0) (fun _ _ => 0)
      ⟨1, 1, 0, 0, 0, 0, 0, 2, 0, 0, 1, GRADIENT_DESCENT, EDGE_POPUP⟩ = some f ∧
    f.WF ∧ f.args.ffFlag = EDGE_POPUP ∧ f.args.trainingMode ≠ EDGE_POPUP := by
  obtain ⟨f, hf⟩ : ∃ f : Lstm ℚ, lstmNew (fun _ _ => 0) (fun _ _ => 0)
      ⟨1, 1, 0, 0, 0, 0, 0, 2, 0, 0, 1, GRADIENT_DESCENT, EDGE_POPUP⟩ = some f :=
    Option.isSome_iff_exists.mp (by decide +kernel)
  obtain ⟨h1, h2⟩ := lstmNew_wf hf
  refine ⟨f, hf, h1, ?_, ?_⟩
  · rw [h2]; rfl
  · rw [h2]; decide

/-- **C45 for vectors (partial: the array is lost).** -/
theorem C45_vector_partial (x : Vec α) (h : ∀ v, x.v = some v → v.length = x.vSize.toNat ∧ v ≠ []) :
    GivesBack saveVec loadVec x { x with v := none } := by
  obtain ⟨w, h1, h2⟩ := loadVec_rd h
  exact givesBack_of h1 h2

/-- **C45, refuted for vectors.** Whatever non-empty array a vector has, it is not there
after loading. -/
theorem C45_vector_refuted (x : Vec α) (v : List α) (hv : x.v = some v) (hl : v.length = x.vSize.toNat) (hne : v ≠ []) :
    ¬ GivesBack saveVec loadVec x x := by
  have hp := C45_vector_partial x (by rintro u hu; rw [hv] at hu; cases hu; exact ⟨hl, hne⟩)
  intro h
  obtain ⟨w, h1, h2, -⟩ := h 0 (fun _ _ => []) rfl
  obtain ⟨w', h1', h2', -⟩ := hp 0 (fun _ _ => []) rfl
  rw [h1] at h1'
  cases h1'
  rw [h2] at h2'
  have := congrArg Vec.v (Option.some.inj h2')
  rw [hv] at this
  simp at this

example : (Vec.mk 2 2 2 0 0 0 0 0 (some [1, 2]) : Vec ℚ).v = some [1, 2] ∧ ([1, 2] : List ℚ).length = (2 : Int).toNat :=
  ⟨rfl, rfl⟩

/-- **C45, refuted for saving twice.** The save functions add to the file: after two
layers have been saved under one number, loading returns the first, whatever they are. -/
theorem C45_twice_refuted [LinearOrder α] [Zero α] [One α] (rnd noisy : Nat → α) :
    (∀ f g : Fcl α, f.WF → g.WF → TwiceGives saveFcl (loadFcl rnd noisy) f g { f with kPercentage := 1 }) ∧
    (∀ f g : Cl α, f.WF → g.WF → TwiceGives saveCl (loadCl rnd) f g f) ∧
    (∀ f g : Rl α, f.WF → g.WF → TwiceGives saveRl (loadRl rnd) f g f) ∧
    ∀ f g : Bn α, f.WF → g.WF → TwiceGives saveBn loadBn f g f :=
  ⟨fun _ _ h k => twiceGives_of (saveFcl_eq h) (loadFcl_rd rnd noisy h) (saveFcl_eq k),
    fun _ _ h k => twiceGives_of (saveCl_eq h) (loadCl_rd rnd h) (saveCl_eq k),
    fun _ _ h k => twiceGives_of (saveRl_eq h) (loadRl_rd rnd h) (saveRl_eq k),
    fun _ _ h k => twiceGives_of (saveBn_eq h) (loadBn_rd h) (saveBn_eq k)⟩

/-- **C45, several objects.** Any number of convolutional layers saved one after another
under one number are read back in order from one opened file. -/
theorem C45_sequence [Zero α] [One α] (rnd : Nat → α) (l : List (Cl α)) (h : ∀ f ∈ l, f.WF) (n : Nat) (d : Disk α)
    (hd : d "" n = []) : ∃ w : List (File α), l.mapM saveCl = some w ∧
      loadFrom (rdMany (loadCl rnd) l.length) "" n (w.foldl (fun d v => append d "" n v) d) = some l := by
  have key : ∀ (w : List (File α)) (d : Disk α), w.foldl (fun d v => append d "" n v) d "" n = d "" n ++ w.flatten := by
    intro w
    induction w with
    | nil => intro d; simp
    | cons v w ih =>
      intro d
      rw [List.foldl_cons, ih]
      unfold append
      rw [if_pos ⟨rfl, rfl⟩, List.flatten_cons, List.append_assoc]
  refine ⟨l.map clCells, mapM_eq (w := clCells) _ fun f hf => saveCl_eq (h f hf), ?_⟩
  have := Rd.many (p := loadCl rnd) (g := clCells) l (fun f hf => loadCl_rd rnd (h f hf)) []
  rw [List.append_nil, List.flatMap_def] at this
  unfold loadFrom
  rw [key, hd, List.nil_append, this]
  rfl

end LLab.Save
