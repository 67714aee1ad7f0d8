import Verif.Train.Update
import Mathlib.Analysis.SpecialFunctions.Sqrt
import Mathlib.Tactic.FieldSimp
import Mathlib.Tactic.Positivity

/-!
Gradient clipping by the global norm: `clipping_gradient` and its variants for
several networks, `clipping_gradient_rmodel`, `general_clipping_gradient`.
Property C37.

Only the gradients of a layer are modelled. `float`/`double` differences are not
modelled.
-/

namespace LLab.ClipGrad

open LLab.Update (Mode)
open Finset

/-- `a[j] *= c` -/
noncomputable def scaleAt (c : ℝ) (a : Arr ℝ) (j : Nat) : Option (Arr ℝ) := (a.read j).bind fun x => a.write j (x * c)

/-- `a[k][z] *= c` -/
noncomputable def scaleAtM (c : ℝ) (a : Mat ℝ) (k z : Nat) : Option (Mat ℝ) :=
  (a.read k z).bind fun x => a.write k z (x * c)

/-- `sum += a[j]*a[j]` -/
noncomputable def addSq (a : Arr ℝ) (j : Nat) (s : ℝ) : Option ℝ := (a.read j).bind fun x => some (s + x * x)

/-! ### Normalisation layers -/

/-- The gradients of a `bn`. -/
structure GBn where
  dim : Nat
  mode : Mode
  dg : Arr ℝ
  db : Arr ℝ

/-- `sum_all_quadratic_derivative_weights_bns` for one layer
(`/repo/src/clipping_gradient.c` 1063-1071). -/
noncomputable def bnSum (s : ℝ) (b : GBn) : Option ℝ :=
  if b.mode = .gradientDescent then
    loop b.dim (fun j s => (addSq b.dg j s).bind fun s => addSq b.db j s) s
  else some s

/-- `clip_bns` for one layer (`/repo/src/clipping_gradient.c` 809-815). -/
noncomputable def clipBn (c : ℝ) (b : GBn) : Option GBn :=
  if b.mode = .gradientDescent then
    loop b.dim (fun j b => (scaleAt c b.dg j).bind fun x => (scaleAt c b.db j).bind fun y =>
      some { b with dg := x, db := y }) b
  else some b

/-! ### Fully-connected layers -/

/-- The gradients of an `fcl`; `live` is `feed_forward_flag != ONLY_DROPOUT`,
`norm` the layer normalisation if there is one. -/
structure GFcl where
  input : Nat
  output : Nat
  nGroups : Nat
  live : Bool
  mode : Mode
  dw : Arr ℝ
  db : Arr ℝ
  ds : Arr ℝ
  norm : Option GBn

/-- `sum_all_quadratic_derivative_weights_fcls` for one layer
(`/repo/src/clipping_gradient.c` 947-969). -/
noncomputable def fclSum (s : ℝ) (f : GFcl) : Option ℝ :=
  if f.live = true then
    (if f.mode = .gradientDescent then
      loop (f.output * f.input) (fun j s => (addSq f.dw j s).bind fun s =>
        if j < f.output then addSq f.db j s else some s) s
    else if f.mode = .edgePopup then loop (f.output * f.input) (fun j s => addSq f.ds j s) s
    else some s).bind fun s =>
      if f.mode = .gradientDescent then
        match f.norm with
        | some b => bnSum s b
        | none => some s
      else some s
  else some s

/-- `clip_bns(&f->layer_norm, n, threshold, norm)`
(`/repo/src/clipping_gradient.c` 803-819, called from 713): the argument is the
address of one pointer, every index above 0 is outside of it. -/
noncomputable def clipNormArray (c : ℝ) (n : Nat) (b : GBn) : Option GBn :=
  loop n (fun i b => if i = 0 then clipBn c b else none) b

/-- `clip_fcls` for one layer (`/repo/src/clipping_gradient.c` 705-720), `c` is
`threshold/norm`. -/
noncomputable def clipFcl (c : ℝ) (f : GFcl) : Option GFcl :=
  if f.live = true then
    if f.mode = .gradientDescent then
      (loop (f.output * f.input) (fun j f => (scaleAt c f.dw j).bind fun x =>
        if j < f.output then (scaleAt c f.db j).bind fun y => some { f with dw := x, db := y }
        else some { f with dw := x }) f).bind fun f =>
        match f.norm with
        | some b => if b.mode = .gradientDescent then
            (clipNormArray c (f.output / f.nGroups) b).bind fun b => some { f with norm := some b } else some f
        | none => some f
    else if f.mode = .edgePopup then
      loop (f.output * f.input) (fun j f => (scaleAt c f.ds j).bind fun x => some { f with ds := x }) f
    else some f
  else some f

/-! ### Convolutional layers -/

/-- The gradients of a `cl`; `conv` is "convolution or transposed convolution",
`per` is `channels*kernel_rows*kernel_cols`, `gn` the
`n_kernels/group_norm_channels` normalisation layers (empty without group
normalisation). -/
structure GCl where
  conv : Bool
  mode : Mode
  nk : Nat
  per : Nat
  dk : Mat ℝ
  db : Arr ℝ
  ds : Arr ℝ
  gn : List GBn

/-- `sum_all_quadratic_derivative_weights_cls` for one layer
(`/repo/src/clipping_gradient.c` 877-909). -/
noncomputable def clSum (s : ℝ) (f : GCl) : Option ℝ :=
  if f.conv = true then
    (if f.mode = .gradientDescent then
      loop f.nk (fun k s => (loop f.per (fun z s => (f.dk.read k z).bind fun x => some (s + x * x)) s).bind fun s =>
        addSq f.db k s) s
    else if f.mode = .edgePopup then loop (f.nk * f.per) (fun k s => addSq f.ds k s) s
    else some s).bind fun s =>
      if f.mode = .gradientDescent then f.gn.foldlM bnSum s else some s
  else some s

/-- `clip_cls` for one layer (`/repo/src/clipping_gradient.c` 656-684). -/
noncomputable def clipCl (c : ℝ) (f : GCl) : Option GCl :=
  if f.conv = true then
    (if f.mode = .gradientDescent then
      loop f.nk (fun k f => (loop f.per (fun z f => (scaleAtM c f.dk k z).bind fun x => some { f with dk := x }) f).bind
        fun f => (scaleAt c f.db k).bind fun y => some { f with db := y }) f
    else if f.mode = .edgePopup then
      loop (f.nk * f.per) (fun k f => (scaleAt c f.ds k).bind fun x => some { f with ds := x }) f
    else some f).bind fun f =>
      if f.mode = .gradientDescent then (f.gn.mapM (clipBn c)).bind fun g => some { f with gn := g } else some f
  else some f

/-! ### Models -/

/-- The gradients of a `model`; a residual layer is the list of its convolutional
layers. -/
structure GModel where
  fcls : List GFcl
  cls : List GCl
  rls : List (List GCl)

/-- `sum_all_quadratic_derivative_weights_m` (`/repo/src/clipping_gradient.c`
333-341, 849-858). -/
noncomputable def modelSum (s : ℝ) (m : GModel) : Option ℝ :=
  (m.fcls.foldlM fclSum s).bind fun s => (m.cls.foldlM clSum s).bind fun s =>
    m.rls.foldlM (fun s r => r.foldlM clSum s) s

/-- `clip_fcls`, `clip_cls` and `clip_rls` on a model
(`/repo/src/clipping_gradient.c` 270-272, 629-636). -/
noncomputable def clipModel (c : ℝ) (m : GModel) : Option GModel :=
  (m.fcls.mapM (clipFcl c)).bind fun a => (m.cls.mapM (clipCl c)).bind fun b =>
    (m.rls.mapM fun r : List GCl => r.mapM (clipCl c)).bind fun d => some ⟨a, b, d⟩

/-- The gradient of a `scaled_l2_norm`. -/
structure GL2 where
  mode : Mode
  dg : ℝ

/-- `sum_all_quadratic_derivative_weights_scaled_l2_norm`
(`/repo/src/clipping_gradient.c` 922-932). -/
noncomputable def l2Sum (s : ℝ) (l : GL2) : ℝ := if l.mode = .gradientDescent then s + l.dg * l.dg else s

/-- `clip_scaled_l2` (`/repo/src/clipping_gradient.c` 833-844). -/
noncomputable def clipL2 (c : ℝ) (l : GL2) : GL2 := if l.mode = .gradientDescent then { l with dg := l.dg * c } else l

/-- Several networks clipped together: the models and the scaled L2
normalisations. -/
structure GNet where
  models : List GModel
  l2 : List GL2

/-- The sum of squares of several networks. -/
noncomputable def netSum (n : GNet) : Option ℝ :=
  (n.models.foldlM modelSum 0).bind fun s => some (n.l2.foldl l2Sum s)

/-- All the `clip_*` calls on several networks. -/
noncomputable def clipNet (c : ℝ) (n : GNet) : Option GNet :=
  (n.models.mapM (clipModel c)).bind fun ms => some ⟨ms, n.l2.map (clipL2 c)⟩

/-- `clipping_gradient` (one model), `dueling_categorical_dqn_clipping_gradient`
(five), `clipping_gradient_vae_model` (two), `clipping_gradient_transf_encoder`,
`clipping_gradient_transf_decoder`, `clipping_gradient_transf` (the models and L2
layers of the transformer) (`/repo/src/clipping_gradient.c` 260-323, 381-612).
The order of the summands and of the clipped parts is that of the lists. -/
noncomputable def clipJoint (threshold : ℝ) (n : GNet) : Option GNet :=
  (netSum n).bind fun s => if Real.sqrt s ≥ threshold then clipNet (threshold / Real.sqrt s) n else some n

/-! ### Specification -/

/-- Sum of squares of an array. -/
noncomputable def sqA (a : Arr ℝ) : ℝ := ∑ q ∈ range a.len, a.get q ^ 2

/-- The array with every element multiplied by `c`. -/
noncomputable def smulA (c : ℝ) (a : Arr ℝ) : Arr ℝ := ⟨a.len, fun q => if q < a.len then c * a.get q else a.get q⟩

/-- Sum of squares of a matrix. -/
noncomputable def sqM (a : Mat ℝ) : ℝ := ∑ k ∈ range a.rows, ∑ z ∈ range a.cols, a.get k z ^ 2

/-- The matrix with every element multiplied by `c`. -/
noncomputable def smulM (c : ℝ) (a : Mat ℝ) : Mat ℝ :=
  ⟨a.rows, a.cols, fun k z => if k < a.rows ∧ z < a.cols then c * a.get k z else a.get k z⟩

/-- Squared norm of the gradients a training step uses. -/
noncomputable def GBn.sq (b : GBn) : ℝ :=
  match b.mode with
  | .gradientDescent => sqA b.dg + sqA b.db
  | _ => 0

/-- The layer with the gradients a training step uses multiplied by `c`. -/
noncomputable def GBn.smul (c : ℝ) (b : GBn) : GBn :=
  match b.mode with
  | .gradientDescent => { b with dg := smulA c b.dg, db := smulA c b.db }
  | _ => b

/-- Squared norm of the gradients a training step uses. -/
noncomputable def GFcl.sq (f : GFcl) : ℝ :=
  if f.live then
    match f.mode with
    | .gradientDescent => sqA f.dw + sqA f.db + (f.norm.elim 0 GBn.sq)
    | .freezeBiases => sqA f.dw + (f.norm.elim 0 GBn.sq)
    | .edgePopup => sqA f.ds
    | .freezeTraining => 0
  else 0

/-- The layer with the gradients a training step uses multiplied by `c`. -/
noncomputable def GFcl.smul (c : ℝ) (f : GFcl) : GFcl :=
  if f.live then
    match f.mode with
    | .gradientDescent => { f with dw := smulA c f.dw, db := smulA c f.db, norm := f.norm.map (GBn.smul c) }
    | .freezeBiases => { f with dw := smulA c f.dw, norm := f.norm.map (GBn.smul c) }
    | .edgePopup => { f with ds := smulA c f.ds }
    | .freezeTraining => f
  else f

/-- Squared norm of the gradients a training step uses. -/
noncomputable def GCl.sq (f : GCl) : ℝ :=
  if f.conv then
    match f.mode with
    | .gradientDescent => sqM f.dk + sqA f.db + (f.gn.map GBn.sq).sum
    | .freezeBiases => sqM f.dk + (f.gn.map GBn.sq).sum
    | .edgePopup => sqA f.ds
    | .freezeTraining => 0
  else 0

/-- The layer with the gradients a training step uses multiplied by `c`. -/
noncomputable def GCl.smul (c : ℝ) (f : GCl) : GCl :=
  if f.conv then
    match f.mode with
    | .gradientDescent => { f with dk := smulM c f.dk, db := smulA c f.db, gn := f.gn.map (GBn.smul c) }
    | .freezeBiases => { f with dk := smulM c f.dk, gn := f.gn.map (GBn.smul c) }
    | .edgePopup => { f with ds := smulA c f.ds }
    | .freezeTraining => f
  else f

/-- Squared norm of a model's gradient. -/
noncomputable def GModel.sq (m : GModel) : ℝ :=
  (m.fcls.map GFcl.sq).sum + (m.cls.map GCl.sq).sum + (m.rls.map fun r => (r.map GCl.sq).sum).sum

/-- A model's gradient multiplied by `c`. -/
noncomputable def GModel.smul (c : ℝ) (m : GModel) : GModel :=
  ⟨m.fcls.map (GFcl.smul c), m.cls.map (GCl.smul c), m.rls.map fun r => r.map (GCl.smul c)⟩

/-- Squared norm. -/
noncomputable def GL2.sq (l : GL2) : ℝ :=
  match l.mode with
  | .gradientDescent => l.dg ^ 2
  | _ => 0

/-- Multiplied by `c`. -/
noncomputable def GL2.smul (c : ℝ) (l : GL2) : GL2 :=
  match l.mode with
  | .gradientDescent => { l with dg := c * l.dg }
  | _ => l

/-- Norm of the joint gradient. -/
noncomputable def GNet.norm (n : GNet) : ℝ := Real.sqrt ((n.models.map GModel.sq).sum + (n.l2.map GL2.sq).sum)

/-- Joint gradient multiplied by `c`. -/
noncomputable def GNet.smul (c : ℝ) (n : GNet) : GNet := ⟨n.models.map (GModel.smul c), n.l2.map (GL2.smul c)⟩

/-- Sizes of the arrays. -/
def GBn.Ok (b : GBn) : Prop := b.dg.len = b.dim ∧ b.db.len = b.dim

/-- Sizes of the arrays, and the two restrictions of the code: the layer does not
freeze only its biases, and a layer normalisation is clipped correctly only when
`output/n_groups` is 1. -/
def GFcl.Ok (f : GFcl) : Prop :=
  0 < f.input ∧ f.dw.len = f.output * f.input ∧ f.db.len = f.output ∧ f.ds.len = f.output * f.input ∧
    f.mode ≠ .freezeBiases ∧ ∀ b, f.norm = some b → b.Ok ∧ f.output / f.nGroups = 1

/-- Sizes of the arrays; the layer does not freeze only its biases. -/
def GCl.Ok (f : GCl) : Prop :=
  f.dk.rows = f.nk ∧ f.dk.cols = f.per ∧ f.db.len = f.nk ∧ f.ds.len = f.nk * f.per ∧ f.mode ≠ .freezeBiases ∧
    ∀ b ∈ f.gn, b.Ok

/-- All layers. -/
def GNet.Ok (n : GNet) : Prop :=
  ∀ m ∈ n.models, (∀ f ∈ m.fcls, f.Ok) ∧ (∀ f ∈ m.cls, f.Ok) ∧ ∀ r ∈ m.rls, ∀ f ∈ r, f.Ok

/-! ### Arrays -/

theorem addSq_eq {a : Arr ℝ} {j : Nat} (h : j < a.len) (s : ℝ) : addSq a j s = some (s + a.get j ^ 2) := by
  unfold addSq
  rw [Arr.read_eq h, sq]
  rfl

theorem scaleAt_eq (c : ℝ) {a : Arr ℝ} {j : Nat} (h : j < a.len) :
    scaleAt c a j = some ⟨a.len, Function.update a.get j (a.get j * c)⟩ := by
  unfold scaleAt
  refine (bind_some_of (Arr.read_eq h)).trans ?_
  exact Arr.write_eq _ h

/-- The array with its first `j` cells scaled. -/
noncomputable def upto (c : ℝ) (a : Arr ℝ) (j : Nat) : Arr ℝ :=
  ⟨a.len, fun q => if q < j then c * a.get q else a.get q⟩

theorem upto_zero (c : ℝ) (a : Arr ℝ) : upto c a 0 = a := by simp [upto]

theorem upto_len (c : ℝ) (a : Arr ℝ) {n : Nat} (h : a.len = n) : upto c a n = smulA c a := by
  subst h; rfl

theorem scale_upto (c : ℝ) (a : Arr ℝ) {j : Nat} (h : j < a.len) : scaleAt c (upto c a j) j = some (upto c a (j + 1)) := by
  rw [scaleAt_eq c (by exact h)]
  congr 1
  refine Arr.ext' rfl fun q => ?_
  simp only [upto]
  by_cases hq : q = j
  · subst hq
    rw [Function.update_self]
    simp [mul_comm]
  · rw [Function.update_of_ne hq]
    exact if_congr (by omega) rfl rfl

theorem sqA_smul (c : ℝ) (a : Arr ℝ) : sqA (smulA c a) = c ^ 2 * sqA a := by
  unfold sqA smulA
  rw [Finset.mul_sum]
  refine Finset.sum_congr rfl fun q hq => ?_
  dsimp only
  rw [if_pos (Finset.mem_range.1 hq)]
  ring

theorem sqM_smul (c : ℝ) (a : Mat ℝ) : sqM (smulM c a) = c ^ 2 * sqM a := by
  unfold sqM smulM
  rw [Finset.mul_sum]
  refine Finset.sum_congr rfl fun k hk => ?_
  rw [Finset.mul_sum]
  refine Finset.sum_congr rfl fun z hz => ?_
  dsimp only
  rw [if_pos ⟨Finset.mem_range.1 hk, Finset.mem_range.1 hz⟩]
  ring

theorem foldlM_sum {α : Type} (f : ℝ → α → Option ℝ) (v : α → ℝ) (l : List α)
    (h : ∀ x ∈ l, ∀ s, f s x = some (s + v x)) (s : ℝ) : l.foldlM f s = some (s + (l.map v).sum) := by
  induction l generalizing s with
  | nil => simp
  | cons x l ih =>
    rw [List.foldlM_cons, h x (by simp)]
    simp only [Option.bind_eq_bind, Option.bind_some]
    rw [ih fun y hy => h y (by simp [hy])]
    simp [add_assoc]

theorem mapM_map {α : Type} (f : α → Option α) (g : α → α) (l : List α) (h : ∀ x ∈ l, f x = some (g x)) :
    l.mapM f = some (l.map g) := by
  induction l with
  | nil => rfl
  | cons x l ih =>
    rw [List.mapM_cons, h x (by simp), ih fun y hy => h y (by simp [hy])]
    rfl

/-! ### Layers -/

theorem bnSum_eq (b : GBn) (h : b.Ok) (s : ℝ) : bnSum s b = some (s + b.sq) := by
  obtain ⟨h1, h2⟩ := h
  unfold bnSum GBn.sq
  cases hm : b.mode
  case gradientDescent =>
    rw [if_pos rfl]
    refine (loop_sum (fun j => b.dg.get j ^ 2 + b.db.get j ^ 2) fun j hj t => ?_).trans ?_
    · refine (bind_some_of (addSq_eq (by omega) t)).trans ?_
      rw [addSq_eq (by omega), add_assoc]
    · rw [Finset.sum_add_distrib, sqA, sqA, h1, h2]
  all_goals simp

theorem clipBn_eq (c : ℝ) (b : GBn) (h : b.Ok) : clipBn c b = some (b.smul c) := by
  obtain ⟨h1, h2⟩ := h
  unfold clipBn GBn.smul
  cases hm : b.mode
  case gradientDescent =>
    rw [if_pos rfl]
    obtain ⟨b', e, hb⟩ := loop_inv (σ := GBn) (n := b.dim) (s := b)
      (f := fun j b => (scaleAt c b.dg j).bind fun x => (scaleAt c b.db j).bind fun y =>
        some { b with dg := x, db := y })
      (fun j st => st = { b with dg := upto c b.dg j, db := upto c b.db j })
      (by simp [upto_zero]) (by
        rintro j hj _ rfl
        refine ⟨_, ?_, rfl⟩
        refine (bind_some_of (scale_upto c b.dg (by omega))).trans ?_
        exact bind_some_of (scale_upto c b.db (by omega)))
    rw [e, hb, upto_len c _ h1, upto_len c _ h2]
    simp [hm]
  all_goals simp

theorem bn_sq_smul (c : ℝ) (b : GBn) : (b.smul c).sq = c ^ 2 * b.sq := by
  unfold GBn.smul GBn.sq
  cases hm : b.mode <;> simp [hm, sqA_smul, mul_add]

theorem fclSum_eq (f : GFcl) (h : f.Ok) (s : ℝ) : fclSum s f = some (s + f.sq) := by
  obtain ⟨h0, h1, h2, h3, h4, h5⟩ := h
  unfold fclSum GFcl.sq
  cases hl : f.live
  · simp
  rw [if_pos rfl, if_pos rfl]
  have hge : f.output ≤ f.output * f.input := Nat.le_mul_of_pos_right _ h0
  cases hm : f.mode
  case gradientDescent =>
    rw [if_pos rfl]
    refine (bind_some_of (loop_sum (fun j => f.dw.get j ^ 2 + if j < f.output then f.db.get j ^ 2 else 0)
      fun j hj t => ?_)).trans ?_
    · refine (bind_some_of (addSq_eq (by omega) t)).trans ?_
      by_cases ho : j < f.output
      · rw [if_pos ho, if_pos ho, addSq_eq (by omega), add_assoc]
      · rw [if_neg ho, if_neg ho, add_zero]
    · have hs : ∑ j ∈ range (f.output * f.input), (f.dw.get j ^ 2 + if j < f.output then f.db.get j ^ 2 else 0) =
          sqA f.dw + sqA f.db := by
        rw [Finset.sum_add_distrib, ← Finset.sum_filter]
        have hf : (range (f.output * f.input)).filter (fun j => j < f.output) = range f.output := by
          ext q
          simp only [Finset.mem_filter, Finset.mem_range]
          omega
        rw [hf, sqA, sqA, h1, h2]
      rw [hs, if_pos rfl]
      cases hn : f.norm with
      | none => simp
      | some b =>
        dsimp only
        rw [bnSum_eq b (h5 b hn).1]
        simp [add_assoc]
  case edgePopup =>
    rw [if_neg (by simp), if_pos rfl]
    refine (bind_some_of (loop_sum (fun j => f.ds.get j ^ 2) fun j hj t => addSq_eq (by omega) t)).trans ?_
    simp [sqA, h3]
  case freezeTraining => simp
  case freezeBiases => exact absurd hm h4

theorem clipFcl_eq (c : ℝ) (f : GFcl) (h : f.Ok) : clipFcl c f = some (f.smul c) := by
  obtain ⟨h0, h1, h2, h3, h4, h5⟩ := h
  unfold clipFcl GFcl.smul
  cases hl : f.live
  · simp
  rw [if_pos rfl, if_pos rfl]
  have hge : f.output ≤ f.output * f.input := Nat.le_mul_of_pos_right _ h0
  cases hm : f.mode
  case gradientDescent =>
    rw [if_pos rfl]
    obtain ⟨f', e, hf⟩ := loop_inv (σ := GFcl) (n := f.output * f.input) (s := f)
      (f := fun j f => (scaleAt c f.dw j).bind fun x =>
        if j < f.output then (scaleAt c f.db j).bind fun y => some { f with dw := x, db := y }
        else some { f with dw := x })
      (fun j st => st = { f with dw := upto c f.dw j, db := upto c f.db (min j f.output) })
      (by simp [upto_zero]) (by
        rintro j hj _ rfl
        refine ⟨_, ?_, rfl⟩
        refine (bind_some_of (scale_upto c f.dw (by omega))).trans ?_
        dsimp only
        by_cases ho : j < f.output
        · rw [if_pos ho, min_eq_left (by omega), min_eq_left (by omega)]
          exact bind_some_of (scale_upto c f.db (by omega))
        · rw [if_neg ho, min_eq_right (by omega), min_eq_right (by omega)])
    rw [min_eq_right hge, upto_len c _ h1, upto_len c _ h2] at hf
    refine (bind_some_of e).trans ?_
    subst hf
    dsimp only
    cases hn : f.norm with
    | none => simp [hm, hl]
    | some b =>
      obtain ⟨hb, hg⟩ := h5 b hn
      dsimp only
      rw [hg]
      by_cases hbm : b.mode = .gradientDescent
      · rw [if_pos hbm]
        have : clipNormArray c 1 b = some (b.smul c) := by
          unfold clipNormArray
          simp only [loop, Option.bind_eq_bind, Option.bind_some, if_true]
          exact clipBn_eq c b hb
        refine (bind_some_of this).trans ?_
        simp [hl, hm]
      · rw [if_neg hbm]
        have : b.smul c = b := by
          unfold GBn.smul
          cases hx : b.mode <;> simp_all
        simp [hl, hm, this]
  case edgePopup =>
    rw [if_neg (by simp), if_pos rfl]
    obtain ⟨f', e, hf⟩ := loop_inv (σ := GFcl) (n := f.output * f.input) (s := f)
      (f := fun j f => (scaleAt c f.ds j).bind fun x => some { f with ds := x })
      (fun j st => st = { f with ds := upto c f.ds j })
      (by simp [upto_zero]) (by
        rintro j hj _ rfl
        refine ⟨_, ?_, rfl⟩
        exact bind_some_of (scale_upto c f.ds (by omega)))
    rw [e, hf, upto_len c _ h3]
    simp [hl, hm]
  case freezeTraining => simp
  case freezeBiases => exact absurd hm h4

theorem fcl_sq_smul (c : ℝ) (f : GFcl) : (f.smul c).sq = c ^ 2 * f.sq := by
  unfold GFcl.smul GFcl.sq
  cases hl : f.live
  · simp [hl]
  cases hm : f.mode <;> cases hn : f.norm <;> simp [hl, hm, hn, sqA_smul, bn_sq_smul, mul_add]

/-- The matrix with its first `k` rows and the first `z` cells of row `k` scaled. -/
noncomputable def uptoM (c : ℝ) (a : Mat ℝ) (k z : Nat) : Mat ℝ :=
  ⟨a.rows, a.cols, fun r q => if (r < k ∨ r = k ∧ q < z) ∧ q < a.cols then c * a.get r q else a.get r q⟩

theorem scale_uptoM (c : ℝ) (a : Mat ℝ) {k z : Nat} (h : k < a.rows) (h' : z < a.cols) :
    scaleAtM c (uptoM c a k z) k z = some (uptoM c a k (z + 1)) := by
  unfold scaleAtM
  refine (bind_some_of (Mat.read_eq (by exact h) (by exact h'))).trans ?_
  rw [Mat.write_eq _ (by exact h) (by exact h')]
  congr 1
  unfold uptoM
  congr 1
  funext r q
  dsimp only
  by_cases hq : r = k ∧ q = z
  · obtain ⟨rfl, rfl⟩ := hq
    rw [if_pos ⟨rfl, rfl⟩, if_neg (by omega), if_pos (by omega), mul_comm]
  · rw [if_neg hq]
    exact if_congr (by omega) rfl rfl

theorem uptoM_row (c : ℝ) (a : Mat ℝ) (k : Nat) : uptoM c a k a.cols = uptoM c a (k + 1) 0 := by
  unfold uptoM
  congr 1
  funext r q
  exact if_congr (by omega) rfl rfl

theorem clSum_eq (f : GCl) (h : f.Ok) (s : ℝ) : clSum s f = some (s + f.sq) := by
  obtain ⟨h1, h2, h3, h4, h5, h6⟩ := h
  unfold clSum GCl.sq
  cases hl : f.conv
  · simp
  rw [if_pos rfl, if_pos rfl]
  cases hm : f.mode
  case gradientDescent =>
    rw [if_pos rfl]
    refine (bind_some_of (loop_sum (fun k => (∑ z ∈ range f.per, f.dk.get k z ^ 2) + f.db.get k ^ 2)
      fun k hk t => ?_)).trans ?_
    · refine (bind_some_of (loop_sum (fun z => f.dk.get k z ^ 2) fun z hz t => ?_)).trans ?_
      · refine (bind_some_of (Mat.read_eq (by omega) (by omega))).trans ?_
        rw [sq]
      · rw [addSq_eq (by omega), add_assoc]
    · rw [if_pos rfl, foldlM_sum bnSum GBn.sq _ fun b hb s => bnSum_eq b (h6 b hb) s]
      rw [Finset.sum_add_distrib, sqM, sqA, h1, h2, h3]
      simp [add_assoc]
  case edgePopup =>
    rw [if_neg (by simp), if_pos rfl]
    refine (bind_some_of (loop_sum (fun j => f.ds.get j ^ 2) fun j hj t => addSq_eq (by omega) t)).trans ?_
    simp [sqA, h4]
  case freezeTraining => simp
  case freezeBiases => exact absurd hm h5

theorem clipCl_eq (c : ℝ) (f : GCl) (h : f.Ok) : clipCl c f = some (f.smul c) := by
  obtain ⟨h1, h2, h3, h4, h5, h6⟩ := h
  unfold clipCl GCl.smul
  cases hl : f.conv
  · simp
  rw [if_pos rfl, if_pos rfl]
  cases hm : f.mode
  case gradientDescent =>
    rw [if_pos rfl]
    obtain ⟨f', e, hf⟩ := loop_inv (σ := GCl) (n := f.nk) (s := f)
      (f := fun k f => (loop f.per (fun z f => (scaleAtM c f.dk k z).bind fun x => some { f with dk := x }) f).bind
        fun f => (scaleAt c f.db k).bind fun y => some { f with db := y })
      (fun k st => st = { f with dk := uptoM c f.dk k 0, db := upto c f.db k })
      (by simp [upto_zero, uptoM]) (by
        rintro k hk _ rfl
        refine ⟨_, ?_, rfl⟩
        obtain ⟨f1, e1, hf1⟩ := loop_inv (σ := GCl) (n := f.per)
          (s := { f with dk := uptoM c f.dk k 0, db := upto c f.db k })
          (f := fun z f => (scaleAtM c f.dk k z).bind fun x => some { f with dk := x })
          (fun z st => st = { f with dk := uptoM c f.dk k z, db := upto c f.db k }) rfl (by
            rintro z hz _ rfl
            refine ⟨_, ?_, rfl⟩
            exact bind_some_of (scale_uptoM c f.dk (by omega) (by omega)))
        refine (bind_some_of e1).trans ?_
        subst hf1
        refine (bind_some_of (scale_upto c f.db (by omega))).trans ?_
        rw [← h2, uptoM_row])
    refine (bind_some_of e).trans ?_
    subst hf
    have hk : uptoM c f.dk f.nk 0 = smulM c f.dk := by
      unfold uptoM smulM
      congr 1
      funext r q
      exact if_congr (by omega) rfl rfl
    rw [hk, upto_len c _ h3]
    dsimp only
    rw [if_pos hm]
    refine (bind_some_of (mapM_map _ _ _ fun b hb => clipBn_eq c b (h6 b hb))).trans ?_
    simp [hl, hm]
  case edgePopup =>
    rw [if_neg (by simp), if_pos rfl]
    obtain ⟨f', e, hf⟩ := loop_inv (σ := GCl) (n := f.nk * f.per) (s := f)
      (f := fun j f => (scaleAt c f.ds j).bind fun x => some { f with ds := x })
      (fun j st => st = { f with ds := upto c f.ds j })
      (by simp [upto_zero]) (by
        rintro j hj _ rfl
        refine ⟨_, ?_, rfl⟩
        exact bind_some_of (scale_upto c f.ds (by omega)))
    refine (bind_some_of e).trans ?_
    subst hf
    rw [upto_len c _ h4]
    dsimp only
    rw [if_neg (by simp [hm])]
    simp [hl, hm]
  case freezeTraining => simp [hm]
  case freezeBiases => exact absurd hm h5

theorem sum_smul {α : Type} (c : ℝ) (g : α → α) (v : α → ℝ) (l : List α) (h : ∀ x, v (g x) = c ^ 2 * v x) :
    ((l.map g).map v).sum = c ^ 2 * (l.map v).sum := by
  induction l with
  | nil => simp
  | cons x l ih =>
    simp only [List.map_cons, List.sum_cons, ih, h, mul_add]

theorem cl_sq_smul (c : ℝ) (f : GCl) : (f.smul c).sq = c ^ 2 * f.sq := by
  have hg := sum_smul c (GBn.smul c) GBn.sq f.gn (bn_sq_smul c)
  unfold GCl.smul GCl.sq
  cases hl : f.conv
  · simp [hl]
  cases hm : f.mode <;> simp only [hl, hm, if_true] <;>
    simp only [sqA_smul, sqM_smul, hg, mul_add, mul_zero]

/-! ### Networks -/

theorem modelSum_eq (m : GModel)
    (h : (∀ f ∈ m.fcls, f.Ok) ∧ (∀ f ∈ m.cls, f.Ok) ∧ ∀ r ∈ m.rls, ∀ f ∈ r, f.Ok) (s : ℝ) :
    modelSum s m = some (s + m.sq) := by
  unfold modelSum
  refine (bind_some_of (foldlM_sum fclSum GFcl.sq _ (fun f hf s => fclSum_eq f (h.1 f hf) s) s)).trans ?_
  refine (bind_some_of (foldlM_sum clSum GCl.sq _ (fun f hf s => clSum_eq f (h.2.1 f hf) s) _)).trans ?_
  rw [foldlM_sum (fun s r => r.foldlM clSum s) (fun r => (r.map GCl.sq).sum) _ fun r hr s =>
    foldlM_sum clSum GCl.sq _ (fun f hf s => clSum_eq f (h.2.2 r hr f hf) s) s]
  simp [GModel.sq, add_assoc]

theorem clipModel_eq (c : ℝ) (m : GModel)
    (h : (∀ f ∈ m.fcls, f.Ok) ∧ (∀ f ∈ m.cls, f.Ok) ∧ ∀ r ∈ m.rls, ∀ f ∈ r, f.Ok) :
    clipModel c m = some (m.smul c) := by
  unfold clipModel
  refine (bind_some_of (mapM_map _ _ _ fun f hf => clipFcl_eq c f (h.1 f hf))).trans ?_
  refine (bind_some_of (mapM_map _ _ _ fun f hf => clipCl_eq c f (h.2.1 f hf))).trans ?_
  exact bind_some_of (mapM_map _ (fun r : List GCl => r.map (GCl.smul c)) _ fun r hr =>
    mapM_map _ _ _ fun f hf => clipCl_eq c f (h.2.2 r hr f hf))

theorem model_sq_smul (c : ℝ) (m : GModel) : (m.smul c).sq = c ^ 2 * m.sq := by
  unfold GModel.smul GModel.sq
  dsimp only
  rw [sum_smul c _ _ _ (fcl_sq_smul c), sum_smul c _ _ _ (cl_sq_smul c),
    sum_smul c (fun r : List GCl => r.map (GCl.smul c)) (fun r => (r.map GCl.sq).sum) _
      fun r => sum_smul c _ _ _ (cl_sq_smul c)]
  ring

theorem l2Sum_eq (s : ℝ) (l : GL2) : l2Sum s l = s + l.sq := by
  unfold l2Sum GL2.sq
  cases l.mode <;> simp [sq]

theorem clipL2_eq (c : ℝ) (l : GL2) : clipL2 c l = l.smul c := by
  unfold clipL2 GL2.smul
  cases hm : l.mode <;> simp [mul_comm]

theorem l2_foldl (l : List GL2) (s : ℝ) : l.foldl l2Sum s = s + (l.map GL2.sq).sum := by
  induction l generalizing s with
  | nil => simp
  | cons x l ih => simp [ih, l2Sum_eq, add_assoc]

theorem l2_sq_smul (c : ℝ) (l : GL2) : (l.smul c).sq = c ^ 2 * l.sq := by
  unfold GL2.smul GL2.sq
  cases hm : l.mode <;> simp [hm, mul_pow]

theorem netSum_eq (n : GNet) (h : n.Ok) : netSum n = some ((n.models.map GModel.sq).sum + (n.l2.map GL2.sq).sum) := by
  unfold netSum
  refine (bind_some_of (foldlM_sum modelSum GModel.sq _ (fun m hm s => modelSum_eq m (h m hm) s) 0)).trans ?_
  rw [l2_foldl, zero_add]

theorem clipNet_eq (c : ℝ) (n : GNet) (h : n.Ok) : clipNet c n = some (n.smul c) := by
  unfold clipNet
  refine (bind_some_of (mapM_map _ _ _ fun m hm => clipModel_eq c m (h m hm))).trans ?_
  unfold GNet.smul
  congr 2
  exact List.map_congr_left fun l _ => clipL2_eq c l

theorem net_norm_smul (c : ℝ) (hc : 0 ≤ c) (n : GNet) : (n.smul c).norm = c * n.norm := by
  unfold GNet.smul GNet.norm
  dsimp only
  rw [sum_smul c _ _ _ (model_sq_smul c), sum_smul c _ _ _ (l2_sq_smul c), ← mul_add,
    Real.sqrt_mul (sq_nonneg c), Real.sqrt_sq hc]

/-- **C37, partial.** For any networks clipped together with a positive threshold,
the result is the gradient multiplied by one factor in `[0,1]`, its global norm is
at most the threshold (exactly the threshold when clipping happened), and a
gradient below the threshold is returned unchanged. The hypothesis `Ok` excludes
layers that freeze only their biases and layer normalisations whose `output/n_groups`
is not 1, see the refutations. -/
theorem C37_joint_partial (n : GNet) (h : n.Ok) (threshold : ℝ) (ht : 0 < threshold) :
    ∃ c n', clipJoint threshold n = some n' ∧ 0 ≤ c ∧ c ≤ 1 ∧ n' = n.smul c ∧ n'.norm ≤ threshold ∧
      (n.norm < threshold → n' = n) ∧ (threshold ≤ n.norm → n'.norm = threshold) := by
  have e : clipJoint threshold n = if n.norm ≥ threshold then clipNet (threshold / n.norm) n else some n := by
    unfold clipJoint
    exact bind_some_of (netSum_eq n h)
  by_cases hc : n.norm ≥ threshold
  · have hp : 0 < n.norm := lt_of_lt_of_le ht hc
    have hn : (n.smul (threshold / n.norm)).norm = threshold := by
      rw [net_norm_smul _ (by positivity)]
      field_simp
    refine ⟨threshold / n.norm, n.smul (threshold / n.norm), ?_, by positivity, (div_le_one hp).2 hc, rfl,
      le_of_eq hn, fun hlt => absurd hc (not_le.2 hlt), fun _ => hn⟩
    rw [e, if_pos hc, clipNet_eq _ n h]
  · have hone : n.smul 1 = n := by
      have hA : ∀ a : Arr ℝ, smulA 1 a = a := fun a => Arr.ext' rfl fun q => by simp [smulA]
      have hM : ∀ a : Mat ℝ, smulM 1 a = a := fun a => by
        cases a; simp [smulM]
      have hB : ∀ b : GBn, b.smul 1 = b := fun b => by
        cases b; unfold GBn.smul; split <;> simp [hA]
      have hBl : ∀ l : List GBn, l.map (GBn.smul 1) = l := fun l => by
        rw [List.map_congr_left (g := id) fun b _ => hB b, List.map_id]
      have hF : ∀ f : GFcl, f.smul 1 = f := fun f => by
        have ho : ∀ o : Option GBn, o.map (GBn.smul 1) = o := fun o => by cases o <;> simp [hB]
        cases f; unfold GFcl.smul; split_ifs
        · split <;> simp [hA, ho]
        · rfl
      have hC : ∀ f : GCl, f.smul 1 = f := fun f => by
        cases f; unfold GCl.smul; split_ifs
        · split <;> simp [hA, hM, hBl]
        · rfl
      have hCl : ∀ l : List GCl, l.map (GCl.smul 1) = l := fun l => by
        rw [List.map_congr_left (g := id) fun b _ => hC b, List.map_id]
      have hMo : ∀ m : GModel, m.smul 1 = m := fun m => by
        cases m
        unfold GModel.smul
        dsimp only
        rw [List.map_congr_left (g := id) fun b _ => hF b, hCl,
          List.map_congr_left (g := id) (f := fun r : List GCl => r.map (GCl.smul 1)) fun b _ => hCl b]
        simp
      have hL : ∀ l : GL2, l.smul 1 = l := fun l => by
        cases l; unfold GL2.smul; split <;> simp
      cases n
      unfold GNet.smul
      dsimp only
      rw [List.map_congr_left (g := id) fun b _ => hMo b, List.map_congr_left (g := id) fun b _ => hL b]
      simp
    refine ⟨1, n, ?_, zero_le_one, le_rfl, hone.symm, le_of_lt (not_le.1 hc), fun _ => rfl,
      fun hle => absurd hle hc⟩
    rw [e, if_neg hc]

/-- Non-vacuity: a network of one layer with a normalisation, a convolution and a
scalar whose joint gradient has norm 5, clipped to 1. -/
example : ∃ n : GNet, n.Ok ∧ n.norm = 5 := by
  refine ⟨⟨[⟨[⟨1, 1, 1, true, .gradientDescent, ⟨1, fun _ => 3⟩, ⟨1, fun _ => 0⟩, ⟨1, fun _ => 0⟩, none⟩],
    [⟨true, .gradientDescent, 1, 1, ⟨1, 1, fun _ _ => 4⟩, ⟨1, fun _ => 0⟩, ⟨1, fun _ => 0⟩, []⟩], []⟩],
    [⟨.gradientDescent, 0⟩]⟩, ?_, ?_⟩
  · intro m hm
    simp only [List.mem_singleton] at hm
    subst hm
    refine ⟨?_, ?_, by simp⟩
    · intro f hf
      simp only [List.mem_singleton] at hf
      subst hf
      exact ⟨by decide, rfl, rfl, rfl, by decide, by simp⟩
    · intro f hf
      simp only [List.mem_singleton] at hf
      subst hf
      exact ⟨rfl, rfl, rfl, rfl, by decide, by simp⟩
  · have : (5 : ℝ) = Real.sqrt (5 ^ 2) := (Real.sqrt_sq (by norm_num)).symm
    have hs : ∀ x : ℝ, x = 25 → Real.sqrt x = 5 := by
      rintro x rfl
      rw [this]; congr 1; norm_num
    refine hs _ ?_
    simp [GModel.sq, GFcl.sq, GCl.sq, GL2.sq, sqA, sqM]
    norm_num

/-! ### Where the property fails -/

/-- **C37, frozen biases, refuted.** A layer in `FREEZE_BIASES` mode, whose weights
are trained, is neither counted nor clipped: with gradient 5 and threshold 1 the
gradient stays 5. -/
theorem C37_freeze_biases_refuted :
    ∃ n : GNet, n.norm = 5 ∧ clipJoint 1 n = some n := by
  let f : GFcl := ⟨1, 1, 1, true, .freezeBiases, ⟨1, fun _ => 5⟩, ⟨1, fun _ => 0⟩, ⟨1, fun _ => 0⟩, none⟩
  refine ⟨⟨[⟨[f], [], []⟩], []⟩, ?_, ?_⟩
  · have : (5 : ℝ) = Real.sqrt (5 ^ 2) := (Real.sqrt_sq (by norm_num)).symm
    rw [this]
    simp [GNet.norm, GModel.sq, GFcl.sq, sqA, f]
  · have h1 : fclSum 0 f = some 0 := by simp [fclSum, f]
    simp [clipJoint, netSum, modelSum, h1]

/-- **C37, layer normalisation, refuted.** Whenever clipping applies and a layer
has a trained layer normalisation over more than one unit per group, `clip_bns`
walks past the single pointer it was given (undefined behaviour). -/
theorem C37_layer_norm_refuted (c : ℝ) (f : GFcl) (b : GBn) (hl : f.live = true) (hm : f.mode = .gradientDescent)
    (hn : f.norm = some b) (hb : b.mode = .gradientDescent) (h1 : 0 < f.input) (h2 : f.dw.len = f.output * f.input)
    (h3 : f.db.len = f.output) (hg : 2 ≤ f.output / f.nGroups) : clipFcl c f = none := by
  have hge : f.output ≤ f.output * f.input := Nat.le_mul_of_pos_right _ h1
  unfold clipFcl
  rw [if_pos hl, if_pos hm]
  obtain ⟨f', e, hf⟩ := loop_inv (σ := GFcl) (n := f.output * f.input) (s := f)
      (f := fun j f => (scaleAt c f.dw j).bind fun x =>
        if j < f.output then (scaleAt c f.db j).bind fun y => some { f with dw := x, db := y }
        else some { f with dw := x })
      (fun j st => st = { f with dw := upto c f.dw j, db := upto c f.db (min j f.output) })
      (by simp [upto_zero]) (by
        rintro j hj _ rfl
        refine ⟨_, ?_, rfl⟩
        refine (bind_some_of (scale_upto c f.dw (by omega))).trans ?_
        dsimp only
        by_cases ho : j < f.output
        · rw [if_pos ho, min_eq_left (by omega), min_eq_left (by omega)]
          exact bind_some_of (scale_upto c f.db (by omega))
        · rw [if_neg ho, min_eq_right (by omega), min_eq_right (by omega)])
  refine (bind_some_of e).trans ?_
  subst hf
  dsimp only
  rw [hn]
  dsimp only
  rw [if_pos hb]
  have : clipNormArray c (f.output / f.nGroups) b = none := by
    obtain ⟨k, hk⟩ : ∃ k, f.output / f.nGroups = k + 2 := ⟨f.output / f.nGroups - 2, by omega⟩
    rw [hk]
    unfold clipNormArray
    simp only [loop, Option.bind_eq_bind]
    cases loop k (fun i b => if i = 0 then clipBn c b else none) b with
    | none => rfl
    | some b1 =>
      simp only [Option.bind_some]
      cases (if k = 0 then clipBn c b1 else none) with
      | none => rfl
      | some b2 => rw [Option.bind_some, if_neg (by omega)]
  rw [this]
  rfl

example : ∃ (f : GFcl) (b : GBn), f.live = true ∧ f.mode = .gradientDescent ∧ f.norm = some b ∧
    b.mode = .gradientDescent ∧ 0 < f.input ∧ f.dw.len = f.output * f.input ∧ f.db.len = f.output ∧
    2 ≤ f.output / f.nGroups :=
  ⟨⟨1, 4, 2, true, .gradientDescent, ⟨4, fun _ => 1⟩, ⟨4, fun _ => 1⟩, ⟨4, fun _ => 1⟩,
    some ⟨2, .gradientDescent, ⟨2, fun _ => 1⟩, ⟨2, fun _ => 1⟩⟩⟩, _, rfl, rfl, rfl, rfl, by decide, rfl, rfl, by decide⟩

/-! ### Recurrent networks -/

/-- The gradients of an `lstm` in gradient-descent mode without group
normalisation: `w`, `u`, `b` for the four gates. -/
structure GLstm where
  input : Nat
  output : Nat
  dw : Mat ℝ
  du : Mat ℝ
  db : Mat ℝ

/-- `sum += a[0][j]*a[0][j]` … for the four gates. -/
noncomputable def addSq4 (a : Mat ℝ) (j : Nat) (s : ℝ) : Option ℝ :=
  loop 4 (fun g s => (a.read g j).bind fun x => some (s + x * x)) s

/-- `sum += a[0][j]` … for the four gates. -/
noncomputable def addLin4 (a : Mat ℝ) (j : Nat) (s : ℝ) : Option ℝ :=
  loop 4 (fun g s => (a.read g j).bind fun x => some (s + x)) s

/-- `sum_all_quadratic_derivative_weights_lstms` for one layer
(`/repo/src/clipping_gradient.c` 994-1024): the bias gradients are added without
squaring them and the recurrent gradients are read up to `output*input`. -/
noncomputable def lstmSum (s : ℝ) (f : GLstm) : Option ℝ :=
  (loop (f.output * f.input) (fun j s => (addSq4 f.dw j s).bind fun s =>
    if j < f.output then addLin4 f.db j s else some s) s).bind fun s =>
    loop (f.output * f.input) (fun j s => addSq4 f.du j s) s

/-- `a[0][j] *= c` … for the four gates. -/
noncomputable def scale4 (c : ℝ) (a : Mat ℝ) (j : Nat) : Option (Mat ℝ) := loop 4 (fun g a => scaleAtM c a g j) a

/-- `clip_lstms` for one layer (`/repo/src/clipping_gradient.c` 743-763). -/
noncomputable def clipLstm (c : ℝ) (f : GLstm) : Option GLstm :=
  (loop (f.output * f.input) (fun j f => (scale4 c f.dw j).bind fun x =>
    if j < f.output then (scale4 c f.db j).bind fun y => some { f with dw := x, db := y }
    else some { f with dw := x }) f).bind fun f =>
    loop (f.output * f.output) (fun j f => (scale4 c f.du j).bind fun x => some { f with du := x }) f

/-- `clipping_gradient_rmodel` (`/repo/src/clipping_gradient.c` 357-367). -/
noncomputable def clipRmodel (threshold : ℝ) (l : List GLstm) : Option (List GLstm) :=
  (l.foldlM lstmSum 0).bind fun s =>
    if Real.sqrt s ≥ threshold then l.mapM (clipLstm (threshold / Real.sqrt s)) else some l

/-- Norm of the gradient of a recurrent network. -/
noncomputable def rnorm (l : List GLstm) : ℝ := Real.sqrt ((l.map fun f => sqM f.dw + sqM f.du + sqM f.db).sum)

/-- **C37, recurrent networks, refuted.** The bias gradients enter the norm
unsquared: with four bias gradients of 10 (norm 20) the computed norm is `√40`, so
clipping to 7 changes nothing. -/
theorem C37_rmodel_refuted : ∃ l : List GLstm, rnorm l = 20 ∧ clipRmodel 7 l = some l := by
  let f : GLstm := ⟨1, 1, ⟨4, 1, fun _ _ => 0⟩, ⟨4, 1, fun _ _ => 0⟩, ⟨4, 1, fun _ _ => 10⟩⟩
  refine ⟨[f], ?_, ?_⟩
  · have : (20 : ℝ) = Real.sqrt (20 ^ 2) := (Real.sqrt_sq (by norm_num)).symm
    have hs : ∀ x : ℝ, x = 400 → Real.sqrt x = 20 := by
      rintro x rfl
      rw [this]; congr 1; norm_num
    refine hs _ ?_
    simp [sqM, f]
    norm_num
  · have h1 : lstmSum 0 f = some 40 := by
      simp [lstmSum, f, loop, addSq4, addLin4, Mat.read]
      norm_num
    unfold clipRmodel
    simp only [List.foldlM_cons, List.foldlM_nil, h1, Option.bind_eq_bind, Option.bind_some]
    refine (bind_some_of rfl).trans ?_
    rw [if_neg]
    rw [ge_iff_le, not_le]
    rw [Real.sqrt_lt' (by norm_num)]
    norm_num

theorem addSq4_none (a : Mat ℝ) (j : Nat) (h : a.cols ≤ j) (s : ℝ) : addSq4 a j s = none := by
  have hr : ∀ g, a.read g j = none := by
    intro g
    unfold Mat.read
    exact if_neg (by omega)
  simp [addSq4, loop, hr]

/-- **C37, recurrent networks, refuted.** With more inputs than outputs the norm
reads the recurrent gradients past their end. -/
theorem C37_rmodel_bounds_refuted (f : GLstm) (s : ℝ) (h : f.output < f.input) (ho : 0 < f.output)
    (hu : f.du.cols = f.output * f.output) : lstmSum s f = none := by
  unfold lstmSum
  cases loop (f.output * f.input) (fun j s => (addSq4 f.dw j s).bind fun s =>
    if j < f.output then addLin4 f.db j s else some s) s with
  | none => rfl
  | some t =>
    simp only [Option.bind_some]
    have hlt : f.output * f.output < f.output * f.input := Nat.mul_lt_mul_of_pos_left h ho
    have key : ∀ n, f.output * f.output < n → loop n (fun j s => addSq4 f.du j s) t = none := by
      intro n
      induction n with
      | zero => intro h; omega
      | succ n ih =>
        intro hn
        by_cases h1 : f.output * f.output < n
        · simp only [loop, Option.bind_eq_bind]
          rw [ih h1]
          rfl
        · simp only [loop, Option.bind_eq_bind]
          cases loop n (fun j s => addSq4 f.du j s) t with
          | none => rfl
          | some u =>
            simp only [Option.bind_some]
            exact addSq4_none _ _ (by omega) _
    exact key _ hlt

/-! ### `general_clipping_gradient` -/

/-- `general_clipping_gradient` (`/repo/src/clipping_gradient.c` 49-248) without
recurrent networks: the test against the threshold guards only the plain models,
the parts of transformers (`rest`) are always rescaled. -/
noncomputable def clipGeneral (threshold : ℝ) (plain rest : GNet) : Option (GNet × GNet) :=
  (netSum plain).bind fun s => (netSum rest).bind fun t =>
    (if Real.sqrt (s + t) ≥ threshold then clipNet (threshold / Real.sqrt (s + t)) plain else some plain).bind fun p =>
      (clipNet (threshold / Real.sqrt (s + t)) rest).bind fun r => some (p, r)

/-- **C37, combined variant, refuted.** Gradients below the threshold are enlarged:
a transformer whose only gradient is 1, clipped to 2, gets gradient 2. -/
theorem C37_general_refuted :
    ∃ rest rest' : GNet, clipGeneral 2 ⟨[], []⟩ rest = some (⟨[], []⟩, rest') ∧ rest.norm = 1 ∧ rest'.norm = 2 := by
  refine ⟨⟨[], [⟨.gradientDescent, 1⟩]⟩, ⟨[], [⟨.gradientDescent, 2⟩]⟩, ?_, ?_, ?_⟩
  · simp [clipGeneral, netSum, clipNet, l2Sum, clipL2]
  · simp [GNet.norm, GL2.sq]
  · simp [GNet.norm, GL2.sq]

/-- **C37, combined variant, partial.** For plain models only (no recurrent
networks and no transformers) the combined variant does the same as the joint
clipping. -/
theorem C37_general_partial (threshold : ℝ) (plain : GNet) (h : plain.Ok) :
    clipGeneral threshold plain ⟨[], []⟩ = (clipJoint threshold plain).map fun p => (p, ⟨[], []⟩) := by
  have h0 : netSum ⟨[], []⟩ = some 0 := by simp [netSum]
  have h1 : ∀ c, clipNet c ⟨[], []⟩ = some ⟨[], []⟩ := fun c => by simp [clipNet]
  have key : ∀ o : Option GNet, (o.bind fun p => some (p, (⟨[], []⟩ : GNet))) = o.map fun p => (p, ⟨[], []⟩) := by
    intro o; cases o <;> rfl
  unfold clipGeneral clipJoint
  rw [netSum_eq plain h, h0]
  simp only [Option.bind_some, add_zero, h1]
  exact key _

theorem net_sq_nonneg (n : GNet) : 0 ≤ (n.models.map GModel.sq).sum + (n.l2.map GL2.sq).sum := by
  have hA : ∀ a : Arr ℝ, 0 ≤ sqA a := fun a => Finset.sum_nonneg fun _ _ => sq_nonneg _
  have hM : ∀ a : Mat ℝ, 0 ≤ sqM a := fun a => Finset.sum_nonneg fun _ _ => Finset.sum_nonneg fun _ _ => sq_nonneg _
  have hB : ∀ b : GBn, 0 ≤ b.sq := fun b => by
    unfold GBn.sq
    split
    · exact add_nonneg (hA _) (hA _)
    · exact le_refl _
  have hL : ∀ {β : Type} (l : List β) (f : β → ℝ), (∀ x, 0 ≤ f x) → 0 ≤ (l.map f).sum := fun l f hf => by
    apply List.sum_nonneg
    intro x hx
    obtain ⟨y, _, rfl⟩ := List.mem_map.1 hx
    exact hf y
  have hO : ∀ o : Option GBn, 0 ≤ o.elim 0 GBn.sq := fun o => by
    cases o with
    | none => exact le_refl _
    | some b => exact hB b
  have hF : ∀ f : GFcl, 0 ≤ f.sq := fun f => by
    unfold GFcl.sq
    have h1 := hA f.dw
    have h2 := hA f.db
    have h3 := hA f.ds
    have h4 := hO f.norm
    split_ifs
    · split <;> linarith
    · exact le_refl _
  have hC : ∀ f : GCl, 0 ≤ f.sq := fun f => by
    unfold GCl.sq
    have h1 := hM f.dk
    have h2 := hA f.db
    have h3 := hA f.ds
    have h4 := hL f.gn _ hB
    split_ifs
    · split <;> linarith
    · exact le_refl _
  have hMod : ∀ m : GModel, 0 ≤ m.sq := fun m => by
    unfold GModel.sq
    have h1 := hL m.fcls _ hF
    have h2 := hL m.cls _ hC
    have h3 := hL m.rls _ fun r => hL r _ hC
    linarith
  have h2 : ∀ l : GL2, 0 ≤ l.sq := fun l => by
    unfold GL2.sq
    split
    · exact sq_nonneg _
    · exact le_refl _
  exact add_nonneg (hL _ _ hMod) (hL _ _ h2)

/-- **C37, combined variant, partial.** When the norm over all the networks together
reaches the threshold, every network is multiplied by the same factor in `[0,1]` and
the norm over all of them becomes exactly the threshold. (Below the threshold the
combined variant is wrong, see `C37_general_refuted`.) -/
theorem C37_general_large_partial (threshold : ℝ) (ht : 0 < threshold) (plain rest : GNet) (h1 : plain.Ok) (h2 : rest.Ok)
    (hn : threshold ≤ Real.sqrt (plain.norm ^ 2 + rest.norm ^ 2)) :
    ∃ c, 0 ≤ c ∧ c ≤ 1 ∧ clipGeneral threshold plain rest = some (plain.smul c, rest.smul c) ∧
      Real.sqrt ((plain.smul c).norm ^ 2 + (rest.smul c).norm ^ 2) = threshold := by
  have sq : ∀ n : GNet, n.Ok → ∃ s, netSum n = some s ∧ s = n.norm ^ 2 := by
    intro n h
    refine ⟨_, netSum_eq n h, ?_⟩
    unfold GNet.norm
    rw [Real.sq_sqrt]
    have hb : 0 ≤ (n.models.map GModel.sq).sum + (n.l2.map GL2.sq).sum := net_sq_nonneg n
    exact hb
  obtain ⟨s, es, hs⟩ := sq plain h1
  obtain ⟨t, et, hT⟩ := sq rest h2
  set N := Real.sqrt (plain.norm ^ 2 + rest.norm ^ 2) with hN
  have hp : 0 < N := lt_of_lt_of_le ht hn
  refine ⟨threshold / N, by positivity, (div_le_one hp).2 hn, ?_, ?_⟩
  · unfold clipGeneral
    rw [es, et]
    simp only [Option.bind_some]
    rw [hs, hT, ← hN, if_pos hn, clipNet_eq _ _ h1, clipNet_eq _ _ h2]
    rfl
  · rw [net_norm_smul _ (by positivity), net_norm_smul _ (by positivity), mul_pow, mul_pow, ← mul_add,
      Real.sqrt_mul (sq_nonneg _), Real.sqrt_sq (by positivity), ← hN]
    field_simp

example : ∃ plain rest : GNet, plain.Ok ∧ rest.Ok ∧ (2 : ℝ) ≤ Real.sqrt (plain.norm ^ 2 + rest.norm ^ 2) := by
  refine ⟨⟨[], [⟨.gradientDescent, 3⟩]⟩, ⟨[], [⟨.gradientDescent, 4⟩]⟩, by simp [GNet.Ok], by simp [GNet.Ok], ?_⟩
  simp only [GNet.norm, GL2.sq, List.map_cons, List.map_nil, List.sum_cons, List.sum_nil]
  apply Real.le_sqrt_of_sq_le
  rw [Real.sq_sqrt (by norm_num), Real.sq_sqrt (by norm_num)]
  norm_num

end LLab.ClipGrad
