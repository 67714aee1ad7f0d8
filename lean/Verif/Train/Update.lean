import Verif.Train.Optim
import Verif.Common.Mat
import Mathlib.Logic.Function.Iterate
import Mathlib.Data.List.Forall2

/-!
`/repo/src/update.c`: one optimiser step over all parameters of a model.
Property C42. A parameter and its optimiser state (the cells at the same index of
the arrays `d1_…`, `d2_…`, `d3_…`) form one `Cell`.
-/

namespace LLab.Update

open LLab.Optim

/-- A parameter with the state all optimisers keep for it. -/
structure Cell where
  /-- the parameter -/
  p : ℝ
  /-- `d1_…` -/
  d1 : ℝ
  /-- `d2_…` -/
  d2 : ℝ
  /-- `d3_…` -/
  d3 : ℝ

/-- `gradient_descent_flag` with the constants each optimiser uses
(`/repo/src/update.c` 1033-1060). -/
inductive Opt where
  /-- `NESTEROV` -/
  | nesterov (lr m : ℝ)
  /-- `ADAM` -/
  | adam (lr b1 b2 bb1 bb2 eps : ℝ)
  /-- `RADAM` -/
  | radam (lr b1 b2 bb1 bb2 eps : ℝ) (t : Nat)
  /-- `DIFF_GRAD` -/
  | diffGrad (lr b1 b2 bb1 bb2 eps : ℝ)
  /-- `ADAMOD` -/
  | adamod (lr b1 b2 b3 bb1 bb2 eps : ℝ)

/-- One call of the optimiser on one parameter with gradient `dp` and
`mini_batch_size` `B` (`/repo/src/gd.c` 37-138). -/
noncomputable def stepCell (B : ℝ) : Opt → ℝ → Cell → Cell
  | .nesterov lr m, dp, c =>
    let r := nesterov lr m B dp (c.p, c.d1)
    ⟨r.1, r.2, c.d2, c.d3⟩
  | .adam lr b1 b2 bb1 bb2 eps, dp, c =>
    let r := adam lr b1 b2 bb1 bb2 eps B dp ⟨c.p, c.d1, c.d2⟩
    ⟨r.p, r.d1, r.d2, c.d3⟩
  | .radam lr b1 b2 bb1 bb2 eps t, dp, c =>
    let r := radam eps lr b1 b2 bb1 bb2 B dp t ⟨c.p, c.d1, c.d2⟩
    ⟨r.p, r.d1, r.d2, c.d3⟩
  | .diffGrad lr b1 b2 bb1 bb2 eps, dp, c =>
    let r := diffGrad lr b1 b2 bb1 bb2 eps B dp (⟨c.p, c.d1, c.d2⟩, c.d3)
    ⟨r.1.p, r.1.d1, r.1.d2, r.2⟩
  | .adamod lr b1 b2 b3 bb1 bb2 eps, dp, c =>
    let r := Optim.adamod lr b1 b2 b3 bb1 bb2 eps B dp (⟨c.p, c.d1, c.d2⟩, c.d3)
    ⟨r.1.p, r.1.d1, r.1.d2, r.2⟩

/-- The `mini_batch_size` used for normalisation parameters: the Nesterov variant
passes 1 (`/repo/src/update.c` 538-539), the others the argument (768-850). -/
noncomputable def normB (B : ℝ) : Opt → ℝ
  | .nesterov _ _ => 1
  | _ => B

/-- `step(&a[k], …, g[k])` -/
noncomputable def stepAt (B : ℝ) (o : Opt) (a : Arr Cell) (g : Arr ℝ) (k : Nat) : Option (Arr Cell) :=
  (a.read k).bind fun c => (g.read k).bind fun d => a.write k (stepCell B o d c)

/-- `training_mode` (`/repo/src/llab.h`). -/
inductive Mode where
  | freezeTraining
  | gradientDescent
  | freezeBiases
  | edgePopup
deriving DecidableEq

/-! ### Normalisation layers -/

/-- The parameters of a `bn`. -/
structure Bn where
  mode : Mode
  dim : Nat
  gamma : Arr Cell
  dgamma : Arr ℝ
  beta : Arr Cell
  dbeta : Arr ℝ

/-- Allocation sizes of a `bn`. -/
structure Bn.WF (b : Bn) : Prop where
  gamma : b.gamma.len = b.dim
  dgamma : b.dgamma.len = b.dim
  beta : b.beta.len = b.dim
  dbeta : b.dbeta.len = b.dim

/-- One iteration of the loop of `update_batch_normalized_layer_*`. -/
noncomputable def bnAt (B : ℝ) (o : Opt) (j : Nat) (b : Bn) : Option Bn :=
  (stepAt (normB B o) o b.gamma b.dgamma j).bind fun ga =>
    (stepAt (normB B o) o b.beta b.dbeta j).bind fun be => some { b with gamma := ga, beta := be }

/-- `update_batch_normalized_layer_*` for one layer (`/repo/src/update.c`
533-543, 771-850). -/
noncomputable def bnUpdate (B : ℝ) (o : Opt) (b : Bn) : Option Bn :=
  if b.mode = .gradientDescent then loop b.dim (fun j b => bnAt B o j b) b else some b

/-- `update_batch_normalized_layer_*` over `n_bn` layers. -/
noncomputable def bnsUpdate (B : ℝ) (o : Opt) (n : Nat) (bs : Arr Bn) : Option (Arr Bn) :=
  loop n (fun i bs => (bs.read i).bind fun b => (bnUpdate B o b).bind fun b' => bs.write i b') bs

/-! ### Fully-connected layers -/

/-- The parameters and gradients of an `fcl`. -/
structure Fcl where
  mode : Mode
  /-- `feed_forward_flag == ONLY_DROPOUT` -/
  onlyDropout : Bool
  /-- `is_noisy(f)` -/
  noisy : Bool
  /-- `normalization_flag == LAYER_NORMALIZATION` -/
  layerNorm : Bool
  input : Nat
  output : Nat
  w : Arr Cell
  dw : Arr ℝ
  nw : Arr Cell
  dnw : Arr ℝ
  sc : Arr Cell
  dsc : Arr ℝ
  b : Arr Cell
  db : Arr ℝ
  nb : Arr Cell
  dnb : Arr ℝ
  ln : Bn

/-- Allocation sizes of an `fcl`. -/
structure Fcl.WF (f : Fcl) : Prop where
  w : f.w.len = f.output * f.input
  dw : f.dw.len = f.output * f.input
  nw : f.nw.len = f.output * f.input
  dnw : f.dnw.len = f.output * f.input
  sc : f.sc.len = f.output * f.input
  dsc : f.dsc.len = f.output * f.input
  b : f.b.len = f.output
  db : f.db.len = f.output
  nb : f.nb.len = f.output
  dnb : f.dnb.len = f.output
  ln : f.ln.WF

/-- The body of the inner loop (`/repo/src/update.c` 493-502); the other variants
(557-566 etc.) write `else if`, with the same meaning. -/
noncomputable def fclWeight (B : ℝ) (o : Opt) (q : Nat) (f : Fcl) : Option Fcl :=
  (if f.mode = .gradientDescent ∨ f.mode = .freezeBiases then
    (stepAt B o f.w f.dw q).bind fun w =>
      if f.noisy then (stepAt B o f.nw f.dnw q).bind fun nw => some { f with w := w, nw := nw }
      else some { f with w := w }
  else some f).bind fun f =>
    if f.mode = .edgePopup then (stepAt B o f.sc f.dsc q).bind fun sc => some { f with sc := sc } else some f

/-- The biases of one output (`/repo/src/update.c` 503-507). -/
noncomputable def fclBias (B : ℝ) (o : Opt) (j : Nat) (f : Fcl) : Option Fcl :=
  if f.mode = .gradientDescent then
    (stepAt B o f.b f.db j).bind fun b =>
      if f.noisy then (stepAt B o f.nb f.dnb j).bind fun nb => some { f with b := b, nb := nb }
      else some { f with b := b }
  else some f

/-- `update_fully_connected_layer_*` for one layer (`/repo/src/update.c` 488-513,
553-580, 606-630, 651-675, 700-726). -/
noncomputable def fclUpdate (B : ℝ) (o : Opt) (f : Fcl) : Option Fcl :=
  if f.mode ≠ .freezeTraining ∧ f.onlyDropout = false then
    (loop f.output (fun j f' =>
      (loop f.input (fun k f' => fclWeight B o (j * f.input + k) f') f').bind (fclBias B o j)) f).bind fun f' =>
        if f.layerNorm then (bnUpdate B o f'.ln).bind fun l => some { f' with ln := l } else some f'
  else some f

/-! ### Convolutional layers -/

/-- The parameters and gradients of a `cl`. -/
structure Cl where
  mode : Mode
  /-- `convolutional_flag` is `CONVOLUTION` or `TRANSPOSED_CONVOLUTION` -/
  convolution : Bool
  /-- `normalization_flag == GROUP_NORMALIZATION` -/
  groupNorm : Bool
  kernels : Nat
  channels : Nat
  kr : Nat
  kc : Nat
  k : Mat Cell
  dk : Mat ℝ
  b : Arr Cell
  db : Arr ℝ
  sc : Arr Cell
  dsc : Arr ℝ
  /-- `n_kernels / group_norm_channels` -/
  groups : Nat
  gn : Arr Bn

/-- Allocation sizes of a `cl`. -/
structure Cl.WF (c : Cl) : Prop where
  krows : c.k.rows = c.kernels
  kcols : c.k.cols = c.channels * c.kr * c.kc
  dkrows : c.dk.rows = c.kernels
  dkcols : c.dk.cols = c.channels * c.kr * c.kc
  b : c.b.len = c.kernels
  db : c.db.len = c.kernels
  sc : c.sc.len = c.kernels * c.channels * c.kr * c.kc
  dsc : c.dsc.len = c.kernels * c.channels * c.kr * c.kc
  gn : c.gn.len = c.groups
  bn : ∀ i, i < c.groups → (c.gn.get i).WF

/-- `step(&a[i][j], …, g[i][j])` -/
noncomputable def stepAtM (B : ℝ) (o : Opt) (a : Mat Cell) (g : Mat ℝ) (i j : Nat) : Option (Mat Cell) :=
  (a.read i j).bind fun c => (g.read i j).bind fun d => a.write i j (stepCell B o d c)

/-- The body of the loop over the kernels (`/repo/src/update.c` 270-283):
kernel, bias, and, inside the same loop, all group-normalisation layers. -/
noncomputable def clKernel (B : ℝ) (o : Opt) (k : Nat) (c : Cl) : Option Cl :=
  (loop c.channels (fun u a => loop c.kr (fun z a => loop c.kc (fun w a =>
    stepAtM B o a c.dk k (u * c.kr * c.kc + z * c.kc + w)) a) a) c.k).bind fun ks =>
  (if c.mode ≠ .freezeBiases then stepAt B o c.b c.db k else some c.b).bind fun b =>
  (if c.groupNorm then bnsUpdate B o c.groups c.gn else some c.gn).bind fun gn =>
    some { c with k := ks, b := b, gn := gn }

/-- `update_convolutional_layer_*` for one layer (`/repo/src/update.c` 264-296,
312-344, …) and the same code for the layers of a residual block (36-73, …). -/
noncomputable def clUpdate (B : ℝ) (o : Opt) (c : Cl) : Option Cl :=
  if c.mode ≠ .freezeTraining then
    if c.convolution then
      if c.mode = .gradientDescent ∨ c.mode = .freezeBiases then
        loop c.kernels (fun k c => clKernel B o k c) c
      else if c.mode = .edgePopup then
        (loop (c.kernels * c.channels * c.kr * c.kc) (fun q a => stepAt B o a c.dsc q) c.sc).bind fun sc =>
          some { c with sc := sc }
      else some c
    else some c
  else some c

/-! ### Models -/

/-- A `model`: the layers of its residual blocks, its convolutional and its
fully-connected layers. -/
structure Model where
  rls : List (List Cl)
  cls : List Cl
  fcls : List Fcl

/-- `update_model` without regularisation (`/repo/src/update.c` 1018-1064). -/
noncomputable def modelUpdate (B : ℝ) (o : Opt) (m : Model) : Option Model :=
  (m.rls.mapM fun r : List Cl => r.mapM (clUpdate B o)).bind fun rls =>
  (m.cls.mapM (clUpdate B o)).bind fun cls =>
  (m.fcls.mapM (fclUpdate B o)).bind fun fcls => some ⟨rls, cls, fcls⟩

/-! ### Specification -/

/-- The first `n` cells of `a'` are the cells of `a` after `times` optimiser
steps on the gradients `g` (batch size `B`); everything else is unchanged. -/
def Moved (B : ℝ) (o : Opt) (times n : Nat) (g : Arr ℝ) (a a' : Arr Cell) : Prop :=
  a'.len = a.len ∧ ∀ q, a'.get q = if q < n then (stepCell B o (g.get q))^[times] (a.get q) else a.get q

/-- A normalisation layer whose parameters made `times` steps if it is trained
by gradient descent and none otherwise. -/
def BnMoved (B : ℝ) (o : Opt) (times : Nat) (b b' : Bn) : Prop :=
  Moved B o (if b.mode = .gradientDescent then times else 0) b.dim b.dgamma b.gamma b'.gamma ∧
  Moved B o (if b.mode = .gradientDescent then times else 0) b.dim b.dbeta b.beta b'.beta ∧
  b'.mode = b.mode ∧ b'.dim = b.dim ∧ b'.dgamma = b.dgamma ∧ b'.dbeta = b.dbeta

/-- The layer takes part in training. -/
abbrev Fcl.live (f : Fcl) : Prop := f.mode ≠ .freezeTraining ∧ f.onlyDropout = false

/-- What an `fcl` is after one step: weights move once unless the layer is
frozen, is a pure dropout layer or trains scores; biases move once only in full
gradient descent; scores move once only in edge-popup mode; noisy parameters move
with their plain ones only if the layer is noisy; layer-normalisation parameters
move once (batch size `NB`) if the layer takes part in training. -/
structure FclMoved (B NB : ℝ) (o : Opt) (f f' : Fcl) : Prop where
  w : Moved B o (if f.live ∧ (f.mode = .gradientDescent ∨ f.mode = .freezeBiases) then 1 else 0)
    (f.output * f.input) f.dw f.w f'.w
  nw : Moved B o (if f.live ∧ (f.mode = .gradientDescent ∨ f.mode = .freezeBiases) ∧ f.noisy then 1 else 0)
    (f.output * f.input) f.dnw f.nw f'.nw
  sc : Moved B o (if f.live ∧ f.mode = .edgePopup then 1 else 0) (f.output * f.input) f.dsc f.sc f'.sc
  b : Moved B o (if f.live ∧ f.mode = .gradientDescent then 1 else 0) f.output f.db f.b f'.b
  nb : Moved B o (if f.live ∧ f.mode = .gradientDescent ∧ f.noisy then 1 else 0) f.output f.dnb f.nb f'.nb
  ln : BnMoved NB o (if f.live ∧ f.layerNorm then 1 else 0) f.ln f'.ln
  rest : f' = { f with w := f'.w, nw := f'.nw, sc := f'.sc, b := f'.b, nb := f'.nb, ln := f'.ln }

/-- What a `cl` is after one step: kernels and biases of a trained convolution
move once (biases not in freeze-biases mode), scores move once in edge-popup mode,
and each group-normalisation layer moves `gtimes` times. -/
structure ClMoved (B NB : ℝ) (o : Opt) (gtimes : Nat) (c c' : Cl) : Prop where
  k : c'.k.rows = c.k.rows ∧ c'.k.cols = c.k.cols ∧ ∀ i, i < c.kernels → ∀ q, q < c.channels * c.kr * c.kc →
    c'.k.get i q = if c.convolution ∧ (c.mode = .gradientDescent ∨ c.mode = .freezeBiases)
      then stepCell B o (c.dk.get i q) (c.k.get i q) else c.k.get i q
  b : Moved B o (if c.convolution ∧ c.mode = .gradientDescent then 1 else 0) c.kernels c.db c.b c'.b
  sc : Moved B o (if c.convolution ∧ c.mode = .edgePopup then 1 else 0) (c.kernels * c.channels * c.kr * c.kc)
    c.dsc c.sc c'.sc
  gn : c'.gn.len = c.gn.len ∧ ∀ i, i < c.groups → BnMoved NB o
    (if c.convolution ∧ (c.mode = .gradientDescent ∨ c.mode = .freezeBiases) ∧ c.groupNorm then gtimes else 0)
      (c.gn.get i) (c'.gn.get i)
  rest : c' = { c with k := c'.k, b := c'.b, sc := c'.sc, gn := c'.gn }

/-! ### Proofs -/

theorem stepAt_eq {B : ℝ} {o : Opt} {a : Arr Cell} {g : Arr ℝ} {k : Nat} (h : k < a.len) (h' : k < g.len) :
    stepAt B o a g k = some ⟨a.len, Function.update a.get k (stepCell B o (g.get k) (a.get k))⟩ := by
  unfold stepAt
  rw [Arr.read_eq h, Arr.read_eq h']
  exact Arr.write_eq _ h

/-- The array after the first `n` cells made one step (if `on`). -/
noncomputable def pre (B : ℝ) (o : Opt) (on : Bool) (n : Nat) (g : Arr ℝ) (a : Arr Cell) : Arr Cell :=
  ⟨a.len, fun q => if on ∧ q < n then stepCell B o (g.get q) (a.get q) else a.get q⟩

theorem pre_off (B : ℝ) (o : Opt) (n : Nat) (g : Arr ℝ) (a : Arr Cell) : pre B o false n g a = a := by
  simp [pre]

theorem pre_zero (B : ℝ) (o : Opt) (on : Bool) (g : Arr ℝ) (a : Arr Cell) : pre B o on 0 g a = a := by
  simp [pre]

theorem pre_step {B : ℝ} {o : Opt} {n : Nat} {g : Arr ℝ} {a : Arr Cell} (h : n < a.len) (h' : n < g.len) :
    stepAt B o (pre B o true n g a) g n = some (pre B o true (n + 1) g a) := by
  rw [stepAt_eq (by exact h) h']
  unfold pre
  congr 2
  funext q
  dsimp only
  by_cases hq : q = n
  · subst hq
    rw [Function.update_self]
    simp
  · rw [Function.update_of_ne hq]
    refine if_congr ?_ rfl rfl
    simp only [true_and]
    omega

theorem moved_pre (B : ℝ) (o : Opt) (on : Bool) (n : Nat) (g : Arr ℝ) (a : Arr Cell) (t : Nat)
    (ht : t = if on then 1 else 0) : Moved B o t n g a (pre B o on n g a) := by
  subst ht
  refine ⟨rfl, fun q => ?_⟩
  unfold pre
  cases on <;> simp

theorem moved_refl (B : ℝ) (o : Opt) (n : Nat) (g : Arr ℝ) (a : Arr Cell) (t : Nat) (ht : t = 0) :
    Moved B o t n g a a := by
  subst ht
  exact ⟨rfl, fun q => by simp⟩

/-! Normalisation layers. -/

/-- `bnUpdate` in closed form. -/
noncomputable def bnNext (B : ℝ) (o : Opt) (b : Bn) : Bn :=
  { b with gamma := pre (normB B o) o (b.mode = .gradientDescent) b.dim b.dgamma b.gamma,
           beta := pre (normB B o) o (b.mode = .gradientDescent) b.dim b.dbeta b.beta }

theorem bnUpdate_eq (B : ℝ) (o : Opt) (b : Bn) (h : b.WF) : bnUpdate B o b = some (bnNext B o b) := by
  unfold bnUpdate bnNext
  split_ifs with hm
  · obtain ⟨b', e, hb⟩ := loop_inv (σ := Bn) (n := b.dim) (s := b) (f := fun j b => bnAt B o j b)
      (fun n b' => b' = { b with gamma := pre (normB B o) o true n b.dgamma b.gamma,
                                 beta := pre (normB B o) o true n b.dbeta b.beta })
      (by rw [pre_zero, pre_zero])
      (by
        rintro n hn _ rfl
        refine ⟨_, ?_, rfl⟩
        unfold bnAt
        refine (bind_some_of (pre_step (by rw [h.gamma]; exact hn) (by rw [h.dgamma]; exact hn))).trans ?_
        exact bind_some_of (pre_step (by rw [h.beta]; exact hn) (by rw [h.dbeta]; exact hn)))
    rw [e, hb]
    simp [hm]
  · simp [hm, pre_off]

theorem bnNext_wf (B : ℝ) (o : Opt) (b : Bn) (h : b.WF) : (bnNext B o b).WF := ⟨h.1, h.2, h.3, h.4⟩

theorem bnNext_wf_iter (B : ℝ) (o : Opt) (n : Nat) (b : Bn) (h : b.WF) : ((bnNext B o)^[n] b).WF := by
  induction n with
  | zero => exact h
  | succ n ih => rw [Function.iterate_succ_apply']; exact bnNext_wf B o _ ih

theorem bnMoved_iter (B : ℝ) (o : Opt) (n : Nat) (b : Bn) : BnMoved (normB B o) o n b ((bnNext B o)^[n] b) := by
  induction n with
  | zero => exact ⟨moved_refl _ _ _ _ _ _ (by simp), moved_refl _ _ _ _ _ _ (by simp), rfl, rfl, rfl, rfl⟩
  | succ n ih =>
    rw [Function.iterate_succ_apply']
    obtain ⟨⟨l1, g1⟩, ⟨l2, g2⟩, i1, i2, i3, i4⟩ := ih
    refine ⟨⟨l1, fun q => ?_⟩, ⟨l2, fun q => ?_⟩, i1, i2, i3, i4⟩
    · simp only [bnNext, pre, i1, i2, i3, g1 q]
      by_cases hm : b.mode = .gradientDescent
      · by_cases hq : q < b.dim
        · simp [hm, hq, Function.iterate_succ_apply']
        · simp [hq]
      · simp [hm]
    · simp only [bnNext, pre, i1, i2, i4, g2 q]
      by_cases hm : b.mode = .gradientDescent
      · by_cases hq : q < b.dim
        · simp [hm, hq, Function.iterate_succ_apply']
        · simp [hq]
      · simp [hm]

theorem bnsUpdate_eq (B : ℝ) (o : Opt) (n : Nat) (bs : Arr Bn) (hn : n ≤ bs.len) (h : ∀ i, i < n → (bs.get i).WF) :
    bnsUpdate B o n bs = some ⟨bs.len, fun i => if i < n then bnNext B o (bs.get i) else bs.get i⟩ := by
  unfold bnsUpdate
  refine loop_fill (fun i => bnNext B o (bs.get i)) ?_
  intro i hi a ha hg
  rw [Arr.read_eq (by omega)]
  dsimp only [Option.bind_some]
  rw [hg i (le_refl i), bnUpdate_eq B o _ (h i hi)]
  exact Arr.write_eq _ (by omega)

/-! Fully-connected layers. -/

/-- The layer after `n` weights and `m` biases were handled. -/
noncomputable def stage (B : ℝ) (o : Opt) (f : Fcl) (n m : Nat) : Fcl :=
  { f with
    w := pre B o (f.mode = .gradientDescent ∨ f.mode = .freezeBiases) n f.dw f.w,
    nw := pre B o ((f.mode = .gradientDescent ∨ f.mode = .freezeBiases) ∧ f.noisy) n f.dnw f.nw,
    sc := pre B o (f.mode = .edgePopup) n f.dsc f.sc,
    b := pre B o (f.mode = .gradientDescent) m f.db f.b,
    nb := pre B o (f.mode = .gradientDescent ∧ f.noisy) m f.dnb f.nb }

theorem stage_zero (B : ℝ) (o : Opt) (f : Fcl) : stage B o f 0 0 = f := by
  simp [stage, pre_zero]

theorem fclWeight_stage (B : ℝ) (o : Opt) (f : Fcl) (h : f.WF) (q m : Nat) (hq : q < f.output * f.input) :
    fclWeight B o q (stage B o f q m) = some (stage B o f (q + 1) m) := by
  have e1 := pre_step (B := B) (o := o) (n := q) (g := f.dw) (a := f.w) (by rw [h.w]; exact hq) (by rw [h.dw]; exact hq)
  have e2 := pre_step (B := B) (o := o) (n := q) (g := f.dnw) (a := f.nw) (by rw [h.nw]; exact hq) (by rw [h.dnw]; exact hq)
  have e3 := pre_step (B := B) (o := o) (n := q) (g := f.dsc) (a := f.sc) (by rw [h.sc]; exact hq) (by rw [h.dsc]; exact hq)
  unfold fclWeight stage
  cases hm : f.mode <;> cases hn : f.noisy <;> simp [pre_off, e1, e2, e3]

theorem fclBias_stage (B : ℝ) (o : Opt) (f : Fcl) (h : f.WF) (n j : Nat) (hj : j < f.output) :
    fclBias B o j (stage B o f n j) = some (stage B o f n (j + 1)) := by
  have e1 := pre_step (B := B) (o := o) (n := j) (g := f.db) (a := f.b) (by rw [h.b]; exact hj) (by rw [h.db]; exact hj)
  have e2 := pre_step (B := B) (o := o) (n := j) (g := f.dnb) (a := f.nb) (by rw [h.nb]; exact hj) (by rw [h.dnb]; exact hj)
  unfold fclBias stage
  cases hm : f.mode <;> cases hn : f.noisy <;> simp [pre_off, e1, e2]

/-- **C42, fully-connected layers.** For every optimiser, one update moves every
trainable parameter by exactly one step and no other. -/
theorem C42_fcl (B : ℝ) (o : Opt) (f : Fcl) (h : f.WF) :
    ∃ f', fclUpdate B o f = some f' ∧ FclMoved B (normB B o) o f f' := by
  unfold fclUpdate
  by_cases hl : f.live
  · rw [if_pos hl]
    have e1 : loop f.output (fun j f' =>
        (loop f.input (fun k f' => fclWeight B o (j * f.input + k) f') f').bind (fclBias B o j)) f =
        some (stage B o f (f.output * f.input) f.output) := by
      obtain ⟨f', e, hf⟩ := loop_inv (σ := Fcl) (n := f.output) (s := f) (f := fun j f' =>
        (loop f.input (fun k f' => fclWeight B o (j * f.input + k) f') f').bind (fclBias B o j))
        (fun j f' => f' = stage B o f (j * f.input) j) (by rw [Nat.zero_mul, stage_zero])
        (by
          rintro j hj _ rfl
          obtain ⟨f', e, hf⟩ := loop_inv (σ := Fcl) (n := f.input) (s := stage B o f (j * f.input) j)
            (f := fun k f' => fclWeight B o (j * f.input + k) f')
            (fun k f' => f' = stage B o f (j * f.input + k) j) rfl
            (by
              rintro k hk _ rfl
              exact ⟨_, fclWeight_stage B o f h _ _ (Vec.idx_lt hj hk), rfl⟩)
          refine ⟨_, (bind_some_of e).trans (by rw [hf]; exact fclBias_stage B o f h _ j hj), ?_⟩
          rw [Nat.succ_mul])
      rw [e, hf]
    have hw : Moved B o (if f.live ∧ (f.mode = .gradientDescent ∨ f.mode = .freezeBiases) then 1 else 0)
        (f.output * f.input) f.dw f.w (stage B o f (f.output * f.input) f.output).w :=
      moved_pre _ _ _ _ _ _ _ (by simp only [decide_eq_true_eq]; exact if_congr ⟨fun h => h.2, fun h => ⟨hl, h⟩⟩ rfl rfl)
    have hnw : Moved B o (if f.live ∧ (f.mode = .gradientDescent ∨ f.mode = .freezeBiases) ∧ f.noisy then 1 else 0)
        (f.output * f.input) f.dnw f.nw (stage B o f (f.output * f.input) f.output).nw :=
      moved_pre _ _ _ _ _ _ _ (by simp only [decide_eq_true_eq]; exact if_congr ⟨fun h => h.2, fun h => ⟨hl, h⟩⟩ rfl rfl)
    have hsc : Moved B o (if f.live ∧ f.mode = .edgePopup then 1 else 0)
        (f.output * f.input) f.dsc f.sc (stage B o f (f.output * f.input) f.output).sc :=
      moved_pre _ _ _ _ _ _ _ (by simp only [decide_eq_true_eq]; exact if_congr ⟨fun h => h.2, fun h => ⟨hl, h⟩⟩ rfl rfl)
    have hb : Moved B o (if f.live ∧ f.mode = .gradientDescent then 1 else 0)
        f.output f.db f.b (stage B o f (f.output * f.input) f.output).b :=
      moved_pre _ _ _ _ _ _ _ (by simp only [decide_eq_true_eq]; exact if_congr ⟨fun h => h.2, fun h => ⟨hl, h⟩⟩ rfl rfl)
    have hnb : Moved B o (if f.live ∧ f.mode = .gradientDescent ∧ f.noisy then 1 else 0)
        f.output f.dnb f.nb (stage B o f (f.output * f.input) f.output).nb :=
      moved_pre _ _ _ _ _ _ _ (by simp only [decide_eq_true_eq]; exact if_congr ⟨fun h => h.2, fun h => ⟨hl, h⟩⟩ rfl rfl)
    cases hn : f.layerNorm with
    | true =>
      refine ⟨_, (bind_some_of e1).trans ((if_pos rfl).trans (bind_some_of (bnUpdate_eq B o f.ln h.ln))), ⟨hw, hnw, hsc, hb, hnb, ?_, rfl⟩⟩
      have := bnMoved_iter B o 1 f.ln
      rw [if_pos ⟨hl, hn⟩]
      exact this
    | false =>
      refine ⟨_, (bind_some_of e1).trans (if_neg (by simp)), ⟨hw, hnw, hsc, hb, hnb, ?_, rfl⟩⟩
      have := bnMoved_iter B o 0 f.ln
      rw [if_neg (by simp [hn])]
      exact this
  · rw [if_neg hl]
    refine ⟨f, rfl, ⟨moved_refl _ _ _ _ _ _ (by simp [hl]), moved_refl _ _ _ _ _ _ (by simp [hl]),
      moved_refl _ _ _ _ _ _ (by simp [hl]), moved_refl _ _ _ _ _ _ (by simp [hl]),
      moved_refl _ _ _ _ _ _ (by simp [hl]), ?_, rfl⟩⟩
    rw [if_neg (fun hc => hl hc.1)]
    exact bnMoved_iter B o 0 f.ln

/-! Convolutional layers. -/

theorem loop_mul {σ : Type} (m n : Nat) (f : Nat → σ → Option σ) (s : σ) :
    loop m (fun j s => loop n (fun i s => f (j * n + i) s) s) s = loop (m * n) f s := by
  have split : ∀ (a b : Nat) (s : σ), loop (a + b) f s = (loop a f s).bind fun s => loop b (fun i s => f (a + i) s) s := by
    intro a b s
    induction b with
    | zero => simp [loop]
    | succ b ih =>
      rw [← Nat.add_assoc]
      simp only [loop, Option.bind_eq_bind]
      rw [ih]
      cases loop a f s <;> rfl
  induction m with
  | zero => simp [loop]
  | succ m ih =>
    rw [Nat.succ_mul, split]
    simp only [loop, Option.bind_eq_bind]
    rw [ih]

/-- The kernel loops visit the cells of one kernel in order. -/
theorem loop3_flat {σ : Type} (C A D : Nat) (f : Nat → σ → Option σ) (s : σ) :
    loop C (fun u s => loop A (fun z s => loop D (fun w s => f (u * A * D + z * D + w) s) s) s) s =
      loop (C * A * D) f s := by
  rw [Nat.mul_assoc, ← loop_mul C (A * D) f s]
  refine loop_congr fun u _ s => ?_
  rw [← loop_mul A D (fun i s => f (u * (A * D) + i) s) s]
  refine loop_congr fun z _ s => loop_congr fun w _ s => ?_
  rw [Nat.mul_assoc, Nat.add_assoc]

theorem row_steps (B : ℝ) (o : Opt) (n : Nat) (a : Mat Cell) (g : Mat ℝ) (i : Nat) (h1 : i < a.rows) (h2 : n ≤ a.cols)
    (h3 : i < g.rows) (h4 : n ≤ g.cols) :
    loop n (fun q a => stepAtM B o a g i q) a =
      some ⟨a.rows, a.cols, fun r q => if r = i ∧ q < n then stepCell B o (g.get r q) (a.get r q) else a.get r q⟩ := by
  obtain ⟨a', e, ha⟩ := loop_inv (σ := Mat Cell) (n := n) (s := a) (f := fun q a => stepAtM B o a g i q)
    (fun n a' => a' = ⟨a.rows, a.cols, fun r q => if r = i ∧ q < n then stepCell B o (g.get r q) (a.get r q) else a.get r q⟩)
    (by simp)
    (by
      rintro q hq _ rfl
      refine ⟨_, ?_, rfl⟩
      unfold stepAtM
      rw [Mat.read_eq (by exact h1) (by dsimp only; omega), Mat.read_eq h3 (by omega)]
      dsimp only [Option.bind_some]
      rw [Mat.write_eq _ (by exact h1) (by dsimp only; omega)]
      congr 2
      funext r c
      by_cases hc : r = i ∧ c = q
      · obtain ⟨rfl, rfl⟩ := hc
        simp
      · rw [if_neg hc]
        refine if_congr ?_ rfl rfl
        omega)
  rw [e, ha]

/-- The layer after `n` kernels were handled. -/
noncomputable def clStage (B : ℝ) (o : Opt) (c : Cl) (n : Nat) : Cl :=
  { c with
    k := ⟨c.k.rows, c.k.cols, fun r q =>
      if r < n ∧ q < c.channels * c.kr * c.kc then stepCell B o (c.dk.get r q) (c.k.get r q) else c.k.get r q⟩,
    b := pre B o (c.mode ≠ .freezeBiases) n c.db c.b,
    gn := ⟨c.gn.len, fun i => if c.groupNorm ∧ i < c.groups then (bnNext B o)^[n] (c.gn.get i) else c.gn.get i⟩ }

theorem clKernel_stage (B : ℝ) (o : Opt) (c : Cl) (h : c.WF) (n : Nat) (hn : n < c.kernels) :
    clKernel B o n (clStage B o c n) = some (clStage B o c (n + 1)) := by
  unfold clKernel
  have e1 := loop3_flat c.channels c.kr c.kc (fun q a => stepAtM B o a c.dk n q) (clStage B o c n).k
  rw [row_steps B o _ (clStage B o c n).k c.dk n (by exact h.krows ▸ hn) (by exact h.kcols ▸ le_refl _)
    (by rw [h.dkrows]; exact hn) (by rw [h.dkcols])] at e1
  refine (bind_some_of e1).trans ?_
  have e2 : (if (clStage B o c n).mode ≠ .freezeBiases then stepAt B o (clStage B o c n).b (clStage B o c n).db n
      else some (clStage B o c n).b) = some (clStage B o c (n + 1)).b := by
    unfold clStage
    dsimp only
    by_cases hm : c.mode = .freezeBiases
    · simp [hm, pre_off]
    · rw [if_pos hm]
      have := pre_step (B := B) (o := o) (n := n) (g := c.db) (a := c.b) (by rw [h.b]; exact hn) (by rw [h.db]; exact hn)
      simpa [hm] using this
  refine (bind_some_of e2).trans ?_
  have e3 : (if (clStage B o c n).groupNorm then bnsUpdate B o (clStage B o c n).groups (clStage B o c n).gn
      else some (clStage B o c n).gn) = some (clStage B o c (n + 1)).gn := by
    unfold clStage
    dsimp only
    cases hg : c.groupNorm
    · simp
    · rw [if_pos rfl, bnsUpdate_eq]
      · congr 2
        funext i
        by_cases hi : i < c.groups
        · simp [hi, Function.iterate_succ_apply']
        · simp [hi]
      · rw [h.gn]
      · intro i hi
        simp only [hi, and_self, if_true]
        exact bnNext_wf_iter B o n _ (h.bn i hi)
  refine (bind_some_of e3).trans ?_
  unfold clStage
  dsimp only
  congr 3
  funext r q
  by_cases hr : r = n
  · subst hr
    by_cases hq : q < c.channels * c.kr * c.kc
    · simp [hq]
    · simp [hq]
  · rw [if_neg (by tauto)]
    refine if_congr ?_ rfl rfl
    omega

theorem clUpdate_moved (B : ℝ) (o : Opt) (c : Cl) (h : c.WF) :
    ∃ c', clUpdate B o c = some c' ∧ ClMoved B (normB B o) o c.kernels c c' := by
  unfold clUpdate
  have bn0 : ∀ i, BnMoved (normB B o) o 0 (c.gn.get i) (c.gn.get i) := fun i => bnMoved_iter B o 0 _
  by_cases hf : c.mode = .freezeTraining
  · rw [if_neg (by simp [hf])]
    exact ⟨c, rfl, ⟨⟨rfl, rfl, fun i _ q _ => by simp [hf]⟩, moved_refl _ _ _ _ _ _ (by simp [hf]),
      moved_refl _ _ _ _ _ _ (by simp [hf]), ⟨rfl, fun i _ => by simpa [hf] using bn0 i⟩, rfl⟩⟩
  rw [if_pos hf]
  cases hc : c.convolution with
  | false =>
    rw [if_neg (by simp)]
    exact ⟨c, rfl, ⟨⟨rfl, rfl, fun i _ q _ => by simp [hc]⟩, moved_refl _ _ _ _ _ _ (by simp [hc]),
      moved_refl _ _ _ _ _ _ (by simp [hc]), ⟨rfl, fun i _ => by simpa [hc] using bn0 i⟩, rfl⟩⟩
  | true =>
    rw [if_pos rfl]
    by_cases hg : c.mode = .gradientDescent ∨ c.mode = .freezeBiases
    · rw [if_pos hg]
      obtain ⟨c', e, rfl⟩ := loop_inv (σ := Cl) (n := c.kernels) (s := c) (f := fun k c => clKernel B o k c)
        (fun n c' => c' = clStage B o c n) (by simp [clStage, pre_zero])
        (by
          rintro n hn _ rfl
          exact ⟨_, clKernel_stage B o c h n hn, rfl⟩)
      refine ⟨_, e, ⟨⟨rfl, rfl, fun i hi q hq => ?_⟩, ?_, ?_, ⟨rfl, fun i hi => ?_⟩, rfl⟩⟩
      · simp [clStage, hi, hq, hg, hc]
      · refine moved_pre _ _ _ _ _ _ _ ?_
        rcases hg with hm | hm <;> simp [hm, hc]
      · refine moved_refl _ _ _ _ _ _ ?_
        rcases hg with hm | hm <;> simp [hm]
      · simp only [hc, hg, true_and, clStage, hi, and_true]
        cases hgn : c.groupNorm
        · simpa using bn0 i
        · simpa using bnMoved_iter B o c.kernels (c.gn.get i)
    · rw [if_neg hg]
      have hm : c.mode = .edgePopup := by
        cases hm : c.mode <;> simp_all
      rw [if_pos hm]
      obtain ⟨sc', e, rfl⟩ := loop_inv (σ := Arr Cell) (n := c.kernels * c.channels * c.kr * c.kc) (s := c.sc)
        (f := fun q a => stepAt B o a c.dsc q)
        (fun n a => a = pre B o true n c.dsc c.sc) (by rw [pre_zero])
        (by
          rintro n hn _ rfl
          exact ⟨_, pre_step (by rw [h.sc]; exact hn) (by rw [h.dsc]; exact hn), rfl⟩)
      refine ⟨_, bind_some_of e, ⟨⟨rfl, rfl, fun i hi q hq => by simp [hg]⟩, moved_refl _ _ _ _ _ _ (by simp [hm]),
        moved_pre _ _ _ _ _ _ _ (by simp [hc, hm]), ⟨rfl, fun i _ => by simpa [hm] using bn0 i⟩, by simp [hc]⟩⟩

/-- **C42, convolutional layers, partial.** Kernels, biases and scores move
exactly once or not at all, as their mode says; group-normalisation parameters
move as many times as there are kernels. Missing: one step for the latter. -/
theorem C42_cl_partial (B : ℝ) (o : Opt) (c : Cl) (h : c.WF) :
    ∃ c', clUpdate B o c = some c' ∧ ClMoved B (normB B o) o c.kernels c c' := clUpdate_moved B o c h

/-- **C42, convolutional layers.** Without group normalisation, or with a single
kernel, every parameter moves exactly once. -/
theorem C42_cl_once (B : ℝ) (o : Opt) (c : Cl) (h : c.WF) (h1 : c.groupNorm = false ∨ c.kernels = 1) :
    ∃ c', clUpdate B o c = some c' ∧ ClMoved B (normB B o) o 1 c c' := by
  obtain ⟨c', e, h2⟩ := clUpdate_moved B o c h
  refine ⟨c', e, ⟨h2.k, h2.b, h2.sc, ⟨h2.gn.1, fun i hi => ?_⟩, h2.rest⟩⟩
  have := h2.gn.2 i hi
  rcases h1 with h1 | h1
  · simpa [h1] using this
  · simpa [h1] using this

/-! Models. -/

theorem mapM_forall {α : Type} (f : α → Option α) (P : α → α → Prop) (l : List α)
    (h : ∀ x ∈ l, ∃ y, f x = some y ∧ P x y) : ∃ l', l.mapM f = some l' ∧ List.Forall₂ P l l' := by
  induction l with
  | nil => exact ⟨[], rfl, .nil⟩
  | cons x l ih =>
    obtain ⟨y, e, hp⟩ := h x (by simp)
    obtain ⟨l', e', hp'⟩ := ih fun z hz => h z (by simp [hz])
    exact ⟨y :: l', by simp [e, e'], .cons hp hp'⟩

/-- **C42, models, partial.** `update_model` updates every layer of every kind
exactly once, in place, each as `C42_fcl` and `C42_cl_partial` say: for every
number of layers and residual blocks, every mode and every optimiser. Missing: the
group-normalisation parameters move once per kernel, and with Nesterov momentum
the normalisation gradients are not divided by the batch size. -/
theorem C42_model_partial (B : ℝ) (o : Opt) (m : Model) (h1 : ∀ r ∈ m.rls, ∀ c ∈ r, c.WF) (h2 : ∀ c ∈ m.cls, c.WF)
    (h3 : ∀ f ∈ m.fcls, f.WF) :
    ∃ m', modelUpdate B o m = some m' ∧
      List.Forall₂ (List.Forall₂ fun c c' => ClMoved B (normB B o) o c.kernels c c') m.rls m'.rls ∧
      List.Forall₂ (fun c c' => ClMoved B (normB B o) o c.kernels c c') m.cls m'.cls ∧
      List.Forall₂ (fun f f' => FclMoved B (normB B o) o f f') m.fcls m'.fcls := by
  obtain ⟨rls, e1, p1⟩ := mapM_forall (fun r : List Cl => r.mapM (clUpdate B o))
    (List.Forall₂ fun c c' => ClMoved B (normB B o) o c.kernels c c') m.rls
    (fun r hr => mapM_forall (clUpdate B o) _ r fun c hc => clUpdate_moved B o c (h1 r hr c hc))
  obtain ⟨cls, e2, p2⟩ := mapM_forall (clUpdate B o) (fun c c' => ClMoved B (normB B o) o c.kernels c c') m.cls
    fun c hc => clUpdate_moved B o c (h2 c hc)
  obtain ⟨fcls, e3, p3⟩ := mapM_forall (fclUpdate B o) (fun f f' => FclMoved B (normB B o) o f f') m.fcls
    fun f hf => C42_fcl B o f (h3 f hf)
  refine ⟨⟨rls, cls, fcls⟩, ?_, p1, p2, p3⟩
  unfold modelUpdate
  exact (bind_some_of e1).trans ((bind_some_of e2).trans (bind_some_of e3))

theorem moved_zero {B : ℝ} {o : Opt} {n : Nat} {g : Arr ℝ} {a a' : Arr Cell} (h : Moved B o 0 n g a a') : a' = a := by
  obtain ⟨l, hg⟩ := h
  refine Arr.ext' l fun q => ?_
  rw [hg q]
  simp

/-- **C42, frozen layers.** A frozen fully-connected layer, and a frozen
convolutional layer, come out exactly as they went in. -/
theorem C42_frozen (B : ℝ) (o : Opt) (f : Fcl) (c : Cl) (hf : f.mode = .freezeTraining) (hc : c.mode = .freezeTraining) :
    fclUpdate B o f = some f ∧ clUpdate B o c = some c := by
  simp [fclUpdate, clUpdate, hf, hc]

/-- **C42, frozen biases.** In freeze-biases mode the biases of both kinds of
layer come out unchanged. -/
theorem C42_freeze_biases (B : ℝ) (o : Opt) (f f' : Fcl) (c c' : Cl) (wf : f.WF) (wc : c.WF) (hf : f.mode = .freezeBiases)
    (hc : c.mode = .freezeBiases) (ef : fclUpdate B o f = some f') (ec : clUpdate B o c = some c') :
    f'.b = f.b ∧ f'.nb = f.nb ∧ c'.b = c.b := by
  obtain ⟨f1, e1, m1⟩ := C42_fcl B o f wf
  obtain ⟨c1, e2, m2⟩ := clUpdate_moved B o c wc
  obtain rfl : f1 = f' := by rw [e1] at ef; exact Option.some.inj ef
  obtain rfl : c1 = c' := by rw [e2] at ec; exact Option.some.inj ec
  have h1 := m1.b
  have h2 := m1.nb
  have h3 := m2.b
  simp only [hf, hc, reduceCtorEq, and_false, false_and, if_false] at h1 h2 h3
  exact ⟨moved_zero h1, moved_zero h2, moved_zero h3⟩

/-! ### Where the code departs from the property -/

/-- One cell at zero. -/
def zeroCell : Cell := ⟨0, 0, 0, 0⟩

/-- A normalisation layer with one component and gradient one. -/
def wBn : Bn := ⟨.gradientDescent, 1, ⟨1, fun _ => zeroCell⟩, ⟨1, fun _ => 1⟩, ⟨1, fun _ => zeroCell⟩, ⟨1, fun _ => 1⟩⟩

theorem wBn_wf : wBn.WF := ⟨rfl, rfl, rfl, rfl⟩

/-- Two kernels of one weight, one normalisation group. -/
def wCl : Cl := ⟨.gradientDescent, true, true, 2, 1, 1, 1, ⟨2, 1, fun _ _ => zeroCell⟩, ⟨2, 1, fun _ _ => 1⟩,
  ⟨2, fun _ => zeroCell⟩, ⟨2, fun _ => 1⟩, ⟨2, fun _ => zeroCell⟩, ⟨2, fun _ => 1⟩, 1, ⟨1, fun _ => wBn⟩⟩

theorem wCl_wf : wCl.WF := ⟨rfl, rfl, rfl, rfl, rfl, rfl, rfl, rfl, rfl, fun _ _ => wBn_wf⟩

/-- **C42, group normalisation, refuted.** In a convolutional layer with two
kernels one update moves a group-normalisation parameter twice. -/
theorem C42_group_norm_refuted :
    ∃ (o : Opt) (c : Cl), c.WF ∧ ∃ c', clUpdate 1 o c = some c' ∧ ¬ ClMoved 1 1 o 1 c c' ∧
      (c'.gn.get 0).gamma.get 0 = stepCell 1 o 1 (stepCell 1 o 1 ((c.gn.get 0).gamma.get 0)) ∧
      ((c'.gn.get 0).gamma.get 0).p = -2 := by
  obtain ⟨c', e, h⟩ := clUpdate_moved 1 (.nesterov 1 0) wCl wCl_wf
  have hb := (h.gn.2 0 (by decide)).1.2 0
  have hk : (c'.gn.get 0).gamma.get 0 = stepCell 1 (.nesterov 1 0) 1 (stepCell 1 (.nesterov 1 0) 1 zeroCell) := hb
  refine ⟨.nesterov 1 0, wCl, wCl_wf, c', e, fun hc => ?_, hk, ?_⟩
  · have h1 : (c'.gn.get 0).gamma.get 0 = stepCell 1 (.nesterov 1 0) 1 zeroCell := (hc.gn.2 0 (by decide)).1.2 0
    rw [hk] at h1
    have := congrArg Cell.p h1
    simp [stepCell, nesterov, zeroCell] at this
  · rw [hk]
    simp [stepCell, nesterov, zeroCell]
    norm_num

/-- A layer with one weight and layer normalisation. -/
def wFcl : Fcl := ⟨.gradientDescent, false, false, true, 1, 1, ⟨1, fun _ => zeroCell⟩, ⟨1, fun _ => 1⟩,
  ⟨1, fun _ => zeroCell⟩, ⟨1, fun _ => 1⟩, ⟨1, fun _ => zeroCell⟩, ⟨1, fun _ => 1⟩, ⟨1, fun _ => zeroCell⟩, ⟨1, fun _ => 1⟩,
  ⟨1, fun _ => zeroCell⟩, ⟨1, fun _ => 1⟩, wBn⟩

theorem wFcl_wf : wFcl.WF := ⟨rfl, rfl, rfl, rfl, rfl, rfl, rfl, rfl, rfl, rfl, wBn_wf⟩

/-- **C42, layer normalisation, refuted.** With Nesterov momentum and a batch of
two, a layer-normalisation parameter moves twice as far as a weight with the same
accumulated gradient: its gradient is not averaged over the batch. -/
theorem C42_layer_norm_batch_refuted :
    ∃ (o : Opt) (f : Fcl), f.WF ∧ ∃ f', fclUpdate 2 o f = some f' ∧ ¬ FclMoved 2 2 o f f' ∧
      f.dw.get 0 = f.ln.dgamma.get 0 ∧ f.w.get 0 = f.ln.gamma.get 0 ∧
      (f'.w.get 0).p = -1 / 2 ∧ (f'.ln.gamma.get 0).p = -1 := by
  obtain ⟨f', e, h⟩ := C42_fcl 2 (.nesterov 1 0) wFcl wFcl_wf
  have hw : f'.w.get 0 = stepCell 2 (.nesterov 1 0) 1 zeroCell := h.w.2 0
  have hg : f'.ln.gamma.get 0 = stepCell 1 (.nesterov 1 0) 1 zeroCell := h.ln.1.2 0
  refine ⟨.nesterov 1 0, wFcl, wFcl_wf, f', e, fun hc => ?_, rfl, rfl, ?_, ?_⟩
  · have h1 : f'.ln.gamma.get 0 = stepCell 2 (.nesterov 1 0) 1 zeroCell := hc.ln.1.2 0
    rw [hg] at h1
    have := congrArg Cell.p h1
    simp [stepCell, nesterov, zeroCell] at this
  · rw [hw]
    simp [stepCell, nesterov, zeroCell]
    norm_num
  · rw [hg]
    simp [stepCell, nesterov, zeroCell]

end LLab.Update
