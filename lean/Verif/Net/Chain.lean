import Verif.Layers.FC
import Verif.Math.Softmax
import Verif.Math.Activations
import Verif.Math.Vector

/-!
Forward and backward pass through a whole model of fully connected layers
(`/repo/src/model.c` 1240-1463, 3753-3999, 7154-7461, 8079-8392). Properties C84, C85.

Modelled: `FULLY_FEED_FORWARD` layers without noise and without normalisation, every
activation, dropout, the training modes `GRADIENT_DESCENT`, `FREEZE_TRAINING` and
`FREEZE_BIASES`. Real arithmetic. `none` is undefined behaviour or `exit`.
-/

namespace LLab.Chain

open Finset

/-! ### Model -/

/-- `activation_flag` (`/repo/src/llab.h` 78-84). -/
inductive Act where
  | none | sigmoid | relu | softmax | tanh | leaky | elu
deriving DecidableEq

/-- `dropout_flag` (`/repo/src/llab.h` 92-94): `NO_DROPOUT`, `DROPOUT`, `DROPOUT_TEST`. -/
inductive Drop where
  | off | train | test
deriving DecidableEq

/-- `training_mode`: `GRADIENT_DESCENT`, `FREEZE_TRAINING`, `FREEZE_BIASES`. -/
inductive Mode where
  | descent | freeze | freezeBiases
deriving DecidableEq

/-- The fields of `fcl` used by the two passes (`/repo/src/llab_dt.h`). -/
structure Fcl where
  input : Nat
  output : Nat
  act : Act
  drop : Drop
  threshold : ℝ
  mode : Mode
  weights : Arr ℝ
  biases : Arr ℝ
  active : Arr Int
  pre : Arr ℝ
  post : Arr ℝ
  mask : Arr ℝ
  dropTemp : Arr ℝ
  temp : Arr ℝ
  temp3 : Arr ℝ
  error2 : Arr ℝ
  dWeights : Arr ℝ
  dBiases : Arr ℝ

/-- The activation of a layer (`/repo/src/model.c` 1405-1435); without activation
`post_activation` is not written. -/
noncomputable def actArray (a : Act) (pre post : Arr ℝ) (n : Nat) : Option (Arr ℝ) :=
  match a with
  | .none => some post
  | .sigmoid => Vec.map1D LLab.Act.sigmoid pre post n
  | .relu => Vec.map1D LLab.Act.relu pre post n
  | .softmax => Softmax.softmax pre post n
  | .tanh => Vec.map1D LLab.Act.tanhh pre post n
  | .leaky => Vec.map1D LLab.Act.leakyRelu pre post n
  | .elu => Vec.map1D (fun z => LLab.Act.elu z 1) pre post n

/-- `set_dropout_mask` (`/repo/src/utils.c` 64-71); `draw i` says whether the `i`-th random
number is below the threshold. -/
def setMask (draw : Nat → Bool) (mask : Arr ℝ) (n : Nat) : Option (Arr ℝ) :=
  loop n (fun i (m : Arr ℝ) => if draw i then m.write i 0 else if i < m.len then some m else none) mask

/-- The array with the result of a layer before dropout. -/
def Fcl.result (f : Fcl) : Arr ℝ := if f.act = .none then f.pre else f.post

/-- The array of the previous layer that the next one reads
(`/repo/src/model.c` 1256-1402). With `DROPOUT_TEST` and no activation the code scales the
*next* layer's `pre_activation` (line 1338). -/
noncomputable def handOver (f1 f2 : Fcl) : Option (Arr ℝ) :=
  match f1.drop with
  | .off => some f1.result
  | .train => some f1.dropTemp
  | .test =>
    if f1.act = .none then Vec.map1D (fun v => v * f1.threshold) f2.pre f1.dropTemp f2.input
    else Vec.map1D (fun v => v * f1.threshold) f1.post f1.dropTemp f2.input

/-- One layer forward: `ff_fcl_fcl` (`/repo/src/model.c` 1240-1463) once the input array is
chosen, and `ff_cl_fcl` (2739-2905) for the first layer. -/
noncomputable def ffLayer (x : Arr ℝ) (draw : Nat → Bool) (f : Fcl) : Option Fcl :=
  (FC.ff x f.pre f.weights (some f.biases) f.input f.output).bind fun pre =>
    (actArray f.act pre f.post f.output).bind fun post =>
      if f.drop = .off then some { f with pre := pre, post := post }
      else (setMask draw f.mask f.output).bind fun mask =>
        if f.drop = .train then
          (Vec.zip1D (fun a b => a * b) mask (if f.act = .none then pre else post) f.dropTemp f.output).bind fun dt =>
            some { f with pre := pre, post := post, mask := mask, dropTemp := dt }
        else some { f with pre := pre, post := post, mask := mask }

/-- The layers after the first (`/repo/src/model.c` 7265-7274): a soft-max before the last
layer and a size mismatch both end the program. -/
noncomputable def ffFrom (draws : Nat → Nat → Bool) : Fcl → Nat → List Fcl → Option (List Fcl)
  | _, _, [] => some []
  | prev, i, f :: fs =>
    if f.act = .softmax ∧ fs ≠ [] then none
    else if prev.output ≠ f.input then none
    else (handOver prev f).bind fun x => (ffLayer x (draws i) f).bind fun f' =>
      (ffFrom draws f' (i + 1) fs).bind fun fs' => some (f' :: fs')

/-- `model_tensor_input_ff` (`/repo/src/model.c` 7154-7461) on an input of `dim` numbers, for a
model of fully connected layers in order. `draws i k` is the `k`-th draw in layer `i`. -/
noncomputable def ffModel (draws : Nat → Nat → Bool) (dim : Nat) (x : Arr ℝ) : List Fcl → Option (List Fcl)
  | [] => some []
  | f :: fs =>
    if f.act = .softmax ∧ fs ≠ [] then none
    else if dim ≠ f.input then none
    else (ffLayer x (draws 0) f).bind fun f' => (ffFrom draws f' 1 fs).bind fun fs' => some (f' :: fs')

/-- The array of the previous layer used by the backward pass (`/repo/src/model.c` 3867-3990). -/
def Fcl.used (f : Fcl) : Arr ℝ := if f.drop = .off then f.result else f.dropTemp

/-- The derivative of the activation applied to the error in `t`, the result going to `out`
(`/repo/src/model.c` 3783-3822 with dropout, 3846-3888 without): `t3` is `temp3`. -/
noncomputable def actBack (f : Fcl) (t out t3 : Arr ℝ) : Option (Arr ℝ × Arr ℝ) :=
  let n := f.output
  let go := fun (d : ℝ → ℝ) (src : Arr ℝ) => (Vec.map1D d src t3 n).bind fun t3 =>
    (Vec.zip1D (fun a b => a * b) t3 t out n).bind fun o => some (o, t3)
  match f.act with
  | .none => some (t, t3)
  | .sigmoid => go LLab.Act.dSigmoidGiven f.post
  | .relu => go LLab.Act.dRelu f.pre
  | .elu => go (fun z => LLab.Act.dElu z 1) f.pre
  | .softmax => (Softmax.derivativeSoftmaxMasked f.active out f.post t n).bind fun o => some (o, t3)
  | .tanh => go LLab.Act.dTanhh f.pre
  | .leaky => go LLab.Act.dLeakyRelu f.pre

/-- The error before the activation. With dropout the error is first multiplied by the mask
into `temp`; the soft-max then works through `temp3` and is copied back
(`/repo/src/model.c` 3755-3892). -/
noncomputable def back (f : Fcl) (e : Arr ℝ) : Option (Arr ℝ × Arr ℝ) :=
  if f.drop = .off then actBack f e f.temp f.temp3
  else (Vec.zip1D (fun a b => a * b) e f.mask f.temp f.output).bind fun t =>
    if f.act = .softmax then
      (Softmax.derivativeSoftmaxMasked f.active f.temp3 f.post t f.output).bind fun t3 =>
        (Vec.map1D (fun v => v) t3 t f.output).bind fun t => some (t, t3)
    else actBack f t t f.temp3

/-- One layer backward: `bp_fcl_fcl` (`/repo/src/model.c` 3753-3999) and, for the first layer,
`bp_cl_fcl` (6654-6886). `x` is the array of the previous layer. The returned error is
`error2`. -/
noncomputable def bpLayer (x e : Arr ℝ) (f : Fcl) : Option Fcl :=
  (back f e).bind fun t =>
    (FC.bp x t.1 f.weights (f.mode ≠ .freezeBiases) (f.mode = .freeze) f.input f.output
      (f.dWeights, f.error2, f.dBiases)).bind fun s =>
        some { f with temp := (if f.drop = .off ∧ f.act = .none then f.temp else t.1), temp3 := t.2,
                      dWeights := s.1, error2 := s.2.1, dBiases := s.2.2 }

/-- `model_tensor_input_bp` (`/repo/src/model.c` 8079-8392): the layers from the last to the
first; gives the layers and the error of the input. -/
noncomputable def bpModel (e : Arr ℝ) : Arr ℝ → List Fcl → Option (List Fcl × Arr ℝ)
  | _, [] => some ([], e)
  | x, f :: fs => (bpModel e f.used fs).bind fun r => (bpLayer x r.2 f).bind fun f' =>
      some (f' :: r.1, f'.error2)

/-! ### Specification -/

/-- A fully connected layer as a function: weights stored row by row, biases, activation and
a factor for each output. -/
structure Unit where
  input : Nat
  output : Nat
  act : Act
  w : Nat → ℝ
  b : Nat → ℝ
  scale : Nat → ℝ

/-- `W x + b`. -/
noncomputable def Unit.z (u : Unit) (x : Nat → ℝ) (k : Nat) : ℝ := ∑ i ∈ range u.input, u.w (k * u.input + i) * x i + u.b k

/-- The activation functions. -/
noncomputable def actFn (a : Act) (n : Nat) (z : Nat → ℝ) (k : Nat) : ℝ :=
  match a with
  | .none => z k
  | .sigmoid => 1 / (1 + Real.exp (-(z k)))
  | .relu => max (z k) 0
  | .softmax => Real.exp (z k) / ∑ i ∈ range n, Real.exp (z i)
  | .tanh => Real.tanh (z k)
  | .leaky => max (z k) (z k / 10)
  | .elu => if 0 < z k then z k else Real.exp (z k) - 1

/-- The layer. -/
noncomputable def Unit.fn (u : Unit) (x : Nat → ℝ) (k : Nat) : ℝ := u.scale k * actFn u.act u.output (u.z x) k

/-- The whole network. -/
noncomputable def net : List Unit → (Nat → ℝ) → Nat → ℝ
  | [], x => x
  | u :: us, x => net us (u.fn x)

/-- The number of outputs. -/
def outDim (n : Nat) : List Unit → Nat
  | [] => n
  | u :: us => outDim u.output us

/-- No rectifier has exactly zero as its argument. -/
def NoKink : List Unit → (Nat → ℝ) → Prop
  | [], _ => True
  | u :: us, x => (u.act = .relu ∨ u.act = .leaky ∨ u.act = .elu → ∀ k, k < u.output → u.z x k ≠ 0) ∧ NoKink us (u.fn x)

/-- The layer of the code as a function, for given draws of the dropout. -/
noncomputable def Fcl.unit (f : Fcl) (draw : Nat → Bool) : Unit where
  input := f.input
  output := f.output
  act := f.act
  w := f.weights.get
  b := f.biases.get
  scale := fun k => if f.drop = .train then (if draw k then 0 else f.mask.get k) else 1

/-- The layers as functions. -/
noncomputable def units (draws : Nat → Nat → Bool) : Nat → List Fcl → List Unit
  | _, [] => []
  | i, f :: fs => f.unit (draws i) :: units draws (i + 1) fs

/-- The arrays of a layer are allocated, and the accumulating ones are cleared, as
`reset_model` leaves them. -/
structure Fcl.Ready (f : Fcl) : Prop where
  lw : f.output * f.input ≤ f.weights.len
  lb : f.output ≤ f.biases.len
  lact : f.output ≤ f.active.len
  lpre : f.output ≤ f.pre.len
  lpost : f.output ≤ f.post.len
  lmask : f.output ≤ f.mask.len
  ldt : f.output ≤ f.dropTemp.len
  lt : f.output ≤ f.temp.len
  lt3 : f.output ≤ f.temp3.len
  le2 : f.input ≤ f.error2.len
  ldw : f.output * f.input ≤ f.dWeights.len
  ldb : f.output ≤ f.dBiases.len
  zpre : ∀ k, k < f.output → f.pre.get k = 0
  zt : ∀ k, k < f.output → f.temp.get k = 0
  zt3 : ∀ k, k < f.output → f.temp3.get k = 0
  ze2 : ∀ k, k < f.input → f.error2.get k = 0
  hact : ∀ k, k < f.output → f.active.get k ≠ 0

/-- Consecutive layers fit, and only the last one may be a soft-max. -/
def Fits : Nat → List Fcl → Prop
  | _, [] => True
  | n, f :: fs => f.input = n ∧ (f.act = .softmax → fs = []) ∧ Fits f.output fs

/-! ### Derivatives along curves -/

/-- `g` is the error `e` of the results of `F` pulled back to its arguments: along every curve
through `x`, the results are differentiable and `e` applied to their velocities is `g`
applied to the velocity of the curve. -/
def Pull (n m : Nat) (F : (Nat → ℝ) → Nat → ℝ) (x e g : Nat → ℝ) : Prop :=
  ∀ (c : ℝ → Nat → ℝ) (c' : Nat → ℝ) (t0 : ℝ), c t0 = x → (∀ i, i < n → HasDerivAt (fun t => c t i) (c' i) t0) →
    ∃ d : Nat → ℝ, (∀ k, k < m → HasDerivAt (fun t => F (c t) k) (d k) t0) ∧
      ∑ k ∈ range m, e k * d k = ∑ i ∈ range n, g i * c' i

theorem Pull.id (n : Nat) (x e : Nat → ℝ) : Pull n n (fun x => x) x e e :=
  fun _ c' _ _ h => ⟨c', h, rfl⟩

theorem Pull.comp {n m l : Nat} {F G : (Nat → ℝ) → Nat → ℝ} {x e g h : Nat → ℝ} (hF : Pull n m F x g h)
    (hG : Pull m l G (F x) e g) : Pull n l (fun x => G (F x)) x e h := by
  intro c c' t0 hc hd
  obtain ⟨d, h1, h2⟩ := hF c c' t0 hc hd
  obtain ⟨d', h3, h4⟩ := hG (fun t => F (c t)) d t0 (by rw [hc]) h1
  exact ⟨d', h3, h4.trans h2⟩

theorem Pull.congr {n m : Nat} {F : (Nat → ℝ) → Nat → ℝ} {x e e' g g' : Nat → ℝ} (h : Pull n m F x e g)
    (he : ∀ k, k < m → e' k = e k) (hg : ∀ i, i < n → g' i = g i) : Pull n m F x e' g' := by
  intro c c' t0 hc hd
  obtain ⟨d, h1, h2⟩ := h c c' t0 hc hd
  refine ⟨d, h1, ?_⟩
  rw [Finset.sum_congr rfl fun k hk => by rw [he k (Finset.mem_range.1 hk)], h2]
  exact Finset.sum_congr rfl fun k hk => by rw [hg k (Finset.mem_range.1 hk)]

theorem Pull.fn_congr {n m : Nat} {F G : (Nat → ℝ) → Nat → ℝ} {x e g : Nat → ℝ} (h : Pull n m F x e g)
    (hG : ∀ y k, G y k = F y k) : Pull n m G x e g := by
  have : G = F := by funext y k; exact hG y k
  rw [this]
  exact h

theorem Pull.diag {n : Nat} (h : Nat → ℝ → ℝ) (h' : Nat → ℝ) (x e : Nat → ℝ)
    (hd : ∀ k, k < n → HasDerivAt (h k) (h' k) (x k)) :
    Pull n n (fun x k => h k (x k)) x e (fun k => h' k * e k) := by
  intro c c' t0 hc hcd
  refine ⟨fun k => h' k * c' k, fun k hk => ?_, ?_⟩
  · have h1 : HasDerivAt (h k) (h' k) (c t0 k) := by rw [hc]; exact hd k hk
    exact h1.comp t0 (hcd k hk)
  · exact Finset.sum_congr rfl fun k _ => by ring

theorem Pull.affine (n m : Nat) (w b x e : Nat → ℝ) :
    Pull n m (fun x k => ∑ i ∈ range n, w (k * n + i) * x i + b k) x e (fun p => ∑ j ∈ range m, e j * w (j * n + p)) := by
  intro c c' t0 hc hd
  refine ⟨fun k => ∑ i ∈ range n, w (k * n + i) * c' i, fun k _ => ?_, ?_⟩
  · refine HasDerivAt.add_const _ ?_
    exact HasDerivAt.fun_sum fun i hi => (hd i (Finset.mem_range.1 hi)).const_mul _
  · simp only [Finset.mul_sum, Finset.sum_mul]
    rw [Finset.sum_comm]
    exact Finset.sum_congr rfl fun i _ => Finset.sum_congr rfl fun k _ => by ring

theorem Pull.softmax (n : Nat) (x e : Nat → ℝ) :
    Pull n n (fun z k => Real.exp (z k) / ∑ i ∈ range n, Real.exp (z i)) x e
      (fun j => ∑ i ∈ range n, if i = j then
        Softmax.smax n x i * (1 - Softmax.smax n x j) * e i else -(Softmax.smax n x j * Softmax.smax n x i * e i)) := by
  intro c c' t0 hc hd
  set s : Nat → ℝ := Softmax.smax n x with hs
  refine ⟨fun k => s k * (c' k - ∑ j ∈ range n, s j * c' j), fun k hk => ?_, ?_⟩
  · have hpos : 0 < ∑ i ∈ range n, Real.exp (x i) :=
      Softmax.sum_exp_pos (range n) ⟨k, Finset.mem_range.2 hk⟩ x
    have h1 : ∀ i, i < n → HasDerivAt (fun t => Real.exp (c t i)) (Real.exp (x i) * c' i) t0 := by
      intro i hi
      have := (hd i hi).exp
      rwa [hc] at this
    have h2 : HasDerivAt (fun t => ∑ i ∈ range n, Real.exp (c t i)) (∑ i ∈ range n, Real.exp (x i) * c' i) t0 :=
      HasDerivAt.fun_sum fun i hi => h1 i (Finset.mem_range.1 hi)
    have h3 := (h1 k hk).fun_div h2 (by rw [hc]; exact hpos.ne')
    refine h3.congr_deriv ?_
    rw [hc]
    have h4 : ∑ j ∈ range n, s j * c' j = (∑ i ∈ range n, Real.exp (x i) * c' i) / ∑ i ∈ range n, Real.exp (x i) := by
      rw [Finset.sum_div]
      refine Finset.sum_congr rfl fun j _ => ?_
      rw [hs]
      unfold Softmax.smax
      ring
    rw [h4, hs]
    unfold Softmax.smax
    field_simp
  · have h1 : ∀ j, j ∈ range n → (∑ i ∈ range n, if i = j then s i * (1 - s j) * e i else -(s j * s i * e i)) =
        s j * e j - s j * ∑ i ∈ range n, s i * e i := by
      intro j hj
      have : ∀ i, i ∈ range n → (if i = j then s i * (1 - s j) * e i else -(s j * s i * e i)) =
          (if i = j then s i * e i else 0) - s j * (s i * e i) := by
        intro i _
        split_ifs with h
        · subst h; ring
        · ring
      rw [Finset.sum_congr rfl this, Finset.sum_sub_distrib, Finset.sum_ite_eq' (range n) j, if_pos hj, Finset.mul_sum]
    have h0 : ∑ j ∈ range n, (∑ i ∈ range n, if i = j then s i * (1 - s j) * e i else -(s j * s i * e i)) * c' j =
        ∑ j ∈ range n, (s j * e j - s j * ∑ i ∈ range n, s i * e i) * c' j :=
      Finset.sum_congr rfl fun j hj => by rw [h1 j hj]
    refine Eq.trans ?_ h0.symm
    have h2 : ∀ k, k ∈ range n → e k * (s k * (c' k - ∑ j ∈ range n, s j * c' j)) =
        s k * e k * c' k - (s k * e k) * ∑ j ∈ range n, s j * c' j := fun k _ => by ring
    rw [Finset.sum_congr rfl h2, Finset.sum_sub_distrib, ← Finset.sum_mul]
    have h3 : ∀ j, j ∈ range n → (s j * e j - s j * ∑ i ∈ range n, s i * e i) * c' j =
        s j * e j * c' j - (∑ i ∈ range n, s i * e i) * (s j * c' j) := fun j _ => by ring
    rw [Finset.sum_congr rfl h3, Finset.sum_sub_distrib, ← Finset.mul_sum]

/-- What the activation's backward step computes for a layer with results `z` before the
activation. -/
noncomputable def pulled (a : Act) (n : Nat) (z e : Nat → ℝ) (k : Nat) : ℝ :=
  match a with
  | .none => e k
  | .sigmoid => LLab.Act.dSigmoidGiven (LLab.Act.sigmoid (z k)) * e k
  | .relu => LLab.Act.dRelu (z k) * e k
  | .elu => LLab.Act.dElu (z k) 1 * e k
  | .softmax => ∑ i ∈ range n, if i = k then
        Softmax.smax n z i * (1 - Softmax.smax n z k) * e i else -(Softmax.smax n z k * Softmax.smax n z i * e i)
  | .tanh => LLab.Act.dTanhh (z k) * e k
  | .leaky => LLab.Act.dLeakyRelu (z k) * e k

theorem Pull.act (a : Act) (n : Nat) (z e : Nat → ℝ) (hk : a = .relu ∨ a = .leaky ∨ a = .elu → ∀ k, k < n → z k ≠ 0) :
    Pull n n (actFn a n) z e (pulled a n z e) := by
  cases a with
  | none => exact Pull.id n z e
  | sigmoid => exact Pull.diag (fun _ => LLab.Act.sigmoid) _ z e fun k _ => LLab.Act.C20_sigmoid_given (z k)
  | relu =>
    refine Pull.fn_congr (Pull.diag (fun _ => LLab.Act.relu) (fun k => LLab.Act.dRelu (z k)) z e fun k hlt =>
      (LLab.Act.C20_relu (z k)).1 (hk (Or.inl rfl) k hlt)) fun y k => ?_
    exact (LLab.Act.C20_values (y k)).2.2.2.1.symm
  | softmax => exact Pull.softmax n z e
  | tanh =>
    refine Pull.fn_congr (Pull.diag (fun _ => LLab.Act.tanhh) (fun k => LLab.Act.dTanhh (z k)) z e fun k _ =>
      LLab.Act.C20_tanh (z k)) fun y k => ?_
    exact (LLab.Act.C20_values (y k)).1.symm
  | leaky =>
    refine Pull.fn_congr (Pull.diag (fun _ => LLab.Act.leakyRelu) (fun k => LLab.Act.dLeakyRelu (z k)) z e fun k hlt =>
      (LLab.Act.C20_leaky_relu (z k)).1 (hk (Or.inr (Or.inl rfl)) k hlt)) fun y k => ?_
    exact (LLab.Act.C20_values (y k)).2.2.2.2.1.symm
  | elu =>
    refine Pull.fn_congr (Pull.diag (fun _ y => LLab.Act.elu y 1) (fun k => LLab.Act.dElu (z k) 1) z e fun k hlt =>
      (LLab.Act.C20_elu 1 (z k)).1 (hk (Or.inr (Or.inr rfl)) k hlt)) fun y k => ?_
    simp [actFn, LLab.Act.elu]

/-! ### One layer -/

theorem actFn_congr (a : Act) {n : Nat} {z z' : Nat → ℝ} (h : ∀ k, k < n → z k = z' k) {k : Nat} (hk : k < n) :
    actFn a n z k = actFn a n z' k := by
  have hs : ∑ i ∈ range n, Real.exp (z i) = ∑ i ∈ range n, Real.exp (z' i) :=
    Finset.sum_congr rfl fun i hi => by rw [h i (Finset.mem_range.1 hi)]
  cases a <;> simp only [actFn, h k hk, hs]

theorem pulled_congr (a : Act) {n : Nat} {z e e' : Nat → ℝ} (h : ∀ k, k < n → e k = e' k) {k : Nat} (hk : k < n) :
    pulled a n z e k = pulled a n z e' k := by
  have hs : (∑ i ∈ range n, if i = k then Softmax.smax n z i * (1 - Softmax.smax n z k) * e i
      else -(Softmax.smax n z k * Softmax.smax n z i * e i)) =
      ∑ i ∈ range n, if i = k then Softmax.smax n z i * (1 - Softmax.smax n z k) * e' i
      else -(Softmax.smax n z k * Softmax.smax n z i * e' i) :=
    Finset.sum_congr rfl fun i hi => by rw [h i (Finset.mem_range.1 hi)]
  cases a <;> simp only [pulled, h k hk, hs]

theorem actArray_run (a : Act) (pre post : Arr ℝ) (n : Nat) (h1 : n ≤ pre.len) (h2 : n ≤ post.len) :
    ∃ p, actArray a pre post n = some p ∧ n ≤ p.len ∧ (a ≠ .none → ∀ k, k < n → p.get k = actFn a n pre.get k) := by
  cases a with
  | none => exact ⟨post, rfl, h2, fun h => absurd rfl h⟩
  | sigmoid => exact ⟨_, Vec.C64_map _ pre post n h1 h2, h2, fun _ k hk => if_pos hk⟩
  | relu => exact ⟨_, Vec.C64_map _ pre post n h1 h2, h2, fun _ k hk => (if_pos hk).trans (LLab.Act.C20_values _).2.2.2.1⟩
  | softmax => exact ⟨_, Softmax.softmax_eq pre post n h1 h2, h2, fun _ k hk => if_pos hk⟩
  | tanh => exact ⟨_, Vec.C64_map _ pre post n h1 h2, h2, fun _ k hk => (if_pos hk).trans (LLab.Act.C20_values _).1⟩
  | leaky => exact ⟨_, Vec.C64_map _ pre post n h1 h2, h2, fun _ k hk => (if_pos hk).trans (LLab.Act.C20_values _).2.2.2.2.1⟩
  | elu =>
    refine ⟨_, Vec.C64_map _ pre post n h1 h2, h2, fun _ k hk => (if_pos hk).trans ?_⟩
    simp [actFn, LLab.Act.elu]

theorem setMask_eq (draw : Nat → Bool) (mask : Arr ℝ) (n : Nat) (h : n ≤ mask.len) :
    setMask draw mask n = some ⟨mask.len, fun k => if k < n then (if draw k then 0 else mask.get k) else mask.get k⟩ := by
  unfold setMask
  apply loop_fill (v := fun k => if draw k then 0 else mask.get k)
  intro i hi c hc hk
  have hlt : i < c.len := by omega
  by_cases hd : draw i
  · simp [hd, Arr.write_eq _ hlt]
  · simp only [hd, Bool.false_eq_true, if_false, hlt, if_true]
    rw [← hk i (le_refl _), Function.update_eq_self]

/-- What one layer forward does. -/
theorem ffLayer_run (x : Arr ℝ) (draw : Nat → Bool) (f : Fcl) (hr : f.Ready) (ht : f.drop ≠ .test) (hx : f.input ≤ x.len) :
    ∃ pre post mask dt, ffLayer x draw f = some { f with pre := pre, post := post, mask := mask, dropTemp := dt } ∧
      f.output ≤ pre.len ∧ f.output ≤ post.len ∧ f.output ≤ mask.len ∧ f.output ≤ dt.len ∧
      (∀ k, k < f.output → pre.get k = (f.unit draw).z x.get k) ∧
      (f.act ≠ .none → ∀ k, k < f.output → post.get k = actFn f.act f.output ((f.unit draw).z x.get) k) ∧
      (f.drop = .train → ∀ k, k < f.output → mask.get k = (f.unit draw).scale k) ∧
      (∀ k, k < f.output → (if f.drop = .off then (if f.act = .none then pre else post) else dt).get k = (f.unit draw).fn x.get k) := by
  obtain ⟨pre, epre, lpre, vpre⟩ : ∃ pre, FC.ff x f.pre f.weights (some f.biases) f.input f.output = some pre ∧
      f.output ≤ pre.len ∧ ∀ k, k < f.output → pre.get k = (f.unit draw).z x.get k := by
    refine ⟨_, FC.C23_feed_forward x f.pre f.weights (some f.biases) f.input f.output hx hr.lw hr.lpre
      (fun b hb => by cases hb; exact hr.lb), hr.lpre, fun k hk => ?_⟩
    simp only [hk, if_true, hr.zpre k hk, zero_add]
    simp [FC.affine, Unit.z, Fcl.unit]
  obtain ⟨post, epost, lpost, vpost⟩ := actArray_run f.act pre f.post f.output lpre hr.lpost
  have vpost' : f.act ≠ .none → ∀ k, k < f.output → post.get k = actFn f.act f.output ((f.unit draw).z x.get) k :=
    fun h k hk => (vpost h k hk).trans (actFn_congr _ vpre hk)
  have vres : ∀ k, k < f.output → (if f.act = .none then pre else post).get k = actFn f.act f.output ((f.unit draw).z x.get) k := by
    intro k hk
    by_cases h : f.act = .none
    · rw [if_pos h, vpre k hk, h]; rfl
    · rw [if_neg h, vpost' h k hk]
  have lres : f.output ≤ (if f.act = .none then pre else post).len := by split_ifs <;> assumption
  unfold ffLayer
  rw [epre, Option.bind_some, epost, Option.bind_some]
  by_cases hoff : f.drop = .off
  · refine ⟨pre, post, f.mask, f.dropTemp, by rw [if_pos hoff], lpre, lpost, hr.lmask, hr.ldt, vpre, vpost', ?_, ?_⟩
    · intro h; rw [hoff] at h; cases h
    · intro k hk
      rw [if_pos hoff, vres k hk]
      simp [Unit.fn, Fcl.unit, hoff]
  · have htr : f.drop = .train := by
      cases h : f.drop with
      | off => exact absurd h hoff
      | train => rfl
      | test => exact absurd h ht
    rw [if_neg hoff, setMask_eq draw f.mask f.output hr.lmask, Option.bind_some, if_pos htr,
      Vec.zip1D_eq _ _ _ _ _ (by exact hr.lmask) lres hr.ldt, Option.bind_some]
    refine ⟨pre, post, _, _, rfl, lpre, lpost, hr.lmask, hr.ldt, vpre, vpost', ?_, ?_⟩
    · intro _ k hk
      simp [Fcl.unit, htr, hk]
    · intro k hk
      rw [if_neg hoff]
      simp only [hk, if_true, vres k hk]
      simp [Unit.fn, Fcl.unit, htr]

theorem dsoft_run (active : Arr Int) (out s t : Arr ℝ) (n : Nat) (z : Nat → ℝ) (ha : n ≤ active.len) (hs : n ≤ s.len)
    (ht : n ≤ t.len) (ho : n ≤ out.len) (hact : ∀ k, k < n → active.get k ≠ 0) (h0 : ∀ k, k < n → out.get k = 0)
    (hv : ∀ k, k < n → s.get k = Softmax.smax n z k) :
    ∃ o, Softmax.derivativeSoftmaxMasked active out s t n = some o ∧ o.len = out.len ∧
      ∀ k, k < n → o.get k = pulled .softmax n z t.get k := by
  refine ⟨_, Softmax.derivativeSoftmaxMasked_eq active out s t n ha hs ht ho, rfl, fun k hk => ?_⟩
  dsimp only [pulled]
  rw [h0 k hk, zero_add, Finset.sum_eq_single k]
  · rw [if_pos (hact k hk)]
    refine Finset.sum_congr rfl fun i hi => ?_
    have hi := Finset.mem_range.1 hi
    rw [if_pos (hact i hi), if_pos rfl, hv i hi, hv k hk]
  · intro j hj hne
    rw [if_pos (hact j (Finset.mem_range.1 hj))]
    refine Finset.sum_eq_zero fun i hi => ?_
    rw [if_pos (hact i (Finset.mem_range.1 hi)), if_neg (Ne.symm hne)]
  · intro h
    exact absurd (Finset.mem_range.2 hk) h

/-- The activation's backward step. `out` may be the array `t` itself, which is only the case
without soft-max. -/
theorem actBack_run (f : Fcl) (z : Nat → ℝ) (t out t3 : Arr ℝ) (hpre : f.output ≤ f.pre.len) (hpost : f.output ≤ f.post.len)
    (hl : f.output ≤ f.active.len) (ht : f.output ≤ t.len) (ho : f.output ≤ out.len) (h3 : f.output ≤ t3.len)
    (hact : ∀ k, k < f.output → f.active.get k ≠ 0) (h0 : f.act = .softmax → ∀ k, k < f.output → out.get k = 0)
    (vpre : ∀ k, k < f.output → f.pre.get k = z k)
    (vpost : f.act ≠ .none → ∀ k, k < f.output → f.post.get k = actFn f.act f.output z k) :
    ∃ o s, actBack f t out t3 = some (o, s) ∧ f.output ≤ o.len ∧ ∀ k, k < f.output → o.get k = pulled f.act f.output z t.get k := by
  have go : ∀ (d : ℝ → ℝ) (src : Arr ℝ), f.output ≤ src.len → ∃ o s,
      ((Vec.map1D d src t3 f.output).bind fun t3 =>
        (Vec.zip1D (fun a b => a * b) t3 t out f.output).bind fun o => some (o, t3)) = some (o, s) ∧ f.output ≤ o.len ∧
        ∀ k, k < f.output → o.get k = d (src.get k) * t.get k := by
    intro d src hs
    rw [Vec.C64_map d src t3 f.output hs h3, Option.bind_some, Vec.zip1D_eq _ _ _ _ _ (by exact h3) ht ho, Option.bind_some]
    refine ⟨_, _, rfl, ho, ?_⟩
    intro k hk
    simp [hk]
  unfold actBack
  cases ha : f.act with
  | none => exact ⟨t, t3, rfl, ht, fun k _ => rfl⟩
  | sigmoid =>
    obtain ⟨o, s, e, l, v⟩ := go LLab.Act.dSigmoidGiven f.post hpost
    refine ⟨o, s, e, l, fun k hk => (v k hk).trans ?_⟩
    rw [vpost (by rw [ha]; decide) k hk, ha]
    rfl
  | relu =>
    obtain ⟨o, s, e, l, v⟩ := go LLab.Act.dRelu f.pre hpre
    exact ⟨o, s, e, l, fun k hk => (v k hk).trans (by rw [vpre k hk]; rfl)⟩
  | elu =>
    obtain ⟨o, s, e, l, v⟩ := go (fun z => LLab.Act.dElu z 1) f.pre hpre
    exact ⟨o, s, e, l, fun k hk => (v k hk).trans (by rw [vpre k hk]; rfl)⟩
  | softmax =>
    obtain ⟨o, e, l, v⟩ := dsoft_run f.active out f.post t f.output z hl hpost ht ho hact (h0 ha) (fun k hk => by
      rw [vpost (by rw [ha]; decide) k hk, ha]; rfl)
    refine ⟨o, t3, ?_, by omega, v⟩
    dsimp only
    rw [e, Option.bind_some]
  | tanh =>
    obtain ⟨o, s, e, l, v⟩ := go LLab.Act.dTanhh f.pre hpre
    exact ⟨o, s, e, l, fun k hk => (v k hk).trans (by rw [vpre k hk]; rfl)⟩
  | leaky =>
    obtain ⟨o, s, e, l, v⟩ := go LLab.Act.dLeakyRelu f.pre hpre
    exact ⟨o, s, e, l, fun k hk => (v k hk).trans (by rw [vpre k hk]; rfl)⟩

/-- The error before the activation, for a layer whose forward pass has run. -/
theorem back_run (f : Fcl) (u : Unit) (x : Nat → ℝ) (e : Arr ℝ) (hpre : f.output ≤ f.pre.len) (hpost : f.output ≤ f.post.len)
    (hmask : f.output ≤ f.mask.len) (hl : f.output ≤ f.active.len) (ht : f.output ≤ f.temp.len) (h3 : f.output ≤ f.temp3.len)
    (he : f.output ≤ e.len) (zt : ∀ k, k < f.output → f.temp.get k = 0) (zt3 : ∀ k, k < f.output → f.temp3.get k = 0)
    (hact : ∀ k, k < f.output → f.active.get k ≠ 0)
    (vpre : ∀ k, k < f.output → f.pre.get k = u.z x k)
    (vpost : f.act ≠ .none → ∀ k, k < f.output → f.post.get k = actFn f.act f.output (u.z x) k)
    (hs : ∀ k, k < f.output → u.scale k = if f.drop = .off then 1 else f.mask.get k) :
    ∃ o s, back f e = some (o, s) ∧ f.output ≤ o.len ∧
      ∀ k, k < f.output → o.get k = pulled f.act f.output (u.z x) (fun k => u.scale k * e.get k) k := by
  unfold back
  by_cases hoff : f.drop = .off
  · rw [if_pos hoff]
    obtain ⟨o, s, h, l, v⟩ := actBack_run f (u.z x) e f.temp f.temp3 hpre hpost hl he ht h3 hact (fun _ => zt) vpre vpost
    refine ⟨o, s, h, l, fun k hk => (v k hk).trans (pulled_congr _ (fun k hk => ?_) hk)⟩
    rw [hs k hk, if_pos hoff, one_mul]
  · rw [if_neg hoff, Vec.zip1D_eq _ _ _ _ _ he hmask ht, Option.bind_some]
    have hv : ∀ k, k < f.output → (if k < f.output then e.get k * f.mask.get k else f.temp.get k) = u.scale k * e.get k := by
      intro k hk
      rw [if_pos hk, hs k hk, if_neg hoff, mul_comm]
    by_cases hsm : f.act = .softmax
    · rw [if_pos hsm]
      obtain ⟨o, h, l, v⟩ := dsoft_run f.active f.temp3 f.post ⟨f.temp.len, fun k => if k < f.output then e.get k * f.mask.get k else f.temp.get k⟩
        f.output (u.z x) hl hpost (by exact ht) h3 hact zt3 (fun k hk => by rw [vpost (by rw [hsm]; decide) k hk, hsm]; rfl)
      rw [h, Option.bind_some, Vec.C64_map _ _ _ _ (by omega) (by exact ht), Option.bind_some]
      refine ⟨_, _, rfl, ht, fun k hk => ?_⟩
      dsimp only
      rw [if_pos hk, v k hk, hsm]
      exact pulled_congr _ hv hk
    · rw [if_neg hsm]
      obtain ⟨o, s, h, l, v⟩ := actBack_run f (u.z x) ⟨f.temp.len, fun k => if k < f.output then e.get k * f.mask.get k else f.temp.get k⟩
        ⟨f.temp.len, fun k => if k < f.output then e.get k * f.mask.get k else f.temp.get k⟩ f.temp3 hpre hpost hl ht ht h3 hact
        (fun h => absurd h hsm) vpre vpost
      exact ⟨o, s, h, l, fun k hk => (v k hk).trans (pulled_congr _ hv hk)⟩

/-! ### Derivatives of one layer -/

/-- From `W x + b` to the results. -/
theorem Unit.pull_top (u : Unit) (z e : Nat → ℝ) (hk : u.act = .relu ∨ u.act = .leaky ∨ u.act = .elu → ∀ k, k < u.output → z k ≠ 0) :
    Pull u.output u.output (fun z k => u.scale k * actFn u.act u.output z k) z e
      (pulled u.act u.output z (fun k => u.scale k * e k)) :=
  Pull.comp (Pull.act u.act u.output z _ hk) (Pull.diag (fun k v => u.scale k * v) u.scale _ e
    fun k _ => by simpa using (hasDerivAt_id (actFn u.act u.output z k)).const_mul (u.scale k))

/-- From the inputs to the results. -/
theorem Unit.pull (u : Unit) (x e : Nat → ℝ) (hk : u.act = .relu ∨ u.act = .leaky ∨ u.act = .elu → ∀ k, k < u.output → u.z x k ≠ 0) :
    Pull u.input u.output u.fn x e (fun p => ∑ j ∈ range u.output,
      pulled u.act u.output (u.z x) (fun k => u.scale k * e k) j * u.w (j * u.input + p)) :=
  Pull.comp (F := u.z) (G := fun z k => u.scale k * actFn u.act u.output z k)
    (Pull.affine u.input u.output u.w u.b x _) (u.pull_top (u.z x) e hk)

theorem Unit.deriv_w (u : Unit) (x : Nat → ℝ) (q k : Nat) (hq : q < u.output * u.input) :
    HasDerivAt (fun v => ({ u with w := Function.update u.w q v } : Unit).z x k) (if k = q / u.input then x (q % u.input) else 0) (u.w q) := by
  have hn : 0 < u.input := by
    rcases Nat.eq_zero_or_pos u.input with h | h
    · rw [h, Nat.mul_zero] at hq; omega
    · exact h
  have h : ∀ i, i ∈ range u.input → HasDerivAt (fun v => Function.update u.w q v (k * u.input + i) * x i)
      (if k * u.input + i = q then x i else 0) (u.w q) := by
    intro i _
    by_cases hi : k * u.input + i = q
    · rw [if_pos hi, hi]
      simpa using (hasDerivAt_id (u.w q)).mul_const (x i)
    · rw [if_neg hi]
      simpa [Function.update_of_ne hi] using hasDerivAt_const (u.w q) (u.w (k * u.input + i) * x i)
  refine ((HasDerivAt.fun_sum h).add_const (u.b k)).congr_deriv ?_
  have hqd : q / u.input * u.input + q % u.input = q := by rw [Nat.mul_comm]; exact Nat.div_add_mod q u.input
  have hm := Nat.mod_lt q hn
  by_cases hkq : k = q / u.input
  · rw [if_pos hkq, Finset.sum_eq_single (q % u.input)]
    · rw [if_pos (by rw [hkq]; exact hqd)]
    · intro i hi hne
      rw [if_neg]
      intro h
      apply hne
      rw [← h, Nat.mul_comm, Nat.mul_add_mod, Nat.mod_eq_of_lt (Finset.mem_range.1 hi)]
    · intro h
      exact absurd (Finset.mem_range.2 hm) h
  · rw [if_neg hkq]
    refine Finset.sum_eq_zero fun i hi => ?_
    rw [if_neg]
    intro h
    apply hkq
    rw [← h, Nat.mul_comm, Nat.mul_add_div hn, Nat.div_eq_of_lt (Finset.mem_range.1 hi), Nat.add_zero]

theorem Unit.deriv_b (u : Unit) (x : Nat → ℝ) (q k : Nat) :
    HasDerivAt (fun v => ({ u with b := Function.update u.b q v } : Unit).z x k) (if k = q then 1 else 0) (u.b q) := by
  by_cases hk : k = q
  · subst hk
    simpa [Unit.z] using (hasDerivAt_id (u.b k)).const_add (∑ i ∈ range u.input, u.w (k * u.input + i) * x i)
  · simpa [Unit.z, Function.update_of_ne hk, hk] using
      hasDerivAt_const (u.b q) (∑ i ∈ range u.input, u.w (k * u.input + i) * x i + u.b k)

theorem Unit.z_congr (u : Unit) {x y : Nat → ℝ} (h : ∀ i, i < u.input → x i = y i) : u.z x = u.z y := by
  funext k
  unfold Unit.z
  rw [Finset.sum_congr rfl fun i hi => by rw [h i (Finset.mem_range.1 hi)]]

theorem Unit.fn_congr (u : Unit) {x y : Nat → ℝ} (h : ∀ i, i < u.input → x i = y i) : u.fn x = u.fn y := by
  funext k
  unfold Unit.fn
  rw [u.z_congr h]

/-- What one layer forward and then backward does. -/
theorem layer_run (x : Arr ℝ) (y : Nat → ℝ) (draw : Nat → Bool) (f f' : Fcl) (hr : f.Ready) (ht : f.drop ≠ .test) (hx : f.input ≤ x.len)
    (hy : ∀ i, i < f.input → x.get i = y i) (hf : ffLayer x draw f = some f') :
    f'.output = f.output ∧ f'.drop = f.drop ∧ f.output ≤ f'.used.len ∧ (∀ k, k < f.output → f'.used.get k = (f.unit draw).fn y k) ∧
    ∀ e : Arr ℝ, f.output ≤ e.len → ∃ h, bpLayer x e f' = some h ∧ f.input ≤ h.error2.len ∧
      (∀ p, p < f.input → h.error2.get p = ∑ j ∈ range f.output,
        pulled f.act f.output ((f.unit draw).z y) (fun k => (f.unit draw).scale k * e.get k) j * f.weights.get (j * f.input + p)) ∧
      (∀ q, q < f.output * f.input → h.dWeights.get q - f.dWeights.get q =
        pulled f.act f.output ((f.unit draw).z y) (fun k => (f.unit draw).scale k * e.get k) (q / f.input) * y (q % f.input)) ∧
      (f.mode ≠ .freezeBiases → ∀ q, q < f.output → h.dBiases.get q - f.dBiases.get q =
        pulled f.act f.output ((f.unit draw).z y) (fun k => (f.unit draw).scale k * e.get k) q) ∧
      (f.mode = .freezeBiases → ∀ q, h.dBiases.get q = f.dBiases.get q) := by
  obtain ⟨pre, post, mask, dt, ef, lpre, lpost, lmask, ldt, vpre, vpost, vmask, vused⟩ := ffLayer_run x draw f hr ht hx
  rw [hf] at ef
  cases ef
  rw [(f.unit draw).z_congr hy] at vpre vpost
  rw [(f.unit draw).fn_congr hy] at vused
  refine ⟨rfl, rfl, ?_, ?_, ?_⟩
  · simp only [Fcl.used, Fcl.result]
    split_ifs <;> assumption
  · exact vused
  · intro e he
    obtain ⟨t, t3, eb, lt, vt⟩ := back_run { f with pre := pre, post := post, mask := mask, dropTemp := dt } (f.unit draw) y e
      lpre lpost lmask hr.lact hr.lt hr.lt3 he hr.zt hr.zt3 hr.hact vpre vpost (by
        intro k hk
        dsimp only at hk ⊢
        by_cases hoff : f.drop = .off
        · rw [if_pos hoff]
          simp [Fcl.unit, hoff]
        · rw [if_neg hoff, vmask _ k hk]
          cases h : f.drop with
          | off => exact absurd h hoff
          | train => rfl
          | test => exact absurd h ht)
    dsimp only at vt lt
    unfold bpLayer
    rw [eb, Option.bind_some]
    dsimp only
    rw [FC.bp_run x t f.weights _ _ f.input f.output f.dWeights f.error2 f.dBiases hx lt hr.lw hr.ldw hr.le2 (fun _ => hr.ldb),
      Option.bind_some]
    refine ⟨_, rfl, hr.le2, ?_, ?_, ?_, ?_⟩
    · intro p hp
      dsimp only
      rw [hr.ze2 p hp, if_pos hp, zero_add]
      exact Finset.sum_congr rfl fun j hj => by rw [vt j (Finset.mem_range.1 hj)]
    · intro q hq
      have hn : 0 < f.input := by
        rcases Nat.eq_zero_or_pos f.input with h | h
        · rw [h, Nat.mul_zero] at hq; omega
        · exact h
      have hb : (decide (f.mode ≠ .freezeBiases) || !decide (f.mode = .freeze)) = true := by
        cases f.mode <;> rfl
      dsimp only
      rw [hb, if_pos rfl, if_pos hq, add_sub_cancel_left, vt _ ((Nat.div_lt_iff_lt_mul hn).2 hq), hy _ (Nat.mod_lt q hn)]
    · intro hm q hq
      dsimp only
      rw [if_pos (decide_eq_true hm), if_pos hq, add_sub_cancel_left, vt q hq]
    · intro hm q
      dsimp only
      rw [if_neg (by simp [hm]), add_zero]

/-! ### The whole model -/

/-- A family of vectors `F` is differentiable at `t0` and `e` applied to its velocity is `g`. -/
def Par (m : Nat) (F : ℝ → Nat → ℝ) (t0 : ℝ) (e : Nat → ℝ) (g : ℝ) : Prop :=
  ∃ d : Nat → ℝ, (∀ k, k < m → HasDerivAt (fun t => F t k) (d k) t0) ∧ ∑ k ∈ range m, e k * d k = g

theorem Pull.par {n m : Nat} {G : (Nat → ℝ) → Nat → ℝ} {x e g : Nat → ℝ} (h : Pull n m G x e g) {F : ℝ → Nat → ℝ} {t0 a : ℝ}
    (h0 : F t0 = x) (hF : Par n F t0 g a) : Par m (fun t => G (F t)) t0 e a := by
  obtain ⟨d, h1, h2⟩ := hF
  obtain ⟨d', h3, h4⟩ := h F d t0 h0 h1
  exact ⟨d', h3, h4.trans h2⟩

theorem Par.loss {m : Nat} {F : ℝ → Nat → ℝ} {t0 g : ℝ} {e : Nat → ℝ} (h : Par m F t0 e g) (ℓ : Nat → ℝ → ℝ)
    (hl : ∀ o, o < m → HasDerivAt (ℓ o) (e o) (F t0 o)) : HasDerivAt (fun t => ∑ o ∈ range m, ℓ o (F t o)) g t0 := by
  obtain ⟨d, h1, h2⟩ := h
  rw [← h2]
  exact HasDerivAt.fun_sum fun o ho => (hl o (Finset.mem_range.1 ho)).comp t0 (h1 o (Finset.mem_range.1 ho))

/-- The forward pass written as a relation. -/
def Ran (draws : Nat → Nat → Bool) : Arr ℝ → Nat → List Fcl → List Fcl → Prop
  | _, _, [], gs => gs = []
  | x, i, f :: fs, gs => ∃ f' gs', gs = f' :: gs' ∧ ffLayer x (draws i) f = some f' ∧ Ran draws f'.used (i + 1) fs gs'

/-- The last array. -/
def lastUsed (x : Arr ℝ) : List Fcl → Arr ℝ
  | [] => x
  | f :: fs => lastUsed f.used fs

theorem handOver_eq (f1 f2 : Fcl) (h : f1.drop ≠ .test) : handOver f1 f2 = some f1.used := by
  unfold handOver Fcl.used
  cases hd : f1.drop with
  | off => rfl
  | train => rfl
  | test => exact absurd hd h

theorem ffFrom_ran (draws : Nat → Nat → Bool) : ∀ (fs : List Fcl) (prev : Fcl) (i : Nat), prev.drop ≠ .test → prev.output ≤ prev.used.len →
    (∀ f, f ∈ fs → f.Ready ∧ f.drop ≠ .test) → Fits prev.output fs → ∃ gs, ffFrom draws prev i fs = some gs ∧ Ran draws prev.used i fs gs
  | [], _, _, _, _, _, _ => ⟨[], rfl, rfl⟩
  | f :: fs, prev, i, hp, hl, hr, hf => by
    obtain ⟨h1, h2, h3⟩ := hf
    obtain ⟨hr1, hr2⟩ := hr f (List.mem_cons_self ..)
    have hx : f.input ≤ prev.used.len := by omega
    obtain ⟨pre, post, mask, dt, ef, -⟩ := ffLayer_run prev.used (draws i) f hr1 hr2 hx
    obtain ⟨ho, hd, hl', -, -⟩ := layer_run prev.used prev.used.get (draws i) f _ hr1 hr2 hx (fun _ _ => rfl) ef
    obtain ⟨gs, e1, e2⟩ := ffFrom_ran draws fs { f with pre := pre, post := post, mask := mask, dropTemp := dt } (i + 1) hr2 hl'
      (fun g hg => hr g (List.mem_cons_of_mem _ hg)) h3
    refine ⟨_, ?_, _, gs, rfl, ef, e2⟩
    unfold ffFrom
    rw [if_neg (by rintro ⟨h, h'⟩; exact h' (h2 h)), if_neg (by omega), handOver_eq prev f hp, Option.bind_some, ef, Option.bind_some, e1,
      Option.bind_some]

theorem model_run (draws : Nat → Nat → Bool) : ∀ (fs gs : List Fcl) (i n : Nat) (x : Arr ℝ) (y : Nat → ℝ), Ran draws x i fs gs →
    (∀ f, f ∈ fs → f.Ready ∧ f.drop ≠ .test) → Fits n fs → n ≤ x.len → (∀ i, i < n → x.get i = y i) → NoKink (units draws i fs) y →
    outDim n (units draws i fs) ≤ (lastUsed x gs).len ∧ (∀ k, k < outDim n (units draws i fs) → (lastUsed x gs).get k = net (units draws i fs) y k) ∧
    ∀ e : Arr ℝ, outDim n (units draws i fs) ≤ e.len → ∃ hs err, bpModel e x gs = some (hs, err) ∧ hs.length = fs.length ∧ n ≤ err.len ∧
      Pull n (outDim n (units draws i fs)) (net (units draws i fs)) y e.get err.get ∧
      ∀ l f h u, fs[l]? = some f → hs[l]? = some h → (units draws i fs)[l]? = some u →
        (∀ q, q < f.output * f.input → Par (outDim n (units draws i fs))
          (fun v => net ((units draws i fs).set l { u with w := Function.update u.w q v }) y) (u.w q) e.get (h.dWeights.get q - f.dWeights.get q)) ∧
        (f.mode ≠ .freezeBiases → ∀ q, q < f.output → Par (outDim n (units draws i fs))
          (fun v => net ((units draws i fs).set l { u with b := Function.update u.b q v }) y) (u.b q) e.get (h.dBiases.get q - f.dBiases.get q)) ∧
        (f.mode = .freezeBiases → ∀ q, h.dBiases.get q = f.dBiases.get q)
  | [], gs, i, n, x, y, hran, _, _, hx, hy, _ => by
    cases hran
    refine ⟨hx, hy, fun e he => ⟨[], e, rfl, rfl, he, Pull.id n y e.get, ?_⟩⟩
    intro l f h u h1
    simp at h1
  | f :: fs, gs, i, n, x, y, hran, hr, hf, hx, hy, hk => by
    obtain ⟨f', gs', rfl, ef, hran'⟩ := hran
    obtain ⟨rfl, h2, h3⟩ := hf
    obtain ⟨hr1, hr2⟩ := hr f (List.mem_cons_self ..)
    obtain ⟨ho, hd, hl', hv, hb⟩ := layer_run x y (draws i) f f' hr1 hr2 hx hy ef
    obtain ⟨hk1, hk2⟩ := hk
    obtain ⟨r1, r2, r3⟩ := model_run draws fs gs' (i + 1) f.output f'.used ((f.unit (draws i)).fn y) hran'
      (fun g hg => hr g (List.mem_cons_of_mem _ hg)) h3 hl' hv hk2
    refine ⟨r1, r2, fun e he => ?_⟩
    obtain ⟨hs, err, eb, len, lerr, hpull, hgr⟩ := r3 e he
    obtain ⟨h, eh, lh, ve, vw, vb, vf⟩ := hb err lerr
    have hval : Pull f.input f.output (f.unit (draws i)).fn y err.get h.error2.get :=
      ((f.unit (draws i)).pull y err.get hk1).congr (fun _ _ => rfl) ve
    refine ⟨h :: hs, h.error2, ?_, by simp [len], lh, hval.comp hpull, ?_⟩
    · unfold bpModel
      rw [eb, Option.bind_some]
      dsimp only
      rw [eh, Option.bind_some]
    · intro l g h' u h1 h2 h3
      cases l with
      | succ l => exact hgr l g h' u h1 h2 h3
      | zero =>
        obtain rfl : f = g := by simpa using h1
        obtain rfl : h = h' := by simpa using h2
        obtain rfl : f.unit (draws i) = u := by simpa [units] using h3
        refine ⟨fun q hq => ?_, fun hm q hq => ?_, vf⟩
        · have hn : 0 < f.input := by
            rcases Nat.eq_zero_or_pos f.input with h | h
            · rw [h, Nat.mul_zero] at hq; omega
            · exact h
          have hp : Par f.output (fun v => ({ (f.unit (draws i)) with w := Function.update (f.unit (draws i)).w q v } : Unit).z y)
              ((f.unit (draws i)).w q) (pulled f.act f.output ((f.unit (draws i)).z y) (fun k => (f.unit (draws i)).scale k * err.get k))
              (h.dWeights.get q - f.dWeights.get q) := by
            refine ⟨_, fun k _ => (f.unit (draws i)).deriv_w y q k hq, ?_⟩
            rw [vw q hq, Finset.sum_eq_single (q / f.input)]
            · exact congrArg _ (if_pos rfl)
            · intro b _ hne
              exact (congrArg _ (if_neg hne)).trans (mul_zero _)
            · intro h
              exact absurd (Finset.mem_range.2 ((Nat.div_lt_iff_lt_mul hn).2 hq)) h
          have h0 : ({ (f.unit (draws i)) with w := Function.update (f.unit (draws i)).w q ((f.unit (draws i)).w q) } : Unit).z y =
              (f.unit (draws i)).z y := by rw [Function.update_eq_self]
          exact hpull.par (F := fun v => ({ (f.unit (draws i)) with w := Function.update (f.unit (draws i)).w q v } : Unit).fn y)
            (by rw [Function.update_eq_self]) (((f.unit (draws i)).pull_top _ err.get hk1).par h0 hp)
        · have hp : Par f.output (fun v => ({ (f.unit (draws i)) with b := Function.update (f.unit (draws i)).b q v } : Unit).z y)
              ((f.unit (draws i)).b q) (pulled f.act f.output ((f.unit (draws i)).z y) (fun k => (f.unit (draws i)).scale k * err.get k))
              (h.dBiases.get q - f.dBiases.get q) := by
            refine ⟨_, fun k _ => (f.unit (draws i)).deriv_b y q k, ?_⟩
            rw [vb hm q hq, Finset.sum_eq_single q]
            · rw [if_pos rfl, mul_one]
            · intro b _ hne
              rw [if_neg hne, mul_zero]
            · intro h
              exact absurd (Finset.mem_range.2 hq) h
          have h0 : ({ (f.unit (draws i)) with b := Function.update (f.unit (draws i)).b q ((f.unit (draws i)).b q) } : Unit).z y =
              (f.unit (draws i)).z y := by rw [Function.update_eq_self]
          exact hpull.par (F := fun v => ({ (f.unit (draws i)) with b := Function.update (f.unit (draws i)).b q v } : Unit).fn y)
            (by rw [Function.update_eq_self]) (((f.unit (draws i)).pull_top _ err.get hk1).par h0 hp)

end LLab.Chain
