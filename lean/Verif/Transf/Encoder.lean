import Verif.Transf.MultiHeadBack
import Verif.Layers.L2Norm

/-!
The encoder of the transformer (`/repo/src/transformer_encoder.c`). Model and
specification; properties C118 and C119.
-/

namespace LLab.Transf

open Finset LLab.Attention LLab.Softmax

/-! ### Models inside the encoder -/

/-- One of the networks an encoder is made of (`q[i]`, `k[i]`, `v[i]`, `m`,
`linear_after_attention`; `model` of `/repo/src/llab.h`). Their own passes are
the subject of C70, C71, C74 and C75; here a network is any function of `np`
parameters and `din` inputs, with what its backward pass computes:

* `back x e`: the error of the input,
* `grad x e`: what is added to the derivatives of the parameters,
* `after x e`: what is left in the array of the incoming error. A convolution
  without pooling works in that array (`f2->temp = error`, `/repo/src/model.c`
  5536), so it need not be `e`.

`seen` is the input of the last forward pass, whose activations are stored in
the layers (`none` when there has been none since the last reset); `out` is the output layer, `dθ` the derivatives. -/
structure Sub where
  (din dout np : Nat)
  f : (Nat → ℝ) → (Nat → ℝ) → Nat → ℝ
  (back grad after : (Nat → ℝ) → (Nat → ℝ) → Nat → ℝ)
  (θ dθ : Nat → ℝ)
  out : Arr ℝ
  seen : Option (Nat → ℝ)

/-- `model_tensor_input_ff` (`/repo/src/model.c` 7154). -/
def Sub.ff (s : Sub) (x : Arr ℝ) : Option Sub :=
  if s.din ≤ x.len then some { s with out := ⟨s.dout, s.f s.θ x.get⟩, seen := some x.get } else none

open Classical in
/-- `model_tensor_input_bp(m, .., input, error, m->output_dimension)`
(`/repo/src/model.c` 8079): the network, the error of the input and the array
of the incoming error. The layers hold the activations of the last forward
pass, so the input must be the same; `none` otherwise. -/
noncomputable def Sub.bp (s : Sub) (x e : Arr ℝ) : Option (Sub × Arr ℝ × Arr ℝ) :=
  if s.din ≤ x.len ∧ s.dout ≤ e.len ∧ ∃ y, s.seen = some y ∧ ∀ i, i < s.din → y i = x.get i then
    some ({ s with dθ := fun i => s.dθ i + s.grad x.get e.get i }, ⟨s.din, s.back x.get e.get⟩,
      ⟨e.len, fun i => if i < s.dout then s.after x.get e.get i else e.get i⟩)
  else none

/-- The networks of the heads. -/
structure Heads where
  (q k v : Nat → Sub)

/-- A scaled l2 normalisation layer (`scaled_l2_norm`, `/repo/src/llab.h`):
`input_dimension`, `learned_g`, `d_learned_g`, `norm`, `output`,
`output_error`. -/
structure L2 where
  dim : Nat
  (g dg norm : ℝ)
  (out err : Arr ℝ)

/-- `transformer_encoder` (`/repo/src/llab.h`); `er` holds `q_error`, `k_error`,
`v_error`, `score_matrix_error` and `score_matrix_softmax_error`. Unallocated
residual buffers have length zero. The five networks and the buffers are
distinct objects. -/
structure Enc where
  (nh dim kd vd inputDim nl2 : Nat)
  (masked res1 norm1 res2 norm2 : Bool)
  hd : Heads
  (m lin : Sub)
  l2 : Nat → L2
  (score soft att r1 r2 r1e r2e encErr : Arr ℝ)
  er : Errs

/-! ### Forward pass -/

/-- The body of the loop over the heads
(`/repo/src/transformer_encoder.c` 967-975). -/
def headFF (x : Arr ℝ) (n h : Nat) (hd : Heads) : Option Heads :=
  if n ≠ (hd.q h).din ∨ n ≠ (hd.k h).din ∨ n ≠ (hd.v h).din then none
  else do
    let q ← (hd.q h).ff x
    let k ← (hd.k h).ff x
    let v ← (hd.v h).ff x
    some ⟨Function.update hd.q h q, Function.update hd.k h k, Function.update hd.v h v⟩

/-- `feed_forward_scaled_l2_norm(n, l2[i]->learned_g, &l2[i]->norm, x, l2[i]->output)`. -/
noncomputable def normFF (nl2 : Nat) (l2 : Nat → L2) (i n : Nat) (x : Arr ℝ) : Option (Nat → L2) :=
  if i < nl2 then do
    let r ← L2Norm.ff n (l2 i).g x (l2 i).out
    some (Function.update l2 i { l2 i with norm := r.1, out := r.2 })
  else none

/-- A residual connection: when the flag is set, check the two sizes and run
`sum1D(x, y, out, n)`. -/
def residual (flag : Bool) (s1 s2 : Nat) (x y out : Arr ℝ) (n : Nat) : Option (Arr ℝ) :=
  match flag with
  | true => if s1 ≠ s2 then none else Vec.zip1D (· + ·) x y out n
  | false => some out

/-- `normFF` when the flag is set. -/
noncomputable def normIf (flag : Bool) (nl2 : Nat) (l2 : Nat → L2) (i n : Nat) (x : Arr ℝ) : Option (Nat → L2) :=
  match flag with
  | true => normFF nl2 l2 i n x
  | false => some l2

/-- `encoder_transformer_ff` (`/repo/src/transformer_encoder.c` 965-1063). The
C code writes the sixteen combinations of the four flags as nested branches;
they differ in which array each stage reads and in the expression used for a
size, both kept here. -/
noncomputable def Enc.ff (x : Arr ℝ) (t : Enc) (n : Nat) : Option Enc := do
  let hd ← loop t.nh (headFF x n) t.hd
  let at_ ← multiFF t.masked t.dim t.nh t.kd t.vd (fun h => (hd.q h).out) (fun h => (hd.k h).out)
    (fun h => (hd.v h).out) (t.score, t.soft, t.att)
  let lin ← t.lin.ff at_.2.2
  let r1 ← residual t.res1 lin.dout n x lin.out t.r1 lin.dout
  let a := if t.res1 then r1 else lin.out
  let l2 ← normIf t.norm1 t.nl2 t.l2 0 (if t.res1 then lin.dout else (t.l2 0).dim) a
  let b := if t.norm1 then (l2 0).out else a
  let m ← t.m.ff b
  let r2 ← residual t.res2 lin.dout m.dout b m.out t.r2
    (if t.res1 then m.dout else if t.norm1 then (l2 0).dim else lin.dout)
  let c := if t.res2 then r2 else m.out
  let l2 ← normIf t.norm2 t.nl2 l2 (if t.norm1 then 1 else 0)
    (if t.res1 && t.norm1 && t.res2 then lin.dout else m.dout) c
  some { t with hd := hd, lin := lin, m := m, l2 := l2, score := at_.1, soft := at_.2.1, att := at_.2.2,
                r1 := r1, r2 := r2 }

/-- `get_output_layer_from_encoder_transf` (`/repo/src/transformer.c` 518-525). -/
def Enc.output (t : Enc) : Arr ℝ :=
  if t.norm2 then (t.l2 (t.nl2 - 1)).out else if t.res2 then t.r2 else t.m.out

/-! ### Backward pass -/

/-- `back_propagation_scaled_l2_norm(l2[i]->input_dimension, .., x, e, l2[i]->output_error)`. -/
noncomputable def normBP (nl2 : Nat) (l2 : Nat → L2) (i : Nat) (x e : Arr ℝ) : Option (Nat → L2) :=
  if i < nl2 then do
    let r ← L2Norm.bp (l2 i).dim (l2 i).g (l2 i).norm x e ((l2 i).dg, (l2 i).err)
    some (Function.update l2 i { l2 i with dg := r.1, err := r.2 })
  else none

/-- State of the loop over the heads in the backward pass: the networks, the
accumulated error `temp` of the input, the three error arrays and the three
running offsets. -/
structure HState where
  hd : Heads
  (acc qe ke ve : Arr ℝ)
  (sq sk sv : Nat)

/-- The error of the first head starts the sum, the others are added. -/
def addHead (h : Nat) (acc ie : Arr ℝ) (n : Nat) : Option (Arr ℝ) :=
  match h with
  | 0 => some ie
  | _ + 1 => Vec.zip1DInPlace (· + ·) acc ie n

/-- The body of the loop over the heads in the backward pass
(`/repo/src/transformer_encoder.c` 1213-1226). -/
noncomputable def headBP (x : Arr ℝ) (n h : Nat) (s : HState) : Option HState := do
  let rq ← (s.hd.q h).bp x (s.qe.view s.sq)
  let acc ← addHead h s.acc rq.2.1 n
  let rk ← (s.hd.k h).bp x (s.ke.view s.sk)
  let acc ← Vec.zip1DInPlace (· + ·) acc rk.2.1 n
  let rv ← (s.hd.v h).bp x (s.ve.view s.sv)
  let acc ← Vec.zip1DInPlace (· + ·) acc rv.2.1 n
  some ⟨⟨Function.update s.hd.q h rq.1, Function.update s.hd.k h rk.1, Function.update s.hd.v h rv.1⟩, acc,
    s.qe.splice s.sq rq.2.2, s.ke.splice s.sk rk.2.2, s.ve.splice s.sv rv.2.2,
    s.sq + (s.hd.q h).dout, s.sk + (s.hd.k h).dout, s.sv + (s.hd.v h).dout⟩

/-- `normBP` when the flag is set. -/
noncomputable def normBPIf (flag : Bool) (nl2 : Nat) (l2 : Nat → L2) (i : Nat) (x e : Arr ℝ) : Option (Nat → L2) :=
  match flag with
  | true => normBP nl2 l2 i x e
  | false => some l2

/-- `sum1D(temp, e, temp, n)` when the flag is set. -/
def addIf (flag : Bool) (temp e : Arr ℝ) (n : Nat) : Option (Arr ℝ) :=
  match flag with
  | true => Vec.zip1DInPlace (· + ·) temp e n
  | false => some temp

/-- The array of the error of `l2[i]` after a network has worked in it. -/
def leave (flag : Bool) (l2 : Nat → L2) (i : Nat) (e : Arr ℝ) : Nat → L2 :=
  match flag with
  | true => Function.update l2 i { l2 i with err := e }
  | false => l2

/-- `encoder_transformer_bp` (`/repo/src/transformer_encoder.c` 1187-1330),
returning the encoder and the error of the input. The four branches of the C
code are merged as in `Enc.ff`. What a network leaves in the array of the error
it was given (`Sub.after`) is read again by the residual connections. -/
noncomputable def Enc.bp (x : Arr ℝ) (t : Enc) (n : Nat) (e : Arr ℝ) : Option (Enc × Arr ℝ) := do
  let a := if t.res1 then t.r1 else t.lin.out
  let b := if t.norm1 then (t.l2 0).out else a
  let c := if t.res2 then t.r2 else t.m.out
  let l2 ← normBPIf t.norm2 t.nl2 t.l2 (t.nl2 - 1) c e
  let rm ← t.m.bp b (if t.norm2 then (l2 (t.nl2 - 1)).err else e)
  let l2 := leave t.norm2 l2 (t.nl2 - 1) rm.2.2
  let temp ← addIf t.res2 rm.2.1 rm.2.2 (if t.norm2 then (l2 (t.nl2 - 1)).dim else t.lin.dout)
  let l2 ← normBPIf t.norm1 t.nl2 l2 0 a temp
  let rl ← t.lin.bp t.att (if t.norm1 then (l2 0).err else temp)
  let l2 := leave t.norm1 l2 0 rl.2.2
  let er ← multiBP t.masked t.dim t.nh t.kd t.vd (fun h => (t.hd.q h).out) (fun h => (t.hd.k h).out)
    (fun h => (t.hd.v h).out) (fun h => (t.hd.q h).dout) (fun h => (t.hd.k h).dout) (fun h => (t.hd.v h).dout)
    t.soft rl.2.1 t.er
  let s ← loop t.nh (headBP x n) ⟨t.hd, ⟨0, fun _ => 0⟩, er.queryErr, er.keyErr, er.valueErr, 0, 0, 0⟩
  let ie ← addIf t.res1 s.acc rl.2.2 n
  some ({ t with hd := s.hd, m := rm.1, lin := rl.1, l2 := l2,
                 er := ⟨s.qe, s.ke, s.ve, er.scoreErr, er.softErr⟩ }, ie)

/-! ### Specification -/

/-- The parameters of an encoder: those of its networks and the two scales. -/
structure Params where
  (q k v : Nat → Nat → ℝ)
  (m lin : Nat → ℝ)
  (g1 g2 : ℝ)

/-- The current parameters. -/
def Enc.params (t : Enc) : Params :=
  ⟨fun h => (t.hd.q h).θ, fun h => (t.hd.k h).θ, fun h => (t.hd.v h).θ, t.m.θ, t.lin.θ, (t.l2 0).g,
    (t.l2 (t.nl2 - 1)).g⟩

/-- Scaling to norm `g`. -/
noncomputable def scaled (n : Nat) (g : ℝ) (x : Nat → ℝ) (i : Nat) : ℝ :=
  x i * g / Real.sqrt (∑ j ∈ range n, x j ^ 2)

variable (t : Enc) (p : Params) (x : Nat → ℝ)

/-- Attention of the projected input. -/
noncomputable def attS : Nat → ℝ :=
  multiAttn t.masked t.dim t.nh t.vd (fun h => (t.hd.q h).f (p.q h) x) (fun h => (t.hd.k h).f (p.k h) x)
    (fun h => (t.hd.v h).f (p.v h) x)

/-- After the linear map and the first residual connection. -/
noncomputable def r1S : Nat → ℝ := fun i =>
  if t.res1 then x i + t.lin.f p.lin (attS t p x) i else t.lin.f p.lin (attS t p x) i

/-- After the first normalisation. -/
noncomputable def n1S : Nat → ℝ := if t.norm1 then scaled t.lin.dout p.g1 (r1S t p x) else r1S t p x

/-- After the network and the second residual connection. -/
noncomputable def r2S : Nat → ℝ := fun i =>
  if t.res2 then n1S t p x i + t.m.f p.m (n1S t p x) i else t.m.f p.m (n1S t p x) i

/-- The function an encoder computes. -/
noncomputable def encS : Nat → ℝ := if t.norm2 then scaled t.m.dout p.g2 (r2S t p x) else r2S t p x

/-- What a network must satisfy at the input `x` for its backward pass to be a
gradient: its output depends on `din` inputs only, and for every motion of
parameters and input the output moves, an error paired with that velocity being
the computed input error and parameter derivatives paired with theirs. -/
structure Sub.Diff (s : Sub) (x : Nat → ℝ) : Prop where
  loc : ∀ θ y, (∀ i, i < s.din → y i = x i) → ∀ k, k < s.dout → s.f θ y k = s.f θ x k
  adj : ∀ (Θ X : ℝ → Nat → ℝ) (Θ' X' : Nat → ℝ) (τ : ℝ), Θ τ = s.θ → (∀ i, i < s.din → X τ i = x i) →
    Moves s.np Θ Θ' τ → Moves s.din X X' τ →
    ∃ Y', Moves s.dout (fun t => s.f (Θ t) (X t)) Y' τ ∧
      ∀ e, dot s.dout e Y' = dot s.din (s.back x e) X' + dot s.np (s.grad x e) Θ'

/-- The backward pass leaves the incoming error as it was. -/
def Sub.Keeps (s : Sub) : Prop := ∀ x e i, i < s.dout → s.after x e i = e i

/-- Sizes of a well-formed encoder with inputs of `n` cells
(`transformer_encoder_layer`, `/repo/src/transformer_encoder.c` 54-190, and the
checks of the forward pass), with keys and values of the same size. -/
structure Enc.WF (t : Enc) (n : Nat) : Prop where
  pos : 0 < t.nh
  kv : t.kd = t.vd
  hq : ∀ h, h < t.nh → (t.hd.q h).din = n ∧ (t.hd.q h).dout = t.dim * t.vd
  hk : ∀ h, h < t.nh → (t.hd.k h).din = n ∧ (t.hd.k h).dout = t.dim * t.vd
  hv : ∀ h, h < t.nh → (t.hd.v h).din = n ∧ (t.hd.v h).dout = t.dim * t.vd
  hin : t.inputDim = t.dim * t.nh * t.vd
  hlin : t.lin.din = t.inputDim
  hm : t.m.din = t.lin.dout
  hres1 : t.res1 = true → t.lin.dout = n ∧ t.r1.len = t.lin.dout
  hres2 : t.res2 = true → t.m.dout = t.lin.dout ∧ t.r2.len = t.m.dout
  hnl2 : t.nl2 = (if t.norm1 then 1 else 0) + if t.norm2 then 1 else 0
  hnorm1 : t.norm1 = true → (t.l2 0).dim = t.lin.dout ∧ (t.l2 0).out.len = t.lin.dout ∧
    (t.l2 0).err.len = t.lin.dout
  hnorm2 : t.norm2 = true → (t.l2 (t.nl2 - 1)).dim = t.m.dout ∧ (t.l2 (t.nl2 - 1)).out.len = t.m.dout ∧
    (t.l2 (t.nl2 - 1)).err.len = t.m.dout
  hscore : t.score.len = t.nh * t.dim * t.dim
  hsoft : t.soft.len = t.nh * t.dim * t.dim
  hatt : t.att.len = t.inputDim
  hqe : t.er.queryErr.len = t.nh * t.dim * t.vd
  hke : t.er.keyErr.len = t.nh * t.dim * t.vd
  hve : t.er.valueErr.len = t.nh * t.dim * t.vd
  hse : t.er.scoreErr.len = t.nh * t.dim * t.dim
  hsoe : t.er.softErr.len = t.nh * t.dim * t.dim

/-- The buffers the passes add to are zero, as after `transformer_encoder_layer`
and `reset_transformer_encoder`. -/
structure Enc.Fresh (t : Enc) : Prop where
  soft : ∀ u, u < t.nh * t.dim * t.dim → t.soft.get u = 0
  att : ∀ u, u < t.inputDim → t.att.get u = 0
  q : ∀ u, u < t.nh * t.dim * t.vd → t.er.queryErr.get u = 0
  k : ∀ u, u < t.nh * t.dim * t.vd → t.er.keyErr.get u = 0
  v : ∀ u, u < t.nh * t.dim * t.vd → t.er.valueErr.get u = 0
  se : ∀ u, u < t.nh * t.dim * t.dim → t.er.scoreErr.get u = 0
  soe : ∀ u, u < t.nh * t.dim * t.dim → t.er.softErr.get u = 0
  l2 : ∀ i, i < t.nl2 → ∀ u, u < (t.l2 i).dim → (t.l2 i).err.get u = 0

end LLab.Transf
