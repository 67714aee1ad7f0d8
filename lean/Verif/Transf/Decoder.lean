import Verif.Transf.CrossBack
import Verif.Transf.StackEnc
import Verif.Transf.EncoderReset

/-!
The decoder of the transformer (`/repo/src/transformer_decoder.c`). Properties
C126 and C127.
-/

namespace LLab.Transf

open Finset LLab.Attention LLab.Softmax

/-! ### Model -/

/-- `transformer_decoder` (`/repo/src/llab.h` 524-546). `hd` are the `n_head`
networks of its own attention, `e` the encoder inside it, which owns the rest of
`q`, `k`, `v`. `l2 0` is the layer of its own normalisation. `er` holds
`q_error`, `k_error`, `v_error`, `score_matrix_error` and
`score_matrix_softmax_error`. `fcls` is `fcls[2]->temp2`, `none` when the
pointer `fcls` was never assigned. `incoming_input` and `incoming_input_error`
belong to the transformer around it (`Tr.left`, `Tr.leftErr`). -/
structure Dec where
  (nh dim kd vd inputDim leftDim nl2 : Nat)
  (masked res norm : Bool)
  hd : Heads
  lin : Sub
  l2 : Nat → L2
  (score soft att r1 r1e : Arr ℝ)
  er : Errs
  e : Enc
  fcls : Option (Arr ℝ)

/-- The networks of heads `k`, `k+1`, .... (`q + n_head1`). -/
def Heads.drop (hd : Heads) (k : Nat) : Heads := ⟨fun h => hd.q (k + h), fun h => hd.k (k + h), fun h => hd.v (k + h)⟩

/-- `&l2[count]`, which is not null when `count` is not zero. -/
def l2At (junk : Nat → L2) (l2 : Option (Nat → L2)) (count : Nat) : Option (Nat → L2) :=
  match count with
  | 0 => l2
  | c + 1 => some fun i => l2.getD junk (c + 1 + i)

/-- `transformer_decoder_layer` (`/repo/src/transformer_decoder.c` 58-135);
`none` is `exit(1)`. The buffers of the scores have `dimension*dimension` cells
and `fcls` is not assigned. `junk` is as in `Enc.make`. -/
def Dec.make (junk : Nat → L2) (inputDim leftDim nh1 nh2 : Nat) (res1 norm1 res2 norm2 res3 norm3 masked1 masked2 : Bool)
    (encDim : Nat) (m lin1 lin2 : Sub) (hd : Heads) (l2 : Option (Nat → L2)) (kd vd kd2 vd2 : Nat) : Option Dec :=
  if nh1 = 0 ∨ inputDim = 0 ∨ encDim = 0 ∨ nh2 = 0 then none
  else if inputDim % nh1 ≠ 0 then none
  else if inputDim % (nh1 * vd) ≠ 0 then none
  else do
    let e ← Enc.make junk (hd.drop nh1) m lin2 (l2At junk l2 (if norm1 then 1 else 0)) encDim nh2 res2 norm2 res3 norm3
      masked2 kd2 vd2
    let dim := inputDim / (nh1 * vd)
    some { nh := nh1, dim := dim, kd := kd, vd := vd, inputDim := inputDim, leftDim := leftDim
           nl2 := if norm1 then 1 else 0, masked := masked1, res := res1, norm := norm1
           hd := hd, lin := lin1, l2 := l2.getD junk
           score := calloc (dim * dim), soft := calloc (dim * dim), att := calloc inputDim
           r1 := calloc (if res1 then lin1.dout else 0), r1e := calloc (if res1 then lin1.dout else 0)
           er := ⟨calloc inputDim, calloc inputDim, calloc inputDim, calloc (dim * dim), calloc (dim * dim)⟩
           e := e, fcls := none }

/-- The body of the loop over the heads
(`/repo/src/transformer_decoder.c` 840-844). -/
def decHead (x : Arr ℝ) (h : Nat) (hd : Heads) : Option Heads := do
  let q ← (hd.q h).ff x
  let k ← (hd.k h).ff x
  let v ← (hd.v h).ff x
  some ⟨Function.update hd.q h q, Function.update hd.k h k, Function.update hd.v h v⟩

/-- `decoder_transformer_ff(inputs1, inputs2, t, input1_dimension, input2_dimension)`
(`/repo/src/transformer_decoder.c` 838-868). The four branches of the C code
are merged as in `Enc.ff`; there is no check of the sizes of the residual
connection. -/
noncomputable def Dec.ff (x z : Arr ℝ) (d : Dec) (nz : Nat) : Option Dec := do
  let hd ← loop d.nh (decHead x) d.hd
  let at_ ← multiFF d.masked d.dim d.nh d.kd d.vd (fun h => (hd.q h).out) (fun h => (hd.k h).out)
    (fun h => (hd.v h).out) (d.score, d.soft, d.att)
  let lin ← d.lin.ff at_.2.2
  let r1 ← residual d.res lin.dout lin.dout x lin.out d.r1 lin.dout
  let a := if d.res then r1 else lin.out
  let l2 ← normIf d.norm d.nl2 d.l2 0 lin.dout a
  let b := if d.norm then (l2 0).out else a
  let e ← d.e.ff2 b z nz (if d.norm then (l2 0).dim else lin.dout)
  some { d with hd := hd, lin := lin, l2 := l2, score := at_.1, soft := at_.2.1, att := at_.2.2, r1 := r1, e := e }

/-- `decoder_transformer_bp(inputs1, inputs2, t, input1_dimension, input2_dimension, output_error, inputs2_error)`
(`/repo/src/transformer_decoder.c` 922-972): the decoder, the array returned
and `inputs2_error`. What is returned is `fcls[2]->temp2`; the sum of the errors
of the heads is discarded. -/
noncomputable def Dec.bp (x z : Arr ℝ) (d : Dec) (n nz : Nat) (e ee : Arr ℝ) : Option (Dec × Arr ℝ × Arr ℝ) := do
  let a := if d.res then d.r1 else d.lin.out
  let b := if d.norm then (d.l2 0).out else a
  let w ← d.e.bp2 b z nz (if d.norm then (d.l2 0).dim else d.lin.dout) e ee
  let l2 ← normBPIf d.norm d.nl2 d.l2 0 a w.2.1
  let rl ← d.lin.bp d.att (if d.norm then (l2 0).err else w.2.1)
  let l2 := leave d.norm l2 0 rl.2.2
  let er ← multiBP d.masked d.dim d.nh d.kd d.vd (fun h => (d.hd.q h).out) (fun h => (d.hd.k h).out)
    (fun h => (d.hd.v h).out) (fun h => (d.hd.q h).dout) (fun h => (d.hd.k h).dout) (fun h => (d.hd.v h).dout)
    d.soft rl.2.1 d.er
  let s ← loop d.nh (headBP x n) ⟨d.hd, ⟨0, fun _ => 0⟩, er.queryErr, er.keyErr, er.valueErr, 0, 0, 0⟩
  let temp2 ← d.fcls
  let r ← addIf d.res temp2 rl.2.2 d.lin.dout
  some ({ d with hd := s.hd, lin := rl.1, l2 := l2, er := ⟨s.qe, s.ke, s.ve, er.scoreErr, er.softErr⟩, e := w.1,
                 fcls := some r }, r, w.2.2)

/-- `get_output_layer_from_encoder_transf(td->e)` (`/repo/src/transformer.c` 575). -/
def Dec.output (d : Dec) : Arr ℝ := d.e.output

/-! ### Specification -/

/-- The parameters of a decoder. -/
structure DParams where
  (q k v : Nat → Nat → ℝ)
  lin : Nat → ℝ
  g : ℝ
  e : Params

/-- The current parameters. -/
def Dec.params (d : Dec) : DParams :=
  ⟨fun h => (d.hd.q h).θ, fun h => (d.hd.k h).θ, fun h => (d.hd.v h).θ, d.lin.θ, (d.l2 0).g, d.e.params⟩

section Spec

variable (d : Dec) (p : DParams) (x z : Nat → ℝ)

/-- Attention of the input from below. -/
noncomputable def attD : Nat → ℝ :=
  multiAttn d.masked d.dim d.nh d.vd (fun h => (d.hd.q h).f (p.q h) x) (fun h => (d.hd.k h).f (p.k h) x)
    (fun h => (d.hd.v h).f (p.v h) x)

/-- After the linear map and the residual connection. -/
noncomputable def r1D : Nat → ℝ := fun i =>
  if d.res then x i + d.lin.f p.lin (attD d p x) i else d.lin.f p.lin (attD d p x) i

/-- After the normalisation. -/
noncomputable def n1D : Nat → ℝ := if d.norm then scaled d.lin.dout p.g (r1D d p x) else r1D d p x

/-- The function of a decoder: attention over the input from below, a linear
map, residual connection and normalisation, and then the encoder inside, with
that as values and residual, and the outputs of the encoders as queries and
keys. -/
noncomputable def decS : Nat → ℝ := encS2 d.e p.e (n1D d p x) z

end Spec

/-- Sizes of a well-formed decoder with `n` inputs from below and `nz` from the
encoders. The sizes of the buffers are those `transformer_decoder_layer` gives. -/
structure Dec.WF (d : Dec) (n nz : Nat) : Prop where
  pos : 0 < d.nh
  kv : d.kd = d.vd
  hq : ∀ h, h < d.nh → (d.hd.q h).din = n ∧ (d.hd.q h).dout = d.dim * d.vd
  hk : ∀ h, h < d.nh → (d.hd.k h).din = n ∧ (d.hd.k h).dout = d.dim * d.vd
  hv : ∀ h, h < d.nh → (d.hd.v h).din = n ∧ (d.hd.v h).dout = d.dim * d.vd
  hin : d.inputDim = d.dim * d.nh * d.vd
  hlin : d.lin.din = d.inputDim
  hres : d.res = true → d.lin.dout ≤ n ∧ d.r1.len = d.lin.dout
  hnl2 : d.nl2 = if d.norm then 1 else 0
  hnorm : d.norm = true → (d.l2 0).dim = d.lin.dout ∧ (d.l2 0).out.len = d.lin.dout
  hscore : d.score.len = d.dim * d.dim
  hsoft : d.soft.len = d.dim * d.dim
  hatt : d.att.len = d.inputDim
  he : d.e.WF2 d.lin.dout nz

/-- The buffers the passes add to are zero. -/
structure Dec.Fresh (d : Dec) : Prop where
  soft : ∀ u, u < d.dim * d.dim → d.soft.get u = 0
  att : ∀ u, u < d.inputDim → d.att.get u = 0
  e : d.e.Fresh

/-- All the networks of a decoder read their declared inputs only. -/
structure Dec.Local (d : Dec) : Prop where
  q : ∀ h, h < d.nh → (d.hd.q h).Local
  k : ∀ h, h < d.nh → (d.hd.k h).Local
  v : ∀ h, h < d.nh → (d.hd.v h).Local
  lin : d.lin.Local
  e : d.e.Local

/-! ### Proofs -/

theorem decHeads_run (x : Arr ℝ) (nh : Nat) (hd : Heads) (hq : ∀ h, h < nh → (hd.q h).din ≤ x.len)
    (hk : ∀ h, h < nh → (hd.k h).din ≤ x.len) (hv : ∀ h, h < nh → (hd.v h).din ≤ x.len) :
    loop nh (decHead x) hd = some (hd.fed nh x.get) := by
  obtain ⟨s, e, rfl⟩ := loop_inv (n := nh) (s := hd) (f := decHead x) (fun m s => s = hd.fed m x.get)
    (by simp [Heads.fed])
    (by
      rintro m hm s rfl
      have e1 : (hd.fed m x.get).q m = hd.q m := if_neg (by omega)
      have e2 : (hd.fed m x.get).k m = hd.k m := if_neg (by omega)
      have e3 : (hd.fed m x.get).v m = hd.v m := if_neg (by omega)
      refine ⟨_, ?_, rfl⟩
      unfold decHead
      rw [e1, e2, e3, Sub.ff_eq _ _ (hq m hm), Sub.ff_eq _ _ (hk m hm), Sub.ff_eq _ _ (hv m hm)]
      simp only [Option.bind_eq_bind, Option.bind_some]
      unfold Heads.fed
      dsimp only
      rw [upd_ite hd.q (fun h => (hd.q h).fed x.get), upd_ite hd.k (fun h => (hd.k h).fed x.get),
        upd_ite hd.v (fun h => (hd.v h).fed x.get)])
  exact e

/-- The function of the encoder inside a decoder depends on `n` and `nz` cells. -/
theorem encS2_local (t : Enc) (n nz : Nat) (wf : t.WF2 n nz) (hl : t.Local) (p : Params) {x y z w : Nat → ℝ}
    (h : ∀ i, i < n → x i = y i) (hw : ∀ i, i < nz → z i = w i) :
    (∀ u, u < t.dim * t.nh * t.vd → attS2 t p x z u = attS2 t p y w u) ∧
    (∀ i, i < t.lin.dout → r1S2 t p x z i = r1S2 t p y w i) ∧ (∀ i, i < t.lin.dout → n1S2 t p x z i = n1S2 t p y w i) ∧
    ∀ i, i < t.m.dout → encS2 t p x z i = encS2 t p y w i := by
  have h1 : ∀ u, u < t.dim * t.nh * t.vd → attS2 t p x z u = attS2 t p y w u := by
    intro u hu
    obtain ⟨i, h', c, hi, hh, hc, rfl⟩ := multi_cell hu
    unfold attS2
    rw [multiAttn_at t.masked t.dim _ _ _ hh hc, multiAttn_at t.masked t.dim _ _ _ hh hc]
    exact attn_local hi hc
      (fun u hu => hl.q h' hh _ _ _ (by rw [(wf.hq h' hh).1]; exact hw) u (by rw [(wf.hq h' hh).2]; exact hu))
      (fun u hu => hl.k h' hh _ _ _ (by rw [(wf.hk h' hh).1]; exact hw) u (by rw [(wf.hk h' hh).2]; exact hu))
      (fun u hu => hl.v h' hh _ _ _ (by rw [(wf.hv h' hh).1]; exact h) u (by rw [(wf.hv h' hh).2]; exact hu))
  have h2 : ∀ i, i < t.lin.dout → r1S2 t p x z i = r1S2 t p y w i := by
    intro i hi
    have : t.lin.f p.lin (attS2 t p x z) i = t.lin.f p.lin (attS2 t p y w) i :=
      hl.lin _ _ _ (fun u hu => h1 u (by rw [← wf.hin, ← wf.hlin]; exact hu)) i hi
    unfold r1S2
    rw [this]
    by_cases hr : t.res1 = true
    · rw [if_pos hr, if_pos hr, h i (by rw [← (wf.hres1 hr).1]; exact hi)]
    · rw [if_neg hr, if_neg hr]
  have h3 : ∀ i, i < t.lin.dout → n1S2 t p x z i = n1S2 t p y w i := by
    intro i hi
    unfold n1S2
    by_cases hN : t.norm1 = true
    · rw [if_pos hN, if_pos hN]; exact scaled_congr h2 hi
    · rw [if_neg hN, if_neg hN]; exact h2 i hi
  have h4 : ∀ i, i < t.m.dout → r2S2 t p x z i = r2S2 t p y w i := by
    intro i hi
    have : t.m.f p.m (n1S2 t p x z) i = t.m.f p.m (n1S2 t p y w) i :=
      hl.m _ _ _ (fun u hu => h3 u (by rw [← wf.hm]; exact hu)) i hi
    unfold r2S2
    rw [this]
    by_cases hr : t.res2 = true
    · rw [if_pos hr, if_pos hr, h3 i (by rw [← (wf.hres2 hr).1]; exact hi)]
    · rw [if_neg hr, if_neg hr]
  refine ⟨h1, h2, h3, ?_⟩
  intro i hi
  unfold encS2
  by_cases hN : t.norm2 = true
  · rw [if_pos hN, if_pos hN]; exact scaled_congr h4 hi
  · rw [if_neg hN, if_neg hN]; exact h4 i hi

/-- The function of a decoder depends on `n` and `nz` cells. -/
theorem decS_local (d : Dec) (n nz : Nat) (wf : d.WF n nz) (hl : d.Local) (p : DParams) {x y z w : Nat → ℝ}
    (h : ∀ i, i < n → x i = y i) (hw : ∀ i, i < nz → z i = w i) :
    ∀ i, i < d.e.m.dout → decS d p x z i = decS d p y w i := by
  have h1 : ∀ u, u < d.dim * d.nh * d.vd → attD d p x u = attD d p y u := by
    intro u hu
    obtain ⟨i, h', c, hi, hh, hc, rfl⟩ := multi_cell hu
    unfold attD
    rw [multiAttn_at d.masked d.dim _ _ _ hh hc, multiAttn_at d.masked d.dim _ _ _ hh hc]
    exact attn_local hi hc
      (fun u hu => hl.q h' hh _ _ _ (by rw [(wf.hq h' hh).1]; exact h) u (by rw [(wf.hq h' hh).2]; exact hu))
      (fun u hu => hl.k h' hh _ _ _ (by rw [(wf.hk h' hh).1]; exact h) u (by rw [(wf.hk h' hh).2]; exact hu))
      (fun u hu => hl.v h' hh _ _ _ (by rw [(wf.hv h' hh).1]; exact h) u (by rw [(wf.hv h' hh).2]; exact hu))
  have h2 : ∀ i, i < d.lin.dout → r1D d p x i = r1D d p y i := by
    intro i hi
    have : d.lin.f p.lin (attD d p x) i = d.lin.f p.lin (attD d p y) i :=
      hl.lin _ _ _ (fun u hu => h1 u (by rw [← wf.hin, ← wf.hlin]; exact hu)) i hi
    unfold r1D
    rw [this]
    by_cases hr : d.res = true
    · rw [if_pos hr, if_pos hr, h i (lt_of_lt_of_le hi (wf.hres hr).1)]
    · rw [if_neg hr, if_neg hr]
  refine (encS2_local d.e d.lin.dout nz wf.he hl.e p.e ?_ hw).2.2.2
  intro i hi
  unfold n1D
  by_cases hN : d.norm = true
  · rw [if_pos hN, if_pos hN]; exact scaled_congr h2 hi
  · rw [if_neg hN, if_neg hN]; exact h2 i hi

/-- **C127** (forward pass; partial: one head and equal key and value sizes). A
decoder with zeroed buffers computes attention over the input from below, a
linear map with the residual connection and normalisation its flags ask for,
and then the encoder inside it with queries and keys from the outputs of the
encoders.

Full statement: the same for every number of heads
(`C127_heads_refuted`) and every key size (refuted by C32). -/
theorem C127_forward_partial (d : Dec) (x z : Arr ℝ) (n nz : Nat) (wf : d.WF n nz) (fr : d.Fresh) (one : d.nh = 1)
    (hl : d.Local) (hn : n ≤ x.len) (hnz : nz ≤ z.len) :
    ∃ d1, d.ff x z nz = some d1 ∧ d1.e.m.dout = d.e.m.dout ∧ d.e.m.dout ≤ d1.output.len ∧
      ∀ i, i < d.e.m.dout → d1.output.get i = decS d d.params x.get z.get i := by
  have e1 := decHeads_run x d.nh d.hd (fun h hh => by rw [(wf.hq h hh).1]; exact hn)
    (fun h hh => by rw [(wf.hk h hh).1]; exact hn) (fun h hh => by rw [(wf.hv h hh).1]; exact hn)
  have hqf : ∀ h, h < d.nh → (d.hd.fed d.nh x.get).q h = (d.hd.q h).fed x.get := fun h hh => if_pos hh
  have hkf : ∀ h, h < d.nh → (d.hd.fed d.nh x.get).k h = (d.hd.k h).fed x.get := fun h hh => if_pos hh
  have hvf : ∀ h, h < d.nh → (d.hd.fed d.nh x.get).v h = (d.hd.v h).fed x.get := fun h hh => if_pos hh
  have hdc : d.nh * d.dim * d.vd = d.dim * d.nh * d.vd := by ring
  have hdd : d.nh * d.dim * d.dim = d.dim * d.dim := by rw [one, Nat.one_mul]
  obtain ⟨sc, so, at_, e2, l1, l2l, l3, hat, -⟩ := multi_run d.masked d.dim d.nh d.vd
    (fun h => ((d.hd.fed d.nh x.get).q h).out) (fun h => ((d.hd.fed d.nh x.get).k h).out)
    (fun h => ((d.hd.fed d.nh x.get).v h).out) d.score d.soft d.att
    (fun h hh => by rw [hqf h hh]; exact (wf.hq h hh).2.ge)
    (fun h hh => by rw [hkf h hh]; exact (wf.hk h hh).2.ge)
    (fun h hh => by rw [hvf h hh, Nat.mul_comm]; exact (wf.hv h hh).2.ge)
    (by rw [wf.hscore, hdd]) (by rw [wf.hsoft, hdd]) (by rw [wf.hatt, wf.hin, hdc]) (by rw [hdd]; exact fr.soft)
    (by rw [hdc, ← wf.hin]; exact fr.att)
  have hatS : ∀ u, u < d.dim * d.nh * d.vd → at_.get u = attD d d.params x.get u := by
    intro u hu
    rw [hat u hu]
    obtain ⟨i, h, c, hi, hh, hc, rfl⟩ := multi_cell hu
    unfold attD
    rw [multiAttn_at _ _ _ _ _ hh hc, multiAttn_at _ _ _ _ _ hh hc, hqf h hh, hkf h hh, hvf h hh]
    rfl
  have e3 : d.lin.ff at_ = some (d.lin.fed at_.get) := Sub.ff_eq _ _ (by rw [wf.hlin, l3, wf.hatt])
  have hlinv : ∀ i, i < d.lin.dout → (d.lin.fed at_.get).out.get i = d.lin.f d.params.lin (attD d d.params x.get) i := by
    intro i hi
    exact hl.lin _ _ _ (fun u hu => hatS u (by rw [← wf.hin, ← wf.hlin]; exact hu)) i hi
  obtain ⟨r1, e4, l4, hr1⟩ := residual_run d.res (d.lin.fed at_.get).dout (d.lin.fed at_.get).dout x
    (d.lin.fed at_.get).out d.r1 (d.lin.fed at_.get).dout (fun _ => rfl)
    (fun h => le_trans (wf.hres h).1 hn) (fun _ => le_refl _) (fun h => (wf.hres h).2.ge)
  have hav : ∀ i, i < d.lin.dout → (if d.res then r1 else (d.lin.fed at_.get).out).get i = r1D d d.params x.get i := by
    intro i hi
    unfold r1D
    by_cases hr : d.res = true
    · rw [if_pos hr, if_pos hr, hr1 hr i hi, hlinv i hi]
    · rw [if_neg hr, if_neg hr, hlinv i hi]
  have hal : d.lin.dout ≤ (if d.res then r1 else (d.lin.fed at_.get).out).len := by
    by_cases hr : d.res = true
    · rw [if_pos hr, l4]; exact (wf.hres hr).2.ge
    · rw [if_neg hr]; exact le_refl _
  obtain ⟨L, e5, hL, hLo, hLn⟩ := normIf_run d.norm d.nl2 d.l2 0 (d.lin.fed at_.get).dout
    (if d.res then r1 else (d.lin.fed at_.get).out) (fun h => by rw [wf.hnl2, if_pos h]; omega) (fun _ => hal)
    (fun h => (wf.hnorm h).2.ge)
  have hbv : ∀ i, i < d.lin.dout → (if d.norm then (L 0).out else if d.res then r1 else
      (d.lin.fed at_.get).out).get i = n1D d d.params x.get i := by
    intro i hi
    unfold n1D
    by_cases hN : d.norm = true
    · rw [if_pos hN, if_pos hN, (hLn hN).2 i hi]
      exact scaled_congr hav hi
    · rw [if_neg hN, if_neg hN]
      exact hav i hi
  have hbl : d.lin.dout ≤ (if d.norm then (L 0).out else if d.res then r1 else (d.lin.fed at_.get).out).len := by
    by_cases hN : d.norm = true
    · rw [if_pos hN, (hL 0).2.2.2.2, (wf.hnorm hN).2]
    · rw [if_neg hN]; exact hal
  have hsz : (if d.norm then (L 0).dim else (d.lin.fed at_.get).dout) = d.lin.dout := by
    by_cases hN : d.norm = true
    · rw [if_pos hN, (hL 0).1, (wf.hnorm hN).1]
    · rw [if_neg hN]; rfl
  obtain ⟨e', e6, F⟩ := ff2_run d.e (if d.norm then (L 0).out else if d.res then r1 else (d.lin.fed at_.get).out) z
    d.lin.dout nz wf.he fr.e hbl hnz
    (fun y hy k hk => hl.e.lin _ _ _ hy k hk) (fun y hy k hk => hl.e.m _ _ _ hy k hk)
  refine ⟨{ d with hd := d.hd.fed d.nh x.get, lin := d.lin.fed at_.get, l2 := L, score := sc, soft := so, att := at_,
                   r1 := r1, e := e' }, ?_, ?_, F.outl, ?_⟩
  · unfold Dec.ff
    refine (bind_some_of e1).trans ?_
    rw [wf.kv]
    refine (bind_some_of e2).trans ?_
    refine (bind_some_of e3).trans ?_
    refine (bind_some_of e4).trans ?_
    refine (bind_some_of e5).trans ?_
    dsimp only
    rw [hsz]
    exact (bind_some_of e6).trans rfl
  · dsimp only
    rw [F.mv]
    rfl
  · intro i hi
    have := F.outv i hi
    refine this.trans ?_
    exact (encS2_local d.e d.lin.dout nz wf.he hl.e d.e.params hbv (fun _ _ => rfl)).2.2.2 i hi

/-! ### More than one head -/

/-- Rounds of a loop that ended have run. -/
theorem loop_step {σ : Type} (P : Nat → σ → Prop) {n : Nat} {f : Nat → σ → Option σ} {s r : σ} (h : loop n f s = some r)
    (h0 : P 0 s) (hs : ∀ i, i < n → ∀ s s', P i s → f i s = some s' → P (i + 1) s') :
    P n r ∧ ∀ i, i < n → ∃ s s', P i s ∧ f i s = some s' := by
  induction n generalizing r with
  | zero =>
    cases h
    exact ⟨h0, fun i hi => by omega⟩
  | succ n ih =>
    unfold loop at h
    rw [Option.bind_eq_bind, Option.bind_eq_some_iff] at h
    obtain ⟨s1, h1, h2⟩ := h
    obtain ⟨p1, all⟩ := ih h1 (fun i hi => hs i (by omega))
    refine ⟨hs n (by omega) _ _ p1 h2, fun i hi => ?_⟩
    by_cases hi' : i < n
    · exact all i hi'
    · obtain rfl : i = n := by omega
      exact ⟨s1, r, p1, h2⟩

/-- Self attention writes the first cell of the scores. -/
theorem ff_score_pos (masked : Bool) (dim k v : Nat) (q key value : Arr ℝ) (st r : Arr ℝ × Arr ℝ × Arr ℝ) (hd : 0 < dim)
    (h : Attention.ff masked dim k v q key value st = some r) : 0 < st.1.len := by
  unfold Attention.ff at h
  rw [Option.bind_eq_bind, Option.bind_eq_some_iff] at h
  obtain ⟨s, h1, -⟩ := h
  unfold ffScores at h1
  obtain ⟨-, all⟩ := loop_step (fun i s => i = 0 → s = (st.1, st.2.1)) h1 (fun _ => rfl) (fun i _ _ _ _ _ h => by omega)
  obtain ⟨s0, s1, e0, h2⟩ := all 0 hd
  rw [e0 rfl] at h2
  rw [Option.bind_eq_bind, Option.bind_eq_some_iff] at h2
  obtain ⟨sc, h3, -⟩ := h2
  obtain ⟨-, all⟩ := loop_step (fun i s => i = 0 → s = st.1) h3 (fun _ => rfl) (fun i _ _ _ _ _ h => by omega)
  obtain ⟨s0, s1, e0, h4⟩ := all 0 hd
  rw [e0 rfl, Option.bind_eq_bind, Option.bind_eq_some_iff] at h4
  obtain ⟨w, -, h5⟩ := h4
  unfold Arr.write at h5
  split at h5
  · omega
  · cases h5

/-- With two or more heads, buffers of `dim*dim` scores are too small. -/
theorem multi_small (masked : Bool) (dim n k v : Nat) (Q K V : Nat → Arr ℝ) (st : Arr ℝ × Arr ℝ × Arr ℝ) (hd : 0 < dim)
    (hn : 2 ≤ n) (hs : st.1.len = dim * dim) : multiFF masked dim n k v Q K V st = none := by
  unfold multiFF
  rw [Option.bind_eq_bind, Option.bind_eq_none_iff]
  intro r hr
  exfalso
  obtain ⟨-, all⟩ := loop_step (fun _ (s : Arr ℝ × Arr ℝ × Arr ℝ) => s.1.len = dim * dim) hr hs
    (by
      intro i _ s s' h1 h2
      rw [Option.bind_eq_some_iff] at h2
      obtain ⟨w, -, h3⟩ := h2
      cases h3
      exact h1)
  obtain ⟨s, s', h1, h2⟩ := all 1 (by omega)
  rw [Option.bind_eq_some_iff] at h2
  obtain ⟨w, h3, -⟩ := h2
  have := ff_score_pos _ _ _ _ _ _ _ _ _ hd h3
  rw [Arr.view_len, h1, Nat.one_mul, Nat.sub_self] at this
  omega

/-- What `transformer_decoder_layer` returns. -/
theorem make_dec (junk : Nat → L2) (inputDim leftDim nh1 nh2 : Nat) (res1 norm1 res2 norm2 res3 norm3 masked1 masked2 : Bool)
    (encDim : Nat) (m lin1 lin2 : Sub) (hd : Heads) (l2 : Option (Nat → L2)) (kd vd kd2 vd2 : Nat) (d : Dec)
    (h : Dec.make junk inputDim leftDim nh1 nh2 res1 norm1 res2 norm2 res3 norm3 masked1 masked2 encDim m lin1 lin2 hd l2 kd
      vd kd2 vd2 = some d) :
    d.nh = nh1 ∧ d.fcls = none ∧ 0 < d.dim ∧ d.score.len = d.dim * d.dim ∧ ∃ e, d.e = e ∧
      Enc.make junk (hd.drop nh1) m lin2 (l2At junk l2 (if norm1 then 1 else 0)) encDim nh2 res2 norm2 res3 norm3
        masked2 kd2 vd2 = some e := by
  unfold Dec.make at h
  split at h
  · cases h
  · rename_i h1
    split at h
    · cases h
    · split at h
      · cases h
      · rename_i h3
        rw [Option.bind_eq_bind, Option.bind_eq_some_iff] at h
        obtain ⟨e, he, h4⟩ := h
        cases h4
        refine ⟨rfl, rfl, ?_, rfl, e, rfl, he⟩
        have hpos : 0 < inputDim := by omega
        have hdvd : nh1 * vd ∣ inputDim := Nat.dvd_of_mod_eq_zero (by simpa using h3)
        exact Nat.div_pos (Nat.le_of_dvd hpos hdvd) (Nat.pos_of_dvd_of_pos hdvd hpos)

/-- **C127** (refuted for two or more heads). The forward pass of every decoder
that `transformer_decoder_layer` built with two or more heads is undefined, for
all inputs: the buffers of the scores have room for one head, and the second
head writes past their end. -/
theorem C127_heads_refuted (junk : Nat → L2) (inputDim leftDim nh1 nh2 : Nat)
    (res1 norm1 res2 norm2 res3 norm3 masked1 masked2 : Bool)
    (encDim : Nat) (m lin1 lin2 : Sub) (hd : Heads) (l2 : Option (Nat → L2)) (kd vd kd2 vd2 : Nat) (d : Dec)
    (h : Dec.make junk inputDim leftDim nh1 nh2 res1 norm1 res2 norm2 res3 norm3 masked1 masked2 encDim m lin1 lin2 hd l2 kd
      vd kd2 vd2 = some d) (h2 : 2 ≤ nh1) (x z : Arr ℝ) (nz : Nat) : d.ff x z nz = none := by
  obtain ⟨e1, -, hd0, hs, -⟩ := make_dec _ _ _ _ _ _ _ _ _ _ _ _ _ _ _ _ _ _ _ _ _ _ _ _ h
  unfold Dec.ff
  rw [Option.bind_eq_bind, Option.bind_eq_none_iff]
  intro hd' _
  rw [multi_small _ _ _ _ _ _ _ _ _ hd0 (by omega) hs]
  rfl

/-- The forward pass does not assign `fcls`. -/
theorem Dec.ff_fcls {d d1 : Dec} {x z : Arr ℝ} {nz : Nat} (h : d.ff x z nz = some d1) : d1.fcls = d.fcls := by
  unfold Dec.ff at h
  simp only [Option.bind_eq_bind, Option.bind_eq_some_iff] at h
  obtain ⟨_, -, _, -, _, -, _, -, _, -, _, -, h⟩ := h
  cases h
  rfl

/-- The backward pass needs `fcls`. -/
theorem Dec.bp_none {d : Dec} (h : d.fcls = none) (x z : Arr ℝ) (n nz : Nat) (e ee : Arr ℝ) : d.bp x z n nz e ee = none := by
  unfold Dec.bp
  simp only [h, Option.bind_eq_bind, Option.bind_none, Option.bind_fun_none]

/-- Decoders a program can have: built by `transformer_decoder_layer`, which
`copy_transformer_decoder` and `load_transformer_decoder` also call, then any
number of forward passes. -/
inductive Dec.Reach : Dec → Prop
  | make {junk inputDim leftDim nh1 nh2 res1 norm1 res2 norm2 res3 norm3 masked1 masked2 encDim m lin1 lin2 hd l2 kd vd kd2 vd2 d}
      (h : Dec.make junk inputDim leftDim nh1 nh2 res1 norm1 res2 norm2 res3 norm3 masked1 masked2 encDim m lin1 lin2 hd l2 kd
        vd kd2 vd2 = some d) : Dec.Reach d
  | ff {d d1 x z nz} (h : Dec.Reach d) (hf : d.ff x z nz = some d1) : Dec.Reach d1

/-- **C127** (backward pass refuted). The backward pass of a decoder is undefined
for all inputs and errors, whatever forward passes came before: it returns, and
with the residual connection adds to, a buffer of a layer that no decoder has. -/
theorem C127_backward_refuted (d : Dec) (hr : d.Reach) (x z : Arr ℝ) (n nz : Nat) (e ee : Arr ℝ) :
    d.bp x z n nz e ee = none := by
  refine Dec.bp_none ?_ x z n nz e ee
  induction hr with
  | make h => exact (make_dec _ _ _ _ _ _ _ _ _ _ _ _ _ _ _ _ _ _ _ _ _ _ _ _ h).2.1
  | ff _ hf ih => rw [Dec.ff_fcls hf, ih]

/-- **C127** (construction refuted). A decoder with a normalisation after the
first attention only cannot be built: the constructor passes the rest of the
list of normalisation layers on, which is not null, and the constructor of the
encoder inside exits when it is given a list it has no use for. -/
theorem C127_single_norm_refuted (junk : Nat → L2) (inputDim leftDim nh1 nh2 : Nat) (res1 res2 res3 masked1 masked2 : Bool)
    (encDim : Nat) (m lin1 lin2 : Sub) (hd : Heads) (l2 : Option (Nat → L2)) (kd vd kd2 vd2 : Nat) :
    Dec.make junk inputDim leftDim nh1 nh2 res1 true res2 false res3 false masked1 masked2 encDim m lin1 lin2 hd l2 kd
      vd kd2 vd2 = none := by
  have he : Enc.make junk (hd.drop nh1) m lin2 (l2At junk l2 (if true then 1 else 0)) encDim nh2 res2 false res3 false
        masked2 kd2 vd2 = none := by
    unfold Enc.make
    rw [if_neg (by simp [l2At]), if_pos (by simp [l2At])]
  unfold Dec.make
  rw [he]
  split
  · rfl
  · split
    · rfl
    · split <;> rfl

end LLab.Transf
