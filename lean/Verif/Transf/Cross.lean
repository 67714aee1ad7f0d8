import Verif.Transf.EncoderBack

/-!
The encoder inside a decoder (`/repo/src/transformer_decoder.c`), which reads
two inputs: queries and keys come from the encoders of the transformer, values
from below. Model, specification and forward pass; property C126.
-/

namespace LLab.Transf

open Finset LLab.Attention LLab.Softmax

/-! ### Model -/

/-- The body of the loop over the heads of `wrapped_encoder_transformer_decoder_ff`
(`/repo/src/transformer_decoder.c` 1043-1051): `x` is `inputs1`, `z` is `inputs2`. -/
def headFF2 (x z : Arr ℝ) (n nz h : Nat) (hd : Heads) : Option Heads :=
  if nz ≠ (hd.q h).din ∨ nz ≠ (hd.k h).din ∨ n ≠ (hd.v h).din then none
  else do
    let q ← (hd.q h).ff z
    let k ← (hd.k h).ff z
    let v ← (hd.v h).ff x
    some ⟨Function.update hd.q h q, Function.update hd.k h k, Function.update hd.v h v⟩

/-- `wrapped_encoder_transformer_decoder_ff(inputs1, inputs2, t, input_dimension2, input_dimension1)`
(`/repo/src/transformer_decoder.c` 1040-1137), merged as in `Enc.ff`. -/
noncomputable def Enc.ff2 (x z : Arr ℝ) (t : Enc) (nz n : Nat) : Option Enc := do
  let hd ← loop t.nh (headFF2 x z n nz) t.hd
  let at_ ← multiFF t.masked t.dim t.nh t.kd t.vd (fun h => (hd.q h).out) (fun h => (hd.k h).out)
    (fun h => (hd.v h).out) (t.score, t.soft, t.att)
  let lin ← t.lin.ff at_.2.2
  let r1 ← residual t.res1 lin.dout n x lin.out t.r1 lin.dout
  let a := if t.res1 then r1 else lin.out
  let l2 ← normIf t.norm1 t.nl2 t.l2 0 (if t.res1 then lin.dout else (t.l2 0).dim) a
  let b := if t.norm1 then (l2 0).out else a
  let m ← t.m.ff b
  let r2 ← residual t.res2 lin.dout m.dout b m.out t.r2
    (if t.res1 then m.dout else if t.norm1 then (l2 0).dim else lin.dout)
  let c := if t.res2 then r2 else m.out
  let l2 ← normIf t.norm2 t.nl2 l2 (if t.norm1 then 1 else 0)
    (if t.res1 && t.norm1 && t.res2 then lin.dout else m.dout) c
  some { t with hd := hd, lin := lin, m := m, l2 := l2, score := at_.1, soft := at_.2.1, att := at_.2.2,
                r1 := r1, r2 := r2 }

/-- State of the loop over the heads in the backward pass: the networks, the
error `temp` of the input from below, `encoder_error`, the three error arrays
and the three running offsets. -/
structure HState2 where
  hd : Heads
  (acc ee qe ke ve : Arr ℝ)
  (sq sk sv : Nat)

/-- The body of the loop over the heads of `wrapped_encoder_transformer_decoder_bp`
(`/repo/src/transformer_decoder.c` 1296-1312). -/
noncomputable def headBP2 (x z : Arr ℝ) (n nz h : Nat) (s : HState2) : Option HState2 := do
  let rv ← (s.hd.v h).bp x (s.ve.view s.sv)
  let acc ← addHead h s.acc rv.2.1 n
  let rk ← (s.hd.k h).bp z (s.ke.view s.sk)
  let ee ← Vec.zip1DInPlace (· + ·) s.ee rk.2.1 nz
  let rq ← (s.hd.q h).bp z (s.qe.view s.sq)
  let ee ← Vec.zip1DInPlace (· + ·) ee rq.2.1 nz
  some ⟨⟨Function.update s.hd.q h rq.1, Function.update s.hd.k h rk.1, Function.update s.hd.v h rv.1⟩, acc, ee,
    s.qe.splice s.sq rq.2.2, s.ke.splice s.sk rk.2.2, s.ve.splice s.sv rv.2.2,
    s.sq + (s.hd.q h).dout, s.sk + (s.hd.k h).dout, s.sv + (s.hd.v h).dout⟩

/-- `wrapped_encoder_transformer_decoder_bp(inputs1, inputs2, t, input_dimension2, input_dimension1, output_error,
encoder_error)` (`/repo/src/transformer_decoder.c` 1270-1415), merged as in
`Enc.bp`: the encoder, the error of the input from below and `encoder_error`,
to which the errors of the queries and keys have been added. -/
noncomputable def Enc.bp2 (x z : Arr ℝ) (t : Enc) (nz n : Nat) (e ee : Arr ℝ) : Option (Enc × Arr ℝ × Arr ℝ) := do
  let a := if t.res1 then t.r1 else t.lin.out
  let b := if t.norm1 then (t.l2 0).out else a
  let c := if t.res2 then t.r2 else t.m.out
  let l2 ← normBPIf t.norm2 t.nl2 t.l2 (t.nl2 - 1) c e
  let rm ← t.m.bp b (if t.norm2 then (l2 (t.nl2 - 1)).err else e)
  let l2 := leave t.norm2 l2 (t.nl2 - 1) rm.2.2
  let temp ← addIf t.res2 rm.2.1 rm.2.2 (if t.norm2 then (l2 (t.nl2 - 1)).dim else t.lin.dout)
  let l2 ← normBPIf t.norm1 t.nl2 l2 0 a temp
  let rl ← t.lin.bp t.att (if t.norm1 then (l2 0).err else temp)
  let l2 := leave t.norm1 l2 0 rl.2.2
  let er ← multiBP t.masked t.dim t.nh t.kd t.vd (fun h => (t.hd.q h).out) (fun h => (t.hd.k h).out)
    (fun h => (t.hd.v h).out) (fun h => (t.hd.q h).dout) (fun h => (t.hd.k h).dout) (fun h => (t.hd.v h).dout)
    t.soft rl.2.1 t.er
  let s ← loop t.nh (headBP2 x z n nz) ⟨t.hd, ⟨0, fun _ => 0⟩, ee, er.queryErr, er.keyErr, er.valueErr, 0, 0, 0⟩
  let ie ← addIf t.res1 s.acc rl.2.2 n
  some ({ t with hd := s.hd, m := rm.1, lin := rl.1, l2 := l2,
                 er := ⟨s.qe, s.ke, s.ve, er.scoreErr, er.softErr⟩ }, ie, s.ee)

/-! ### Specification -/

section Spec

variable (t : Enc) (p : Params) (x z : Nat → ℝ)

/-- Attention with queries and keys projected from `z` and values from `x`. -/
noncomputable def attS2 : Nat → ℝ :=
  multiAttn t.masked t.dim t.nh t.vd (fun h => (t.hd.q h).f (p.q h) z) (fun h => (t.hd.k h).f (p.k h) z)
    (fun h => (t.hd.v h).f (p.v h) x)

/-- After the linear map and the first residual connection, from `x`. -/
noncomputable def r1S2 : Nat → ℝ := fun i =>
  if t.res1 then x i + t.lin.f p.lin (attS2 t p x z) i else t.lin.f p.lin (attS2 t p x z) i

/-- After the first normalisation. -/
noncomputable def n1S2 : Nat → ℝ := if t.norm1 then scaled t.lin.dout p.g1 (r1S2 t p x z) else r1S2 t p x z

/-- After the network and the second residual connection. -/
noncomputable def r2S2 : Nat → ℝ := fun i =>
  if t.res2 then n1S2 t p x z i + t.m.f p.m (n1S2 t p x z) i else t.m.f p.m (n1S2 t p x z) i

/-- The function of the two inputs. -/
noncomputable def encS2 : Nat → ℝ := if t.norm2 then scaled t.m.dout p.g2 (r2S2 t p x z) else r2S2 t p x z

end Spec

/-- Sizes of a well-formed encoder inside a decoder, with `n` inputs from below
and `nz` from the encoders: as `Enc.WF`, but for the inputs of the heads. -/
structure Enc.WF2 (t : Enc) (n nz : Nat) : Prop where
  pos : 0 < t.nh
  kv : t.kd = t.vd
  hq : ∀ h, h < t.nh → (t.hd.q h).din = nz ∧ (t.hd.q h).dout = t.dim * t.vd
  hk : ∀ h, h < t.nh → (t.hd.k h).din = nz ∧ (t.hd.k h).dout = t.dim * t.vd
  hv : ∀ h, h < t.nh → (t.hd.v h).din = n ∧ (t.hd.v h).dout = t.dim * t.vd
  hin : t.inputDim = t.dim * t.nh * t.vd
  hlin : t.lin.din = t.inputDim
  hm : t.m.din = t.lin.dout
  hres1 : t.res1 = true → t.lin.dout = n ∧ t.r1.len = t.lin.dout
  hres2 : t.res2 = true → t.m.dout = t.lin.dout ∧ t.r2.len = t.m.dout
  hnl2 : t.nl2 = (if t.norm1 then 1 else 0) + if t.norm2 then 1 else 0
  hnorm1 : t.norm1 = true → (t.l2 0).dim = t.lin.dout ∧ (t.l2 0).out.len = t.lin.dout ∧
    (t.l2 0).err.len = t.lin.dout
  hnorm2 : t.norm2 = true → (t.l2 (t.nl2 - 1)).dim = t.m.dout ∧ (t.l2 (t.nl2 - 1)).out.len = t.m.dout ∧
    (t.l2 (t.nl2 - 1)).err.len = t.m.dout
  hscore : t.score.len = t.nh * t.dim * t.dim
  hsoft : t.soft.len = t.nh * t.dim * t.dim
  hatt : t.att.len = t.inputDim
  hqe : t.er.queryErr.len = t.nh * t.dim * t.vd
  hke : t.er.keyErr.len = t.nh * t.dim * t.vd
  hve : t.er.valueErr.len = t.nh * t.dim * t.vd
  hse : t.er.scoreErr.len = t.nh * t.dim * t.dim
  hsoe : t.er.softErr.len = t.nh * t.dim * t.dim

/-! ### Forward pass -/

/-- The heads after a forward pass on `x` and `z`. -/
def Heads.fed2 (hd : Heads) (nh : Nat) (x z : Nat → ℝ) : Heads :=
  ⟨fun h => if h < nh then (hd.q h).fed z else hd.q h, fun h => if h < nh then (hd.k h).fed z else hd.k h,
    fun h => if h < nh then (hd.v h).fed x else hd.v h⟩

theorem headsFF2_run (x z : Arr ℝ) (n nz nh : Nat) (hd : Heads) (hn : n ≤ x.len) (hnz : nz ≤ z.len)
    (hq : ∀ h, h < nh → (hd.q h).din = nz) (hk : ∀ h, h < nh → (hd.k h).din = nz)
    (hv : ∀ h, h < nh → (hd.v h).din = n) : loop nh (headFF2 x z n nz) hd = some (hd.fed2 nh x.get z.get) := by
  obtain ⟨s, e, rfl⟩ := loop_inv (n := nh) (s := hd) (f := headFF2 x z n nz) (fun m s => s = hd.fed2 m x.get z.get)
    (by simp [Heads.fed2])
    (by
      rintro m hm s rfl
      have e1 : (hd.fed2 m x.get z.get).q m = hd.q m := if_neg (by omega)
      have e2 : (hd.fed2 m x.get z.get).k m = hd.k m := if_neg (by omega)
      have e3 : (hd.fed2 m x.get z.get).v m = hd.v m := if_neg (by omega)
      refine ⟨_, ?_, rfl⟩
      unfold headFF2
      rw [e1, e2, e3, hq m hm, hk m hm, hv m hm, if_neg (by simp), Sub.ff_eq _ _ (by rw [hq m hm]; exact hnz),
        Sub.ff_eq _ _ (by rw [hk m hm]; exact hnz), Sub.ff_eq _ _ (by rw [hv m hm]; exact hn)]
      simp only [Option.bind_eq_bind, Option.bind_some]
      unfold Heads.fed2
      dsimp only
      rw [upd_ite hd.q (fun h => (hd.q h).fed z.get), upd_ite hd.k (fun h => (hd.k h).fed z.get),
        upd_ite hd.v (fun h => (hd.v h).fed x.get)])
  exact e

/-- What is known about the encoder `t1` after the forward pass of `t` on `x` and `z`. -/
structure Fwd2 (t : Enc) (x z : Arr ℝ) (n nz : Nat) (t1 : Enc) : Prop where
  wf : t1.WF2 n nz
  stat : ∃ (lin m : Sub) (l2 : Nat → L2) (score soft att r1 r2 : Arr ℝ),
    t1 = { t with hd := t.hd.fed2 t.nh x.get z.get, lin := lin, m := m, l2 := l2, score := score, soft := soft,
                  att := att, r1 := r1, r2 := r2 }
  attv : ∀ u, u < t.dim * t.nh * t.vd → t1.att.get u = attS2 t t.params x.get z.get u
  attl : t1.att.len = t.att.len
  softl : t1.soft.len = t.soft.len
  softv : ∀ h, h < t.nh → ∀ a, a < t.dim → ∀ u, u < t.dim → t1.soft.get (h * t.dim * t.dim + (a * t.dim + u)) =
    if u < vis t.masked t.dim a then smax (vis t.masked t.dim a)
      (score t.vd ((t.hd.q h).f (t.hd.q h).θ z.get) ((t.hd.k h).f (t.hd.k h).θ z.get) a) u else 0
  linv : t1.lin = t.lin.fed t1.att.get
  av : ∀ i, i < t.lin.dout → (if t.res1 then t1.r1 else t1.lin.out).get i = r1S2 t t.params x.get z.get i
  al : t.lin.dout ≤ (if t.res1 then t1.r1 else t1.lin.out).len
  bv : ∀ i, i < t.lin.dout →
    (if t.norm1 then (t1.l2 0).out else if t.res1 then t1.r1 else t1.lin.out).get i = n1S2 t t.params x.get z.get i
  bl : t.lin.dout ≤ (if t.norm1 then (t1.l2 0).out else if t.res1 then t1.r1 else t1.lin.out).len
  mv : t1.m = t.m.fed (if t.norm1 then (t1.l2 0).out else if t.res1 then t1.r1 else t1.lin.out).get
  cv : ∀ i, i < t.m.dout → (if t.res2 then t1.r2 else t1.m.out).get i = r2S2 t t.params x.get z.get i
  cl : t.m.dout ≤ (if t.res2 then t1.r2 else t1.m.out).len
  outv : ∀ i, i < t.m.dout → t1.output.get i = encS2 t t.params x.get z.get i
  outl : t.m.dout ≤ t1.output.len
  l2v : ∀ i, (t1.l2 i).dim = (t.l2 i).dim ∧ (t1.l2 i).g = (t.l2 i).g ∧ (t1.l2 i).dg = (t.l2 i).dg ∧
    (t1.l2 i).err = (t.l2 i).err
  norm1 : t.norm1 = true → (t1.l2 0).norm = Real.sqrt (∑ j ∈ range t.lin.dout, r1S2 t t.params x.get z.get j ^ 2)
  norm2 : t.norm2 = true →
    (t1.l2 (t.nl2 - 1)).norm = Real.sqrt (∑ j ∈ range t.m.dout, r2S2 t t.params x.get z.get j ^ 2)

theorem ff2_run (t : Enc) (x z : Arr ℝ) (n nz : Nat) (wf : t.WF2 n nz) (fr : t.Fresh) (hn : n ≤ x.len) (hnz : nz ≤ z.len)
    (dlin : ∀ y, (∀ i, i < t.lin.din → y i = attS2 t t.params x.get z.get i) →
      ∀ k, k < t.lin.dout → t.lin.f t.lin.θ y k = t.lin.f t.lin.θ (attS2 t t.params x.get z.get) k)
    (dm : ∀ y, (∀ i, i < t.m.din → y i = n1S2 t t.params x.get z.get i) →
      ∀ k, k < t.m.dout → t.m.f t.m.θ y k = t.m.f t.m.θ (n1S2 t t.params x.get z.get) k) :
    ∃ t1, t.ff2 x z nz n = some t1 ∧ Fwd2 t x z n nz t1 := by
  have e1 := headsFF2_run x z n nz t.nh t.hd hn hnz (fun h hh => (wf.hq h hh).1) (fun h hh => (wf.hk h hh).1)
    (fun h hh => (wf.hv h hh).1)
  have hqf : ∀ h, h < t.nh → (t.hd.fed2 t.nh x.get z.get).q h = (t.hd.q h).fed z.get := fun h hh => if_pos hh
  have hkf : ∀ h, h < t.nh → (t.hd.fed2 t.nh x.get z.get).k h = (t.hd.k h).fed z.get := fun h hh => if_pos hh
  have hvf : ∀ h, h < t.nh → (t.hd.fed2 t.nh x.get z.get).v h = (t.hd.v h).fed x.get := fun h hh => if_pos hh
  have hdc : t.nh * t.dim * t.vd = t.dim * t.nh * t.vd := by ring
  obtain ⟨sc, so, at_, e2, l1, l2l, l3, hat, hsoft⟩ := multi_run t.masked t.dim t.nh t.vd
    (fun h => ((t.hd.fed2 t.nh x.get z.get).q h).out) (fun h => ((t.hd.fed2 t.nh x.get z.get).k h).out)
    (fun h => ((t.hd.fed2 t.nh x.get z.get).v h).out) t.score t.soft t.att
    (fun h hh => by rw [hqf h hh]; exact (wf.hq h hh).2.ge)
    (fun h hh => by rw [hkf h hh]; exact (wf.hk h hh).2.ge)
    (fun h hh => by rw [hvf h hh, Nat.mul_comm]; exact (wf.hv h hh).2.ge)
    wf.hscore.ge wf.hsoft.ge (by rw [wf.hatt, wf.hin, hdc]) fr.soft
    (by rw [hdc, ← wf.hin]; exact fr.att)
  have hatS : ∀ u, u < t.dim * t.nh * t.vd → at_.get u = attS2 t t.params x.get z.get u := by
    intro u hu
    rw [hat u hu]
    obtain ⟨i, h, c, hi, hh, hc, rfl⟩ := multi_cell hu
    unfold attS2
    rw [multiAttn_at _ _ _ _ _ hh hc, multiAttn_at _ _ _ _ _ hh hc, hqf h hh, hkf h hh, hvf h hh]
    rfl
  have e3 : t.lin.ff at_ = some (t.lin.fed at_.get) := Sub.ff_eq _ _ (by rw [wf.hlin, l3, wf.hatt])
  have hlinv : ∀ i, i < t.lin.dout → (t.lin.fed at_.get).out.get i = t.lin.f t.params.lin (attS2 t t.params x.get z.get) i := by
    intro i hi
    exact dlin _ (fun u hu => hatS u (by rw [← wf.hin, ← wf.hlin]; exact hu)) i hi
  obtain ⟨r1, e4, l4, hr1⟩ := residual_run t.res1 (t.lin.fed at_.get).dout n x (t.lin.fed at_.get).out t.r1
    (t.lin.fed at_.get).dout (fun h => (wf.hres1 h).1)
    (fun h => by have := (wf.hres1 h).1; exact le_trans this.le hn)
    (fun _ => le_refl _) (fun h => (wf.hres1 h).2.ge)
  have hav : ∀ i, i < t.lin.dout → (if t.res1 then r1 else (t.lin.fed at_.get).out).get i = r1S2 t t.params x.get z.get i := by
    intro i hi
    unfold r1S2
    by_cases hr : t.res1 = true
    · rw [if_pos hr, if_pos hr, hr1 hr i hi, hlinv i hi]
    · rw [if_neg hr, if_neg hr, hlinv i hi]
  have hal : t.lin.dout ≤ (if t.res1 then r1 else (t.lin.fed at_.get).out).len := by
    by_cases hr : t.res1 = true
    · rw [if_pos hr, l4]; exact (wf.hres1 hr).2.ge
    · rw [if_neg hr]; exact le_refl _
  obtain ⟨L, e5, hL, hLo, hLn⟩ := normIf_run t.norm1 t.nl2 t.l2 0
    (if t.res1 then (t.lin.fed at_.get).dout else (t.l2 0).dim) (if t.res1 then r1 else (t.lin.fed at_.get).out)
    (fun h => by rw [wf.hnl2, if_pos h]; omega)
    (fun h => by
      by_cases hr : t.res1 = true
      · simp only [if_pos hr] at hal ⊢; exact hal
      · simp only [if_neg hr] at hal ⊢; rw [(wf.hnorm1 h).1]; exact hal)
    (fun h => by
      rw [(wf.hnorm1 h).2.1]
      by_cases hr : t.res1 = true
      · rw [if_pos hr]; exact le_refl _
      · rw [if_neg hr, (wf.hnorm1 h).1])
  have hdim1 : t.norm1 = true → (if t.res1 then (t.lin.fed at_.get).dout else (t.l2 0).dim) = t.lin.dout := by
    intro h
    by_cases hr : t.res1 = true
    · rw [if_pos hr]; rfl
    · rw [if_neg hr, (wf.hnorm1 h).1]
  have hbv : ∀ i, i < t.lin.dout → (if t.norm1 then (L 0).out else if t.res1 then r1 else
      (t.lin.fed at_.get).out).get i = n1S2 t t.params x.get z.get i := by
    intro i hi
    unfold n1S2
    by_cases hN : t.norm1 = true
    · rw [if_pos hN, if_pos hN]
      have := (hLn hN).2 i (by rw [hdim1 hN]; exact hi)
      rw [this, hdim1 hN]
      exact scaled_congr hav hi
    · rw [if_neg hN, if_neg hN]
      exact hav i hi
  have hbl : t.lin.dout ≤ (if t.norm1 then (L 0).out else if t.res1 then r1 else (t.lin.fed at_.get).out).len := by
    by_cases hN : t.norm1 = true
    · rw [if_pos hN, (hL 0).2.2.2.2, (wf.hnorm1 hN).2.1]
    · rw [if_neg hN]; exact hal
  set b := (if t.norm1 then (L 0).out else if t.res1 then r1 else (t.lin.fed at_.get).out) with hb
  have e6 : t.m.ff b = some (t.m.fed b.get) := Sub.ff_eq _ _ (by rw [wf.hm]; exact hbl)
  have hmv : ∀ i, i < t.m.dout → (t.m.fed b.get).out.get i = t.m.f t.params.m (n1S2 t t.params x.get z.get) i := by
    intro i hi
    exact dm _ (fun u hu => hbv u (by rw [← wf.hm]; exact hu)) i hi
  have hsz : t.res2 = true →
      (if t.res1 then (t.m.fed b.get).dout else if t.norm1 then (L 0).dim else (t.lin.fed at_.get).dout) = t.m.dout := by
    intro h
    by_cases hr : t.res1 = true
    · rw [if_pos hr]; rfl
    · rw [if_neg hr]
      by_cases hN : t.norm1 = true
      · rw [if_pos hN, (hL 0).1, (wf.hnorm1 hN).1, (wf.hres2 h).1]
      · rw [if_neg hN, (wf.hres2 h).1]; rfl
  obtain ⟨r2, e7, l7, hr2⟩ := residual_run t.res2 (t.lin.fed at_.get).dout (t.m.fed b.get).dout b
    (t.m.fed b.get).out t.r2
    (if t.res1 then (t.m.fed b.get).dout else if t.norm1 then (L 0).dim else (t.lin.fed at_.get).dout)
    (fun h => (wf.hres2 h).1.symm)
    (fun h => by rw [hsz h, (wf.hres2 h).1]; exact hbl)
    (fun h => by rw [hsz h]; exact le_refl _)
    (fun h => by rw [hsz h]; exact (wf.hres2 h).2.ge)
  have hcv : ∀ i, i < t.m.dout → (if t.res2 then r2 else (t.m.fed b.get).out).get i = r2S2 t t.params x.get z.get i := by
    intro i hi
    unfold r2S2
    by_cases hr : t.res2 = true
    · rw [if_pos hr, if_pos hr, hr2 hr i (by rw [hsz hr]; exact hi), hmv i hi,
        hbv i (by rw [← (wf.hres2 hr).1]; exact hi)]
    · rw [if_neg hr, if_neg hr, hmv i hi]
  have hcl : t.m.dout ≤ (if t.res2 then r2 else (t.m.fed b.get).out).len := by
    by_cases hr : t.res2 = true
    · rw [if_pos hr, l7]; exact (wf.hres2 hr).2.ge
    · rw [if_neg hr]; exact le_refl _
  have hlast : t.norm2 = true → (if t.norm1 then 1 else 0) = t.nl2 - 1 ∧ t.nl2 - 1 < t.nl2 := by
    intro h
    rw [wf.hnl2, if_pos h]
    split <;> omega
  have hsz2 : t.norm2 = true →
      (if (t.res1 && t.norm1 && t.res2) = true then (t.lin.fed at_.get).dout else (t.m.fed b.get).dout) = t.m.dout := by
    intro _
    by_cases hr : (t.res1 && t.norm1 && t.res2) = true
    · rw [if_pos hr]
      have : t.res2 = true := by simp at hr; exact hr.2
      exact (wf.hres2 this).1.symm
    · rw [if_neg hr]; rfl
  obtain ⟨M, e8, hM, hMo, hMn⟩ := normIf_run t.norm2 t.nl2 L (if t.norm1 then 1 else 0)
    (if (t.res1 && t.norm1 && t.res2) = true then (t.lin.fed at_.get).dout else (t.m.fed b.get).dout)
    (if t.res2 then r2 else (t.m.fed b.get).out)
    (fun h => by rw [(hlast h).1]; exact (hlast h).2)
    (fun h => by rw [hsz2 h]; exact hcl)
    (fun h => by rw [hsz2 h, (hlast h).1, (hL _).2.2.2.2, (wf.hnorm2 h).2.1])
  have hM0 : t.norm1 = true → M 0 = L 0 := by
    intro h
    refine hMo 0 (Or.inr ?_)
    rw [if_pos h]; omega
  have hb' : (if t.norm1 then (M 0).out else if t.res1 then r1 else (t.lin.fed at_.get).out) = b := by
    rw [hb]
    by_cases hN : t.norm1 = true
    · rw [if_pos hN, if_pos hN, hM0 hN]
    · rw [if_neg hN, if_neg hN]
  refine ⟨{ t with hd := t.hd.fed2 t.nh x.get z.get, lin := t.lin.fed at_.get, m := t.m.fed b.get, l2 := M, score := sc,
                   soft := so, att := at_, r1 := r1, r2 := r2 }, ?_, ?_⟩
  · unfold Enc.ff2
    refine (bind_some_of e1).trans ?_
    rw [wf.kv]
    refine (bind_some_of e2).trans ?_
    refine (bind_some_of e3).trans ?_
    refine (bind_some_of e4).trans ?_
    refine (bind_some_of e5).trans ?_
    refine (bind_some_of e6).trans ?_
    refine (bind_some_of e7).trans ?_
    exact (bind_some_of e8).trans rfl
  · refine ⟨?_, ⟨_, _, _, _, _, _, _, _, rfl⟩, hatS, l3, l2l, ?_, rfl, hav, hal, ?_, ?_, ?_, hcv, hcl, ?_, ?_, ?_, ?_, ?_⟩
    · refine ⟨wf.pos, wf.kv, fun h hh => ?_, fun h hh => ?_, fun h hh => ?_, wf.hin, wf.hlin, wf.hm,
        fun h => ⟨(wf.hres1 h).1, l4.trans (wf.hres1 h).2⟩, fun h => ⟨(wf.hres2 h).1, l7.trans (wf.hres2 h).2⟩, wf.hnl2,
        fun h => ?_, fun h => ?_, l1.trans wf.hscore, l2l.trans wf.hsoft, l3.trans wf.hatt, wf.hqe, wf.hke, wf.hve,
        wf.hse, wf.hsoe⟩
      · dsimp only; rw [hqf h hh]; exact wf.hq h hh
      · dsimp only; rw [hkf h hh]; exact wf.hk h hh
      · dsimp only; rw [hvf h hh]; exact wf.hv h hh
      · dsimp only
        rw [(hM _).1, (hL _).1, (hM _).2.2.2.2, (hL _).2.2.2.2, (hM _).2.2.2.1, (hL _).2.2.2.1]
        exact wf.hnorm1 h
      · dsimp only
        rw [(hM _).1, (hL _).1, (hM _).2.2.2.2, (hL _).2.2.2.2, (hM _).2.2.2.1, (hL _).2.2.2.1]
        exact wf.hnorm2 h
    · intro h hh a ha u hu
      have := hsoft h hh a ha u hu
      rw [hqf h hh, hkf h hh] at this
      exact this
    · dsimp only; rw [hb']; exact hbv
    · dsimp only; rw [hb']; exact hbl
    · dsimp only; rw [hb']
    · intro i hi
      unfold Enc.output encS2
      dsimp only
      by_cases hN : t.norm2 = true
      · rw [if_pos hN, if_pos hN]
        have := (hMn hN).2 i (by rw [hsz2 hN]; exact hi)
        rw [hsz2 hN, (hlast hN).1, (hL _).2.1] at this
        rw [this]
        exact scaled_congr hcv hi
      · rw [if_neg hN, if_neg hN]
        exact hcv i hi
    · unfold Enc.output
      dsimp only
      by_cases hN : t.norm2 = true
      · rw [if_pos hN, (hM _).2.2.2.2, (hL _).2.2.2.2, (wf.hnorm2 hN).2.1]
      · rw [if_neg hN]; exact hcl
    · intro i
      obtain ⟨a1, a2, a3, a4, -⟩ := hM i
      obtain ⟨b1, b2, b3, b4, -⟩ := hL i
      exact ⟨a1.trans b1, a2.trans b2, a3.trans b3, a4.trans b4⟩
    · intro hN
      dsimp only
      rw [hM0 hN, (hLn hN).1, hdim1 hN, sq_congr hav]
    · intro hN
      have := (hMn hN).1
      rw [hsz2 hN, (hlast hN).1] at this
      dsimp only
      rw [this, sq_congr hcv]

end LLab.Transf
