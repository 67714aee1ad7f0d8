import Verif.Transf.Decoder

/-!
The transformer with the encoders of `Encoder` and the decoders of `Decoder`
(C127), and non-vacuity of C126 and C127.
-/

namespace LLab.Transf

open Finset LLab.Attention LLab.Softmax

/-- The functions of the encoders of `Encoder` and the decoders of `Decoder`. -/
noncomputable def trOps : Ops Enc Dec :=
  encOps (fun x z d _ nz => d.ff x z nz) (fun x z d n nz e ee => d.bp x z n nz e ee) Dec.output (fun d => d.e.m.dout)

theorem dec_fwd (d : Dec) (n nz : Nat) (wf : d.WF n nz) (fr : d.Fresh) (one : d.nh = 1) (hl : d.Local) :
    DecFwd trOps d n nz (decS d d.params) :=
  ⟨fun x z hx hz => C127_forward_partial d x z n nz wf fr one hl hx hz,
    fun _ _ _ _ h h' => decS_local d n nz wf hl d.params h h'⟩

/-- **C127** (whole transformer, forward). A transformer of encoders and
decoders whose decoders have one head computes, in its last layer and all the
others, the composition of the functions of its encoders and decoders along its
connections.

Full statement: the same for every number of heads (`C127_heads_refuted`). -/
theorem C127_transformer_forward_partial (t : Tr Enc Dec) (x y : Arr ℝ) (n1 n2 : Nat) (hx : n1 ≤ x.len) (hy : n2 ≤ y.len)
    (we : ∀ i, i < t.nte → (t.te i).WF (width (fun k => (t.te k).m.dout) n1 i) ∧ (t.te i).Fresh ∧ (t.te i).Local)
    (wd : ∀ j, j < t.ntd → (t.td j).WF (width (fun k => (t.td k).e.m.dout) n2 j) (offset trOps t.conn t.te j t.nte) ∧
      (t.td j).Fresh ∧ (t.td j).nh = 1 ∧ (t.td j).Local ∧ (t.left j).len = offset trOps t.conn t.te j t.nte) :
    ∃ t', t.ff trOps x n1 y n2 .all = some t' ∧
      (∀ i, i < t.nte → ∀ u, u < (t.te i).m.dout →
        (t'.te i).output.get u = encVal (fun i => encS (t.te i) (t.te i).params) x.get i u) ∧
      ∀ j, j < t.ntd → ∀ u, u < (t.td j).e.m.dout → (t'.td j).output.get u =
        decVal (fun j => decS (t.td j) (t.td j).params)
          (t.leftOf trOps (encVal (fun i => encS (t.te i) (t.te i).params) x.get)) y.get j u := by
  obtain ⟨t', h, h1, -, h2, -⟩ := C124_forward trOps t x y n1 n2 (fun i => encS (t.te i) (t.te i).params)
    (fun j => decS (t.td j) (t.td j).params) hx hy
    ⟨fun i hi => enc_fwd _ _ _ _ (t.te i) _ (we i hi).1 (we i hi).2.1 (we i hi).2.2,
      fun j hj => dec_fwd (t.td j) _ _ (wd j hj).1 (wd j hj).2.1 (wd j hj).2.2.1 (wd j hj).2.2.2.1,
      fun j hj => (wd j hj).2.2.2.2⟩
  exact ⟨t', h, h1, h2⟩

/-- **C127** (whole transformer, backward, refuted). No transformer with a
decoder can be trained: with `RUN_ALL_TRANSF` and with `RUN_ONLY_DECODER` the
backward pass is undefined, for all inputs and errors. -/
theorem C127_transformer_backward_refuted (t : Tr Enc Dec) (x y e : Arr ℝ) (n1 n2 : Nat) (flag : Flag)
    (hf : flag ≠ .onlyEncoder) (hd : 0 < t.ntd) (hr : (t.td (t.ntd - 1)).Reach) :
    t.bp trOps x n1 y n2 e flag = none := by
  obtain ⟨k, hk⟩ : ∃ k, t.ntd = k + 1 := ⟨t.ntd - 1, by omega⟩
  have h1 : decBack trOps t y n2 k ⟨t.td, t.leftErr, e⟩ = none := by
    unfold decBack
    have : t.ntd - 1 = k := by omega
    rw [this] at hr
    refine Option.bind_eq_none_iff.2 ?_
    intro r h
    have h' := C127_backward_refuted _ hr (if k = 0 then y else trOps.dout (t.td (k - 1))) (t.left k)
      (if k = 0 then n2 else trOps.ddim (t.td (k - 1))) (offset trOps t.conn t.te k t.nte) e (t.leftErr k)
    exact absurd (h'.symm.trans h) (by simp)
  have h2 : decPart trOps t y n2 e flag = none := by
    unfold decPart
    rw [if_pos hf, hk]
    show Option.bind (Option.bind (decBack trOps t y n2 k ⟨t.td, t.leftErr, e⟩) _) _ = none
    rw [h1]
    rfl
  unfold Tr.bp
  rw [h2]
  rfl

/-! ### Non-vacuity -/

/-- The encoder inside a decoder: four cells from below, six from the encoders. -/
noncomputable def cross : Enc :=
  { demo with hd := ⟨fun h => lineNet 6 2 (h + 1), fun h => lineNet 6 2 (h + 2), fun h => lineNet 4 2 (h + 3)⟩ }

theorem cross_wf : cross.WF2 4 6 :=
  ⟨by decide, rfl, fun _ _ => ⟨rfl, rfl⟩, fun _ _ => ⟨rfl, rfl⟩, fun _ _ => ⟨rfl, rfl⟩, rfl, rfl, rfl,
    fun _ => ⟨rfl, rfl⟩, fun _ => ⟨rfl, rfl⟩, rfl, fun _ => ⟨rfl, rfl, rfl⟩, fun _ => ⟨rfl, rfl, rfl⟩, rfl, rfl, rfl,
    rfl, rfl, rfl, rfl, rfl⟩

theorem cross_fresh : cross.Fresh :=
  ⟨fun _ _ => rfl, fun _ _ => rfl, fun _ _ => rfl, fun _ _ => rfl, fun _ _ => rfl, fun _ _ => rfl, fun _ _ => rfl,
    fun _ _ _ _ => rfl⟩

theorem cross_smooth (z : Nat → ℝ) : cross.Smooth2 (fun i => (i : ℝ) + 1) z := by
  have r1 : ∀ i, r1S2 cross cross.params (fun i => (i : ℝ) + 1) z i = (i : ℝ) + 1 := by
    intro i
    show ((i : ℝ) + 1) + (0 : ℝ) * _ = _
    rw [zero_mul, add_zero]
  have r1f : r1S2 cross cross.params (fun i => (i : ℝ) + 1) z = fun i : Nat => (i : ℝ) + 1 := funext r1
  refine ⟨fun _ _ => lineNet_diff _ _ _ (by omega) _, fun _ _ => lineNet_diff _ _ _ (by omega) _,
    fun _ _ => lineNet_diff _ _ _ (by omega) _, fun _ _ => lineNet_diff _ _ _ (by omega) _,
    fun _ _ => lineNet_diff _ _ _ (by omega) _, fun _ _ _ _ _ => rfl, fun _ _ _ _ _ => rfl, fun _ => ⟨0, by decide, ?_⟩,
    fun _ => ⟨0, by decide, ?_⟩⟩
  · rw [r1]; norm_num
  · have : r2S2 cross cross.params (fun i => (i : ℝ) + 1) z 0 = scaled 4 2 (fun i => (i : ℝ) + 1) 0 := by
      show scaled 4 2 (r1S2 cross cross.params (fun i => (i : ℝ) + 1) z) 0 + (0 : ℝ) * _ = _
      rw [zero_mul, add_zero, r1f]
    rw [this]
    unfold scaled
    have := L2Norm.norm_pos (n := 4) (x := fun i : Nat => (i : ℝ) + 1) ⟨0, by omega, by norm_num⟩
    have h2 : (((0 : Nat) : ℝ) + 1) * 2 / Real.sqrt (∑ j ∈ range 4, ((j : ℝ) + 1) ^ 2) > 0 := by positivity
    exact h2.ne'

/-- Non-vacuity of C126: two heads, all connections and normalisations, and an
error of the encoders that already holds what other decoders left. -/
example (e z ee : Nat → ℝ) : ∃ t1 t2 ie ee', cross.ff2 ⟨4, fun i => (i : ℝ) + 1⟩ ⟨6, z⟩ 6 4 = some t1 ∧
    t1.bp2 ⟨4, fun i => (i : ℝ) + 1⟩ ⟨6, z⟩ 6 4 ⟨4, e⟩ ⟨6, ee⟩ = some (t2, ie, ee') := by
  obtain ⟨t1, t2, ie, ee', h1, -, h2, -⟩ := C126_cross_gradient_partial cross ⟨4, fun i => (i : ℝ) + 1⟩ ⟨6, z⟩ 4 6 ⟨4, e⟩
    ⟨6, ee⟩ cross_wf cross_fresh (le_refl _) (le_refl _) (le_refl 4) (le_refl _) (cross_smooth z)
  exact ⟨t1, t2, ie, ee', h1, h2⟩

/-- Normalisation layers of four cells. -/
noncomputable def norms : Nat → L2 := fun i => ⟨4, i + 1, 0, 1, ⟨4, fun _ => 0⟩, ⟨4, fun _ => 0⟩⟩

/-- The heads of a decoder with `k` heads of its own. -/
noncomputable def decHeads (k : Nat) : Heads :=
  ⟨fun h => if h < k then lineNet 4 (4 / k) 1 else lineNet 8 2 h, fun h => if h < k then lineNet 4 (4 / k) 2 else lineNet 8 2 h,
    fun h => if h < k then lineNet 4 (4 / k) 3 else lineNet 4 2 h⟩

/-- A decoder as `transformer_decoder_layer` builds it: `k` heads, all the
connections and normalisations. -/
noncomputable def made (k vd : Nat) : Option Dec :=
  Dec.make (fun _ => ⟨0, 0, 0, 0, ⟨0, fun _ => 0⟩, ⟨0, fun _ => 0⟩⟩) 4 8 k 2 true true true true true true true true 4
    (lineNet 4 4 1) (lineNet 4 4 1) (lineNet 4 4 1) (decHeads k) (some norms) vd vd 1 1

/-- With one head the decoder built meets the hypotheses of C127. -/
theorem made_one : ∃ d, made 1 2 = some d ∧ d.Reach ∧ d.WF 4 8 ∧ d.Fresh ∧ d.nh = 1 ∧ d.Local ∧ d.e.m.dout = 4 := by
  refine ⟨_, rfl, .make (show made 1 2 = some _ from rfl), ?_, ?_, rfl, ?_, rfl⟩
  · refine ⟨by decide, rfl, ?_, ?_, ?_, rfl, rfl, fun _ => ⟨le_refl 4, rfl⟩, rfl, fun _ => ⟨rfl, rfl⟩, rfl, rfl, rfl, ?_⟩
    · intro h hh; obtain rfl : h = 0 := Nat.lt_one_iff.1 hh; exact ⟨rfl, rfl⟩
    · intro h hh; obtain rfl : h = 0 := Nat.lt_one_iff.1 hh; exact ⟨rfl, rfl⟩
    · intro h hh; obtain rfl : h = 0 := Nat.lt_one_iff.1 hh; exact ⟨rfl, rfl⟩
    · have hc : ∀ h, ¬ 1 + h < 1 := fun h => by omega
      refine ⟨by decide, rfl, fun h _ => ?_, fun h _ => ?_, fun h _ => ?_, rfl, rfl, rfl,
        fun _ => ⟨rfl, rfl⟩, fun _ => ⟨rfl, rfl⟩, rfl, fun _ => ⟨rfl, rfl, rfl⟩, fun _ => ⟨rfl, rfl, rfl⟩, rfl, rfl, rfl,
        rfl, rfl, rfl, rfl, rfl⟩
      · show ((decHeads 1).q (1 + h)).din = 8 ∧ ((decHeads 1).q (1 + h)).dout = 2
        unfold decHeads; dsimp only; rw [if_neg (hc h)]; exact ⟨rfl, rfl⟩
      · show ((decHeads 1).k (1 + h)).din = 8 ∧ ((decHeads 1).k (1 + h)).dout = 2
        unfold decHeads; dsimp only; rw [if_neg (hc h)]; exact ⟨rfl, rfl⟩
      · show ((decHeads 1).v (1 + h)).din = 4 ∧ ((decHeads 1).v (1 + h)).dout = 2
        unfold decHeads; dsimp only; rw [if_neg (hc h)]; exact ⟨rfl, rfl⟩
  · exact ⟨fun _ _ => rfl, fun _ _ => rfl, ⟨fun _ _ => rfl, fun _ _ => rfl, fun _ _ => rfl, fun _ _ => rfl, fun _ _ => rfl,
      fun _ _ => rfl, fun _ _ => rfl, fun _ _ _ _ => rfl⟩⟩
  · have hc : ∀ h, ¬ 1 + h < 1 := fun h => by omega
    refine ⟨fun h hh => ?_, fun h hh => ?_, fun h hh => ?_, lineNet_local _ _ _ (le_refl _),
      ⟨fun h _ => ?_, fun h _ => ?_, fun h _ => ?_, lineNet_local _ _ _ (le_refl _), lineNet_local _ _ _ (le_refl _)⟩⟩
    · show ((decHeads 1).q h).Local
      unfold decHeads; dsimp only; rw [if_pos hh]; exact lineNet_local _ _ _ (le_refl _)
    · show ((decHeads 1).k h).Local
      unfold decHeads; dsimp only; rw [if_pos hh]; exact lineNet_local _ _ _ (le_refl _)
    · show ((decHeads 1).v h).Local
      unfold decHeads; dsimp only; rw [if_pos hh]; exact lineNet_local _ _ _ (le_refl _)
    · show ((decHeads 1).q (1 + h)).Local
      unfold decHeads; dsimp only; rw [if_neg (hc h)]; exact lineNet_local _ _ _ (by decide)
    · show ((decHeads 1).k (1 + h)).Local
      unfold decHeads; dsimp only; rw [if_neg (hc h)]; exact lineNet_local _ _ _ (by decide)
    · show ((decHeads 1).v (1 + h)).Local
      unfold decHeads; dsimp only; rw [if_neg (hc h)]; exact lineNet_local _ _ _ (by decide)

/-- Non-vacuity of the forward pass, and of the refutation of the backward pass
after it. -/
example (x z e ee : Nat → ℝ) : ∃ d d1, made 1 2 = some d ∧ d.ff ⟨4, x⟩ ⟨8, z⟩ 8 = some d1 ∧
    d1.bp ⟨4, x⟩ ⟨8, z⟩ 4 8 ⟨4, e⟩ ⟨8, ee⟩ = none := by
  obtain ⟨d, h, hr, wf, fr, one, hl, -⟩ := made_one
  obtain ⟨d1, h1, -⟩ := C127_forward_partial d ⟨4, x⟩ ⟨8, z⟩ 4 8 wf fr one hl (le_refl _) (le_refl _)
  exact ⟨d, d1, h, h1, C127_backward_refuted d1 (.ff hr h1) _ _ _ _ _ _⟩

/-- Non-vacuity of the refutation for two heads: such a decoder can be built. -/
example : ∃ d, made 2 1 = some d ∧ ∀ x z nz, d.ff x z nz = none :=
  ⟨_, rfl, fun x z nz => C127_heads_refuted _ _ _ _ _ _ _ _ _ _ _ _ _ _ _ _ _ _ _ _ _ _ _ _ (show made 2 1 = some _ from rfl) (by decide) x z nz⟩

/-- Non-vacuity for a whole transformer: three encoders and one decoder
connected to the first and the last of them. -/
example (x y : Nat → ℝ) : ∃ d t', made 1 2 = some d ∧
    (⟨3, 1, fun i _ => decide (i ≠ 1), fun _ => plain, fun _ => d, fun _ => ⟨4, fun _ => 0⟩, fun _ => ⟨8, fun _ => 0⟩,
      fun _ => ⟨8, fun _ => 0⟩⟩ : Tr Enc Dec).ff trOps ⟨4, x⟩ 4 ⟨4, y⟩ 4 .all = some t' := by
  obtain ⟨d, hm, -, wf, fr, one, hl, -⟩ := made_one
  have hw : ∀ i, width (fun _ => plain.m.dout) 4 i = 4 := fun i => by cases i <;> rfl
  obtain ⟨t', h, -⟩ := C127_transformer_forward_partial
    (⟨3, 1, fun i _ => decide (i ≠ 1), fun _ => plain, fun _ => d, fun _ => ⟨4, fun _ => 0⟩, fun _ => ⟨8, fun _ => 0⟩,
      fun _ => ⟨8, fun _ => 0⟩⟩ : Tr Enc Dec) ⟨4, x⟩ ⟨4, y⟩ 4 4 (le_refl _) (le_refl _)
    (fun i _ => ⟨by show plain.WF (width (fun _ => plain.m.dout) 4 i); rw [hw]; exact plain_wf, plain_fresh, plain_local⟩)
    (fun j hj => by
      obtain rfl : j = 0 := Nat.lt_one_iff.1 hj
      exact ⟨wf, fr, one, hl, rfl⟩)
  exact ⟨d, t', hm, h⟩

end LLab.Transf
