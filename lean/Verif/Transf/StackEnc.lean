import Verif.Transf.StackBack

/-!
The transformer with the encoders of `Encoder`: a stack of encoders of any
height (C125), and non-vacuity of C124 and C125.
-/

namespace LLab.Transf

open Finset LLab.Attention LLab.Softmax

/-- The functions of the encoders of `Encoder`, with any decoders. -/
noncomputable def encOps {D : Type} (dff : Arr ℝ → Arr ℝ → D → Nat → Nat → Option D)
    (dbp : Arr ℝ → Arr ℝ → D → Nat → Nat → Arr ℝ → Arr ℝ → Option (D × Arr ℝ × Arr ℝ)) (dout : D → Arr ℝ) (ddim : D → Nat) :
    Ops Enc D :=
  { eff := fun x t n => t.ff x n, ebp := fun x t n e => t.bp x n e, eout := Enc.output, edim := fun t => t.m.dout
    dff := dff, dbp := dbp, dout := dout, ddim := ddim }

/-- The output of a network depends only on the cells it reads. -/
def Sub.Local (s : Sub) : Prop := ∀ θ x y, (∀ i, i < s.din → x i = y i) → ∀ k, k < s.dout → s.f θ x k = s.f θ y k

/-- The same for the networks of an encoder. -/
structure Enc.Local (t : Enc) : Prop where
  q : ∀ h, h < t.nh → (t.hd.q h).Local
  k : ∀ h, h < t.nh → (t.hd.k h).Local
  v : ∀ h, h < t.nh → (t.hd.v h).Local
  lin : t.lin.Local
  m : t.m.Local

theorem attn_local {masked : Bool} {dim v a j : Nat} {q q' k k' w w' : Nat → ℝ} (ha : a < dim) (hj : j < v)
    (hq : ∀ i, i < dim * v → q i = q' i) (hk : ∀ i, i < dim * v → k i = k' i) (hw : ∀ i, i < dim * v → w i = w' i) :
    attn masked dim v q k w a j = attn masked dim v q' k' w' a j := by
  have hvis := vis_le masked ha
  have hs : ∀ b, b < vis masked dim a → score v q k a b = score v q' k' a b := by
    intro b hb
    unfold score
    congr 1
    refine sum_congr rfl fun c hc => ?_
    rw [hq _ (Vec.idx_lt ha (mem_range.1 hc)), hk _ (Vec.idx_lt (by omega) (mem_range.1 hc))]
  unfold attn
  refine sum_congr rfl fun b hb => ?_
  have hb' := mem_range.1 hb
  rw [smax_congr hs hb', hw _ (by rw [Nat.mul_comm dim v]; exact Vec.idx_lt hj (by omega))]

theorem encS_local (t : Enc) (n : Nat) (wf : t.WF n) (hl : t.Local) (p : Params) {x y : Nat → ℝ} (h : ∀ i, i < n → x i = y i)
    {k : Nat} (hk : k < t.m.dout) : encS t p x k = encS t p y k := by
  have ha : ∀ u, u < t.lin.din → attS t p x u = attS t p y u := by
    intro u hu
    rw [wf.hlin, wf.hin] at hu
    obtain ⟨a, g, c, ha, hg, hc, rfl⟩ := multi_cell hu
    unfold attS
    rw [multiAttn_at _ _ _ _ _ hg hc, multiAttn_at _ _ _ _ _ hg hc]
    refine attn_local ha hc (fun i hi => ?_) (fun i hi => ?_) (fun i hi => ?_)
    · exact hl.q g hg _ _ _ (fun j hj => h j (by rw [← (wf.hq g hg).1]; exact hj)) i (by rw [(wf.hq g hg).2]; exact hi)
    · exact hl.k g hg _ _ _ (fun j hj => h j (by rw [← (wf.hk g hg).1]; exact hj)) i (by rw [(wf.hk g hg).2]; exact hi)
    · exact hl.v g hg _ _ _ (fun j hj => h j (by rw [← (wf.hv g hg).1]; exact hj)) i (by rw [(wf.hv g hg).2]; exact hi)
  have h1 : ∀ i, i < t.lin.dout → r1S t p x i = r1S t p y i := by
    intro i hi
    have := hl.lin p.lin _ _ ha i hi
    unfold r1S
    by_cases hr : t.res1 = true
    · rw [if_pos hr, if_pos hr, this, h i (by rw [← (wf.hres1 hr).1]; exact hi)]
    · rw [if_neg hr, if_neg hr, this]
  have h2 : ∀ i, i < t.lin.dout → n1S t p x i = n1S t p y i := by
    intro i hi
    unfold n1S
    split
    · exact scaled_congr h1 hi
    · exact h1 i hi
  have h3 : ∀ i, i < t.m.dout → r2S t p x i = r2S t p y i := by
    intro i hi
    have := hl.m p.m _ _ (fun j hj => h2 j (by rw [← wf.hm]; exact hj)) i hi
    unfold r2S
    by_cases hr : t.res2 = true
    · rw [if_pos hr, if_pos hr, this, h2 i (by rw [← (wf.hres2 hr).1]; exact hi)]
    · rw [if_neg hr, if_neg hr, this]
  unfold encS
  split
  · exact scaled_congr h3 hk
  · exact h3 k hk

section
variable {D : Type} (dff : Arr ℝ → Arr ℝ → D → Nat → Nat → Option D)
  (dbp : Arr ℝ → Arr ℝ → D → Nat → Nat → Arr ℝ → Arr ℝ → Option (D × Arr ℝ × Arr ℝ)) (dout : D → Arr ℝ) (ddim : D → Nat)

/-- The forward pass of an encoder is what C124 asks of an encoder. -/
theorem enc_fwd (t : Enc) (n : Nat) (wf : t.WF n) (fr : t.Fresh) (hl : t.Local) :
    EncFwd (encOps dff dbp dout ddim) t n (encS t t.params) := by
  refine ⟨fun x hx => ?_, fun x y h k hk => encS_local t n wf hl _ h hk⟩
  obtain ⟨t1, e1, F⟩ := ff_run t x n wf fr hx (fun y hy => hl.lin _ _ _ hy) (fun y hy => hl.m _ _ _ hy)
  exact ⟨t1, e1, (fwd_same F).1.m.dout, F.outl, F.outv⟩

theorem Moves.unique {n : Nat} {c : ℝ → Nat → ℝ} {a b : Nat → ℝ} {τ : ℝ} (h1 : Moves n c a τ) (h2 : Moves n c b τ) {i : Nat}
    (hi : i < n) : a i = b i := (h1 i hi).unique (h2 i hi)

/-- The backward pass of an encoder is what C125 asks of an encoder. -/
theorem enc_adj (t t1 : Enc) (n : Nat) (x : Arr ℝ) (wf : t.WF n) (fr : t.Fresh) (hn : n ≤ x.len) (sm : t.Smooth x.get)
    (e1 : t.ff x n = some t1) (hd : t1.m.dout = t.m.dout) (P : ℝ → Params) (P' : Params) (τ : ℝ) (hP : t.PMoves P P' τ) :
    EncAdj (encOps dff dbp dout ddim) n (fun s => encS t (P s)) τ t1 x (fun t2 => t.pair t2 P') := by
  constructor
  · intro X X' hX mX
    obtain ⟨_, _, _, -, -, -, -, -, -, g⟩ := C118_encoder_gradient_partial t x n ⟨t.m.dout, fun _ => 0⟩ wf fr hn (le_refl _) sm
    obtain ⟨Y', mY, -⟩ := g P P' X X' τ hP hX mX
    exact ⟨Y', by show Moves t1.m.dout _ _ _; rw [hd]; exact mY⟩
  · intro err he
    obtain ⟨t1', t2, ie, e1', -, e2, hl, -, -, g⟩ := C118_encoder_gradient_partial t x n err wf fr hn
      (by rw [← hd]; exact he) sm
    rw [e1] at e1'
    cases e1'
    refine ⟨t2, ie, e2, hl, fun X X' Y' hX mX mY => ?_⟩
    obtain ⟨Z', mZ, hz⟩ := g P P' X X' τ hP hX mX
    have mY' : Moves t.m.dout (fun s => encS t (P s) (X s)) Y' τ := by
      rw [← hd]; exact mY
    show dot t1.m.dout err.get Y' = _
    rw [hd, dot_congr_right (fun i hi => Moves.unique mY' mZ hi), hz]

end

/-- The functions of a transformer without decoders. -/
noncomputable def encOnly : Ops Enc Unit :=
  encOps (fun _ _ _ _ _ => none) (fun _ _ _ _ _ _ _ => none) (fun _ => ⟨0, fun _ => 0⟩) (fun _ => 0)

/-- **C125** (stack of encoders). A transformer with any positive number of
encoders and no decoder, each encoder ready to run and smooth at the value it
reads: the forward pass computes the composition of the encoders, and the
backward pass that follows turns errors put at the outputs of any of the
encoders into the gradient with respect to the input and to the parameters of
every encoder. -/
theorem C125_encoder_stack_partial (t : Tr Enc Unit) (x e : Arr ℝ) (n : Nat) (hd : t.ntd = 0) (hpos : 0 < t.nte) (hx : n ≤ x.len)
    (wf : ∀ i, i < t.nte → (t.te i).WF (width (fun k => (t.te k).m.dout) n i)) (fr : ∀ i, i < t.nte → (t.te i).Fresh)
    (hl : ∀ i, i < t.nte → (t.te i).Local)
    (sm : ∀ i, i < t.nte → ∀ z : Nat → ℝ, (∀ u, u < width (fun k => (t.te k).m.dout) n i →
      z u = below x.get (encVal (fun k => encS (t.te k) (t.te k).params) x.get) i u) → (t.te i).Smooth z)
    (he : ∀ i, i < t.nte → (t.te i).m.dout ≤ (t.encErr i).len) :
    ∃ t1 t2 ie, t.ff encOnly x n ⟨0, fun _ => 0⟩ 0 .all = some t1 ∧
      (∀ i, i < t.nte → ∀ u, u < (t.te i).m.dout →
        (t1.te i).output.get u = encVal (fun k => encS (t.te k) (t.te k).params) x.get i u) ∧
      t1.bp encOnly x n ⟨0, fun _ => 0⟩ 0 e .all = some (t2, ie) ∧
      ∀ (P : ℝ → Nat → Params) (P' : Nat → Params) (X : ℝ → Nat → ℝ) (X' : Nat → ℝ) (τ : ℝ),
        (∀ i, i < t.nte → (t.te i).PMoves (fun s => P s i) (P' i) τ) → (∀ i, i < n → X τ i = x.get i) → Moves n X X' τ →
        ∃ V : Nat → Nat → ℝ,
          (∀ i, i < t.nte → Moves (t.te i).m.dout (fun s => encVal (fun k => encS (t.te k) (P s k)) (X s) i) (V i) τ) ∧
          ∑ i ∈ range t.nte, dot (t.te i).m.dout (t.encErr i).get (V i) =
            dot n ie.get X' + ∑ i ∈ range t.nte, (t.te i).pair (t2.te i) (P' i) := by
  obtain ⟨s, e1, I⟩ := encs_run encOnly t (fun k => encS (t.te k) (t.te k).params) x n hx
    (fun i hi => enc_fwd _ _ _ _ (t.te i) _ (wf i hi) (fr i hi) (hl i hi)) (fun j hj => by omega)
  have e2 : t.ff encOnly x n ⟨0, fun _ => 0⟩ 0 .all = some { t with te := s.te, left := s.left } := by
    unfold Tr.ff
    rw [if_pos rfl]
    refine (bind_some_of e1).trans ?_
    rw [hd]
    rfl
  have hdim : ∀ i, i < t.nte → (s.te i).m.dout = (t.te i).m.dout := I.dim
  have hw : ∀ i, i < t.nte → width (fun k => (s.te k).m.dout) n i = width (fun k => (t.te k).m.dout) n i := by
    intro i hi
    cases i with
    | zero => rfl
    | succ i => exact hdim i (by omega)
  -- the backward pass for one motion
  have key : ∀ (P : ℝ → Nat → Params) (P' : Nat → Params) (X : ℝ → Nat → ℝ) (X' : Nat → ℝ) (τ : ℝ),
      (∀ i, i < t.nte → (t.te i).PMoves (fun s => P s i) (P' i) τ) → (∀ i, i < n → X τ i = x.get i) → Moves n X X' τ →
      ∃ (t2 : Tr Enc Unit) (ie : Arr ℝ) (V : Nat → Nat → ℝ),
        ({ t with te := s.te, left := s.left } : Tr Enc Unit).bp encOnly x n ⟨0, fun _ => 0⟩ 0 e .all = some (t2, ie) ∧
        (∀ i, i < t.nte → Moves (t.te i).m.dout (fun s => encVal (fun k => encS (t.te k) (P s k)) (X s) i) (V i) τ) ∧
          ∑ i ∈ range t.nte, dot (t.te i).m.dout (t.encErr i).get (V i) =
            dot n ie.get X' + ∑ i ∈ range t.nte, (t.te i).pair (t2.te i) (P' i) := by
    intro P P' X X' τ hP hX mX
    have hPτ : ∀ i, i < t.nte → P τ i = (t.te i).params := fun i hi => (hP i hi).start
    have hval : ∀ i, i < t.nte → ∀ u, u < (t.te i).m.dout →
        encVal (fun k => encS (t.te k) (P τ k)) (X τ) i u = encVal (fun k => encS (t.te k) (t.te k).params) x.get i u := by
      intro i
      induction i with
      | zero =>
        intro hi u hu
        show encS (t.te 0) (P τ 0) (X τ) u = _
        rw [hPτ 0 hi]
        exact encS_local _ _ (wf 0 hi) (hl 0 hi) _ hX hu
      | succ i ih =>
        intro hi u hu
        show encS (t.te (i + 1)) (P τ (i + 1)) _ u = _
        rw [hPτ _ hi]
        exact encS_local _ _ (wf _ hi) (hl _ hi) _ (fun j hj => ih (by omega) j hj) hu
    have rdy : ({ t with te := s.te, left := s.left } : Tr Enc Unit).Ready encOnly n 0 (fun s k => encS (t.te k) (P s k))
        (fun _ _ _ _ _ => 0) τ (X τ) (fun _ => 0) x ⟨0, fun _ => 0⟩ (fun i t2 => (t.te i).pair t2 (P' i)) (fun _ _ => 0) := by
      refine ⟨hpos, fun i hi => ?_, fun j hj => ?_, fun i hi => ?_, fun j hj => ?_, fun j hj => ?_, fun i hi => ?_, fun j hj => ?_,
        fun j hj => ?_⟩
      · show EncAdj encOnly (width (fun k => (s.te k).m.dout) n i) _ τ (s.te i) _ _
        rw [hw i hi]
        obtain ⟨xa, a1, a2, a3, a4⟩ := I.ran i hi
        have hb : below x (fun k => Enc.output (s.te k)) i = xa := by
          cases i with
          | zero => exact (a3 rfl).symm
          | succ i => exact (a4 i rfl).symm
        show EncAdj encOnly _ _ τ (s.te i) (below x (fun k => Enc.output (s.te k)) i) _
        rw [hb]
        refine enc_adj _ _ _ _ (t.te i) (s.te i) _ xa (wf i hi) (fr i hi) a2 (sm i hi _ fun u hu => ?_) a1 (hdim i hi) _ _ τ (hP i hi)
        cases i with
        | zero => rw [a3 rfl]; rfl
        | succ i => rw [a4 i rfl]; exact (I.out i (Nat.lt_of_succ_lt hi)).2 u hu
      · exact absurd hj (by show ¬ j < t.ntd; omega)
      · show (s.te i).m.dout ≤ _ ∧ ∀ u, u < (s.te i).m.dout → (s.te i).output.get u = _
        rw [hdim i hi]
        exact ⟨(I.out i hi).1, fun u hu => ((I.out i hi).2 u hu).trans (hval i hi u hu).symm⟩
      · exact absurd hj (by show ¬ j < t.ntd; omega)
      · exact absurd hj (by show ¬ j < t.ntd; omega)
      · show (s.te i).m.dout ≤ (t.encErr i).len
        rw [hdim i hi]; exact he i hi
      · exact absurd hj (by show ¬ j < t.ntd; omega)
      · exact absurd hj (by show ¬ j < t.ntd; omega)
    obtain ⟨t2, ie, _, ied, V, W, b1, -, -, b2, -, b3⟩ := C125_backward encOnly { t with te := s.te, left := s.left } x
      ⟨0, fun _ => 0⟩ e n 0 (fun s k => encS (t.te k) (P s k)) (fun _ _ _ _ _ => 0) τ X (fun _ _ => 0) X' (fun _ => 0)
      (fun i t2 => (t.te i).pair t2 (P' i)) (fun _ _ => 0) (fun u hu => (hX u hu).symm) (fun u hu => absurd hu (Nat.not_lt_zero _))
      mX (fun u hu => absurd hu (Nat.not_lt_zero _))
      (by show width (fun _ => 0) 0 t.ntd ≤ _; rw [hd]; exact Nat.zero_le _) rdy
    refine ⟨t2, ie, V, b1, fun i hi => ?_, ?_⟩
    · have := b2 i hi
      rw [show encOnly.edim (s.te i) = (t.te i).m.dout from hdim i hi] at this
      exact this
    · have h0 : ∀ a b : Nat → ℝ, dot 0 a b = 0 := fun a b => sum_range_zero _
      rw [show width (fun k => encOnly.ddim (t.td k)) 0 t.ntd = 0 by rw [hd]; rfl, h0, h0, zero_add, add_zero,
        show ∑ j ∈ range t.ntd, (0 : ℝ) = 0 from sum_const_zero, add_zero] at b3
      rw [← b3]
      exact sum_congr rfl fun i hi => by rw [show encOnly.edim (s.te i) = (t.te i).m.dout from hdim i (mem_range.1 hi)]
  have st : ∀ i, (t.te i).PMoves (fun _ => (t.te i).params) ⟨fun _ _ => 0, fun _ _ => 0, fun _ _ => 0, fun _ => 0, fun _ => 0, 0, 0⟩ 0 :=
    fun i => ⟨rfl, fun _ _ _ _ => hasDerivAt_const _ _, fun _ _ _ _ => hasDerivAt_const _ _,
      fun _ _ _ _ => hasDerivAt_const _ _, fun _ _ => hasDerivAt_const _ _, fun _ _ => hasDerivAt_const _ _,
      hasDerivAt_const _ _, hasDerivAt_const _ _⟩
  obtain ⟨t2, ie, -, b1, -⟩ := key (fun _ i => (t.te i).params) _ (fun _ => x.get) (fun _ => 0) 0 (fun i _ => st i) (fun _ _ => rfl)
    (fun _ _ => hasDerivAt_const _ _)
  refine ⟨_, t2, ie, e2, fun i hi => (I.out i hi).2, b1, fun P P' X X' τ hP hX mX => ?_⟩
  obtain ⟨t2', ie', V, b1', b2, b3⟩ := key P P' X X' τ hP hX mX
  rw [b1] at b1'
  cases b1'
  exact ⟨V, b2, b3⟩

/-! ### Non-vacuity -/

/-- Two tokens, two heads of size one, no residual connection and no
normalisation. -/
noncomputable def plain : Enc :=
  { demo with res1 := false, norm1 := false, res2 := false, norm2 := false, nl2 := 0, m := lineNet 4 4 3, lin := lineNet 4 4 2 }

theorem plain_wf : plain.WF 4 :=
  ⟨by decide, rfl, fun _ _ => ⟨rfl, rfl⟩, fun _ _ => ⟨rfl, rfl⟩, fun _ _ => ⟨rfl, rfl⟩, rfl, rfl, rfl, fun h => (by cases h),
    fun h => (by cases h), rfl, fun h => (by cases h), fun h => (by cases h), rfl, rfl, rfl, rfl, rfl, rfl, rfl, rfl⟩

theorem plain_fresh : plain.Fresh :=
  ⟨fun _ _ => rfl, fun _ _ => rfl, fun _ _ => rfl, fun _ _ => rfl, fun _ _ => rfl, fun _ _ => rfl, fun _ _ => rfl,
    fun _ h => absurd h (Nat.not_lt_zero _)⟩

theorem plain_smooth (x : Nat → ℝ) : plain.Smooth x :=
  ⟨fun _ _ => lineNet_diff _ _ _ (by decide) _, fun _ _ => lineNet_diff _ _ _ (by decide) _,
    fun _ _ => lineNet_diff _ _ _ (by decide) _, fun _ _ => lineNet_diff _ _ _ (le_refl _) _,
    fun _ _ => lineNet_diff _ _ _ (le_refl _) _, fun h => (by cases h), fun h => (by cases h), fun h => (by cases h),
    fun h => (by cases h)⟩

theorem lineNet_local (din dout : Nat) (c : ℝ) (h : dout ≤ din) : (lineNet din dout c).Local :=
  fun θ x y hxy k hk => (lineNet_diff din dout c h y).loc θ x hxy k hk

theorem plain_local : plain.Local :=
  ⟨fun _ _ => lineNet_local _ _ _ (by decide), fun _ _ => lineNet_local _ _ _ (by decide),
    fun _ _ => lineNet_local _ _ _ (by decide), lineNet_local _ _ _ (le_refl _), lineNet_local _ _ _ (le_refl _)⟩

/-- Non-vacuity of the theorem on stacks of encoders, for every height. -/
example (N : Nat) (x e : Nat → ℝ) : ∃ t1 t2 ie,
    (⟨N + 1, 0, fun _ _ => false, fun _ => plain, fun _ => (), fun _ => ⟨4, e⟩, fun _ => ⟨0, fun _ => 0⟩, fun _ => ⟨0, fun _ => 0⟩⟩ :
      Tr Enc Unit).ff encOnly ⟨4, x⟩ 4 ⟨0, fun _ => 0⟩ 0 .all = some t1 ∧
      t1.bp encOnly ⟨4, x⟩ 4 ⟨0, fun _ => 0⟩ 0 ⟨0, fun _ => 0⟩ .all = some (t2, ie) := by
  have hw : ∀ i, width (fun _ => plain.m.dout) 4 i = 4 := fun i => by cases i <;> rfl
  obtain ⟨t1, t2, ie, h1, -, h2, -⟩ := C125_encoder_stack_partial
    (⟨N + 1, 0, fun _ _ => false, fun _ => plain, fun _ => (), fun _ => ⟨4, e⟩, fun _ => ⟨0, fun _ => 0⟩, fun _ => ⟨0, fun _ => 0⟩⟩ :
      Tr Enc Unit) ⟨4, x⟩ ⟨0, fun _ => 0⟩ 4 rfl (Nat.succ_pos _) (le_refl _) (fun i _ => by
        show plain.WF (width (fun _ => plain.m.dout) 4 i)
        rw [hw]; exact plain_wf) (fun _ _ => plain_fresh) (fun _ _ => plain_local) (fun _ _ z _ => plain_smooth z)
      (fun _ _ => le_refl 4)
  exact ⟨t1, t2, ie, h1, h2⟩

/-- A layer with one parameter, for the examples below. -/
structure Cell where
  (c dc : ℝ)
  out : Arr ℝ

/-- An encoder multiplies its input by its parameter; a decoder multiplies its
parameter, its input and the second cell it receives from the encoders. -/
noncomputable def cellOps : Ops Cell Cell :=
  { eff := fun x e _ => some { e with out := ⟨1, fun _ => e.c * x.get 0⟩ }
    ebp := fun x e _ err => some ({ e with dc := e.dc + err.get 0 * x.get 0 }, ⟨1, fun _ => e.c * err.get 0⟩)
    eout := Cell.out
    edim := fun _ => 1
    dff := fun x l d _ _ => some { d with out := ⟨1, fun _ => d.c * x.get 0 * l.get 1⟩ }
    dbp := fun x l d _ _ err le => some ({ d with dc := d.dc + err.get 0 * (x.get 0 * l.get 1) },
      ⟨1, fun _ => d.c * err.get 0 * l.get 1⟩, ⟨le.len, fun u => le.get u + if u = 1 then d.c * err.get 0 * x.get 0 else 0⟩)
    dout := Cell.out
    ddim := fun _ => 1 }

/-- Two encoders and two decoders, all connected. -/
noncomputable def cells (c : Nat → ℝ) (err : Nat → Arr ℝ) : Tr Cell Cell :=
  { nte := 2, ntd := 2, conn := fun _ _ => true, te := fun i => ⟨c i, 0, ⟨1, fun _ => 0⟩⟩, td := fun i => ⟨c (i + 2), 0, ⟨1, fun _ => 0⟩⟩
    encErr := err, left := fun _ => ⟨2, fun _ => 0⟩, leftErr := fun _ => ⟨2, fun _ => 0⟩ }

theorem cell_width (f : Nat → Nat) (h : ∀ i, f i = 1) (i : Nat) : width f 1 i = 1 := by
  cases i with
  | zero => rfl
  | succ i => exact h i

theorem cell_offset (te : Nat → Cell) (j : Nat) : offset cellOps (fun _ _ => true) te j 2 = 2 := rfl

theorem cells_fit (c : Nat → ℝ) (err : Nat → Arr ℝ) :
    (cells c err).Fits cellOps 1 1 (fun i x _ => c i * x 0) (fun i x l _ => c (i + 2) * x 0 * l 1) := by
  refine ⟨fun i _ => ?_, fun j _ => ?_, fun j _ => rfl⟩
  · rw [cell_width (fun k => cellOps.edim ((cells c err).te k)) (fun _ => rfl)]
    exact ⟨fun x _ => ⟨_, rfl, rfl, le_refl 1, fun _ _ => rfl⟩, fun x y h k _ => by rw [h 0 (by omega)]⟩
  · rw [cell_width (fun k => cellOps.ddim ((cells c err).td k)) (fun _ => rfl)]
    refine ⟨fun x y _ _ => ⟨_, rfl, rfl, le_refl 1, fun _ _ => rfl⟩, fun x x' y y' h h' k _ => ?_⟩
    rw [h 0 (by omega), h' 1 (by show 1 < 2; omega)]

/-- Non-vacuity of C124: the output of the second decoder. -/
example (c : Nat → ℝ) (err : Nat → Arr ℝ) (x y : ℝ) :
    ∃ t', (cells c err).ff cellOps ⟨1, fun _ => x⟩ 1 ⟨1, fun _ => y⟩ 1 .all = some t' ∧
      (cellOps.dout (t'.td 1)).get 0 = c 3 * (c 2 * y * (c 1 * (c 0 * x))) * (c 1 * (c 0 * x)) := by
  obtain ⟨t', h1, -, -, h2, -⟩ := C124_forward cellOps (cells c err) ⟨1, fun _ => x⟩ ⟨1, fun _ => y⟩ 1 1 _ _ (le_refl 1) (le_refl 1)
    (cells_fit c err)
  exact ⟨t', h1, h2 1 Nat.one_lt_two 0 Nat.one_pos⟩

/-- `cells` after the forward pass on `x` and `y`. -/
noncomputable def ranCells (c : Nat → ℝ) (err : Nat → Arr ℝ) (x y : ℝ) : Tr Cell Cell :=
  { nte := 2, ntd := 2, conn := fun _ _ => true
    te := fun i => ⟨c i, 0, ⟨1, encVal (fun i x _ => c i * x 0) (fun _ => x) i⟩⟩
    td := fun i => ⟨c (i + 2), 0, ⟨1, decVal (fun i x l _ => c (i + 2) * x 0 * l 1) (fun _ _ => c 1 * (c 0 * x)) (fun _ => y) i⟩⟩
    encErr := err, left := fun _ => ⟨2, fun u => if u = 0 then c 0 * x else c 1 * (c 0 * x)⟩, leftErr := fun _ => ⟨2, fun _ => 0⟩ }

/-- Non-vacuity of C125: the parameters move as `C`, with velocities `C'`. -/
theorem cells_ready (C : ℝ → Nat → ℝ) (C' : Nat → ℝ) (τ x y : ℝ) (err : Nat → Arr ℝ) (hC : ∀ i, HasDerivAt (fun s => C s i) (C' i) τ)
    (he : ∀ i, 1 ≤ (err i).len) :
    (ranCells (C τ) err x y).Ready cellOps 1 1 (fun s i x _ => C s i * x 0) (fun s i x l _ => C s (i + 2) * x 0 * l 1) τ
      (fun _ => x) (fun _ => y) ⟨1, fun _ => x⟩ ⟨1, fun _ => y⟩ (fun i e => e.dc * C' i) (fun i d => d.dc * C' (i + 2)) := by
  have d1 : ∀ a b : Nat → ℝ, dot 1 a b = a 0 * b 0 := fun a b => by unfold dot; rw [sum_range_one]
  have d2 : ∀ a b : Nat → ℝ, dot 2 a b = a 0 * b 0 + a 1 * b 1 := fun a b => by
    unfold dot; rw [sum_range_succ, sum_range_one]
  refine ⟨by show 0 < 2; omega, fun i _ => ?_, fun j _ => ?_, fun i _ => ⟨le_refl 1, fun u _ => rfl⟩, fun j hj => ⟨le_refl 1, fun u _ => ?_⟩,
    fun j _ => ⟨le_refl 2, fun u hu => ?_⟩, fun i _ => he i, fun j _ => le_refl 2, fun _ _ _ _ => rfl⟩
  · rw [cell_width (fun k => cellOps.edim ((ranCells (C τ) err x y).te k)) (fun _ => rfl)]
    constructor
    · intro X X' hX mX
      exact ⟨fun _ => _, fun k _ => (hC i).fun_mul (mX 0 (by omega))⟩
    · intro e he
      refine ⟨_, _, rfl, le_refl 1, fun X X' Y' hX mX mY => ?_⟩
      have := (mY 0 (by show 0 < 1; omega)).unique ((hC i).fun_mul (mX 0 (by omega)))
      show dot 1 _ _ = dot 1 _ _ + (0 + e.get 0 * _) * _
      rw [d1, d1, this, hX 0 (by omega)]
      show _ = C τ i * e.get 0 * X' 0 + _
      ring
  · rw [cell_width (fun k => cellOps.ddim ((ranCells (C τ) err x y).td k)) (fun _ => rfl)]
    show DecAdj cellOps 1 2 _ τ _ _ _ _
    constructor
    · intro X X' L L' hX hL mX mL
      exact ⟨fun _ => _, fun k _ => ((hC (j + 2)).fun_mul (mX 0 (by omega))).fun_mul (mL 1 (by omega))⟩
    · intro e le he hle
      refine ⟨_, _, _, rfl, le_refl 1, rfl, fun X X' L L' Y' hX hL mX mL mY => ?_⟩
      have := (mY 0 (by show 0 < 1; omega)).unique (((hC (j + 2)).fun_mul (mX 0 (by omega))).fun_mul (mL 1 (by omega)))
      show dot 1 _ _ + dot 2 _ _ = dot 1 _ _ + dot 2 _ _ + (0 + e.get 0 * _) * _
      rw [d1, d1, d2, d2, this, hX 0 (by omega), hL 1 (by omega)]
      dsimp only
      rw [if_neg (by omega), if_pos rfl]
      show _ = C τ (j + 2) * e.get 0 * _ * X' 0 + (_ + (_ + C τ (j + 2) * e.get 0 * _) * L' 1) + _
      ring
  · have : j = 0 ∨ j = 1 := by
      have : j < 2 := hj
      omega
    rcases this with rfl | rfl <;> rfl
  · have : u = 0 ∨ u = 1 := by
      have : u < 2 := hu
      omega
    rcases this with rfl | rfl <;> rfl

end LLab.Transf
