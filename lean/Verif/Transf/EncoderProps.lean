import Verif.Transf.EncoderBack

/-!
Non-vacuity of C118, and a refutation without the condition that the networks
keep the incoming error.
-/

namespace LLab.Transf

open Finset LLab.Attention LLab.Softmax

/-- A network with one parameter: the first `dout` inputs times the parameter. -/
noncomputable def lineNet (din dout : Nat) (c : ℝ) : Sub :=
  { din := din, dout := dout, np := 1, f := fun θ x k => θ 0 * x k
    back := fun _ e i => if i < dout then c * e i else 0
    grad := fun x e _ => ∑ k ∈ range dout, e k * x k
    after := fun _ e => e
    θ := fun _ => c, dθ := fun _ => 0, out := ⟨dout, fun _ => 0⟩, seen := none }

theorem lineNet_diff (din dout : Nat) (c : ℝ) (h : dout ≤ din) (x : Nat → ℝ) : (lineNet din dout c).Diff x := by
  refine ⟨?_, ?_⟩
  · intro θ y hy k hk
    show θ 0 * y k = θ 0 * x k
    rw [hy k (lt_of_lt_of_le hk h)]
  · intro Θ X Θ' X' τ hΘ hX mΘ mX
    refine ⟨fun k => Θ' 0 * x k + c * X' k, ?_, ?_⟩
    · intro k hk
      have h1 := (mΘ 0 (by show 0 < 1; omega)).fun_mul (mX k (lt_of_lt_of_le hk h))
      refine h1.congr_deriv ?_
      rw [hX k (lt_of_lt_of_le hk h), hΘ]
      rfl
    · intro e
      show dot dout e _ = dot din (fun i => if i < dout then c * e i else 0) X' + dot 1 (fun _ => ∑ k ∈ range dout, e k * x k) Θ'
      have : dot din (fun i => if i < dout then c * e i else 0) X' = dot dout (fun i => c * e i) X' := by
        unfold dot
        rw [← Finset.sum_subset (Finset.range_subset_range.2 h)]
        · exact Finset.sum_congr rfl fun i hi => by
            show (if i < dout then c * e i else 0) * X' i = _
            rw [if_pos (Finset.mem_range.1 hi)]
        · intro i _ hi
          show (if i < dout then c * e i else 0) * X' i = _
          rw [if_neg (fun h' => hi (Finset.mem_range.2 h')), zero_mul]
      rw [this]
      unfold dot
      rw [Finset.sum_range_one, Finset.sum_mul, ← Finset.sum_add_distrib]
      exact Finset.sum_congr rfl fun i _ => by ring

/-- Two tokens, two heads of size one, all four flags set. -/
noncomputable def demo : Enc :=
  { nh := 2, dim := 2, kd := 1, vd := 1, inputDim := 4, nl2 := 2
    masked := true, res1 := true, norm1 := true, res2 := true, norm2 := true
    hd := ⟨fun h => lineNet 4 2 (h + 1), fun h => lineNet 4 2 (h + 2), fun h => lineNet 4 2 (h + 3)⟩
    m := lineNet 4 4 0, lin := lineNet 4 4 0
    l2 := fun _ => ⟨4, 2, 0, 1, ⟨4, fun _ => 0⟩, ⟨4, fun _ => 0⟩⟩
    score := ⟨8, fun _ => 0⟩, soft := ⟨8, fun _ => 0⟩, att := ⟨4, fun _ => 0⟩, r1 := ⟨4, fun _ => 0⟩, r2 := ⟨4, fun _ => 0⟩
    r1e := ⟨4, fun _ => 0⟩, r2e := ⟨4, fun _ => 0⟩, encErr := ⟨4, fun _ => 0⟩
    er := ⟨⟨4, fun _ => 0⟩, ⟨4, fun _ => 0⟩, ⟨4, fun _ => 0⟩, ⟨8, fun _ => 0⟩, ⟨8, fun _ => 0⟩⟩ }

theorem demo_wf : demo.WF 4 :=
  ⟨by decide, rfl, fun _ _ => ⟨rfl, rfl⟩, fun _ _ => ⟨rfl, rfl⟩, fun _ _ => ⟨rfl, rfl⟩, rfl, rfl, rfl,
    fun _ => ⟨rfl, rfl⟩, fun _ => ⟨rfl, rfl⟩, rfl, fun _ => ⟨rfl, rfl, rfl⟩, fun _ => ⟨rfl, rfl, rfl⟩, rfl, rfl, rfl,
    rfl, rfl, rfl, rfl, rfl⟩

theorem demo_fresh : demo.Fresh :=
  ⟨fun _ _ => rfl, fun _ _ => rfl, fun _ _ => rfl, fun _ _ => rfl, fun _ _ => rfl, fun _ _ => rfl, fun _ _ => rfl,
    fun _ _ _ _ => rfl⟩

theorem demo_r1 (x : Nat → ℝ) (i : Nat) : r1S demo demo.params x i = x i := by
  show x i + (0 : ℝ) * _ = x i
  rw [zero_mul, add_zero]

theorem demo_smooth : demo.Smooth (fun i => (i : ℝ) + 1) := by
  have r1 : ∀ i, r1S demo demo.params (fun i => (i : ℝ) + 1) i = (i : ℝ) + 1 := demo_r1 _
  have r1f : r1S demo demo.params (fun i => (i : ℝ) + 1) = fun i : Nat => (i : ℝ) + 1 := funext r1
  refine ⟨fun _ _ => lineNet_diff _ _ _ (by omega) _, fun _ _ => lineNet_diff _ _ _ (by omega) _,
    fun _ _ => lineNet_diff _ _ _ (by omega) _, fun _ _ => lineNet_diff _ _ _ (by omega) _,
    fun _ _ => lineNet_diff _ _ _ (by omega) _, fun _ _ _ _ _ => rfl, fun _ _ _ _ _ => rfl, fun _ => ⟨0, by decide, ?_⟩,
    fun _ => ⟨0, by decide, ?_⟩⟩
  · rw [r1]; norm_num
  · have : r2S demo demo.params (fun i => (i : ℝ) + 1) 0 = scaled 4 2 (fun i => (i : ℝ) + 1) 0 := by
      show scaled 4 2 (r1S demo demo.params (fun i => (i : ℝ) + 1)) 0 + (0 : ℝ) * _ = _
      rw [zero_mul, add_zero, r1f]
    rw [this]
    unfold scaled
    have := L2Norm.norm_pos (n := 4) (x := fun i : Nat => (i : ℝ) + 1) ⟨0, by omega, by norm_num⟩
    have h2 : (((0 : Nat) : ℝ) + 1) * 2 / Real.sqrt (∑ j ∈ range 4, ((j : ℝ) + 1) ^ 2) > 0 := by positivity
    exact h2.ne'

/-- Non-vacuity of C118: an encoder with all connections and normalisations. -/
example (e : Nat → ℝ) : ∃ t1 t2 ie, demo.ff ⟨4, fun i => (i : ℝ) + 1⟩ 4 = some t1 ∧
    t1.bp ⟨4, fun i => (i : ℝ) + 1⟩ 4 ⟨4, e⟩ = some (t2, ie) := by
  obtain ⟨t1, t2, ie, h1, -, h2, -⟩ := C118_encoder_gradient_partial demo ⟨4, fun i => (i : ℝ) + 1⟩ 4 ⟨4, e⟩ demo_wf
    demo_fresh (le_refl _) (le_refl 4) demo_smooth
  exact ⟨t1, t2, ie, h1, h2⟩

/-! ### A network that works in the array of the error -/

/-- A convolution with a `1×1` kernel of weight one and the activation
`leaky_relu` (slope `1/10`): its backward pass multiplies the incoming error by
the derivative of the activation in place (`f2->temp = error` and
`dot1D(f2->temp3,f2->temp,f2->temp,..)`, `/repo/src/model.c` 5536 and
5671-5675). -/
noncomputable def leakyNet : Sub :=
  { din := 1, dout := 1, np := 0, f := fun _ x k => if 0 < x k then x k else x k * (1 / 10)
    back := fun x e i => if 0 < x i then e i else e i * (1 / 10)
    grad := fun _ _ _ => 0
    after := fun x e i => if 0 < x i then e i else e i * (1 / 10)
    θ := fun _ => 0, dθ := fun _ => 0, out := ⟨1, fun _ => 0⟩, seen := none }

/-- Its own backward pass is right at a negative input. -/
theorem leakyNet_diff (x : Nat → ℝ) (hx : x 0 < 0) : leakyNet.Diff x := by
  refine ⟨?_, ?_⟩
  · intro θ y hy k hk
    obtain rfl : k = 0 := by have : k < 1 := hk; omega
    show (if 0 < y 0 then y 0 else y 0 * (1 / 10)) = if 0 < x 0 then x 0 else x 0 * (1 / 10)
    rw [hy 0 (by show 0 < 1; omega)]
  · intro Θ X Θ' X' τ _ hX _ mX
    have h0 : X τ 0 = x 0 := hX 0 (by show 0 < 1; omega)
    have m0 : HasDerivAt (fun s => X s 0) (X' 0) τ := mX 0 (by show 0 < 1; omega)
    refine ⟨fun _ => X' 0 * (1 / 10), ?_, ?_⟩
    · intro k hk
      obtain rfl : k = 0 := by have : k < 1 := hk; omega
      refine (m0.mul_const (1 / 10)).congr_of_eventuallyEq ?_
      have hev := m0.continuousAt.eventually_lt continuousAt_const (by rw [h0]; exact hx : X τ 0 < 0)
      filter_upwards [hev] with s hs
      show (if 0 < X s 0 then X s 0 else X s 0 * (1 / 10)) = _
      rw [if_neg (not_lt.2 hs.le)]
    · intro e
      show dot 1 e _ = dot 1 (fun i => if 0 < x i then e i else e i * (1 / 10)) X' + dot 0 _ Θ'
      unfold dot
      rw [Finset.sum_range_one, Finset.sum_range_one, Finset.sum_range_zero]
      show e 0 * (X' 0 * (1 / 10)) = (if 0 < x 0 then e 0 else e 0 * (1 / 10)) * X' 0 + 0
      rw [if_neg (not_lt.2 hx.le)]
      ring

/-- One token, one head, both residual connections, no normalisation. -/
noncomputable def clob : Enc :=
  { nh := 1, dim := 1, kd := 1, vd := 1, inputDim := 1, nl2 := 0
    masked := false, res1 := true, norm1 := false, res2 := true, norm2 := false
    hd := ⟨fun _ => lineNet 1 1 0, fun _ => lineNet 1 1 0, fun _ => lineNet 1 1 0⟩
    m := leakyNet, lin := lineNet 1 1 0
    l2 := fun _ => ⟨0, 0, 0, 0, ⟨0, fun _ => 0⟩, ⟨0, fun _ => 0⟩⟩
    score := ⟨1, fun _ => 0⟩, soft := ⟨1, fun _ => 0⟩, att := ⟨1, fun _ => 0⟩, r1 := ⟨1, fun _ => 0⟩, r2 := ⟨1, fun _ => 0⟩
    r1e := ⟨1, fun _ => 0⟩, r2e := ⟨1, fun _ => 0⟩, encErr := ⟨1, fun _ => 0⟩
    er := ⟨⟨1, fun _ => 0⟩, ⟨1, fun _ => 0⟩, ⟨1, fun _ => 0⟩, ⟨1, fun _ => 0⟩, ⟨1, fun _ => 0⟩⟩ }

theorem clob_wf : clob.WF 1 :=
  ⟨by decide, rfl, fun _ _ => ⟨rfl, rfl⟩, fun _ _ => ⟨rfl, rfl⟩, fun _ _ => ⟨rfl, rfl⟩, rfl, rfl, rfl,
    fun _ => ⟨rfl, rfl⟩, fun _ => ⟨rfl, rfl⟩, rfl, fun h => (Bool.false_ne_true h).elim, fun h => (Bool.false_ne_true h).elim, rfl, rfl, rfl,
    rfl, rfl, rfl, rfl, rfl⟩

theorem clob_fresh : clob.Fresh :=
  ⟨fun _ _ => rfl, fun _ _ => rfl, fun _ _ => rfl, fun _ _ => rfl, fun _ _ => rfl, fun _ _ => rfl, fun _ _ => rfl,
    fun _ h => absurd h (Nat.not_lt_zero _)⟩

theorem clob_r1 (x : Nat → ℝ) (i : Nat) : r1S clob clob.params x i = x i := by
  show x i + (0 : ℝ) * _ = x i
  rw [zero_mul, add_zero]

theorem bind_ex {β γ δ : Type} {x : Option β} {f : β → Option (γ × δ)} {a : β} {d : δ} (h : x = some a)
    (h2 : ∃ t, f a = some (t, d)) : ∃ t, (x >>= f) = some (t, d) := by
  subst h
  exact h2

/-- **C118** fails when the last layer of the second network is a convolution
with an activation function and no pooling. The encoder computes
`x + leaky_relu(x)`, whose derivative at `-1` is `11/10`; the backward pass
returns `2/10`, because the residual connection adds the error after the
convolution has multiplied it by the slope of its activation. -/
theorem C118_clobber_refuted :
    clob.WF 1 ∧ clob.Fresh ∧ (∀ y : Nat → ℝ, (∀ i, i < 1 → y i = n1S clob clob.params (fun _ => -1) i) → clob.m.Diff y) ∧
    HasDerivAt (fun s => encS clob clob.params (fun _ => s) 0) (11 / 10) (-1) ∧
    ∃ t1 t2 ie, clob.ff ⟨1, fun _ => -1⟩ 1 = some t1 ∧ t1.bp ⟨1, fun _ => -1⟩ 1 ⟨1, fun _ => 1⟩ = some (t2, ie) ∧
      ie.get 0 = 2 / 10 := by
  have n1 : ∀ x i, n1S clob clob.params x i = x i := fun x i => clob_r1 x i
  have hm : ∀ y : Nat → ℝ, (∀ i, i < 1 → y i = n1S clob clob.params (fun _ => -1) i) → clob.m.Diff y := by
    intro y hy
    refine leakyNet_diff y ?_
    rw [hy 0 (by omega), n1]
    norm_num
  have enc : ∀ s : ℝ, encS clob clob.params (fun _ => s) 0 = s + if 0 < s then s else s * (1 / 10) := by
    intro s
    show n1S clob clob.params (fun _ => s) 0 + (if 0 < n1S clob clob.params (fun _ => s) 0 then
      n1S clob clob.params (fun _ => s) 0 else n1S clob clob.params (fun _ => s) 0 * (1 / 10)) = _
    rw [n1]
  refine ⟨clob_wf, clob_fresh, hm, ?_, ?_⟩
  · have h1 : HasDerivAt (fun s : ℝ => s + s * (1 / 10)) (11 / 10) (-1) :=
      ((hasDerivAt_id (-1 : ℝ)).add ((hasDerivAt_id (-1 : ℝ)).mul_const (1 / 10))).congr_deriv (by norm_num)
    refine h1.congr_of_eventuallyEq ?_
    filter_upwards [eventually_lt_nhds (show (-1 : ℝ) < 0 by norm_num)] with s hs
    rw [enc, if_neg (not_lt.2 hs.le)]
  · obtain ⟨t1, ef, F⟩ := ff_run clob ⟨1, fun _ => -1⟩ 1 clob_wf clob_fresh (le_refl _)
      (fun y _ k _ => by show (0 : ℝ) * _ = 0 * _; rw [zero_mul, zero_mul])
      (fun y hy k hk => by
        rw [(hm y hy).loc _ _ (fun i hi => (hy i hi).symm) k hk])
    obtain ⟨wf1, ⟨lin, m, l2, score, soft, att, r1, r2, rfl⟩, attv, attl, softl, softv, linv, av, al, bv, bl, mv, cv, cl,
      outv, outl, l2v, norm1, norm2⟩ := F
    have hr1 : r1.get 0 = -1 := (av 0 (by decide)).trans (clob_r1 _ _)
    have lr1 : 1 ≤ r1.len := al
    have mv' : m = leakyNet.fed r1.get := mv
    have linv' : lin = (lineNet 1 1 0).fed att.get := linv
    have latt : 1 ≤ att.len := by have : att.len = 1 := attl; omega
    have eM := Sub.bp_eq m r1 ⟨1, fun _ => 1⟩ (by rw [mv']; exact lr1) (by rw [mv']; exact le_refl 1)
      (by rw [mv']; rfl)
    have hw : ∀ i, i < 1 → (fun i => if i < m.dout then m.after r1.get (fun _ => (1 : ℝ)) i else 1) i = 1 / 10 := by
      intro i hi
      obtain rfl : i = 0 := by omega
      rw [mv']
      show (if 0 < 1 then (if 0 < r1.get 0 then (1 : ℝ) else 1 * (1 / 10)) else 1) = 1 / 10
      rw [hr1]; norm_num
    obtain ⟨temp, eT, lT, gT⟩ := addIf_run true ⟨m.din, m.back r1.get (fun _ => 1)⟩
      ⟨1, fun i => if i < m.dout then m.after r1.get (fun _ => (1 : ℝ)) i else 1⟩ lin.dout
      (fun _ => by rw [mv', linv']; exact le_refl 1) (fun _ => by rw [linv']; exact le_refl 1)
    have ht : temp.get 0 = 2 / 10 := by
      rw [gT 0 (fun _ => by rw [linv']; exact Nat.one_pos), if_pos rfl]
      dsimp only at hw ⊢
      rw [hw 0 (by omega), mv']
      show (if 0 < r1.get 0 then (1 : ℝ) else 1 * (1 / 10)) + 1 / 10 = 2 / 10
      rw [hr1]; norm_num
    have ltemp : temp.len = 1 := by rw [lT, mv']; rfl
    have eLin := Sub.bp_eq lin att temp (by rw [linv']; exact latt) (by rw [linv', ltemp]; exact le_refl 1)
      (by rw [linv']; rfl)
    obtain ⟨er, eA, ⟨lq, lk, lv, -, -⟩, -⟩ := multiBP_run false 1 1 1
      (fun h => ((clob.hd.fed 1 (fun _ => -1)).q h).out) (fun h => ((clob.hd.fed 1 (fun _ => -1)).k h).out)
      (fun h => ((clob.hd.fed 1 (fun _ => -1)).v h).out) (fun h => ((clob.hd.fed 1 (fun _ => -1)).q h).dout)
      (fun h => ((clob.hd.fed 1 (fun _ => -1)).k h).dout) (fun h => ((clob.hd.fed 1 (fun _ => -1)).v h).dout) soft
      ⟨lin.din, lin.back att.get temp.get⟩ clob.er
      (fun h hh => by obtain rfl : h = 0 := by omega
                      rfl) (fun h hh => by obtain rfl : h = 0 := by omega
                                           rfl)
      (fun h hh => by obtain rfl : h = 0 := by omega
                      rfl)
      (fun h hh => by obtain rfl : h = 0 := by omega
                      exact le_refl 1) (fun h hh => by obtain rfl : h = 0 := by omega
                                                       exact le_refl 1)
      (fun h hh => by obtain rfl : h = 0 := by omega
                      exact le_refl 1)
      (by have : soft.len = 1 := softl
          omega) (by rw [linv']; exact le_refl 1)
      (le_refl 1) (le_refl 1) (le_refl 1) (le_refl 1) (le_refl 1)
      (fun h hh a' ha' u hu => by
        obtain rfl : h = 0 := by omega
        exact softv 0 (by decide) a' ha' u hu)
      (fun _ _ => rfl) (fun _ _ => rfl)
    obtain ⟨s, eS, -, -, sacc⟩ := headsBP_run ⟨1, fun _ => -1⟩ 1 1 1 (clob.hd.fed 1 (fun _ => -1)) er.queryErr er.keyErr
      er.valueErr ⟨0, fun _ => 0⟩ (le_refl _)
      (fun h hh => by obtain rfl : h = 0 := by omega
                      exact ⟨rfl, rfl, rfl⟩)
      (fun h hh => by obtain rfl : h = 0 := by omega
                      exact ⟨rfl, rfl, rfl⟩)
      (fun h hh => by obtain rfl : h = 0 := by omega
                      exact ⟨rfl, rfl, rfl⟩)
      (by rw [lq]; exact le_refl 1) (by rw [lk]; exact le_refl 1) (by rw [lv]; exact le_refl 1)
    obtain ⟨sl, sg⟩ := sacc (by omega)
    obtain ⟨ie, eI, lI, gI⟩ := addIf_run true s.acc
      ⟨temp.len, fun i => if i < lin.dout then lin.after att.get temp.get i else temp.get i⟩ 1
      (fun _ => sl.ge) (fun _ => ltemp.ge)
    have eR : ∃ t2, Enc.bp ⟨1, fun _ => -1⟩ { clob with
        hd := clob.hd.fed clob.nh (fun _ => -1), lin := lin, m := m, l2 := l2, score := score, soft := soft, att := att, r1 := r1, r2 := r2 } 1
        ⟨1, fun _ => 1⟩ = some (t2, ie) := by
      unfold Enc.bp
      refine bind_ex (show normBPIf false 0 l2 (0 - 1) _ _ = some l2 from rfl) ?_
      refine bind_ex eM ?_
      refine bind_ex eT ?_
      refine bind_ex (show normBPIf false 0 (leave false l2 (0 - 1) _) 0 _ temp = some l2 from rfl) ?_
      refine bind_ex eLin ?_
      refine bind_ex eA ?_
      refine bind_ex eS ?_
      exact bind_ex eI ⟨_, rfl⟩
    obtain ⟨t2, eR⟩ := eR
    refine ⟨_, t2, ie, ef, eR, ?_⟩
    · rw [gI 0 (fun _ => by omega), sg 0 (by omega), if_pos rfl, linv']
      show (∑ h ∈ range 1, _) + temp.get 0 = 2 / 10
      rw [ht, Finset.sum_range_one]
      show ((if 0 < 1 then (0 : ℝ) * _ else 0) + (if 0 < 1 then (0 : ℝ) * _ else 0) + (if 0 < 1 then (0 : ℝ) * _ else 0)) + 2 / 10 = 2 / 10
      simp

end LLab.Transf
