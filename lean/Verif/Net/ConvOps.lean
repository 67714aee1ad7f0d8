import Verif.Layers.TConv
import Verif.Layers.Pool
import Verif.Net.Chain
import Verif.Common.View

/-!
The pieces of a convolutional layer as differentiable functions: the convolutions on all the
kernels, the activation on the part inside the padding frame, the pooling of each channel.
Used by `Verif.Net.ConvNet` (property C135).
-/

namespace LLab.CNet

open Finset LLab.Chain

/-! ### Specification of the pieces -/

/-- Cell `u` of an image with `cols` columns lies inside a frame of `pad` cells around
`nI × nJ` cells. -/
def Inside (cols pad nI nJ u : Nat) : Prop :=
  pad ≤ u / cols ∧ u / cols < pad + nI ∧ pad ≤ u % cols ∧ u % cols < pad + nJ

instance (cols pad nI nJ u : Nat) : Decidable (Inside cols pad nI nJ u) := by
  unfold Inside; infer_instance

/-- `convolutional_flag` with the sizes: `CONVOLUTION`, `TRANSPOSED_CONVOLUTION`,
`NO_CONVOLUTION`. -/
inductive Kind where
  | conv (g : Conv.Geom)
  | tconv (g : TConv.TGeom)
  | pass (rows cols : Nat)

namespace Kind

/-- `rows1`. -/
def rows : Kind → Nat
  | conv g => g.outI
  | tconv g => g.outI - 2 * g.pad
  | pass r _ => r

/-- `cols1`. -/
def cols : Kind → Nat
  | conv g => g.outJ
  | tconv g => g.outJ - 2 * g.pad
  | pass _ c => c

/-- `rows1*cols1`, the cells of one channel. -/
def size (K : Kind) : Nat := K.rows * K.cols

/-- `channels*input_rows*input_cols`; without a convolution the channels are the kernels. -/
def nIn (K : Kind) (nk : Nat) : Nat :=
  match K with
  | conv g => g.ch * g.inI * g.inJ
  | tconv g => g.ch * g.inI * g.inJ
  | pass r c => nk * (r * c)

/-- The cells of one kernel. -/
def nK : Kind → Nat
  | conv g => g.ch * g.kI * g.kJ
  | tconv g => g.ch * g.kI * g.kJ
  | pass _ _ => 0

/-- The cells of a channel that are not padding frame. -/
def Inner (K : Kind) (u : Nat) : Prop :=
  match K with
  | conv g => Inside g.outJ g.pad g.nI g.nJ u
  | tconv _ => True
  | pass _ _ => True

instance (K : Kind) (u : Nat) : Decidable (K.Inner u) := by
  cases K <;> unfold Inner <;> infer_instance

/-- The product of a kernel with the input at cell `u`: the strided correlation or the (cropped)
transposed convolution. -/
noncomputable def lin (K : Kind) (x k : Nat → ℝ) (u : Nat) : ℝ :=
  match K with
  | conv g => Conv.corr g x k 0 (u / g.outJ - g.pad) (u % g.outJ - g.pad)
  | tconv g => TConv.tconv g x k (g.pad + u / (g.outJ - 2 * g.pad)) (g.pad + u % (g.outJ - 2 * g.pad))
  | pass _ _ => 0

/-- One channel of the convolution: product plus bias inside, zero on the padding frame. -/
noncomputable def fn (K : Kind) (k : Nat → ℝ) (b : ℝ) (x : Nat → ℝ) (u : Nat) : ℝ :=
  if K.Inner u then K.lin x k u + b else 0

/-- The sizes make sense. -/
def Ok : Kind → Prop
  | conv g => g.Ok
  | tconv _ => True
  | pass _ _ => True

end Kind

/-- `pooling_flag`. -/
inductive PoolKind where
  | none | max | avg
deriving DecidableEq

/-- The pooling of one channel: zero on the frame of the result, the largest or the mean value of
the window elsewhere. -/
noncomputable def poolFn (p : PoolKind) (pg : Pool.PGeom) (y : Nat → ℝ) (v : Nat) : ℝ :=
  match p with
  | .none => y v
  | .max => open Classical in if Inside pg.outJ pg.pad pg.nI pg.nJ v then
      (if h : pg.Ok then Pool.pooled pg h y (v / pg.outJ - pg.pad) (v % pg.outJ - pg.pad) else 0) else 0
  | .avg => if Inside pg.outJ pg.pad pg.nI pg.nJ v then Pool.mean pg y (v / pg.outJ - pg.pad) (v % pg.outJ - pg.pad) else 0

/-- The cells of one channel after the pooling. -/
def poolSize (p : PoolKind) (A : Nat) (pg : Pool.PGeom) : Nat := if p = .none then A else pg.outI * pg.outJ

/-- In every window of a max pooling some value is above the start value `-999999` of the code,
and two cells share the largest value only if they are both `dead` (constant near the point). -/
def NoTie (pg : Pool.PGeom) (y : Nat → ℝ) (dead : Nat → Prop) : Prop :=
  ∀ i j, i < pg.nI → j < pg.nJ →
    (∃ a b, a < pg.kI ∧ b < pg.kJ ∧ -999999 < y (Pool.win pg i j a b)) ∧
    ∀ a b a' b', a < pg.kI → b < pg.kJ → a' < pg.kI → b' < pg.kJ → (a, b) ≠ (a', b') →
      (∀ k1 k2, k1 < pg.kI → k2 < pg.kJ → y (Pool.win pg i j k1 k2) ≤ y (Pool.win pg i j a b)) →
      y (Pool.win pg i j a' b') = y (Pool.win pg i j a b) → dead (Pool.win pg i j a b) ∧ dead (Pool.win pg i j a' b')

/-! ### Sums over framed images -/

theorem split_idx {B r s : Nat} (hs : s < B) : (r * B + s) / B = r ∧ (r * B + s) % B = s := by
  have hB : 0 < B := by omega
  rw [Nat.mul_comm r B, Nat.mul_add_div hB, Nat.mul_add_mod, Nat.div_eq_of_lt hs, Nat.mod_eq_of_lt hs]
  exact ⟨by omega, rfl⟩

/-- A sum over a framed image is a sum over its inside. -/
theorem sum_frame (pad nI nJ : Nat) (e : Nat → ℝ) (V : Nat → Nat → ℝ) :
    ∑ v ∈ range ((nI + 2 * pad) * (nJ + 2 * pad)),
      e v * (if Inside (nJ + 2 * pad) pad nI nJ v then V (v / (nJ + 2 * pad) - pad) (v % (nJ + 2 * pad) - pad) else 0) =
    ∑ i ∈ range nI, ∑ j ∈ range nJ, e ((pad + i) * (nJ + 2 * pad) + (pad + j)) * V i j := by
  rw [sum_rows]
  have h1 : ∀ r ∈ range (nI + 2 * pad), (∑ s ∈ range (nJ + 2 * pad), e (r * (nJ + 2 * pad) + s) *
      (if Inside (nJ + 2 * pad) pad nI nJ (r * (nJ + 2 * pad) + s) then
        V ((r * (nJ + 2 * pad) + s) / (nJ + 2 * pad) - pad) ((r * (nJ + 2 * pad) + s) % (nJ + 2 * pad) - pad) else 0)) =
      if pad ≤ r ∧ r < (nI + 2 * pad) - pad then ∑ j ∈ range nJ, e (r * (nJ + 2 * pad) + (pad + j)) * V (r - pad) j else 0 := by
    intro r _
    have h2 : ∀ s ∈ range (nJ + 2 * pad), e (r * (nJ + 2 * pad) + s) *
        (if Inside (nJ + 2 * pad) pad nI nJ (r * (nJ + 2 * pad) + s) then
          V ((r * (nJ + 2 * pad) + s) / (nJ + 2 * pad) - pad) ((r * (nJ + 2 * pad) + s) % (nJ + 2 * pad) - pad) else 0) =
        if pad ≤ s ∧ s < (nJ + 2 * pad) - pad then
          (if pad ≤ r ∧ r < (nI + 2 * pad) - pad then e (r * (nJ + 2 * pad) + s) * V (r - pad) (s - pad) else 0) else 0 := by
      intro s hs
      obtain ⟨e1, e2⟩ := split_idx (r := r) (Finset.mem_range.1 hs)
      have hin : Inside (nJ + 2 * pad) pad nI nJ (r * (nJ + 2 * pad) + s) ↔
          pad ≤ r ∧ r < pad + nI ∧ pad ≤ s ∧ s < pad + nJ := by
        unfold Inside
        rw [e1, e2]
      rw [e1, e2]
      simp only [hin]
      by_cases c1 : pad ≤ r ∧ r < (nI + 2 * pad) - pad
      · by_cases c2 : pad ≤ s ∧ s < (nJ + 2 * pad) - pad
        · rw [if_pos ⟨c1.1, by omega, c2.1, by omega⟩, if_pos c2, if_pos c1]
        · rw [if_neg (by rintro ⟨_, _, h3, h4⟩; exact c2 ⟨h3, by omega⟩), if_neg c2, mul_zero]
      · rw [if_neg (by rintro ⟨h3, h4, _, _⟩; exact c1 ⟨h3, by omega⟩), if_neg c1, mul_zero, ite_self]
    rw [Finset.sum_congr rfl h2, sum_window]
    rw [show nJ + 2 * pad - 2 * pad = nJ by omega]
    by_cases c1 : pad ≤ r ∧ r < (nI + 2 * pad) - pad
    · simp only [if_pos c1, Nat.add_sub_cancel_left]
    · simp only [if_neg c1, Finset.sum_const_zero]
  rw [Finset.sum_congr rfl h1, sum_window]
  rw [show nI + 2 * pad - 2 * pad = nI by omega]
  simp only [Nat.add_sub_cancel_left]

/-! ### The convolutions -/

/-- At an inner cell the product is a finite sum of input times kernel cells. -/
theorem lin_repr (K : Kind) (hK : K.Ok) (nk u : Nat) (hu : u < K.size) (hi : K.Inner u) :
    ∃ (T : Finset (Nat × Nat × Nat × Nat × Nat)) (a b : Nat × Nat × Nat × Nat × Nat → Nat),
      (∀ τ ∈ T, a τ < K.nIn nk ∧ b τ < K.nK) ∧ ∀ x k, K.lin x k u = ∑ τ ∈ T, x (a τ) * k (b τ) := by
  cases K with
  | conv g =>
    obtain ⟨i1, i2, i3, i4⟩ := hi
    refine ⟨({0} : Finset Nat) ×ˢ ({0} : Finset Nat) ×ˢ range g.ch ×ˢ range g.kI ×ˢ range g.kJ,
      fun τ => ix3 g.inI g.inJ τ.2.2.1 ((u / g.outJ - g.pad) * g.s1 + τ.2.2.2.1) ((u % g.outJ - g.pad) * g.s2 + τ.2.2.2.2),
      fun τ => ix3 g.kI g.kJ τ.2.2.1 τ.2.2.2.1 τ.2.2.2.2, ?_, ?_⟩
    · intro τ hτ
      simp only [Finset.mem_product, Finset.mem_range] at hτ
      refine ⟨ix3_lt hτ.2.2.1 (Conv.stride_lt hK.hI ?_ hτ.2.2.2.1) (Conv.stride_lt hK.hJ ?_ hτ.2.2.2.2),
        ix3_lt hτ.2.2.1 hτ.2.2.2.1 hτ.2.2.2.2⟩
      · show _ < g.nI; omega
      · show _ < g.nJ; omega
    · intro x k
      simp only [Kind.lin, Conv.corr, add_zero, Finset.sum_product, Finset.sum_singleton, mul_comm (k _)]
  | tconv g =>
    refine ⟨(range g.inI ×ˢ range g.inJ ×ˢ range g.ch ×ˢ range g.kI ×ˢ range g.kJ).filter fun τ =>
        g.pad + u / (g.outJ - 2 * g.pad) = τ.1 * g.s1 + τ.2.2.2.1 ∧ g.pad + u % (g.outJ - 2 * g.pad) = τ.2.1 * g.s2 + τ.2.2.2.2,
      fun τ => ix3 g.inI g.inJ τ.2.2.1 τ.1 τ.2.1, fun τ => ix3 g.kI g.kJ τ.2.2.1 τ.2.2.2.1 τ.2.2.2.2, ?_, ?_⟩
    · intro τ hτ
      simp only [Finset.mem_filter, Finset.mem_product, Finset.mem_range] at hτ
      exact ⟨ix3_lt hτ.1.2.2.1 hτ.1.1 hτ.1.2.1, ix3_lt hτ.1.2.2.1 hτ.1.2.2.2.1 hτ.1.2.2.2.2⟩
    · intro x k
      rw [Finset.sum_filter]
      simp only [Kind.lin, TConv.tconv, Finset.sum_product]
  | pass r c =>
    exact ⟨∅, fun _ => 0, fun _ => 0, fun τ hτ => absurd hτ (Finset.notMem_empty τ), fun x k => by simp [Kind.lin]⟩

/-- A family is differentiable and the derivative of its weighted sum is known. -/
theorem Par.of_weighted {m : Nat} {F : ℝ → Nat → ℝ} {t0 g : ℝ} {e d : Nat → ℝ} (hd : ∀ k, k < m → HasDerivAt (fun t => F t k) (d k) t0)
    (hw : HasDerivAt (fun t => ∑ k ∈ range m, e k * F t k) g t0) : Par m F t0 e g := by
  refine ⟨d, hd, ?_⟩
  have : HasDerivAt (fun t => ∑ k ∈ range m, e k * F t k) (∑ k ∈ range m, e k * d k) t0 :=
    HasDerivAt.fun_sum fun k hk => (hd k (Finset.mem_range.1 hk)).const_mul _
  exact this.unique hw

theorem fn_deriv_k (K : Kind) (hK : K.Ok) (k : Nat → ℝ) (b : ℝ) (x : Nat → ℝ) (q u : Nat) (hu : u < K.size) :
    ∃ d, HasDerivAt (fun v => K.fn (Function.update k q v) b x u) d (k q) := by
  by_cases hi : K.Inner u
  · obtain ⟨T, a, c, -, hr⟩ := lin_repr K hK 0 u hu hi
    simp only [Kind.fn, if_pos hi, hr]
    have hc : ∀ p, HasDerivAt (fun t => Function.update k q t p) (if p = q then 1 else 0) (k q) := by
      intro p
      by_cases h : p = q
      · subst h
        simpa using hasDerivAt_id' (k p)
      · simpa [h] using hasDerivAt_const (k q) (k p)
    exact ⟨_, ((HasDerivAt.fun_sum fun τ _ => (hc (c τ)).const_mul (x (a τ))).add_const b)⟩
  · simp only [Kind.fn, if_neg hi]
    exact ⟨0, hasDerivAt_const _ _⟩

theorem fn_deriv_b (K : Kind) (k : Nat → ℝ) (b : ℝ) (x : Nat → ℝ) (u : Nat) :
    ∃ d, HasDerivAt (fun v => K.fn k v x u) d b := by
  by_cases hi : K.Inner u
  · simp only [Kind.fn, if_pos hi]
    exact ⟨_, (hasDerivAt_id b).const_add _⟩
  · simp only [Kind.fn, if_neg hi]
    exact ⟨0, hasDerivAt_const _ _⟩

/-- A gradient coordinate by coordinate is a gradient along curves, since the convolution is
linear in the input. -/
theorem Pull.kind (K : Kind) (hK : K.Ok) (nk : Nat) (k : Nat → ℝ) (b : ℝ) (x e g : Nat → ℝ)
    (hg : ∀ p, p < K.nIn nk → HasDerivAt (fun t => ∑ u ∈ range K.size, e u * K.fn k b (Function.update x p t) u) (g p) (x p)) :
    Pull (K.nIn nk) K.size (K.fn k b) x e g := by
  intro c c' t0 hc hd
  have hr := fun u (h : u < K.size ∧ K.Inner u) => lin_repr K hK nk u h.1 h.2
  choose T a bb hlt hrep using hr
  have hval : ∀ (c : ℝ → Nat → ℝ) (c' : Nat → ℝ) (t0 : ℝ), (∀ i, i < K.nIn nk → HasDerivAt (fun t => c t i) (c' i) t0) →
      ∀ u, u < K.size → HasDerivAt (fun t => K.fn k b (c t) u) (if K.Inner u then K.lin c' k u else 0) t0 := by
    intro c c' t0 hd u hu
    by_cases hi : K.Inner u
    · simp only [Kind.fn, if_pos hi, hrep u ⟨hu, hi⟩]
      exact (HasDerivAt.fun_sum fun τ hτ => (hd _ (hlt u ⟨hu, hi⟩ τ hτ).1).mul_const _).add_const b
    · simp only [Kind.fn, if_neg hi]
      exact hasDerivAt_const _ _
  refine ⟨_, hval c c' t0 hd, ?_⟩
  have hgp : ∀ p, p < K.nIn nk → g p = ∑ u ∈ range K.size, e u * (if K.Inner u then K.lin (Pi.single p 1) k u else 0) := by
    intro p hp
    refine (hg p hp).unique (HasDerivAt.fun_sum fun u hu => ?_)
    refine (hval (fun t => Function.update x p t) (Pi.single p 1) (x p) (fun i _ => ?_) u (Finset.mem_range.1 hu)).const_mul (e u)
    by_cases h : i = p
    · subst h
      simpa using hasDerivAt_id' (x i)
    · simpa [h] using hasDerivAt_const (x p) (x i)
  have hexp : ∀ u, u ∈ range K.size → ∑ p ∈ range (K.nIn nk), (if K.Inner u then K.lin (Pi.single p 1) k u else 0) * c' p =
      if K.Inner u then K.lin c' k u else 0 := by
    intro u hu
    by_cases hi : K.Inner u
    · have hu' := Finset.mem_range.1 hu
      simp only [if_pos hi, hrep u ⟨hu', hi⟩, Finset.sum_mul]
      rw [Finset.sum_comm]
      refine Finset.sum_congr rfl fun τ hτ => ?_
      have hp := (hlt u ⟨hu', hi⟩ τ hτ).1
      rw [Finset.sum_eq_single (a u ⟨hu', hi⟩ τ)]
      · rw [Pi.single_eq_same]; ring
      · intro p _ hne
        rw [Pi.single_eq_of_ne (Ne.symm hne)]; ring
      · intro h
        exact absurd (Finset.mem_range.2 hp) h
    · simp only [if_neg hi, zero_mul, Finset.sum_const_zero]
  rw [Finset.sum_congr rfl fun u hu => by rw [← hexp u hu]]
  simp only [Finset.mul_sum]
  rw [Finset.sum_comm]
  refine Finset.sum_congr rfl fun p hp => ?_
  rw [hgp p (Finset.mem_range.1 hp), Finset.sum_mul]
  exact Finset.sum_congr rfl fun u _ => by ring

/-- What `convolutional_feed_forward` and `transposed_convolutional_feed_forward` leave in a
cleared channel. -/
theorem conv_run (g : Conv.Geom) (hg : g.Ok) (x k out : Arr ℝ) (b : ℝ) (hx : g.ch * g.inI * g.inJ ≤ x.len)
    (hk : g.ch * g.kI * g.kJ ≤ k.len) (ho : (Kind.conv g).size ≤ out.len) (hz : ∀ u, u < (Kind.conv g).size → out.get u = 0) :
    ∃ o, Conv.ff g x k b out = some o ∧ o.len = out.len ∧ (∀ u, u < (Kind.conv g).size → o.get u = (Kind.conv g).fn k.get b x.get u) ∧
      ∀ u, (Kind.conv g).size ≤ u → o.get u = out.get u := by
  obtain ⟨o, e1, h1, h2, h3⟩ := Conv.C26_feed_forward g hg x k out b hx hk ho
  have hsz := (Conv.C26_sizes g hg).2.2
  refine ⟨o, e1, h1, fun u hu => ?_, fun u hu => h3 u fun r s hr hs h => ?_⟩
  · by_cases hi : (Kind.conv g).Inner u
    · obtain ⟨i1, i2, i3, i4⟩ := hi
      have hcell : u = Conv.cell g (u / g.outJ - g.pad) (u % g.outJ - g.pad) := by
        unfold Conv.cell
        rw [Nat.add_sub_cancel' i1, Nat.add_sub_cancel' i3, Nat.mul_comm]
        exact (Nat.div_add_mod u g.outJ).symm
      have hv := h2 (u / g.outJ - g.pad) (u % g.outJ - g.pad) (by omega) (by omega)
      rw [← hcell, hz u hu, zero_add] at hv
      rw [hv]
      unfold Kind.fn
      rw [if_pos (show (Kind.conv g).Inner u from ⟨i1, i2, i3, i4⟩)]
      simp [Kind.lin, Conv.corr]
    · rw [h3 u ?_, hz u hu, Kind.fn, if_neg hi]
      intro r s hr hs h
      apply hi
      have hlt : g.pad + s < g.outJ := by omega
      obtain ⟨q1, q2⟩ := split_idx (r := g.pad + r) hlt
      show Inside g.outJ g.pad g.nI g.nJ u
      unfold Conv.cell at h
      unfold Inside
      rw [h, q1, q2]
      omega
  · have := Conv.cell_lt g hr hs
    rw [← h] at this
    exact absurd hu (Nat.not_le.2 this)

theorem tconv_run (g : TConv.TGeom) (x k out : Arr ℝ) (b : ℝ) (hx : g.ch * g.inI * g.inJ ≤ x.len)
    (hk : g.ch * g.kI * g.kJ ≤ k.len) (ho : (Kind.tconv g).size ≤ out.len) (hz : ∀ u, u < (Kind.tconv g).size → out.get u = 0) :
    ∃ o, TConv.ff g x k b out = some o ∧ o.len = out.len ∧ (∀ u, u < (Kind.tconv g).size → o.get u = (Kind.tconv g).fn k.get b x.get u) ∧
      ∀ u, (Kind.tconv g).size ≤ u → o.get u = out.get u := by
  obtain ⟨o, e1, h1, h2, h3⟩ := TConv.C67_forward g x k out b hx hk ho
  refine ⟨o, e1, h1, fun u hu => ?_, h3⟩
  have hu' : u < (g.outI - 2 * g.pad) * (g.outJ - 2 * g.pad) := hu
  have hJ : 0 < g.outJ - 2 * g.pad := by
    rcases Nat.eq_zero_or_pos (g.outJ - 2 * g.pad) with h | h
    · rw [h, Nat.mul_zero] at hu'; omega
    · exact h
  have hv := h2 (u / (g.outJ - 2 * g.pad)) (u % (g.outJ - 2 * g.pad)) ((Nat.div_lt_iff_lt_mul hJ).2 hu') (Nat.mod_lt _ hJ)
  have hd : u / (g.outJ - 2 * g.pad) * (g.outJ - 2 * g.pad) + u % (g.outJ - 2 * g.pad) = u := by
    rw [Nat.mul_comm]; exact Nat.div_add_mod u _
  rw [hd, hz u hu, ite_self, zero_add] at hv
  rw [hv]
  unfold Kind.fn
  rw [if_pos (show (Kind.tconv g).Inner u from trivial)]
  rfl

/-- The error-weighted sum of a channel, in the two forms. -/
theorem conv_weighted (g : Conv.Geom) (e x k : Nat → ℝ) (b : ℝ) :
    ∑ u ∈ range (Kind.conv g).size, e u * (Kind.conv g).fn k b x u = Conv.weighted g e x k b := by
  have hI : g.outI = g.nI + 2 * g.pad := rfl
  have hJ : g.outJ = g.nJ + 2 * g.pad := rfl
  have h := sum_frame g.pad g.nI g.nJ e (fun r s => Conv.corr g x k b r s)
  rw [← hI, ← hJ] at h
  unfold Conv.weighted Conv.cell
  rw [← h]
  refine Finset.sum_congr rfl fun u _ => ?_
  unfold Kind.fn
  congr 1
  show (if Inside g.outJ g.pad g.nI g.nJ u then _ else _) = _
  split_ifs
  · simp [Kind.lin, Conv.corr]
  · rfl

theorem tconv_weighted (g : TConv.TGeom) (e x k : Nat → ℝ) (b : ℝ) :
    ∑ u ∈ range (Kind.tconv g).size, e u * (Kind.tconv g).fn k b x u = TConv.weighted g e x k b := by
  unfold TConv.weighted
  show ∑ u ∈ range ((g.outI - 2 * g.pad) * (g.outJ - 2 * g.pad)), _ = _
  rw [sum_rows]
  refine Finset.sum_congr rfl fun r _ => Finset.sum_congr rfl fun s hs => ?_
  obtain ⟨e1, e2⟩ := split_idx (r := r) (Finset.mem_range.1 hs)
  unfold Kind.fn
  rw [if_pos (show (Kind.tconv g).Inner _ from trivial)]
  show _ * (TConv.tconv g x k (g.pad + (r * (g.outJ - 2 * g.pad) + s) / (g.outJ - 2 * g.pad))
    (g.pad + (r * (g.outJ - 2 * g.pad) + s) % (g.outJ - 2 * g.pad)) + b) = _
  rw [e1, e2]

/-! ### Several channels -/

/-- All kernels read the same input; their errors add up. -/
theorem Pull.stack {n nk A : Nat} (F : Nat → (Nat → ℝ) → Nat → ℝ) (x e : Nat → ℝ) (g : Nat → Nat → ℝ)
    (h : ∀ i, i < nk → Pull n A (F i) x (fun u => e (i * A + u)) (g i)) :
    Pull n (nk * A) (fun x p => F (p / A) x (p % A)) x e (fun p => ∑ i ∈ range nk, g i p) := by
  intro c c' t0 hc hd
  have h' := fun i (hi : i < nk) => h i hi c c' t0 hc hd
  choose d hd1 hd2 using h'
  refine ⟨fun p => if hp : p / A < nk then d (p / A) hp (p % A) else 0, fun p hp => ?_, ?_⟩
  · have hA : 0 < A := by
      rcases Nat.eq_zero_or_pos A with h | h
      · rw [h, Nat.mul_zero] at hp; omega
      · exact h
    have hp' : p / A < nk := (Nat.div_lt_iff_lt_mul hA).2 hp
    simp only [dif_pos hp']
    exact hd1 (p / A) hp' (p % A) (Nat.mod_lt p hA)
  · rw [sum_rows]
    have : ∀ i ∈ range nk, (∑ u ∈ range A, e (i * A + u) *
        (if hp : (i * A + u) / A < nk then d ((i * A + u) / A) hp ((i * A + u) % A) else 0)) = ∑ p ∈ range n, g i p * c' p := by
      intro i hi
      have hi' := Finset.mem_range.1 hi
      rw [← hd2 i hi']
      refine Finset.sum_congr rfl fun u hu => ?_
      obtain ⟨e1, e2⟩ := split_idx (r := i) (Finset.mem_range.1 hu)
      congr 1
      simp only [e1, e2, dif_pos hi']
    rw [Finset.sum_congr rfl this, Finset.sum_comm]
    exact Finset.sum_congr rfl fun p _ => by rw [Finset.sum_mul]

/-- Each channel is mapped on its own. -/
theorem Pull.blocks {nk A B : Nat} (F : Nat → (Nat → ℝ) → Nat → ℝ) (x e g : Nat → ℝ)
    (h : ∀ i, i < nk → Pull A B (F i) (fun u => x (i * A + u)) (fun v => e (i * B + v)) (fun u => g (i * A + u))) :
    Pull (nk * A) (nk * B) (fun x p => F (p / B) (fun u => x (p / B * A + u)) (p % B)) x e g := by
  intro c c' t0 hc hd
  have h' := fun i (hi : i < nk) => h i hi (fun t u => c t (i * A + u)) (fun u => c' (i * A + u)) t0 (by rw [hc])
    (fun u hu => hd (i * A + u) (Vec.idx_lt hi hu))
  choose d hd1 hd2 using h'
  refine ⟨fun p => if hp : p / B < nk then d (p / B) hp (p % B) else 0, fun p hp => ?_, ?_⟩
  · have hB : 0 < B := by
      rcases Nat.eq_zero_or_pos B with h | h
      · rw [h, Nat.mul_zero] at hp; omega
      · exact h
    have hp' : p / B < nk := (Nat.div_lt_iff_lt_mul hB).2 hp
    simp only [dif_pos hp']
    exact hd1 (p / B) hp' (p % B) (Nat.mod_lt p hB)
  · rw [sum_rows, sum_rows]
    refine Finset.sum_congr rfl fun i hi => ?_
    have hi' := Finset.mem_range.1 hi
    rw [← hd2 i hi']
    refine Finset.sum_congr rfl fun u hu => ?_
    obtain ⟨e1, e2⟩ := split_idx (r := i) (Finset.mem_range.1 hu)
    congr 1
    simp only [e1, e2, dif_pos hi']

end LLab.CNet
