import Verif.Layers.MultiHead

/-!
Self attention along curves: when queries, keys and values all move at once,
the errors computed by the backward pass account for the velocity of the
output.
-/

namespace LLab.Attention

open Finset LLab.Softmax

/-- The first `n` cells of the curve `c` have velocity `c'` at time `τ`. -/
def Moves (n : Nat) (c : ℝ → Nat → ℝ) (c' : Nat → ℝ) (τ : ℝ) : Prop :=
  ∀ i, i < n → HasDerivAt (fun t => c t i) (c' i) τ

/-- Inner product of the first `n` cells. -/
def dot (n : Nat) (a b : Nat → ℝ) : ℝ := ∑ i ∈ range n, a i * b i

/-- Velocity of the scaled inner product of query `a` and key `b`. -/
noncomputable def scoreVel (k : Nat) (q key q' key' : Nat → ℝ) (a b : Nat) : ℝ :=
  (∑ c ∈ range k, (q' (a * k + c) * key (b * k + c) + q (a * k + c) * key' (b * k + c))) / Real.sqrt k

theorem score_curve {dim k : Nat} {Q K : ℝ → Nat → ℝ} {Q' K' : Nat → ℝ} {τ : ℝ} (hq : Moves (dim * k) Q Q' τ)
    (hk : Moves (dim * k) K K' τ) {a b : Nat} (ha : a < dim) (hb : b < dim) :
    HasDerivAt (fun t => score k (Q t) (K t) a b) (scoreVel k (Q τ) (K τ) Q' K' a b) τ :=
  (HasDerivAt.fun_sum fun c hc => (hq (a * k + c) (Vec.idx_lt ha (Finset.mem_range.1 hc))).mul
    (hk (b * k + c) (Vec.idx_lt hb (Finset.mem_range.1 hc)))).div_const _

theorem attn_curve (masked : Bool) (dim k v : Nat) (Q K V : ℝ → Nat → ℝ) (Q' K' V' : Nat → ℝ) (τ : ℝ)
    (hq : Moves (dim * k) Q Q' τ) (hk : Moves (dim * k) K K' τ) (hv : Moves (v * dim) V V' τ) :
    ∃ D : Nat → Nat → ℝ,
      (∀ a, a < dim → ∀ j, j < v →
        HasDerivAt (fun t => attn masked dim k (Q t) (K t) (V t) a j) (D a j) τ) ∧
      ∀ e : Nat → ℝ, ∑ a ∈ range dim, ∑ j ∈ range v, e (a * v + j) * D a j =
        (∑ a ∈ range dim, ∑ b ∈ range (vis masked dim a),
          grad (vis masked dim a) (fun t => smax (vis masked dim a) (score k (Q τ) (K τ) a) t)
            (rowErr dim v e (V τ) a) b * scoreVel k (Q τ) (K τ) Q' K' a b) +
        ∑ a ∈ range dim, ∑ j ∈ range v, e (a * v + j) * ∑ t ∈ range (vis masked dim a),
          smax (vis masked dim a) (score k (Q τ) (K τ) a) t * V' (j * dim + t) := by
  have hrow : ∀ a, a < dim → ∀ w : Nat → ℝ,
      HasDerivAt (fun t => ∑ i ∈ range (vis masked dim a), w i * smax (vis masked dim a) (score k (Q t) (K t) a) i)
        (∑ b ∈ range (vis masked dim a), grad (vis masked dim a)
          (fun t => smax (vis masked dim a) (score k (Q τ) (K τ) a) t) w b *
            scoreVel k (Q τ) (K τ) Q' K' a b) τ := by
    intro a ha w
    have hvl := vis_le masked ha
    exact wsum_path (range (vis masked dim a)) ⟨0, by simpa using vis_pos masked ha⟩ w
      (fun b t => score k (Q t) (K t) a b) (scoreVel k (Q τ) (K τ) Q' K' a) τ
      (fun b hb => score_curve hq hk ha (by have := Finset.mem_range.1 hb; omega)) _ (fun b _ => rfl)
  have hs : ∀ a, ∃ S' : Nat → ℝ, a < dim → ∀ i, i < vis masked dim a →
      HasDerivAt (fun t => smax (vis masked dim a) (score k (Q t) (K t) a) i) (S' i) τ := by
    intro a
    by_cases ha : a < dim
    · refine ⟨_, fun _ i hi => (hrow a ha (fun u => if u = i then 1 else 0)).congr_of_eventuallyEq ?_⟩
      refine Filter.Eventually.of_forall fun t => ?_
      simp only [ite_mul, one_mul, zero_mul]
      rw [Finset.sum_ite_eq', if_pos (Finset.mem_range.2 hi)]
    · exact ⟨fun _ => 0, fun h => absurd h ha⟩
  choose S' hS using hs
  refine ⟨fun a j => ∑ t ∈ range (vis masked dim a), (S' a t * V τ (j * dim + t) +
    smax (vis masked dim a) (score k (Q τ) (K τ) a) t * V' (j * dim + t)), ?_, ?_⟩
  · intro a ha j hj
    have hvl := vis_le masked ha
    refine HasDerivAt.fun_sum fun t ht => ?_
    have ht' := Finset.mem_range.1 ht
    exact (hS a ha t ht').mul (hv (j * dim + t) (Vec.idx_lt hj (by omega)))
  · intro e
    rw [← Finset.sum_add_distrib]
    refine Finset.sum_congr rfl fun a ha => ?_
    have ha' := Finset.mem_range.1 ha
    have h1 := hrow a ha' (rowErr dim v e (V τ) a)
    have h2 : HasDerivAt (fun t => ∑ i ∈ range (vis masked dim a), rowErr dim v e (V τ) a i *
        smax (vis masked dim a) (score k (Q t) (K t) a) i)
        (∑ i ∈ range (vis masked dim a), rowErr dim v e (V τ) a i * S' a i) τ :=
      HasDerivAt.fun_sum fun i hi => (hS a ha' i (Finset.mem_range.1 hi)).const_mul _
    rw [h1.unique h2]
    simp only [Finset.sum_add_distrib, mul_add]
    congr 1
    unfold rowErr
    simp only [Finset.mul_sum, Finset.sum_mul]
    rw [Finset.sum_comm]
    exact Finset.sum_congr rfl fun t _ => Finset.sum_congr rfl fun j _ => by ring

/-- Inner product with an array that is a sum of single cells. -/
theorem dot_pick (n A B C : Nat) (W : Nat → Nat → Nat → Nat) (F : Nat → Nat → Nat → ℝ) (x : Nat → ℝ)
    (hW : ∀ a, a < A → ∀ b, b < B → ∀ c, c < C → W a b c < n) :
    (∑ p ∈ range n, (∑ a ∈ range A, ∑ b ∈ range B, ∑ c ∈ range C, if p = W a b c then F a b c else 0) * x p) =
      ∑ a ∈ range A, ∑ b ∈ range B, ∑ c ∈ range C, F a b c * x (W a b c) := by
  simp only [Finset.sum_mul]
  rw [Finset.sum_comm]
  refine Finset.sum_congr rfl fun a ha => ?_
  rw [Finset.sum_comm]
  refine Finset.sum_congr rfl fun b hb => ?_
  rw [Finset.sum_comm]
  refine Finset.sum_congr rfl fun c hc => ?_
  simp only [ite_mul, zero_mul]
  rw [Finset.sum_ite_eq', if_pos (Finset.mem_range.2
    (hW a (Finset.mem_range.1 ha) b (Finset.mem_range.1 hb) c (Finset.mem_range.1 hc)))]

/-- What the backward pass of one head adds to the errors accounts for the
velocity of the output of that head. -/
theorem bp_adjoint (masked : Bool) (dim k v : Nat) (q key value soft e : Arr ℝ) (st : Errs)
    (hq : dim * k ≤ q.len) (hk : dim * k ≤ key.len) (hv : v * dim ≤ value.len)
    (hso : dim * dim ≤ soft.len) (he : dim * v ≤ e.len)
    (hqe : dim * k ≤ st.queryErr.len) (hke : dim * k ≤ st.keyErr.len) (hve : v * dim ≤ st.valueErr.len)
    (hsc : dim * dim ≤ st.scoreErr.len) (hse : dim * dim ≤ st.softErr.len)
    (hsoft : ∀ a, a < dim → ∀ t, t < dim → soft.get (a * dim + t) =
        if t < vis masked dim a then smax (vis masked dim a) (score k q.get key.get a) t else 0)
    (zsc : ∀ u, u < dim * dim → st.scoreErr.get u = 0) (zse : ∀ u, u < dim * dim → st.softErr.get u = 0) :
    ∃ qe ke ve sce se : Arr ℝ, bp masked dim k v q key value soft e st = some ⟨qe, ke, ve, sce, se⟩ ∧
      (qe.len = st.queryErr.len ∧ ke.len = st.keyErr.len ∧ ve.len = st.valueErr.len ∧
        sce.len = st.scoreErr.len ∧ se.len = st.softErr.len) ∧
      ((∀ u, dim * dim ≤ u → sce.get u = st.scoreErr.get u) ∧
        ∀ u, dim * dim ≤ u → se.get u = st.softErr.get u) ∧
      ((∀ u, dim * k ≤ u → qe.get u = st.queryErr.get u) ∧ (∀ u, dim * k ≤ u → ke.get u = st.keyErr.get u) ∧
        ∀ u, v * dim ≤ u → ve.get u = st.valueErr.get u) ∧
      ∀ (Q K V : ℝ → Nat → ℝ) (Q' K' V' : Nat → ℝ) (τ : ℝ) (D : Nat → Nat → ℝ),
        (∀ u, u < dim * k → Q τ u = q.get u) → (∀ u, u < dim * k → K τ u = key.get u) →
        (∀ u, u < v * dim → V τ u = value.get u) →
        Moves (dim * k) Q Q' τ → Moves (dim * k) K K' τ → Moves (v * dim) V V' τ →
        (∀ a, a < dim → ∀ j, j < v →
          HasDerivAt (fun t => attn masked dim k (Q t) (K t) (V t) a j) (D a j) τ) →
        ∑ a ∈ range dim, ∑ j ∈ range v, e.get (a * v + j) * D a j =
          dot (dim * k) (fun p => qe.get p - st.queryErr.get p) Q' +
          dot (dim * k) (fun p => ke.get p - st.keyErr.get p) K' +
          dot (v * dim) (fun p => ve.get p - st.valueErr.get p) V' := by
  obtain ⟨qe, ke, ve, sce, se, hrun, hl, ht, hve1, hke1, hqe1, hcol⟩ := bp_run masked dim k v q key value soft e st
    hq hk hv hso he hqe hke hve hsc hse hsoft zsc zse
  refine ⟨qe, ke, ve, sce, se, hrun, hl, ht, ⟨?_, ?_, ?_⟩, ?_⟩
  · intro u hu
    refine sub_eq_zero.1 ((hqe1 u).trans ?_)
    refine Finset.sum_eq_zero fun a ha => Finset.sum_eq_zero fun b _ => Finset.sum_eq_zero fun c hc => ?_
    have := Vec.idx_lt (Finset.mem_range.1 ha) (Finset.mem_range.1 hc)
    rw [if_neg (by omega)]
  · intro u hu
    refine sub_eq_zero.1 ((hke1 u).trans ?_)
    refine Finset.sum_eq_zero fun a _ => Finset.sum_eq_zero fun b hb => Finset.sum_eq_zero fun c hc => ?_
    have := Vec.idx_lt (Finset.mem_range.1 hb) (Finset.mem_range.1 hc)
    rw [if_neg (by omega)]
  · intro u hu
    refine sub_eq_zero.1 ((hve1 u).trans ?_)
    refine Finset.sum_eq_zero fun a _ => Finset.sum_eq_zero fun b hb => Finset.sum_eq_zero fun c hc => ?_
    have := Vec.idx_lt (Finset.mem_range.1 hb) (Finset.mem_range.1 hc)
    rw [if_neg (by omega)]
  · intro Q K V Q' K' V' τ D eQ eK eV mQ mK mV hD
    obtain ⟨D2, hD2, hsum⟩ := attn_curve masked dim k v Q K V Q' K' V' τ mQ mK mV
    have hDD : ∑ a ∈ range dim, ∑ j ∈ range v, e.get (a * v + j) * D a j =
        ∑ a ∈ range dim, ∑ j ∈ range v, e.get (a * v + j) * D2 a j :=
      Finset.sum_congr rfl fun a ha => Finset.sum_congr rfl fun j hj => by
        rw [(hD a (Finset.mem_range.1 ha) j (Finset.mem_range.1 hj)).unique
          (hD2 a (Finset.mem_range.1 ha) j (Finset.mem_range.1 hj))]
    rw [hDD, hsum e.get]
    have hscore : ∀ a, a < dim → ∀ b, b < dim → score k (Q τ) (K τ) a b = score k q.get key.get a b := by
      intro a ha b hb
      unfold score
      congr 1
      refine Finset.sum_congr rfl fun c hc => ?_
      rw [eQ _ (Vec.idx_lt ha (Finset.mem_range.1 hc)), eK _ (Vec.idx_lt hb (Finset.mem_range.1 hc))]
    have hsm : ∀ a, a < dim → ∀ i, i < vis masked dim a → smax (vis masked dim a) (score k (Q τ) (K τ) a) i =
        smax (vis masked dim a) (score k q.get key.get a) i := by
      intro a ha i hi
      have hvl := vis_le masked ha
      exact smax_congr (fun b hb => hscore a ha b (by omega)) hi
    have p1 : (∑ a ∈ range dim, ∑ b ∈ range (vis masked dim a),
          grad (vis masked dim a) (fun t => smax (vis masked dim a) (score k (Q τ) (K τ) a) t)
            (rowErr dim v e.get (V τ) a) b * scoreVel k (Q τ) (K τ) Q' K' a b) =
        ∑ a ∈ range dim, ∑ b ∈ range dim, sce.get (a * dim + b) * scoreVel k q.get key.get Q' K' a b := by
      rw [← hcol]
      refine Finset.sum_congr rfl fun a ha => Finset.sum_congr rfl fun b hb => ?_
      have ha' := Finset.mem_range.1 ha
      have hb' := Finset.mem_range.1 hb
      have hvl := vis_le masked ha'
      congr 1
      · refine grad_congr (fun i hi => hsm a ha' i hi) (fun i hi => ?_) hb'
        unfold rowErr
        refine Finset.sum_congr rfl fun j hj => ?_
        rw [eV _ (Vec.idx_lt (Finset.mem_range.1 hj) (by omega))]
      · unfold scoreVel
        congr 1
        refine Finset.sum_congr rfl fun c hc => ?_
        rw [eQ _ (Vec.idx_lt ha' (Finset.mem_range.1 hc)),
          eK _ (Vec.idx_lt (show b < dim by omega) (Finset.mem_range.1 hc))]
    have p2 : (∑ a ∈ range dim, ∑ j ∈ range v, e.get (a * v + j) * ∑ t ∈ range (vis masked dim a),
          smax (vis masked dim a) (score k (Q τ) (K τ) a) t * V' (j * dim + t)) =
        ∑ a ∈ range dim, ∑ j ∈ range v, ∑ t ∈ range dim,
          soft.get (a * dim + t) * e.get (a * v + j) * V' (j * dim + t) := by
      refine Finset.sum_congr rfl fun a ha => Finset.sum_congr rfl fun j _ => ?_
      have ha' := Finset.mem_range.1 ha
      have hvl := vis_le masked ha'
      rw [Finset.mul_sum]
      refine (Finset.sum_congr rfl fun t ht => ?_).trans
        (Finset.sum_subset (Finset.range_subset_range.2 hvl) fun t ht ht' => ?_)
      · have ht' := Finset.mem_range.1 ht
        rw [hsm a ha' t ht', hsoft a ha' t (by omega), if_pos ht']
        ring
      · rw [hsoft a ha' t (Finset.mem_range.1 ht), if_neg (by simpa using ht'), zero_mul, zero_mul]
    rw [p1, p2]
    unfold dot
    simp only [hqe1, hke1, hve1]
    rw [dot_pick (dim * k) dim dim k (fun a _ c => a * k + c)
        (fun a b c => key.get (b * k + c) * (sce.get (a * dim + b) / Real.sqrt k)) Q'
        (fun a ha _ _ c hc => Vec.idx_lt ha hc),
      dot_pick (dim * k) dim dim k (fun _ b c => b * k + c)
        (fun a b c => q.get (a * k + c) * (sce.get (a * dim + b) / Real.sqrt k)) K'
        (fun _ _ b hb c hc => Vec.idx_lt hb hc),
      dot_pick (v * dim) dim v dim (fun _ j t => j * dim + t)
        (fun a j t => soft.get (a * dim + t) * e.get (a * v + j)) V'
        (fun _ _ j hj t ht => Vec.idx_lt hj ht)]
    congr 1
    rw [← Finset.sum_add_distrib]
    refine Finset.sum_congr rfl fun a _ => ?_
    rw [← Finset.sum_add_distrib]
    refine Finset.sum_congr rfl fun b _ => ?_
    unfold scoreVel
    rw [Finset.sum_div, Finset.mul_sum, ← Finset.sum_add_distrib]
    exact Finset.sum_congr rfl fun c _ => by ring

end LLab.Attention
