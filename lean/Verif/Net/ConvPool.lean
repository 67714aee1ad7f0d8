import Verif.Net.ConvOps

/-!
The pooling of channels as a differentiable step. Used by `Verif.Net.ConvNet` (property C135).
-/

namespace LLab.CNet

open Finset LLab.Chain

/-- `Pull` for curves along which the arguments `i` with `D i` do not move near the point. -/
def PullD (D : Nat → Prop) (n m : Nat) (F : (Nat → ℝ) → Nat → ℝ) (x e g : Nat → ℝ) : Prop :=
  ∀ (c : ℝ → Nat → ℝ) (c' : Nat → ℝ) (t0 : ℝ), c t0 = x → (∀ i, i < n → HasDerivAt (fun t => c t i) (c' i) t0) →
    (∀ i, i < n → D i → ∀ᶠ t in nhds t0, c t i = x i) →
    ∃ d : Nat → ℝ, (∀ k, k < m → HasDerivAt (fun t => F (c t) k) (d k) t0) ∧
      ∑ k ∈ range m, e k * d k = ∑ i ∈ range n, g i * c' i

theorem Pull.toD {n m : Nat} {F : (Nat → ℝ) → Nat → ℝ} {x e g : Nat → ℝ} (h : Pull n m F x e g) (D : Nat → Prop) :
    PullD D n m F x e g := fun c c' t0 hc hd _ => h c c' t0 hc hd

theorem PullD.toPull {n m : Nat} {F : (Nat → ℝ) → Nat → ℝ} {x e g : Nat → ℝ} {D : Nat → Prop} (h : PullD D n m F x e g)
    (hD : ∀ i, i < n → ¬D i) : Pull n m F x e g := fun c c' t0 hc hd => h c c' t0 hc hd fun i hi hi' => absurd hi' (hD i hi)

theorem PullD.congr {D : Nat → Prop} {n m : Nat} {F : (Nat → ℝ) → Nat → ℝ} {x e e' g g' : Nat → ℝ} (h : PullD D n m F x e g)
    (he : ∀ k, k < m → e' k = e k) (hg : ∀ i, i < n → g' i = g i) : PullD D n m F x e' g' := by
  intro c c' t0 hc hd hD
  obtain ⟨d, h1, h2⟩ := h c c' t0 hc hd hD
  refine ⟨d, h1, ?_⟩
  rw [Finset.sum_congr rfl fun k hk => by rw [he k (Finset.mem_range.1 hk)], h2]
  exact Finset.sum_congr rfl fun k hk => by rw [hg k (Finset.mem_range.1 hk)]

theorem PullD.par {D : Nat → Prop} {n m : Nat} {G : (Nat → ℝ) → Nat → ℝ} {x e g : Nat → ℝ} (h : PullD D n m G x e g) {F : ℝ → Nat → ℝ}
    {t0 a : ℝ} (h0 : F t0 = x) (hF : Par n F t0 g a) (hD : ∀ i, i < n → D i → ∀ᶠ t in nhds t0, F t i = x i) :
    Par m (fun t => G (F t)) t0 e a := by
  obtain ⟨d, h1, h2⟩ := hF
  obtain ⟨d', h3, h4⟩ := h F d t0 h0 h1 hD
  exact ⟨d', h3, h4.trans h2⟩

/-- Each channel is mapped on its own. -/
theorem PullD.blocks {D : Nat → Prop} {nk A B : Nat} (F : (Nat → ℝ) → Nat → ℝ) (x e g : Nat → ℝ)
    (h : ∀ i, i < nk → PullD (fun u => D (i * A + u)) A B F (fun u => x (i * A + u)) (fun v => e (i * B + v)) (fun u => g (i * A + u))) :
    PullD D (nk * A) (nk * B) (fun x p => F (fun u => x (p / B * A + u)) (p % B)) x e g := by
  intro c c' t0 hc hd hD
  have h' := fun i (hi : i < nk) => h i hi (fun t u => c t (i * A + u)) (fun u => c' (i * A + u)) t0 (by rw [hc])
    (fun u hu => hd (i * A + u) (Vec.idx_lt hi hu)) (fun u hu => hD (i * A + u) (Vec.idx_lt hi hu))
  choose d hd1 hd2 using h'
  refine ⟨fun p => if hp : p / B < nk then d (p / B) hp (p % B) else 0, fun p hp => ?_, ?_⟩
  · have hB : 0 < B := by
      rcases Nat.eq_zero_or_pos B with h | h
      · rw [h, Nat.mul_zero] at hp; omega
      · exact h
    have hp' : p / B < nk := (Nat.div_lt_iff_lt_mul hB).2 hp
    simp only [dif_pos hp']
    exact hd1 (p / B) hp' (p % B) (Nat.mod_lt p hB)
  · rw [sum_rows, sum_rows]
    refine Finset.sum_congr rfl fun i hi => ?_
    have hi' := Finset.mem_range.1 hi
    rw [← hd2 i hi']
    refine Finset.sum_congr rfl fun u hu => ?_
    obtain ⟨e1, e2⟩ := split_idx (r := i) (Finset.mem_range.1 hu)
    congr 1
    simp only [e1, e2, dif_pos hi']

/-! ### One channel -/

theorem inside_lt {pg : Pool.PGeom} {v : Nat} (h : Inside pg.outJ pg.pad pg.nI pg.nJ v) :
    v / pg.outJ - pg.pad < pg.nI ∧ v % pg.outJ - pg.pad < pg.nJ ∧ v = Pool.ocell pg (v / pg.outJ - pg.pad) (v % pg.outJ - pg.pad) := by
  obtain ⟨h1, h2, h3, h4⟩ := h
  refine ⟨by omega, by omega, ?_⟩
  unfold Pool.ocell
  rw [Nat.add_sub_cancel' h1, Nat.add_sub_cancel' h3, Nat.mul_comm]
  exact (Nat.div_add_mod v pg.outJ).symm

theorem inside_ocell {pg : Pool.PGeom} {i j : Nat} (hi : i < pg.nI) (hj : j < pg.nJ) : Inside pg.outJ pg.pad pg.nI pg.nJ (Pool.ocell pg i j) ∧
    Pool.ocell pg i j / pg.outJ - pg.pad = i ∧ Pool.ocell pg i j % pg.outJ - pg.pad = j := by
  have hlt : pg.pad + j < pg.outJ := by unfold Pool.PGeom.outJ; omega
  obtain ⟨q1, q2⟩ := split_idx (r := pg.pad + i) hlt
  unfold Inside Pool.ocell
  rw [q1, q2]
  omega

theorem poolFn_max (pg : Pool.PGeom) (hg : pg.Ok) (y : Nat → ℝ) (v : Nat) : poolFn .max pg y v =
    if Inside pg.outJ pg.pad pg.nI pg.nJ v then Pool.pooled pg hg y (v / pg.outJ - pg.pad) (v % pg.outJ - pg.pad) else 0 := by
  unfold poolFn
  dsimp only
  rw [dif_pos hg]

/-- Max pooling along a curve, for a choice of a largest cell in each window. -/
theorem PullD.max (pg : Pool.PGeom) (hg : pg.Ok) (y e : Nat → ℝ) (dead : Nat → Prop) (hn : NoTie pg y dead) (a b : Nat → Nat → Nat)
    (hab : ∀ i, i < pg.nI → ∀ j, j < pg.nJ → a i j < pg.kI ∧ b i j < pg.kJ ∧
      ∀ k1 k2, k1 < pg.kI → k2 < pg.kJ → y (Pool.win pg i j k1 k2) ≤ y (Pool.win pg i j (a i j) (b i j))) :
    PullD dead (pg.inI * pg.inJ) (pg.outI * pg.outJ) (poolFn .max pg) y e
      (fun u => ∑ i ∈ range pg.nI, ∑ j ∈ range pg.nJ, if u = Pool.win pg i j (a i j) (b i j) then e (Pool.ocell pg i j) else 0) := by
  intro c c' t0 hc hd hD
  refine ⟨fun v => if Inside pg.outJ pg.pad pg.nI pg.nJ v then
    c' (Pool.win pg (v / pg.outJ - pg.pad) (v % pg.outJ - pg.pad) (a (v / pg.outJ - pg.pad) (v % pg.outJ - pg.pad))
      (b (v / pg.outJ - pg.pad) (v % pg.outJ - pg.pad))) else 0, fun v hv => ?_, ?_⟩
  · simp only [poolFn_max pg hg]
    by_cases hin : Inside pg.outJ pg.pad pg.nI pg.nJ v
    · simp only [if_pos hin]
      obtain ⟨hi, hj, -⟩ := inside_lt hin
      generalize v / pg.outJ - pg.pad = i at hi ⊢
      generalize v % pg.outJ - pg.pad = j at hj ⊢
      obtain ⟨h1, h2, h3⟩ := hab i hi j hj
      refine (hd _ (Pool.win_lt hg hi hj h1 h2)).congr_of_eventuallyEq ?_
      have hev : ∀ᶠ t in nhds t0, ∀ k ∈ Pool.offs pg, c t (Pool.win pg i j k.1 k.2) ≤ c t (Pool.win pg i j (a i j) (b i j)) := by
        rw [Filter.eventually_all_finset]
        rintro ⟨k1, k2⟩ hk
        simp only [Pool.offs, Finset.mem_product, Finset.mem_range] at hk
        by_cases heq : (a i j, b i j) = (k1, k2)
        · obtain ⟨rfl, rfl⟩ := Prod.mk.inj heq
          exact Filter.Eventually.of_forall fun _ => le_refl _
        · rcases (h3 k1 k2 hk.1 hk.2).lt_or_eq with hlt | hE
          · refine ((hd _ (Pool.win_lt hg hi hj hk.1 hk.2)).continuousAt.eventually_lt
              (hd _ (Pool.win_lt hg hi hj h1 h2)).continuousAt ?_).mono fun t ht => ht.le
            rw [hc]; exact hlt
          · obtain ⟨d1, d2⟩ := (hn i j hi hj).2 (a i j) (b i j) k1 k2 h1 h2 hk.1 hk.2 heq h3 hE
            filter_upwards [hD _ (Pool.win_lt hg hi hj h1 h2) d1, hD _ (Pool.win_lt hg hi hj hk.1 hk.2) d2] with t t1 t2
            rw [t1, t2, hE]
      refine hev.mono fun t ht => ?_
      refine le_antisymm (Finset.sup'_le _ _ ht) ?_
      exact Finset.le_sup' (fun k : Nat × Nat => c t (Pool.win pg i j k.1 k.2))
        (by simp [Pool.offs, h1, h2] : (a i j, b i j) ∈ Pool.offs pg)
    · simp only [if_neg hin]
      exact hasDerivAt_const _ _
  · have h := sum_frame pg.pad pg.nI pg.nJ e (fun i j => c' (Pool.win pg i j (a i j) (b i j)))
    refine h.trans ?_
    simp only [Finset.sum_mul]
    conv_rhs => rw [Finset.sum_comm]
    refine Finset.sum_congr rfl fun i hi => ?_
    conv_rhs => rw [Finset.sum_comm]
    refine Finset.sum_congr rfl fun j hj => ?_
    obtain ⟨h1, h2, -⟩ := hab i (Finset.mem_range.1 hi) j (Finset.mem_range.1 hj)
    have hlt := Pool.win_lt hg (Finset.mem_range.1 hi) (Finset.mem_range.1 hj) h1 h2
    rw [Finset.sum_eq_single (Pool.win pg i j (a i j) (b i j))]
    · rw [if_pos rfl]; rfl
    · intro u _ hne
      rw [if_neg hne, zero_mul]
    · intro h; exact absurd (Finset.mem_range.2 hlt) h

/-- Average pooling along a curve. -/
theorem Pull.avg (pg : Pool.PGeom) (hg : pg.Ok) (y e : Nat → ℝ) :
    Pull (pg.inI * pg.inJ) (pg.outI * pg.outJ) (poolFn .avg pg) y e
      (fun u => ∑ i ∈ range pg.nI, ∑ j ∈ range pg.nJ, ∑ k ∈ Pool.offs pg,
        if u = Pool.win pg i j k.1 k.2 then e (Pool.ocell pg i j) / ((pg.kI * pg.kJ : Nat) : ℝ) else 0) := by
  intro c c' t0 hc hd
  refine ⟨fun v => if Inside pg.outJ pg.pad pg.nI pg.nJ v then Pool.mean pg c' (v / pg.outJ - pg.pad) (v % pg.outJ - pg.pad) else 0,
    fun v hv => ?_, ?_⟩
  · simp only [poolFn]
    by_cases hin : Inside pg.outJ pg.pad pg.nI pg.nJ v
    · simp only [if_pos hin]
      obtain ⟨hi, hj, -⟩ := inside_lt hin
      unfold Pool.mean
      refine HasDerivAt.div_const (HasDerivAt.fun_sum fun k hk => ?_) _
      simp only [Pool.offs, Finset.mem_product, Finset.mem_range] at hk
      exact hd _ (Pool.win_lt hg hi hj hk.1 hk.2)
    · simp only [if_neg hin]
      exact hasDerivAt_const _ _
  · have h := sum_frame pg.pad pg.nI pg.nJ e (fun i j => Pool.mean pg c' i j)
    refine h.trans ?_
    simp only [Finset.sum_mul]
    conv_rhs => rw [Finset.sum_comm]
    refine Finset.sum_congr rfl fun i hi => ?_
    conv_rhs => rw [Finset.sum_comm]
    refine Finset.sum_congr rfl fun j hj => ?_
    conv_rhs => rw [Finset.sum_comm]
    unfold Pool.mean
    rw [Finset.sum_div, Finset.mul_sum]
    refine Finset.sum_congr rfl fun k hk => ?_
    simp only [Pool.offs, Finset.mem_product, Finset.mem_range] at hk
    have hlt := Pool.win_lt hg (Finset.mem_range.1 hi) (Finset.mem_range.1 hj) hk.1 hk.2
    rw [Finset.sum_eq_single (Pool.win pg i j k.1 k.2)]
    · rw [if_pos rfl]
      show e (Pool.ocell pg i j) * _ = _
      ring
    · intro u _ hne
      rw [if_neg hne, zero_mul]
    · intro h; exact absurd (Finset.mem_range.2 hlt) h

/-- What the pooling functions leave in a cleared channel. -/
theorem max_run (pg : Pool.PGeom) (hg : pg.Ok) (x out : Arr ℝ) (hx : pg.inI * pg.inJ ≤ x.len) (ho : pg.outI * pg.outJ ≤ out.len)
    (hlow : ∀ i j, i < pg.nI → j < pg.nJ → ∃ k1 k2, k1 < pg.kI ∧ k2 < pg.kJ ∧ -999999 ≤ x.get (Pool.win pg i j k1 k2))
    (hz : ∀ u, u < pg.outI * pg.outJ → out.get u = 0) :
    ∃ m o, Pool.maxFF pg x out = some (m, o) ∧ o.len = out.len ∧ (∀ u, u < pg.outI * pg.outJ → o.get u = poolFn .max pg x.get u) ∧
      ∀ u, pg.outI * pg.outJ ≤ u → o.get u = out.get u := by
  obtain ⟨m, o, e1, h1, h2, h3⟩ := Pool.C29_max_pooling_partial pg hg x out hx ho hlow
  refine ⟨m, o, e1, h1, fun u hu => ?_, fun u hu => h3 u fun i j hi hj h => ?_⟩
  · rw [poolFn_max pg hg]
    by_cases hin : Inside pg.outJ pg.pad pg.nI pg.nJ u
    · rw [if_pos hin]
      obtain ⟨hi, hj, he⟩ := inside_lt hin
      generalize u / pg.outJ - pg.pad = i at hi he ⊢
      generalize u % pg.outJ - pg.pad = j at hj he ⊢
      obtain ⟨⟨k1, k2, hk1, hk2, hv⟩, hmx⟩ := h2 i j hi hj
      rw [he]
      refine le_antisymm ?_ (Finset.sup'_le _ _ ?_)
      · rw [hv]
        exact Finset.le_sup' (fun k : Nat × Nat => x.get (Pool.win pg i j k.1 k.2)) (by simp [Pool.offs, hk1, hk2] : (k1, k2) ∈ Pool.offs pg)
      · rintro ⟨a, b⟩ hk
        simp only [Pool.offs, Finset.mem_product, Finset.mem_range] at hk
        exact hmx a b hk.1 hk.2
    · rw [if_neg hin, h3 u ?_, hz u hu]
      intro i j hi hj h
      apply hin
      rw [h]
      exact (inside_ocell hi hj).1
  · have := Pool.ocell_lt pg hi hj
    omega

theorem avg_run (pg : Pool.PGeom) (hg : pg.Ok) (x out : Arr ℝ) (hx : pg.inI * pg.inJ ≤ x.len) (ho : pg.outI * pg.outJ ≤ out.len)
    (hz : ∀ u, u < pg.outI * pg.outJ → out.get u = 0) :
    ∃ m o, Pool.avgFF pg x out = some (m, o) ∧ o.len = out.len ∧ (∀ u, u < pg.outI * pg.outJ → o.get u = poolFn .avg pg x.get u) ∧
      ∀ u, pg.outI * pg.outJ ≤ u → o.get u = out.get u := by
  obtain ⟨m, o, e1, h1, h2, h3⟩ := Pool.C30_average_forward pg hg x out hx ho
  refine ⟨m, o, e1, h1, fun u hu => ?_, fun u hu => h3 u fun i j hi hj h => ?_⟩
  · unfold poolFn
    dsimp only
    by_cases hin : Inside pg.outJ pg.pad pg.nI pg.nJ u
    · rw [if_pos hin]
      obtain ⟨hi, hj, he⟩ := inside_lt hin
      generalize u / pg.outJ - pg.pad = i at hi he ⊢
      generalize u % pg.outJ - pg.pad = j at hj he ⊢
      rw [he, h2 i j hi hj]
      unfold Pool.mean Pool.offs
      rw [Finset.sum_product]
    · rw [if_neg hin, h3 u ?_, hz u hu]
      intro i j hi hj h
      apply hin
      rw [h]
      exact (inside_ocell hi hj).1
  · have := Pool.ocell_lt pg hi hj
    omega

/-- The pooling function of a channel, forward: `poolFF`. -/
noncomputable def poolFF (p : PoolKind) (pg : Pool.PGeom) (x out : Arr ℝ) : Option (Arr ℝ) :=
  match p with
  | .none => some out
  | .max => (Pool.maxFF pg x out).map Prod.snd
  | .avg => (Pool.avgFF pg x out).map Prod.snd

/-- The pooling function of a channel, backward. -/
noncomputable def poolBP (p : PoolKind) (pg : Pool.PGeom) (x e ie : Arr ℝ) : Option (Arr ℝ) :=
  match p with
  | .none => some ie
  | .max => (Pool.maxBP pg x e ie).map Prod.snd
  | .avg => Pool.avgBP pg e ie

/-- What a pooling needs: windows that fit and do not overlap, and for the maximum the values
of a channel apart from each other. -/
def PoolOk (p : PoolKind) (pg : Pool.PGeom) : Prop := p ≠ .none → pg.Ok ∧ Pool.Disjoint pg

theorem poolFF_run (p : PoolKind) (pg : Pool.PGeom) (hp : p ≠ .none) (hok : PoolOk p pg) (x out : Arr ℝ) (y : Nat → ℝ) (dead : Nat → Prop)
    (hx : pg.inI * pg.inJ ≤ x.len) (hy : ∀ u, u < pg.inI * pg.inJ → x.get u = y u) (ho : pg.outI * pg.outJ ≤ out.len)
    (hn : p = .max → NoTie pg y dead) (hz : ∀ u, u < pg.outI * pg.outJ → out.get u = 0) :
    ∃ o, poolFF p pg x out = some o ∧ o.len = out.len ∧ (∀ u, u < pg.outI * pg.outJ → o.get u = poolFn p pg y u) ∧
      ∀ u, pg.outI * pg.outJ ≤ u → o.get u = out.get u := by
  obtain ⟨hg, -⟩ := hok hp
  cases p with
  | none => exact absurd rfl hp
  | max =>
    obtain ⟨m, o, e1, h1, h2, h3⟩ := max_run pg hg x out hx ho (fun i j hi hj => by
      obtain ⟨a, b, ha, hb, hv⟩ := (hn rfl i j hi hj).1
      exact ⟨a, b, ha, hb, by rw [hy _ (Pool.win_lt hg hi hj ha hb)]; exact hv.le⟩) hz
    refine ⟨o, by simp [poolFF, e1], h1, fun u hu => ?_, h3⟩
    rw [h2 u hu, poolFn_max pg hg, poolFn_max pg hg]
    by_cases hin : Inside pg.outJ pg.pad pg.nI pg.nJ u
    · rw [if_pos hin, if_pos hin]
      obtain ⟨hi, hj, -⟩ := inside_lt hin
      unfold Pool.pooled
      refine Finset.sup'_congr _ rfl fun k hk => ?_
      simp only [Pool.offs, Finset.mem_product, Finset.mem_range] at hk
      exact hy _ (Pool.win_lt hg hi hj hk.1 hk.2)
    · rw [if_neg hin, if_neg hin]
  | avg =>
    obtain ⟨m, o, e1, h1, h2, h3⟩ := avg_run pg hg x out hx ho hz
    refine ⟨o, by simp [poolFF, e1], h1, fun u hu => ?_, h3⟩
    rw [h2 u hu]
    unfold poolFn
    dsimp only
    by_cases hin : Inside pg.outJ pg.pad pg.nI pg.nJ u
    · rw [if_pos hin, if_pos hin]
      obtain ⟨hi, hj, -⟩ := inside_lt hin
      unfold Pool.mean
      congr 1
      refine Finset.sum_congr rfl fun k hk => ?_
      simp only [Pool.offs, Finset.mem_product, Finset.mem_range] at hk
      exact hy _ (Pool.win_lt hg hi hj hk.1 hk.2)
    · rw [if_neg hin, if_neg hin]

theorem poolBP_run (p : PoolKind) (pg : Pool.PGeom) (hp : p ≠ .none) (hok : PoolOk p pg) (x e ie : Arr ℝ) (y : Nat → ℝ) (dead : Nat → Prop)
    (hx : pg.inI * pg.inJ ≤ x.len) (hy : ∀ u, u < pg.inI * pg.inJ → x.get u = y u) (he : pg.outI * pg.outJ ≤ e.len)
    (hie : pg.inI * pg.inJ ≤ ie.len) (hn : p = .max → NoTie pg y dead) (hz : ∀ u, u < pg.inI * pg.inJ → ie.get u = 0) :
    ∃ o, poolBP p pg x e ie = some o ∧ o.len = ie.len ∧ PullD dead (pg.inI * pg.inJ) (pg.outI * pg.outJ) (poolFn p pg) y e.get o.get ∧
      ∀ u, pg.inI * pg.inJ ≤ u → o.get u = ie.get u := by
  obtain ⟨hg, hd⟩ := hok hp
  cases p with
  | none => exact absurd rfl hp
  | max =>
    obtain ⟨st, o, a, b, e1, h1, h2, h3, h4⟩ := Pool.maxBP_closed pg hg hd x e ie hx he hie hz
    refine ⟨o, by simp [poolBP, e1], h1, ?_, h4⟩
    refine (PullD.max pg hg y e.get dead (hn rfl) a b fun i hi j hj => ?_).congr (fun _ _ => rfl) h3
    obtain ⟨q1, q2, q3⟩ := h2 i hi j hj
    obtain ⟨a', b', ha, hb, hv⟩ := (hn rfl i j hi hj).1
    refine ⟨q1, q2, fun k1 k2 hk1 hk2 => ?_⟩
    have := q3 ⟨a', b', ha, hb, by rw [hy _ (Pool.win_lt hg hi hj ha hb)]; exact hv⟩ k1 k2 hk1 hk2
    rwa [hy _ (Pool.win_lt hg hi hj hk1 hk2), hy _ (Pool.win_lt hg hi hj q1 q2)] at this
  | avg =>
    obtain ⟨o, e1, h1, h2, h3⟩ := Pool.avgBP_closed pg hg hd e ie he hie hz
    exact ⟨o, by simp [poolBP, e1], h1, Pull.toD ((Pull.avg pg hg y e.get).congr (fun _ _ => rfl) h2) dead, h3⟩

end LLab.CNet
