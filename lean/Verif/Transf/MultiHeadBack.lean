import Verif.Transf.AttentionCurve
import Verif.Common.Mat

/-!
Back-propagation of multi-head attention (`/repo/src/attention.c` 173-197).
Property C117.
-/

namespace LLab.Attention

open Finset LLab.Softmax

/-! ### Model -/

/-- `multi_head_attention_bp` (`/repo/src/attention.c` 173-197); `Q h`, `K h`,
`V h` are the output layers of the models of head `h` and `qo h`, `ko h`, `vo h`
their `output_dimension`. The running offsets `sumq`, `sumk`, `sumv` are the
last three components of the loop state. -/
noncomputable def multiBP (masked : Bool) (dim n k v : Nat) (Q K V : Nat → Arr ℝ) (qo ko vo : Nat → Nat)
    (soft e : Arr ℝ) (st : Errs) : Option Errs := do
  let temp ← split dim n k v e
  let r ← loop n (fun h (s : Errs × Nat × Nat × Nat) => do
    let r ← bp masked dim k v (Q h) (K h) (V h) (soft.view (h * dim * dim)) (temp.view (h * dim * v))
      ⟨s.1.queryErr.view s.2.1, s.1.keyErr.view s.2.2.1, s.1.valueErr.view s.2.2.2,
        s.1.scoreErr.view (h * dim * dim), s.1.softErr.view (h * dim * dim)⟩
    some (⟨s.1.queryErr.splice s.2.1 r.queryErr, s.1.keyErr.splice s.2.2.1 r.keyErr,
        s.1.valueErr.splice s.2.2.2 r.valueErr, s.1.scoreErr.splice (h * dim * dim) r.scoreErr,
        s.1.softErr.splice (h * dim * dim) r.softErr⟩,
      s.2.1 + qo h, s.2.2.1 + ko h, s.2.2.2 + vo h)) (st, 0, 0, 0)
  some r.1

/-! ### Specification -/

/-- Multi-head attention: cell `i*heads*v + h*v + c` holds component `c` of the
attention of head `h` for token `i`. -/
noncomputable def multiAttn (masked : Bool) (dim n v : Nat) (q key value : Nat → Nat → ℝ) (u : Nat) : ℝ :=
  attn masked dim v (q (u % (n * v) / v)) (key (u % (n * v) / v)) (value (u % (n * v) / v)) (u / (n * v)) (u % v)

theorem multi_idx {n v i h c : Nat} (hh : h < n) (hc : c < v) :
    (i * n * v + h * v + c) / (n * v) = i ∧ (i * n * v + h * v + c) % (n * v) / v = h ∧
      (i * n * v + h * v + c) % v = c := by
  have h1 : h * v + c < n * v := Vec.idx_lt hh hc
  have h2 : i * n * v + h * v + c = n * v * i + (h * v + c) := by ring
  refine ⟨?_, ?_, ?_⟩
  · rw [h2, Nat.mul_add_div (by omega), Nat.div_eq_of_lt h1, Nat.add_zero]
  · rw [h2, Nat.mul_add_mod, Nat.mod_eq_of_lt h1, Nat.mul_comm, Nat.mul_add_div (by omega), Nat.div_eq_of_lt hc,
      Nat.add_zero]
  · rw [show i * n * v + h * v + c = v * (i * n + h) + c by ring, Nat.mul_add_mod, Nat.mod_eq_of_lt hc]

theorem multiAttn_at (masked : Bool) (dim : Nat) {n v i h c : Nat} (q key value : Nat → Nat → ℝ) (hh : h < n)
    (hc : c < v) : multiAttn masked dim n v q key value (i * n * v + h * v + c) =
      attn masked dim v (q h) (key h) (value h) i c := by
  obtain ⟨h1, h2, h3⟩ := multi_idx (i := i) hh hc
  unfold multiAttn
  rw [h1, h2, h3]

/-- Every cell below `dim*heads*v` is a token, a head and a component. -/
theorem multi_cell {dim n v u : Nat} (hu : u < dim * n * v) :
    ∃ i h c, i < dim ∧ h < n ∧ c < v ∧ u = i * n * v + h * v + c := by
  have hv : 0 < v := Nat.pos_of_ne_zero fun h => by subst h; simp at hu
  have h1 : u / v < dim * n := Nat.div_lt_of_lt_mul (by rwa [Nat.mul_comm])
  have hn : 0 < n := Nat.pos_of_ne_zero fun h => by subst h; simp at hu
  refine ⟨u / v / n, u / v % n, u % v, Nat.div_lt_of_lt_mul (by rwa [Nat.mul_comm n]), Nat.mod_lt _ hn,
    Nat.mod_lt _ hv, ?_⟩
  have e1 := Nat.div_add_mod u v
  have e2 := Nat.div_add_mod (u / v) n
  calc u = v * (u / v) + u % v := e1.symm
    _ = v * (n * (u / v / n) + u / v % n) + u % v := by rw [e2]
    _ = _ := by ring

theorem sum_cells (dim n v : Nat) (f : Nat → ℝ) :
    ∑ u ∈ range (dim * n * v), f u =
      ∑ h ∈ range n, ∑ i ∈ range dim, ∑ c ∈ range v, f (i * n * v + h * v + c) := by
  rw [sum_rows, sum_rows, Finset.sum_comm]
  refine Finset.sum_congr rfl fun h _ => Finset.sum_congr rfl fun i _ => Finset.sum_congr rfl fun c _ => ?_
  congr 1
  ring

/-! ### Forward -/

/-- The forward pass of C32, with the softmax matrices it leaves. -/
theorem multi_run (masked : Bool) (dim n v : Nat) (Q K V : Nat → Arr ℝ) (score0 soft0 out : Arr ℝ)
    (hq : ∀ h, h < n → dim * v ≤ (Q h).len) (hk : ∀ h, h < n → dim * v ≤ (K h).len)
    (hv : ∀ h, h < n → v * dim ≤ (V h).len)
    (hs : n * dim * dim ≤ score0.len) (hp : n * dim * dim ≤ soft0.len) (ho : n * dim * v ≤ out.len)
    (hz : ∀ u, u < n * dim * dim → soft0.get u = 0) (hout : ∀ u, u < n * dim * v → out.get u = 0) :
    ∃ sc so o, multiFF masked dim n v v Q K V (score0, soft0, out) = some (sc, so, o) ∧
      sc.len = score0.len ∧ so.len = soft0.len ∧ o.len = out.len ∧
      (∀ u, u < dim * n * v → o.get u =
        multiAttn masked dim n v (fun h => (Q h).get) (fun h => (K h).get) (fun h => (V h).get) u) ∧
      ∀ h, h < n → ∀ a, a < dim → ∀ t, t < dim → so.get (h * dim * dim + (a * dim + t)) =
        if t < vis masked dim a then smax (vis masked dim a) (score v (Q h).get (K h).get a) t else 0 := by
  obtain ⟨⟨sc, so, o⟩, e1, h1, h2, h3, h4, h7, -, -⟩ := loop_inv (n := n) (s := (score0, soft0, out))
    (f := fun h (st : Arr ℝ × Arr ℝ × Arr ℝ) => (ff masked dim v v (Q h) (K h) (V h)
      (st.1.view (h * dim * dim), st.2.1.view (h * dim * dim), st.2.2.view (h * dim * v))).bind fun r =>
      some (st.1.splice (h * dim * dim) r.1, st.2.1.splice (h * dim * dim) r.2.1,
      st.2.2.splice (h * dim * v) r.2.2))
    (fun m st => st.1.len = score0.len ∧ st.2.1.len = soft0.len ∧ st.2.2.len = out.len ∧
      (∀ h, h < m → ∀ i, i < dim → ∀ c, c < v → st.2.2.get (h * dim * v + i * v + c) =
        attn masked dim v (Q h).get (K h).get (V h).get i c) ∧
      (∀ h, h < m → ∀ a, a < dim → ∀ t, t < dim → st.2.1.get (h * dim * dim + (a * dim + t)) =
        if t < vis masked dim a then smax (vis masked dim a) (score v (Q h).get (K h).get a) t else 0) ∧
      (∀ u, m * dim * dim ≤ u → st.2.1.get u = soft0.get u) ∧
      (∀ u, m * dim * v ≤ u → st.2.2.get u = out.get u))
    ⟨rfl, rfl, rfl, by intro h hh; omega, by intro h hh; omega, by intros; rfl, by intros; rfl⟩
    (by
      rintro h hh ⟨sc, so, o⟩ ⟨h1, h2, h3, h4, h7, h5, h6⟩
      dsimp only at h1 h2 h3 h4 h5 h6 h7 ⊢
      have r1 : h * dim * dim + dim * dim ≤ n * dim * dim := by
        have := row_le (k := dim * dim) hh
        simpa only [Nat.mul_assoc] using this
      have r2 : h * dim * v + dim * v ≤ n * dim * v := by
        have := row_le (k := dim * v) hh
        simpa only [Nat.mul_assoc] using this
      obtain ⟨sc', so', o', e, l1, a1, a2, a3, a4⟩ := C31_attention masked dim v v (Q h) (K h) (V h)
        (sc.view (h * dim * dim)) (so.view (h * dim * dim)) (o.view (h * dim * v)) (hq h hh) (hk h hh)
        (hv h hh) (by simp; omega) (by simp; omega) (by simp; omega)
        (by
          intro _ a t ha ht
          have hlt : a * dim + t < dim * dim := Vec.idx_lt (by omega) ht
          rw [Arr.view_get, h5 _ (by omega)]
          exact hz _ (by omega))
      rw [e, Option.bind_some]
      refine ⟨_, rfl, h1, h2, h3, ?_, ?_, ?_, ?_⟩
      · intro h' hh' i hi c hc
        have hic : i * v + c < dim * v := Vec.idx_lt hi hc
        by_cases heq : h' = h
        · subst heq
          dsimp only
          rw [Nat.add_assoc, Arr.splice_ge _ _ (by omega), Nat.add_sub_cancel_left, a2 i hi c hc,
            Arr.view_get, h6 _ (by omega), hout _ (by omega), zero_add]
        · have : h' * dim * v + dim * v ≤ h * dim * v := by
            have := row_le (k := dim * v) (show h' < h by omega)
            simpa only [Nat.mul_assoc] using this
          dsimp only
          rw [Arr.splice_lt _ _ (by omega)]
          exact h4 h' (by omega) i hi c hc
      · intro h' hh' a ha t ht
        have hat : a * dim + t < dim * dim := Vec.idx_lt ha ht
        by_cases heq : h' = h
        · subst heq
          dsimp only
          rw [Arr.splice_ge _ _ (by omega), Nat.add_sub_cancel_left]
          exact a1 a ha t ht
        · have : h' * dim * dim + dim * dim ≤ h * dim * dim := by
            have := row_le (k := dim * dim) (show h' < h by omega)
            simpa only [Nat.mul_assoc] using this
          dsimp only
          rw [Arr.splice_lt _ _ (by omega)]
          exact h7 h' (by omega) a ha t ht
      · intro u hu
        have hm : (h + 1) * dim * dim = h * dim * dim + dim * dim := by ring
        dsimp only
        rw [Arr.splice_ge _ _ (by omega), a4 _ (by omega), Arr.view_get, Nat.add_sub_cancel' (by omega)]
        exact h5 u (by omega)
      · intro u hu
        have hm : (h + 1) * dim * v = h * dim * v + dim * v := by ring
        dsimp only
        rw [Arr.splice_ge _ _ (by omega), a3 _ (by omega), Arr.view_get, Nat.add_sub_cancel' (by omega)]
        exact h6 u (by omega))
  dsimp only at h1 h2 h3 h4 h7
  obtain ⟨o', e2, l2, g, -⟩ := C32_merge_partial dim n v o (by omega)
  refine ⟨sc, so, o', ?_, h1, h2, by omega, ?_, h7⟩
  · unfold multiFF
    simp only [Option.bind_eq_bind]
    rw [e1]
    simp only [Option.bind_some]
    rw [e2]
    rfl
  · intro u hu
    obtain ⟨i, h, c, hi, hh, hc, rfl⟩ := multi_cell hu
    rw [g i hi h hh c hc, multiAttn_at masked dim _ _ _ hh hc]
    exact h4 h hh i hi c hc

/-- The output of multi-head attention moves when queries, keys and values do. -/
theorem multi_curve (masked : Bool) (dim n v : Nat) (Q K V : Nat → ℝ → Nat → ℝ) (Q' K' V' : Nat → Nat → ℝ) (τ : ℝ)
    (hq : ∀ h, h < n → Moves (dim * v) (Q h) (Q' h) τ) (hk : ∀ h, h < n → Moves (dim * v) (K h) (K' h) τ)
    (hv : ∀ h, h < n → Moves (dim * v) (V h) (V' h) τ) :
    ∃ D, Moves (dim * n * v) (fun t => multiAttn masked dim n v (fun h => Q h t) (fun h => K h t)
      (fun h => V h t)) D τ := by
  have : ∀ h, ∃ D : Nat → Nat → ℝ, h < n → ∀ a, a < dim → ∀ j, j < v →
      HasDerivAt (fun t => attn masked dim v (Q h t) (K h t) (V h t) a j) (D a j) τ := by
    intro h
    by_cases hh : h < n
    · obtain ⟨D, hD, -⟩ := attn_curve masked dim v v (Q h) (K h) (V h) (Q' h) (K' h) (V' h) τ (hq h hh) (hk h hh)
        (by rw [Nat.mul_comm]; exact hv h hh)
      exact ⟨D, fun _ => hD⟩
    · exact ⟨fun _ _ => 0, fun h => absurd h hh⟩
  choose D hD using this
  refine ⟨fun u => D (u % (n * v) / v) (u / (n * v)) (u % v), ?_⟩
  intro u hu
  obtain ⟨i, h, c, hi, hh, hc, rfl⟩ := multi_cell hu
  obtain ⟨h1, h2, h3⟩ := multi_idx (i := i) hh hc
  simp only [multiAttn_at masked dim _ _ _ hh hc]
  rw [h1, h2, h3]
  exact hD h hh i hi c hc

/-! ### Backward -/

/-- The split of the error, with its length. -/
theorem split_run (dim n v : Nat) (err : Arr ℝ) (he : n * dim * v ≤ err.len) :
    ∃ t : Arr ℝ, split dim n v v err = some t ∧ t.len = n * dim * v ∧
      ∀ i, i < dim → ∀ h, h < n → ∀ c, c < v →
        t.get (h * dim * v + (i * v + c)) = err.get (i * n * v + h * v + c) := by
  obtain ⟨t, e1, h1, h2⟩ := rows_copy dim n v err (fun i j => i * n + j) (fun i j => j * dim + i) he
    (fun i hi j hj => by rw [Nat.mul_comm n]; exact Vec.idx_lt hi hj) (fun i hi j hj => Vec.idx_lt hj hi)
    (fun i hi j hj i' hi' j' hj' h => (Vec.idx_inj hi hi' h).symm)
  refine ⟨t, ?_, h1, ?_⟩
  · unfold split
    rw [← e1]
    refine loop_congr fun i _ s => loop_congr fun j _ s => ?_
    congr 1 <;> ring
  · intro i hi h hh c hc
    have a2 := h2 i hi h hh c hc
    rw [Nat.add_mul, Nat.add_mul] at a2
    rw [← Nat.add_assoc]
    exact a2

/-- What head `h` of the backward pass must have added to the errors: for any
motion of its queries, keys and values, the inner product of the error with the
velocity of the output. -/
def HeadAdjoint (masked : Bool) (dim v : Nat) (q key value : Nat → ℝ) (e : Nat → Nat → ℝ)
    (dq dk dv : Nat → ℝ) : Prop :=
  ∀ (Q K V : ℝ → Nat → ℝ) (Q' K' V' : Nat → ℝ) (τ : ℝ) (D : Nat → Nat → ℝ),
    (∀ u, u < dim * v → Q τ u = q u) → (∀ u, u < dim * v → K τ u = key u) →
    (∀ u, u < dim * v → V τ u = value u) →
    Moves (dim * v) Q Q' τ → Moves (dim * v) K K' τ → Moves (dim * v) V V' τ →
    (∀ a, a < dim → ∀ j, j < v →
      HasDerivAt (fun t => attn masked dim v (Q t) (K t) (V t) a j) (D a j) τ) →
    ∑ a ∈ range dim, ∑ j ∈ range v, e a j * D a j = dot (dim * v) dq Q' + dot (dim * v) dk K' + dot (dim * v) dv V'

theorem dot_congr {n : Nat} {a b x : Nat → ℝ} (h : ∀ i, i < n → a i = b i) : dot n a x = dot n b x :=
  Finset.sum_congr rfl fun i hi => by rw [h i (Finset.mem_range.1 hi)]

theorem dot_congr_right {n : Nat} {a x y : Nat → ℝ} (h : ∀ i, i < n → x i = y i) : dot n a x = dot n a y :=
  Finset.sum_congr rfl fun i hi => by rw [h i (Finset.mem_range.1 hi)]

theorem HeadAdjoint.congr {masked : Bool} {dim v : Nat} {q key value : Nat → ℝ} {e : Nat → Nat → ℝ}
    {dq dk dv dq' dk' dv' : Nat → ℝ} (h : HeadAdjoint masked dim v q key value e dq dk dv)
    (h1 : ∀ p, p < dim * v → dq p = dq' p) (h2 : ∀ p, p < dim * v → dk p = dk' p)
    (h3 : ∀ p, p < dim * v → dv p = dv' p) : HeadAdjoint masked dim v q key value e dq' dk' dv' := by
  intro Q K V Q' K' V' τ D a1 a2 a3 m1 m2 m3 hD
  rw [h Q K V Q' K' V' τ D a1 a2 a3 m1 m2 m3 hD, dot_congr h1, dot_congr h2, dot_congr h3]

theorem multiBP_run (masked : Bool) (dim n v : Nat) (Q K V : Nat → Arr ℝ) (qo ko vo : Nat → Nat) (soft e : Arr ℝ)
    (st : Errs)
    (hqo : ∀ h, h < n → qo h = dim * v) (hko : ∀ h, h < n → ko h = dim * v) (hvo : ∀ h, h < n → vo h = dim * v)
    (hq : ∀ h, h < n → dim * v ≤ (Q h).len) (hk : ∀ h, h < n → dim * v ≤ (K h).len)
    (hv : ∀ h, h < n → dim * v ≤ (V h).len)
    (hso : n * dim * dim ≤ soft.len) (he : n * dim * v ≤ e.len)
    (hqe : n * dim * v ≤ st.queryErr.len) (hke : n * dim * v ≤ st.keyErr.len) (hve : n * dim * v ≤ st.valueErr.len)
    (hsc : n * dim * dim ≤ st.scoreErr.len) (hse : n * dim * dim ≤ st.softErr.len)
    (hsoft : ∀ h, h < n → ∀ a, a < dim → ∀ t, t < dim → soft.get (h * dim * dim + (a * dim + t)) =
        if t < vis masked dim a then smax (vis masked dim a) (score v (Q h).get (K h).get a) t else 0)
    (zsc : ∀ u, u < n * dim * dim → st.scoreErr.get u = 0) (zse : ∀ u, u < n * dim * dim → st.softErr.get u = 0) :
    ∃ st', multiBP masked dim n v v Q K V qo ko vo soft e st = some st' ∧
      (st'.queryErr.len = st.queryErr.len ∧ st'.keyErr.len = st.keyErr.len ∧ st'.valueErr.len = st.valueErr.len ∧
        st'.scoreErr.len = st.scoreErr.len ∧ st'.softErr.len = st.softErr.len) ∧
      ∀ h, h < n → HeadAdjoint masked dim v (Q h).get (K h).get (V h).get
        (fun a c => e.get (a * n * v + h * v + c))
        (fun p => st'.queryErr.get (h * dim * v + p) - st.queryErr.get (h * dim * v + p))
        (fun p => st'.keyErr.get (h * dim * v + p) - st.keyErr.get (h * dim * v + p))
        (fun p => st'.valueErr.get (h * dim * v + p) - st.valueErr.get (h * dim * v + p)) := by
  obtain ⟨temp, e1, lt, ht⟩ := split_run dim n v e he
  obtain ⟨⟨st', sq, sk, sv⟩, e2, hl, -, hH, -⟩ := loop_inv (n := n) (s := (st, 0, 0, 0))
    (f := fun h (s : Errs × Nat × Nat × Nat) =>
      (bp masked dim v v (Q h) (K h) (V h) (soft.view (h * dim * dim)) (temp.view (h * dim * v))
      ⟨s.1.queryErr.view s.2.1, s.1.keyErr.view s.2.2.1, s.1.valueErr.view s.2.2.2,
        s.1.scoreErr.view (h * dim * dim), s.1.softErr.view (h * dim * dim)⟩).bind fun r =>
    some ((⟨s.1.queryErr.splice s.2.1 r.queryErr, s.1.keyErr.splice s.2.2.1 r.keyErr,
        s.1.valueErr.splice s.2.2.2 r.valueErr, s.1.scoreErr.splice (h * dim * dim) r.scoreErr,
        s.1.softErr.splice (h * dim * dim) r.softErr⟩ : Errs),
      s.2.1 + qo h, s.2.2.1 + ko h, s.2.2.2 + vo h))
    (fun m s => (s.1.queryErr.len = st.queryErr.len ∧ s.1.keyErr.len = st.keyErr.len ∧
        s.1.valueErr.len = st.valueErr.len ∧ s.1.scoreErr.len = st.scoreErr.len ∧ s.1.softErr.len = st.softErr.len) ∧
      (s.2.1 = m * dim * v ∧ s.2.2.1 = m * dim * v ∧ s.2.2.2 = m * dim * v) ∧
      (∀ h, h < m → HeadAdjoint masked dim v (Q h).get (K h).get (V h).get
        (fun a c => temp.get (h * dim * v + (a * v + c)))
        (fun p => s.1.queryErr.get (h * dim * v + p) - st.queryErr.get (h * dim * v + p))
        (fun p => s.1.keyErr.get (h * dim * v + p) - st.keyErr.get (h * dim * v + p))
        (fun p => s.1.valueErr.get (h * dim * v + p) - st.valueErr.get (h * dim * v + p))) ∧
      ((∀ u, m * dim * v ≤ u → s.1.queryErr.get u = st.queryErr.get u) ∧
        (∀ u, m * dim * v ≤ u → s.1.keyErr.get u = st.keyErr.get u) ∧
        (∀ u, m * dim * v ≤ u → s.1.valueErr.get u = st.valueErr.get u) ∧
        (∀ u, m * dim * dim ≤ u → s.1.scoreErr.get u = st.scoreErr.get u) ∧
        (∀ u, m * dim * dim ≤ u → s.1.softErr.get u = st.softErr.get u)))
    ⟨⟨rfl, rfl, rfl, rfl, rfl⟩, by simp, by intro h hh; omega,
      by intros; rfl, by intros; rfl, by intros; rfl, by intros; rfl, by intros; rfl⟩
    (by
      rintro h hh ⟨s, sq, sk, sv⟩ ⟨⟨l1, l2, l3, l4, l5⟩, ⟨o1, o2, o3⟩, hA, t1, t2, t3, t4, t5⟩
      dsimp only at l1 l2 l3 l4 l5 o1 o2 o3 hA t1 t2 t3 t4 t5 ⊢
      subst o1 o2 o3
      have r1 : h * dim * dim + dim * dim ≤ n * dim * dim := by
        have := row_le (k := dim * dim) hh
        simpa only [Nat.mul_assoc] using this
      have r2 : h * dim * v + dim * v ≤ n * dim * v := by
        have := row_le (k := dim * v) hh
        simpa only [Nat.mul_assoc] using this
      have hvc : v * dim = dim * v := Nat.mul_comm _ _
      obtain ⟨qe, ke, ve, sce, se, hrun, ⟨m1, m2, m3, m4, m5⟩, ⟨b4, b5⟩, ⟨b1, b2, b3⟩, hadj⟩ :=
        bp_adjoint masked dim v v (Q h) (K h) (V h)
        (soft.view (h * dim * dim)) (temp.view (h * dim * v))
        ⟨s.queryErr.view (h * dim * v), s.keyErr.view (h * dim * v), s.valueErr.view (h * dim * v),
          s.scoreErr.view (h * dim * dim), s.softErr.view (h * dim * dim)⟩ (hq h hh) (hk h hh)
        (by have := hv h hh; omega) (by simp; omega) (by simp; omega) (by simp; omega) (by simp; omega)
        (by simp; omega) (by simp; omega) (by simp; omega)
        (fun a ha t ht => hsoft h hh a ha t ht)
        (fun u hu => by rw [Arr.view_get, t4 _ (by omega)]; exact zsc _ (by omega))
        (fun u hu => by rw [Arr.view_get, t5 _ (by omega)]; exact zse _ (by omega))
      rw [hrun, Option.bind_some]
      have hm : (h + 1) * dim * v = h * dim * v + dim * v := by ring
      have hm' : (h + 1) * dim * dim = h * dim * dim + dim * dim := by ring
      refine ⟨_, rfl, ⟨l1, l2, l3, l4, l5⟩, ?_, ?_, ?_⟩
      · dsimp only
        rw [hqo h hh, hko h hh, hvo h hh, hm]
        exact ⟨rfl, rfl, rfl⟩
      · intro h' hh'
        by_cases heq : h' = h
        · subst heq
          intro QQ KK VV Q' K' V' τ D a1 a2 a3 m1 m2 m3 hD
          have := hadj QQ KK VV Q' K' V' τ D a1 a2 (by rw [hvc]; exact a3) m1 m2 (by rw [hvc]; exact m3) hD
          refine this.trans ?_
          rw [hvc]
          refine congrArg₂ (· + ·) (congrArg₂ (· + ·) (dot_congr fun p hp => ?_) (dot_congr fun p hp => ?_))
            (dot_congr fun p hp => ?_)
          · dsimp only
            rw [Arr.splice_ge _ _ (by omega), Nat.add_sub_cancel_left, Arr.view_get, t1 _ (by omega)]
          · dsimp only
            rw [Arr.splice_ge _ _ (by omega), Nat.add_sub_cancel_left, Arr.view_get, t2 _ (by omega)]
          · dsimp only
            rw [Arr.splice_ge _ _ (by omega), Nat.add_sub_cancel_left, Arr.view_get, t3 _ (by omega)]
        · have : h' * dim * v + dim * v ≤ h * dim * v := by
            have := row_le (k := dim * v) (show h' < h by omega)
            simpa only [Nat.mul_assoc] using this
          refine (hA h' (by omega)).congr (fun p hp => ?_) (fun p hp => ?_) (fun p hp => ?_) <;>
          · dsimp only
            rw [Arr.splice_lt _ _ (by omega)]
      · dsimp only at b1 b2 b3 b4 b5 ⊢
        refine ⟨fun u hu => ?_, fun u hu => ?_, fun u hu => ?_, fun u hu => ?_, fun u hu => ?_⟩
        · rw [Arr.splice_ge _ _ (by omega), b1 _ (by omega), Arr.view_get, Nat.add_sub_cancel' (by omega)]
          exact t1 u (by omega)
        · rw [Arr.splice_ge _ _ (by omega), b2 _ (by omega), Arr.view_get, Nat.add_sub_cancel' (by omega)]
          exact t2 u (by omega)
        · rw [Arr.splice_ge _ _ (by omega), b3 _ (by omega), Arr.view_get, Nat.add_sub_cancel' (by omega)]
          exact t3 u (by omega)
        · rw [Arr.splice_ge _ _ (by omega), b4 _ (by omega), Arr.view_get, Nat.add_sub_cancel' (by omega)]
          exact t4 u (by omega)
        · rw [Arr.splice_ge _ _ (by omega), b5 _ (by omega), Arr.view_get, Nat.add_sub_cancel' (by omega)]
          exact t5 u (by omega))
  dsimp only at hl hH
  refine ⟨st', ?_, hl, ?_⟩
  · unfold multiBP
    rw [e1]
    simp only [Option.bind_eq_bind, Option.bind_some]
    rw [e2]
    rfl
  · intro h hh Q1 K1 V1 Q' K' V' τ D a1 a2 a3 m1 m2 m3 hD
    rw [← hH h hh Q1 K1 V1 Q' K' V' τ D a1 a2 a3 m1 m2 m3 hD]
    refine Finset.sum_congr rfl fun a ha => Finset.sum_congr rfl fun c hc => ?_
    dsimp only
    rw [ht a (Finset.mem_range.1 ha) h hh c (Finset.mem_range.1 hc)]

/-- **C117** (partial: key and value embeddings of the same size). Forward then
backward through multi-head attention, with the score-error matrices zeroed:
for every way the queries, keys and values of all heads may move, the inner
product of the incoming error with the velocity of the output is the sum over
the heads of the inner products of what was added to the query, key and value
errors with the velocities of queries, keys and values. So the three error
arrays receive the gradient of the error-weighted output.

Full statement: the same for every key size; see `C117_split_refuted`. -/
theorem C117_multi_head_backward_partial (masked : Bool) (dim n v : Nat) (Q K V : Nat → Arr ℝ)
    (qo ko vo : Nat → Nat) (score0 soft0 out e : Arr ℝ) (st : Errs)
    (hqo : ∀ h, h < n → qo h = dim * v) (hko : ∀ h, h < n → ko h = dim * v) (hvo : ∀ h, h < n → vo h = dim * v)
    (hq : ∀ h, h < n → dim * v ≤ (Q h).len) (hk : ∀ h, h < n → dim * v ≤ (K h).len)
    (hv : ∀ h, h < n → dim * v ≤ (V h).len)
    (hs : n * dim * dim ≤ score0.len) (hp : n * dim * dim ≤ soft0.len) (ho : n * dim * v ≤ out.len)
    (hz : ∀ u, u < n * dim * dim → soft0.get u = 0) (hout : ∀ u, u < n * dim * v → out.get u = 0)
    (he : n * dim * v ≤ e.len)
    (hqe : n * dim * v ≤ st.queryErr.len) (hke : n * dim * v ≤ st.keyErr.len) (hve : n * dim * v ≤ st.valueErr.len)
    (hsc : n * dim * dim ≤ st.scoreErr.len) (hse : n * dim * dim ≤ st.softErr.len)
    (zsc : ∀ u, u < n * dim * dim → st.scoreErr.get u = 0) (zse : ∀ u, u < n * dim * dim → st.softErr.get u = 0) :
    ∃ sc so o st', multiFF masked dim n v v Q K V (score0, soft0, out) = some (sc, so, o) ∧
      multiBP masked dim n v v Q K V qo ko vo so e st = some st' ∧
      ∀ (QQ KK VV : Nat → ℝ → Nat → ℝ) (Q' K' V' : Nat → Nat → ℝ) (τ : ℝ),
        (∀ h, h < n → (∀ u, u < dim * v → QQ h τ u = (Q h).get u) ∧ (∀ u, u < dim * v → KK h τ u = (K h).get u) ∧
          ∀ u, u < dim * v → VV h τ u = (V h).get u) →
        (∀ h, h < n → Moves (dim * v) (QQ h) (Q' h) τ ∧ Moves (dim * v) (KK h) (K' h) τ ∧
          Moves (dim * v) (VV h) (V' h) τ) →
        ∃ D, Moves (dim * n * v) (fun t => multiAttn masked dim n v (fun h => QQ h t) (fun h => KK h t)
            (fun h => VV h t)) D τ ∧
          (∀ u, u < dim * n * v → o.get u =
            multiAttn masked dim n v (fun h => QQ h τ) (fun h => KK h τ) (fun h => VV h τ) u) ∧
          dot (dim * n * v) e.get D = ∑ h ∈ range n,
            (dot (dim * v) (fun p => st'.queryErr.get (h * dim * v + p) - st.queryErr.get (h * dim * v + p)) (Q' h) +
             dot (dim * v) (fun p => st'.keyErr.get (h * dim * v + p) - st.keyErr.get (h * dim * v + p)) (K' h) +
             dot (dim * v) (fun p => st'.valueErr.get (h * dim * v + p) - st.valueErr.get (h * dim * v + p))
               (V' h)) := by
  obtain ⟨sc, so, o, ef, -, l2, -, g, hso⟩ := multi_run masked dim n v Q K V score0 soft0 out hq hk
    (fun h hh => by rw [Nat.mul_comm]; exact hv h hh) hs hp ho hz hout
  obtain ⟨st', eb, -, hH⟩ := multiBP_run masked dim n v Q K V qo ko vo so e st hqo hko hvo hq hk hv (by omega) he
    hqe hke hve hsc hse hso zsc zse
  refine ⟨sc, so, o, st', ef, eb, ?_⟩
  intro QQ KK VV Q' K' V' τ hat hmv
  obtain ⟨D, hD⟩ := multi_curve masked dim n v QQ KK VV Q' K' V' τ (fun h hh => (hmv h hh).1)
    (fun h hh => (hmv h hh).2.1) (fun h hh => (hmv h hh).2.2)
  refine ⟨D, hD, ?_, ?_⟩
  · intro u hu
    rw [g u hu]
    obtain ⟨i, h, c, hi, hh, hc, rfl⟩ := multi_cell hu
    rw [multiAttn_at masked dim _ _ _ hh hc, multiAttn_at masked dim _ _ _ hh hc]
    obtain ⟨a1, a2, a3⟩ := hat h hh
    have hvl := vis_le masked hi
    unfold attn
    refine Finset.sum_congr rfl fun t ht => ?_
    have ht' := Finset.mem_range.1 ht
    rw [a3 _ (by rw [Nat.mul_comm dim]; exact Vec.idx_lt hc (by omega))]
    congr 1
    refine smax_congr (fun b hb => ?_) ht'
    unfold score
    congr 1
    refine Finset.sum_congr rfl fun c' hc' => ?_
    rw [a1 _ (Vec.idx_lt hi (Finset.mem_range.1 hc')), a2 _ (Vec.idx_lt (show b < dim by omega) (Finset.mem_range.1 hc'))]
  · unfold dot
    rw [sum_cells]
    refine Finset.sum_congr rfl fun h hh' => ?_
    have hh := Finset.mem_range.1 hh'
    obtain ⟨a1, a2, a3⟩ := hat h hh
    obtain ⟨m1, m2, m3⟩ := hmv h hh
    exact hH h hh (QQ h) (KK h) (VV h) (Q' h) (K' h) (V' h) τ (fun i c => D (i * n * v + h * v + c)) a1 a2 a3 m1 m2 m3
      (fun i hi c hc => by
        have hlt : i * n * v + h * v + c < dim * n * v := by
          have := Vec.idx_lt (Vec.idx_lt hi hh) hc
          rw [Nat.add_mul] at this; exact this
        have := hD _ hlt
        simp only [multiAttn_at masked dim _ _ _ hh hc] at this
        exact this)

/-- Non-vacuity: two tokens, two heads, two components, zeroed buffers. -/
example (masked : Bool) (e : Nat → ℝ) :
    ∃ sc so o st', multiFF masked 2 2 2 2 (fun h => ⟨4, fun u => h + u⟩) (fun _ => ⟨4, fun u => u⟩)
        (fun h => ⟨4, fun u => h * u⟩) (⟨8, fun _ => 0⟩, ⟨8, fun _ => 0⟩, ⟨8, fun _ => 0⟩) = some (sc, so, o) ∧
      multiBP masked 2 2 2 2 (fun h => ⟨4, fun u => h + u⟩) (fun _ => ⟨4, fun u => u⟩) (fun h => ⟨4, fun u => h * u⟩)
        (fun _ => 4) (fun _ => 4) (fun _ => 4) so ⟨8, e⟩
        ⟨⟨8, fun _ => 0⟩, ⟨8, fun _ => 0⟩, ⟨8, fun _ => 0⟩, ⟨8, fun _ => 0⟩, ⟨8, fun _ => 0⟩⟩ = some st' := by
  obtain ⟨sc, so, o, st', h1, h2, -⟩ := C117_multi_head_backward_partial masked 2 2 2 (fun h => ⟨4, fun u => h + u⟩)
    (fun _ => ⟨4, fun u => u⟩) (fun h => ⟨4, fun u => h * u⟩) (fun _ => 4) (fun _ => 4) (fun _ => 4)
    ⟨8, fun _ => 0⟩ ⟨8, fun _ => 0⟩ ⟨8, fun _ => 0⟩ ⟨8, e⟩
    ⟨⟨8, fun _ => 0⟩, ⟨8, fun _ => 0⟩, ⟨8, fun _ => 0⟩, ⟨8, fun _ => 0⟩, ⟨8, fun _ => 0⟩⟩
    (by simp) (by simp) (by simp) (by simp) (by simp) (by simp) (by simp) (by simp) (by simp) (by simp) (by simp)
    (by simp) (by simp) (by simp) (by simp) (by simp) (by simp) (by simp) (by simp)
  exact ⟨sc, so, o, st', h1, h2⟩

theorem smax_two_zero (k : Nat) (a i : Nat) : smax 2 (score k (fun _ => 0) (fun _ => 0) a) i = 1 / 2 := by
  simp only [smax, score, Finset.sum_range_succ, Finset.sum_range_zero]
  simp
  norm_num

/-- **C117** fails for different key and value sizes. One head, two tokens,
keys of size one and values of size two, queries and keys zero. The second cell
of the output is the mean of two values, so it has derivative `1/2` in either;
with an error of one in that cell the backward pass adds nothing to the value
errors. -/
theorem C117_split_refuted :
    ∃ F : ℝ → ℝ, HasDerivAt F (1 / 2) 0 ∧
      (∀ t, ∃ sc so o, multiFF false 2 1 1 2 (fun _ => ⟨2, fun _ => 0⟩) (fun _ => ⟨2, fun _ => 0⟩)
          (fun _ => ⟨4, Function.update (fun _ => 0) 2 t⟩) (⟨4, fun _ => 0⟩, ⟨4, fun _ => 0⟩, ⟨4, fun _ => 0⟩) =
            some (sc, so, o) ∧ F t = o.get 1) ∧
      ∃ sc so o st', multiFF false 2 1 1 2 (fun _ => ⟨2, fun _ => 0⟩) (fun _ => ⟨2, fun _ => 0⟩)
          (fun _ => ⟨4, fun _ => 0⟩) (⟨4, fun _ => 0⟩, ⟨4, fun _ => 0⟩, ⟨4, fun _ => 0⟩) = some (sc, so, o) ∧
        multiBP false 2 1 1 2 (fun _ => ⟨2, fun _ => 0⟩) (fun _ => ⟨2, fun _ => 0⟩) (fun _ => ⟨4, fun _ => 0⟩)
          (fun _ => 2) (fun _ => 2) (fun _ => 4) so ⟨4, fun u => if u = 1 then 1 else 0⟩
          ⟨⟨2, fun _ => 0⟩, ⟨2, fun _ => 0⟩, ⟨4, fun _ => 0⟩, ⟨4, fun _ => 0⟩, ⟨4, fun _ => 0⟩⟩ = some st' ∧
        ∀ p, st'.valueErr.get p = 0 := by
  have run : ∀ val : Nat → ℝ, ∃ sc so o, multiFF false 2 1 1 2 (fun _ => ⟨2, fun _ => 0⟩) (fun _ => ⟨2, fun _ => 0⟩)
          (fun _ => ⟨4, val⟩) (⟨4, fun _ => 0⟩, ⟨4, fun _ => 0⟩, ⟨4, fun _ => 0⟩) = some (sc, so, o) ∧
      o.get 1 = (val 2 + val 3) / 2 ∧ so.len = 4 ∧
      ∀ a, a < 2 → ∀ t, t < 2 → so.get (a * 2 + t) =
        if t < vis false 2 a then smax (vis false 2 a) (score 1 (fun _ => 0) (fun _ => 0) a) t else 0 := by
    intro val
    obtain ⟨sc, so, ⟨lo, go⟩, e, l, hs, ho, -⟩ := C31_attention false 2 1 2 ⟨2, fun _ => 0⟩ ⟨2, fun _ => 0⟩ ⟨4, val⟩
      (Arr.view ⟨4, fun _ => 0⟩ (0 * 2 * 2)) (Arr.view ⟨4, fun _ => 0⟩ (0 * 2 * 2)) (Arr.view ⟨4, fun _ => 0⟩ (0 * 2 * 2))
      (by simp) (by simp) (by simp) (by simp) (by simp) (by simp) (by simp)
    have hgo := ho 0 (by omega) 1 (by omega)
    have hm : merge 2 1 1 2 (Arr.splice ⟨4, fun _ => 0⟩ (0 * 2 * 2) ⟨lo, go⟩) =
        some (Arr.mk 4 (Function.update (Function.update (Function.update (Function.update
          (fun u => if 0 ≤ u then go (u - 0) else 0) 0 (go 0)) 1 (go 1)) 2 (go 1)) 3 (go 2))) := rfl
    refine ⟨Arr.splice ⟨4, fun _ => 0⟩ (0 * 2 * 2) sc, Arr.splice ⟨4, fun _ => 0⟩ (0 * 2 * 2) so,
      Arr.mk 4 (Function.update (Function.update (Function.update (Function.update
          (fun u => if 0 ≤ u then go (u - 0) else 0) 0 (go 0)) 1 (go 1)) 2 (go 1)) 3 (go 2)), ?_, ?_, rfl, ?_⟩
    · unfold multiFF
      have hl : loop 1 (fun h (st : Arr ℝ × Arr ℝ × Arr ℝ) => (ff false 2 1 2 ⟨2, fun _ => 0⟩ ⟨2, fun _ => 0⟩ ⟨4, val⟩
          (st.1.view (h * 2 * 2), st.2.1.view (h * 2 * 2), st.2.2.view (h * 2 * 2))).bind fun r =>
          some (st.1.splice (h * 2 * 2) r.1, st.2.1.splice (h * 2 * 2) r.2.1, st.2.2.splice (h * 2 * 2) r.2.2))
          (⟨4, fun _ => 0⟩, ⟨4, fun _ => 0⟩, ⟨4, fun _ => 0⟩) =
          some (Arr.splice ⟨4, fun _ => 0⟩ (0 * 2 * 2) sc, Arr.splice ⟨4, fun _ => 0⟩ (0 * 2 * 2) so,
            Arr.splice ⟨4, fun _ => 0⟩ (0 * 2 * 2) ⟨lo, go⟩) := by
        simp only [loop, Option.bind_eq_bind, Option.bind_some]
        rw [e, Option.bind_some]
      refine (bind_some_of hl).trans ?_
      exact (bind_some_of hm).trans rfl
    · change go 1 = _
      refine hgo.trans ?_
      have hw := smax_two_zero 1 0
      simp only [attn, vis, Bool.false_eq_true, if_false, hw]
      simp only [Finset.sum_range_succ, Finset.sum_range_zero]
      simp
      ring
    · intro a ha t ht
      rw [Arr.splice_ge _ _ (by omega)]
      exact hs a ha t ht
  refine ⟨fun t => (t + 0) / 2, ?_, ?_, ?_⟩
  · exact (((hasDerivAt_id (0 : ℝ)).add_const 0).div_const 2)
  · intro t
    obtain ⟨sc, so, o, e, h, -⟩ := run (Function.update (fun _ => 0) 2 t)
    exact ⟨sc, so, o, e, by rw [h]; simp⟩
  · obtain ⟨sc, so, o, e, -, l, h⟩ := run (fun _ => 0)
    have hsp : ∃ temp : Arr ℝ, split 2 1 1 2 ⟨4, fun u => if u = 1 then (1 : ℝ) else 0⟩ = some temp ∧
        temp.len = 4 ∧ ∀ u, temp.get u = 0 := by
      refine ⟨⟨4, Function.update (Function.update (Function.update (Function.update (fun _ => (0 : ℝ))
        0 0) 1 1) 1 0) 2 0⟩, ?_, rfl, ?_⟩
      · have : split 2 1 1 2 (⟨4, fun u => if u = 1 then (1 : ℝ) else 0⟩ : Arr ℝ) =
            some ⟨4, Function.update (Function.update (Function.update (Function.update (fun _ => (0 : ℝ))
              0 (if 0 = 1 then 1 else 0)) 1 (if 1 = 1 then 1 else 0)) 1 (if 2 = 1 then 1 else 0)) 2
              (if 3 = 1 then 1 else 0)⟩ := rfl
        rw [this]
        simp
      · intro u
        simp only [Function.update_apply]
        split_ifs <;> simp_all
    obtain ⟨temp, es, lt, ht⟩ := hsp
    obtain ⟨qe, ke, ve, sce, se, hrun, -, -, hve, -⟩ := bp_run false 2 1 2 ⟨2, fun _ => 0⟩ ⟨2, fun _ => 0⟩ ⟨4, fun _ => 0⟩
      (so.view (0 * 2 * 2)) (temp.view (0 * 2 * 2))
      ⟨Arr.view ⟨2, fun _ => 0⟩ 0, Arr.view ⟨2, fun _ => 0⟩ 0, Arr.view ⟨4, fun _ => 0⟩ 0,
        Arr.view ⟨4, fun _ => 0⟩ (0 * 2 * 2), Arr.view ⟨4, fun _ => 0⟩ (0 * 2 * 2)⟩
      (by simp) (by simp) (by simp) (by simp; omega) (by simp; omega) (by simp) (by simp) (by simp) (by simp) (by simp)
      (by
        intro a ha t ht
        rw [Arr.view_get, show 0 * 2 * 2 + (a * 2 + t) = a * 2 + t by omega]
        exact h a ha t ht)
      (by simp) (by simp)
    refine ⟨sc, so, o, ⟨Arr.splice ⟨2, fun _ => 0⟩ 0 qe, Arr.splice ⟨2, fun _ => 0⟩ 0 ke,
        Arr.splice ⟨4, fun _ => 0⟩ 0 ve, Arr.splice ⟨4, fun _ => 0⟩ (0 * 2 * 2) sce,
        Arr.splice ⟨4, fun _ => 0⟩ (0 * 2 * 2) se⟩, e, ?_, ?_⟩
    · unfold multiBP
      refine (bind_some_of es).trans ?_
      simp only [loop, Option.bind_eq_bind, Option.bind_some]
      rw [hrun]
      rfl
    · intro p
      dsimp only
      rw [Arr.splice_ge _ _ (by omega), Nat.sub_zero]
      have := hve p
      simpa [ht] using this

end LLab.Attention
