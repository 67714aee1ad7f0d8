import Verif.Transf.Cross

/-!
The backward pass of the encoder inside a decoder. Property C126.
-/

namespace LLab.Transf

open Finset LLab.Attention LLab.Softmax

/-- The heads after the first `m` backward passes with the errors `Eq h`, .... -/
def Heads.back2 (hd : Heads) (m : Nat) (x z : Nat → ℝ) (Eq Ek Ev : Nat → Nat → ℝ) : Heads :=
  ⟨fun h => if h < m then (hd.q h).back1 z (Eq h) else hd.q h,
   fun h => if h < m then (hd.k h).back1 z (Ek h) else hd.k h,
   fun h => if h < m then (hd.v h).back1 x (Ev h) else hd.v h⟩

theorem headsBP2_run (x z : Arr ℝ) (n nz nh d : Nat) (hd : Heads) (qe ke ve acc0 ee0 : Arr ℝ) (hn : n ≤ x.len)
    (hnz : nz ≤ z.len) (hee : nz ≤ ee0.len)
    (hq : ∀ h, h < nh → (hd.q h).din = nz ∧ (hd.q h).dout = d ∧ (hd.q h).seen = some z.get)
    (hk : ∀ h, h < nh → (hd.k h).din = nz ∧ (hd.k h).dout = d ∧ (hd.k h).seen = some z.get)
    (hv : ∀ h, h < nh → (hd.v h).din = n ∧ (hd.v h).dout = d ∧ (hd.v h).seen = some x.get)
    (lq : nh * d ≤ qe.len) (lk : nh * d ≤ ke.len) (lv : nh * d ≤ ve.len) :
    ∃ s, loop nh (headBP2 x z n nz) ⟨hd, acc0, ee0, qe, ke, ve, 0, 0, 0⟩ = some s ∧
      s.hd = hd.back2 nh x.get z.get (fun h => (qe.view (h * d)).get) (fun h => (ke.view (h * d)).get)
        (fun h => (ve.view (h * d)).get) ∧
      (s.qe.len = qe.len ∧ s.ke.len = ke.len ∧ s.ve.len = ve.len) ∧
      (0 < nh → s.acc.len = n ∧ ∀ i, i < n → s.acc.get i = ∑ h ∈ range nh,
        (hd.v h).back x.get (ve.view (h * d)).get i) ∧
      s.ee.len = ee0.len ∧ (∀ i, nz ≤ i → s.ee.get i = ee0.get i) ∧
      ∀ i, i < nz → s.ee.get i = ee0.get i + ∑ h ∈ range nh,
        ((hd.q h).back z.get (qe.view (h * d)).get i + (hd.k h).back z.get (ke.view (h * d)).get i) := by
  obtain ⟨s, e, h1, -, ⟨h2, -⟩, h3, h4⟩ := loop_inv (n := nh) (s := (⟨hd, acc0, ee0, qe, ke, ve, 0, 0, 0⟩ : HState2))
    (f := headBP2 x z n nz)
    (fun m s => s.hd = hd.back2 m x.get z.get (fun h => (qe.view (h * d)).get) (fun h => (ke.view (h * d)).get)
        (fun h => (ve.view (h * d)).get) ∧
      (s.sq = m * d ∧ s.sk = m * d ∧ s.sv = m * d) ∧
      ((s.qe.len = qe.len ∧ s.ke.len = ke.len ∧ s.ve.len = ve.len) ∧
        (∀ u, m * d ≤ u → s.qe.get u = qe.get u ∧ s.ke.get u = ke.get u ∧ s.ve.get u = ve.get u)) ∧
      (0 < m → s.acc.len = n ∧ ∀ i, i < n → s.acc.get i = ∑ h ∈ range m,
        (hd.v h).back x.get (ve.view (h * d)).get i) ∧
      s.ee.len = ee0.len ∧ (∀ i, nz ≤ i → s.ee.get i = ee0.get i) ∧
      ∀ i, i < nz → s.ee.get i = ee0.get i + ∑ h ∈ range m,
        ((hd.q h).back z.get (qe.view (h * d)).get i + (hd.k h).back z.get (ke.view (h * d)).get i))
    (by
      refine ⟨by simp [Heads.back2], by simp, ⟨⟨rfl, rfl, rfl⟩, fun _ _ => ⟨rfl, rfl, rfl⟩⟩, fun h => by omega, rfl,
        fun _ _ => rfl, fun i _ => by simp⟩)
    (by
      rintro m hm ⟨shd, acc, see, sqe, ske, sve, sq, sk, sv⟩ ⟨h1, ⟨o1, o2, o3⟩, ⟨⟨l1, l2, l3⟩, hu⟩, ha, le, hge, hlt⟩
      dsimp only at h1 o1 o2 o3 l1 l2 l3 hu ha le hge hlt
      subst h1 o1 o2 o3
      obtain ⟨q1, q2, q3⟩ := hq m hm
      obtain ⟨k1, k2, k3⟩ := hk m hm
      obtain ⟨v1, v2, v3⟩ := hv m hm
      have hrow := row_le (k := d) hm
      have hs1 : (m + 1) * d = m * d + d := by ring
      have eq1 : (sqe.view (m * d)).get = (qe.view (m * d)).get := by
        funext p; rw [Arr.view_get, Arr.view_get, (hu _ (by omega)).1]
      have ek1 : (ske.view (m * d)).get = (ke.view (m * d)).get := by
        funext p; rw [Arr.view_get, Arr.view_get, (hu _ (by omega)).2.1]
      have ev1 : (sve.view (m * d)).get = (ve.view (m * d)).get := by
        funext p; rw [Arr.view_get, Arr.view_get, (hu _ (by omega)).2.2]
      have bq := Sub.bp_eq (hd.q m) z (sqe.view (m * d)) (by omega) (by rw [Arr.view_len]; omega)
        q3
      have bk := Sub.bp_eq (hd.k m) z (ske.view (m * d)) (by omega) (by rw [Arr.view_len]; omega)
        k3
      have bv := Sub.bp_eq (hd.v m) x (sve.view (m * d)) (by omega) (by rw [Arr.view_len]; omega)
        v3
      rw [eq1] at bq
      rw [ek1] at bk
      rw [ev1] at bv
      obtain ⟨a1, ea, la, ga⟩ : ∃ a1, addHead m acc ⟨(hd.v m).din, (hd.v m).back x.get (ve.view (m * d)).get⟩ n = some a1 ∧
          a1.len = n ∧ ∀ i, i < n → a1.get i = (∑ h ∈ range m, (hd.v h).back x.get (ve.view (h * d)).get i) +
            (hd.v m).back x.get (ve.view (m * d)).get i := by
        cases m with
        | zero => exact ⟨_, rfl, v1, fun i _ => by simp⟩
        | succ m =>
          obtain ⟨la, ga⟩ := ha (by omega)
          refine ⟨_, Vec.zip1DInPlace_eq _ _ _ _ la.ge v1.ge, la, fun i hi => ?_⟩
          dsimp only
          rw [if_pos hi, ga i hi]
      obtain ⟨a2, ea2, la2, ga2, gg2⟩ : ∃ a2, Vec.zip1DInPlace (· + ·) see ⟨(hd.k m).din, (hd.k m).back z.get
          (ke.view (m * d)).get⟩ nz = some a2 ∧ a2.len = ee0.len ∧
          (∀ i, i < nz → a2.get i = see.get i + (hd.k m).back z.get (ke.view (m * d)).get i) ∧
          ∀ i, nz ≤ i → a2.get i = see.get i :=
        ⟨_, Vec.zip1DInPlace_eq _ _ _ _ (by rw [le]; exact hee) k1.ge, le, fun i hi => if_pos hi,
          fun i hi => if_neg (by omega)⟩
      obtain ⟨a3, ea3, la3, ga3, gg3⟩ : ∃ a3, Vec.zip1DInPlace (· + ·) a2 ⟨(hd.q m).din, (hd.q m).back z.get
          (qe.view (m * d)).get⟩ nz = some a3 ∧ a3.len = ee0.len ∧
          (∀ i, i < nz → a3.get i = a2.get i + (hd.q m).back z.get (qe.view (m * d)).get i) ∧
          ∀ i, nz ≤ i → a3.get i = a2.get i :=
        ⟨_, Vec.zip1DInPlace_eq _ _ _ _ (by rw [la2]; exact hee) q1.ge, la2, fun i hi => if_pos hi,
          fun i hi => if_neg (by omega)⟩
      have f1 : (hd.back2 m x.get z.get (fun h => (qe.view (h * d)).get) (fun h => (ke.view (h * d)).get)
        (fun h => (ve.view (h * d)).get)).q m = hd.q m := if_neg (by omega)
      have f2 : (hd.back2 m x.get z.get (fun h => (qe.view (h * d)).get) (fun h => (ke.view (h * d)).get)
        (fun h => (ve.view (h * d)).get)).k m = hd.k m := if_neg (by omega)
      have f3 : (hd.back2 m x.get z.get (fun h => (qe.view (h * d)).get) (fun h => (ke.view (h * d)).get)
        (fun h => (ve.view (h * d)).get)).v m = hd.v m := if_neg (by omega)
      unfold headBP2
      dsimp only
      rw [f1, f2, f3, bq, bk, bv]
      simp only [Option.bind_eq_bind, Option.bind_some]
      rw [ea, Option.bind_some, ea2, Option.bind_some, ea3, Option.bind_some]
      refine ⟨_, rfl, ?_, ?_, ⟨⟨l1, l2, l3⟩, ?_⟩, ?_, la3, ?_, ?_⟩
      · dsimp only
        unfold Heads.back2
        dsimp only
        rw [← upd_ite hd.q (fun h => (hd.q h).back1 z.get (qe.view (h * d)).get),
          ← upd_ite hd.k (fun h => (hd.k h).back1 z.get (ke.view (h * d)).get),
          ← upd_ite hd.v (fun h => (hd.v h).back1 x.get (ve.view (h * d)).get)]
        rfl
      · dsimp only
        rw [q2, k2, v2, hs1]
        exact ⟨rfl, rfl, rfl⟩
      · intro u hu'
        dsimp only
        rw [Arr.splice_ge _ _ (by omega), Arr.splice_ge _ _ (by omega), Arr.splice_ge _ _ (by omega)]
        dsimp only
        rw [if_neg (by omega), if_neg (by omega), if_neg (by omega), Arr.view_get, Arr.view_get, Arr.view_get,
          Nat.add_sub_cancel' (by omega)]
        exact ⟨rfl, rfl, rfl⟩
      · intro _
        refine ⟨la, fun i hi => ?_⟩
        dsimp only
        rw [ga i hi, Finset.sum_range_succ]
      · intro i hi
        dsimp only
        rw [gg3 i hi, gg2 i hi, hge i hi]
      · intro i hi
        dsimp only
        rw [ga3 i hi, ga2 i hi, hlt i hi, Finset.sum_range_succ]
        ring)
  exact ⟨s, e, h1, h2, h3, h4⟩

/-- The conditions under which the encoder inside a decoder is differentiable
at the inputs `x` and `z`: those of `Enc.Smooth`. -/
structure Enc.Smooth2 (t : Enc) (x z : Nat → ℝ) : Prop where
  q : ∀ h, h < t.nh → (t.hd.q h).Diff z
  k : ∀ h, h < t.nh → (t.hd.k h).Diff z
  v : ∀ h, h < t.nh → (t.hd.v h).Diff x
  lin : ∀ y, (∀ i, i < t.lin.din → y i = attS2 t t.params x z i) → t.lin.Diff y
  m : ∀ y, (∀ i, i < t.m.din → y i = n1S2 t t.params x z i) → t.m.Diff y
  keepLin : t.res1 = true → t.lin.Keeps
  keepM : t.res2 = true → t.m.Keeps
  ne1 : t.norm1 = true → ∃ i, i < t.lin.dout ∧ r1S2 t t.params x z i ≠ 0
  ne2 : t.norm2 = true → ∃ i, i < t.m.dout ∧ r2S2 t t.params x z i ≠ 0

/-- The attention moves, and the error arrays pair with its velocity. -/
theorem att2_adjoint (t : Enc) (x z : Nat → ℝ) (n nz : Nat) (wf : t.WF2 n nz) (sm : t.Smooth2 x z) (e : Nat → ℝ)
    (Eq Ek Ev : Nat → Nat → ℝ)
    (hH : ∀ h, h < t.nh → HeadAdjoint t.masked t.dim t.vd ((t.hd.q h).f (t.hd.q h).θ z) ((t.hd.k h).f (t.hd.k h).θ z)
      ((t.hd.v h).f (t.hd.v h).θ x) (fun a c => e (a * t.nh * t.vd + h * t.vd + c)) (Eq h) (Ek h) (Ev h))
    (P : ℝ → Params) (P' : Params) (X Z : ℝ → Nat → ℝ) (X' Z' : Nat → ℝ) (τ : ℝ) (hP : t.PMoves P P' τ) (hX : Moves n X X' τ)
    (hx : ∀ i, i < n → X τ i = x i) (hZ : Moves nz Z Z' τ) (hz : ∀ i, i < nz → Z τ i = z i) :
    ∃ A', Moves (t.dim * t.nh * t.vd) (fun s => attS2 t (P s) (X s) (Z s)) A' τ ∧
      dot (t.dim * t.nh * t.vd) e A' = dot n (fun i => ∑ h ∈ range t.nh,
        (t.hd.v h).back x (Ev h) i) X' + dot nz (fun i => ∑ h ∈ range t.nh, ((t.hd.q h).back z (Eq h) i +
        (t.hd.k h).back z (Ek h) i)) Z' +
        ∑ h ∈ range t.nh, (dot (t.hd.q h).np ((t.hd.q h).grad z (Eq h)) (P'.q h) +
          dot (t.hd.k h).np ((t.hd.k h).grad z (Ek h)) (P'.k h) +
          dot (t.hd.v h).np ((t.hd.v h).grad x (Ev h)) (P'.v h)) := by
  have start := hP.start
  have hq : ∀ h, ∃ Y', h < t.nh → Moves (t.hd.q h).dout (fun s => (t.hd.q h).f ((P s).q h) (Z s)) Y' τ ∧
      ∀ e, dot (t.hd.q h).dout e Y' = dot nz ((t.hd.q h).back z e) Z' + dot (t.hd.q h).np ((t.hd.q h).grad z e) (P'.q h) := by
    intro h
    by_cases hh : h < t.nh
    · have hn := (wf.hq h hh).1
      obtain ⟨Y', h1, h2⟩ := (sm.q h hh).adj (fun s => (P s).q h) Z (P'.q h) Z' τ (by rw [start]; rfl)
        (by rw [hn]; exact hz) (hP.q h hh) (by rw [hn]; exact hZ)
      rw [hn] at h2
      exact ⟨Y', fun _ => ⟨h1, h2⟩⟩
    · exact ⟨fun _ => 0, fun h => absurd h hh⟩
  have hk : ∀ h, ∃ Y', h < t.nh → Moves (t.hd.k h).dout (fun s => (t.hd.k h).f ((P s).k h) (Z s)) Y' τ ∧
      ∀ e, dot (t.hd.k h).dout e Y' = dot nz ((t.hd.k h).back z e) Z' + dot (t.hd.k h).np ((t.hd.k h).grad z e) (P'.k h) := by
    intro h
    by_cases hh : h < t.nh
    · have hn := (wf.hk h hh).1
      obtain ⟨Y', h1, h2⟩ := (sm.k h hh).adj (fun s => (P s).k h) Z (P'.k h) Z' τ (by rw [start]; rfl)
        (by rw [hn]; exact hz) (hP.k h hh) (by rw [hn]; exact hZ)
      rw [hn] at h2
      exact ⟨Y', fun _ => ⟨h1, h2⟩⟩
    · exact ⟨fun _ => 0, fun h => absurd h hh⟩
  have hv : ∀ h, ∃ Y', h < t.nh → Moves (t.hd.v h).dout (fun s => (t.hd.v h).f ((P s).v h) (X s)) Y' τ ∧
      ∀ e, dot (t.hd.v h).dout e Y' = dot n ((t.hd.v h).back x e) X' + dot (t.hd.v h).np ((t.hd.v h).grad x e) (P'.v h) := by
    intro h
    by_cases hh : h < t.nh
    · have hn := (wf.hv h hh).1
      obtain ⟨Y', h1, h2⟩ := (sm.v h hh).adj (fun s => (P s).v h) X (P'.v h) X' τ (by rw [start]; rfl)
        (by rw [hn]; exact hx) (hP.v h hh) (by rw [hn]; exact hX)
      rw [hn] at h2
      exact ⟨Y', fun _ => ⟨h1, h2⟩⟩
    · exact ⟨fun _ => 0, fun h => absurd h hh⟩
  choose Q' hQ using hq
  choose K' hK using hk
  choose V' hV using hv
  have mQ : ∀ h, h < t.nh → Moves (t.dim * t.vd) (fun s => (t.hd.q h).f ((P s).q h) (Z s)) (Q' h) τ := by
    intro h hh; rw [← (wf.hq h hh).2]; exact (hQ h hh).1
  have mK : ∀ h, h < t.nh → Moves (t.dim * t.vd) (fun s => (t.hd.k h).f ((P s).k h) (Z s)) (K' h) τ := by
    intro h hh; rw [← (wf.hk h hh).2]; exact (hK h hh).1
  have mV : ∀ h, h < t.nh → Moves (t.dim * t.vd) (fun s => (t.hd.v h).f ((P s).v h) (X s)) (V' h) τ := by
    intro h hh; rw [← (wf.hv h hh).2]; exact (hV h hh).1
  obtain ⟨D, hD⟩ := multi_curve t.masked t.dim t.nh t.vd (fun h s => (t.hd.q h).f ((P s).q h) (Z s))
    (fun h s => (t.hd.k h).f ((P s).k h) (Z s)) (fun h s => (t.hd.v h).f ((P s).v h) (X s)) Q' K' V' τ mQ mK mV
  refine ⟨D, hD, ?_⟩
  rw [dot_sum_left, dot_sum_left, ← Finset.sum_add_distrib, ← Finset.sum_add_distrib]
  unfold dot
  rw [sum_cells]
  refine Finset.sum_congr rfl fun h hh' => ?_
  have hh := Finset.mem_range.1 hh'
  have key := hH h hh (fun s => (t.hd.q h).f ((P s).q h) (Z s)) (fun s => (t.hd.k h).f ((P s).k h) (Z s))
    (fun s => (t.hd.v h).f ((P s).v h) (X s)) (Q' h) (K' h) (V' h) τ (fun i c => D (i * t.nh * t.vd + h * t.vd + c))
    (by
      intro u hu
      rw [start]
      exact (sm.q h hh).loc _ _ (by rw [(wf.hq h hh).1]; exact hz) u (by rw [(wf.hq h hh).2]; exact hu))
    (by
      intro u hu
      rw [start]
      exact (sm.k h hh).loc _ _ (by rw [(wf.hk h hh).1]; exact hz) u (by rw [(wf.hk h hh).2]; exact hu))
    (by
      intro u hu
      rw [start]
      exact (sm.v h hh).loc _ _ (by rw [(wf.hv h hh).1]; exact hx) u (by rw [(wf.hv h hh).2]; exact hu))
    (mQ h hh) (mK h hh) (mV h hh)
    (fun i hi c hc => by
      have hlt : i * t.nh * t.vd + h * t.vd + c < t.dim * t.nh * t.vd := by
        have := Vec.idx_lt (Vec.idx_lt hi hh) hc
        rw [Nat.add_mul] at this; exact this
      have := hD _ hlt
      simp only [multiAttn_at t.masked t.dim _ _ _ hh hc] at this
      exact this)
  refine key.trans ?_
  have e1 := (hQ h hh).2 (Eq h)
  have e2 := (hK h hh).2 (Ek h)
  have e3 := (hV h hh).2 (Ev h)
  rw [(wf.hq h hh).2] at e1
  rw [(wf.hk h hh).2] at e2
  rw [(wf.hv h hh).2] at e3
  rw [e1, e2, e3]
  have h2 := dot_add_left nz ((t.hd.q h).back z (Eq h)) ((t.hd.k h).back z (Ek h)) Z'
  change _ = dot n ((t.hd.v h).back x (Ev h)) X' + dot nz (fun i => (t.hd.q h).back z (Eq h) i +
    (t.hd.k h).back z (Ek h) i) Z' + _
  rw [h2]
  unfold dot
  ring

/-- The stages of the specification depend on the first `n` and `nz` cells of the inputs. -/
theorem spec2_congr (t : Enc) (x z y w : Nat → ℝ) (n nz : Nat) (wf : t.WF2 n nz) (sm : t.Smooth2 x z)
    (h : ∀ i, i < n → y i = x i) (hw : ∀ i, i < nz → w i = z i) :
    (∀ u, u < t.dim * t.nh * t.vd → attS2 t t.params y w u = attS2 t t.params x z u) ∧
    (∀ i, i < t.lin.dout → r1S2 t t.params y w i = r1S2 t t.params x z i) ∧
    (∀ i, i < t.lin.dout → n1S2 t t.params y w i = n1S2 t t.params x z i) ∧
    (∀ i, i < t.m.dout → r2S2 t t.params y w i = r2S2 t t.params x z i) := by
  have h1 : ∀ u, u < t.dim * t.nh * t.vd → attS2 t t.params y w u = attS2 t t.params x z u := by
    intro u hu
    obtain ⟨i, h', c, hi, hh, hc, rfl⟩ := multi_cell hu
    unfold attS2
    rw [multiAttn_at t.masked t.dim _ _ _ hh hc, multiAttn_at t.masked t.dim _ _ _ hh hc]
    have a1 : ∀ u, u < t.dim * t.vd → (t.hd.q h').f (t.params.q h') w u = (t.hd.q h').f (t.params.q h') z u :=
      fun u hu => (sm.q h' hh).loc _ _ (by rw [(wf.hq h' hh).1]; exact hw) u (by rw [(wf.hq h' hh).2]; exact hu)
    have a2 : ∀ u, u < t.dim * t.vd → (t.hd.k h').f (t.params.k h') w u = (t.hd.k h').f (t.params.k h') z u :=
      fun u hu => (sm.k h' hh).loc _ _ (by rw [(wf.hk h' hh).1]; exact hw) u (by rw [(wf.hk h' hh).2]; exact hu)
    have a3 : ∀ u, u < t.dim * t.vd → (t.hd.v h').f (t.params.v h') y u = (t.hd.v h').f (t.params.v h') x u :=
      fun u hu => (sm.v h' hh).loc _ _ (by rw [(wf.hv h' hh).1]; exact h) u (by rw [(wf.hv h' hh).2]; exact hu)
    have hvl := vis_le t.masked hi
    unfold attn
    refine Finset.sum_congr rfl fun u hu' => ?_
    have ht' := Finset.mem_range.1 hu'
    rw [a3 _ (by rw [Nat.mul_comm t.dim]; exact Vec.idx_lt hc (by omega))]
    congr 1
    refine smax_congr (fun b hb => ?_) ht'
    unfold score
    congr 1
    refine Finset.sum_congr rfl fun c' hc' => ?_
    rw [a1 _ (Vec.idx_lt hi (Finset.mem_range.1 hc')), a2 _ (Vec.idx_lt (show b < t.dim by omega) (Finset.mem_range.1 hc'))]
  have h2 : ∀ i, i < t.lin.dout → r1S2 t t.params y w i = r1S2 t t.params x z i := by
    intro i hi
    have : t.lin.f t.params.lin (attS2 t t.params y w) i = t.lin.f t.params.lin (attS2 t t.params x z) i :=
      (sm.lin _ fun _ _ => rfl).loc _ _ (fun u hu => h1 u (by rw [← wf.hin, ← wf.hlin]; exact hu)) i hi
    unfold r1S2
    rw [this]
    by_cases hr : t.res1 = true
    · rw [if_pos hr, if_pos hr, h i (by rw [← (wf.hres1 hr).1]; exact hi)]
    · rw [if_neg hr, if_neg hr]
  have h3 : ∀ i, i < t.lin.dout → n1S2 t t.params y w i = n1S2 t t.params x z i := by
    intro i hi
    unfold n1S2
    by_cases hN : t.norm1 = true
    · rw [if_pos hN, if_pos hN]; exact scaled_congr h2 hi
    · rw [if_neg hN, if_neg hN]; exact h2 i hi
  refine ⟨h1, h2, h3, ?_⟩
  intro i hi
  have : t.m.f t.params.m (n1S2 t t.params y w) i = t.m.f t.params.m (n1S2 t t.params x z) i :=
    (sm.m _ fun _ _ => rfl).loc _ _ (fun u hu => h3 u (by rw [← wf.hm]; exact hu)) i hi
  unfold r2S2
  rw [this]
  by_cases hr : t.res2 = true
  · rw [if_pos hr, if_pos hr, h3 i (by rw [← (wf.hres2 hr).1]; exact hi)]
  · rw [if_neg hr, if_neg hr]

/-- **C126** (partial: equal key and value sizes). The encoder inside a decoder,
with zeroed accumulators, computes attention with queries and keys from the
encoders of the transformer and values from below, then the stages of an
encoder, the first residual connection taking the input from below. Its
backward pass is the gradient in both inputs and in all the parameters: for
every motion of them, the inner product of the error given with the velocity of
the output is the inner product of the returned error with the velocity of the
input from below, plus that of what was added to the error of the encoders with
the velocity of their outputs, plus the parameters' part. Cells of the error of
the encoders past the `nz` inputs are not touched.

Full statement: the same for every key size (refuted by C32 and C117). -/
theorem C126_cross_gradient_partial (t : Enc) (x z : Arr ℝ) (n nz : Nat) (e ee : Arr ℝ) (wf : t.WF2 n nz) (fr : t.Fresh)
    (hn : n ≤ x.len) (hnz : nz ≤ z.len) (he : t.m.dout ≤ e.len) (hee : nz ≤ ee.len) (sm : t.Smooth2 x.get z.get) :
    ∃ t1 t2 ie ee', t.ff2 x z nz n = some t1 ∧ (∀ i, i < t.m.dout → t1.output.get i = encS2 t t.params x.get z.get i) ∧
      t1.bp2 x z nz n e ee = some (t2, ie, ee') ∧ n ≤ ie.len ∧ ee'.len = ee.len ∧
      (∀ i, nz ≤ i → ee'.get i = ee.get i) ∧ t2.params = t.params ∧ t2.WF2 n nz ∧
      ∀ (P : ℝ → Params) (P' : Params) (X Z : ℝ → Nat → ℝ) (X' Z' : Nat → ℝ) (τ : ℝ),
        t.PMoves P P' τ → (∀ i, i < n → X τ i = x.get i) → Moves n X X' τ →
        (∀ i, i < nz → Z τ i = z.get i) → Moves nz Z Z' τ →
        ∃ Y', Moves t.m.dout (fun s => encS2 t (P s) (X s) (Z s)) Y' τ ∧
          dot t.m.dout e.get Y' = dot n ie.get X' + dot nz (fun i => ee'.get i - ee.get i) Z' + t.pair t2 P' := by
  obtain ⟨t1, ef, F⟩ := ff2_run t x z n nz wf fr hn hnz
    (fun y hy k hk => by
      rw [(sm.lin y hy).loc _ (attS2 t t.params x.get z.get) (fun i hi => (hy i hi).symm) k hk])
    (fun y hy k hk => by
      rw [(sm.m y hy).loc _ (n1S2 t t.params x.get z.get) (fun i hi => (hy i hi).symm) k hk])
  obtain ⟨wf1, ⟨lin, m, l2, score, soft, att, r1, r2, rfl⟩, attv, attl, softl, softv, linv, av, al, bv, bl, mv, cv, cl, outv,
    outl, l2v, norm1, norm2⟩ := F
  dsimp only at attv attl softl softv linv av al bv bl mv cv cl outl l2v norm1 norm2
  set a := if t.res1 then r1 else lin.out with ha
  set b := if t.norm1 then (l2 0).out else a with hb
  set c := if t.res2 then r2 else m.out with hc
  have hlast : t.norm2 = true → t.nl2 - 1 < t.nl2 := by
    intro h; rw [wf.hnl2, if_pos h]; omega
  have hz0 : t.norm1 = true → 0 < t.nl2 := by
    intro h; rw [wf.hnl2, if_pos h]; omega
  have hne : t.norm1 = true → t.norm2 = true → 0 ≠ t.nl2 - 1 := by
    intro h1 h2; rw [wf.hnl2, if_pos h1, if_pos h2]; omega
  have mdin : m.din = t.m.din := by rw [mv]; rfl
  have mdout : m.dout = t.m.dout := by rw [mv]; rfl
  have ldin : lin.din = t.lin.din := by rw [linv]; rfl
  have ldout : lin.dout = t.lin.dout := by rw [linv]; rfl
  -- second normalisation
  obtain ⟨L, eL, Lne, Lf, Lk, Ee2, Ladj⟩ := norm_stage t.norm2 t.nl2 l2 (t.nl2 - 1) t.m.dout c e hlast
    (fun h => (l2v _).1.trans (wf.hnorm2 h).1) (fun h => by rw [(l2v _).2.2.2]; exact (wf.hnorm2 h).2.2.ge)
    (fun _ => cl) he
    (fun h u hu => by rw [(l2v _).2.2.2]; exact fr.l2 _ (hlast h) u (by rw [(wf.hnorm2 h).1]; exact hu))
    (fun h => by rw [norm2 h, sq_congr cv])
  set e2 := if t.norm2 then (L (t.nl2 - 1)).err else e with he2
  -- second network
  have eM := Sub.bp_eq m b e2 (by rw [mdin, wf.hm]; exact bl) (by rw [mdout]; exact Ee2) (by rw [mv]; rfl)
  set w : Arr ℝ := ⟨e2.len, fun i => if i < m.dout then m.after b.get e2.get i else e2.get i⟩ with hw
  have hsz : t.res2 = true → (if t.norm2 then (leave t.norm2 L (t.nl2 - 1) w (t.nl2 - 1)).dim else lin.dout) = t.m.dout := by
    intro h
    by_cases h2 : t.norm2 = true
    · rw [if_pos h2, (leave_dg _ _ _ _ _).2.1, (Lk _).1, (l2v _).1, (wf.hnorm2 h2).1]
    · rw [if_neg h2, ldout, (wf.hres2 h).1]
  obtain ⟨temp, eT, lT, gT⟩ := addIf_run t.res2 ⟨m.din, m.back b.get e2.get⟩ w
    (if t.norm2 then (leave t.norm2 L (t.nl2 - 1) w (t.nl2 - 1)).dim else lin.dout)
    (fun h => by rw [hsz h, (wf.hres2 h).1, ← wf.hm, ← mdin]) (fun h => by rw [hsz h]; exact Ee2)
  have ltemp : t.lin.dout ≤ temp.len := by rw [lT, ← wf.hm]; exact mdin.ge
  -- first normalisation
  have hL0 : t.norm1 = true → leave t.norm2 L (t.nl2 - 1) w 0 = l2 0 := by
    intro h
    rw [leave_ne _ _ _ _ (hne h)]
    by_cases h2 : t.norm2 = true
    · exact Lne 0 (hne h h2)
    · rw [Lf (by simpa using h2)]
  obtain ⟨M, eN, Mne, Mf, Mk, Ee1, Madj⟩ := norm_stage t.norm1 t.nl2 (leave t.norm2 L (t.nl2 - 1) w) 0
    t.lin.dout a temp hz0
    (fun h => by rw [hL0 h]; exact (l2v _).1.trans (wf.hnorm1 h).1)
    (fun h => by rw [hL0 h, (l2v _).2.2.2]; exact (wf.hnorm1 h).2.2.ge)
    (fun _ => al) ltemp
    (fun h u hu => by rw [hL0 h, (l2v _).2.2.2]; exact fr.l2 _ (hz0 h) u (by rw [(wf.hnorm1 h).1]; exact hu))
    (fun h => by rw [hL0 h, norm1 h, sq_congr av])
  set e1 := if t.norm1 then (M 0).err else temp with he1
  -- linear map
  have eLin := Sub.bp_eq lin att e1 (by rw [ldin, wf.hlin, attl, wf.hatt]) (by rw [ldout]; exact Ee1)
    (by rw [linv]; rfl)
  set w1 : Arr ℝ := ⟨e1.len, fun i => if i < lin.dout then lin.after att.get e1.get i else e1.get i⟩ with hw1
  -- attention
  have hqf : ∀ h, h < t.nh → (t.hd.fed2 t.nh x.get z.get).q h = (t.hd.q h).fed z.get := fun h hh => if_pos hh
  have hkf : ∀ h, h < t.nh → (t.hd.fed2 t.nh x.get z.get).k h = (t.hd.k h).fed z.get := fun h hh => if_pos hh
  have hvf : ∀ h, h < t.nh → (t.hd.fed2 t.nh x.get z.get).v h = (t.hd.v h).fed x.get := fun h hh => if_pos hh
  obtain ⟨er, eA, ⟨lq, lk, lv, lsc, lso⟩, hH⟩ := multiBP_run t.masked t.dim t.nh t.vd
    (fun h => ((t.hd.fed2 t.nh x.get z.get).q h).out) (fun h => ((t.hd.fed2 t.nh x.get z.get).k h).out)
    (fun h => ((t.hd.fed2 t.nh x.get z.get).v h).out) (fun h => ((t.hd.fed2 t.nh x.get z.get).q h).dout)
    (fun h => ((t.hd.fed2 t.nh x.get z.get).k h).dout) (fun h => ((t.hd.fed2 t.nh x.get z.get).v h).dout) soft
    ⟨lin.din, lin.back att.get e1.get⟩ t.er
    (fun h hh => by rw [hqf h hh]; exact (wf.hq h hh).2) (fun h hh => by rw [hkf h hh]; exact (wf.hk h hh).2)
    (fun h hh => by rw [hvf h hh]; exact (wf.hv h hh).2)
    (fun h hh => by rw [hqf h hh]; exact (wf.hq h hh).2.ge) (fun h hh => by rw [hkf h hh]; exact (wf.hk h hh).2.ge)
    (fun h hh => by rw [hvf h hh]; exact (wf.hv h hh).2.ge)
    (by rw [softl]; exact wf.hsoft.ge) (by dsimp only; rw [ldin, wf.hlin, wf.hin, Nat.mul_comm t.nh])
    wf.hqe.ge wf.hke.ge wf.hve.ge wf.hse.ge wf.hsoe.ge
    (fun h hh a' ha' u hu => by
      rw [softv h hh a' ha' u hu, hqf h hh, hkf h hh]; rfl)
    fr.se fr.soe
  -- heads
  obtain ⟨s, eS, shd, slen, sacc, eel, eeg, eev⟩ := headsBP2_run x z n nz t.nh (t.dim * t.vd) (t.hd.fed2 t.nh x.get z.get) er.queryErr er.keyErr er.valueErr
    ⟨0, fun _ => 0⟩ ee hn hnz hee
    (fun h hh => by rw [hqf h hh]; exact ⟨(wf.hq h hh).1, (wf.hq h hh).2, rfl⟩)
    (fun h hh => by rw [hkf h hh]; exact ⟨(wf.hk h hh).1, (wf.hk h hh).2, rfl⟩)
    (fun h hh => by rw [hvf h hh]; exact ⟨(wf.hv h hh).1, (wf.hv h hh).2, rfl⟩)
    (by rw [lq, wf.hqe, Nat.mul_assoc]) (by rw [lk, wf.hke, Nat.mul_assoc]) (by rw [lv, wf.hve, Nat.mul_assoc])
  obtain ⟨sl, sg⟩ := sacc wf.pos
  obtain ⟨ie, eI, lI, gI⟩ := addIf_run t.res1 s.acc w1 n (fun _ => sl.ge)
    (fun h => by rw [← (wf.hres1 h).1]; exact Ee1)
  refine ⟨_, { { t with hd := t.hd.fed2 t.nh x.get z.get, lin := lin, m := m, l2 := l2, score := score, soft := soft,
                        att := att, r1 := r1, r2 := r2 } with
      hd := s.hd, m := m.back1 b.get e2.get, lin := lin.back1 att.get e1.get, l2 := leave t.norm1 M 0 w1,
      er := ⟨s.qe, s.ke, s.ve, er.scoreErr, er.softErr⟩ }, ie, s.ee, ef, outv, ?_, by rw [lI, sl], eel, eeg, ?_, ?_, ?_⟩
  · unfold Enc.bp2
    dsimp only
    refine (bind_some_of eL).trans ?_
    refine (bind_some_of eM).trans ?_
    refine (bind_some_of eT).trans ?_
    refine (bind_some_of eN).trans ?_
    refine (bind_some_of eLin).trans ?_
    rw [wf.kv]
    refine (bind_some_of eA).trans ?_
    refine (bind_some_of eS).trans ?_
    exact (bind_some_of eI).trans rfl
  · unfold Enc.params
    dsimp only
    have g : ∀ j, (leave t.norm1 M 0 w1 j).g = (t.l2 j).g := by
      intro j
      rw [(leave_dg _ _ _ _ _).2.2.1, (Mk _).2.2.2, (leave_dg _ _ _ _ _).2.2.1, (Lk _).2.2.2, (l2v j).2.1]
    have p1 : ∀ h, (s.hd.q h).θ = (t.hd.q h).θ ∧ (s.hd.k h).θ = (t.hd.k h).θ ∧ (s.hd.v h).θ = (t.hd.v h).θ := by
      intro h
      rw [shd]
      unfold Heads.back2 Heads.fed2
      dsimp only
      by_cases hh : h < t.nh
      · simp only [if_pos hh]
        exact ⟨rfl, rfl, rfl⟩
      · simp [hh]
    rw [g, g, mv, linv]
    simp only [fun h => (p1 h).1, fun h => (p1 h).2.1, fun h => (p1 h).2.2]
    rfl
  · have hw2 : t.norm2 = true → w.len = (L (t.nl2 - 1)).err.len := by
      intro h; rw [hw, he2, if_pos h]
    have hw3 : t.norm1 = true → w1.len = (M 0).err.len := by
      intro h; rw [hw1, he1, if_pos h]
    have kl : ∀ j, (leave t.norm1 M 0 w1 j).dim = (l2 j).dim ∧ (leave t.norm1 M 0 w1 j).out = (l2 j).out ∧
        (leave t.norm1 M 0 w1 j).err.len = (l2 j).err.len := by
      intro j
      rw [(leave_dg _ _ _ _ _).2.1, (leave_dg _ _ _ _ _).2.2.2, leave_len _ _ _ _ _ hw3, (Mk j).1, (Mk j).2.1,
        (Mk j).2.2.1, (leave_dg _ _ _ _ _).2.1, (leave_dg _ _ _ _ _).2.2.2, leave_len _ _ _ _ _ hw2, (Lk j).1,
        (Lk j).2.1, (Lk j).2.2.1]
      exact ⟨rfl, rfl, rfl⟩
    have kq : ∀ h, h < t.nh → s.hd.q h = ((t.hd.fed2 t.nh x.get z.get).q h).back1 z.get
        (er.queryErr.view (h * (t.dim * t.vd))).get := by
      intro h hh; rw [shd]; exact if_pos hh
    have kk : ∀ h, h < t.nh → s.hd.k h = ((t.hd.fed2 t.nh x.get z.get).k h).back1 z.get
        (er.keyErr.view (h * (t.dim * t.vd))).get := by
      intro h hh; rw [shd]; exact if_pos hh
    have kv : ∀ h, h < t.nh → s.hd.v h = ((t.hd.fed2 t.nh x.get z.get).v h).back1 x.get
        (er.valueErr.view (h * (t.dim * t.vd))).get := by
      intro h hh; rw [shd]; exact if_pos hh
    refine ⟨wf1.pos, wf1.kv, fun h hh => ?_, fun h hh => ?_, fun h hh => ?_, wf1.hin, wf1.hlin, wf1.hm, wf1.hres1,
      wf1.hres2, wf1.hnl2, fun h => ?_, fun h => ?_, wf1.hscore, wf1.hsoft, wf1.hatt, ?_, ?_, ?_, ?_, ?_⟩
    · dsimp only; rw [kq h hh]; exact wf1.hq h hh
    · dsimp only; rw [kk h hh]; exact wf1.hk h hh
    · dsimp only; rw [kv h hh]; exact wf1.hv h hh
    · dsimp only; rw [(kl _).1, (kl _).2.1, (kl _).2.2]; exact wf1.hnorm1 h
    · dsimp only; rw [(kl _).1, (kl _).2.1, (kl _).2.2]; exact wf1.hnorm2 h
    · dsimp only; rw [slen.1, lq]; exact wf.hqe
    · dsimp only; rw [slen.2.1, lk]; exact wf.hke
    · dsimp only; rw [slen.2.2, lv]; exact wf.hve
    · dsimp only; rw [lsc]; exact wf.hse
    · dsimp only; rw [lso]; exact wf.hsoe
  · intro P P' X Z X' Z' τ hP hx hX hz hZ
    have start := hP.start
    obtain ⟨cA, cR1, cN1, cR2⟩ := spec2_congr t x.get z.get (X τ) (Z τ) n nz wf sm hx hz
    -- attention
    obtain ⟨A', mA, adjA⟩ := att2_adjoint t x.get z.get n nz wf sm (lin.back att.get e1.get)
      (fun h => (er.queryErr.view (h * (t.dim * t.vd))).get) (fun h => (er.keyErr.view (h * (t.dim * t.vd))).get)
      (fun h => (er.valueErr.view (h * (t.dim * t.vd))).get)
      (fun h hh => by
        have hrow := row_le (k := t.dim * t.vd) hh
        have hr : t.nh * (t.dim * t.vd) = t.nh * t.dim * t.vd := by ring
        have hr' : h * (t.dim * t.vd) = h * t.dim * t.vd := by ring
        have := hH h hh
        rw [hqf h hh, hkf h hh, hvf h hh] at this
        refine HeadAdjoint.congr this (fun p hp => ?_) (fun p hp => ?_) (fun p hp => ?_)
        · rw [Arr.view_get, fr.q _ (by omega), sub_zero, hr']
        · rw [Arr.view_get, fr.k _ (by omega), sub_zero, hr']
        · rw [Arr.view_get, fr.v _ (by omega), sub_zero, hr'])
      P P' X Z X' Z' τ hP hX hx hZ hz
    -- linear map
    have hdl : t.lin.din = t.dim * t.nh * t.vd := wf.hlin.trans wf.hin
    obtain ⟨Y1, mY1, adj1⟩ := (sm.lin att.get (fun i hi => attv i (by rw [← hdl]; exact hi))).adj (fun s => (P s).lin)
      (fun s => attS2 t (P s) (X s) (Z s)) P'.lin A' τ (by rw [start]; rfl)
      (fun i hi => by rw [start, cA i (by rw [← hdl]; exact hi), attv i (by rw [← hdl]; exact hi)])
      hP.lin (by rw [hdl]; exact mA)
    have lback : lin.back = t.lin.back := by rw [linv]; rfl
    have lgrad : lin.grad = t.lin.grad := by rw [linv]; rfl
    have lafter : lin.after = t.lin.after := by rw [linv]; rfl
    -- first residual connection
    have mR1 : Moves t.lin.dout (fun s => r1S2 t (P s) (X s) (Z s)) (fun i => (if t.res1 then X' i else 0) + Y1 i) τ := by
      intro i hi
      unfold r1S2
      by_cases hr : t.res1 = true
      · simp only [if_pos hr]
        exact (hX i (by rw [← (wf.hres1 hr).1]; exact hi)).add (mY1 i hi)
      · simp only [if_neg hr, zero_add]
        exact mY1 i hi
    -- first normalisation
    obtain ⟨N1', mN1, adjN1⟩ := Madj (fun s => r1S2 t (P s) (X s) (Z s)) _ (fun s => (P s).g1) P'.g1 τ
      (fun i hi => by rw [start, cR1 i hi, av i hi]) mR1
      (fun h => by rw [start, hL0 h, (l2v 0).2.1]; rfl) hP.g1
      (fun h => by
        obtain ⟨i, hi, hne⟩ := sm.ne1 h
        exact ⟨i, hi, by rw [av i hi]; exact hne⟩)
    -- second network
    have mN1' : Moves t.lin.dout (fun s => n1S2 t (P s) (X s) (Z s)) N1' τ := mN1
    obtain ⟨Y2, mY2, adj2⟩ := (sm.m b.get (fun i hi => bv i (by rw [← wf.hm]; exact hi))).adj (fun s => (P s).m)
      (fun s => n1S2 t (P s) (X s) (Z s)) P'.m N1' τ (by rw [start]; rfl)
      (fun i hi => by rw [start, cN1 i (by rw [← wf.hm]; exact hi), bv i (by rw [← wf.hm]; exact hi)])
      hP.m (by rw [wf.hm]; exact mN1')
    have mback : m.back = t.m.back := by rw [mv]; rfl
    have mgrad : m.grad = t.m.grad := by rw [mv]; rfl
    have mafter : m.after = t.m.after := by rw [mv]; rfl
    have mR2 : Moves t.m.dout (fun s => r2S2 t (P s) (X s) (Z s)) (fun i => (if t.res2 then N1' i else 0) + Y2 i) τ := by
      intro i hi
      unfold r2S2
      by_cases hr : t.res2 = true
      · simp only [if_pos hr]
        exact (mN1' i (by rw [← (wf.hres2 hr).1]; exact hi)).add (mY2 i hi)
      · simp only [if_neg hr, zero_add]
        exact mY2 i hi
    obtain ⟨Y', mY, adjY⟩ := Ladj (fun s => r2S2 t (P s) (X s) (Z s)) _ (fun s => (P s).g2) P'.g2 τ
      (fun i hi => by rw [start, cR2 i hi, cv i hi]) mR2
      (fun h => by rw [start, (l2v _).2.1]; rfl) hP.g2
      (fun h => by
        obtain ⟨i, hi, hne⟩ := sm.ne2 h
        exact ⟨i, hi, by rw [cv i hi]; exact hne⟩)
    refine ⟨Y', mY, ?_⟩
    -- the second residual connection
    have s2 : dot t.m.dout e2.get (fun i => (if t.res2 then N1' i else 0) + Y2 i) =
        dot t.lin.dout temp.get N1' + dot t.m.np (t.m.grad b.get e2.get) P'.m := by
      rw [dot_add_right, adj2, ← add_assoc]
      congr 1
      rw [wf.hm]
      by_cases hr : t.res2 = true
      · have : dot t.lin.dout temp.get N1' = dot t.lin.dout (fun i => t.m.back b.get e2.get i + e2.get i) N1' := by
          refine dot_congr fun i hi => ?_
          have hi' : i < t.m.dout := by rw [(wf.hres2 hr).1]; exact hi
          rw [gT i (fun h => by rw [hsz h]; exact hi'), if_pos hr, hw]
          dsimp only
          rw [mback, mafter, mdout, if_pos hi', sm.keepM hr _ _ _ hi']
        rw [this, dot_add_left]
        simp only [if_pos hr]
        rw [(wf.hres2 hr).1]
        ring
      · have : dot t.lin.dout temp.get N1' = dot t.lin.dout (t.m.back b.get e2.get) N1' := by
          refine dot_congr fun i hi => ?_
          rw [gT i (fun h => absurd h hr), if_neg hr, add_zero]
          dsimp only
          rw [mback]
        rw [this]
        simp only [if_neg hr]
        unfold dot
        simp
    have s1 : dot t.lin.dout e1.get (fun i => (if t.res1 then X' i else 0) + Y1 i) =
        dot n ie.get X' + dot nz (fun i => s.ee.get i - ee.get i) Z' + (∑ h ∈ range t.nh, (dot (t.hd.q h).np ((t.hd.q h).grad z.get
            (er.queryErr.view (h * (t.dim * t.vd))).get) (P'.q h) +
          dot (t.hd.k h).np ((t.hd.k h).grad z.get (er.keyErr.view (h * (t.dim * t.vd))).get) (P'.k h) +
          dot (t.hd.v h).np ((t.hd.v h).grad x.get (er.valueErr.view (h * (t.dim * t.vd))).get) (P'.v h))) +
        dot t.lin.np (t.lin.grad att.get e1.get) P'.lin := by
      have sacc' : ∀ i, i < n → s.acc.get i = ∑ h ∈ range t.nh,
          (t.hd.v h).back x.get (er.valueErr.view (h * (t.dim * t.vd))).get i := by
        intro i hi
        rw [sg i hi]
        refine Finset.sum_congr rfl fun h hh' => ?_
        have hh := Finset.mem_range.1 hh'
        rw [hvf h hh]
        rfl
      have see' : dot nz (fun i => s.ee.get i - ee.get i) Z' = dot nz (fun i => ∑ h ∈ range t.nh,
          ((t.hd.q h).back z.get (er.queryErr.view (h * (t.dim * t.vd))).get i +
          (t.hd.k h).back z.get (er.keyErr.view (h * (t.dim * t.vd))).get i)) Z' := by
        refine dot_congr fun i hi => ?_
        rw [eev i hi, add_sub_cancel_left]
        refine Finset.sum_congr rfl fun h hh' => ?_
        have hh := Finset.mem_range.1 hh'
        rw [hqf h hh, hkf h hh]
        rfl
      rw [dot_add_right, adj1, hdl, ← lback, adjA, see']
      have : dot n ie.get X' = dot t.lin.dout e1.get (fun i => if t.res1 then X' i else 0) +
          dot n (fun i => ∑ h ∈ range t.nh,
          (t.hd.v h).back x.get (er.valueErr.view (h * (t.dim * t.vd))).get i) X' := by
        by_cases hr : t.res1 = true
        · rw [dot_congr (b := fun i => e1.get i + (∑ h ∈ range t.nh,
            (t.hd.v h).back x.get (er.valueErr.view (h * (t.dim * t.vd))).get i)), dot_add_left]
          · simp only [if_pos hr]
            rw [(wf.hres1 hr).1]
          · intro i hi
            have hi' : i < t.lin.dout := by rw [(wf.hres1 hr).1]; exact hi
            rw [gI i (fun _ => hi), if_pos hr, hw1, sacc' i hi]
            dsimp only
            rw [lafter, ldout, if_pos hi', sm.keepLin hr _ _ _ hi']
            ring
        · rw [dot_congr (b := fun i => ∑ h ∈ range t.nh,
            (t.hd.v h).back x.get (er.valueErr.view (h * (t.dim * t.vd))).get i)]
          · simp only [if_neg hr]
            rw [show dot t.lin.dout e1.get (fun _ => 0) = 0 by unfold dot; simp, zero_add]
          · intro i hi
            rw [gI i (fun h => absurd h hr), if_neg hr, add_zero, sacc' i hi]
      rw [this]
      ring
    rw [adjY, s2, adjN1, s1]
    unfold Enc.pair
    dsimp only
    have pq : ∀ h ∈ range t.nh,
        (dot (t.hd.q h).np (fun i => (s.hd.q h).dθ i - (t.hd.q h).dθ i) (P'.q h) +
         dot (t.hd.k h).np (fun i => (s.hd.k h).dθ i - (t.hd.k h).dθ i) (P'.k h) +
         dot (t.hd.v h).np (fun i => (s.hd.v h).dθ i - (t.hd.v h).dθ i) (P'.v h)) =
        (dot (t.hd.q h).np ((t.hd.q h).grad z.get (er.queryErr.view (h * (t.dim * t.vd))).get) (P'.q h) +
          dot (t.hd.k h).np ((t.hd.k h).grad z.get (er.keyErr.view (h * (t.dim * t.vd))).get) (P'.k h) +
          dot (t.hd.v h).np ((t.hd.v h).grad x.get (er.valueErr.view (h * (t.dim * t.vd))).get) (P'.v h)) := by
      intro h hh'
      have hh := Finset.mem_range.1 hh'
      rw [shd]
      unfold Heads.back2
      dsimp only
      rw [if_pos hh, if_pos hh, if_pos hh, hqf h hh, hkf h hh, hvf h hh]
      refine congrArg₂ (· + ·) (congrArg₂ (· + ·) ?_ ?_) ?_
      · exact dot_congr fun i _ => add_sub_cancel_left _ _
      · exact dot_congr fun i _ => add_sub_cancel_left _ _
      · exact dot_congr fun i _ => add_sub_cancel_left _ _
    rw [Finset.sum_congr rfl pq]
    have pm : dot t.m.np (fun i => (m.back1 b.get e2.get).dθ i - t.m.dθ i) P'.m =
        dot t.m.np (t.m.grad b.get e2.get) P'.m := by
      refine dot_congr fun i _ => ?_
      unfold Sub.back1
      dsimp only
      rw [mgrad, show m.dθ = t.m.dθ by rw [mv]; rfl, add_sub_cancel_left]
    have pl : dot t.lin.np (fun i => (lin.back1 att.get e1.get).dθ i - t.lin.dθ i) P'.lin =
        dot t.lin.np (t.lin.grad att.get e1.get) P'.lin := by
      refine dot_congr fun i _ => ?_
      unfold Sub.back1
      dsimp only
      rw [lgrad, show lin.dθ = t.lin.dθ by rw [linv]; rfl, add_sub_cancel_left]
    have p1 : (if t.norm1 then (leave t.norm1 M 0 w1 0).dg - (t.l2 0).dg else 0) =
        if t.norm1 then (M 0).dg - (leave t.norm2 L (t.nl2 - 1) w 0).dg else 0 := by
      by_cases h : t.norm1 = true
      · rw [if_pos h, if_pos h, (leave_dg _ _ _ _ _).1, hL0 h, (l2v 0).2.2.1]
      · rw [if_neg h, if_neg h]
    have p2 : (if t.norm2 then (leave t.norm1 M 0 w1 (t.nl2 - 1)).dg - (t.l2 (t.nl2 - 1)).dg else 0) =
        if t.norm2 then (L (t.nl2 - 1)).dg - (l2 (t.nl2 - 1)).dg else 0 := by
      by_cases h : t.norm2 = true
      · rw [if_pos h, if_pos h, (leave_dg _ _ _ _ _).1, (l2v _).2.2.1]
        congr 1
        by_cases h1 : t.norm1 = true
        · rw [Mne _ (hne h1 h).symm, (leave_dg _ _ _ _ _).1]
        · rw [Mf (by simpa using h1), (leave_dg _ _ _ _ _).1]
      · rw [if_neg h, if_neg h]
    rw [pm, pl, p1, p2]
    ring

end LLab.Transf
