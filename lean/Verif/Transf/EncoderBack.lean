import Verif.Transf.EncoderFwd

/-!
The backward pass of the encoder computes a gradient. Property C118.
-/

namespace LLab.Transf

open Finset LLab.Attention LLab.Softmax

/-! ### Scaled l2 normalisation along curves -/

/-- The input error of the scaled l2 normalisation. -/
noncomputable def l2back (n : Nat) (g N : ℝ) (x e : Nat → ℝ) (p : Nat) : ℝ :=
  ∑ j ∈ range n, (if p = j then g * e p * (N * N - x p * x p) / (N * N * N)
    else -(g * e j * (x p * x j) / (N * N * N)))

theorem l2_adjoint (n : Nat) (X : ℝ → Nat → ℝ) (X' : Nat → ℝ) (G : ℝ → ℝ) (G' τ : ℝ) (x : Nat → ℝ)
    (hx : ∀ i, i < n → X τ i = x i) (hX : Moves n X X' τ) (hG : HasDerivAt G G' τ) (hne : ∃ i, i < n ∧ x i ≠ 0) :
    ∃ Y', Moves n (fun s => scaled n (G s) (X s)) Y' τ ∧
      ∀ e : Nat → ℝ, dot n e Y' = dot n (l2back n (G τ) (Real.sqrt (∑ j ∈ range n, x j ^ 2)) x e) X' +
        (∑ i ∈ range n, e i * x i / Real.sqrt (∑ j ∈ range n, x j ^ 2)) * G' := by
  have hp := L2Norm.norm_pos hne
  have hS : 0 < ∑ i ∈ range n, x i ^ 2 := Real.sqrt_pos.1 hp
  have hsum : ∑ i ∈ range n, X τ i ^ 2 = ∑ i ∈ range n, x i ^ 2 :=
    Finset.sum_congr rfl fun i hi => by rw [hx i (Finset.mem_range.1 hi)]
  generalize hN : Real.sqrt (∑ i ∈ range n, x i ^ 2) = N at *
  have hSd : HasDerivAt (fun s => ∑ i ∈ range n, X s i ^ 2) (2 * ∑ i ∈ range n, x i * X' i) τ := by
    refine (HasDerivAt.fun_sum fun i hi => (hX i (Finset.mem_range.1 hi)).fun_pow 2).congr_deriv ?_
    rw [Finset.mul_sum]
    refine Finset.sum_congr rfl fun i hi => ?_
    rw [hx i (Finset.mem_range.1 hi)]
    simp
    ring
  have hNd : HasDerivAt (fun s => Real.sqrt (∑ i ∈ range n, X s i ^ 2)) ((∑ i ∈ range n, x i * X' i) / N) τ := by
    refine (hSd.sqrt (by rw [hsum]; exact hS.ne')).congr_deriv ?_
    rw [hsum, hN]
    field_simp
  refine ⟨fun i => ((X' i * G τ + x i * G') * N - x i * G τ * ((∑ j ∈ range n, x j * X' j) / N)) / N ^ 2, ?_, ?_⟩
  · intro i hi
    refine (((hX i hi).fun_mul hG).fun_div hNd (by rw [hsum, hN]; exact hp.ne')).congr_deriv ?_
    rw [hsum, hN, hx i hi]
  · intro e
    have hb : ∀ p, p < n → l2back n (G τ) N x e p = G τ * e p / N - G τ * x p * (∑ j ∈ range n, e j * x j) / N ^ 3 := by
      intro p hp'
      unfold l2back
      have : ∀ j ∈ range n, (if p = j then G τ * e p * (N * N - x p * x p) / (N * N * N)
          else -(G τ * e j * (x p * x j) / (N * N * N))) =
          (if p = j then G τ * e p / N else 0) + -(G τ * x p / N ^ 3) * (e j * x j) := by
        intro j _
        by_cases hj : p = j
        · subst hj
          rw [if_pos rfl, if_pos rfl]
          field_simp
          ring
        · rw [if_neg hj, if_neg hj]
          field_simp
          ring
      rw [Finset.sum_congr rfl this, Finset.sum_add_distrib, Finset.sum_ite_eq, if_pos (Finset.mem_range.2 hp'),
        ← Finset.mul_sum]
      ring
    rw [dot_congr hb]
    unfold dot
    have e1 : ∀ i ∈ range n, e i * (((X' i * G τ + x i * G') * N - x i * G τ * ((∑ j ∈ range n, x j * X' j) / N)) / N ^ 2) =
        G τ / N * (e i * X' i) + G' / N * (e i * x i) - G τ * (∑ j ∈ range n, x j * X' j) / N ^ 3 * (e i * x i) := by
      intro i _
      field_simp
    have e2 : ∀ i ∈ range n, (G τ * e i / N - G τ * x i * (∑ j ∈ range n, e j * x j) / N ^ 3) * X' i =
        G τ / N * (e i * X' i) - G τ * (∑ j ∈ range n, e j * x j) / N ^ 3 * (x i * X' i) := by
      intro i _
      ring
    rw [Finset.sum_congr rfl e1, Finset.sum_congr rfl e2, Finset.sum_sub_distrib, Finset.sum_sub_distrib,
      Finset.sum_add_distrib, ← Finset.mul_sum, ← Finset.mul_sum, ← Finset.mul_sum, ← Finset.mul_sum, Finset.sum_mul,
      ← Finset.sum_mul, ← Finset.sum_div]
    ring

/-- The stage of a normalisation that may be switched off. -/
theorem norm_stage (flag : Bool) (nl2 : Nat) (l2 : Nat → L2) (i d : Nat) (x e : Arr ℝ) (hi : flag = true → i < nl2)
    (hd : flag = true → (l2 i).dim = d) (hl : flag = true → d ≤ (l2 i).err.len) (hx : flag = true → d ≤ x.len)
    (he : d ≤ e.len) (hz : flag = true → ∀ u, u < d → (l2 i).err.get u = 0)
    (hN : flag = true → (l2 i).norm = Real.sqrt (∑ j ∈ range d, x.get j ^ 2)) :
    ∃ l2', normBPIf flag nl2 l2 i x e = some l2' ∧ (∀ j, j ≠ i → l2' j = l2 j) ∧ (flag = false → l2' = l2) ∧
      (∀ j, (l2' j).dim = (l2 j).dim ∧ (l2' j).err.len = (l2 j).err.len ∧ (l2' j).out = (l2 j).out ∧
        (l2' j).g = (l2 j).g) ∧
      d ≤ (if flag then (l2' i).err else e).len ∧
      ∀ (X : ℝ → Nat → ℝ) (X' : Nat → ℝ) (G : ℝ → ℝ) (G' τ : ℝ), (∀ i, i < d → X τ i = x.get i) → Moves d X X' τ →
        (flag = true → G τ = (l2 i).g) → HasDerivAt G G' τ → (flag = true → ∃ i, i < d ∧ x.get i ≠ 0) →
        ∃ Y', Moves d (fun s => if flag then scaled d (G s) (X s) else X s) Y' τ ∧
          dot d e.get Y' = dot d (if flag then (l2' i).err else e).get X' +
            (if flag then (l2' i).dg - (l2 i).dg else 0) * G' := by
  cases flag with
  | false =>
    refine ⟨l2, rfl, fun _ _ => rfl, fun _ => rfl, fun _ => ⟨rfl, rfl, rfl, rfl⟩, he, ?_⟩
    intro X X' G G' τ _ hX _ _ _
    exact ⟨X', hX, by simp⟩
  | true =>
    obtain ⟨ie, e1, l1, h1⟩ := L2Norm.bp_eq d (l2 i).g (l2 i).norm x e (l2 i).dg (l2 i).err (hx rfl) he (hl rfl)
    refine ⟨Function.update l2 i { l2 i with dg := (l2 i).dg + ∑ i_1 ∈ range d, e.get i_1 * x.get i_1 / (l2 i).norm,
                                             err := ie }, ?_, ?_, ?_, ?_, ?_, ?_⟩
    · unfold normBPIf normBP
      dsimp only
      rw [if_pos (hi rfl), hd rfl]
      exact (bind_some_of e1).trans rfl
    · intro j hj
      rw [Function.update_of_ne hj]
    · intro h; cases h
    · intro j
      by_cases hj : j = i
      · subst hj; rw [Function.update_self]; exact ⟨rfl, l1, rfl, rfl⟩
      · rw [Function.update_of_ne hj]; exact ⟨rfl, rfl, rfl, rfl⟩
    · rw [if_pos rfl, Function.update_self]
      dsimp only
      rw [l1]; exact hl rfl
    · intro X X' G G' τ hXx hX hGg hG hne
      obtain ⟨Y', hY, hadj⟩ := l2_adjoint d X X' G G' τ x.get hXx hX hG (hne rfl)
      refine ⟨Y', hY, ?_⟩
      rw [hadj e.get, if_pos rfl, if_pos rfl, Function.update_self]
      dsimp only
      rw [add_sub_cancel_left, hN rfl]
      congr 1
      refine dot_congr fun p hp => ?_
      rw [h1 p hp, hz rfl p hp, zero_add, hN rfl, hGg rfl]
      rfl

/-! ### The networks -/

theorem Sub.bp_eq (s : Sub) (x e : Arr ℝ) (hx : s.din ≤ x.len) (he : s.dout ≤ e.len)
    (hs : s.seen = some x.get) :
    s.bp x e = some ({ s with dθ := fun i => s.dθ i + s.grad x.get e.get i }, ⟨s.din, s.back x.get e.get⟩,
      ⟨e.len, fun i => if i < s.dout then s.after x.get e.get i else e.get i⟩) := by
  unfold Sub.bp
  rw [if_pos ⟨hx, he, x.get, hs, fun _ _ => rfl⟩]

/-- A network after a backward pass. -/
def Sub.back1 (s : Sub) (x e : Nat → ℝ) : Sub := { s with dθ := fun i => s.dθ i + s.grad x e i }

theorem addIf_run (flag : Bool) (temp e : Arr ℝ) (n : Nat) (h1 : flag = true → n ≤ temp.len)
    (h2 : flag = true → n ≤ e.len) :
    ∃ r, addIf flag temp e n = some r ∧ r.len = temp.len ∧
      ∀ i, (flag = true → i < n) → r.get i = temp.get i + if flag then e.get i else 0 := by
  cases flag with
  | false => exact ⟨temp, rfl, rfl, fun i _ => by simp⟩
  | true =>
    refine ⟨_, Vec.zip1DInPlace_eq _ _ _ _ (h1 rfl) (h2 rfl), rfl, ?_⟩
    intro i hi
    simp [hi rfl]

theorem leave_ne (flag : Bool) (l2 : Nat → L2) (i : Nat) (e : Arr ℝ) {j : Nat} (h : flag = true → j ≠ i) :
    leave flag l2 i e j = l2 j := by
  cases flag with
  | false => rfl
  | true => exact Function.update_of_ne (h rfl) _ _

theorem leave_dg (flag : Bool) (l2 : Nat → L2) (i : Nat) (e : Arr ℝ) (j : Nat) :
    (leave flag l2 i e j).dg = (l2 j).dg ∧ (leave flag l2 i e j).dim = (l2 j).dim ∧
      (leave flag l2 i e j).g = (l2 j).g ∧ (leave flag l2 i e j).out = (l2 j).out := by
  cases flag with
  | false => exact ⟨rfl, rfl, rfl, rfl⟩
  | true =>
    unfold leave
    dsimp only
    by_cases h : j = i
    · subst h
      rw [Function.update_self]
      exact ⟨rfl, rfl, rfl, rfl⟩
    · rw [Function.update_of_ne h]
      exact ⟨rfl, rfl, rfl, rfl⟩

theorem leave_len (flag : Bool) (l2 : Nat → L2) (i : Nat) (e : Arr ℝ) (j : Nat)
    (h : flag = true → e.len = (l2 i).err.len) : (leave flag l2 i e j).err.len = (l2 j).err.len := by
  cases flag with
  | false => rfl
  | true =>
    unfold leave
    dsimp only
    by_cases hj : j = i
    · subst hj
      rw [Function.update_self]
      exact h rfl
    · rw [Function.update_of_ne hj]

/-- The heads after the first `m` backward passes with the errors `Eq h`, .... -/
def Heads.back1 (hd : Heads) (m : Nat) (x : Nat → ℝ) (Eq Ek Ev : Nat → Nat → ℝ) : Heads :=
  ⟨fun h => if h < m then (hd.q h).back1 x (Eq h) else hd.q h,
   fun h => if h < m then (hd.k h).back1 x (Ek h) else hd.k h,
   fun h => if h < m then (hd.v h).back1 x (Ev h) else hd.v h⟩

theorem headsBP_run (x : Arr ℝ) (n nh d : Nat) (hd : Heads) (qe ke ve acc0 : Arr ℝ) (hn : n ≤ x.len)
    (hq : ∀ h, h < nh → (hd.q h).din = n ∧ (hd.q h).dout = d ∧ (hd.q h).seen = some x.get)
    (hk : ∀ h, h < nh → (hd.k h).din = n ∧ (hd.k h).dout = d ∧ (hd.k h).seen = some x.get)
    (hv : ∀ h, h < nh → (hd.v h).din = n ∧ (hd.v h).dout = d ∧ (hd.v h).seen = some x.get)
    (lq : nh * d ≤ qe.len) (lk : nh * d ≤ ke.len) (lv : nh * d ≤ ve.len) :
    ∃ s, loop nh (headBP x n) ⟨hd, acc0, qe, ke, ve, 0, 0, 0⟩ = some s ∧
      s.hd = hd.back1 nh x.get (fun h => (qe.view (h * d)).get) (fun h => (ke.view (h * d)).get)
        (fun h => (ve.view (h * d)).get) ∧
      (s.qe.len = qe.len ∧ s.ke.len = ke.len ∧ s.ve.len = ve.len) ∧
      (0 < nh → s.acc.len = n ∧ ∀ i, i < n → s.acc.get i = ∑ h ∈ range nh,
        ((hd.q h).back x.get (qe.view (h * d)).get i + (hd.k h).back x.get (ke.view (h * d)).get i +
          (hd.v h).back x.get (ve.view (h * d)).get i)) := by
  obtain ⟨s, e, h1, -, ⟨h2, -⟩, h3⟩ := loop_inv (n := nh) (s := (⟨hd, acc0, qe, ke, ve, 0, 0, 0⟩ : HState)) (f := headBP x n)
    (fun m s => s.hd = hd.back1 m x.get (fun h => (qe.view (h * d)).get) (fun h => (ke.view (h * d)).get)
        (fun h => (ve.view (h * d)).get) ∧
      (s.sq = m * d ∧ s.sk = m * d ∧ s.sv = m * d) ∧
      ((s.qe.len = qe.len ∧ s.ke.len = ke.len ∧ s.ve.len = ve.len) ∧
        (∀ u, m * d ≤ u → s.qe.get u = qe.get u ∧ s.ke.get u = ke.get u ∧ s.ve.get u = ve.get u)) ∧
      (0 < m → s.acc.len = n ∧ ∀ i, i < n → s.acc.get i = ∑ h ∈ range m,
        ((hd.q h).back x.get (qe.view (h * d)).get i + (hd.k h).back x.get (ke.view (h * d)).get i +
          (hd.v h).back x.get (ve.view (h * d)).get i)))
    (by
      refine ⟨by simp [Heads.back1], by simp, ⟨⟨rfl, rfl, rfl⟩, fun _ _ => ⟨rfl, rfl, rfl⟩⟩, fun h => by omega⟩)
    (by
      rintro m hm ⟨shd, acc, sqe, ske, sve, sq, sk, sv⟩ ⟨h1, ⟨o1, o2, o3⟩, ⟨⟨l1, l2, l3⟩, hu⟩, ha⟩
      dsimp only at h1 o1 o2 o3 l1 l2 l3 hu ha
      subst h1 o1 o2 o3
      obtain ⟨q1, q2, q3⟩ := hq m hm
      obtain ⟨k1, k2, k3⟩ := hk m hm
      obtain ⟨v1, v2, v3⟩ := hv m hm
      have hrow := row_le (k := d) hm
      have hs1 : (m + 1) * d = m * d + d := by ring
      have eq1 : (sqe.view (m * d)).get = (qe.view (m * d)).get := by
        funext p; rw [Arr.view_get, Arr.view_get, (hu _ (by omega)).1]
      have ek1 : (ske.view (m * d)).get = (ke.view (m * d)).get := by
        funext p; rw [Arr.view_get, Arr.view_get, (hu _ (by omega)).2.1]
      have ev1 : (sve.view (m * d)).get = (ve.view (m * d)).get := by
        funext p; rw [Arr.view_get, Arr.view_get, (hu _ (by omega)).2.2]
      have bq := Sub.bp_eq (hd.q m) x (sqe.view (m * d)) (by omega) (by rw [Arr.view_len]; omega)
        q3
      have bk := Sub.bp_eq (hd.k m) x (ske.view (m * d)) (by omega) (by rw [Arr.view_len]; omega)
        k3
      have bv := Sub.bp_eq (hd.v m) x (sve.view (m * d)) (by omega) (by rw [Arr.view_len]; omega)
        v3
      rw [eq1] at bq
      rw [ek1] at bk
      rw [ev1] at bv
      obtain ⟨a1, ea, la, ga⟩ : ∃ a1, addHead m acc ⟨(hd.q m).din, (hd.q m).back x.get (qe.view (m * d)).get⟩ n = some a1 ∧
          a1.len = n ∧ ∀ i, i < n → a1.get i = (∑ h ∈ range m,
        ((hd.q h).back x.get (qe.view (h * d)).get i + (hd.k h).back x.get (ke.view (h * d)).get i +
          (hd.v h).back x.get (ve.view (h * d)).get i)) + (hd.q m).back x.get (qe.view (m * d)).get i := by
        cases m with
        | zero => exact ⟨_, rfl, q1, fun i _ => by simp⟩
        | succ m =>
          obtain ⟨la, ga⟩ := ha (by omega)
          refine ⟨_, Vec.zip1DInPlace_eq _ _ _ _ la.ge q1.ge, la, fun i hi => ?_⟩
          dsimp only
          rw [if_pos hi, ga i hi]
      obtain ⟨a2, ea2, la2, ga2⟩ : ∃ a2, Vec.zip1DInPlace (· + ·) a1 ⟨(hd.k m).din, (hd.k m).back x.get
          (ke.view (m * d)).get⟩ n = some a2 ∧ a2.len = n ∧
          ∀ i, i < n → a2.get i = a1.get i + (hd.k m).back x.get (ke.view (m * d)).get i :=
        ⟨_, Vec.zip1DInPlace_eq _ _ _ _ la.ge k1.ge, la, fun i hi => if_pos hi⟩
      obtain ⟨a3, ea3, la3, ga3⟩ : ∃ a3, Vec.zip1DInPlace (· + ·) a2 ⟨(hd.v m).din, (hd.v m).back x.get
          (ve.view (m * d)).get⟩ n = some a3 ∧ a3.len = n ∧
          ∀ i, i < n → a3.get i = a2.get i + (hd.v m).back x.get (ve.view (m * d)).get i :=
        ⟨_, Vec.zip1DInPlace_eq _ _ _ _ la2.ge v1.ge, la2, fun i hi => if_pos hi⟩
      have f1 : (hd.back1 m x.get (fun h => (qe.view (h * d)).get) (fun h => (ke.view (h * d)).get)
        (fun h => (ve.view (h * d)).get)).q m = hd.q m := if_neg (by omega)
      have f2 : (hd.back1 m x.get (fun h => (qe.view (h * d)).get) (fun h => (ke.view (h * d)).get)
        (fun h => (ve.view (h * d)).get)).k m = hd.k m := if_neg (by omega)
      have f3 : (hd.back1 m x.get (fun h => (qe.view (h * d)).get) (fun h => (ke.view (h * d)).get)
        (fun h => (ve.view (h * d)).get)).v m = hd.v m := if_neg (by omega)
      unfold headBP
      dsimp only
      rw [f1, f2, f3, bq, bk, bv]
      simp only [Option.bind_eq_bind, Option.bind_some]
      rw [ea, Option.bind_some, ea2, Option.bind_some, ea3, Option.bind_some]
      refine ⟨_, rfl, ?_, ?_, ⟨⟨l1, l2, l3⟩, ?_⟩, ?_⟩
      · dsimp only
        unfold Heads.back1
        dsimp only
        rw [← upd_ite hd.q (fun h => (hd.q h).back1 x.get (qe.view (h * d)).get),
          ← upd_ite hd.k (fun h => (hd.k h).back1 x.get (ke.view (h * d)).get),
          ← upd_ite hd.v (fun h => (hd.v h).back1 x.get (ve.view (h * d)).get)]
        rfl
      · dsimp only
        rw [q2, k2, v2, hs1]
        exact ⟨rfl, rfl, rfl⟩
      · intro u hu'
        dsimp only
        rw [Arr.splice_ge _ _ (by omega), Arr.splice_ge _ _ (by omega), Arr.splice_ge _ _ (by omega)]
        dsimp only
        rw [if_neg (by omega), if_neg (by omega), if_neg (by omega), Arr.view_get, Arr.view_get, Arr.view_get,
          Nat.add_sub_cancel' (by omega)]
        exact ⟨rfl, rfl, rfl⟩
      · intro _
        refine ⟨la3, fun i hi => ?_⟩
        dsimp only
        rw [ga3 i hi, ga2 i hi, ga i hi, Finset.sum_range_succ]
        ring)
  exact ⟨s, e, h1, h2, h3⟩

/-! ### The gradient -/

/-- The conditions at the input `x` under which the encoder is differentiable:
its networks are, as far as their own passes are concerned (C70, C71, C74,
C75), those followed by a residual connection do not work in the array of the
incoming error, and no normalised vector is zero. -/
structure Enc.Smooth (t : Enc) (x : Nat → ℝ) : Prop where
  q : ∀ h, h < t.nh → (t.hd.q h).Diff x
  k : ∀ h, h < t.nh → (t.hd.k h).Diff x
  v : ∀ h, h < t.nh → (t.hd.v h).Diff x
  lin : ∀ y, (∀ i, i < t.lin.din → y i = attS t t.params x i) → t.lin.Diff y
  m : ∀ y, (∀ i, i < t.m.din → y i = n1S t t.params x i) → t.m.Diff y
  keepLin : t.res1 = true → t.lin.Keeps
  keepM : t.res2 = true → t.m.Keeps
  ne1 : t.norm1 = true → ∃ i, i < t.lin.dout ∧ r1S t t.params x i ≠ 0
  ne2 : t.norm2 = true → ∃ i, i < t.m.dout ∧ r2S t t.params x i ≠ 0

/-- `P` is a motion of the parameters of `t`, through the current ones at time
`τ` with velocity `P'`. -/
structure Enc.PMoves (t : Enc) (P : ℝ → Params) (P' : Params) (τ : ℝ) : Prop where
  start : P τ = t.params
  q : ∀ h, h < t.nh → Moves (t.hd.q h).np (fun s => (P s).q h) (P'.q h) τ
  k : ∀ h, h < t.nh → Moves (t.hd.k h).np (fun s => (P s).k h) (P'.k h) τ
  v : ∀ h, h < t.nh → Moves (t.hd.v h).np (fun s => (P s).v h) (P'.v h) τ
  m : Moves t.m.np (fun s => (P s).m) P'.m τ
  lin : Moves t.lin.np (fun s => (P s).lin) P'.lin τ
  g1 : HasDerivAt (fun s => (P s).g1) P'.g1 τ
  g2 : HasDerivAt (fun s => (P s).g2) P'.g2 τ

/-- What the backward pass added to the derivatives of the parameters, paired
with a velocity of the parameters. -/
noncomputable def Enc.pair (t t2 : Enc) (P' : Params) : ℝ :=
  (∑ h ∈ range t.nh,
    (dot (t.hd.q h).np (fun i => (t2.hd.q h).dθ i - (t.hd.q h).dθ i) (P'.q h) +
     dot (t.hd.k h).np (fun i => (t2.hd.k h).dθ i - (t.hd.k h).dθ i) (P'.k h) +
     dot (t.hd.v h).np (fun i => (t2.hd.v h).dθ i - (t.hd.v h).dθ i) (P'.v h))) +
  dot t.m.np (fun i => t2.m.dθ i - t.m.dθ i) P'.m + dot t.lin.np (fun i => t2.lin.dθ i - t.lin.dθ i) P'.lin +
  (if t.norm1 then (t2.l2 0).dg - (t.l2 0).dg else 0) * P'.g1 +
  (if t.norm2 then (t2.l2 (t.nl2 - 1)).dg - (t.l2 (t.nl2 - 1)).dg else 0) * P'.g2

theorem dot_add_left (n : Nat) (a b x : Nat → ℝ) : dot n (fun i => a i + b i) x = dot n a x + dot n b x := by
  unfold dot
  rw [← Finset.sum_add_distrib]
  exact Finset.sum_congr rfl fun i _ => by ring

theorem dot_add_right (n : Nat) (a x y : Nat → ℝ) : dot n a (fun i => x i + y i) = dot n a x + dot n a y := by
  unfold dot
  rw [← Finset.sum_add_distrib]
  exact Finset.sum_congr rfl fun i _ => by ring

theorem dot_sum_left (n m : Nat) (a : Nat → Nat → ℝ) (x : Nat → ℝ) :
    dot n (fun i => ∑ h ∈ range m, a h i) x = ∑ h ∈ range m, dot n (a h) x := by
  unfold dot
  rw [Finset.sum_comm]
  exact Finset.sum_congr rfl fun i _ => by rw [Finset.sum_mul]

/-- The attention moves, and the error arrays pair with its velocity. -/
theorem att_adjoint (t : Enc) (x : Nat → ℝ) (n : Nat) (wf : t.WF n) (sm : t.Smooth x) (e : Nat → ℝ)
    (Eq Ek Ev : Nat → Nat → ℝ)
    (hH : ∀ h, h < t.nh → HeadAdjoint t.masked t.dim t.vd ((t.hd.q h).f (t.hd.q h).θ x) ((t.hd.k h).f (t.hd.k h).θ x)
      ((t.hd.v h).f (t.hd.v h).θ x) (fun a c => e (a * t.nh * t.vd + h * t.vd + c)) (Eq h) (Ek h) (Ev h))
    (P : ℝ → Params) (P' : Params) (X : ℝ → Nat → ℝ) (X' : Nat → ℝ) (τ : ℝ) (hP : t.PMoves P P' τ) (hX : Moves n X X' τ)
    (hx : ∀ i, i < n → X τ i = x i) :
    ∃ A', Moves (t.dim * t.nh * t.vd) (fun s => attS t (P s) (X s)) A' τ ∧
      dot (t.dim * t.nh * t.vd) e A' = dot n (fun i => ∑ h ∈ range t.nh, ((t.hd.q h).back x (Eq h) i +
        (t.hd.k h).back x (Ek h) i + (t.hd.v h).back x (Ev h) i)) X' +
        ∑ h ∈ range t.nh, (dot (t.hd.q h).np ((t.hd.q h).grad x (Eq h)) (P'.q h) +
          dot (t.hd.k h).np ((t.hd.k h).grad x (Ek h)) (P'.k h) +
          dot (t.hd.v h).np ((t.hd.v h).grad x (Ev h)) (P'.v h)) := by
  have start := hP.start
  have hq : ∀ h, ∃ Y', h < t.nh → Moves (t.hd.q h).dout (fun s => (t.hd.q h).f ((P s).q h) (X s)) Y' τ ∧
      ∀ e, dot (t.hd.q h).dout e Y' = dot n ((t.hd.q h).back x e) X' + dot (t.hd.q h).np ((t.hd.q h).grad x e) (P'.q h) := by
    intro h
    by_cases hh : h < t.nh
    · have hn := (wf.hq h hh).1
      obtain ⟨Y', h1, h2⟩ := (sm.q h hh).adj (fun s => (P s).q h) X (P'.q h) X' τ (by rw [start]; rfl)
        (by rw [hn]; exact hx) (hP.q h hh) (by rw [hn]; exact hX)
      rw [hn] at h2
      exact ⟨Y', fun _ => ⟨h1, h2⟩⟩
    · exact ⟨fun _ => 0, fun h => absurd h hh⟩
  have hk : ∀ h, ∃ Y', h < t.nh → Moves (t.hd.k h).dout (fun s => (t.hd.k h).f ((P s).k h) (X s)) Y' τ ∧
      ∀ e, dot (t.hd.k h).dout e Y' = dot n ((t.hd.k h).back x e) X' + dot (t.hd.k h).np ((t.hd.k h).grad x e) (P'.k h) := by
    intro h
    by_cases hh : h < t.nh
    · have hn := (wf.hk h hh).1
      obtain ⟨Y', h1, h2⟩ := (sm.k h hh).adj (fun s => (P s).k h) X (P'.k h) X' τ (by rw [start]; rfl)
        (by rw [hn]; exact hx) (hP.k h hh) (by rw [hn]; exact hX)
      rw [hn] at h2
      exact ⟨Y', fun _ => ⟨h1, h2⟩⟩
    · exact ⟨fun _ => 0, fun h => absurd h hh⟩
  have hv : ∀ h, ∃ Y', h < t.nh → Moves (t.hd.v h).dout (fun s => (t.hd.v h).f ((P s).v h) (X s)) Y' τ ∧
      ∀ e, dot (t.hd.v h).dout e Y' = dot n ((t.hd.v h).back x e) X' + dot (t.hd.v h).np ((t.hd.v h).grad x e) (P'.v h) := by
    intro h
    by_cases hh : h < t.nh
    · have hn := (wf.hv h hh).1
      obtain ⟨Y', h1, h2⟩ := (sm.v h hh).adj (fun s => (P s).v h) X (P'.v h) X' τ (by rw [start]; rfl)
        (by rw [hn]; exact hx) (hP.v h hh) (by rw [hn]; exact hX)
      rw [hn] at h2
      exact ⟨Y', fun _ => ⟨h1, h2⟩⟩
    · exact ⟨fun _ => 0, fun h => absurd h hh⟩
  choose Q' hQ using hq
  choose K' hK using hk
  choose V' hV using hv
  have mQ : ∀ h, h < t.nh → Moves (t.dim * t.vd) (fun s => (t.hd.q h).f ((P s).q h) (X s)) (Q' h) τ := by
    intro h hh; rw [← (wf.hq h hh).2]; exact (hQ h hh).1
  have mK : ∀ h, h < t.nh → Moves (t.dim * t.vd) (fun s => (t.hd.k h).f ((P s).k h) (X s)) (K' h) τ := by
    intro h hh; rw [← (wf.hk h hh).2]; exact (hK h hh).1
  have mV : ∀ h, h < t.nh → Moves (t.dim * t.vd) (fun s => (t.hd.v h).f ((P s).v h) (X s)) (V' h) τ := by
    intro h hh; rw [← (wf.hv h hh).2]; exact (hV h hh).1
  obtain ⟨D, hD⟩ := multi_curve t.masked t.dim t.nh t.vd (fun h s => (t.hd.q h).f ((P s).q h) (X s))
    (fun h s => (t.hd.k h).f ((P s).k h) (X s)) (fun h s => (t.hd.v h).f ((P s).v h) (X s)) Q' K' V' τ mQ mK mV
  refine ⟨D, hD, ?_⟩
  rw [dot_sum_left, ← Finset.sum_add_distrib]
  unfold dot
  rw [sum_cells]
  refine Finset.sum_congr rfl fun h hh' => ?_
  have hh := Finset.mem_range.1 hh'
  have key := hH h hh (fun s => (t.hd.q h).f ((P s).q h) (X s)) (fun s => (t.hd.k h).f ((P s).k h) (X s))
    (fun s => (t.hd.v h).f ((P s).v h) (X s)) (Q' h) (K' h) (V' h) τ (fun i c => D (i * t.nh * t.vd + h * t.vd + c))
    (by
      intro u hu
      rw [start]
      exact (sm.q h hh).loc _ _ (by rw [(wf.hq h hh).1]; exact hx) u (by rw [(wf.hq h hh).2]; exact hu))
    (by
      intro u hu
      rw [start]
      exact (sm.k h hh).loc _ _ (by rw [(wf.hk h hh).1]; exact hx) u (by rw [(wf.hk h hh).2]; exact hu))
    (by
      intro u hu
      rw [start]
      exact (sm.v h hh).loc _ _ (by rw [(wf.hv h hh).1]; exact hx) u (by rw [(wf.hv h hh).2]; exact hu))
    (mQ h hh) (mK h hh) (mV h hh)
    (fun i hi c hc => by
      have hlt : i * t.nh * t.vd + h * t.vd + c < t.dim * t.nh * t.vd := by
        have := Vec.idx_lt (Vec.idx_lt hi hh) hc
        rw [Nat.add_mul] at this; exact this
      have := hD _ hlt
      simp only [multiAttn_at t.masked t.dim _ _ _ hh hc] at this
      exact this)
  refine key.trans ?_
  have e1 := (hQ h hh).2 (Eq h)
  have e2 := (hK h hh).2 (Ek h)
  have e3 := (hV h hh).2 (Ev h)
  rw [(wf.hq h hh).2] at e1
  rw [(wf.hk h hh).2] at e2
  rw [(wf.hv h hh).2] at e3
  rw [e1, e2, e3]
  have := dot_add_left n (fun i => (t.hd.q h).back x (Eq h) i + (t.hd.k h).back x (Ek h) i) ((t.hd.v h).back x (Ev h)) X'
  have h2 := dot_add_left n ((t.hd.q h).back x (Eq h)) ((t.hd.k h).back x (Ek h)) X'
  change _ = dot n (fun i => (t.hd.q h).back x (Eq h) i + (t.hd.k h).back x (Ek h) i + (t.hd.v h).back x (Ev h) i) X' + _
  rw [this, h2]
  unfold dot
  ring

/-- The stages of the specification depend on the first `n` cells of the input. -/
theorem spec_congr (t : Enc) (x y : Nat → ℝ) (n : Nat) (wf : t.WF n) (sm : t.Smooth x) (h : ∀ i, i < n → y i = x i) :
    (∀ u, u < t.dim * t.nh * t.vd → attS t t.params y u = attS t t.params x u) ∧
    (∀ i, i < t.lin.dout → r1S t t.params y i = r1S t t.params x i) ∧
    (∀ i, i < t.lin.dout → n1S t t.params y i = n1S t t.params x i) ∧
    (∀ i, i < t.m.dout → r2S t t.params y i = r2S t t.params x i) := by
  have h1 : ∀ u, u < t.dim * t.nh * t.vd → attS t t.params y u = attS t t.params x u := by
    intro u hu
    obtain ⟨i, h', c, hi, hh, hc, rfl⟩ := multi_cell hu
    unfold attS
    rw [multiAttn_at t.masked t.dim _ _ _ hh hc, multiAttn_at t.masked t.dim _ _ _ hh hc]
    have a1 : ∀ u, u < t.dim * t.vd → (t.hd.q h').f (t.params.q h') y u = (t.hd.q h').f (t.params.q h') x u :=
      fun u hu => (sm.q h' hh).loc _ _ (by rw [(wf.hq h' hh).1]; exact h) u (by rw [(wf.hq h' hh).2]; exact hu)
    have a2 : ∀ u, u < t.dim * t.vd → (t.hd.k h').f (t.params.k h') y u = (t.hd.k h').f (t.params.k h') x u :=
      fun u hu => (sm.k h' hh).loc _ _ (by rw [(wf.hk h' hh).1]; exact h) u (by rw [(wf.hk h' hh).2]; exact hu)
    have a3 : ∀ u, u < t.dim * t.vd → (t.hd.v h').f (t.params.v h') y u = (t.hd.v h').f (t.params.v h') x u :=
      fun u hu => (sm.v h' hh).loc _ _ (by rw [(wf.hv h' hh).1]; exact h) u (by rw [(wf.hv h' hh).2]; exact hu)
    have hvl := vis_le t.masked hi
    unfold attn
    refine Finset.sum_congr rfl fun u hu' => ?_
    have ht' := Finset.mem_range.1 hu'
    rw [a3 _ (by rw [Nat.mul_comm t.dim]; exact Vec.idx_lt hc (by omega))]
    congr 1
    refine smax_congr (fun b hb => ?_) ht'
    unfold score
    congr 1
    refine Finset.sum_congr rfl fun c' hc' => ?_
    rw [a1 _ (Vec.idx_lt hi (Finset.mem_range.1 hc')), a2 _ (Vec.idx_lt (show b < t.dim by omega) (Finset.mem_range.1 hc'))]
  have h2 : ∀ i, i < t.lin.dout → r1S t t.params y i = r1S t t.params x i := by
    intro i hi
    have : t.lin.f t.params.lin (attS t t.params y) i = t.lin.f t.params.lin (attS t t.params x) i :=
      (sm.lin _ fun _ _ => rfl).loc _ _ (fun u hu => h1 u (by rw [← wf.hin, ← wf.hlin]; exact hu)) i hi
    unfold r1S
    rw [this]
    by_cases hr : t.res1 = true
    · rw [if_pos hr, if_pos hr, h i (by rw [← (wf.hres1 hr).1]; exact hi)]
    · rw [if_neg hr, if_neg hr]
  have h3 : ∀ i, i < t.lin.dout → n1S t t.params y i = n1S t t.params x i := by
    intro i hi
    unfold n1S
    by_cases hN : t.norm1 = true
    · rw [if_pos hN, if_pos hN]; exact scaled_congr h2 hi
    · rw [if_neg hN, if_neg hN]; exact h2 i hi
  refine ⟨h1, h2, h3, ?_⟩
  intro i hi
  have : t.m.f t.params.m (n1S t t.params y) i = t.m.f t.params.m (n1S t t.params x) i :=
    (sm.m _ fun _ _ => rfl).loc _ _ (fun u hu => h3 u (by rw [← wf.hm]; exact hu)) i hi
  unfold r2S
  rw [this]
  by_cases hr : t.res2 = true
  · rw [if_pos hr, if_pos hr, h3 i (by rw [← (wf.hres2 hr).1]; exact hi)]
  · rw [if_neg hr, if_neg hr]

/-- **C118** (partial: equal key and value sizes). An encoder with zeroed
accumulators computes attention over the projected input, a linear map, and a
second network, each followed by the residual connection and the normalisation
its flags ask for. Its backward pass is the gradient: for every motion of all
the parameters and of the input, the inner product of the error given with the
velocity of the output is the inner product of the returned error with the
velocity of the input plus, block by block, of what was added to the
derivatives with the velocities of the parameters.

Full statement: the same for every key size (refuted by C32 and C117), and
without the condition that the networks keep the incoming error
(`C118_clobber_refuted`). -/
theorem C118_encoder_gradient_partial (t : Enc) (x : Arr ℝ) (n : Nat) (e : Arr ℝ) (wf : t.WF n) (fr : t.Fresh)
    (hn : n ≤ x.len) (he : t.m.dout ≤ e.len) (sm : t.Smooth x.get) :
    ∃ t1 t2 ie, t.ff x n = some t1 ∧ (∀ i, i < t.m.dout → t1.output.get i = encS t t.params x.get i) ∧
      t1.bp x n e = some (t2, ie) ∧ n ≤ ie.len ∧ t2.params = t.params ∧ t2.WF n ∧
      ∀ (P : ℝ → Params) (P' : Params) (X : ℝ → Nat → ℝ) (X' : Nat → ℝ) (τ : ℝ),
        t.PMoves P P' τ → (∀ i, i < n → X τ i = x.get i) → Moves n X X' τ →
        ∃ Y', Moves t.m.dout (fun s => encS t (P s) (X s)) Y' τ ∧
          dot t.m.dout e.get Y' = dot n ie.get X' + t.pair t2 P' := by
  obtain ⟨t1, ef, F⟩ := ff_run t x n wf fr hn
    (fun y hy k hk => by
      rw [(sm.lin y hy).loc _ (attS t t.params x.get) (fun i hi => (hy i hi).symm) k hk])
    (fun y hy k hk => by
      rw [(sm.m y hy).loc _ (n1S t t.params x.get) (fun i hi => (hy i hi).symm) k hk])
  obtain ⟨wf1, ⟨lin, m, l2, score, soft, att, r1, r2, rfl⟩, attv, attl, softl, softv, linv, av, al, bv, bl, mv, cv, cl, outv,
    outl, l2v, norm1, norm2⟩ := F
  dsimp only at attv attl softl softv linv av al bv bl mv cv cl outl l2v norm1 norm2
  set a := if t.res1 then r1 else lin.out with ha
  set b := if t.norm1 then (l2 0).out else a with hb
  set c := if t.res2 then r2 else m.out with hc
  have hlast : t.norm2 = true → t.nl2 - 1 < t.nl2 := by
    intro h; rw [wf.hnl2, if_pos h]; omega
  have hz0 : t.norm1 = true → 0 < t.nl2 := by
    intro h; rw [wf.hnl2, if_pos h]; omega
  have hne : t.norm1 = true → t.norm2 = true → 0 ≠ t.nl2 - 1 := by
    intro h1 h2; rw [wf.hnl2, if_pos h1, if_pos h2]; omega
  have mdin : m.din = t.m.din := by rw [mv]; rfl
  have mdout : m.dout = t.m.dout := by rw [mv]; rfl
  have ldin : lin.din = t.lin.din := by rw [linv]; rfl
  have ldout : lin.dout = t.lin.dout := by rw [linv]; rfl
  -- second normalisation
  obtain ⟨L, eL, Lne, Lf, Lk, Ee2, Ladj⟩ := norm_stage t.norm2 t.nl2 l2 (t.nl2 - 1) t.m.dout c e hlast
    (fun h => (l2v _).1.trans (wf.hnorm2 h).1) (fun h => by rw [(l2v _).2.2.2]; exact (wf.hnorm2 h).2.2.ge)
    (fun _ => cl) he
    (fun h u hu => by rw [(l2v _).2.2.2]; exact fr.l2 _ (hlast h) u (by rw [(wf.hnorm2 h).1]; exact hu))
    (fun h => by rw [norm2 h, sq_congr cv])
  set e2 := if t.norm2 then (L (t.nl2 - 1)).err else e with he2
  -- second network
  have eM := Sub.bp_eq m b e2 (by rw [mdin, wf.hm]; exact bl) (by rw [mdout]; exact Ee2) (by rw [mv]; rfl)
  set w : Arr ℝ := ⟨e2.len, fun i => if i < m.dout then m.after b.get e2.get i else e2.get i⟩ with hw
  have hsz : t.res2 = true → (if t.norm2 then (leave t.norm2 L (t.nl2 - 1) w (t.nl2 - 1)).dim else lin.dout) = t.m.dout := by
    intro h
    by_cases h2 : t.norm2 = true
    · rw [if_pos h2, (leave_dg _ _ _ _ _).2.1, (Lk _).1, (l2v _).1, (wf.hnorm2 h2).1]
    · rw [if_neg h2, ldout, (wf.hres2 h).1]
  obtain ⟨temp, eT, lT, gT⟩ := addIf_run t.res2 ⟨m.din, m.back b.get e2.get⟩ w
    (if t.norm2 then (leave t.norm2 L (t.nl2 - 1) w (t.nl2 - 1)).dim else lin.dout)
    (fun h => by rw [hsz h, (wf.hres2 h).1, ← wf.hm, ← mdin]) (fun h => by rw [hsz h]; exact Ee2)
  have ltemp : t.lin.dout ≤ temp.len := by rw [lT, ← wf.hm]; exact mdin.ge
  -- first normalisation
  have hL0 : t.norm1 = true → leave t.norm2 L (t.nl2 - 1) w 0 = l2 0 := by
    intro h
    rw [leave_ne _ _ _ _ (hne h)]
    by_cases h2 : t.norm2 = true
    · exact Lne 0 (hne h h2)
    · rw [Lf (by simpa using h2)]
  obtain ⟨M, eN, Mne, Mf, Mk, Ee1, Madj⟩ := norm_stage t.norm1 t.nl2 (leave t.norm2 L (t.nl2 - 1) w) 0
    t.lin.dout a temp hz0
    (fun h => by rw [hL0 h]; exact (l2v _).1.trans (wf.hnorm1 h).1)
    (fun h => by rw [hL0 h, (l2v _).2.2.2]; exact (wf.hnorm1 h).2.2.ge)
    (fun _ => al) ltemp
    (fun h u hu => by rw [hL0 h, (l2v _).2.2.2]; exact fr.l2 _ (hz0 h) u (by rw [(wf.hnorm1 h).1]; exact hu))
    (fun h => by rw [hL0 h, norm1 h, sq_congr av])
  set e1 := if t.norm1 then (M 0).err else temp with he1
  -- linear map
  have eLin := Sub.bp_eq lin att e1 (by rw [ldin, wf.hlin, attl, wf.hatt]) (by rw [ldout]; exact Ee1)
    (by rw [linv]; rfl)
  set w1 : Arr ℝ := ⟨e1.len, fun i => if i < lin.dout then lin.after att.get e1.get i else e1.get i⟩ with hw1
  -- attention
  have hqf : ∀ h, h < t.nh → (t.hd.fed t.nh x.get).q h = (t.hd.q h).fed x.get := fun h hh => if_pos hh
  have hkf : ∀ h, h < t.nh → (t.hd.fed t.nh x.get).k h = (t.hd.k h).fed x.get := fun h hh => if_pos hh
  have hvf : ∀ h, h < t.nh → (t.hd.fed t.nh x.get).v h = (t.hd.v h).fed x.get := fun h hh => if_pos hh
  obtain ⟨er, eA, ⟨lq, lk, lv, lsc, lso⟩, hH⟩ := multiBP_run t.masked t.dim t.nh t.vd
    (fun h => ((t.hd.fed t.nh x.get).q h).out) (fun h => ((t.hd.fed t.nh x.get).k h).out)
    (fun h => ((t.hd.fed t.nh x.get).v h).out) (fun h => ((t.hd.fed t.nh x.get).q h).dout)
    (fun h => ((t.hd.fed t.nh x.get).k h).dout) (fun h => ((t.hd.fed t.nh x.get).v h).dout) soft
    ⟨lin.din, lin.back att.get e1.get⟩ t.er
    (fun h hh => by rw [hqf h hh]; exact (wf.hq h hh).2) (fun h hh => by rw [hkf h hh]; exact (wf.hk h hh).2)
    (fun h hh => by rw [hvf h hh]; exact (wf.hv h hh).2)
    (fun h hh => by rw [hqf h hh]; exact (wf.hq h hh).2.ge) (fun h hh => by rw [hkf h hh]; exact (wf.hk h hh).2.ge)
    (fun h hh => by rw [hvf h hh]; exact (wf.hv h hh).2.ge)
    (by rw [softl]; exact wf.hsoft.ge) (by dsimp only; rw [ldin, wf.hlin, wf.hin, Nat.mul_comm t.nh])
    wf.hqe.ge wf.hke.ge wf.hve.ge wf.hse.ge wf.hsoe.ge
    (fun h hh a' ha' u hu => by
      rw [softv h hh a' ha' u hu, hqf h hh, hkf h hh]; rfl)
    fr.se fr.soe
  -- heads
  obtain ⟨s, eS, shd, slen, sacc⟩ := headsBP_run x n t.nh (t.dim * t.vd) (t.hd.fed t.nh x.get) er.queryErr er.keyErr er.valueErr
    ⟨0, fun _ => 0⟩ hn
    (fun h hh => by rw [hqf h hh]; exact ⟨(wf.hq h hh).1, (wf.hq h hh).2, rfl⟩)
    (fun h hh => by rw [hkf h hh]; exact ⟨(wf.hk h hh).1, (wf.hk h hh).2, rfl⟩)
    (fun h hh => by rw [hvf h hh]; exact ⟨(wf.hv h hh).1, (wf.hv h hh).2, rfl⟩)
    (by rw [lq, wf.hqe, Nat.mul_assoc]) (by rw [lk, wf.hke, Nat.mul_assoc]) (by rw [lv, wf.hve, Nat.mul_assoc])
  obtain ⟨sl, sg⟩ := sacc wf.pos
  obtain ⟨ie, eI, lI, gI⟩ := addIf_run t.res1 s.acc w1 n (fun _ => sl.ge)
    (fun h => by rw [← (wf.hres1 h).1]; exact Ee1)
  refine ⟨_, { { t with hd := t.hd.fed t.nh x.get, lin := lin, m := m, l2 := l2, score := score, soft := soft,
                        att := att, r1 := r1, r2 := r2 } with
      hd := s.hd, m := m.back1 b.get e2.get, lin := lin.back1 att.get e1.get, l2 := leave t.norm1 M 0 w1,
      er := ⟨s.qe, s.ke, s.ve, er.scoreErr, er.softErr⟩ }, ie, ef, outv, ?_, by rw [lI, sl], ?_, ?_, ?_⟩
  · unfold Enc.bp
    dsimp only
    refine (bind_some_of eL).trans ?_
    refine (bind_some_of eM).trans ?_
    refine (bind_some_of eT).trans ?_
    refine (bind_some_of eN).trans ?_
    refine (bind_some_of eLin).trans ?_
    rw [wf.kv]
    refine (bind_some_of eA).trans ?_
    refine (bind_some_of eS).trans ?_
    exact (bind_some_of eI).trans rfl
  · unfold Enc.params
    dsimp only
    have g : ∀ j, (leave t.norm1 M 0 w1 j).g = (t.l2 j).g := by
      intro j
      rw [(leave_dg _ _ _ _ _).2.2.1, (Mk _).2.2.2, (leave_dg _ _ _ _ _).2.2.1, (Lk _).2.2.2, (l2v j).2.1]
    have p1 : ∀ h, (s.hd.q h).θ = (t.hd.q h).θ ∧ (s.hd.k h).θ = (t.hd.k h).θ ∧ (s.hd.v h).θ = (t.hd.v h).θ := by
      intro h
      rw [shd]
      unfold Heads.back1 Heads.fed
      dsimp only
      by_cases hh : h < t.nh
      · simp only [if_pos hh]
        exact ⟨rfl, rfl, rfl⟩
      · simp [hh]
    rw [g, g, mv, linv]
    simp only [fun h => (p1 h).1, fun h => (p1 h).2.1, fun h => (p1 h).2.2]
    rfl
  · have hw2 : t.norm2 = true → w.len = (L (t.nl2 - 1)).err.len := by
      intro h; rw [hw, he2, if_pos h]
    have hw3 : t.norm1 = true → w1.len = (M 0).err.len := by
      intro h; rw [hw1, he1, if_pos h]
    have kl : ∀ j, (leave t.norm1 M 0 w1 j).dim = (l2 j).dim ∧ (leave t.norm1 M 0 w1 j).out = (l2 j).out ∧
        (leave t.norm1 M 0 w1 j).err.len = (l2 j).err.len := by
      intro j
      rw [(leave_dg _ _ _ _ _).2.1, (leave_dg _ _ _ _ _).2.2.2, leave_len _ _ _ _ _ hw3, (Mk j).1, (Mk j).2.1,
        (Mk j).2.2.1, (leave_dg _ _ _ _ _).2.1, (leave_dg _ _ _ _ _).2.2.2, leave_len _ _ _ _ _ hw2, (Lk j).1,
        (Lk j).2.1, (Lk j).2.2.1]
      exact ⟨rfl, rfl, rfl⟩
    have kq : ∀ h, h < t.nh → s.hd.q h = ((t.hd.fed t.nh x.get).q h).back1 x.get
        (er.queryErr.view (h * (t.dim * t.vd))).get := by
      intro h hh; rw [shd]; exact if_pos hh
    have kk : ∀ h, h < t.nh → s.hd.k h = ((t.hd.fed t.nh x.get).k h).back1 x.get
        (er.keyErr.view (h * (t.dim * t.vd))).get := by
      intro h hh; rw [shd]; exact if_pos hh
    have kv : ∀ h, h < t.nh → s.hd.v h = ((t.hd.fed t.nh x.get).v h).back1 x.get
        (er.valueErr.view (h * (t.dim * t.vd))).get := by
      intro h hh; rw [shd]; exact if_pos hh
    refine ⟨wf1.pos, wf1.kv, fun h hh => ?_, fun h hh => ?_, fun h hh => ?_, wf1.hin, wf1.hlin, wf1.hm, wf1.hres1,
      wf1.hres2, wf1.hnl2, fun h => ?_, fun h => ?_, wf1.hscore, wf1.hsoft, wf1.hatt, ?_, ?_, ?_, ?_, ?_⟩
    · dsimp only; rw [kq h hh]; exact wf1.hq h hh
    · dsimp only; rw [kk h hh]; exact wf1.hk h hh
    · dsimp only; rw [kv h hh]; exact wf1.hv h hh
    · dsimp only; rw [(kl _).1, (kl _).2.1, (kl _).2.2]; exact wf1.hnorm1 h
    · dsimp only; rw [(kl _).1, (kl _).2.1, (kl _).2.2]; exact wf1.hnorm2 h
    · dsimp only; rw [slen.1, lq]; exact wf.hqe
    · dsimp only; rw [slen.2.1, lk]; exact wf.hke
    · dsimp only; rw [slen.2.2, lv]; exact wf.hve
    · dsimp only; rw [lsc]; exact wf.hse
    · dsimp only; rw [lso]; exact wf.hsoe
  · intro P P' X X' τ hP hx hX
    have start := hP.start
    obtain ⟨cA, cR1, cN1, cR2⟩ := spec_congr t x.get (X τ) n wf sm hx
    -- attention
    obtain ⟨A', mA, adjA⟩ := att_adjoint t x.get n wf sm (lin.back att.get e1.get)
      (fun h => (er.queryErr.view (h * (t.dim * t.vd))).get) (fun h => (er.keyErr.view (h * (t.dim * t.vd))).get)
      (fun h => (er.valueErr.view (h * (t.dim * t.vd))).get)
      (fun h hh => by
        have hrow := row_le (k := t.dim * t.vd) hh
        have hr : t.nh * (t.dim * t.vd) = t.nh * t.dim * t.vd := by ring
        have hr' : h * (t.dim * t.vd) = h * t.dim * t.vd := by ring
        have := hH h hh
        rw [hqf h hh, hkf h hh, hvf h hh] at this
        refine HeadAdjoint.congr this (fun p hp => ?_) (fun p hp => ?_) (fun p hp => ?_)
        · rw [Arr.view_get, fr.q _ (by omega), sub_zero, hr']
        · rw [Arr.view_get, fr.k _ (by omega), sub_zero, hr']
        · rw [Arr.view_get, fr.v _ (by omega), sub_zero, hr'])
      P P' X X' τ hP hX hx
    -- linear map
    have hdl : t.lin.din = t.dim * t.nh * t.vd := wf.hlin.trans wf.hin
    obtain ⟨Y1, mY1, adj1⟩ := (sm.lin att.get (fun i hi => attv i (by rw [← hdl]; exact hi))).adj (fun s => (P s).lin)
      (fun s => attS t (P s) (X s)) P'.lin A' τ (by rw [start]; rfl)
      (fun i hi => by rw [start, cA i (by rw [← hdl]; exact hi), attv i (by rw [← hdl]; exact hi)])
      hP.lin (by rw [hdl]; exact mA)
    have lback : lin.back = t.lin.back := by rw [linv]; rfl
    have lgrad : lin.grad = t.lin.grad := by rw [linv]; rfl
    have lafter : lin.after = t.lin.after := by rw [linv]; rfl
    -- first residual connection
    have mR1 : Moves t.lin.dout (fun s => r1S t (P s) (X s)) (fun i => (if t.res1 then X' i else 0) + Y1 i) τ := by
      intro i hi
      unfold r1S
      by_cases hr : t.res1 = true
      · simp only [if_pos hr]
        exact (hX i (by rw [← (wf.hres1 hr).1]; exact hi)).add (mY1 i hi)
      · simp only [if_neg hr, zero_add]
        exact mY1 i hi
    -- first normalisation
    obtain ⟨N1', mN1, adjN1⟩ := Madj (fun s => r1S t (P s) (X s)) _ (fun s => (P s).g1) P'.g1 τ
      (fun i hi => by rw [start, cR1 i hi, av i hi]) mR1
      (fun h => by rw [start, hL0 h, (l2v 0).2.1]; rfl) hP.g1
      (fun h => by
        obtain ⟨i, hi, hne⟩ := sm.ne1 h
        exact ⟨i, hi, by rw [av i hi]; exact hne⟩)
    -- second network
    have mN1' : Moves t.lin.dout (fun s => n1S t (P s) (X s)) N1' τ := mN1
    obtain ⟨Y2, mY2, adj2⟩ := (sm.m b.get (fun i hi => bv i (by rw [← wf.hm]; exact hi))).adj (fun s => (P s).m)
      (fun s => n1S t (P s) (X s)) P'.m N1' τ (by rw [start]; rfl)
      (fun i hi => by rw [start, cN1 i (by rw [← wf.hm]; exact hi), bv i (by rw [← wf.hm]; exact hi)])
      hP.m (by rw [wf.hm]; exact mN1')
    have mback : m.back = t.m.back := by rw [mv]; rfl
    have mgrad : m.grad = t.m.grad := by rw [mv]; rfl
    have mafter : m.after = t.m.after := by rw [mv]; rfl
    have mR2 : Moves t.m.dout (fun s => r2S t (P s) (X s)) (fun i => (if t.res2 then N1' i else 0) + Y2 i) τ := by
      intro i hi
      unfold r2S
      by_cases hr : t.res2 = true
      · simp only [if_pos hr]
        exact (mN1' i (by rw [← (wf.hres2 hr).1]; exact hi)).add (mY2 i hi)
      · simp only [if_neg hr, zero_add]
        exact mY2 i hi
    obtain ⟨Y', mY, adjY⟩ := Ladj (fun s => r2S t (P s) (X s)) _ (fun s => (P s).g2) P'.g2 τ
      (fun i hi => by rw [start, cR2 i hi, cv i hi]) mR2
      (fun h => by rw [start, (l2v _).2.1]; rfl) hP.g2
      (fun h => by
        obtain ⟨i, hi, hne⟩ := sm.ne2 h
        exact ⟨i, hi, by rw [cv i hi]; exact hne⟩)
    refine ⟨Y', mY, ?_⟩
    -- the second residual connection
    have s2 : dot t.m.dout e2.get (fun i => (if t.res2 then N1' i else 0) + Y2 i) =
        dot t.lin.dout temp.get N1' + dot t.m.np (t.m.grad b.get e2.get) P'.m := by
      rw [dot_add_right, adj2, ← add_assoc]
      congr 1
      rw [wf.hm]
      by_cases hr : t.res2 = true
      · have : dot t.lin.dout temp.get N1' = dot t.lin.dout (fun i => t.m.back b.get e2.get i + e2.get i) N1' := by
          refine dot_congr fun i hi => ?_
          have hi' : i < t.m.dout := by rw [(wf.hres2 hr).1]; exact hi
          rw [gT i (fun h => by rw [hsz h]; exact hi'), if_pos hr, hw]
          dsimp only
          rw [mback, mafter, mdout, if_pos hi', sm.keepM hr _ _ _ hi']
        rw [this, dot_add_left]
        simp only [if_pos hr]
        rw [(wf.hres2 hr).1]
        ring
      · have : dot t.lin.dout temp.get N1' = dot t.lin.dout (t.m.back b.get e2.get) N1' := by
          refine dot_congr fun i hi => ?_
          rw [gT i (fun h => absurd h hr), if_neg hr, add_zero]
          dsimp only
          rw [mback]
        rw [this]
        simp only [if_neg hr]
        unfold dot
        simp
    have s1 : dot t.lin.dout e1.get (fun i => (if t.res1 then X' i else 0) + Y1 i) =
        dot n ie.get X' + (∑ h ∈ range t.nh, (dot (t.hd.q h).np ((t.hd.q h).grad x.get
            (er.queryErr.view (h * (t.dim * t.vd))).get) (P'.q h) +
          dot (t.hd.k h).np ((t.hd.k h).grad x.get (er.keyErr.view (h * (t.dim * t.vd))).get) (P'.k h) +
          dot (t.hd.v h).np ((t.hd.v h).grad x.get (er.valueErr.view (h * (t.dim * t.vd))).get) (P'.v h))) +
        dot t.lin.np (t.lin.grad att.get e1.get) P'.lin := by
      have sacc' : ∀ i, i < n → s.acc.get i = ∑ h ∈ range t.nh,
          ((t.hd.q h).back x.get (er.queryErr.view (h * (t.dim * t.vd))).get i +
          (t.hd.k h).back x.get (er.keyErr.view (h * (t.dim * t.vd))).get i +
          (t.hd.v h).back x.get (er.valueErr.view (h * (t.dim * t.vd))).get i) := by
        intro i hi
        rw [sg i hi]
        refine Finset.sum_congr rfl fun h hh' => ?_
        have hh := Finset.mem_range.1 hh'
        rw [hqf h hh, hkf h hh, hvf h hh]
        rfl
      rw [dot_add_right, adj1, hdl, ← lback, adjA]
      have : dot n ie.get X' = dot t.lin.dout e1.get (fun i => if t.res1 then X' i else 0) +
          dot n (fun i => ∑ h ∈ range t.nh,
          ((t.hd.q h).back x.get (er.queryErr.view (h * (t.dim * t.vd))).get i +
          (t.hd.k h).back x.get (er.keyErr.view (h * (t.dim * t.vd))).get i +
          (t.hd.v h).back x.get (er.valueErr.view (h * (t.dim * t.vd))).get i)) X' := by
        by_cases hr : t.res1 = true
        · rw [dot_congr (b := fun i => e1.get i + (∑ h ∈ range t.nh,
            ((t.hd.q h).back x.get (er.queryErr.view (h * (t.dim * t.vd))).get i +
            (t.hd.k h).back x.get (er.keyErr.view (h * (t.dim * t.vd))).get i +
            (t.hd.v h).back x.get (er.valueErr.view (h * (t.dim * t.vd))).get i))), dot_add_left]
          · simp only [if_pos hr]
            rw [(wf.hres1 hr).1]
          · intro i hi
            have hi' : i < t.lin.dout := by rw [(wf.hres1 hr).1]; exact hi
            rw [gI i (fun _ => hi), if_pos hr, hw1, sacc' i hi]
            dsimp only
            rw [lafter, ldout, if_pos hi', sm.keepLin hr _ _ _ hi']
            ring
        · rw [dot_congr (b := fun i => ∑ h ∈ range t.nh,
            ((t.hd.q h).back x.get (er.queryErr.view (h * (t.dim * t.vd))).get i +
            (t.hd.k h).back x.get (er.keyErr.view (h * (t.dim * t.vd))).get i +
            (t.hd.v h).back x.get (er.valueErr.view (h * (t.dim * t.vd))).get i))]
          · simp only [if_neg hr]
            rw [show dot t.lin.dout e1.get (fun _ => 0) = 0 by unfold dot; simp, zero_add]
          · intro i hi
            rw [gI i (fun h => absurd h hr), if_neg hr, add_zero, sacc' i hi]
      rw [this]
      ring
    rw [adjY, s2, adjN1, s1]
    unfold Enc.pair
    dsimp only
    have pq : ∀ h ∈ range t.nh,
        (dot (t.hd.q h).np (fun i => (s.hd.q h).dθ i - (t.hd.q h).dθ i) (P'.q h) +
         dot (t.hd.k h).np (fun i => (s.hd.k h).dθ i - (t.hd.k h).dθ i) (P'.k h) +
         dot (t.hd.v h).np (fun i => (s.hd.v h).dθ i - (t.hd.v h).dθ i) (P'.v h)) =
        (dot (t.hd.q h).np ((t.hd.q h).grad x.get (er.queryErr.view (h * (t.dim * t.vd))).get) (P'.q h) +
          dot (t.hd.k h).np ((t.hd.k h).grad x.get (er.keyErr.view (h * (t.dim * t.vd))).get) (P'.k h) +
          dot (t.hd.v h).np ((t.hd.v h).grad x.get (er.valueErr.view (h * (t.dim * t.vd))).get) (P'.v h)) := by
      intro h hh'
      have hh := Finset.mem_range.1 hh'
      rw [shd]
      unfold Heads.back1
      dsimp only
      rw [if_pos hh, if_pos hh, if_pos hh, hqf h hh, hkf h hh, hvf h hh]
      refine congrArg₂ (· + ·) (congrArg₂ (· + ·) ?_ ?_) ?_
      · exact dot_congr fun i _ => add_sub_cancel_left _ _
      · exact dot_congr fun i _ => add_sub_cancel_left _ _
      · exact dot_congr fun i _ => add_sub_cancel_left _ _
    rw [Finset.sum_congr rfl pq]
    have pm : dot t.m.np (fun i => (m.back1 b.get e2.get).dθ i - t.m.dθ i) P'.m =
        dot t.m.np (t.m.grad b.get e2.get) P'.m := by
      refine dot_congr fun i _ => ?_
      unfold Sub.back1
      dsimp only
      rw [mgrad, show m.dθ = t.m.dθ by rw [mv]; rfl, add_sub_cancel_left]
    have pl : dot t.lin.np (fun i => (lin.back1 att.get e1.get).dθ i - t.lin.dθ i) P'.lin =
        dot t.lin.np (t.lin.grad att.get e1.get) P'.lin := by
      refine dot_congr fun i _ => ?_
      unfold Sub.back1
      dsimp only
      rw [lgrad, show lin.dθ = t.lin.dθ by rw [linv]; rfl, add_sub_cancel_left]
    have p1 : (if t.norm1 then (leave t.norm1 M 0 w1 0).dg - (t.l2 0).dg else 0) =
        if t.norm1 then (M 0).dg - (leave t.norm2 L (t.nl2 - 1) w 0).dg else 0 := by
      by_cases h : t.norm1 = true
      · rw [if_pos h, if_pos h, (leave_dg _ _ _ _ _).1, hL0 h, (l2v 0).2.2.1]
      · rw [if_neg h, if_neg h]
    have p2 : (if t.norm2 then (leave t.norm1 M 0 w1 (t.nl2 - 1)).dg - (t.l2 (t.nl2 - 1)).dg else 0) =
        if t.norm2 then (L (t.nl2 - 1)).dg - (l2 (t.nl2 - 1)).dg else 0 := by
      by_cases h : t.norm2 = true
      · rw [if_pos h, if_pos h, (leave_dg _ _ _ _ _).1, (l2v _).2.2.1]
        congr 1
        by_cases h1 : t.norm1 = true
        · rw [Mne _ (hne h1 h).symm, (leave_dg _ _ _ _ _).1]
        · rw [Mf (by simpa using h1), (leave_dg _ _ _ _ _).1]
      · rw [if_neg h, if_neg h]
    rw [pm, pl, p1, p2]
    ring

end LLab.Transf
