import Verif.Common.Mat
import Verif.Common.Bilinear
import Mathlib.Analysis.SpecialFunctions.Pow.Real
import Mathlib.Analysis.SpecialFunctions.Sqrt
import Mathlib.Analysis.Calculus.Deriv.Inv

/-!
Batch normalisation (`/repo/src/normalization.c` 197-227, 316-340, 429-460).
Properties C33, C34, C69.
-/

namespace LLab.BatchNorm

open Finset

/-! ### Model -/

/-- The mean loop (`/repo/src/normalization.c` 201-207). -/
noncomputable def meanLoop (batch size : Nat) (x : Mat ℝ) (mean : Arr ℝ) : Option (Arr ℝ) :=
  loop batch (fun i mean => loop size (fun j (mean : Arr ℝ) => do
    let v ← x.read i j
    let mean ← mean.addAt j v
    if i = batch - 1 then do
      let m ← mean.read j
      mean.write j (m / batch)
    else some mean) mean) mean

/-- The variance loop (`/repo/src/normalization.c` 210-218). -/
noncomputable def varLoop (batch size : Nat) (x : Mat ℝ) (mean var : Arr ℝ) : Option (Arr ℝ) :=
  loop batch (fun i var => loop size (fun j (var : Arr ℝ) => do
    let v ← x.read i j
    let m ← mean.read j
    let var ← var.addAt j ((v - m) * (v - m))
    if i = batch - 1 then do
      let s ← var.read j
      var.write j (s / batch)
    else some var) var) var

/-- The normalisation loop (`/repo/src/normalization.c` 220-225), state
`(temp_vectors, outputs)`. -/
noncomputable def normLoop (batch size : Nat) (x : Mat ℝ) (gamma beta mean var : Arr ℝ) (eps : ℝ)
    (st : Mat ℝ × Mat ℝ) : Option (Mat ℝ × Mat ℝ) :=
  loop batch (fun i st => loop size (fun j (st : Mat ℝ × Mat ℝ) => do
    let v ← x.read i j
    let m ← mean.read j
    let s ← var.read j
    let temp ← st.1.write i j ((v - m) / Real.sqrt (s + eps))
    let t ← temp.read i j
    let g ← gamma.read j
    let b ← beta.read j
    let out ← st.2.write i j (t * g + b)
    some (temp, out)) st) st

/-- What `batch_normalization_feed_forward` writes. -/
structure FF where
  (mean var : Arr ℝ)
  (temp out : Mat ℝ)

/-- `batch_normalization_feed_forward` (`/repo/src/normalization.c` 197-227). -/
noncomputable def ff (batch size : Nat) (x : Mat ℝ) (gamma beta : Arr ℝ) (eps : ℝ) (st : FF) : Option FF := do
  let mean ← meanLoop batch size x st.mean
  let var ← varLoop batch size x mean st.var
  let r ← normLoop batch size x gamma beta mean var eps (st.temp, st.out)
  some ⟨mean, var, r.1, r.2⟩

/-! ### Specification -/

/-- Mean of column `j`. -/
noncomputable def mu (batch : Nat) (x : Nat → Nat → ℝ) (j : Nat) : ℝ := (∑ i ∈ range batch, x i j) / batch

/-- Variance of column `j`. -/
noncomputable def vr (batch : Nat) (x : Nat → Nat → ℝ) (j : Nat) : ℝ :=
  (∑ i ∈ range batch, (x i j - mu batch x j) ^ 2) / batch

/-- Standardised entry. -/
noncomputable def hat (batch : Nat) (x : Nat → Nat → ℝ) (eps : ℝ) (i j : Nat) : ℝ :=
  (x i j - mu batch x j) / Real.sqrt (vr batch x j + eps)

/-! ### Forward -/

/-- Column sums divided in the last row. -/
theorem avgLoop (batch size : Nat) (hb : 1 ≤ batch) (D : Nat → Nat → ℝ) (a : Arr ℝ) (ha : size ≤ a.len)
    (h0 : ∀ j, j < size → a.get j = 0) (f : Nat → Nat → Arr ℝ → Option (Arr ℝ))
    (hf : ∀ i, i < batch → ∀ j, j < size → ∀ b : Arr ℝ, b.len = a.len → f i j b = do
      let b ← b.addAt j (D i j)
      if i = batch - 1 then do
        let m ← b.read j
        b.write j (m / batch)
      else some b) :
    ∃ a', loop batch (fun i b => loop size (fun j b => f i j b) b) a = some a' ∧ a'.len = a.len ∧
      ∀ j, j < size → a'.get j = (∑ i ∈ range batch, D i j) / batch := by
  obtain ⟨a', e, h1, h2⟩ := loop2_inv (A := batch) (B := size) (f := f) (st := a)
    (fun r s b => b.len = a.len ∧ ∀ j, j < size →
      b.get j = (∑ i ∈ range (if j < s then r + 1 else r), D i j) /
        (if (if j < s then r + 1 else r) = batch then (batch : ℝ) else 1))
    ⟨rfl, by
      intro j hj
      simp only [Nat.not_lt_zero, if_false, Finset.sum_range_zero, zero_div]
      exact h0 j hj⟩
    (by
      rintro r hr s hs b ⟨h1, h2⟩
      rw [hf r hr s hs b h1, Arr.addAt_eq' _ (by omega)]
      simp only [Option.bind_eq_bind, Option.bind_some]
      have hbs := h2 s hs
      simp only [lt_irrefl, if_false, if_neg (show ¬ r = batch by omega), div_one] at hbs
      by_cases hlast : r = batch - 1
      · rw [if_pos hlast, Arr.read_eq (by dsimp only; omega)]
        simp only [Option.bind_some, if_true]
        rw [Arr.write_eq _ (by dsimp only; omega)]
        refine ⟨_, rfl, h1, ?_⟩
        intro j hj
        dsimp only
        by_cases hjs : j = s
        · subst hjs
          rw [Function.update_self, if_pos (by omega), if_pos (by omega), Finset.sum_range_succ, hbs]
        · rw [Function.update_of_ne hjs, if_neg hjs, add_zero, h2 j hj, show (if j < s then r + 1 else r) = (if j < s + 1 then r + 1 else r) from
            if_congr (by omega) rfl rfl]
      · rw [if_neg hlast]
        refine ⟨_, rfl, h1, ?_⟩
        intro j hj
        dsimp only
        by_cases hjs : j = s
        · subst hjs
          rw [if_pos rfl, if_pos (by omega), if_neg (by omega), Finset.sum_range_succ, hbs, div_one]
        · rw [if_neg hjs, add_zero, h2 j hj, show (if j < s then r + 1 else r) = (if j < s + 1 then r + 1 else r) from
            if_congr (by omega) rfl rfl])
    (by
      rintro r hr b ⟨h1, h2⟩
      refine ⟨h1, fun j hj => ?_⟩
      rw [h2 j hj, if_pos hj]
      simp only [Nat.not_lt_zero, if_false])
  refine ⟨a', e, h1, fun j hj => ?_⟩
  rw [h2 j hj]
  simp only [Nat.not_lt_zero, if_false, if_true]

theorem meanLoop_eq (batch size : Nat) (hb : 1 ≤ batch) (x : Mat ℝ) (mean : Arr ℝ) (hr : batch ≤ x.rows)
    (hc : size ≤ x.cols) (hm : size ≤ mean.len) (h0 : ∀ j, j < size → mean.get j = 0) :
    ∃ m, meanLoop batch size x mean = some m ∧ m.len = mean.len ∧
      ∀ j, j < size → m.get j = mu batch x.get j := by
  refine avgLoop batch size hb (fun i j => x.get i j) mean hm h0 _ ?_
  intro i hi j hj b hbl
  rw [Mat.read_eq (by omega) (by omega)]
  rfl

theorem varLoop_eq (batch size : Nat) (hb : 1 ≤ batch) (x : Mat ℝ) (mean var : Arr ℝ) (hr : batch ≤ x.rows)
    (hc : size ≤ x.cols) (hm : size ≤ mean.len) (hv : size ≤ var.len)
    (hmean : ∀ j, j < size → mean.get j = mu batch x.get j) (h0 : ∀ j, j < size → var.get j = 0) :
    ∃ m, varLoop batch size x mean var = some m ∧ m.len = var.len ∧
      ∀ j, j < size → m.get j = vr batch x.get j := by
  obtain ⟨m, e, h1, h2⟩ := avgLoop batch size hb
    (fun i j => (x.get i j - mu batch x.get j) * (x.get i j - mu batch x.get j)) var hv h0
    (fun i j (var : Arr ℝ) => (x.read i j).bind fun v => (mean.read j).bind fun m =>
      (var.addAt j ((v - m) * (v - m))).bind fun var =>
      if i = batch - 1 then (var.read j).bind fun s => var.write j (s / batch)
      else some var) (by
      intro i hi j hj b hbl
      rw [Mat.read_eq (by omega) (by omega), Arr.read_eq (by omega), hmean j hj]
      rfl)
  refine ⟨m, e, h1, fun j hj => ?_⟩
  rw [h2 j hj]
  unfold vr
  congr 1
  exact Finset.sum_congr rfl fun i _ => by ring

theorem normLoop_eq (batch size : Nat) (x : Mat ℝ) (gamma beta mean var : Arr ℝ) (eps : ℝ) (temp out : Mat ℝ)
    (hr : batch ≤ x.rows) (hc : size ≤ x.cols) (hm : size ≤ mean.len) (hv : size ≤ var.len)
    (hg : size ≤ gamma.len) (hbe : size ≤ beta.len)
    (ht : batch ≤ temp.rows ∧ size ≤ temp.cols) (ho : batch ≤ out.rows ∧ size ≤ out.cols) :
    ∃ t o, normLoop batch size x gamma beta mean var eps (temp, out) = some (t, o) ∧
      (t.rows = temp.rows ∧ t.cols = temp.cols ∧ o.rows = out.rows ∧ o.cols = out.cols) ∧
      (∀ i, i < batch → ∀ j, j < size → t.get i j = (x.get i j - mean.get j) / Real.sqrt (var.get j + eps)) ∧
      (∀ i, i < batch → ∀ j, j < size → o.get i j =
        (x.get i j - mean.get j) / Real.sqrt (var.get j + eps) * gamma.get j + beta.get j) := by
  obtain ⟨⟨t, o⟩, e, ⟨⟨d1, d2⟩, d3, d4⟩, h1⟩ := loop2_inv (A := batch) (B := size) (st := (temp, out))
    (f := fun i j (st : Mat ℝ × Mat ℝ) => (x.read i j).bind fun v => (mean.read j).bind fun m =>
      (var.read j).bind fun s => (st.1.write i j ((v - m) / Real.sqrt (s + eps))).bind fun temp =>
      (temp.read i j).bind fun t => (gamma.read j).bind fun g => (beta.read j).bind fun b =>
      (st.2.write i j (t * g + b)).bind fun out => some (temp, out))
    (fun r s st => ((st.1.rows = temp.rows ∧ st.1.cols = temp.cols) ∧ st.2.rows = out.rows ∧
        st.2.cols = out.cols) ∧
      ∀ i, i < batch → ∀ j, j < size → (i < r ∨ (i = r ∧ j < s)) →
        st.1.get i j = (x.get i j - mean.get j) / Real.sqrt (var.get j + eps) ∧
        st.2.get i j = (x.get i j - mean.get j) / Real.sqrt (var.get j + eps) * gamma.get j + beta.get j)
    ⟨⟨⟨rfl, rfl⟩, rfl, rfl⟩, by intro i _ j _ h; omega⟩
    (by
      rintro r hr' s hs ⟨t, o⟩ ⟨⟨⟨l1, l2⟩, l3, l4⟩, h⟩
      dsimp only at l1 l2 l3 l4 h ⊢
      rw [Mat.read_eq (by omega) (by omega), Arr.read_eq (by omega), Arr.read_eq (by omega)]
      simp only [Option.bind_some]
      rw [Mat.write_eq _ (by omega) (by omega)]
      simp only [Option.bind_some]
      rw [Mat.read_eq (by dsimp only; omega) (by dsimp only; omega), Arr.read_eq (by omega),
        Arr.read_eq (by omega)]
      simp only [Option.bind_some]
      rw [Mat.write_eq _ (by omega) (by omega)]
      refine ⟨_, rfl, ⟨⟨l1, l2⟩, l3, l4⟩, ?_⟩
      intro i hi j hj hd
      dsimp only
      by_cases heq : i = r ∧ j = s
      · obtain ⟨rfl, rfl⟩ := heq
        simp
      · rw [if_neg heq, if_neg heq]
        exact h i hi j hj (by omega))
    (by
      rintro r hr' st ⟨hl, h⟩
      exact ⟨hl, fun i hi j hj hd => h i hi j hj (by omega)⟩)
  exact ⟨t, o, e, ⟨d1, d2, d3, d4⟩, fun i hi j hj => (h1 i hi j hj (Or.inl hi)).1, fun i hi j hj => (h1 i hi j hj (Or.inl hi)).2⟩

theorem sum_hat (batch : Nat) (hb : 1 ≤ batch) (x : Nat → Nat → ℝ) (eps : ℝ) (j : Nat) :
    ∑ i ∈ range batch, hat batch x eps i j = 0 := by
  unfold hat
  rw [← Finset.sum_div, Finset.sum_sub_distrib, Finset.sum_const, Finset.card_range, nsmul_eq_mul]
  unfold mu
  have : (batch : ℝ) ≠ 0 := by positivity
  rw [mul_div_cancel₀ _ this, sub_self, zero_div]

theorem vr_nonneg (batch : Nat) (x : Nat → Nat → ℝ) (j : Nat) : 0 ≤ vr batch x j := by
  unfold vr
  exact div_nonneg (Finset.sum_nonneg fun _ _ => sq_nonneg _) (Nat.cast_nonneg _)

/-- **C33.** From zeroed accumulators, batch normalisation stays in bounds and
leaves the column means and variances, standardised columns with mean zero and
variance `var/(var+eps)`, and outputs `gamma*x_hat+beta`. -/
theorem C33_batch_norm (batch size : Nat) (hb : 1 ≤ batch) (x : Mat ℝ) (gamma beta : Arr ℝ) (eps : ℝ)
    (heps : 0 < eps) (st : FF) (hr : batch ≤ x.rows) (hc : size ≤ x.cols)
    (hg : size ≤ gamma.len) (hbe : size ≤ beta.len) (hm : size ≤ st.mean.len) (hv : size ≤ st.var.len)
    (ht : batch ≤ st.temp.rows ∧ size ≤ st.temp.cols) (ho : batch ≤ st.out.rows ∧ size ≤ st.out.cols)
    (zm : ∀ j, j < size → st.mean.get j = 0) (zv : ∀ j, j < size → st.var.get j = 0) :
    ∃ st', ff batch size x gamma beta eps st = some st' ∧
      (st'.mean.len = st.mean.len ∧ st'.var.len = st.var.len ∧ st'.temp.rows = st.temp.rows ∧
        st'.temp.cols = st.temp.cols ∧ st'.out.rows = st.out.rows ∧ st'.out.cols = st.out.cols) ∧
      ∀ j, j < size →
      st'.mean.get j = (∑ i ∈ range batch, x.get i j) / batch ∧
      st'.var.get j = (∑ i ∈ range batch, (x.get i j - st'.mean.get j) ^ 2) / batch ∧
      (∀ i, i < batch →
        st'.temp.get i j = (x.get i j - st'.mean.get j) / Real.sqrt (st'.var.get j + eps) ∧
        st'.out.get i j = gamma.get j * st'.temp.get i j + beta.get j) ∧
      ∑ i ∈ range batch, st'.temp.get i j = 0 ∧
      (∑ i ∈ range batch, st'.temp.get i j ^ 2) / batch = st'.var.get j / (st'.var.get j + eps) := by
  obtain ⟨m, e1, l1, h1⟩ := meanLoop_eq batch size hb x st.mean hr hc hm zm
  obtain ⟨v, e2, l2, h2⟩ := varLoop_eq batch size hb x m st.var hr hc (by omega) hv h1 zv
  obtain ⟨t, o, e3, hd, h3, h4⟩ := normLoop_eq batch size x gamma beta m v eps st.temp st.out hr hc (by omega)
    (by omega) hg hbe ht ho
  refine ⟨⟨m, v, t, o⟩, ?_, ⟨l1, l2, hd⟩, ?_⟩
  · unfold ff
    rw [e1]
    simp only [Option.bind_eq_bind, Option.bind_some]
    rw [e2]
    simp only [Option.bind_some]
    rw [e3]
    rfl
  intro j hj
  dsimp only
  have ht' : ∀ i ∈ range batch, t.get i j = hat batch x.get eps i j := by
    intro i hi
    rw [h3 i (Finset.mem_range.1 hi) j hj, h1 j hj, h2 j hj]; rfl
  refine ⟨h1 j hj, ?_, ?_, ?_, ?_⟩
  · rw [h2 j hj, h1 j hj]; rfl
  · intro i hi
    refine ⟨h3 i hi j hj, ?_⟩
    rw [h4 i hi j hj, h3 i hi j hj]; ring
  · rw [Finset.sum_congr rfl ht', sum_hat batch hb]
  · rw [Finset.sum_congr rfl fun i hi => by rw [ht' i hi], h2 j hj]
    unfold hat
    have hpos : 0 < vr batch x.get j + eps := by have := vr_nonneg batch x.get j; linarith
    have : ∀ i ∈ range batch, ((x.get i j - mu batch x.get j) / Real.sqrt (vr batch x.get j + eps)) ^ 2 =
        (x.get i j - mu batch x.get j) ^ 2 / (vr batch x.get j + eps) := by
      intro i _
      rw [div_pow, Real.sq_sqrt hpos.le]
    rw [Finset.sum_congr rfl this, ← Finset.sum_div, div_div, mul_comm, ← div_div]
    rfl

/-- Non-vacuity: a batch of two one-dimensional vectors. -/
example : ∃ st', ff 2 1 ⟨2, 1, fun i _ => i⟩ ⟨1, fun _ => 3⟩ ⟨1, fun _ => 5⟩ 1
    ⟨⟨1, fun _ => 0⟩, ⟨1, fun _ => 0⟩, ⟨2, 1, fun _ _ => 0⟩, ⟨2, 1, fun _ _ => 0⟩⟩ = some st' ∧
    st'.mean.get 0 = 1 / 2 ∧ st'.var.get 0 = 1 / 4 := by
  obtain ⟨st', e, -, h⟩ := C33_batch_norm 2 1 (by omega) ⟨2, 1, fun i _ => i⟩ ⟨1, fun _ => 3⟩ ⟨1, fun _ => 5⟩ 1
    one_pos ⟨⟨1, fun _ => 0⟩, ⟨1, fun _ => 0⟩, ⟨2, 1, fun _ _ => 0⟩, ⟨2, 1, fun _ _ => 0⟩⟩
    (by simp) (by simp) (by simp) (by simp) (by simp) (by simp) (by simp) (by simp) (by simp) (by simp)
  obtain ⟨a, b, -⟩ := h 0 (by omega)
  refine ⟨st', e, by rw [a]; norm_num [Finset.sum_range_succ], ?_⟩
  rw [b, a]; norm_num [Finset.sum_range_succ]

/-! ### Backward -/

/-- What `batch_normalization_back_prop` updates. -/
structure BP where
  (gammaErr betaErr tempArr : Arr ℝ)
  (inErr tve : Mat ℝ)

/-- First loop of `batch_normalization_back_prop`
(`/repo/src/normalization.c` 319-326). -/
noncomputable def bpFirst (batch size : Nat) (x temp : Mat ℝ) (gamma mean : Arr ℝ) (e : Mat ℝ) (st : BP) : Option BP :=
  loop batch (fun i st => loop size (fun j (st : BP) => do
    let ev ← e.read i j
    let t ← temp.read i j
    let ge ← st.gammaErr.addAt j (ev * t)
    let be ← st.betaErr.addAt j ev
    let g ← gamma.read j
    let tve ← st.tve.write i j (ev * g)
    let v ← x.read i j
    let m ← mean.read j
    let ta ← st.tempArr.addAt j (v - m)
    some { st with gammaErr := ge, betaErr := be, tempArr := ta, tve := tve }) st) st

/-- The factor multiplying `temp_vectors_error[j][z]`
(`/repo/src/normalization.c` 332-335). `3/2` is the integer `1`, so the power
is the identity; `2/batch_size` on the diagonal is an integer division. -/
noncomputable def coef (batch : Nat) (diag : Bool) (xi xj m s ta eps : ℝ) : ℝ :=
  if diag then
    (1 - 1 / (batch : ℝ)) / Real.sqrt (s + eps) -
      ((xj - m) * 2 * (1 - 1 / (batch : ℝ)) * (xj - m) - ((2 / batch : Nat) : ℝ) * (ta - xj + m)) /
        (2 * batch * (s + eps) ^ (3 / 2 : Nat))
  else
    -(Real.sqrt (s + eps) / batch) -
      ((xi - m) * 2 * (1 - 1 / (batch : ℝ)) * (xj - m) - 2 / (batch : ℝ) * (ta - xj + m)) /
        (2 * batch * (s + eps) ^ (3 / 2 : Nat))

/-- Second loop of `batch_normalization_back_prop`
(`/repo/src/normalization.c` 328-338). -/
noncomputable def bpSecond (batch size : Nat) (x : Mat ℝ) (mean var : Arr ℝ) (eps : ℝ) (tempArr : Arr ℝ)
    (tve inErr : Mat ℝ) : Option (Mat ℝ) :=
  loop batch (fun i ie => loop batch (fun j ie => loop size (fun z (ie : Mat ℝ) => do
    let t ← tve.read j z
    let xi ← x.read i z
    let xj ← x.read j z
    let m ← mean.read z
    let s ← var.read z
    let ta ← tempArr.read z
    ie.addAt j z (t * coef batch (decide (i = j)) xi xj m s ta eps)) ie) ie) inErr

/-- `batch_normalization_back_prop` (`/repo/src/normalization.c` 316-340). -/
noncomputable def bp (batch size : Nat) (x temp : Mat ℝ) (gamma mean var : Arr ℝ) (e : Mat ℝ) (eps : ℝ) (st : BP) :
    Option BP := do
  let st ← bpFirst batch size x temp gamma mean e st
  let ie ← bpSecond batch size x mean var eps st.tempArr st.tve st.inErr
  some { st with inErr := ie }

theorem bpFirst_eq (batch size : Nat) (x temp : Mat ℝ) (gamma mean : Arr ℝ) (e : Mat ℝ) (st : BP)
    (hx : batch ≤ x.rows ∧ size ≤ x.cols) (ht : batch ≤ temp.rows ∧ size ≤ temp.cols)
    (he : batch ≤ e.rows ∧ size ≤ e.cols) (hg : size ≤ gamma.len) (hm : size ≤ mean.len)
    (h1 : size ≤ st.gammaErr.len) (h2 : size ≤ st.betaErr.len) (h3 : size ≤ st.tempArr.len)
    (h4 : batch ≤ st.tve.rows ∧ size ≤ st.tve.cols) :
    ∃ st', bpFirst batch size x temp gamma mean e st = some st' ∧ st'.inErr = st.inErr ∧
      (st'.gammaErr.len = st.gammaErr.len ∧ st'.betaErr.len = st.betaErr.len ∧
        st'.tempArr.len = st.tempArr.len ∧ st'.tve.rows = st.tve.rows ∧ st'.tve.cols = st.tve.cols) ∧
      (∀ j, j < size →
        st'.gammaErr.get j = st.gammaErr.get j + ∑ i ∈ range batch, e.get i j * temp.get i j ∧
        st'.betaErr.get j = st.betaErr.get j + ∑ i ∈ range batch, e.get i j ∧
        st'.tempArr.get j = st.tempArr.get j + ∑ i ∈ range batch, (x.get i j - mean.get j)) ∧
      ∀ i, i < batch → ∀ j, j < size → st'.tve.get i j = e.get i j * gamma.get j := by
  obtain ⟨st', eq, l, hi, hs, ht'⟩ := loop2_inv (A := batch) (B := size) (st := st)
    (f := fun i j (st : BP) => (e.read i j).bind fun ev => (temp.read i j).bind fun t =>
      (st.gammaErr.addAt j (ev * t)).bind fun ge => (st.betaErr.addAt j ev).bind fun be =>
      (gamma.read j).bind fun g => (st.tve.write i j (ev * g)).bind fun tve =>
      (x.read i j).bind fun v => (mean.read j).bind fun m =>
      (st.tempArr.addAt j (v - m)).bind fun ta =>
      some { st with gammaErr := ge, betaErr := be, tempArr := ta, tve := tve })
    (fun r s q => (q.gammaErr.len = st.gammaErr.len ∧ q.betaErr.len = st.betaErr.len ∧
        q.tempArr.len = st.tempArr.len ∧ q.tve.rows = st.tve.rows ∧ q.tve.cols = st.tve.cols) ∧
      q.inErr = st.inErr ∧
      (∀ j, j < size →
        q.gammaErr.get j = st.gammaErr.get j + ∑ i ∈ range (if j < s then r + 1 else r), e.get i j * temp.get i j ∧
        q.betaErr.get j = st.betaErr.get j + ∑ i ∈ range (if j < s then r + 1 else r), e.get i j ∧
        q.tempArr.get j = st.tempArr.get j +
          ∑ i ∈ range (if j < s then r + 1 else r), (x.get i j - mean.get j)) ∧
      ∀ i, i < batch → ∀ j, j < size → (i < r ∨ (i = r ∧ j < s)) → q.tve.get i j = e.get i j * gamma.get j)
    ⟨⟨rfl, rfl, rfl, rfl, rfl⟩, rfl, by intro j _; simp, by intro i _ j _ h; omega⟩
    (by
      rintro r hr s hs q ⟨⟨l1, l2, l3, l4, l5⟩, hi, h, hv⟩
      rw [Mat.read_eq (by omega) (by omega), Mat.read_eq (by omega) (by omega)]
      simp only [Option.bind_some]
      rw [Arr.addAt_eq' _ (by omega), Arr.addAt_eq' _ (by omega), Arr.read_eq (by omega)]
      simp only [Option.bind_some]
      rw [Mat.write_eq _ (by omega) (by omega), Mat.read_eq (by omega) (by omega), Arr.read_eq (by omega)]
      simp only [Option.bind_some]
      rw [Arr.addAt_eq' _ (by omega)]
      refine ⟨_, rfl, ⟨l1, l2, l3, l4, l5⟩, hi, ?_, ?_⟩
      · intro j hj
        dsimp only
        obtain ⟨g1, g2, g3⟩ := h j hj
        by_cases hjs : j = s
        · subst hjs
          simp only [lt_irrefl, if_false] at g1 g2 g3
          simp only [if_true, Nat.lt_succ_self, Finset.sum_range_succ, g1, g2, g3, add_assoc, and_self]
        · rw [if_neg hjs, if_neg hjs, if_neg hjs, g1, g2, g3,
            show (if j < s then r + 1 else r) = (if j < s + 1 then r + 1 else r) from
              if_congr (by omega) rfl rfl]
          simp
      · intro i hi' j hj hd
        dsimp only
        by_cases heq : i = r ∧ j = s
        · obtain ⟨rfl, rfl⟩ := heq
          simp
        · rw [if_neg heq]
          exact hv i hi' j hj (by omega))
    (by
      rintro r hr q ⟨l, hi, h, hv⟩
      refine ⟨l, hi, fun j hj => ?_, fun i hi' j hj hd => hv i hi' j hj (by omega)⟩
      have := h j hj
      rw [if_pos hj] at this
      simpa only [Nat.not_lt_zero, if_false] using this)
  refine ⟨st', eq, hi, l, fun j hj => ?_, fun i hi j hj => ht' i hi j hj (Or.inl hi)⟩
  simpa only [Nat.not_lt_zero, if_false] using hs j hj

theorem bpSecond_eq (batch size : Nat) (x : Mat ℝ) (mean var : Arr ℝ) (eps : ℝ) (tempArr : Arr ℝ)
    (tve : Mat ℝ) (rows cols : Nat) (g : Nat → Nat → ℝ)
    (hx : batch ≤ x.rows ∧ size ≤ x.cols) (ht : batch ≤ tve.rows ∧ size ≤ tve.cols)
    (hm : size ≤ mean.len) (hv : size ≤ var.len) (hta : size ≤ tempArr.len)
    (hi : batch ≤ rows ∧ size ≤ cols) :
    bpSecond batch size x mean var eps tempArr tve ⟨rows, cols, g⟩ = some ⟨rows, cols,
      g + ∑ i ∈ range batch, ∑ j ∈ range batch, ∑ z ∈ range size, Pi.single j (Pi.single z
        (tve.get j z * coef batch (decide (i = j)) (x.get i z) (x.get j z) (mean.get z) (var.get z)
          (tempArr.get z) eps))⟩ := by
  unfold bpSecond
  refine loop_act (fun g => Mat.mk rows cols g) _ ?_ g
  intro i hi' g
  refine loop_act (fun g => Mat.mk rows cols g) _ ?_ g
  intro j hj g
  refine loop_act (fun g => Mat.mk rows cols g) _ ?_ g
  intro z hz g
  rw [Mat.read_eq (by omega) (by omega), Mat.read_eq (by omega) (by omega), Mat.read_eq (by omega) (by omega),
    Arr.read_eq (by omega), Arr.read_eq (by omega), Arr.read_eq (by omega)]
  simp only [Option.bind_eq_bind, Option.bind_some]
  exact Mat.addAt_mk _ (by omega) (by omega)

theorem bp_eq (batch size : Nat) (x temp : Mat ℝ) (gamma mean var : Arr ℝ) (e : Mat ℝ) (eps : ℝ) (st : BP)
    (hx : batch ≤ x.rows ∧ size ≤ x.cols) (ht : batch ≤ temp.rows ∧ size ≤ temp.cols)
    (he : batch ≤ e.rows ∧ size ≤ e.cols) (hg : size ≤ gamma.len) (hm : size ≤ mean.len)
    (hv : size ≤ var.len)
    (h1 : size ≤ st.gammaErr.len) (h2 : size ≤ st.betaErr.len) (h3 : size ≤ st.tempArr.len)
    (h4 : batch ≤ st.tve.rows ∧ size ≤ st.tve.cols) (h5 : batch ≤ st.inErr.rows ∧ size ≤ st.inErr.cols) :
    ∃ st', bp batch size x temp gamma mean var e eps st = some st' ∧
      (∀ j, j < size →
        st'.gammaErr.get j = st.gammaErr.get j + ∑ i ∈ range batch, e.get i j * temp.get i j ∧
        st'.betaErr.get j = st.betaErr.get j + ∑ i ∈ range batch, e.get i j) ∧
      ∀ j, j < batch → ∀ z, z < size → e.get j z = 0 → st'.inErr.get j z = st.inErr.get j z := by
  obtain ⟨q, e1, hi, ⟨l1, l2, l3, l4, l5⟩, hs, htve⟩ := bpFirst_eq batch size x temp gamma mean e st hx ht he hg hm
    h1 h2 h3 h4
  have e2 := bpSecond_eq batch size x mean var eps q.tempArr q.tve st.inErr.rows st.inErr.cols st.inErr.get hx
    (by omega) hm hv (by omega) h5
  refine ⟨{ q with inErr := ⟨st.inErr.rows, st.inErr.cols,
      st.inErr.get + ∑ i ∈ range batch, ∑ j ∈ range batch, ∑ z ∈ range size, Pi.single j (Pi.single z
        (q.tve.get j z * coef batch (decide (i = j)) (x.get i z) (x.get j z) (mean.get z) (var.get z)
          (q.tempArr.get z) eps))⟩ }, ?_, fun j hj => ⟨(hs j hj).1, (hs j hj).2.1⟩, ?_⟩
  · unfold bp
    rw [e1]
    simp only [Option.bind_eq_bind, Option.bind_some]
    rw [hi, e2]
    rfl
  · intro j hj z hz h0
    dsimp only
    simp only [Pi.add_apply, Finset.sum_apply]
    rw [add_eq_left]
    refine Finset.sum_eq_zero fun i _ => Finset.sum_eq_zero fun j' _ => Finset.sum_eq_zero fun z' _ => ?_
    by_cases hj' : j = j'
    · subst hj'
      rw [Pi.single_eq_same]
      by_cases hz' : z = z'
      · subst hz'
        rw [Pi.single_eq_same, htve j hj z hz, h0, zero_mul, zero_mul]
      · rw [Pi.single_eq_of_ne hz']
    · rw [Pi.single_eq_of_ne hj']; rfl

/-- The scalar a training step differentiates: the error-weighted output of
`batch_normalization_feed_forward`. -/
noncomputable def Weighted (batch size : Nat) (x : Mat ℝ) (gamma beta : Arr ℝ) (eps : ℝ) (st : FF) (e : Mat ℝ) (L : ℝ) :
    Prop :=
  ∃ st', ff batch size x gamma beta eps st = some st' ∧
    L = ∑ i ∈ range batch, ∑ j ∈ range size, e.get i j * st'.out.get i j

/-- **C34 (part).** After a forward pass, the scale and shift gradients
accumulated by `batch_normalization_back_prop` are the partial derivatives of
the error-weighted output of the forward pass in each `gamma[p]` and `beta[p]`.
Missing: the input error, which is not the derivative (`C34_input_error_refuted`). -/
theorem C34_gamma_beta_partial (batch size : Nat) (hb : 1 ≤ batch) (x : Mat ℝ) (gamma beta : Arr ℝ) (eps : ℝ)
    (heps : 0 < eps) (fs : FF) (hr : batch ≤ x.rows) (hc : size ≤ x.cols)
    (hg : size ≤ gamma.len) (hbe : size ≤ beta.len) (hm : size ≤ fs.mean.len) (hv : size ≤ fs.var.len)
    (ht : batch ≤ fs.temp.rows ∧ size ≤ fs.temp.cols) (ho : batch ≤ fs.out.rows ∧ size ≤ fs.out.cols)
    (zm : ∀ j, j < size → fs.mean.get j = 0) (zv : ∀ j, j < size → fs.var.get j = 0)
    (e : Mat ℝ) (he : batch ≤ e.rows ∧ size ≤ e.cols) (st : BP)
    (h1 : size ≤ st.gammaErr.len) (h2 : size ≤ st.betaErr.len) (h3 : size ≤ st.tempArr.len)
    (h4 : batch ≤ st.tve.rows ∧ size ≤ st.tve.cols) (h5 : batch ≤ st.inErr.rows ∧ size ≤ st.inErr.cols)
    (fs' : FF) (hff : ff batch size x gamma beta eps fs = some fs') :
    ∃ st', bp batch size x fs'.temp gamma fs'.mean fs'.var e eps st = some st' ∧ ∀ p, p < size →
      (∃ F : ℝ → ℝ, (∀ t, Weighted batch size x ⟨gamma.len, Function.update gamma.get p t⟩ beta eps fs e (F t)) ∧
        HasDerivAt F (st'.gammaErr.get p - st.gammaErr.get p) (gamma.get p)) ∧
      (∃ F : ℝ → ℝ, (∀ t, Weighted batch size x gamma ⟨beta.len, Function.update beta.get p t⟩ eps fs e (F t)) ∧
        HasDerivAt F (st'.betaErr.get p - st.betaErr.get p) (beta.get p)) := by
  have key : ∀ gamma' beta' : Arr ℝ, size ≤ gamma'.len → size ≤ beta'.len →
      Weighted batch size x gamma' beta' eps fs e
        (∑ i ∈ range batch, ∑ j ∈ range size, e.get i j * (gamma'.get j * hat batch x.get eps i j + beta'.get j)) := by
    intro gamma' beta' hg' hb'
    obtain ⟨w, ew, -, hw⟩ := C33_batch_norm batch size hb x gamma' beta' eps heps fs hr hc hg' hb' hm hv ht ho zm zv
    refine ⟨w, ew, ?_⟩
    refine Finset.sum_congr rfl fun i hi => Finset.sum_congr rfl fun j hj => ?_
    obtain ⟨a, b, c, -⟩ := hw j (Finset.mem_range.1 hj)
    obtain ⟨c1, c2⟩ := c i (Finset.mem_range.1 hi)
    rw [c2, c1, b, a]
    rfl
  have htemp : ∀ j, j < size → ∀ i, i < batch → fs'.temp.get i j = hat batch x.get eps i j := by
    intro j hj i hi
    obtain ⟨w, ew, -, hw⟩ := C33_batch_norm batch size hb x gamma beta eps heps fs hr hc hg hbe hm hv ht ho zm zv
    rw [hff, Option.some.injEq] at ew
    obtain ⟨a, b, c, -⟩ := hw j hj
    rw [← ew] at a b c
    rw [(c i hi).1, b, a]
    rfl
  have hdim : fs'.mean.len = fs.mean.len ∧ fs'.var.len = fs.var.len ∧ fs'.temp.rows = fs.temp.rows ∧
      fs'.temp.cols = fs.temp.cols := by
    obtain ⟨w, ew, hd, -⟩ := C33_batch_norm batch size hb x gamma beta eps heps fs hr hc hg hbe hm hv ht ho zm zv
    rw [hff, Option.some.injEq] at ew
    rw [ew]
    exact ⟨hd.1, hd.2.1, hd.2.2.1, hd.2.2.2.1⟩
  obtain ⟨st', e1, hs, -⟩ := bp_eq batch size x fs'.temp gamma fs'.mean fs'.var e eps st ⟨hr, hc⟩ (by omega) he hg
    (by omega) (by omega)
    h1 h2 h3 h4 h5
  refine ⟨st', e1, fun p hp => ⟨⟨_, fun t => key _ _ hg hbe, ?_⟩, ⟨_, fun t => key _ _ hg hbe, ?_⟩⟩⟩
  · rw [(hs p hp).1, add_sub_cancel_left]
    have hd : ∀ i ∈ range batch, HasDerivAt (fun t => ∑ j ∈ range size,
        e.get i j * (Function.update gamma.get p t j * hat batch x.get eps i j + beta.get j))
        (∑ j ∈ range size, if j = p then e.get i j * hat batch x.get eps i j else 0) (gamma.get p) := by
      intro i _
      refine HasDerivAt.fun_sum fun j _ => ?_
      by_cases hjp : j = p
      · subst hjp
        simp only [Function.update_self, if_true]
        refine (((hasDerivAt_id _).mul_const _).add_const _ |>.const_mul _).congr_deriv ?_
        ring
      · simp only [Function.update_of_ne hjp, if_neg hjp]
        exact hasDerivAt_const _ _
    refine (HasDerivAt.fun_sum hd).congr_deriv ?_
    refine Finset.sum_congr rfl fun i hi => ?_
    rw [Finset.sum_ite_eq' (range size) p, if_pos (Finset.mem_range.2 hp), htemp p hp i (Finset.mem_range.1 hi)]
  · rw [(hs p hp).2, add_sub_cancel_left]
    have hd : ∀ i ∈ range batch, HasDerivAt (fun t => ∑ j ∈ range size,
        e.get i j * (gamma.get j * hat batch x.get eps i j + Function.update beta.get p t j))
        (∑ j ∈ range size, if j = p then e.get i j else 0) (beta.get p) := by
      intro i _
      refine HasDerivAt.fun_sum fun j _ => ?_
      by_cases hjp : j = p
      · subst hjp
        simp only [Function.update_self, if_true]
        refine (((hasDerivAt_id _).const_add _).const_mul _).congr_deriv ?_
        ring
      · simp only [Function.update_of_ne hjp, if_neg hjp]
        exact hasDerivAt_const _ _
    refine (HasDerivAt.fun_sum hd).congr_deriv ?_
    refine Finset.sum_congr rfl fun i hi => ?_
    rw [Finset.sum_ite_eq' (range size) p, if_pos (Finset.mem_range.2 hp)]

/-- **C34, refuted for the input error.** Batch `(-1, 1)` of one-dimensional
vectors, `gamma = 1`, `beta = 0`, `eps = 1`, output error `(0, 1)`: the reported
input error of the first vector is `0`, but the error-weighted output of the
forward pass, as a function of that coordinate, has derivative
`-1/(4*sqrt 2)`. -/
theorem C34_input_error_refuted :
    ∃ fs' st', ff 2 1 ⟨2, 1, fun i _ => if i = 0 then -1 else 1⟩ ⟨1, fun _ => 1⟩ ⟨1, fun _ => 0⟩ 1
        ⟨⟨1, fun _ => 0⟩, ⟨1, fun _ => 0⟩, ⟨2, 1, fun _ _ => 0⟩, ⟨2, 1, fun _ _ => 0⟩⟩ = some fs' ∧
      bp 2 1 ⟨2, 1, fun i _ => if i = 0 then -1 else 1⟩ fs'.temp ⟨1, fun _ => 1⟩ fs'.mean fs'.var
        ⟨2, 1, fun i _ => if i = 0 then 0 else 1⟩ 1
        ⟨⟨1, fun _ => 0⟩, ⟨1, fun _ => 0⟩, ⟨1, fun _ => 0⟩, ⟨2, 1, fun _ _ => 0⟩, ⟨2, 1, fun _ _ => 0⟩⟩ = some st' ∧
      st'.inErr.get 0 0 = 0 ∧
      ∃ F : ℝ → ℝ, (∀ t, Weighted 2 1 ⟨2, 1, fun i _ => if i = 0 then t else 1⟩ ⟨1, fun _ => 1⟩ ⟨1, fun _ => 0⟩ 1
          ⟨⟨1, fun _ => 0⟩, ⟨1, fun _ => 0⟩, ⟨2, 1, fun _ _ => 0⟩, ⟨2, 1, fun _ _ => 0⟩⟩
          ⟨2, 1, fun i _ => if i = 0 then 0 else 1⟩ (F t)) ∧
        HasDerivAt F (-(1 / (4 * Real.sqrt 2))) (-1) := by
  have run : ∀ t : ℝ, Weighted 2 1 ⟨2, 1, fun i _ => if i = 0 then t else 1⟩ ⟨1, fun _ => 1⟩ ⟨1, fun _ => 0⟩ 1
          ⟨⟨1, fun _ => 0⟩, ⟨1, fun _ => 0⟩, ⟨2, 1, fun _ _ => 0⟩, ⟨2, 1, fun _ _ => 0⟩⟩
          ⟨2, 1, fun i _ => if i = 0 then 0 else 1⟩
          (((1 - t) / 2) / Real.sqrt (((1 - t) / 2) ^ 2 + 1)) := by
    intro t
    obtain ⟨st', e, -, h⟩ := C33_batch_norm 2 1 (by omega) ⟨2, 1, fun i _ => if i = 0 then t else 1⟩
      ⟨1, fun _ => 1⟩ ⟨1, fun _ => 0⟩ 1 one_pos
      ⟨⟨1, fun _ => 0⟩, ⟨1, fun _ => 0⟩, ⟨2, 1, fun _ _ => 0⟩, ⟨2, 1, fun _ _ => 0⟩⟩
      (by simp) (by simp) (by simp) (by simp) (by simp) (by simp) (by simp) (by simp) (by simp) (by simp)
    obtain ⟨a, b, c, -⟩ := h 0 (by omega)
    obtain ⟨c1, c2⟩ := c 1 (by omega)
    refine ⟨st', e, ?_⟩
    simp only [Finset.sum_range_succ, Finset.sum_range_zero, zero_add, one_ne_zero, if_true, if_false] at a b c1 c2 ⊢
    rw [c2, c1, b, a]
    norm_num
    congr 1
    · ring
    · congr 1; ring
  obtain ⟨fs', e, ⟨d1, d2, d3, d4, -⟩, -⟩ := C33_batch_norm 2 1 (by omega) ⟨2, 1, fun i _ => if i = 0 then -1 else 1⟩
    ⟨1, fun _ => 1⟩ ⟨1, fun _ => 0⟩ 1 one_pos
    ⟨⟨1, fun _ => 0⟩, ⟨1, fun _ => 0⟩, ⟨2, 1, fun _ _ => 0⟩, ⟨2, 1, fun _ _ => 0⟩⟩
    (by simp) (by simp) (by simp) (by simp) (by simp) (by simp) (by simp) (by simp) (by simp) (by simp)
  dsimp only at d1 d2 d3 d4
  obtain ⟨st', e', -, h⟩ := bp_eq 2 1 ⟨2, 1, fun i _ => if i = 0 then -1 else 1⟩ fs'.temp ⟨1, fun _ => 1⟩ fs'.mean
    fs'.var ⟨2, 1, fun i _ => if i = 0 then 0 else 1⟩ 1
    ⟨⟨1, fun _ => 0⟩, ⟨1, fun _ => 0⟩, ⟨1, fun _ => 0⟩, ⟨2, 1, fun _ _ => 0⟩, ⟨2, 1, fun _ _ => 0⟩⟩
    (by simp) (by omega) (by simp) (by simp) (by omega) (by omega) (by simp) (by simp) (by simp) (by simp) (by simp)
  refine ⟨fs', st', e, e', h 0 (by omega) 0 (by omega) (by simp), _, run, ?_⟩
  have hd : HasDerivAt (fun t : ℝ => (1 - t) / 2) (-1 / 2) (-1) := by
    refine (((hasDerivAt_id _).const_sub _).div_const _).congr_deriv ?_
    simp
  have hs : HasDerivAt (fun t : ℝ => Real.sqrt (((1 - t) / 2) ^ 2 + 1)) (-1 / (2 * Real.sqrt 2)) (-1) := by
    have h2 : ((1 - (-1 : ℝ)) / 2) ^ 2 + 1 = 2 := by norm_num
    refine (((hd.fun_pow 2).add_const 1).sqrt (by rw [h2]; norm_num)).congr_deriv ?_
    rw [h2]
    norm_num
  refine (hd.fun_div hs (by positivity)).congr_deriv ?_
  have h2 : ((1 - (-1 : ℝ)) / 2) ^ 2 + 1 = 2 := by norm_num
  rw [h2]
  have h3 : Real.sqrt 2 ≠ 0 := by positivity
  have h4 : Real.sqrt 2 ^ 2 = 2 := Real.sq_sqrt (by norm_num)
  field_simp
  rw [h4]
  norm_num

/-! ### Final mean and variance -/

/-- `set_vector_with_value(0, v, size)`. -/
def zeroed (a : Arr ℝ) (size : Nat) : Arr ℝ := ⟨a.len, fun j => if j < size then 0 else a.get j⟩

/-- `batch_normalization_final_mean_variance` (`/repo/src/normalization.c`
429-460) after its shuffle and divisibility check, with `k = n_vectors/mini`
iterations: every iteration resets the layer and runs the forward pass on
`input_vectors` itself, never on `&input_vectors[i]`. State: the layer and the
two running sums. The matrix is the shuffled one (`rand` is a parameter). -/
noncomputable def finalMeanVar (n mini size : Nat) (x : Mat ℝ) (gamma beta : Arr ℝ) (eps : ℝ) (st : FF) :
    Option (Arr ℝ × Arr ℝ) := do
  let r ← loop (n / mini) (fun _ (q : FF × Arr ℝ × Arr ℝ) => do
    let l ← ff mini size x gamma beta eps
      ⟨zeroed q.1.mean size, zeroed q.1.var size, q.1.temp, q.1.out⟩
    let m ← loop size (fun j (m : Arr ℝ) => do
      let v ← l.mean.read j
      m.addAt j v) q.2.1
    let s ← loop size (fun j (s : Arr ℝ) => do
      let v ← l.var.read j
      s.addAt j v) q.2.2
    some (l, m, s)) (st, ⟨size, fun _ => 0⟩, ⟨size, fun _ => 0⟩)
  some (⟨size, fun j => r.2.1.get j / ((n / mini : Nat) : ℝ)⟩,
    ⟨size, fun j => (mini : ℝ) / ((mini : ℝ) - 1) * r.2.2.get j / ((n / mini : Nat) : ℝ)⟩)

/-- Adding a vector into an accumulator. -/
theorem sumInto (size : Nat) (v a : Arr ℝ) (hv : size ≤ v.len) (ha : size ≤ a.len) :
    ∃ a', loop size (fun j (m : Arr ℝ) => do
      let w ← v.read j
      m.addAt j w) a = some a' ∧ a'.len = a.len ∧ ∀ j, j < size → a'.get j = a.get j + v.get j := by
  obtain ⟨a', e, h1, h2⟩ := loop_inv (n := size) (s := a)
    (f := fun j (m : Arr ℝ) => (v.read j).bind fun w => m.addAt j w)
    (fun i m => m.len = a.len ∧ ∀ j, j < size → m.get j = a.get j + if j < i then v.get j else 0)
    ⟨rfl, by intro j _; simp⟩
    (by
      rintro i hi m ⟨h1, h2⟩
      rw [Arr.read_eq (by omega)]
      simp only [Option.bind_some]
      rw [Arr.addAt_eq' _ (by omega)]
      refine ⟨_, rfl, h1, fun j hj => ?_⟩
      dsimp only
      rw [h2 j hj]
      by_cases hji : j = i
      · subst hji; simp
      · rw [if_neg hji, add_zero]
        exact congrArg _ (if_congr (by omega) rfl rfl))
  exact ⟨a', e, h1, fun j hj => by rw [h2 j hj, if_pos hj]⟩

theorem finalMeanVar_eq (n mini size : Nat) (hmini : 2 ≤ mini) (hk : 1 ≤ n / mini) (x : Mat ℝ) (gamma beta : Arr ℝ)
    (eps : ℝ) (heps : 0 < eps) (st : FF) (hr : mini ≤ x.rows) (hc : size ≤ x.cols)
    (hg : size ≤ gamma.len) (hbe : size ≤ beta.len) (hm : size ≤ st.mean.len) (hv : size ≤ st.var.len)
    (ht : mini ≤ st.temp.rows ∧ size ≤ st.temp.cols) (ho : mini ≤ st.out.rows ∧ size ≤ st.out.cols) :
    ∃ m s, finalMeanVar n mini size x gamma beta eps st = some (m, s) ∧ ∀ j, j < size →
      m.get j = mu mini x.get j ∧ s.get j = (mini : ℝ) / ((mini : ℝ) - 1) * vr mini x.get j := by
  obtain ⟨q, e, ⟨-, -, h⟩⟩ := loop_inv (n := n / mini)
    (s := (st, (⟨size, fun _ => 0⟩ : Arr ℝ), (⟨size, fun _ => 0⟩ : Arr ℝ)))
    (f := fun _ (q : FF × Arr ℝ × Arr ℝ) => (ff mini size x gamma beta eps
      ⟨zeroed q.1.mean size, zeroed q.1.var size, q.1.temp, q.1.out⟩).bind fun l =>
      (loop size (fun j (m : Arr ℝ) => (l.mean.read j).bind fun v => m.addAt j v) q.2.1).bind fun m =>
      (loop size (fun j (s : Arr ℝ) => (l.var.read j).bind fun v => s.addAt j v) q.2.2).bind fun s =>
      some (l, m, s))
    (fun i q => (size ≤ q.1.mean.len ∧ size ≤ q.1.var.len ∧
        (mini ≤ q.1.temp.rows ∧ size ≤ q.1.temp.cols) ∧ mini ≤ q.1.out.rows ∧ size ≤ q.1.out.cols) ∧
      (q.2.1.len = size ∧ q.2.2.len = size) ∧
      ∀ j, j < size → q.2.1.get j = i * mu mini x.get j ∧ q.2.2.get j = i * vr mini x.get j)
    ⟨⟨hm, hv, ht, ho⟩, ⟨rfl, rfl⟩, by intro j _; simp⟩
    (by
      rintro i hi ⟨l, m, s⟩ ⟨⟨a1, a2, a3, a4⟩, ⟨b1, b2⟩, h⟩
      dsimp only at a1 a2 a3 a4 b1 b2 h ⊢
      obtain ⟨w, ew, ⟨d1, d2, d3, d4, d5, d6⟩, hw⟩ := C33_batch_norm mini size (by omega) x gamma beta eps heps
        ⟨zeroed l.mean size, zeroed l.var size, l.temp, l.out⟩ hr hc hg hbe a1 a2 a3 a4
        (by intro j hj; simp [zeroed, hj]) (by intro j hj; simp [zeroed, hj])
      simp only [zeroed] at d1 d2 d3 d4 d5 d6
      obtain ⟨m', em, lm, hm'⟩ := sumInto size w.mean m (by omega) (by omega)
      obtain ⟨s', es, ls, hs'⟩ := sumInto size w.var s (by omega) (by omega)
      refine ⟨(w, m', s'), ?_, ⟨by dsimp only; omega, by dsimp only; omega, by dsimp only; omega,
        by dsimp only; omega⟩, ⟨by dsimp only; omega, by dsimp only; omega⟩, ?_⟩
      · refine (bind_some_of ew).trans ?_
        refine (bind_some_of em).trans ?_
        refine (bind_some_of es).trans ?_
        rfl
      · intro j hj
        dsimp only
        obtain ⟨c1, c2, -⟩ := hw j hj
        rw [hm' j hj, hs' j hj, (h j hj).1, (h j hj).2, c2, c1]
        push_cast
        constructor
        · unfold mu; ring
        · unfold vr mu; ring)
  refine ⟨⟨size, fun j => q.2.1.get j / ((n / mini : Nat) : ℝ)⟩,
    ⟨size, fun j => (mini : ℝ) / ((mini : ℝ) - 1) * q.2.2.get j / ((n / mini : Nat) : ℝ)⟩, ?_, ?_⟩
  · unfold finalMeanVar
    refine (bind_some_of e).trans ?_
    rfl
  · intro j hj
    dsimp only
    have hk' : ((n / mini : Nat) : ℝ) ≠ 0 := Nat.cast_ne_zero.2 (by omega)
    rw [(h j hj).1, (h j hj).2]
    constructor
    · field_simp
    · field_simp

/-- **C69 (part).** The final statistics are the mean and the unbiased variance
of the *first* `mini` (shuffled) vectors; so of the whole data set when there is
a single mini-batch (`n = mini`). Missing: any other number of mini-batches
(`C69_final_statistics_refuted`). -/
theorem C69_final_statistics_partial (n mini size : Nat) (hmini : 2 ≤ mini) (hk : mini ≤ n) (x : Mat ℝ)
    (gamma beta : Arr ℝ) (eps : ℝ) (heps : 0 < eps) (st : FF) (hr : mini ≤ x.rows) (hc : size ≤ x.cols)
    (hg : size ≤ gamma.len) (hbe : size ≤ beta.len) (hm : size ≤ st.mean.len) (hv : size ≤ st.var.len)
    (ht : mini ≤ st.temp.rows ∧ size ≤ st.temp.cols) (ho : mini ≤ st.out.rows ∧ size ≤ st.out.cols) :
    ∃ m s, finalMeanVar n mini size x gamma beta eps st = some (m, s) ∧ ∀ j, j < size →
      m.get j = (∑ i ∈ range mini, x.get i j) / mini ∧
      s.get j = (∑ i ∈ range mini, (x.get i j - m.get j) ^ 2) / ((mini : ℝ) - 1) := by
  obtain ⟨m, s, e, h⟩ := finalMeanVar_eq n mini size hmini ((Nat.one_le_div_iff (by omega)).2 hk) x gamma beta eps
    heps st hr hc hg hbe hm hv ht ho
  refine ⟨m, s, e, fun j hj => ⟨(h j hj).1, ?_⟩⟩
  rw [(h j hj).2, (h j hj).1]
  unfold vr
  have : (mini : ℝ) ≠ 0 := Nat.cast_ne_zero.2 (by omega)
  field_simp

/-- **C69, refuted in general.** Data `0, 0, 4, 4` in mini-batches of two: the
reported mean is `0`, the mean of the data is `2`. -/
theorem C69_final_statistics_refuted :
    ∃ m s, finalMeanVar 4 2 1 ⟨4, 1, fun i _ => if i < 2 then 0 else 4⟩ ⟨1, fun _ => 1⟩ ⟨1, fun _ => 0⟩ 1
        ⟨⟨1, fun _ => 0⟩, ⟨1, fun _ => 0⟩, ⟨2, 1, fun _ _ => 0⟩, ⟨2, 1, fun _ _ => 0⟩⟩ = some (m, s) ∧
      m.get 0 = 0 ∧ (∑ i ∈ range 4, (if i < 2 then (0 : ℝ) else 4)) / 4 = 2 := by
  obtain ⟨m, s, e, h⟩ := C69_final_statistics_partial 4 2 1 (by omega) (by omega)
    ⟨4, 1, fun i _ => if i < 2 then 0 else 4⟩ ⟨1, fun _ => 1⟩ ⟨1, fun _ => 0⟩ 1 one_pos
    ⟨⟨1, fun _ => 0⟩, ⟨1, fun _ => 0⟩, ⟨2, 1, fun _ _ => 0⟩, ⟨2, 1, fun _ _ => 0⟩⟩
    (by simp) (by simp) (by simp) (by simp) (by simp) (by simp) (by simp) (by simp)
  refine ⟨m, s, e, ?_, ?_⟩
  · rw [(h 0 (by omega)).1]; norm_num [Finset.sum_range_succ]
  · norm_num [Finset.sum_range_succ]

end LLab.BatchNorm
