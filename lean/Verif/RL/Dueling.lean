import Verif.Math.Softmax
import Verif.Math.Vector
import Verif.Layers.MultiHead
import Verif.Common.Mat

/-!
The head of the dueling categorical network
(`/repo/src/dueling_categorical_dqn.c` 1328-1354, 1438-1456). Properties C17
and C73. The value stream's and the advantage stream's last outputs (`v`,
`a`) are inputs of the model; the networks producing them are not modelled
here.
-/

namespace LLab.Dueling

open Finset LLab.Softmax LLab.Vec
open LLab.Attention (copyTo copyTo_eq)

/-! ### Model -/

/-- The mean loop (`/repo/src/dueling_categorical_dqn.c` 1339-1344). `n` is
`n_atoms`, `A` is `action_size`, `a` the advantage output. -/
noncomputable def meanLayer (n A : Nat) (a mean : Arr ℝ) : Option (Arr ℝ) :=
  loop n (fun i (mean : Arr ℝ) => do
    let mean ← loop A (fun j (mean : Arr ℝ) => do
      let x ← a.read (j * n + i)
      mean.addAt i (-x)) mean
    let y ← mean.read i
    mean.write i (y * (1 / (A : ℝ)))) mean

/-- The action loop (`/repo/src/dueling_categorical_dqn.c` 1346-1351); the state
is `(add_layer, softmax_layer)`. -/
noncomputable def rows (n A : Nat) (a v mean : Arr ℝ) (st : Arr ℝ × Arr ℝ) : Option (Arr ℝ × Arr ℝ) :=
  loop A (fun i (st : Arr ℝ × Arr ℝ) => do
    let add ← copyTo a st.1 (i * n) (i * n) n
    let add ← add.onView (i * n) fun o => zip1DInPlace (· + ·) o v n
    let add ← add.onView (i * n) fun o => zip1DInPlace (· + ·) o mean n
    let soft ← st.2.onView (i * n) fun o => softmax (add.view (i * n)) o n
    some (add, soft)) st

/-- `compute_probability_distribution` after the five networks have run
(`/repo/src/dueling_categorical_dqn.c` 1338-1352); the result is
`(action_mean_layer, add_layer, softmax_layer)`. -/
noncomputable def head (n A : Nat) (a v mean add soft : Arr ℝ) : Option (Arr ℝ × Arr ℝ × Arr ℝ) := do
  let mean ← meanLayer n A a mean
  let r ← rows n A a v mean (add, soft)
  some (mean, r.1, r.2)

/-- The value error loop of `bp_dueling_categorical_network`
(`/repo/src/dueling_categorical_dqn.c` 1440-1445); the state is
`(derivative_softmax_layer, v_linear_layer_error)`. -/
noncomputable def bpValue (n A : Nat) (soft err : Arr ℝ) (st : Arr ℝ × Arr ℝ) : Option (Arr ℝ × Arr ℝ) :=
  loop A (fun i (st : Arr ℝ × Arr ℝ) => do
    let ds ← st.1.onView (i * n) fun o => derivativeSoftmax o (soft.view (i * n)) (err.view (i * n)) n
    let ve ← loop n (fun j (ve : Arr ℝ) => do
      let d ← ds.read (i * n + j)
      ve.addAt j d) st.2
    some (ds, ve)) st

/-- The advantage error loop (`/repo/src/dueling_categorical_dqn.c` 1446-1455):
an assignment, with the number of atoms as divisor. -/
noncomputable def bpAdvantage (n A : Nat) (ds ae : Arr ℝ) : Option (Arr ℝ) :=
  loop A (fun i ae => loop A (fun j ae => loop n (fun k (ae : Arr ℝ) => do
    let d ← ds.read (j * n + k)
    if i = j then ae.write (i * n + k) ((((n : ℝ) - 1) / n) * d)
    else ae.write (i * n + k) ((-1 / (n : ℝ)) * d)) ae) ae) ae

/-- Both error loops of `bp_dueling_categorical_network`
(`/repo/src/dueling_categorical_dqn.c` 1440-1455); the result is
`(derivative_softmax_layer, v_linear_layer_error, a_linear_layer_error)`. -/
noncomputable def headBP (n A : Nat) (soft err ds ve ae : Arr ℝ) : Option (Arr ℝ × Arr ℝ × Arr ℝ) := do
  let r ← bpValue n A soft err (ds, ve)
  let ae ← bpAdvantage n A r.1 ae
  some (r.1, r.2, ae)

/-! ### Specification -/

/-- The logit of atom `t` of action `i`: value plus advantage minus the mean
advantage over the actions. -/
noncomputable def logit (n A : Nat) (a v : Nat → ℝ) (i t : Nat) : ℝ :=
  v t + a (i * n + t) - (∑ j ∈ range A, a (j * n + t)) / A

/-! ### Forward -/

theorem row_le {i A n len : Nat} (hi : i < A) (h : A * n ≤ len) : i * n + n ≤ len := by
  have : (i + 1) * n ≤ A * n := Nat.mul_le_mul_right _ hi
  rw [Nat.add_mul, Nat.one_mul] at this
  omega

theorem meanLayer_eq (n A : Nat) (a mean : Arr ℝ) (ha : A * n ≤ a.len) (hm : n ≤ mean.len) :
    meanLayer n A a mean = some ⟨mean.len, fun k => if k < n then
      (mean.get k - ∑ j ∈ range A, a.get (j * n + k)) / A else mean.get k⟩ := by
  refine loop_fill (fun k => (mean.get k - ∑ j ∈ range A, a.get (j * n + k)) / A) ?_
  intro i hi b hb hk
  have h1 : loop A (fun j (mean : Arr ℝ) => (a.read (j * n + i)).bind fun x => mean.addAt i (-x)) b =
      some ⟨b.len, fun k => b.get k + ∑ j ∈ range A, if k = i then -a.get (j * n + i) else 0⟩ := by
    refine loop_add (fun j k => if k = i then -a.get (j * n + i) else 0) ?_
    intro j hj c hc
    have := row_le hj ha
    rw [Arr.read_eq (by omega)]
    simp only [Option.bind_some]
    rw [Arr.addAt_eq' _ (by omega)]
  refine (bind_some_of h1).trans ?_
  rw [Arr.read_eq (by show i < b.len; omega)]
  simp only [Option.bind_eq_bind, Option.bind_some]
  rw [Arr.write_eq _ (by show i < b.len; omega)]
  congr 2
  funext k
  by_cases h : k = i
  · subst h
    simp only [Function.update_self, if_true, Finset.sum_neg_distrib, hk k (le_refl _)]
    ring
  · simp [h]

/-- One row of the action loop. -/
theorem row_eq (n A : Nat) (a v mean add soft : Arr ℝ) (ha : A * n ≤ a.len) (hv : n ≤ v.len) (hm : n ≤ mean.len)
    (hadd : A * n ≤ add.len) (hsoft : A * n ≤ soft.len) {i : Nat} (hi : i < A) :
    ∃ r : Arr ℝ × Arr ℝ, ((copyTo a add (i * n) (i * n) n).bind fun add =>
        (add.onView (i * n) fun o => zip1DInPlace (· + ·) o v n).bind fun add =>
        (add.onView (i * n) fun o => zip1DInPlace (· + ·) o mean n).bind fun add =>
        (soft.onView (i * n) fun o => softmax (add.view (i * n)) o n).bind fun soft => some (add, soft)) = some r ∧
      r.1.len = add.len ∧ r.2.len = soft.len ∧
      (∀ k, k < n → r.2.get (i * n + k) = smax n (fun t => a.get (i * n + t) + v.get t + mean.get t) k) ∧
      ∀ u, (∀ k, k < n → u ≠ i * n + k) → r.2.get u = soft.get u := by
  have l1 := row_le hi ha
  have l2 := row_le hi hadd
  have l3 := row_le hi hsoft
  obtain ⟨d, e1, d1, d2, -⟩ := copyTo_eq a add (i * n) (i * n) n l1 l2
  refine ⟨_, (bind_some_of e1).trans ((bind_some_of (Arr.onView_eq (zip1DInPlace_eq (· + ·) _ v n
    (by rw [Arr.view_len]; omega) hv))).trans ((bind_some_of (Arr.onView_eq (zip1DInPlace_eq (· + ·) _ mean n
    (by simp only [Arr.view_len]; omega) hm))).trans (bind_some_of (Arr.onView_eq (softmax_eq _ _ n
    (by simp only [Arr.view_len]; omega) (by simp only [Arr.view_len]; omega)))))), d1, rfl, ?_, ?_⟩
  · intro k hk
    simp only [Arr.view_get]
    rw [if_pos (by omega), if_pos (by omega), show i * n + k - i * n = k by omega]
    unfold smax
    have : ∀ t ∈ range n, Real.exp (if i * n ≤ i * n + t then if i * n + t - i * n < n then
        (if i * n ≤ i * n + (i * n + t - i * n) then if i * n + (i * n + t - i * n) - i * n < n then
          d.get (i * n + (i * n + (i * n + t - i * n) - i * n)) + v.get (i * n + (i * n + t - i * n) - i * n)
          else d.get (i * n + (i * n + (i * n + t - i * n) - i * n)) else d.get (i * n + (i * n + t - i * n))) +
          mean.get (i * n + t - i * n) else
        (if i * n ≤ i * n + (i * n + t - i * n) then if i * n + (i * n + t - i * n) - i * n < n then
          d.get (i * n + (i * n + (i * n + t - i * n) - i * n)) + v.get (i * n + (i * n + t - i * n) - i * n)
          else d.get (i * n + (i * n + (i * n + t - i * n) - i * n)) else d.get (i * n + (i * n + t - i * n))) else
        (if i * n ≤ i * n + t then if i * n + t - i * n < n then
          d.get (i * n + (i * n + t - i * n)) + v.get (i * n + t - i * n)
          else d.get (i * n + (i * n + t - i * n)) else d.get (i * n + t))) =
        Real.exp (a.get (i * n + t) + v.get t + mean.get t) := by
      intro t ht
      have := Finset.mem_range.1 ht
      simp only [Nat.add_sub_cancel_left, Nat.le_add_right, if_true, this, d2 t this]
    have hk' := this k (Finset.mem_range.2 hk)
    refine congrArg₂ (· / ·) ?_ (Finset.sum_congr rfl ?_)
    · simpa using hk'
    · intro t ht
      simpa using this t ht
  · intro u hu
    simp only [Arr.view_get]
    by_cases h : i * n ≤ u
    · have : ¬ u - i * n < n := fun hlt => hu (u - i * n) hlt (by omega)
      rw [if_pos h, if_neg this, show i * n + (u - i * n) = u by omega]
    · rw [if_neg h]

theorem rows_eq (n A : Nat) (a v mean add soft : Arr ℝ) (ha : A * n ≤ a.len) (hv : n ≤ v.len) (hm : n ≤ mean.len)
    (hadd : A * n ≤ add.len) (hsoft : A * n ≤ soft.len) :
    ∃ r, rows n A a v mean (add, soft) = some r ∧ r.2.len = soft.len ∧
      (∀ i, i < A → ∀ k, k < n →
        r.2.get (i * n + k) = smax n (fun t => a.get (i * n + t) + v.get t + mean.get t) k) ∧
      ∀ u, A * n ≤ u → r.2.get u = soft.get u := by
  obtain ⟨r, e, h1, h2, h3, h4⟩ := loop_inv (σ := Arr ℝ × Arr ℝ) (n := A) (s := (add, soft))
    (f := fun i (st : Arr ℝ × Arr ℝ) => (copyTo a st.1 (i * n) (i * n) n).bind fun add =>
        (add.onView (i * n) fun o => zip1DInPlace (· + ·) o v n).bind fun add =>
        (add.onView (i * n) fun o => zip1DInPlace (· + ·) o mean n).bind fun add =>
        (st.2.onView (i * n) fun o => softmax (add.view (i * n)) o n).bind fun soft => some (add, soft))
    (fun i st => st.1.len = add.len ∧ st.2.len = soft.len ∧
      (∀ i', i' < i → ∀ k, k < n →
        st.2.get (i' * n + k) = smax n (fun t => a.get (i' * n + t) + v.get t + mean.get t) k) ∧
      ∀ u, A * n ≤ u → st.2.get u = soft.get u)
    ⟨rfl, rfl, fun i' h => absurd h (by omega), fun _ _ => rfl⟩
    (by
      rintro i hi st ⟨q1, q2, q3, q4⟩
      obtain ⟨r, e, r1, r2, r3, r4⟩ := row_eq n A a v mean st.1 st.2 ha hv hm (by omega) (by omega) hi
      refine ⟨r, e, by omega, by omega, ?_, ?_⟩
      · intro i' hi' k hk
        by_cases h : i' = i
        · subst h; exact r3 k hk
        · rw [r4 _ (fun k' hk' he => h (idx_inj hk hk' he).1)]
          exact q3 i' (by omega) k hk
      · intro u hu
        rw [r4 u (fun k hk he => by have := row_le hi (le_refl (A * n)); omega)]
        exact q4 u hu)
  exact ⟨r, e, h2, h3, h4⟩

/-- **C17, values.** From a cleared mean layer the head stays in bounds and
leaves in `softmax_layer` the softmax of value plus mean-free advantage. -/
theorem C17_head (n A : Nat) (a v mean add soft : Arr ℝ) (ha : A * n ≤ a.len) (hv : n ≤ v.len)
    (hm : n ≤ mean.len) (hadd : A * n ≤ add.len) (hsoft : A * n ≤ soft.len)
    (h0 : ∀ t, t < n → mean.get t = 0) :
    ∃ mean' add' soft', head n A a v mean add soft = some (mean', add', soft') ∧ soft'.len = soft.len ∧
      (∀ i, i < A → ∀ k, k < n → soft'.get (i * n + k) = smax n (logit n A a.get v.get i) k) ∧
      ∀ u, A * n ≤ u → soft'.get u = soft.get u := by
  obtain ⟨r, e, h1, h2, h3⟩ := rows_eq n A a v ⟨mean.len, fun k => if k < n then
      (mean.get k - ∑ j ∈ range A, a.get (j * n + k)) / A else mean.get k⟩ add soft ha hv hm hadd hsoft
  refine ⟨_, r.1, r.2, (bind_some_of (meanLayer_eq n A a mean ha hm)).trans (bind_some_of e), h1, ?_, h3⟩
  intro i hi k hk
  rw [h2 i hi k hk]
  have : ∀ t ∈ range n, a.get (i * n + t) + v.get t + (if t < n then
      (mean.get t - ∑ j ∈ range A, a.get (j * n + t)) / A else mean.get t) = logit n A a.get v.get i t := by
    intro t ht
    have := Finset.mem_range.1 ht
    rw [if_pos this, h0 t this]
    unfold logit
    ring
  unfold smax
  dsimp only
  rw [this k (Finset.mem_range.2 hk)]
  congr 1
  exact Finset.sum_congr rfl fun t ht => by rw [this t ht]

/-- **C17, distributions.** Every action's row is a probability distribution. -/
theorem C17_distribution (n A : Nat) (hn : 0 < n) (a v mean add soft : Arr ℝ) (ha : A * n ≤ a.len)
    (hv : n ≤ v.len) (hm : n ≤ mean.len) (hadd : A * n ≤ add.len) (hsoft : A * n ≤ soft.len)
    (h0 : ∀ t, t < n → mean.get t = 0) :
    ∃ r, head n A a v mean add soft = some r ∧
      ∀ i, i < A → (∀ k, k < n → 0 < r.2.2.get (i * n + k)) ∧ ∑ k ∈ range n, r.2.2.get (i * n + k) = 1 := by
  obtain ⟨m', a', s', e, -, h, -⟩ := C17_head n A a v mean add soft ha hv hm hadd hsoft h0
  refine ⟨_, e, fun i hi => ?_⟩
  have hp := sum_exp_pos (range n) ⟨0, Finset.mem_range.2 hn⟩ (logit n A a.get v.get i)
  refine ⟨fun k hk => ?_, ?_⟩
  · rw [h i hi k hk]
    exact div_pos (Real.exp_pos _) hp
  · rw [Finset.sum_congr rfl fun k hk => h i hi k (Finset.mem_range.1 hk)]
    unfold smax
    rw [← Finset.sum_div, div_self hp.ne']

/-- **C17, invariance.** Adding the same atom-wise offset `c` to the advantages
of every action does not change the distributions. -/
theorem C17_offset (n A : Nat) (a b v mean add soft : Arr ℝ) (c : Nat → ℝ) (ha : A * n ≤ a.len)
    (hb : A * n ≤ b.len) (hv : n ≤ v.len) (hm : n ≤ mean.len) (hadd : A * n ≤ add.len)
    (hsoft : A * n ≤ soft.len) (h0 : ∀ t, t < n → mean.get t = 0)
    (hc : ∀ i, i < A → ∀ t, t < n → b.get (i * n + t) = a.get (i * n + t) + c t) :
    ∃ r r', head n A a v mean add soft = some r ∧ head n A b v mean add soft = some r' ∧
      ∀ i, i < A → ∀ k, k < n → r'.2.2.get (i * n + k) = r.2.2.get (i * n + k) := by
  obtain ⟨m', a', s', e, -, h, -⟩ := C17_head n A a v mean add soft ha hv hm hadd hsoft h0
  obtain ⟨m2, a2, s2, e2, -, h2, -⟩ := C17_head n A b v mean add soft hb hv hm hadd hsoft h0
  refine ⟨_, _, e, e2, fun i hi k hk => ?_⟩
  show s2.get _ = s'.get _
  rw [h i hi k hk, h2 i hi k hk]
  have : ∀ t ∈ range n, logit n A b.get v.get i t = logit n A a.get v.get i t := by
    intro t ht
    have ht := Finset.mem_range.1 ht
    have hA : (A : ℝ) ≠ 0 := by
      have : 0 < A := by omega
      positivity
    unfold logit
    rw [hc i hi t ht, Finset.sum_congr rfl fun j hj => hc j (Finset.mem_range.1 hj) t ht, Finset.sum_add_distrib]
    simp only [sum_const, card_range, nsmul_eq_mul]
    field_simp
    ring
  unfold smax
  rw [this k (Finset.mem_range.2 hk)]
  congr 1
  exact Finset.sum_congr rfl fun t ht => by rw [this t ht]

/-- Non-vacuity: two actions with two atoms, and an offset. -/
example : ∃ (a b v mean add soft : Arr ℝ) (c : Nat → ℝ), 2 * 2 ≤ a.len ∧ 2 * 2 ≤ b.len ∧ 2 ≤ v.len ∧ 2 ≤ mean.len ∧
    2 * 2 ≤ add.len ∧ 2 * 2 ≤ soft.len ∧ (∀ t, t < 2 → mean.get t = 0) ∧
    (∀ i, i < 2 → ∀ t, t < 2 → b.get (i * 2 + t) = a.get (i * 2 + t) + c t) ∧ c 0 ≠ c 1 ∧ a.get 0 ≠ a.get 2 :=
  ⟨⟨4, fun k => k⟩, ⟨4, fun k => k + (if k % 2 = 0 then 1 else 5)⟩, ⟨2, fun _ => 1⟩, ⟨2, fun _ => 0⟩, ⟨4, fun _ => 7⟩,
    ⟨4, fun _ => 7⟩, fun t => if t % 2 = 0 then 1 else 5, by decide, by decide, by decide, by decide, by decide,
    by decide, fun _ _ => rfl, fun i _ t _ => by simp [Nat.add_mod], by norm_num, by norm_num⟩

/-! ### Backward -/

/-- The error-weighted sum of the distributions the head computes. -/
def Weighted (n A : Nat) (a v mean add soft e : Arr ℝ) (L : ℝ) : Prop :=
  ∃ r, head n A a v mean add soft = some r ∧
    L = ∑ i ∈ range A, ∑ k ∈ range n, e.get (i * n + k) * r.2.2.get (i * n + k)

/-- Error at the logits of action `i`. -/
noncomputable def G (n A : Nat) (a v e : Nat → ℝ) (i j : Nat) : ℝ :=
  Attention.grad n (fun t => smax n (logit n A a v i) t) (fun t => e (i * n + t)) j

theorem bpValue_eq (n A : Nat) (soft e ds ve : Arr ℝ) (a v : Nat → ℝ) (hs : A * n ≤ soft.len) (he : A * n ≤ e.len)
    (hd : A * n ≤ ds.len) (hv : n ≤ ve.len) (h0 : ∀ u, u < A * n → ds.get u = 0)
    (hsoft : ∀ i, i < A → ∀ k, k < n → soft.get (i * n + k) = smax n (logit n A a v i) k) :
    ∃ r, bpValue n A soft e (ds, ve) = some r ∧ r.1.len = ds.len ∧ r.2.len = ve.len ∧
      (∀ i, i < A → ∀ k, k < n → r.1.get (i * n + k) = G n A a v e.get i k) ∧
      ∀ k, k < n → r.2.get k = ve.get k + ∑ i ∈ range A, G n A a v e.get i k := by
  obtain ⟨r, e1, h1, h2, h3, h4, h5⟩ := loop_inv (σ := Arr ℝ × Arr ℝ) (n := A) (s := (ds, ve))
    (f := fun i (st : Arr ℝ × Arr ℝ) =>
      (st.1.onView (i * n) fun o => derivativeSoftmax o (soft.view (i * n)) (e.view (i * n)) n).bind fun ds =>
      (loop n (fun j (ve : Arr ℝ) => (ds.read (i * n + j)).bind fun d => ve.addAt j d) st.2).bind fun ve =>
      some (ds, ve))
    (fun i st => st.1.len = ds.len ∧ st.2.len = ve.len ∧
      (∀ i', i' < i → ∀ k, k < n → st.1.get (i' * n + k) = G n A a v e.get i' k) ∧
      (∀ i', i ≤ i' → i' < A → ∀ k, k < n → st.1.get (i' * n + k) = 0) ∧
      ∀ k, k < n → st.2.get k = ve.get k + ∑ i' ∈ range i, G n A a v e.get i' k)
    ⟨rfl, rfl, fun i' h => absurd h (by omega), fun i' _ h k hk => h0 _ (idx_lt h hk), fun k _ => by simp⟩
    (by
      rintro i hi st ⟨q1, q2, q3, q4, q5⟩
      have l1 := row_le hi hs
      have l2 := row_le hi he
      have l3 := row_le hi hd
      have e1 := Arr.onView_eq (a := st.1) (off := i * n) (derivativeSoftmax_eq (st.1.view (i * n)) (soft.view (i * n))
        (e.view (i * n)) n (by rw [Arr.view_len]; omega) (by rw [Arr.view_len]; omega) (by rw [Arr.view_len]; omega))
      obtain ⟨d, ed, d1, d2, d3⟩ : ∃ d : Arr ℝ, (st.1.onView (i * n) fun o =>
          derivativeSoftmax o (soft.view (i * n)) (e.view (i * n)) n) = some d ∧ d.len = ds.len ∧
          (∀ k, k < n → d.get (i * n + k) = G n A a v e.get i k) ∧
          ∀ i' k, i' ≠ i → k < n → d.get (i' * n + k) = st.1.get (i' * n + k) := by
        refine ⟨_, e1, q1, ?_, ?_⟩
        · intro k hk
          simp only [Arr.view_get]
          rw [if_pos (by omega), show i * n + k - i * n = k by omega, q4 i (le_refl _) hi k hk, zero_add,
            Finset.sum_eq_single k]
          · unfold G Attention.grad
            refine Finset.sum_congr rfl fun t ht => ?_
            rw [if_pos rfl, hsoft i hi t (Finset.mem_range.1 ht), hsoft i hi k hk]
          · intro b _ hb
            exact Finset.sum_eq_zero fun t _ => if_neg (Ne.symm hb)
          · intro h; exact absurd (Finset.mem_range.2 hk) h
        · intro i' k hne hk
          simp only [Arr.view_get]
          by_cases h : i * n ≤ i' * n + k
          · rw [if_pos h, show i * n + (i' * n + k - i * n) = i' * n + k by omega, Finset.sum_eq_zero, add_zero]
            intro j hj
            refine Finset.sum_eq_zero fun t _ => if_neg fun he => hne ?_
            exact (idx_inj hk (Finset.mem_range.1 hj) (by omega : i' * n + k = i * n + j)).1
          · rw [if_neg h]
      have e2 : loop n (fun j (ve : Arr ℝ) => (d.read (i * n + j)).bind fun x => ve.addAt j x) st.2 =
          some ⟨st.2.len, fun k => st.2.get k + ∑ j ∈ range n, if k = j then d.get (i * n + j) else 0⟩ := by
        refine loop_add (fun j k => if k = j then d.get (i * n + j) else 0) ?_
        intro j hj b hb
        rw [Arr.read_eq (by omega)]
        simp only [Option.bind_some]
        rw [Arr.addAt_eq' _ (by omega)]
      refine ⟨_, (bind_some_of ed).trans (bind_some_of e2), d1, q2, ?_, ?_, ?_⟩
      · intro i' hi' k hk
        by_cases h : i' = i
        · subst h; exact d2 k hk
        · exact (d3 i' k h hk).trans (q3 i' (by omega) k hk)
      · intro i' h1 h2 k hk
        exact (d3 i' k (by omega) hk).trans (q4 i' (by omega) h2 k hk)
      · intro k hk
        dsimp only
        rw [Finset.sum_ite_eq, if_pos (Finset.mem_range.2 hk), d2 k hk, q5 k hk, Finset.sum_range_succ, add_assoc])
  exact ⟨r, e1, h1, h2, h3, h5⟩

/-- What the advantage loop really leaves: only the error of the last action
survives. -/
theorem bpAdvantage_eq (n A : Nat) (hA : 0 < A) (ds ae : Arr ℝ) (hd : A * n ≤ ds.len) (ha : A * n ≤ ae.len) :
    ∃ ae', bpAdvantage n A ds ae = some ae' ∧ ae'.len = ae.len ∧ ∀ i, i < A → ∀ k, k < n →
      ae'.get (i * n + k) = (if i = A - 1 then ((n : ℝ) - 1) / n else -1 / (n : ℝ)) * ds.get ((A - 1) * n + k) := by
  have row : ∀ i, i < A → ∀ J, J ≤ A → ∀ b : Arr ℝ, b.len = ae.len → ∃ b', loop J (fun j b => loop n
      (fun k (b : Arr ℝ) => (ds.read (j * n + k)).bind fun d =>
        if i = j then b.write (i * n + k) ((((n : ℝ) - 1) / n) * d)
        else b.write (i * n + k) ((-1 / (n : ℝ)) * d)) b) b = some b' ∧ b'.len = ae.len ∧
      (0 < J → ∀ k, k < n → b'.get (i * n + k) =
        (if i = J - 1 then ((n : ℝ) - 1) / n else -1 / (n : ℝ)) * ds.get ((J - 1) * n + k)) ∧
      ∀ i' k, i' ≠ i → k < n → b'.get (i' * n + k) = b.get (i' * n + k) := by
    intro i hi J hJ b hb
    refine loop_inv (fun j (st : Arr ℝ) => st.len = ae.len ∧
      (0 < j → ∀ k, k < n → st.get (i * n + k) =
        (if i = j - 1 then ((n : ℝ) - 1) / n else -1 / (n : ℝ)) * ds.get ((j - 1) * n + k)) ∧
      ∀ i' k, i' ≠ i → k < n → st.get (i' * n + k) = b.get (i' * n + k)) ⟨hb, fun h => absurd h (by omega), fun _ _ _ _ => rfl⟩ ?_
    rintro j hj st ⟨q1, -, q3⟩
    obtain ⟨s', e, p1, p2, p3⟩ := loop_inv (n := n) (s := st)
      (f := fun k (b : Arr ℝ) => (ds.read (j * n + k)).bind fun d =>
        if i = j then b.write (i * n + k) ((((n : ℝ) - 1) / n) * d)
        else b.write (i * n + k) ((-1 / (n : ℝ)) * d))
      (fun m s => s.len = ae.len ∧ (∀ k, k < m → s.get (i * n + k) =
          (if i = j then ((n : ℝ) - 1) / n else -1 / (n : ℝ)) * ds.get (j * n + k)) ∧
        ∀ i' k, i' ≠ i → k < n → s.get (i' * n + k) = st.get (i' * n + k))
      ⟨q1, fun k h => absurd h (by omega), fun _ _ _ _ => rfl⟩
      (by
        rintro m hm s ⟨r1, r2, r3⟩
        have l1 := row_le hi ha
        have l2 := row_le (show j < A by omega) hd
        refine ⟨⟨s.len, Function.update s.get (i * n + m)
          ((if i = j then ((n : ℝ) - 1) / n else -1 / (n : ℝ)) * ds.get (j * n + m))⟩, ?_, r1, ?_, ?_⟩
        · rw [Arr.read_eq (by omega)]
          simp only [Option.bind_some]
          split_ifs <;> rw [Arr.write_eq _ (by omega)]
        · intro k hk
          by_cases h : k = m
          · subst h; simp
          · dsimp only
            rw [Function.update_of_ne (by omega)]
            exact r2 k (by omega)
        · intro i' k hne hk
          dsimp only
          rw [Function.update_of_ne (fun he => hne (idx_inj hk hm he).1)]
          exact r3 i' k hne hk)
    refine ⟨s', e, p1, fun _ k hk => ?_, fun i' k hne hk => (p3 i' k hne hk).trans (q3 i' k hne hk)⟩
    rw [p2 k hk, Nat.add_sub_cancel]
  obtain ⟨r, e, h1, h2⟩ := loop_inv (n := A) (s := ae)
    (f := fun i ae => loop A (fun j ae => loop n (fun k (ae : Arr ℝ) => (ds.read (j * n + k)).bind fun d =>
        if i = j then ae.write (i * n + k) ((((n : ℝ) - 1) / n) * d)
        else ae.write (i * n + k) ((-1 / (n : ℝ)) * d)) ae) ae)
    (fun m s => s.len = ae.len ∧ ∀ i, i < m → ∀ k, k < n →
      s.get (i * n + k) = (if i = A - 1 then ((n : ℝ) - 1) / n else -1 / (n : ℝ)) * ds.get ((A - 1) * n + k))
    ⟨rfl, fun i h => absurd h (by omega)⟩
    (by
      rintro i hi s ⟨q1, q2⟩
      obtain ⟨b', e, p1, p2, p3⟩ := row i hi A (le_refl _) s q1
      refine ⟨b', e, p1, fun i' hi' k hk => ?_⟩
      by_cases h : i' = i
      · subst h; exact p2 hA k hk
      · exact (p3 i' k h hk).trans (q2 i' (by omega) k hk))
  exact ⟨r, e, h1, h2⟩

theorem weighted_of (n A : Nat) (a v mean add soft e : Arr ℝ) (ha : A * n ≤ a.len) (hv : n ≤ v.len)
    (hm : n ≤ mean.len) (hadd : A * n ≤ add.len) (hsoft : A * n ≤ soft.len)
    (h0 : ∀ t, t < n → mean.get t = 0) (L : ℝ) :
    Weighted n A a v mean add soft e L ↔
      L = ∑ i ∈ range A, ∑ k ∈ range n, e.get (i * n + k) * smax n (logit n A a.get v.get i) k := by
  obtain ⟨m', a', s', e1, -, h, -⟩ := C17_head n A a v mean add soft ha hv hm hadd hsoft h0
  have hsum : ∑ i ∈ range A, ∑ k ∈ range n, e.get (i * n + k) * s'.get (i * n + k) =
      ∑ i ∈ range A, ∑ k ∈ range n, e.get (i * n + k) * smax n (logit n A a.get v.get i) k :=
    Finset.sum_congr rfl fun i hi => Finset.sum_congr rfl fun k hk => by
      rw [h i (Finset.mem_range.1 hi) k (Finset.mem_range.1 hk)]
  constructor
  · rintro ⟨r, e2, hL⟩
    rw [e1] at e2
    cases e2
    exact hL.trans hsum
  · intro hL
    exact ⟨_, e1, hL.trans hsum.symm⟩

/-- Derivative of the error-weighted distributions along any path of logits. -/
theorem weighted_path (n A : Nat) (hn : 0 < n) (e : Nat → ℝ) (x : Nat → Nat → ℝ → ℝ) (x' : Nat → Nat → ℝ) (τ : ℝ)
    (a v : Nat → ℝ) (h : ∀ i k, HasDerivAt (x i k) (x' i k) τ) (hx : ∀ i k, x i k τ = logit n A a v i k) :
    HasDerivAt (fun t => ∑ i ∈ range A, ∑ k ∈ range n, e (i * n + k) * smax n (fun u => x i u t) k)
      (∑ i ∈ range A, ∑ b ∈ range n, G n A a v e i b * x' i b) τ := by
  refine HasDerivAt.fun_sum fun i _ => ?_
  exact Attention.wsum_path (range n) ⟨0, Finset.mem_range.2 hn⟩ (fun k => e (i * n + k)) (x i) (x' i) τ
    (fun b _ => h i b) (fun t => smax n (logit n A a v i) t) (fun b _ => by simp only [smax, hx])

/-- **C73, value stream** (partial). The backward pass of the head stays in
bounds and adds to the value error the partial derivatives of the
error-weighted distributions with respect to the value outputs. The softmax
layer is the one the forward pass leaves; `derivative_softmax_layer` is cleared
by the reset.

Full statement: the same also for the advantage outputs; see
`C73_advantage_refuted`. -/
theorem C73_value_gradient_partial (n A : Nat) (hA : 0 < A) (a v mean add soft0 soft e ds ve ae : Arr ℝ) (mean' add' : Arr ℝ)
    (ha : A * n ≤ a.len) (hv : n ≤ v.len) (hm : n ≤ mean.len) (hadd : A * n ≤ add.len) (hsoft : A * n ≤ soft0.len)
    (h0 : ∀ t, t < n → mean.get t = 0) (hff : head n A a v mean add soft0 = some (mean', add', soft))
    (he : A * n ≤ e.len) (hd : A * n ≤ ds.len) (hve : n ≤ ve.len) (hae : A * n ≤ ae.len)
    (hz : ∀ u, u < A * n → ds.get u = 0) :
    ∃ ds' ve' ae', headBP n A soft e ds ve ae = some (ds', ve', ae') ∧
      ∀ j, j < n → ∃ F : ℝ → ℝ,
        (∀ t, Weighted n A a ⟨v.len, Function.update v.get j t⟩ mean add soft0 e (F t)) ∧
        HasDerivAt F (ve'.get j - ve.get j) (v.get j) := by
  obtain ⟨m', a', s', e1, l1, h, -⟩ := C17_head n A a v mean add soft0 ha hv hm hadd hsoft h0
  rw [hff] at e1
  obtain ⟨rfl, rfl, rfl⟩ : mean' = m' ∧ add' = a' ∧ soft = s' := by simpa using e1
  obtain ⟨r, er, r1, r2, r3, r4⟩ := bpValue_eq n A soft e ds ve a.get v.get (by omega) he hd hve hz h
  obtain ⟨ae', ea, -, -⟩ := bpAdvantage_eq n A hA r.1 ae (by omega) hae
  refine ⟨r.1, r.2, ae', (bind_some_of er).trans (bind_some_of ea), fun j hj => ?_⟩
  refine ⟨fun t => ∑ i ∈ range A, ∑ k ∈ range n, e.get (i * n + k) *
    smax n (logit n A a.get (Function.update v.get j t) i) k, fun t => ?_, ?_⟩
  · exact (weighted_of n A a ⟨v.len, Function.update v.get j t⟩ mean add soft0 e ha hv hm hadd hsoft h0 _).2 rfl
  · have := weighted_path n A (by omega) e.get (fun i k t => logit n A a.get (Function.update v.get j t) i k)
      (fun _ k => if j = k then 1 else 0) (v.get j) a.get v.get
      (fun i k => by
        unfold logit
        exact ((Attention.upd_deriv v.get j k).add_const _).sub_const _)
      (fun i k => by simp [Function.update_eq_self])
    refine this.congr_deriv ?_
    rw [r4 j hj, add_sub_cancel_left]
    refine Finset.sum_congr rfl fun i _ => ?_
    simp [Finset.sum_ite_eq, hj]

/-- **C73, advantage stream (refuted).** With two actions and two atoms, all
outputs zero and upstream error 1 on the first atom of action 0, the error
written for that advantage is not the derivative of the error-weighted
distributions. -/
theorem C73_advantage_refuted : ∃ (a v mean add soft0 soft e ds ve ae mean' add' ds' ve' ae' : Arr ℝ),
    2 * 2 ≤ a.len ∧ 2 ≤ v.len ∧ 2 ≤ mean.len ∧ 2 * 2 ≤ add.len ∧ 2 * 2 ≤ soft0.len ∧ (∀ t, mean.get t = 0) ∧
    head 2 2 a v mean add soft0 = some (mean', add', soft) ∧ (∀ u, ds.get u = 0) ∧ (∀ u, ae.get u = 0) ∧
    headBP 2 2 soft e ds ve ae = some (ds', ve', ae') ∧
    ¬ ∃ F : ℝ → ℝ, (∀ t, Weighted 2 2 ⟨a.len, Function.update a.get 0 t⟩ v mean add soft0 e (F t)) ∧
        HasDerivAt F (ae'.get 0 - ae.get 0) (a.get 0) := by
  have h4 : (2 : Nat) * 2 ≤ 4 := by decide
  obtain ⟨m', a', s', e1, l1, h, -⟩ := C17_head 2 2 ⟨4, fun _ => 0⟩ ⟨2, fun _ => 0⟩ ⟨2, fun _ => 0⟩ ⟨4, fun _ => 0⟩
    ⟨4, fun _ => 0⟩ h4 (le_refl _) (le_refl _) h4 h4 (fun _ _ => rfl)
  obtain ⟨r, er, r1, r2, r3, r4⟩ := bpValue_eq 2 2 s' ⟨4, fun u => if u = 0 then 1 else 0⟩ ⟨4, fun _ => 0⟩
    ⟨2, fun _ => 0⟩ (fun _ => 0) (fun _ => 0) (by rw [l1]) h4 h4 (le_refl _) (fun _ _ => rfl) h
  obtain ⟨ae', ea, -, ha⟩ := bpAdvantage_eq 2 2 (by decide) r.1 ⟨4, fun _ => 0⟩ (by rw [r1]) h4
  refine ⟨_, _, _, _, _, s', _, _, _, _, m', a', r.1, r.2, ae', h4, le_refl _, le_refl _, h4, h4, fun _ => rfl, e1,
    fun _ => rfl, fun _ => rfl, (bind_some_of er).trans (bind_some_of ea), ?_⟩
  rintro ⟨F, hF, hd⟩
  have hF' : F = fun t => ∑ i ∈ range 2, ∑ k ∈ range 2, (if i * 2 + k = 0 then (1 : ℝ) else 0) *
      smax 2 (fun u => logit 2 2 (Function.update (fun _ => 0) 0 t) (fun _ => 0) i u) k := by
    funext t
    exact (weighted_of 2 2 _ _ _ _ _ _ h4 (le_refl _) (le_refl _) h4 h4 (fun _ _ => rfl) _).1 (hF t)
  have hx : ∀ i k, HasDerivAt (fun t => logit 2 2 (Function.update (fun _ => (0 : ℝ)) 0 t) (fun _ => 0) i k)
      ((if 0 = i * 2 + k then 1 else 0) - (∑ j ∈ range 2, if 0 = j * 2 + k then (1 : ℝ) else 0) / (2 : Nat)) 0 := by
    intro i k
    unfold logit
    refine HasDerivAt.sub ?_ ?_
    · exact (Attention.upd_deriv (fun _ => (0 : ℝ)) 0 (i * 2 + k)).const_add _
    · exact (HasDerivAt.fun_sum fun j _ => Attention.upd_deriv (fun _ => (0 : ℝ)) 0 (j * 2 + k)).div_const _
  have hp := weighted_path 2 2 (by decide) (fun u => if u = 0 then (1 : ℝ) else 0)
    (fun i k t => logit 2 2 (Function.update (fun _ => (0 : ℝ)) 0 t) (fun _ => 0) i k) _ 0
    (fun _ => 0) (fun _ => 0) hx (fun i k => by simp [Function.update_eq_self])
  rw [hF'] at hd
  have hu := hd.unique hp
  rw [show ae'.get 0 = ae'.get (0 * 2 + 0) from rfl, ha 0 (by decide) 0 (by decide), r3 1 (by decide) 0 (by decide)] at hu
  norm_num [Finset.sum_range_succ, G, Attention.grad, smax, logit] at hu

end LLab.Dueling
