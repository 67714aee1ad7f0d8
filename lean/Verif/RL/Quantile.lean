import Verif.RL.Dueling
import Verif.Math.Losses

/-! Quantile regression DQN: the loss (`/repo/src/dueling_categorical_dqn.c`
1606-1626, 1694-1714, 1727-1753; C75) and the linear dueling head with its
back-propagation (1365-1378, 1490-1508; C76). The networks are not modelled. -/

namespace LLab.Quantile

open Finset LLab.Vec LLab.Dueling LLab.Loss
open LLab.Attention (copyTo copyTo_eq)

/-! ### Loss -/

/-- The quantile fractions of `get_loss_for_qr_dqn` and `_opt`
(`/repo/src/dueling_categorical_dqn.c` 1615, 1618). -/
noncomputable def tauEnd (n i : Nat) : ℝ := ((i : ℝ) + 1) / n

/-- The quantile fractions of `get_loss_for_qr_dqn_opt_with_error`
(`/repo/src/dueling_categorical_dqn.c` 1736, 1739). -/
noncomputable def tauMid (n i : Nat) : ℝ := (2 * (i : ℝ) + 1) / (2 * n)

/-- The loop filling `y_hat` and `vals`
(`/repo/src/dueling_categorical_dqn.c` 1608-1621); `row` is
`action_t*n_atoms`. -/
noncomputable def weights (n row : Nat) (tau : Nat → ℝ) (reward lam qs : ℝ) (nt : Bool) (soft : Arr ℝ) :
    Option (Arr ℝ × Arr ℝ) :=
  loop n (fun i (st : Arr ℝ × Arr ℝ) =>
    (st.1.write i (if nt then reward + lam * qs else reward)).bind fun yhat =>
    (yhat.read i).bind fun y =>
    (soft.read (row + i)).bind fun th =>
    (st.2.write i (if y - th < 0 then |tau i - 1| else tau i)).bind fun vals =>
    (vals.read i).bind fun w =>
    (vals.write i (w / n)).bind fun vals =>
    some (yhat, vals)) (⟨n, fun _ => 0⟩, ⟨n, fun _ => 0⟩)

/-- `derivative_huber_loss_array(y_hat, &soft[off], &error[row], 1, n)`
(`/repo/src/math_functions.c` 560-565). -/
noncomputable def huberRow (n off row : Nat) (yhat soft error : Arr ℝ) : Option (Arr ℝ) :=
  loop n (fun i (error : Arr ℝ) =>
    (yhat.read i).bind fun y => (soft.read (off + i)).bind fun th => error.write (row + i) (dHuber y th 1)) error

/-- `dot1D(vals, &error[row], &error[row], n)` (`/repo/src/math_functions.c`
817-822). -/
noncomputable def dotRow (n row : Nat) (vals error : Arr ℝ) : Option (Arr ℝ) :=
  loop n (fun i (error : Arr ℝ) =>
    (vals.read i).bind fun w => (error.read (row + i)).bind fun e => error.write (row + i) (w * e)) error

/-- The loss after the networks have run. `off` is where the quantiles are
read: `action_t*n_atoms` in `get_loss_for_qr_dqn_opt`
(`/repo/src/dueling_categorical_dqn.c` 1710). -/
noncomputable def qrLossAt (n off row : Nat) (tau : Nat → ℝ) (reward lam qs : ℝ) (nt : Bool) (soft error : Arr ℝ) :
    Option (Arr ℝ) :=
  (weights n row tau reward lam qs nt soft).bind fun w =>
  (huberRow n off row w.1 soft error).bind fun error =>
  dotRow n row w.2 error

/-- `get_loss_for_qr_dqn_opt` (`/repo/src/dueling_categorical_dqn.c`
1694-1714), for either choice of fractions. -/
noncomputable def qrLoss (n actionT : Nat) (tau : Nat → ℝ) (reward lam qs : ℝ) (nt : Bool) (soft error : Arr ℝ) :
    Option (Arr ℝ) := qrLossAt n (actionT * n) (actionT * n) tau reward lam qs nt soft error

/-- `get_loss_for_qr_dqn` (`/repo/src/dueling_categorical_dqn.c` 1606-1626): the
quantiles are read at `action_t*n_atoms + i` with `i = n_atoms` left over from
the loop (1622). -/
noncomputable def qrLossPlain (n actionT : Nat) (reward lam qs : ℝ) (nt : Bool) (soft error : Arr ℝ) :
    Option (Arr ℝ) := qrLossAt n (actionT * n + n) (actionT * n) (tauEnd n) reward lam qs nt soft error

/-- Specification: the quantile Huber loss of prediction `θ` for fraction `τ`
and target `T`, divided by the number of quantiles. -/
noncomputable def rho (n : Nat) (τ T θ : ℝ) : ℝ := (if T < θ then 1 - τ else τ) * huber T θ 1 / n

theorem weights_eq (n row : Nat) (tau : Nat → ℝ) (reward lam qs : ℝ) (nt : Bool) (soft : Arr ℝ)
    (hs : row + n ≤ soft.len) :
    ∃ r, weights n row tau reward lam qs nt soft = some r ∧ r.1.len = n ∧ r.2.len = n ∧ ∀ i, i < n →
      r.1.get i = (if nt then reward + lam * qs else reward) ∧
      r.2.get i = (if (if nt then reward + lam * qs else reward) - soft.get (row + i) < 0 then |tau i - 1|
        else tau i) / n := by
  refine loop_inv (σ := Arr ℝ × Arr ℝ) (n := n) (fun m st => st.1.len = n ∧ st.2.len = n ∧ ∀ i, i < m →
      st.1.get i = (if nt then reward + lam * qs else reward) ∧
      st.2.get i = (if (if nt then reward + lam * qs else reward) - soft.get (row + i) < 0 then |tau i - 1|
        else tau i) / n) ⟨rfl, rfl, fun i h => absurd h (by omega)⟩ ?_
  rintro m hm st ⟨q1, q2, q3⟩
  rw [Arr.write_eq _ (by omega), Option.bind_some, Arr.read_eq (by dsimp only; omega), Option.bind_some,
    Arr.read_eq (by omega), Option.bind_some, Arr.write_eq _ (by omega), Option.bind_some,
    Arr.read_eq (by dsimp only; omega), Option.bind_some, Arr.write_eq _ (by dsimp only; omega), Option.bind_some]
  refine ⟨_, rfl, q1, q2, fun i hi => ?_⟩
  dsimp only
  by_cases h : i = m
  · subst h
    simp only [Function.update_self]
    exact ⟨trivial, trivial⟩
  · simp only [Function.update_of_ne h]
    exact q3 i (by omega)

theorem row_write (n row : Nat) (g : Nat → ℝ → ℝ) (error : Arr ℝ) (f : Nat → Arr ℝ → Option (Arr ℝ))
    (hf : ∀ i, i < n → ∀ b : Arr ℝ, b.len = error.len →
      f i b = some ⟨b.len, Function.update b.get (row + i) (g i (b.get (row + i)))⟩) :
    ∃ e', loop n f error = some e' ∧ e'.len = error.len ∧
      (∀ i, i < n → e'.get (row + i) = g i (error.get (row + i))) ∧
      ∀ u, (∀ i, i < n → u ≠ row + i) → e'.get u = error.get u := by
  obtain ⟨e', h, h1, h2, h3⟩ := loop_inv (σ := Arr ℝ) (n := n) (s := error) (f := f)
    (fun m s => s.len = error.len ∧
      (∀ i, i < m → s.get (row + i) = g i (error.get (row + i))) ∧
      ∀ u, (∀ i, i < m → u ≠ row + i) → s.get u = error.get u)
    ⟨rfl, fun i h => absurd h (by omega), fun _ _ => rfl⟩
    (by
      rintro m hm s ⟨q1, q2, q3⟩
      refine ⟨_, hf m hm s q1, q1, ?_, ?_⟩
      · intro i hi
        dsimp only
        by_cases h : i = m
        · subst h
          rw [Function.update_self, q3 (row + i) (fun j hj => by omega)]
        · rw [Function.update_of_ne (by omega)]
          exact q2 i (by omega)
      · intro u hu
        dsimp only
        rw [Function.update_of_ne (hu m (by omega))]
        exact q3 u fun i hi => hu i (by omega))
  exact ⟨e', h, h1, h2, h3⟩

theorem qrLossAt_eq (n off row : Nat) (tau : Nat → ℝ) (reward lam qs : ℝ) (nt : Bool) (soft error : Arr ℝ)
    (ho : off + n ≤ soft.len) (hs : row + n ≤ soft.len) (he : row + n ≤ error.len) :
    ∃ e', qrLossAt n off row tau reward lam qs nt soft error = some e' ∧ e'.len = error.len ∧
      (∀ i, i < n → e'.get (row + i) =
        (if (if nt then reward + lam * qs else reward) - soft.get (row + i) < 0 then |tau i - 1| else tau i) / n *
          dHuber (if nt then reward + lam * qs else reward) (soft.get (off + i)) 1) ∧
      ∀ u, (∀ i, i < n → u ≠ row + i) → e'.get u = error.get u := by
  obtain ⟨w, ew, w1, w2, w3⟩ := weights_eq n row tau reward lam qs nt soft hs
  obtain ⟨e1, h1, a1, a2, a3⟩ := row_write n row (fun i _ => dHuber (w.1.get i) (soft.get (off + i)) 1) error
    (fun i (error : Arr ℝ) =>
      (w.1.read i).bind fun y => (soft.read (off + i)).bind fun th => error.write (row + i) (dHuber y th 1))
    (by
      intro i hi b hb
      rw [Arr.read_eq (by omega), Option.bind_some, Arr.read_eq (by omega), Option.bind_some, Arr.write_eq _ (by omega)])
  obtain ⟨e2, h2, b1, b2, b3⟩ := row_write n row (fun i e => w.2.get i * e) e1
    (fun i (error : Arr ℝ) =>
      (w.2.read i).bind fun x => (error.read (row + i)).bind fun e => error.write (row + i) (x * e))
    (by
      intro i hi b hb
      rw [Arr.read_eq (by omega), Option.bind_some, Arr.read_eq (by omega), Option.bind_some, Arr.write_eq _ (by omega)])
  refine ⟨e2, (bind_some_of ew).trans ((bind_some_of h1).trans h2), by omega, ?_, ?_⟩
  · intro i hi
    rw [b2 i hi, a2 i hi, (w3 i hi).1, (w3 i hi).2]
  · intro u hu
    rw [b3 u hu, a3 u hu]

theorem huber_symm (p y t : ℝ) : huber p y t = huber y p t := by
  unfold huber; rw [abs_sub_comm]

theorem dHuber_anti (p y t : ℝ) : dHuber p y t = -dHuber y p t := by
  unfold dHuber
  rw [abs_sub_comm]
  split_ifs
  · ring
  · rw [← neg_div]; ring_nf

/-- The Huber derivative with the target first is the derivative with respect
to the prediction. -/
theorem huber_second (T θ : ℝ) : HasDerivAt (fun x => huber T x 1) (dHuber T θ 1) θ := by
  have h := C21_huber_partial θ T 1 one_pos
  rw [← dHuber_anti] at h
  simpa only [huber_symm T] using h

theorem huber_le (T θ : ℝ) : |huber T θ 1| ≤ (θ - T) * (θ - T) := by
  have h2 : |T - θ| * |T - θ| = (θ - T) * (θ - T) := by rw [abs_mul_abs_self]; ring
  have h0 := abs_nonneg (T - θ)
  unfold huber
  split_ifs with h
  · rw [abs_of_nonneg (by positivity), h2]
    have := mul_self_nonneg (θ - T)
    linarith
  · have h' := not_le.1 h
    rw [abs_of_nonneg (by linarith), ← h2]
    nlinarith

/-- The quantile Huber loss is differentiable everywhere, with the weight times
the Huber derivative. -/
theorem rho_deriv (n : Nat) (τ T θ : ℝ) :
    HasDerivAt (rho n τ T) ((if T < θ then 1 - τ else τ) / n * dHuber T θ 1) θ := by
  have key : ∀ w : ℝ, HasDerivAt (fun x => w * huber T x 1 / n) (w / n * dHuber T θ 1) θ := by
    intro w
    refine ((huber_second T θ).const_mul w).div_const (n : ℝ) |>.congr_deriv ?_
    ring
  rcases lt_trichotomy T θ with h | h | h
  · rw [if_pos h]
    refine (key (1 - τ)).congr_of_eventuallyEq ?_
    filter_upwards [lt_mem_nhds h] with x hx
    simp [rho, hx]
  · subst h
    have hz : dHuber T T 1 = 0 := by simp [dHuber]
    have hr : rho n τ T T = 0 := by simp [rho, huber]
    rw [hz, mul_zero]
    have h2 : HasDerivAt (fun q : ℝ => (q - T) * (q - T)) 0 T := by
      have := ((hasDerivAt_id T).sub_const T).fun_mul ((hasDerivAt_id T).sub_const T)
      simpa using this
    have h3 := hasDerivAt_iff_isLittleO.1 h2
    rw [hasDerivAt_iff_isLittleO]
    refine (Asymptotics.IsBigO.of_bound ((|1 - τ| + |τ|) / n) (Filter.Eventually.of_forall fun q => ?_)).trans_isLittleO h3
    simp only [hr, smul_zero, sub_zero, sub_self, mul_zero, Real.norm_eq_abs]
    have hw : |if T < q then 1 - τ else τ| ≤ |1 - τ| + |τ| := by
      have := abs_nonneg (1 - τ); have := abs_nonneg τ
      split_ifs <;> linarith
    unfold rho
    rw [abs_div, abs_mul, Nat.abs_cast, div_mul_eq_mul_div]
    refine div_le_div_of_nonneg_right ?_ (Nat.cast_nonneg n)
    refine mul_le_mul hw ?_ (abs_nonneg _) (by positivity)
    exact (huber_le T q).trans (le_abs_self _)
  · rw [if_neg h.not_gt]
    refine (key τ).congr_of_eventuallyEq ?_
    filter_upwards [gt_mem_nhds h] with x hx
    simp [rho, not_lt.2 (le_of_lt hx)]

theorem tauEnd_le (n i : Nat) (hi : i < n) : 0 ≤ tauEnd n i ∧ tauEnd n i ≤ 1 := by
  have hn : (0 : ℝ) < n := by exact_mod_cast (by omega : 0 < n)
  have : (i : ℝ) + 1 ≤ n := by exact_mod_cast hi
  exact ⟨by unfold tauEnd; positivity, by unfold tauEnd; rw [div_le_one hn]; exact this⟩

theorem tauMid_le (n i : Nat) (hi : i < n) : 0 ≤ tauMid n i ∧ tauMid n i ≤ 1 := by
  have hn : (0 : ℝ) < n := by exact_mod_cast (by omega : 0 < n)
  have : (i : ℝ) + 1 ≤ n := by exact_mod_cast hi
  exact ⟨by unfold tauMid; positivity, by unfold tauMid; rw [div_le_one (by linarith)]; linarith⟩

theorem qr_gradient (n A actionT : Nat) (hA : actionT < A) (tau : Nat → ℝ)
    (htau : ∀ i, i < n → tau i ≤ 1) (reward lam qs : ℝ) (nt : Bool) (soft error : Arr ℝ)
    (hs : A * n ≤ soft.len) (he : A * n ≤ error.len) :
    ∃ e', qrLoss n actionT tau reward lam qs nt soft error = some e' ∧ e'.len = error.len ∧
      (∀ i, i < n → HasDerivAt (rho n (tau i) (if nt then reward + lam * qs else reward))
        (e'.get (actionT * n + i)) (soft.get (actionT * n + i))) ∧
      ∀ a, a < A → a ≠ actionT → ∀ i, i < n → e'.get (a * n + i) = error.get (a * n + i) := by
  have l1 := row_le hA hs
  have l2 := row_le hA he
  obtain ⟨e', h, h1, h2, h3⟩ := qrLossAt_eq n (actionT * n) (actionT * n) tau reward lam qs nt soft error l1 l1 l2
  refine ⟨e', h, h1, fun i hi => ?_, fun a _ hne i hi => ?_⟩
  · rw [h2 i hi]
    refine (rho_deriv n (tau i) _ _).congr_deriv ?_
    congr 2
    have : |tau i - 1| = 1 - tau i := by rw [abs_of_nonpos (by linarith [htau i hi])]; ring
    rw [this]
    exact if_congr sub_neg.symm rfl rfl
  · exact h3 _ fun j hj he => hne (idx_inj hi hj he).1

/-- **C75 (partial).** `get_loss_for_qr_dqn_opt`: the loss stays in bounds,
leaves for quantile `i` of the taken action the derivative of the quantile
Huber loss with fraction `(i+1)/n` with respect to that quantile, and does not
touch the other actions' errors. `get_loss_for_qr_dqn` is refuted below. -/
theorem C75_opt_partial (n A actionT : Nat) (hA : actionT < A) (reward lam qs : ℝ) (nt : Bool) (soft error : Arr ℝ)
    (hs : A * n ≤ soft.len) (he : A * n ≤ error.len) :
    ∃ e', qrLoss n actionT (tauEnd n) reward lam qs nt soft error = some e' ∧ e'.len = error.len ∧
      (∀ i, i < n → HasDerivAt (rho n (((i : ℝ) + 1) / n) (if nt then reward + lam * qs else reward))
        (e'.get (actionT * n + i)) (soft.get (actionT * n + i))) ∧
      ∀ a, a < A → a ≠ actionT → ∀ i, i < n → e'.get (a * n + i) = error.get (a * n + i) :=
  qr_gradient n A actionT hA (tauEnd n) (fun i hi => (tauEnd_le n i hi).2) reward lam qs nt soft error hs he

/-- **C75, variant returning the error (partial).** The same with the quantile
midpoints `(2i+1)/(2n)` (before the multiplication by `weight_error`). -/
theorem C75_mid_partial (n A actionT : Nat) (hA : actionT < A) (reward lam qs : ℝ) (nt : Bool) (soft error : Arr ℝ)
    (hs : A * n ≤ soft.len) (he : A * n ≤ error.len) :
    ∃ e', qrLoss n actionT (tauMid n) reward lam qs nt soft error = some e' ∧ e'.len = error.len ∧
      (∀ i, i < n → HasDerivAt (rho n ((2 * (i : ℝ) + 1) / (2 * n)) (if nt then reward + lam * qs else reward))
        (e'.get (actionT * n + i)) (soft.get (actionT * n + i))) ∧
      ∀ a, a < A → a ≠ actionT → ∀ i, i < n → e'.get (a * n + i) = error.get (a * n + i) :=
  qr_gradient n A actionT hA (tauMid n) (fun i hi => (tauMid_le n i hi).2) reward lam qs nt soft error hs he

example : ∃ e', qrLoss 2 1 (tauEnd 2) 1 (1 / 2) 1 true ⟨4, fun k => k⟩ ⟨4, fun _ => 0⟩ = some e' ∧ e'.len = 4 := by
  obtain ⟨e', h, h1, -⟩ := C75_opt_partial 2 2 1 (by decide) 1 (1 / 2) 1 true ⟨4, fun k => k⟩ ⟨4, fun _ => 0⟩
    (by decide) (by decide)
  exact ⟨e', h, h1⟩

/-- **C75, out of bounds (refuted).** `get_loss_for_qr_dqn` reads past the end
of the quantile array whenever the last action was taken. -/
theorem C75_plain_bounds_refuted (n A : Nat) (hn : 0 < n) (hA : 0 < A) (reward lam qs : ℝ) (nt : Bool) (soft error : Arr ℝ)
    (hs : soft.len = A * n) : qrLossPlain n (A - 1) reward lam qs nt soft error = none := by
  have hrow : (A - 1) * n + n = A * n := by
    rw [← Nat.succ_mul]; congr 1; omega
  obtain ⟨w, ew, w1, w2, w3⟩ := weights_eq n ((A - 1) * n) (tauEnd n) reward lam qs nt soft (by omega)
  refine (bind_some_of ew).trans ?_
  have : huberRow n ((A - 1) * n + n) ((A - 1) * n) w.1 soft error = none := by
    obtain ⟨k, rfl⟩ : ∃ k, n = k + 1 := ⟨n - 1, by omega⟩
    have first : ∀ m, loop (m + 1) (fun i (error : Arr ℝ) => (w.1.read i).bind fun y =>
        (soft.read ((A - 1) * (k + 1) + (k + 1) + i)).bind fun th =>
          error.write ((A - 1) * (k + 1) + i) (dHuber y th 1)) error = none := by
      intro m
      induction m with
      | zero =>
        simp only [loop, Option.bind_eq_bind, Option.bind_some]
        rw [Arr.read_eq (by omega), Option.bind_some]
        have : soft.read ((A - 1) * (k + 1) + (k + 1) + 0) = none := by
          unfold Arr.read
          rw [if_neg (by omega)]
        rw [this]
        rfl
      | succ m ih =>
        rw [loop, ih]
        rfl
    exact first k
  rw [this]
  rfl

/-- **C75, wrong row (refuted).** For an action that is not the last one the
value left is not the derivative with respect to the taken action's quantile:
two actions, one quantile each, target 1, quantiles 1 and 0. -/
theorem C75_plain_row_refuted : ∃ (soft error e' : Arr ℝ), qrLossPlain 1 0 1 0 0 false soft error = some e' ∧
    ¬ HasDerivAt (rho 1 (tauEnd 1 0) 1) (e'.get 0) (soft.get 0) := by
  obtain ⟨e', h, h1, h2, -⟩ := qrLossAt_eq 1 (0 * 1 + 1) (0 * 1) (tauEnd 1) 1 0 0 false
    ⟨2, fun k => if k = 0 then 1 else 0⟩ ⟨2, fun _ => 0⟩ (by decide) (by decide) (by decide)
  refine ⟨_, _, e', h, fun hd => ?_⟩
  have hu := hd.unique (rho_deriv 1 (tauEnd 1 0) 1 1)
  have h3 := h2 0 (by decide)
  simp only [Nat.zero_mul, Nat.zero_add] at h3
  rw [h3] at hu
  norm_num [tauEnd, dHuber] at hu

/-! ### Linear head -/

/-- The head of the quantile network (`/repo/src/dueling_categorical_dqn.c`
1365-1378, 1416-1431): as the categorical head without the softmax; the add
layer is copied to `softmax_layer`. -/
noncomputable def qrRows (n A : Nat) (a v mean : Arr ℝ) (add : Arr ℝ) : Option (Arr ℝ) :=
  loop A (fun i (add : Arr ℝ) =>
    (copyTo a add (i * n) (i * n) n).bind fun add =>
    (add.onView (i * n) fun o => zip1DInPlace (· + ·) o v n).bind fun add =>
    add.onView (i * n) fun o => zip1DInPlace (· + ·) o mean n) add

/-- `compute_probability_distribution_qr_dqn` after the networks have run. -/
noncomputable def qrHead (n A : Nat) (a v mean add soft : Arr ℝ) : Option (Arr ℝ) :=
  (meanLayer n A a mean).bind fun mean =>
  (qrRows n A a v mean add).bind fun add =>
  copyTo add soft 0 0 (A * n)

/-- Value error loop of `bp_qr_dqn_opt` (`/repo/src/dueling_categorical_dqn.c`
1494-1498). -/
noncomputable def qrValue (n A : Nat) (err ve : Arr ℝ) : Option (Arr ℝ) :=
  loop A (fun i ve => loop n (fun j (ve : Arr ℝ) => (err.read (i * n + j)).bind fun d => ve.addAt j d) ve) ve

/-- Advantage error loop of `bp_qr_dqn_opt`
(`/repo/src/dueling_categorical_dqn.c` 1499-1508). -/
noncomputable def qrAdvantage (n A : Nat) (err ae : Arr ℝ) : Option (Arr ℝ) :=
  loop A (fun i ae => loop A (fun j ae => loop n (fun k (ae : Arr ℝ) => (err.read (j * n + k)).bind fun d =>
    if i = j then ae.addAt (i * n + k) ((1 - 1 / (n : ℝ)) * d)
    else ae.addAt (i * n + k) ((-1 / (n : ℝ)) * d)) ae) ae) ae

theorem qrHead_eq (n A : Nat) (a v mean add soft : Arr ℝ) (ha : A * n ≤ a.len) (hv : n ≤ v.len)
    (hm : n ≤ mean.len) (hadd : A * n ≤ add.len) (hsoft : A * n ≤ soft.len)
    (h0 : ∀ t, t < n → mean.get t = 0) :
    ∃ soft', qrHead n A a v mean add soft = some soft' ∧ soft'.len = soft.len ∧
      ∀ i, i < A → ∀ k, k < n → soft'.get (i * n + k) = logit n A a.get v.get i k := by
  have em := meanLayer_eq n A a mean ha hm
  set M : Arr ℝ := ⟨mean.len, fun k => if k < n then
      (mean.get k - ∑ j ∈ range A, a.get (j * n + k)) / A else mean.get k⟩ with hM
  have hMn : n ≤ M.len := hm
  obtain ⟨add', er, r1, r2⟩ := loop_inv (σ := Arr ℝ) (n := A) (s := add)
    (f := fun i (add : Arr ℝ) =>
      (copyTo a add (i * n) (i * n) n).bind fun add =>
      (add.onView (i * n) fun o => zip1DInPlace (· + ·) o v n).bind fun add =>
      add.onView (i * n) fun o => zip1DInPlace (· + ·) o M n)
    (fun i st => st.len = add.len ∧ ∀ i', i' < i → ∀ k, k < n →
      st.get (i' * n + k) = a.get (i' * n + k) + v.get k + M.get k)
    ⟨rfl, fun i h => absurd h (by omega)⟩
    (by
      rintro i hi st ⟨q1, q2⟩
      have l1 := row_le hi ha
      have l2 := row_le hi hadd
      obtain ⟨d, e1, d1, d2, d3⟩ := copyTo_eq a st (i * n) (i * n) n l1 (by omega)
      refine ⟨_, (bind_some_of e1).trans ((bind_some_of (Arr.onView_eq (zip1DInPlace_eq (· + ·) _ v n
        (by rw [Arr.view_len]; omega) hv))).trans (Arr.onView_eq (zip1DInPlace_eq (· + ·) _ M n
        (by simp only [Arr.view_len]; omega) hMn))), by dsimp only; omega, ?_⟩
      intro i' hi' k hk
      simp only [Arr.view_get]
      by_cases h : i' = i
      · subst h
        simp only [Nat.add_sub_cancel_left, Nat.le_add_right, if_true, hk, d2 k hk]
      · have hlt : i' < i := by omega
        have hb : i' * n + k < i * n := by
          have := row_le hlt (le_refl (i * n)); omega
        rw [if_neg (by omega), if_neg (by omega)]
        rw [d3 _ (fun c hc he => h (idx_inj hk hc he).1)]
        exact q2 i' hlt k hk)
  obtain ⟨s', es, s1, s2, -⟩ := copyTo_eq add' soft 0 0 (A * n) (by omega) (by omega)
  refine ⟨s', (bind_some_of em).trans ((bind_some_of er).trans es), s1, fun i hi k hk => ?_⟩
  have := s2 (i * n + k) (idx_lt hi hk)
  rw [Nat.zero_add] at this
  rw [this, r2 i hi k hk, hM]
  dsimp only
  rw [if_pos hk, h0 k hk]
  unfold logit
  ring

/-- The error-weighted sum of the quantiles. -/
def Weighted (n A : Nat) (a v mean add soft e : Arr ℝ) (L : ℝ) : Prop :=
  ∃ s, qrHead n A a v mean add soft = some s ∧
    L = ∑ i ∈ range A, ∑ k ∈ range n, e.get (i * n + k) * s.get (i * n + k)

theorem weighted_of (n A : Nat) (a v mean add soft e : Arr ℝ) (ha : A * n ≤ a.len) (hv : n ≤ v.len)
    (hm : n ≤ mean.len) (hadd : A * n ≤ add.len) (hsoft : A * n ≤ soft.len)
    (h0 : ∀ t, t < n → mean.get t = 0) (L : ℝ) :
    Weighted n A a v mean add soft e L ↔
      L = ∑ i ∈ range A, ∑ k ∈ range n, e.get (i * n + k) * logit n A a.get v.get i k := by
  obtain ⟨s, e1, -, h⟩ := qrHead_eq n A a v mean add soft ha hv hm hadd hsoft h0
  have hsum : ∑ i ∈ range A, ∑ k ∈ range n, e.get (i * n + k) * s.get (i * n + k) =
      ∑ i ∈ range A, ∑ k ∈ range n, e.get (i * n + k) * logit n A a.get v.get i k :=
    Finset.sum_congr rfl fun i hi => Finset.sum_congr rfl fun k hk => by
      rw [h i (Finset.mem_range.1 hi) k (Finset.mem_range.1 hk)]
  constructor
  · rintro ⟨s', e2, hL⟩
    rw [e1] at e2
    cases e2
    exact hL.trans hsum
  · exact fun hL => ⟨s, e1, hL.trans hsum.symm⟩

theorem qrValue_eq (n A : Nat) (err ve : Arr ℝ) (he : A * n ≤ err.len) (hv : n ≤ ve.len) :
    ∃ ve', qrValue n A err ve = some ve' ∧ ve'.len = ve.len ∧ ∀ j, j < n →
      ve'.get j = ve.get j + ∑ i ∈ range A, err.get (i * n + j) := by
  have h := loop_add (n := A) (a := ve)
    (f := fun i ve => loop n (fun j (ve : Arr ℝ) => (err.read (i * n + j)).bind fun d => ve.addAt j d) ve)
    (fun i q => ∑ j ∈ range n, if q = j then err.get (i * n + j) else 0)
    (by
      intro i hi b hb
      refine loop_add (n := n) (a := b) (fun j q => if q = j then err.get (i * n + j) else 0) ?_
      intro j hj c hc
      have := row_le hi he
      rw [Arr.read_eq (by omega), Option.bind_some, Arr.addAt_eq' _ (by omega)])
  refine ⟨_, h, rfl, fun j hj => ?_⟩
  dsimp only
  congr 1
  refine Finset.sum_congr rfl fun i _ => ?_
  rw [Finset.sum_ite_eq, if_pos (Finset.mem_range.2 hj)]

theorem qrAdvantage_eq (n A : Nat) (err ae : Arr ℝ) (he : A * n ≤ err.len) (ha : A * n ≤ ae.len) :
    ∃ ae', qrAdvantage n A err ae = some ae' ∧ ae'.len = ae.len ∧ ∀ i, i < A → ∀ k, k < n →
      ae'.get (i * n + k) = ae.get (i * n + k) + ∑ j ∈ range A,
        (if i = j then 1 - 1 / (n : ℝ) else -1 / (n : ℝ)) * err.get (j * n + k) := by
  have h := loop_add (n := A) (a := ae)
    (f := fun i ae => loop A (fun j ae => loop n (fun k (ae : Arr ℝ) => (err.read (j * n + k)).bind fun d =>
      if i = j then ae.addAt (i * n + k) ((1 - 1 / (n : ℝ)) * d)
      else ae.addAt (i * n + k) ((-1 / (n : ℝ)) * d)) ae) ae)
    (fun i q => ∑ j ∈ range A, ∑ k ∈ range n, if q = i * n + k then
      (if i = j then 1 - 1 / (n : ℝ) else -1 / (n : ℝ)) * err.get (j * n + k) else 0)
    (by
      intro i hi b hb
      refine loop_add (n := A) (a := b) (fun j q => ∑ k ∈ range n, if q = i * n + k then
        (if i = j then 1 - 1 / (n : ℝ) else -1 / (n : ℝ)) * err.get (j * n + k) else 0) ?_
      intro j hj c hc
      refine loop_add (n := n) (a := c) (fun k q => if q = i * n + k then
        (if i = j then 1 - 1 / (n : ℝ) else -1 / (n : ℝ)) * err.get (j * n + k) else 0) ?_
      intro k hk d hd
      have l1 := row_le hi ha
      have l2 := row_le hj he
      rw [Arr.read_eq (by omega), Option.bind_some]
      split_ifs <;> rw [Arr.addAt_eq' _ (by omega)])
  refine ⟨_, h, rfl, fun i hi k hk => ?_⟩
  dsimp only
  congr 1
  rw [Finset.sum_eq_single i]
  · refine Finset.sum_congr rfl fun j _ => ?_
    rw [Finset.sum_eq_single k]
    · rw [if_pos rfl]
    · intro b _ hb
      exact if_neg (by omega)
    · intro h'; exact absurd (Finset.mem_range.2 hk) h'
  · intro b _ hb
    refine Finset.sum_eq_zero fun j _ => Finset.sum_eq_zero fun c hc => if_neg fun hE => hb ?_
    exact (idx_inj hk (Finset.mem_range.1 hc) hE).1.symm
  · intro h'; exact absurd (Finset.mem_range.2 hi) h'

/-- **C76, value stream.** The value error added by the back-propagation of the
quantile head is the gradient of the error-weighted quantiles. -/
theorem C76_value_gradient (n A : Nat) (a v mean add soft e ve : Arr ℝ)
    (ha : A * n ≤ a.len) (hv : n ≤ v.len) (hm : n ≤ mean.len) (hadd : A * n ≤ add.len) (hsoft : A * n ≤ soft.len)
    (h0 : ∀ t, t < n → mean.get t = 0) (he : A * n ≤ e.len) (hve : n ≤ ve.len) :
    ∃ ve', qrValue n A e ve = some ve' ∧ ∀ j, j < n → ∃ F : ℝ → ℝ,
        (∀ t, Weighted n A a ⟨v.len, Function.update v.get j t⟩ mean add soft e (F t)) ∧
        HasDerivAt F (ve'.get j - ve.get j) (v.get j) := by
  obtain ⟨ve', ev, -, h⟩ := qrValue_eq n A e ve he hve
  refine ⟨ve', ev, fun j hj => ⟨_, fun t => (weighted_of n A a ⟨v.len, Function.update v.get j t⟩ mean add soft e
    ha hv hm hadd hsoft h0 _).2 rfl, ?_⟩⟩
  have hd : HasDerivAt (fun t => ∑ i ∈ range A, ∑ k ∈ range n, e.get (i * n + k) *
      logit n A a.get (Function.update v.get j t) i k)
      (∑ i ∈ range A, ∑ k ∈ range n, e.get (i * n + k) * if j = k then 1 else 0) (v.get j) := by
    refine HasDerivAt.fun_sum fun i _ => HasDerivAt.fun_sum fun k _ => ?_
    unfold logit
    exact (((Attention.upd_deriv v.get j k).add_const _).sub_const _).const_mul _
  refine hd.congr_deriv ?_
  rw [h j hj, add_sub_cancel_left]
  refine Finset.sum_congr rfl fun i _ => ?_
  simp [hj]

/-- Derivative of the error-weighted quantiles with respect to an advantage. -/
theorem adv_deriv (n A : Nat) (a v e : Nat → ℝ) (i k : Nat) (hi : i < A) (hk : k < n) :
    HasDerivAt (fun t => ∑ j ∈ range A, ∑ b ∈ range n, e (j * n + b) *
      logit n A (Function.update a (i * n + k) t) v j b)
      (∑ j ∈ range A, (if i = j then 1 - 1 / (A : ℝ) else -1 / (A : ℝ)) * e (j * n + k)) (a (i * n + k)) := by
  have hd : HasDerivAt (fun t => ∑ j ∈ range A, ∑ b ∈ range n, e (j * n + b) *
      logit n A (Function.update a (i * n + k) t) v j b)
      (∑ j ∈ range A, ∑ b ∈ range n, e (j * n + b) * ((if i * n + k = j * n + b then 1 else 0) -
        (∑ l ∈ range A, if i * n + k = l * n + b then (1 : ℝ) else 0) / A)) (a (i * n + k)) := by
    refine HasDerivAt.fun_sum fun j _ => HasDerivAt.fun_sum fun b _ => ?_
    unfold logit
    refine HasDerivAt.const_mul _ (HasDerivAt.sub ?_ ?_)
    · exact (Attention.upd_deriv a (i * n + k) (j * n + b)).const_add _
    · exact (HasDerivAt.fun_sum fun l _ => Attention.upd_deriv a (i * n + k) (l * n + b)).div_const _
  refine hd.congr_deriv (Finset.sum_congr rfl fun j _ => ?_)
  have hone : ∀ b, b < n → (∑ l ∈ range A, if i * n + k = l * n + b then (1 : ℝ) else 0) = if b = k then 1 else 0 := by
    intro b hb
    by_cases hbk : b = k
    · subst hbk
      rw [Finset.sum_eq_single i, if_pos rfl, if_pos rfl]
      · intro l _ hl
        exact if_neg fun he => hl (idx_inj hb hb he).1.symm
      · intro h'; exact absurd (Finset.mem_range.2 hi) h'
    · rw [if_neg hbk]
      exact Finset.sum_eq_zero fun l _ => if_neg fun he => hbk (idx_inj hk hb he).2.symm
  rw [Finset.sum_eq_single k]
  · rw [hone k hk, if_pos rfl]
    by_cases h : i = j
    · subst h; simp; ring
    · rw [if_neg h, if_neg (fun he => h (idx_inj hk hk he).1)]; ring
  · intro b hb hbk
    rw [hone b (Finset.mem_range.1 hb), if_neg hbk, if_neg (fun he => hbk (idx_inj hk (Finset.mem_range.1 hb) he).2.symm)]
    ring
  · intro h'; exact absurd (Finset.mem_range.2 hk) h'

/-- **C76, advantage stream (partial).** The advantage error is the gradient
when there are as many atoms as actions. The code divides by the number of
atoms where the head divides by the number of actions; see
`C76_advantage_refuted` for the other cases. -/
theorem C76_advantage_partial (n : Nat) (a v mean add soft e ae : Arr ℝ)
    (ha : n * n ≤ a.len) (hv : n ≤ v.len) (hm : n ≤ mean.len) (hadd : n * n ≤ add.len) (hsoft : n * n ≤ soft.len)
    (h0 : ∀ t, t < n → mean.get t = 0) (he : n * n ≤ e.len) (hae : n * n ≤ ae.len) :
    ∃ ae', qrAdvantage n n e ae = some ae' ∧ ∀ i, i < n → ∀ k, k < n → ∃ F : ℝ → ℝ,
        (∀ t, Weighted n n ⟨a.len, Function.update a.get (i * n + k) t⟩ v mean add soft e (F t)) ∧
        HasDerivAt F (ae'.get (i * n + k) - ae.get (i * n + k)) (a.get (i * n + k)) := by
  obtain ⟨ae', ev, -, h⟩ := qrAdvantage_eq n n e ae he hae
  refine ⟨ae', ev, fun i hi k hk => ⟨_, fun t => (weighted_of n n ⟨a.len, Function.update a.get (i * n + k) t⟩ v mean add soft e
    ha hv hm hadd hsoft h0 _).2 rfl, ?_⟩⟩
  refine (adv_deriv n n a.get v.get e.get i k hi hk).congr_deriv ?_
  rw [h i hi k hk, add_sub_cancel_left]

/-- **C76, advantage stream (refuted).** Whenever the numbers of actions and
atoms differ there is an upstream error for which the advantage error is not
the gradient. -/
theorem C76_advantage_refuted (n A : Nat) (hn : 0 < n) (hA : 0 < A) (hne : n ≠ A) (a v mean add soft ae : Arr ℝ)
    (ha : A * n ≤ a.len) (hv : n ≤ v.len) (hm : n ≤ mean.len) (hadd : A * n ≤ add.len) (hsoft : A * n ≤ soft.len)
    (h0 : ∀ t, t < n → mean.get t = 0) (hae : A * n ≤ ae.len) :
    ∃ e ae', e.len = A * n ∧ qrAdvantage n A e ae = some ae' ∧ ¬ ∃ F : ℝ → ℝ,
        (∀ t, Weighted n A ⟨a.len, Function.update a.get (0 * n + 0) t⟩ v mean add soft e (F t)) ∧
        HasDerivAt F (ae'.get (0 * n + 0) - ae.get (0 * n + 0)) (a.get (0 * n + 0)) := by
  obtain ⟨ae', ev, -, h⟩ := qrAdvantage_eq n A ⟨A * n, fun u => if u = 0 then 1 else 0⟩ ae (le_refl _) hae
  refine ⟨_, ae', rfl, ev, ?_⟩
  rintro ⟨F, hF, hd⟩
  have hF' : F = fun t => ∑ j ∈ range A, ∑ b ∈ range n, (fun u => if u = 0 then (1 : ℝ) else 0) (j * n + b) *
      logit n A (Function.update a.get (0 * n + 0) t) v.get j b := by
    funext t
    exact (weighted_of n A ⟨a.len, Function.update a.get (0 * n + 0) t⟩ v mean add soft
      ⟨A * n, fun u => if u = 0 then 1 else 0⟩ ha hv hm hadd hsoft h0 _).1 (hF t)
  rw [hF'] at hd
  have hu := hd.unique (adv_deriv n A a.get v.get (fun u => if u = 0 then (1 : ℝ) else 0) 0 0 hA hn)
  rw [h 0 hA 0 hn, add_sub_cancel_left] at hu
  have hs : ∀ c : ℝ, (∑ j ∈ range A, (if 0 = j then 1 - 1 / c else -1 / c) *
      (if j * n + 0 = 0 then (1 : ℝ) else 0)) = 1 - 1 / c := by
    intro c
    rw [Finset.sum_eq_single 0]
    · simp
    · intro j _ hj
      have : j * n + 0 ≠ 0 := by
        have := Nat.mul_pos (Nat.pos_of_ne_zero hj) hn; omega
      rw [if_neg this, mul_zero]
    · intro h'; exact absurd (Finset.mem_range.2 hA) h'
  dsimp only at hu
  rw [hs, hs] at hu
  have hn' : (n : ℝ) ≠ 0 := by exact_mod_cast hn.ne'
  have hA' : (A : ℝ) ≠ 0 := by exact_mod_cast hA.ne'
  have : (n : ℝ) = A := by
    field_simp at hu
    linarith
  exact hne (by exact_mod_cast this)

example : ∃ a v mean add soft ae : Arr ℝ, 2 * 3 ≤ a.len ∧ 3 ≤ v.len ∧ 3 ≤ mean.len ∧ 2 * 3 ≤ add.len ∧
    2 * 3 ≤ soft.len ∧ (∀ t, t < 3 → mean.get t = 0) ∧ 2 * 3 ≤ ae.len :=
  ⟨⟨6, fun k => k⟩, ⟨3, fun _ => 1⟩, ⟨3, fun _ => 0⟩, ⟨6, fun _ => 0⟩, ⟨6, fun _ => 0⟩, ⟨6, fun _ => 0⟩,
    by decide, by decide, by decide, by decide, by decide, fun _ _ => rfl, by decide⟩

end LLab.Quantile
