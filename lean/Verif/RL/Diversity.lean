import Verif.RL.Categorical
import Verif.Math.Softmax
import Mathlib.Analysis.Calculus.Deriv.Abs
import Mathlib.Analysis.Calculus.Deriv.Comp
import Mathlib.Analysis.SpecialFunctions.Log.Deriv
import Mathlib.Analysis.SpecialFunctions.Log.Basic
import Mathlib.Data.Finset.Lattice.Fold
import Mathlib.Topology.Order.OrderClosed

/-! The diversity losses of the dueling DQN: they push the policy of the network
away from another policy (`/repo/src/dueling_categorical_dqn.c` 1828-2115,
2262-2314; C150).

Real numbers instead of floats. The forward pass that fills `softmax_layer` is
modelled in `Dueling.lean` and `Quantile.lean`; here `soft` is its result. The
test `bool_is_real` (2122-2127) only replaces NaN, and no logarithm of a positive
real is NaN, so it is left out. A division by zero is a failure (`none`). -/

namespace LLab.Diversity

open Finset LLab.Softmax

/-! ### Model -/

/-- A calloc'ed array of `n` floats. -/
def zeros (n : Nat) : Arr ℝ := ⟨n, fun _ => 0⟩

/-- `compute_q_functions_qr_dqn` (`/repo/src/dueling_categorical_dqn.c` 1530-1540). -/
noncomputable def qFunctionsQr (n A : Nat) (soft q : Arr ℝ) : Option (Arr ℝ) :=
  loop A (fun i q => loop n (fun j (q : Arr ℝ) =>
    (soft.read (i * n + j)).bind fun p => q.addAt i (p / (n : ℝ))) q) q

/-- The last double loop of every categorical loss
(`/repo/src/dueling_categorical_dqn.c` 1878-1882, 1924-1928, 2020-2024, 2068-2072,
2185-2189). -/
noncomputable def spreadCat (n A : Nat) (d support error : Arr ℝ) : Option (Arr ℝ) :=
  loop A (fun i e => loop n (fun j (e : Arr ℝ) =>
    (d.read i).bind fun x => (support.read j).bind fun s => e.addAt (i * n + j) (x * s)) e) error

/-- The last double loop of every quantile loss
(`/repo/src/dueling_categorical_dqn.c` 1972-1976, 2303-2307). -/
noncomputable def spreadQr (n A : Nat) (d error : Arr ℝ) : Option (Arr ℝ) :=
  loop A (fun i e => loop n (fun j (e : Arr ℝ) =>
    (d.read i).bind fun x => e.addAt (i * n + j) (x / (n : ℝ))) e) error

/-- The loop over the actions of the L1 losses
(`/repo/src/dueling_categorical_dqn.c` 1909-1917, 1957-1965, 2005-2013). -/
noncomputable def l1Loop (A : Nat) (s s2 : Arr ℝ) (weight alpha : ℝ) : Option (ℝ × Arr ℝ) :=
  loop A (fun i (st : ℝ × Arr ℝ) =>
    (s.read i).bind fun a => (s2.read i).bind fun b =>
    (st.2.write i (if |a - b| = 0 then 0 else -alpha * weight * (a - b) / (2 * |a - b|))).bind fun e =>
    some (st.1 + |a - b| / 2, e)) (0, zeros A)

/-- The L1 losses between the q functions and the error of the q functions
(`/repo/src/dueling_categorical_dqn.c` 1900-1921, 1948-1969, 1996-2017): the three
functions share this text. -/
noncomputable def l1Core (A : Nat) (q g : Arr ℝ) (weight alpha clip : ℝ) : Option (ℝ × Arr ℝ) :=
  (softmax q (zeros A) A).bind fun s =>
  (softmax g (zeros A) A).bind fun s2 =>
  (l1Loop A s s2 weight alpha).bind fun st =>
  (derivativeSoftmax (zeros A) s st.2 A).bind fun d =>
  (if clip < 1 then Clip.clip d (-clip) clip A else some d).bind fun d =>
  some (st.1, d)

/-- `if(clip<0) clip = -clip;` of the `_opt` functions
(`/repo/src/dueling_categorical_dqn.c` 1941-1942, 1989-1990, 2037-2038, 2085-2086,
2266-2267). -/
noncomputable def fixClip (clip : ℝ) : ℝ := if clip < 0 then -clip else clip

/-- `compute_l1_dueling_categorical_dqn`
(`/repo/src/dueling_categorical_dqn.c` 1891-1935): the returned number and the
buffer `error`. -/
noncomputable def l1Plain (n A : Nat) (soft support q g error : Arr ℝ) (weight alpha clip : ℝ) :
    Option (ℝ × Arr ℝ) :=
  (Categorical.qFunctions n A soft support q).bind fun q =>
  (l1Core A q g weight alpha clip).bind fun st =>
  (spreadCat n A st.2 support error).bind fun e => some (st.1, e)

/-- `compute_l1_dueling_categorical_dqn_opt`
(`/repo/src/dueling_categorical_dqn.c` 1986-2032). -/
noncomputable def l1Opt (n A : Nat) (soft support q g error : Arr ℝ) (weight alpha clip : ℝ) :
    Option (ℝ × Arr ℝ) :=
  (Categorical.qFunctions n A soft support q).bind fun q =>
  (l1Core A q g weight alpha (fixClip clip)).bind fun st =>
  (spreadCat n A st.2 support error).bind fun e => some (st.1, e)

/-- `compute_l1_qr_dqn_opt` (`/repo/src/dueling_categorical_dqn.c` 1937-1984). -/
noncomputable def l1Qr (n A : Nat) (soft q g error : Arr ℝ) (weight alpha clip : ℝ) :
    Option (ℝ × Arr ℝ) :=
  (qFunctionsQr n A soft q).bind fun q =>
  (l1Core A q g weight alpha (fixClip clip)).bind fun st =>
  (spreadQr n A st.2 error).bind fun e => some (st.1, e)

/-- The search of the largest difference
(`/repo/src/dueling_categorical_dqn.c` 2053-2061, 2285-2293). -/
noncomputable def supLoop (A : Nat) (s g : Arr ℝ) : Option (ℝ × Nat) :=
  (s.read 0).bind fun a => (g.read 0).bind fun b =>
  loop (A - 1) (fun i (st : ℝ × Nat) =>
    (s.read (i + 1)).bind fun a => (g.read (i + 1)).bind fun b =>
    some (if |a - b| > st.1 then (|a - b|, i + 1) else st)) (|a - b|, 0)

/-- The L-infinity losses between the q functions and the error of the q functions
(`/repo/src/dueling_categorical_dqn.c` 2045-2065, 2273-2298): `g` is compared as it
is, `weight`, `alpha` and `clip` are not used. `0/0` is a failure. -/
noncomputable def supCore (A : Nat) (q g : Arr ℝ) : Option (ℝ × Arr ℝ) :=
  (softmax q (zeros A) A).bind fun s =>
  (supLoop A s g).bind fun mi =>
  (s.read mi.2).bind fun a => (g.read mi.2).bind fun b =>
  if mi.1 = 0 then none else
  ((zeros A).write mi.2 (-(a - b) / mi.1)).bind fun e =>
  (derivativeSoftmax (zeros A) s e A).bind fun d =>
  some (mi.1, d)

/-- `compute_l_infinite_dueling_categorical_dqn_opt`
(`/repo/src/dueling_categorical_dqn.c` 2034-2079). -/
noncomputable def supOpt (n A : Nat) (soft support q g error : Arr ℝ) (_weight _alpha _clip : ℝ) :
    Option (ℝ × Arr ℝ) :=
  (Categorical.qFunctions n A soft support q).bind fun q =>
  (supCore A q g).bind fun st =>
  (spreadCat n A st.2 support error).bind fun e => some (st.1, e)

/-- `compute_l_infinite_qr_dqn_opt` (`/repo/src/dueling_categorical_dqn.c` 2262-2314). -/
noncomputable def supQr (n A : Nat) (soft q g error : Arr ℝ) (_weight _alpha _clip : ℝ) :
    Option (ℝ × Arr ℝ) :=
  (qFunctionsQr n A soft q).bind fun q =>
  (supCore A q g).bind fun st =>
  (spreadQr n A st.2 error).bind fun e => some (st.1, e)

/-- `sum_over_input` (`/repo/src/math_functions.c` 75-83). -/
noncomputable def total (A : Nat) (s : Arr ℝ) : Option ℝ :=
  loop A (fun i t => (s.read i).bind fun x => some (t + x)) 0

/-- The logarithms and the returned divergence
(`/repo/src/dueling_categorical_dqn.c` 2114-2127): the state is `ret`, `log1`,
`log2`; `other_distr` is only read in the same round. -/
noncomputable def klLogs (A : Nat) (s s2 : Arr ℝ) (t1 t2 : ℝ) : Option (ℝ × Arr ℝ × Arr ℝ) :=
  loop A (fun i (st : ℝ × Arr ℝ × Arr ℝ) =>
    (s.read i).bind fun a => (s2.read i).bind fun b =>
    (st.2.2.write i (Real.log (b / t2))).bind fun l2 =>
    (st.2.1.write i (Real.log (a / t1))).bind fun l1 =>
    some (st.1 + a * (Real.log (a / t1) - Real.log (b / t2)), l1, l2)) (0, zeros A, zeros A)

/-- The double loop of the derivative
(`/repo/src/dueling_categorical_dqn.c` 2129-2140). -/
noncomputable def klError (A : Nat) (s l1 l2 : Arr ℝ) (t1 weight alpha : ℝ) : Option (Arr ℝ) :=
  loop A (fun i e => loop A (fun j (e : Arr ℝ) =>
    (s.read i).bind fun a => (s.read j).bind fun b =>
    if i = j then
      (l1.read i).bind fun x => (l2.read i).bind fun y =>
      e.addAt i (-((alpha * weight * (t1 - a) * b * (x - y + 1)) / (t1 * t1)))
    else
      (l1.read j).bind fun x => (l2.read j).bind fun y =>
      e.addAt i ((alpha * weight * a * b * (x - y + 1)) / (t1 * t1))) e) (zeros A)

/-- `compute_kl_dueling_categorical_dqn_opt`
(`/repo/src/dueling_categorical_dqn.c` 2081-2198; 2141-2173 is a comment). The sums
`t1`, `t2` are divisors, and a zero sum is a failure. -/
noncomputable def klOpt (n A : Nat) (soft support q g error : Arr ℝ) (weight alpha clip : ℝ) :
    Option (ℝ × Arr ℝ) :=
  (Categorical.qFunctions n A soft support q).bind fun q =>
  (softmax q (zeros A) A).bind fun s =>
  (softmax g (zeros A) A).bind fun s2 =>
  (total A s).bind fun t1 => (total A s2).bind fun t2 =>
  if t1 = 0 ∨ t2 = 0 then none else
  (klLogs A s s2 t1 t2).bind fun st =>
  (klError A s st.2.1 st.2.2 t1 weight alpha).bind fun d =>
  (Clip.clip d (-fixClip clip) (fixClip clip) A).bind fun d =>
  (spreadCat n A d support error).bind fun e => some (st.1, e)

/-- The maxima of `compute_kl_dueling_categorical_dqn`
(`/repo/src/dueling_categorical_dqn.c` 1838-1839, 1850-1855): `index` stays 0. -/
noncomputable def maxLoop (A : Nat) (q : Arr ℝ) : Option ℝ :=
  (q.read 0).bind fun a =>
  loop A (fun i (m : ℝ) => (q.read i).bind fun x => some (if m > x then m else x)) a

/-- The loop over the actions (`/repo/src/dueling_categorical_dqn.c` 1860-1869): the
state is `ret`, `other_distr`, `error`. -/
noncomputable def klLoop (A : Nat) (q g s : Arr ℝ) (m1 m2 weight alpha : ℝ) (index : Nat) :
    Option (ℝ × Arr ℝ × Arr ℝ) :=
  loop A (fun i (st : ℝ × Arr ℝ × Arr ℝ) =>
    (g.read i).bind fun y => (q.read i).bind fun x => (s.read i).bind fun a =>
    (st.2.1.write i (alpha * weight * (y - m2 - x + m1))).bind fun o =>
    (if i ≠ index then
      (st.2.2.write i (-alpha * weight * a)).bind fun e => e.addAt index (alpha * weight * a)
    else some st.2.2).bind fun e =>
    some (st.1 + -(y - m2 - x + m1) * a, o, e)) (0, zeros A, zeros A)

/-- `sum1D(a, b, b, n)` (`/repo/src/math_functions.c`). -/
noncomputable def sumInto (A : Nat) (a b : Arr ℝ) : Option (Arr ℝ) :=
  loop A (fun i (b : Arr ℝ) => (a.read i).bind fun x => (b.read i).bind fun y => b.write i (x + y)) b

/-- `compute_kl_dueling_categorical_dqn`
(`/repo/src/dueling_categorical_dqn.c` 1828-1888). -/
noncomputable def klPlain (n A : Nat) (soft support q g error : Arr ℝ) (weight alpha clip : ℝ) :
    Option (ℝ × Arr ℝ) :=
  (Categorical.qFunctions n A soft support q).bind fun q =>
  (softmax q (zeros A) A).bind fun s =>
  (maxLoop A q).bind fun m1 => (maxLoop A g).bind fun m2 =>
  (klLoop A q g s m1 m2 weight alpha 0).bind fun st =>
  (derivativeSoftmax (zeros A) s st.2.1 A).bind fun d =>
  (sumInto A d st.2.2).bind fun d =>
  (Clip.clip d (-clip) clip A).bind fun d =>
  (spreadCat n A d support error).bind fun e => some (st.1, e)

/-! ### Specification -/

/-- The value of action `i`: the row `i` of the table `p`, weighted with `z`. -/
noncomputable def qval (n : Nat) (z p : Nat → ℝ) (i : Nat) : ℝ := ∑ j ∈ range n, p (i * n + j) * z j

/-- The total variation distance of the policies of two value vectors. -/
noncomputable def tvDist (A : Nat) (g Q : Nat → ℝ) : ℝ := (∑ i ∈ range A, |smax A Q i - smax A g i|) / 2

/-- The Kullback-Leibler divergence of the policy of `Q` from the policy of `g`. -/
noncomputable def klDist (A : Nat) (g Q : Nat → ℝ) : ℝ :=
  ∑ i ∈ range A, smax A Q i * (Real.log (smax A Q i) - Real.log (smax A g i))

/-- The largest difference between the policy of `Q` and the vector `g`. -/
noncomputable def supDist (A : Nat) (g Q : Nat → ℝ) : ℝ := ⨆ i : Fin A, |smax A Q i - g i|

/-- The largest of `x 0, …, x (A-1)`. -/
noncomputable def top (A : Nat) (x : Nat → ℝ) : ℝ := ⨆ i : Fin A, x i

/-- `Σ policy_i (Q_i - max Q - g_i + max g)`, which the older loss takes for the divergence. -/
noncomputable def klApprox (A : Nat) (g Q : Nat → ℝ) : ℝ :=
  ∑ i ∈ range A, smax A Q i * (Q i - top A Q - g i + top A g)

/-- `G` is the gradient of `F` at `Q` in the coordinates below `A`. -/
def GradAt (A : Nat) (F : (Nat → ℝ) → ℝ) (Q G : Nat → ℝ) : Prop :=
  ∀ i, i < A → HasDerivAt (fun t => F (Function.update Q i t)) (G i) (Q i)

/-- The call added `G i * z j` to the error of output `(i, j)` and changed nothing else. -/
def Adds (n A : Nat) (z G : Nat → ℝ) (error e' : Arr ℝ) : Prop :=
  e'.len = error.len ∧
  (∀ i, i < A → ∀ j, j < n → e'.get (i * n + j) - error.get (i * n + j) = G i * z j) ∧
  ∀ k, A * n ≤ k → e'.get k = error.get k

/-- The buffers are large enough and `q_functions` has been cleared. -/
structure Ready (n A : Nat) (soft q g error : Arr ℝ) : Prop where
  pos : 0 < A
  lenSoft : A * n ≤ soft.len
  lenQ : A ≤ q.len
  lenG : A ≤ g.len
  lenError : A * n ≤ error.len
  clear : ∀ i, i < A → q.get i = 0

/-! ### Calculus -/

theorem smax_pos (A : Nat) (hA : 0 < A) (x : Nat → ℝ) (i : Nat) : 0 < smax A x i :=
  div_pos (Real.exp_pos _) (sum_exp_pos (range A) ⟨0, by simpa using hA⟩ x)

theorem smax_sum (A : Nat) (hA : 0 < A) (x : Nat → ℝ) : ∑ i ∈ range A, smax A x i = 1 := by
  simp only [smax]
  rw [← Finset.sum_div]
  exact div_self (sum_exp_pos (range A) ⟨0, by simpa using hA⟩ x).ne'

theorem smax_deriv (A : Nat) (x : Nat → ℝ) (j i : Nat) (hj : j < A) (hi : i < A) :
    HasDerivAt (fun t => smax A (Function.update x j t) i)
      (if i = j then smax A x i * (1 - smax A x j) else -(smax A x j * smax A x i)) (x j) := by
  have h := hasDerivAt_wsum (range A) (Pi.single i 1) x j (by simpa using hj)
  have e : (fun t => smax A (Function.update x j t) i) = fun t => ∑ k ∈ range A, (Pi.single i 1 : Nat → ℝ) k *
      (Real.exp (Function.update x j t k) / ∑ k ∈ range A, Real.exp (Function.update x j t k)) := by
    funext t
    rw [Finset.sum_eq_single i (fun b _ hb => by simp [hb]) (fun h => absurd (by simpa using hi) h)]
    simp [smax]
  rw [e]
  refine h.congr_deriv ?_
  rw [Finset.sum_eq_single i (fun b _ hb => by simp [hb]) (fun h => absurd (by simpa using hi) h)]
  simp [smax]

/-- A sum of functions of the policy. -/
theorem fsum_deriv (A : Nat) (x e : Nat → ℝ) (f : Nat → ℝ → ℝ) (j : Nat) (hj : j < A)
    (hf : ∀ i, i < A → HasDerivAt (f i) (e i) (smax A x i)) :
    HasDerivAt (fun t => ∑ i ∈ range A, f i (smax A (Function.update x j t) i))
      (∑ i ∈ range A, (if i = j then smax A x i * (1 - smax A x j) * e i else -(smax A x j * smax A x i * e i)))
      (x j) := by
  have h : ∀ i ∈ range A, HasDerivAt (fun t => f i (smax A (Function.update x j t) i))
      (e i * (if i = j then smax A x i * (1 - smax A x j) else -(smax A x j * smax A x i))) (x j) := by
    intro i hi
    have hi := Finset.mem_range.1 hi
    refine HasDerivAt.comp (x j) (h₂ := f i) ?_ (smax_deriv A x j i hj hi)
    rw [Function.update_eq_self]
    exact hf i hi
  refine (HasDerivAt.fun_sum h).congr_deriv (Finset.sum_congr rfl fun i _ => ?_)
  by_cases h : i = j
  · simp only [h, if_true]; ring
  · simp only [h, if_false]; ring

theorem abs_deriv {x : ℝ} (h : x ≠ 0) : HasDerivAt (fun t : ℝ => |t|) (x / |x|) x := by
  refine (hasDerivAt_abs h).congr_deriv ?_
  rcases lt_or_gt_of_ne h with h | h
  · rw [sign_neg h, abs_of_neg h, div_neg, div_self h.ne]; simp
  · rw [sign_pos h, abs_of_pos h, div_self h.ne']; simp

theorem table_index {n i i' j j' : Nat} (hj : j < n) (hj' : j' < n) (h : i' * n + j' = i * n + j) : i' = i ∧ j' = j := by
  have hn : 0 < n := by omega
  have h1 : (n * i' + j') / n = (n * i + j) / n := by rw [Nat.mul_comm n i', Nat.mul_comm n i, h]
  rw [Nat.mul_add_div hn, Nat.mul_add_div hn, Nat.div_eq_of_lt hj, Nat.div_eq_of_lt hj'] at h1
  have : i' = i := by omega
  subst this
  exact ⟨rfl, by omega⟩

/-- One cell of the table moves the value of its own action only. -/
theorem qval_update (n : Nat) (z p : Nat → ℝ) (i j : Nat) (hj : j < n) (t : ℝ) :
    qval n z (Function.update p (i * n + j) t) =
      Function.update (qval n z p) i (qval n z p i + (t - p (i * n + j)) * z j) := by
  funext i'
  by_cases h : i' = i
  · subst h
    rw [Function.update_self]
    unfold qval
    rw [← Finset.add_sum_erase _ _ (Finset.mem_range.2 hj), ← Finset.add_sum_erase (range n) (fun j => p (i' * n + j) * z j)
      (Finset.mem_range.2 hj), Function.update_self]
    rw [Finset.sum_congr rfl (g := fun k => p (i' * n + k) * z k)]
    · ring
    · intro k hk
      rw [Function.update_of_ne]
      intro e
      exact (Finset.mem_erase.1 hk).1 (by omega)
  · rw [Function.update_of_ne h]
    unfold qval
    refine Finset.sum_congr rfl fun k hk => ?_
    rw [Function.update_of_ne]
    intro e
    exact h (table_index hj (Finset.mem_range.1 hk) e).1

/-- From the derivative in a value to the derivative in a cell of its row. -/
theorem table_deriv (n : Nat) (z p : Nat → ℝ) (F : (Nat → ℝ) → ℝ) (i j : Nat) (hj : j < n) (G : ℝ)
    (h : HasDerivAt (fun t => F (Function.update (qval n z p) i t)) G (qval n z p i)) :
    HasDerivAt (fun t => F (qval n z (Function.update p (i * n + j) t))) (G * z j) (p (i * n + j)) := by
  simp only [qval_update n z p i j hj]
  have hl : HasDerivAt (fun t : ℝ => qval n z p i + (t - p (i * n + j)) * z j) (z j) (p (i * n + j)) := by
    have := (((hasDerivAt_id (p (i * n + j))).sub_const (p (i * n + j))).mul_const (z j)).const_add (qval n z p i)
    simpa using this
  refine HasDerivAt.comp (p (i * n + j)) (h₂ := fun t => F (Function.update (qval n z p) i t)) ?_ hl
  simpa using h

theorem tv_grad (A : Nat) (c : ℝ) (g Q : Nat → ℝ) (hne : ∀ i, i < A → smax A Q i ≠ smax A g i) :
    GradAt A (fun Q => -c * tvDist A g Q) Q (fun j => ∑ i ∈ range A,
      (if i = j then smax A Q i * (1 - smax A Q j) * (-c * (smax A Q i - smax A g i) / (2 * |smax A Q i - smax A g i|))
        else -(smax A Q j * smax A Q i * (-c * (smax A Q i - smax A g i) / (2 * |smax A Q i - smax A g i|))))) := by
  intro j hj
  have h := fsum_deriv A Q (fun i => -c * (smax A Q i - smax A g i) / (2 * |smax A Q i - smax A g i|))
    (fun i t => -c * (|t - smax A g i| / 2)) j hj (by
      intro i hi
      have h0 : smax A Q i - smax A g i ≠ 0 := sub_ne_zero.2 (hne i hi)
      have h1 : HasDerivAt (fun t : ℝ => |t - smax A g i|) ((smax A Q i - smax A g i) / |smax A Q i - smax A g i| * 1)
          (smax A Q i) :=
        HasDerivAt.comp (smax A Q i) (h₂ := fun t : ℝ => |t|) (abs_deriv h0) ((hasDerivAt_id _).sub_const _)
      refine ((h1.div_const 2).const_mul (-c)).congr_deriv ?_
      have : |smax A Q i - smax A g i| ≠ 0 := abs_ne_zero.2 h0
      field_simp)
  refine h.congr_of_eventuallyEq (Filter.Eventually.of_forall fun t => ?_)
  simp only [tvDist]
  rw [← Finset.mul_sum, Finset.sum_div]

theorem kl_grad (A : Nat) (hA : 0 < A) (c : ℝ) (g Q : Nat → ℝ) :
    GradAt A (fun Q => -c * klDist A g Q) Q (fun j => ∑ i ∈ range A,
      (if i = j then smax A Q i * (1 - smax A Q j) * (-c * (Real.log (smax A Q i) - Real.log (smax A g i) + 1))
        else -(smax A Q j * smax A Q i * (-c * (Real.log (smax A Q i) - Real.log (smax A g i) + 1))))) := by
  intro j hj
  have h := fsum_deriv A Q (fun i => -c * (Real.log (smax A Q i) - Real.log (smax A g i) + 1))
    (fun i t => -c * (t * (Real.log t - Real.log (smax A g i)))) j hj (by
      intro i hi
      have h0 := (smax_pos A hA Q i).ne'
      have h1 := ((hasDerivAt_id (smax A Q i)).mul ((Real.hasDerivAt_log h0).sub_const (Real.log (smax A g i)))).const_mul (-c)
      refine h1.congr_deriv ?_
      simp only [id]
      field_simp)
  refine h.congr_of_eventuallyEq (Filter.Eventually.of_forall fun t => ?_)
  simp only [klDist]
  rw [← Finset.mul_sum]

theorem sup_fin_eq (A m : Nat) (hm : m < A) (f : Nat → ℝ) (h : ∀ i, i < A → f i ≤ f m) : ⨆ i : Fin A, f i = f m := by
  have : Nonempty (Fin A) := ⟨⟨m, hm⟩⟩
  apply le_antisymm
  · exact ciSup_le fun i => h i i.2
  · exact le_ciSup (f := fun i : Fin A => f i) (Finite.bddAbove_range _) ⟨m, hm⟩

theorem sup_grad (A m : Nat) (hm : m < A) (g Q : Nat → ℝ) (h0 : smax A Q m ≠ g m)
    (hmax : ∀ i, i < A → i ≠ m → |smax A Q i - g i| < |smax A Q m - g m|) :
    GradAt A (fun Q => -supDist A g Q) Q (fun j =>
      if m = j then smax A Q m * (1 - smax A Q j) * (-(smax A Q m - g m) / |smax A Q m - g m|)
        else -(smax A Q j * smax A Q m * (-(smax A Q m - g m) / |smax A Q m - g m|))) := by
  intro j hj
  have hc : ∀ i, i < A → ContinuousAt (fun t => |smax A (Function.update Q j t) i - g i|) (Q j) := fun i hi =>
    ((smax_deriv A Q j i hj hi).continuousAt.sub continuousAt_const).abs
  have hev : ∀ᶠ t in nhds (Q j), ∀ i ∈ range A, |smax A (Function.update Q j t) i - g i| ≤
      |smax A (Function.update Q j t) m - g m| := by
    rw [Filter.eventually_all_finset]
    intro i hi
    have hi := Finset.mem_range.1 hi
    by_cases h : i = m
    · subst h; exact Filter.Eventually.of_forall fun t => le_refl _
    · have := (hc i hi).eventually_lt (hc m hm) (by simpa [Function.update_eq_self] using hmax i hi h)
      exact this.mono fun t ht => ht.le
  have h1 : HasDerivAt (fun t : ℝ => |t - g m|) ((smax A Q m - g m) / |smax A Q m - g m| * 1) (smax A Q m) :=
    HasDerivAt.comp (smax A Q m) (h₂ := fun t : ℝ => |t|) (abs_deriv (sub_ne_zero.2 h0)) ((hasDerivAt_id _).sub_const _)
  have h2 : HasDerivAt (fun t => -|smax A (Function.update Q j t) m - g m|)
      (-((smax A Q m - g m) / |smax A Q m - g m| * 1 *
        (if m = j then smax A Q m * (1 - smax A Q j) else -(smax A Q j * smax A Q m)))) (Q j) := by
    refine HasDerivAt.neg (HasDerivAt.comp (Q j) (h₂ := fun t : ℝ => |t - g m|) ?_ (smax_deriv A Q j m hj hm))
    rw [Function.update_eq_self]
    exact h1
  have h3 : HasDerivAt (fun t => -supDist A g (Function.update Q j t)) _ (Q j) :=
    h2.congr_of_eventuallyEq (hev.mono fun t ht => by
      show -supDist A g (Function.update Q j t) = _
      rw [supDist, sup_fin_eq A m hm (fun i => |smax A (Function.update Q j t) i - g i|)
        (fun i hi => ht i (Finset.mem_range.2 hi))])
  refine h3.congr_deriv ?_
  by_cases h : m = j
  · simp only [h, if_true]; ring
  · simp only [h, if_false]; ring

theorem approx_grad (A m : Nat) (hm : m < A) (c : ℝ) (g Q : Nat → ℝ)
    (hmax : ∀ i, i < A → i ≠ m → Q i < Q m) :
    GradAt A (fun Q => -c * klApprox A g Q) Q (fun j => (∑ i ∈ range A,
      (if i = j then smax A Q i * (1 - smax A Q j) * (c * (g i - top A g - Q i + top A Q))
        else -(smax A Q j * smax A Q i * (c * (g i - top A g - Q i + top A Q))))) +
      ((if j = m then c else 0) - c * smax A Q j)) := by
  intro j hj
  have htop : top A Q = Q m := sup_fin_eq A m hm Q fun i hi => by
    by_cases h : i = m
    · rw [h]
    · exact (hmax i hi h).le
  have hu : ∀ i, HasDerivAt (fun t => Function.update Q j t i) (if i = j then 1 else 0) (Q j) := by
    intro i
    by_cases h : i = j
    · subst h; simpa using hasDerivAt_id' (Q i)
    · simp only [h, if_false, Function.update_of_ne h]; exact hasDerivAt_const _ _
  have hev : ∀ᶠ t in nhds (Q j), ∀ i ∈ range A, Function.update Q j t i ≤ Function.update Q j t m := by
    rw [Filter.eventually_all_finset]
    intro i hi
    have hi := Finset.mem_range.1 hi
    by_cases h : i = m
    · subst h; exact Filter.Eventually.of_forall fun t => le_refl _
    · have := (hu i).continuousAt.eventually_lt (hu m).continuousAt (by simpa [Function.update_eq_self] using hmax i hi h)
      exact this.mono fun t ht => ht.le
  have h1 : HasDerivAt (fun t => ∑ i ∈ range A, smax A (Function.update Q j t) i *
      (-c * (Function.update Q j t i - Function.update Q j t m - g i + top A g)))
      (∑ i ∈ range A, ((if i = j then smax A Q i * (1 - smax A Q j) else -(smax A Q j * smax A Q i)) *
        (-c * (Q i - Q m - g i + top A g)) +
        smax A Q i * (-c * ((if i = j then 1 else 0) - (if m = j then 1 else 0))))) (Q j) := by
    refine HasDerivAt.fun_sum fun i hi => ?_
    have := (smax_deriv A Q j i hj (Finset.mem_range.1 hi)).mul
      (((((hu i).sub (hu m)).sub_const (g i)).add_const (top A g)).const_mul (-c))
    refine this.congr_deriv ?_
    simp only [Pi.sub_apply, Function.update_eq_self]
  have h2 : HasDerivAt (fun t => -c * klApprox A g (Function.update Q j t)) _ (Q j) :=
    h1.congr_of_eventuallyEq (hev.mono fun t ht => by
      show -c * klApprox A g (Function.update Q j t) = _
      rw [klApprox, Finset.mul_sum, show top A (Function.update Q j t) = Function.update Q j t m from
        sup_fin_eq A m hm _ (fun i hi => ht i (Finset.mem_range.2 hi))]
      refine Finset.sum_congr rfl fun i _ => ?_
      ring)
  refine h2.congr_deriv ?_
  have hA : 0 < A := by omega
  rw [Finset.sum_add_distrib]
  congr 1
  · refine Finset.sum_congr rfl fun i _ => ?_
    rw [htop]
    by_cases h : i = j
    · simp only [h, if_true]; ring
    · simp only [h, if_false]; ring
  · have e : ∀ i, smax A Q i * (-c * ((if i = j then 1 else 0) - (if m = j then 1 else 0))) =
        (if i = j then -c * smax A Q i else 0) + (if m = j then c else 0) * smax A Q i := by
      intro i
      by_cases h : i = j <;> by_cases h' : m = j <;> simp [h, h'] <;> ring
    rw [Finset.sum_congr rfl (fun i _ => e i), Finset.sum_add_distrib, ← Finset.mul_sum, smax_sum A hA,
      Finset.sum_ite_eq', if_pos (Finset.mem_range.2 hj)]
    by_cases h : m = j
    · subst h; simp; ring
    · simp [h, Ne.symm h]

/-! ### What the loops compute -/

theorem qFunctionsQr_eq (n A : Nat) (soft q : Arr ℝ) (hs : A * n ≤ soft.len) (hq : A ≤ q.len) :
    qFunctionsQr n A soft q = some ⟨q.len, fun a => q.get a +
      if a < A then ∑ j ∈ range n, soft.get (a * n + j) * (1 / (n : ℝ)) else 0⟩ := by
  have h := loop_add (n := A) (a := q)
    (f := fun i q => loop n (fun j (q : Arr ℝ) =>
      (soft.read (i * n + j)).bind fun p => q.addAt i (p / (n : ℝ))) q)
    (fun i a => if a = i then ∑ j ∈ range n, soft.get (i * n + j) * (1 / (n : ℝ)) else 0)
    (by
      intro i hi b hb
      have hrow : i * n + n ≤ A * n := by
        have := Nat.mul_le_mul_right n (show i + 1 ≤ A by omega)
        rw [Nat.add_mul] at this; omega
      refine (loop_add (n := n) (a := b) (fun j a => if a = i then soft.get (i * n + j) * (1 / (n : ℝ)) else 0) ?_).trans ?_
      · intro j hj b' hb'
        rw [Arr.read_eq (by omega), Option.bind_some, Arr.addAt_eq' _ (by omega), div_eq_mul_one_div]
      · refine congrArg some (Arr.ext' rfl fun a => ?_)
        dsimp only
        by_cases h : a = i
        · simp [h]
        · simp [h])
  refine h.trans (congrArg some (Arr.ext' rfl fun a => ?_))
  dsimp only
  rw [Finset.sum_ite_eq]
  simp only [Finset.mem_range]

/-- Adding `d i * z j` to every cell `(i, j)`. -/
theorem spread_of (n A : Nat) (d : Arr ℝ) (z : Nat → ℝ) (error : Arr ℝ) (he : A * n ≤ error.len)
    (f : Nat → Nat → Arr ℝ → Option (Arr ℝ))
    (hf : ∀ i, i < A → ∀ j, j < n → ∀ e : Arr ℝ, f i j e = e.addAt (i * n + j) (d.get i * z j)) :
    ∃ e', loop A (fun i e => loop n (fun j e => f i j e) e) error = some e' ∧ e'.len = error.len ∧
      (∀ i, i < A → ∀ j, j < n → e'.get (i * n + j) = error.get (i * n + j) + d.get i * z j) ∧
      ∀ k, A * n ≤ k → e'.get k = error.get k := by
  have hlt : ∀ i, i < A → ∀ j, j < n → i * n + j < A * n := by
    intro i hi j hj
    have := Nat.mul_le_mul_right n (show i + 1 ≤ A by omega)
    rw [Nat.add_mul] at this; omega
  have h := loop_add (n := A) (a := error) (f := fun i e => loop n (fun j e => f i j e) e)
    (fun i k => ∑ j ∈ range n, if k = i * n + j then d.get i * z j else 0)
    (by
      intro i hi b hb
      refine loop_add (n := n) (a := b) (fun j k => if k = i * n + j then d.get i * z j else 0) ?_
      intro j hj b' hb'
      have := hlt i hi j hj
      rw [hf i hi j hj, Arr.addAt_eq' _ (by omega)])
  refine ⟨_, h, rfl, ?_, ?_⟩
  · intro i hi j hj
    dsimp only
    rw [Finset.sum_eq_single i, Finset.sum_eq_single j, if_pos rfl]
    · intro b _ hb
      exact if_neg (by omega)
    · intro h; exact absurd (Finset.mem_range.2 hj) h
    · intro b hb hbi
      refine Finset.sum_eq_zero fun j' hj' => if_neg fun e => hbi ?_
      exact ((table_index (Finset.mem_range.1 hj') hj e).1).symm
    · intro h; exact absurd (Finset.mem_range.2 hi) h
  · intro k hk
    dsimp only
    rw [Finset.sum_eq_zero, add_zero]
    intro i hi
    refine Finset.sum_eq_zero fun j hj => if_neg fun e => ?_
    have := hlt i (Finset.mem_range.1 hi) j (Finset.mem_range.1 hj)
    omega

theorem spreadCat_of (n A : Nat) (d support error : Arr ℝ) (hd : A ≤ d.len) (hsup : n ≤ support.len)
    (he : A * n ≤ error.len) :
    ∃ e', spreadCat n A d support error = some e' ∧ e'.len = error.len ∧
      (∀ i, i < A → ∀ j, j < n → e'.get (i * n + j) = error.get (i * n + j) + d.get i * support.get j) ∧
      ∀ k, A * n ≤ k → e'.get k = error.get k :=
  spread_of n A d support.get error he _ fun i hi j hj e => by
    rw [Arr.read_eq (by omega), Option.bind_some, Arr.read_eq (by omega), Option.bind_some]

theorem spreadQr_of (n A : Nat) (d error : Arr ℝ) (hd : A ≤ d.len) (he : A * n ≤ error.len) :
    ∃ e', spreadQr n A d error = some e' ∧ e'.len = error.len ∧
      (∀ i, i < A → ∀ j, j < n → e'.get (i * n + j) = error.get (i * n + j) + d.get i * (1 / (n : ℝ))) ∧
      ∀ k, A * n ≤ k → e'.get k = error.get k :=
  spread_of n A d (fun _ => 1 / (n : ℝ)) error he _ fun i hi j hj e => by
    rw [Arr.read_eq (by omega), Option.bind_some, div_eq_mul_one_div]

/-- A loop that adds to a number and fills an array. -/
theorem loop_pair (A : Nat) (v w : Nat → ℝ) (f : Nat → ℝ × Arr ℝ → Option (ℝ × Arr ℝ))
    (h : ∀ i, i < A → ∀ r (b : Arr ℝ), b.len = A → f i (r, b) = some (r + v i, ⟨A, Function.update b.get i (w i)⟩)) :
    loop A f (0, zeros A) = some (∑ i ∈ range A, v i, ⟨A, fun k => if k < A then w k else 0⟩) := by
  have key : ∀ m, m ≤ A → loop m f (0, zeros A) =
      some (∑ i ∈ range m, v i, ⟨A, fun k => if k < m then w k else 0⟩) := by
    intro m
    induction m with
    | zero => intro _; simp [loop, zeros]
    | succ m ih =>
      intro hm
      simp only [loop]
      rw [ih (by omega)]
      simp only [Option.bind_eq_bind, Option.bind_some]
      rw [h m (by omega) _ _ rfl, Finset.sum_range_succ]
      refine congrArg (fun x => some (_, x)) (Arr.ext' rfl fun k => ?_)
      dsimp only
      by_cases hk : k = m
      · subst hk; simp
      · rw [Function.update_of_ne hk]
        by_cases hk' : k < m
        · rw [if_pos hk', if_pos (by omega)]
        · rw [if_neg hk', if_neg (by omega)]
  exact key A (le_refl _)

/-- The derivative of the policy, applied to `e`. -/
noncomputable def back (A : Nat) (Q e : Nat → ℝ) (j : Nat) : ℝ :=
  ∑ i ∈ range A, (if i = j then smax A Q i * (1 - smax A Q j) * e i else -(smax A Q j * smax A Q i * e i))

theorem derivativeSoftmax_back (A : Nat) (s e : Arr ℝ) (Q : Nat → ℝ) (hs : A ≤ s.len) (he : A ≤ e.len)
    (h : ∀ i, i < A → s.get i = smax A Q i) :
    ∃ d, derivativeSoftmax (zeros A) s e A = some d ∧ d.len = A ∧ ∀ j, j < A → d.get j = back A Q e.get j := by
  refine ⟨_, derivativeSoftmax_eq (zeros A) s e A hs he (le_refl _), rfl, ?_⟩
  intro j hj
  simp only [zeros, zero_add]
  rw [Finset.sum_eq_single j]
  · unfold back
    refine Finset.sum_congr rfl fun i hi => ?_
    have hi := Finset.mem_range.1 hi
    simp only [if_true, h i hi, h j hj]
  · intro b _ hb
    exact Finset.sum_eq_zero fun i _ => if_neg (Ne.symm hb)
  · intro h; exact absurd (Finset.mem_range.2 hj) h

theorem back_congr (A : Nat) (Q e e' : Nat → ℝ) (h : ∀ i, i < A → e i = e' i) (j : Nat) : back A Q e j = back A Q e' j :=
  Finset.sum_congr rfl fun i hi => by rw [h i (Finset.mem_range.1 hi)]

theorem smax_congr (A : Nat) (x y : Nat → ℝ) (h : ∀ i, i < A → x i = y i) (i : Nat) (hi : i < A) : smax A x i = smax A y i := by
  unfold smax
  rw [h i hi, Finset.sum_congr rfl fun k hk => by rw [h k (Finset.mem_range.1 hk)]]

theorem softmax_zeros (A : Nat) (q : Arr ℝ) (hq : A ≤ q.len) (Q : Nat → ℝ) (hQ : ∀ i, i < A → q.get i = Q i) :
    ∃ s, softmax q (zeros A) A = some s ∧ s.len = A ∧ ∀ i, i < A → s.get i = smax A Q i :=
  ⟨_, softmax_eq q (zeros A) A hq (le_refl _), rfl, fun i hi => (if_pos hi).trans (smax_congr A _ _ hQ i hi)⟩

/-- The L1 core: the distance and the error of every value, before clipping. -/
noncomputable def l1Err (A : Nat) (Q g : Nat → ℝ) (c : ℝ) (i : Nat) : ℝ :=
  if smax A Q i = smax A g i then 0 else -c * (smax A Q i - smax A g i) / (2 * |smax A Q i - smax A g i|)

theorem l1Core_of (A : Nat) (q g : Arr ℝ) (Q : Nat → ℝ) (hQ : ∀ i, i < A → q.get i = Q i) (hq : A ≤ q.len) (hg : A ≤ g.len) (weight alpha clip : ℝ) (hc : 0 ≤ clip) :
    ∃ d, l1Core A q g weight alpha clip = some (tvDist A g.get Q, d) ∧ A ≤ d.len ∧
      ∀ j, j < A → d.get j =
        if clip < 1 then Clip.nearest (-clip) clip (back A Q (l1Err A Q g.get (alpha * weight)) j)
        else back A Q (l1Err A Q g.get (alpha * weight)) j := by
  obtain ⟨s, es, hsl, hs⟩ := softmax_zeros A q hq Q hQ
  obtain ⟨s2, es2, hsl2, hs2⟩ := softmax_zeros A g hg g.get (fun _ _ => rfl)
  have el : l1Loop A s s2 weight alpha = some (∑ i ∈ range A, |smax A Q i - smax A g.get i| / 2,
      ⟨A, fun k => if k < A then l1Err A Q g.get (alpha * weight) k else 0⟩) := by
    refine loop_pair A _ _ _ ?_
    intro i hi r b hb
    rw [Arr.read_eq (by omega), Option.bind_some, Arr.read_eq (by omega), Option.bind_some,
      Arr.write_eq _ (by dsimp only; omega), Option.bind_some, hs i hi, hs2 i hi]
    unfold l1Err
    simp only [abs_eq_zero, sub_eq_zero, hb, neg_mul]
  obtain ⟨d, ed, hdl, hd⟩ := derivativeSoftmax_back A s
    ⟨A, fun k => if k < A then l1Err A Q g.get (alpha * weight) k else 0⟩ Q (by omega) (le_refl _) hs
  have hd' : ∀ j, j < A → d.get j = back A Q (l1Err A Q g.get (alpha * weight)) j := fun j hj =>
    (hd j hj).trans (back_congr A _ _ _ (fun i hi => if_pos hi) j)
  have et : ∑ i ∈ range A, |smax A Q i - smax A g.get i| / 2 = tvDist A g.get Q := by
    rw [tvDist, Finset.sum_div]
  unfold l1Core
  rw [es, Option.bind_some, es2, Option.bind_some, el, Option.bind_some, ed, Option.bind_some, et]
  by_cases h : clip < 1
  · rw [if_pos h, Clip.clip_eq d (-clip) clip A (by linarith) (by omega), Option.bind_some]
    refine ⟨_, rfl, by dsimp only; omega, fun j hj => ?_⟩
    dsimp only
    rw [if_pos hj, if_pos h, hd' j hj]
  · rw [if_neg h, Option.bind_some]
    exact ⟨d, rfl, by omega, fun j hj => by rw [if_neg h, hd' j hj]⟩

theorem fixClip_nonneg (c : ℝ) : 0 ≤ fixClip c := by
  unfold fixClip
  split_ifs with h
  · linarith
  · linarith

theorem fixClip_eq (c : ℝ) : fixClip c = |c| := by
  unfold fixClip
  split_ifs with h
  · rw [abs_of_neg h]
  · rw [abs_of_nonneg (by linarith)]

theorem supLoop_of (A : Nat) (hA : 0 < A) (s g : Arr ℝ) (hs : A ≤ s.len) (hg : A ≤ g.len) :
    ∃ m, m < A ∧ supLoop A s g = some (|s.get m - g.get m|, m) ∧
      ∀ i, i < A → |s.get i - g.get i| ≤ |s.get m - g.get m| := by
  obtain ⟨st, e, h1, h2, h3⟩ := loop_inv (n := A - 1) (s := (|s.get 0 - g.get 0|, 0))
    (f := fun i (st : ℝ × Nat) =>
      (s.read (i + 1)).bind fun a => (g.read (i + 1)).bind fun b =>
      some (if |a - b| > st.1 then (|a - b|, i + 1) else st))
    (fun i st => st.2 < A ∧ st.1 = |s.get st.2 - g.get st.2| ∧ ∀ k, k ≤ i → |s.get k - g.get k| ≤ st.1)
    ⟨hA, rfl, fun k hk => by rw [Nat.le_zero.1 hk]⟩
    (by
      intro i hi st ⟨h1, h2, h3⟩
      refine ⟨_, by rw [Arr.read_eq (by omega), Option.bind_some, Arr.read_eq (by omega), Option.bind_some], ?_⟩
      by_cases h : |s.get (i + 1) - g.get (i + 1)| > st.1
      · rw [if_pos h]
        refine ⟨by dsimp only; omega, rfl, fun k hk => ?_⟩
        rcases Nat.lt_or_ge i k with hk' | hk'
        · rw [show k = i + 1 by omega]
        · exact (h3 k hk').trans h.le
      · rw [if_neg h]
        refine ⟨h1, h2, fun k hk => ?_⟩
        rcases Nat.lt_or_ge i k with hk' | hk'
        · rw [show k = i + 1 by omega]; exact not_lt.1 h
        · exact h3 k hk')
  obtain ⟨v, m⟩ := st
  dsimp only at h1 h2 h3
  subst h2
  refine ⟨m, h1, ?_, fun i hi => h3 i (by omega)⟩
  unfold supLoop
  rw [Arr.read_eq (by omega), Option.bind_some, Arr.read_eq (by omega), Option.bind_some]
  exact e

/-- The vector with one entry. -/
noncomputable def oneHot (m : Nat) (v : ℝ) (i : Nat) : ℝ := if i = m then v else 0

theorem back_oneHot (A m : Nat) (hm : m < A) (Q : Nat → ℝ) (v : ℝ) (j : Nat) : back A Q (oneHot m v) j =
    if m = j then smax A Q m * (1 - smax A Q j) * v else -(smax A Q j * smax A Q m * v) := by
  unfold back
  rw [Finset.sum_eq_single m]
  · simp [oneHot]
  · intro b _ hb
    simp [oneHot, hb]
  · intro h; exact absurd (Finset.mem_range.2 hm) h

theorem supCore_of (A : Nat) (hA : 0 < A) (q g : Arr ℝ) (Q : Nat → ℝ) (hQ : ∀ i, i < A → q.get i = Q i)
    (hq : A ≤ q.len) (hg : A ≤ g.len) (hne : ∃ i, i < A ∧ smax A Q i ≠ g.get i) :
    ∃ m d, m < A ∧ (∀ i, i < A → |smax A Q i - g.get i| ≤ |smax A Q m - g.get m|) ∧
      supCore A q g = some (supDist A g.get Q, d) ∧ A ≤ d.len ∧
      ∀ j, j < A → d.get j = back A Q (oneHot m (-(smax A Q m - g.get m) / |smax A Q m - g.get m|)) j := by
  obtain ⟨s, es, hsl, hs⟩ := softmax_zeros A q hq Q hQ
  obtain ⟨m, hm, el, hmax⟩ := supLoop_of A hA s g (by omega) hg
  have hmax' : ∀ i, i < A → |smax A Q i - g.get i| ≤ |smax A Q m - g.get m| := by
    intro i hi
    rw [← hs i hi, ← hs m hm]
    exact hmax i hi
  obtain ⟨d, ed, hdl, hd⟩ := derivativeSoftmax_back A s
    ⟨A, Function.update (zeros A).get m (-(smax A Q m - g.get m) / |smax A Q m - g.get m|)⟩ Q (by omega) (le_refl _) hs
  refine ⟨m, d, hm, hmax', ?_, by omega, fun j hj => (hd j hj).trans (back_congr A _ _ _ (fun i _ => ?_) j)⟩
  · unfold supCore
    have h0 : |smax A Q m - g.get m| ≠ 0 := by
      obtain ⟨i, hi, hi'⟩ := hne
      have := hmax' i hi
      have := abs_pos.2 (sub_ne_zero.2 hi')
      intro h
      linarith
    rw [es, Option.bind_some, el, Option.bind_some, Arr.read_eq (by dsimp only; omega), Option.bind_some,
      Arr.read_eq (by dsimp only; omega), Option.bind_some]
    simp only [hs m hm]
    rw [if_neg h0, Arr.write_eq _ (by simpa [zeros] using hm), Option.bind_some]
    refine (bind_some_of ed).trans ?_
    rw [supDist, sup_fin_eq A m hm (fun i => |smax A Q i - g.get i|) hmax']
  · dsimp only
    by_cases h : i = m
    · subst h; simp [oneHot]
    · simp [oneHot, h, zeros]

theorem supCore_equal (A : Nat) (hA : 0 < A) (q g : Arr ℝ) (Q : Nat → ℝ) (hQ : ∀ i, i < A → q.get i = Q i)
    (hq : A ≤ q.len) (hg : A ≤ g.len) (heq : ∀ i, i < A → smax A Q i = g.get i) : supCore A q g = none := by
  obtain ⟨s, es, hsl, hs⟩ := softmax_zeros A q hq Q hQ
  obtain ⟨m, hm, el, hmax⟩ := supLoop_of A hA s g (by omega) hg
  unfold supCore
  rw [es, Option.bind_some, el, Option.bind_some, Arr.read_eq (by dsimp only; omega), Option.bind_some,
      Arr.read_eq (by dsimp only; omega), Option.bind_some]
  simp only [hs m hm, heq m hm]
  rw [if_pos (by simp)]

theorem total_of (A : Nat) (hA : 0 < A) (s : Arr ℝ) (Q : Nat → ℝ) (hs : A ≤ s.len) (h : ∀ i, i < A → s.get i = smax A Q i) :
    total A s = some 1 := by
  unfold total
  rw [loop_sum (fun i => smax A Q i) (fun i hi t => by
    rw [Arr.read_eq (by omega), Option.bind_some, h i hi]), zero_add, smax_sum A hA]

theorem klLogs_of (A : Nat) (s s2 : Arr ℝ) (Q g : Nat → ℝ) (hsl : A ≤ s.len) (hsl2 : A ≤ s2.len)
    (hs : ∀ i, i < A → s.get i = smax A Q i) (hs2 : ∀ i, i < A → s2.get i = smax A g i) :
    ∃ l1 l2, klLogs A s s2 1 1 = some (klDist A g Q, l1, l2) ∧ l1.len = A ∧ l2.len = A ∧
      ∀ i, i < A → l1.get i = Real.log (smax A Q i) ∧ l2.get i = Real.log (smax A g i) := by
  obtain ⟨⟨r, l1, l2⟩, e, h1, h2, h3, h4⟩ := loop_inv (n := A) (s := ((0 : ℝ), zeros A, zeros A))
    (f := fun i (st : ℝ × Arr ℝ × Arr ℝ) =>
      (s.read i).bind fun a => (s2.read i).bind fun b =>
      (st.2.2.write i (Real.log (b / 1))).bind fun l2 =>
      (st.2.1.write i (Real.log (a / 1))).bind fun l1 =>
      some (st.1 + a * (Real.log (a / 1) - Real.log (b / 1)), l1, l2))
    (fun m st => st.1 = ∑ i ∈ range m, smax A Q i * (Real.log (smax A Q i) - Real.log (smax A g i)) ∧
      st.2.1.len = A ∧ st.2.2.len = A ∧
      ∀ i, i < m → st.2.1.get i = Real.log (smax A Q i) ∧ st.2.2.get i = Real.log (smax A g i))
    ⟨by simp, rfl, rfl, fun i hi => absurd hi (by omega)⟩
    (by
      intro i hi ⟨r, l1, l2⟩ ⟨h1, h2, h3, h4⟩
      dsimp only at h1 h2 h3 h4
      refine ⟨_, by
        rw [Arr.read_eq (by omega), Option.bind_some, Arr.read_eq (by omega), Option.bind_some,
          Arr.write_eq _ (by dsimp only; omega), Option.bind_some, Arr.write_eq _ (by dsimp only; omega), Option.bind_some],
        ?_, h2, h3, fun k hk => ?_⟩
      · dsimp only
        rw [Finset.sum_range_succ, h1, hs i hi, hs2 i hi, div_one, div_one]
      · dsimp only
        by_cases h : k = i
        · subst h
          rw [Function.update_self, Function.update_self, hs k hi, hs2 k hi, div_one, div_one]
          exact ⟨rfl, rfl⟩
        · rw [Function.update_of_ne h, Function.update_of_ne h]
          exact h4 k (by omega))
  dsimp only at h1 h2 h3 h4
  exact ⟨l1, l2, by rw [klDist, ← h1]; exact e, h2, h3, h4⟩

theorem klError_of (A : Nat) (s l1 l2 : Arr ℝ) (Q L : Nat → ℝ) (weight alpha : ℝ) (hsl : A ≤ s.len) (h1 : A ≤ l1.len)
    (h2 : A ≤ l2.len) (hs : ∀ i, i < A → s.get i = smax A Q i) (hL : ∀ i, i < A → l1.get i - l2.get i = L i) :
    ∃ d, klError A s l1 l2 1 weight alpha = some d ∧ d.len = A ∧
      ∀ j, j < A → d.get j = back A Q (fun i => -(alpha * weight) * (L i + 1)) j := by
  have h := loop_add (n := A) (a := zeros A)
    (f := fun i e => loop A (fun j (e : Arr ℝ) =>
      (s.read i).bind fun a => (s.read j).bind fun b =>
      if i = j then
        (l1.read i).bind fun x => (l2.read i).bind fun y =>
        e.addAt i (-((alpha * weight * (1 - a) * b * (x - y + 1)) / (1 * 1)))
      else
        (l1.read j).bind fun x => (l2.read j).bind fun y =>
        e.addAt i ((alpha * weight * a * b * (x - y + 1)) / (1 * 1))) e)
    (fun i k => if k = i then back A Q (fun i => -(alpha * weight) * (L i + 1)) i else 0)
    (by
      intro i hi b hb
      have hb : b.len = A := hb
      refine (loop_add (n := A) (a := b) (fun j k => if k = i then
        (if j = i then smax A Q j * (1 - smax A Q i) * (-(alpha * weight) * (L j + 1))
          else -(smax A Q i * smax A Q j * (-(alpha * weight) * (L j + 1)))) else 0) ?_).trans ?_
      · intro j hj b' hb'
        rw [Arr.read_eq (by omega), Option.bind_some, Arr.read_eq (by omega), Option.bind_some]
        by_cases h : i = j
        · subst h
          rw [if_pos rfl, Arr.read_eq (by omega), Option.bind_some, Arr.read_eq (by omega), Option.bind_some,
            Arr.addAt_eq' _ (by omega), hL i hi, hs i hi]
          refine congrArg some (Arr.ext' rfl fun k => ?_)
          dsimp only
          rw [if_pos rfl]
          congr 1
          by_cases hk : k = i
          · rw [if_pos hk, if_pos hk]; ring
          · rw [if_neg hk, if_neg hk]
        · rw [if_neg h, Arr.read_eq (by omega), Option.bind_some, Arr.read_eq (by omega), Option.bind_some,
            Arr.addAt_eq' _ (by omega), hL j hj, hs i hi, hs j hj]
          refine congrArg some (Arr.ext' rfl fun k => ?_)
          dsimp only
          rw [if_neg (Ne.symm h)]
          congr 1
          by_cases hk : k = i
          · rw [if_pos hk, if_pos hk]; ring
          · rw [if_neg hk, if_neg hk]
      · refine congrArg some (Arr.ext' rfl fun k => ?_)
        dsimp only
        by_cases hk : k = i
        · simp only [hk, if_true, back]
        · simp [hk])
  refine ⟨_, h, rfl, fun j hj => ?_⟩
  simp only [zeros, zero_add]
  rw [Finset.sum_ite_eq, if_pos (Finset.mem_range.2 hj)]

theorem maxLoop_of (A : Nat) (hA : 0 < A) (q : Arr ℝ) (hq : A ≤ q.len) : maxLoop A q = some (top A q.get) := by
  obtain ⟨v, e, ⟨m, h1, h2⟩, h3⟩ := loop_inv (n := A) (s := q.get 0)
    (f := fun i (m : ℝ) => (q.read i).bind fun x => some (if m > x then m else x))
    (fun i v => (∃ m, m < A ∧ v = q.get m) ∧ ∀ k, k < i → q.get k ≤ v)
    ⟨⟨0, hA, rfl⟩, fun k hk => absurd hk (by omega)⟩
    (by
      intro i hi v ⟨⟨m, hm, hv⟩, h⟩
      refine ⟨_, by rw [Arr.read_eq (by omega), Option.bind_some], ?_⟩
      by_cases hc : v > q.get i
      · rw [if_pos hc]
        refine ⟨⟨m, hm, hv⟩, fun k hk => ?_⟩
        rcases Nat.lt_or_ge k i with hk' | hk'
        · exact h k hk'
        · rw [show k = i by omega]; exact hc.le
      · rw [if_neg hc]
        refine ⟨⟨i, hi, rfl⟩, fun k hk => ?_⟩
        rcases Nat.lt_or_ge k i with hk' | hk'
        · exact (h k hk').trans (not_lt.1 hc)
        · rw [show k = i by omega])
  unfold maxLoop
  rw [Arr.read_eq (by omega), Option.bind_some, e, top, sup_fin_eq A m h1 q.get (fun i hi => h2 ▸ h3 i hi), h2]

theorem klLoop_of (A : Nat) (hA : 0 < A) (q g s : Arr ℝ) (Q : Nat → ℝ) (hQ : ∀ i, i < A → q.get i = Q i) (hq : A ≤ q.len)
    (hg : A ≤ g.len) (hsl : A ≤ s.len) (hs : ∀ i, i < A → s.get i = smax A Q i) (m1 m2 weight alpha : ℝ) :
    ∃ o e, klLoop A q g s m1 m2 weight alpha 0 =
        some (∑ i ∈ range A, smax A Q i * (Q i - m1 - g.get i + m2), o, e) ∧ o.len = A ∧ e.len = A ∧
      ∀ i, i < A → o.get i = alpha * weight * (g.get i - m2 - Q i + m1) ∧
        e.get i = (if i = 0 then alpha * weight else 0) - alpha * weight * smax A Q i := by
  obtain ⟨⟨r, o, e'⟩, e, h1, h2, h3, h4, h5⟩ := loop_inv (n := A) (s := ((0 : ℝ), zeros A, zeros A))
    (f := fun i (st : ℝ × Arr ℝ × Arr ℝ) =>
      (g.read i).bind fun y => (q.read i).bind fun x => (s.read i).bind fun a =>
      (st.2.1.write i (alpha * weight * (y - m2 - x + m1))).bind fun o =>
      (if i ≠ 0 then
        (st.2.2.write i (-alpha * weight * a)).bind fun e => e.addAt 0 (alpha * weight * a)
      else some st.2.2).bind fun e =>
      some (st.1 + -(y - m2 - x + m1) * a, o, e))
    (fun m st => st.1 = ∑ i ∈ range m, smax A Q i * (Q i - m1 - g.get i + m2) ∧
      st.2.1.len = A ∧ st.2.2.len = A ∧
      (∀ i, i < m → st.2.1.get i = alpha * weight * (g.get i - m2 - Q i + m1) ∧
        (i ≠ 0 → st.2.2.get i = -alpha * weight * smax A Q i)) ∧
      st.2.2.get 0 = ∑ i ∈ range m, if i = 0 then 0 else alpha * weight * smax A Q i)
    ⟨by simp, rfl, rfl, fun i hi => absurd hi (by omega), by simp [zeros]⟩
    (by
      intro i hi ⟨r, o, e⟩ ⟨h1, h2, h3, h4, h5⟩
      dsimp only at h1 h2 h3 h4 h5
      rw [Arr.read_eq (by omega), Option.bind_some, Arr.read_eq (by omega), Option.bind_some, Arr.read_eq (by omega),
        Option.bind_some, Arr.write_eq _ (by dsimp only; omega), Option.bind_some]
      have hr : ∑ k ∈ range (i + 1), smax A Q k * (Q k - m1 - g.get k + m2) =
          r + -(g.get i - m2 - q.get i + m1) * s.get i := by
        rw [Finset.sum_range_succ, h1, hQ i hi, hs i hi]; ring
      by_cases h0 : i = 0
      · rw [if_neg (not_not.2 h0), Option.bind_some]
        refine ⟨_, rfl, hr.symm, h2, h3, fun k hk => ?_, ?_⟩
        · have : k = i := by omega
          subst this
          dsimp only
          rw [Function.update_self, hQ k hi]
          exact ⟨rfl, fun h => absurd h0 h⟩
        · dsimp only
          rw [Finset.sum_range_succ, if_pos h0, add_zero, h5]
      · rw [if_pos h0, Arr.write_eq _ (by dsimp only; omega), Option.bind_some, Arr.addAt_eq _ (by dsimp only; omega),
          Option.bind_some]
        refine ⟨_, rfl, hr.symm, h2, h3, fun k hk => ?_, ?_⟩
        · dsimp only
          by_cases hki : k = i
          · subst hki
            rw [Function.update_self, hQ k hi]
            refine ⟨rfl, fun h => ?_⟩
            rw [Function.update_of_ne h, Function.update_self, hs k hi]
          · rw [Function.update_of_ne hki]
            refine ⟨(h4 k (by omega)).1, fun h => ?_⟩
            rw [Function.update_of_ne h, Function.update_of_ne hki]
            exact (h4 k (by omega)).2 h
        · dsimp only
          rw [Function.update_self, Function.update_of_ne (Ne.symm h0), h5, Finset.sum_range_succ, if_neg h0, hs i hi])
  dsimp only at h1 h2 h3 h4 h5
  refine ⟨o, e', by rw [← h1]; exact e, h2, h3, fun i hi => ⟨(h4 i hi).1, ?_⟩⟩
  by_cases h0 : i = 0
  · subst h0
    rw [if_pos rfl, h5]
    have := smax_sum A hA Q
    rw [← Finset.add_sum_erase _ _ (Finset.mem_range.2 hA)] at this
    rw [← Finset.add_sum_erase _ _ (Finset.mem_range.2 hA), if_pos rfl, zero_add,
      Finset.sum_congr rfl (g := fun i => alpha * weight * smax A Q i)
        (fun k hk => if_neg (Finset.mem_erase.1 hk).1), ← Finset.mul_sum, eq_sub_of_add_eq' this]
    ring
  · rw [if_neg h0, (h4 i hi).2 h0]; ring

theorem sumInto_of (A : Nat) (a b : Arr ℝ) (ha : A ≤ a.len) (hb : A ≤ b.len) :
    sumInto A a b = some ⟨b.len, fun k => if k < A then a.get k + b.get k else b.get k⟩ := by
  refine loop_fill (fun k => a.get k + b.get k) fun i hi c hc hk => ?_
  rw [Arr.read_eq (by omega), Option.bind_some, Arr.read_eq (by omega), Option.bind_some, Arr.write_eq _ (by omega),
    hk i (le_refl _)]

theorem clip_of (d : Arr ℝ) (c : ℝ) (hc : 0 ≤ c) (A : Nat) (hd : A ≤ d.len) :
    ∃ d', Clip.clip d (-c) c A = some d' ∧ A ≤ d'.len ∧ ∀ i, i < A → d'.get i = Clip.nearest (-c) c (d.get i) :=
  ⟨_, Clip.clip_eq d (-c) c A (by linarith) hd, hd, fun i hi => if_pos hi⟩

theorem adds_of {n A : Nat} {z : Nat → ℝ} {d error e' : Arr ℝ} {G : Nat → ℝ} (hl : e'.len = error.len)
    (h : ∀ i, i < A → ∀ j, j < n → e'.get (i * n + j) = error.get (i * n + j) + d.get i * z j)
    (ho : ∀ k, A * n ≤ k → e'.get k = error.get k) (hd : ∀ i, i < A → d.get i = G i) : Adds n A z G error e' :=
  ⟨hl, fun i hi j hj => by rw [h i hi j hj, hd i hi]; ring, ho⟩

theorem q_of {n A : Nat} {soft support q g error : Arr ℝ} (h : Ready n A soft q g error) (hsup : n ≤ support.len) :
    ∃ q', Categorical.qFunctions n A soft support q = some q' ∧ A ≤ q'.len ∧
      ∀ i, i < A → q'.get i = qval n support.get soft.get i :=
  ⟨_, Categorical.qFunctions_eq n A soft support q h.lenSoft hsup h.lenQ, h.lenQ, fun i hi => by
    dsimp only; rw [h.clear i hi, if_pos hi, zero_add, qval]⟩

theorem qQr_of {n A : Nat} {soft q g error : Arr ℝ} (h : Ready n A soft q g error) :
    ∃ q', qFunctionsQr n A soft q = some q' ∧ A ≤ q'.len ∧
      ∀ i, i < A → q'.get i = qval n (fun _ => 1 / (n : ℝ)) soft.get i :=
  ⟨_, qFunctionsQr_eq n A soft q h.lenSoft h.lenQ, h.lenQ, fun i hi => by
    dsimp only; rw [h.clear i hi, if_pos hi, zero_add, qval]⟩

theorem tv_bounds (A : Nat) (hA : 0 < A) (g Q : Nat → ℝ) : 0 ≤ tvDist A g Q ∧ tvDist A g Q ≤ 1 := by
  unfold tvDist
  have h0 : 0 ≤ ∑ i ∈ range A, |smax A Q i - smax A g i| := Finset.sum_nonneg fun i _ => abs_nonneg _
  have h1 : ∑ i ∈ range A, |smax A Q i - smax A g i| ≤ ∑ i ∈ range A, (smax A Q i + smax A g i) := by
    refine Finset.sum_le_sum fun i _ => ?_
    have a := smax_pos A hA Q i
    have b := smax_pos A hA g i
    rw [abs_le]
    constructor <;> linarith
  rw [Finset.sum_add_distrib, smax_sum A hA, smax_sum A hA] at h1
  constructor <;> linarith

theorem kl_nonneg (A : Nat) (hA : 0 < A) (g Q : Nat → ℝ) : 0 ≤ klDist A g Q := by
  have h : ∀ i ∈ range A, smax A Q i - smax A g i ≤ smax A Q i * (Real.log (smax A Q i) - Real.log (smax A g i)) := by
    intro i _
    have a := smax_pos A hA Q i
    have b := smax_pos A hA g i
    have := Real.log_le_sub_one_of_pos (div_pos b a)
    rw [Real.log_div b.ne' a.ne'] at this
    have h2 := mul_le_mul_of_nonneg_left this a.le
    have h3 : smax A Q i * (smax A g i / smax A Q i - 1) = smax A g i - smax A Q i := by
      field_simp
    rw [h3] at h2
    linarith [h2]
  have := Finset.sum_le_sum h
  rw [Finset.sum_sub_distrib, smax_sum A hA, smax_sum A hA] at this
  unfold klDist
  linarith

theorem l1_grad (A : Nat) (c : ℝ) (g Q : Nat → ℝ) (hne : ∀ i, i < A → smax A Q i ≠ smax A g i) :
    GradAt A (fun Q => -c * tvDist A g Q) Q (back A Q (l1Err A Q g c)) := by
  intro j hj
  refine (tv_grad A c g Q hne j hj).congr_deriv ?_
  unfold back
  refine Finset.sum_congr rfl fun i hi => ?_
  rw [l1Err, if_neg (hne i (Finset.mem_range.1 hi))]

theorem cells_of {n A : Nat} {z : Nat → ℝ} {p : Nat → ℝ} {F : (Nat → ℝ) → ℝ} {G : Nat → ℝ} {error e' : Arr ℝ}
    (hG : GradAt A F (qval n z p) G) (h : Adds n A z G error e') :
    ∀ i, i < A → ∀ j, j < n → HasDerivAt (fun t => F (qval n z (Function.update p (i * n + j) t)))
      (e'.get (i * n + j) - error.get (i * n + j)) (p (i * n + j)) := by
  intro i hi j hj
  rw [h.2.1 i hi j hj]
  exact table_deriv n z p F i j hj (G i) (hG i hi)

/-! ### C150 -/

/-- **C150, L1 loss of the categorical network.** It returns the total variation distance between the policy
of the network and the other policy, a number in `[0, 1]`. If no action has the same probability in both, the
error added to output `(i, j)` is the derivative of `-alpha*weight*distance` in the value of action `i`, limited to
`[-|clip|, |clip|]` when `|clip| < 1`, times the support `j`. -/
theorem C150_l1 (n A : Nat) (soft support q g error : Arr ℝ) (weight alpha clip : ℝ)
    (h : Ready n A soft q g error) (hsup : n ≤ support.len)
    (hne : ∀ i, i < A → smax A (qval n support.get soft.get) i ≠ smax A g.get i) :
    ∃ r e' G, l1Opt n A soft support q g error weight alpha clip = some (r, e') ∧
      r = tvDist A g.get (qval n support.get soft.get) ∧ 0 ≤ r ∧ r ≤ 1 ∧
      GradAt A (fun Q => -(alpha * weight) * tvDist A g.get Q) (qval n support.get soft.get) G ∧
      Adds n A support.get (fun i => if |clip| < 1 then Clip.nearest (-|clip|) |clip| (G i) else G i) error e' := by
  obtain ⟨q', eq, hql, hQ⟩ := q_of h hsup
  obtain ⟨d, ed, hdl, hd⟩ := l1Core_of A q' g (qval n support.get soft.get) hQ hql h.lenG weight alpha (fixClip clip) (fixClip_nonneg clip)
  obtain ⟨e', ee, h1, h2, h3⟩ := spreadCat_of n A d support error hdl hsup h.lenError
  rw [fixClip_eq] at hd
  refine ⟨_, e', _, ?_, rfl, (tv_bounds A h.pos _ _).1, (tv_bounds A h.pos _ _).2, l1_grad A _ _ _ hne, adds_of h1 h2 h3 hd⟩
  unfold l1Opt
  rw [eq, Option.bind_some, ed, Option.bind_some, ee, Option.bind_some]

/-- **C150, L1 loss of the quantile network.** The same with the mean of the quantiles as the value. -/
theorem C150_l1_qr (n A : Nat) (soft q g error : Arr ℝ) (weight alpha clip : ℝ)
    (h : Ready n A soft q g error)
    (hne : ∀ i, i < A → smax A (qval n (fun _ => 1 / (n : ℝ)) soft.get) i ≠ smax A g.get i) :
    ∃ r e' G, l1Qr n A soft q g error weight alpha clip = some (r, e') ∧
      r = tvDist A g.get (qval n (fun _ => 1 / (n : ℝ)) soft.get) ∧ 0 ≤ r ∧ r ≤ 1 ∧
      GradAt A (fun Q => -(alpha * weight) * tvDist A g.get Q) (qval n (fun _ => 1 / (n : ℝ)) soft.get) G ∧
      Adds n A (fun _ => 1 / (n : ℝ)) (fun i => if |clip| < 1 then Clip.nearest (-|clip|) |clip| (G i) else G i) error e' := by
  obtain ⟨q', eq, hql, hQ⟩ := qQr_of h
  obtain ⟨d, ed, hdl, hd⟩ := l1Core_of A q' g _ hQ hql h.lenG weight alpha (fixClip clip) (fixClip_nonneg clip)
  obtain ⟨e', ee, h1, h2, h3⟩ := spreadQr_of n A d error hdl h.lenError
  rw [fixClip_eq] at hd
  refine ⟨_, e', _, ?_, rfl, (tv_bounds A h.pos _ _).1, (tv_bounds A h.pos _ _).2, l1_grad A _ _ _ hne, adds_of h1 h2 h3 hd⟩
  unfold l1Qr
  rw [eq, Option.bind_some, ed, Option.bind_some, ee, Option.bind_some]

/-- **C150, L1 loss without limit.** With `|clip| ≥ 1` the error added to every output is the partial derivative of
`-alpha*weight*distance` in that output. -/
theorem C150_l1_cells (n A : Nat) (soft support q g error : Arr ℝ) (weight alpha clip : ℝ)
    (h : Ready n A soft q g error) (hsup : n ≤ support.len) (hclip : 1 ≤ |clip|)
    (hne : ∀ i, i < A → smax A (qval n support.get soft.get) i ≠ smax A g.get i) :
    ∃ r e', l1Opt n A soft support q g error weight alpha clip = some (r, e') ∧
      ∀ i, i < A → ∀ j, j < n → HasDerivAt
        (fun t => -(alpha * weight) * tvDist A g.get (qval n support.get (Function.update soft.get (i * n + j) t)))
        (e'.get (i * n + j) - error.get (i * n + j)) (soft.get (i * n + j)) := by
  obtain ⟨r, e', G, e, -, -, -, hG, hA⟩ := C150_l1 n A soft support q g error weight alpha clip h hsup hne
  simp only [not_lt.2 hclip, if_false] at hA
  exact ⟨r, e', e, cells_of (F := fun Q => -(alpha * weight) * tvDist A g.get Q) hG hA⟩

/-- **C150, L1 loss of equal policies.** If both policies are equal, it returns 0 and adds nothing. -/
theorem C150_l1_equal (n A : Nat) (soft support q g error : Arr ℝ) (weight alpha clip : ℝ)
    (h : Ready n A soft q g error) (hsup : n ≤ support.len)
    (heq : ∀ i, i < A → smax A (qval n support.get soft.get) i = smax A g.get i) :
    ∃ e', l1Opt n A soft support q g error weight alpha clip = some (0, e') ∧ e'.len = error.len ∧
      ∀ k, e'.get k = error.get k := by
  obtain ⟨q', eq, hql, hQ⟩ := q_of h hsup
  obtain ⟨d, ed, hdl, hd⟩ := l1Core_of A q' g (qval n support.get soft.get) hQ hql h.lenG weight alpha (fixClip clip) (fixClip_nonneg clip)
  obtain ⟨e', ee, h1, h2, h3⟩ := spreadCat_of n A d support error hdl hsup h.lenError
  have h0 : tvDist A g.get (qval n support.get soft.get) = 0 := by
    unfold tvDist
    rw [Finset.sum_eq_zero fun i hi => by rw [heq i (Finset.mem_range.1 hi), sub_self, abs_zero], zero_div]
  have hd0 : ∀ i, i < A → d.get i = 0 := by
    intro i hi
    have hb : back A (qval n support.get soft.get) (l1Err A (qval n support.get soft.get) g.get (alpha * weight)) i = 0 := by
      unfold back
      refine Finset.sum_eq_zero fun k hk => ?_
      rw [l1Err, if_pos (heq k (Finset.mem_range.1 hk))]
      simp
    have hc := fixClip_nonneg clip
    rw [hd i hi, hb]
    split_ifs
    · unfold Clip.nearest
      rw [min_eq_right hc, max_eq_right (by linarith)]
    · rfl
  refine ⟨e', ?_, h1, fun k => ?_⟩
  · unfold l1Opt
    rw [eq, Option.bind_some, ed, Option.bind_some, ee, Option.bind_some, h0]
  · rcases Nat.lt_or_ge k (A * n) with hk | hk
    · have hn : 0 < n := Nat.pos_of_ne_zero fun h => by simp [h] at hk
      have hi : k / n < A := (Nat.div_lt_iff_lt_mul hn).2 hk
      have := h2 (k / n) hi (k % n) (Nat.mod_lt _ hn)
      rw [Nat.div_add_mod' k n, hd0 _ hi, zero_mul, add_zero] at this
      exact this
    · exact h3 k hk

/-- **C150, the older L1 loss.** For `clip ≥ 0` it does the same as the newer one. -/
theorem C150_l1_plain_partial (n A : Nat) (soft support q g error : Arr ℝ) (weight alpha clip : ℝ) (hc : 0 ≤ clip) :
    l1Plain n A soft support q g error weight alpha clip = l1Opt n A soft support q g error weight alpha clip := by
  unfold l1Plain l1Opt fixClip
  rw [if_neg (not_lt.2 hc)]

/-- **C150, the older L1 loss with a negative limit (refuted).** It ends the program, while the newer one uses the
absolute value. -/
theorem C150_l1_plain_refuted (n A : Nat) (soft support q g error : Arr ℝ) (weight alpha clip : ℝ)
    (h : Ready n A soft q g error) (hsup : n ≤ support.len) (hc : clip < 0) :
    l1Plain n A soft support q g error weight alpha clip = none ∧
      ∃ x, l1Opt n A soft support q g error weight alpha clip = some x := by
  obtain ⟨q', eq, hql, hQ⟩ := q_of h hsup
  constructor
  · unfold l1Plain
    rw [eq, Option.bind_some]
    obtain ⟨s, es, hsl, hs⟩ := softmax_zeros A q' hql _ hQ
    obtain ⟨s2, es2, hsl2, hs2⟩ := softmax_zeros A g h.lenG g.get (fun _ _ => rfl)
    have : l1Core A q' g weight alpha clip = none := by
      unfold l1Core
      rw [es, Option.bind_some, es2, Option.bind_some]
      cases l1Loop A s s2 weight alpha with
      | none => rfl
      | some st =>
        rw [Option.bind_some]
        cases derivativeSoftmax (zeros A) s st.2 A with
        | none => rfl
        | some d =>
          rw [Option.bind_some, if_pos (by linarith), Clip.clip, if_pos (by linarith)]
          rfl
    rw [this]; rfl
  · obtain ⟨d, ed, hdl, hd⟩ := l1Core_of A q' g (qval n support.get soft.get) hQ hql h.lenG weight alpha (fixClip clip) (fixClip_nonneg clip)
    obtain ⟨e', ee, h1, h2, h3⟩ := spreadCat_of n A d support error hdl hsup h.lenError
    refine ⟨(tvDist A g.get (qval n support.get soft.get), e'), ?_⟩
    unfold l1Opt
    rw [eq, Option.bind_some, ed, Option.bind_some, ee, Option.bind_some]

/-- **C150, KL loss.** It returns the Kullback-Leibler divergence of the policy of the network from the other policy,
a number that is never negative. The error added to output `(i, j)` is the derivative of `-alpha*weight*divergence`
in the value of action `i`, limited to `[-|clip|, |clip|]`, times the support `j`. -/
theorem C150_kl (n A : Nat) (soft support q g error : Arr ℝ) (weight alpha clip : ℝ)
    (h : Ready n A soft q g error) (hsup : n ≤ support.len) :
    ∃ r e' G, klOpt n A soft support q g error weight alpha clip = some (r, e') ∧
      r = klDist A g.get (qval n support.get soft.get) ∧ 0 ≤ r ∧
      GradAt A (fun Q => -(alpha * weight) * klDist A g.get Q) (qval n support.get soft.get) G ∧
      Adds n A support.get (fun i => Clip.nearest (-|clip|) |clip| (G i)) error e' := by
  obtain ⟨q', eq, hql, hQ⟩ := q_of h hsup
  obtain ⟨s, es, hsl, hs⟩ := softmax_zeros A q' hql _ hQ
  obtain ⟨s2, es2, hsl2, hs2⟩ := softmax_zeros A g h.lenG g.get (fun _ _ => rfl)
  obtain ⟨l1, l2, el, hl1, hl2, hl⟩ := klLogs_of A s s2 (qval n support.get soft.get) g.get (by omega) (by omega) hs hs2
  obtain ⟨d, ed, hdl, hd⟩ := klError_of A s l1 l2 (qval n support.get soft.get)
    (fun i => Real.log (smax A (qval n support.get soft.get) i) - Real.log (smax A g.get i)) weight alpha (by omega)
    (by omega) (by omega) hs (fun i hi => by rw [(hl i hi).1, (hl i hi).2])
  obtain ⟨dc, ec, hcl, hcv⟩ := clip_of d (fixClip clip) (fixClip_nonneg clip) A (by omega)
  obtain ⟨e', ee, h1, h2, h3⟩ := spreadCat_of n A dc support error hcl hsup h.lenError
  refine ⟨_, e', _, ?_, rfl, kl_nonneg A h.pos _ _, kl_grad A h.pos _ _ _, adds_of h1 h2 h3 ?_⟩
  · unfold klOpt
    rw [eq, Option.bind_some, es, Option.bind_some, es2, Option.bind_some, total_of A h.pos s _ (by omega) hs,
      Option.bind_some, total_of A h.pos s2 g.get (by omega) hs2, Option.bind_some, if_neg (by norm_num), el,
      Option.bind_some, ed, Option.bind_some, ec, Option.bind_some]
    exact bind_some_of ee
  · intro i hi
    rw [hcv i hi, hd i hi, fixClip_eq]
    rfl

/-- **C150, L-infinity loss.** It returns the largest difference between the policy of the network and the given
vector. If one action alone has the largest difference, the error added to output `(i, j)` is the derivative of
`-distance` in the value of action `i` times the support `j`. Missing from the property: the factor
`alpha*weight` and the limit `clip`, which are not used. -/
theorem C150_sup_partial (n A m : Nat) (hm : m < A) (soft support q g error : Arr ℝ) (weight alpha clip : ℝ)
    (h : Ready n A soft q g error) (hsup : n ≤ support.len)
    (h0 : smax A (qval n support.get soft.get) m ≠ g.get m)
    (hmax : ∀ i, i < A → i ≠ m → |smax A (qval n support.get soft.get) i - g.get i| <
      |smax A (qval n support.get soft.get) m - g.get m|) :
    ∃ r e' G, supOpt n A soft support q g error weight alpha clip = some (r, e') ∧
      r = supDist A g.get (qval n support.get soft.get) ∧
      GradAt A (fun Q => -supDist A g.get Q) (qval n support.get soft.get) G ∧
      Adds n A support.get G error e' := by
  obtain ⟨q', eq, hql, hQ⟩ := q_of h hsup
  obtain ⟨m', d, hm', hmax', ed, hdl, hd⟩ := supCore_of A h.pos q' g (qval n support.get soft.get) hQ hql h.lenG ⟨m, hm, h0⟩
  have : m' = m := by
    by_contra hc
    exact absurd (hmax' m hm) (not_le.2 (hmax m' hm' hc))
  subst this
  obtain ⟨e', ee, h1, h2, h3⟩ := spreadCat_of n A d support error hdl hsup h.lenError
  refine ⟨_, e', _, ?_, rfl, sup_grad A m' hm g.get _ h0 hmax, adds_of h1 h2 h3 (fun i hi => ?_)⟩
  · unfold supOpt
    rw [eq, Option.bind_some, ed, Option.bind_some, ee, Option.bind_some]
  · rw [hd i hi, back_oneHot A m' hm]

/-- **C150, L-infinity loss of the quantile network.** The same with the mean of the quantiles as the value. -/
theorem C150_sup_qr_partial (n A m : Nat) (hm : m < A) (soft q g error : Arr ℝ) (weight alpha clip : ℝ)
    (h : Ready n A soft q g error)
    (h0 : smax A (qval n (fun _ => 1 / (n : ℝ)) soft.get) m ≠ g.get m)
    (hmax : ∀ i, i < A → i ≠ m → |smax A (qval n (fun _ => 1 / (n : ℝ)) soft.get) i - g.get i| <
      |smax A (qval n (fun _ => 1 / (n : ℝ)) soft.get) m - g.get m|) :
    ∃ r e' G, supQr n A soft q g error weight alpha clip = some (r, e') ∧
      r = supDist A g.get (qval n (fun _ => 1 / (n : ℝ)) soft.get) ∧
      GradAt A (fun Q => -supDist A g.get Q) (qval n (fun _ => 1 / (n : ℝ)) soft.get) G ∧
      Adds n A (fun _ => 1 / (n : ℝ)) G error e' := by
  obtain ⟨q', eq, hql, hQ⟩ := qQr_of h
  obtain ⟨m', d, hm', hmax', ed, hdl, hd⟩ := supCore_of A h.pos q' g _ hQ hql h.lenG ⟨m, hm, h0⟩
  have : m' = m := by
    by_contra hc
    exact absurd (hmax' m hm) (not_le.2 (hmax m' hm' hc))
  subst this
  obtain ⟨e', ee, h1, h2, h3⟩ := spreadQr_of n A d error hdl h.lenError
  refine ⟨_, e', _, ?_, rfl, sup_grad A m' hm g.get _ h0 hmax, adds_of h1 h2 h3 (fun i hi => ?_)⟩
  · unfold supQr
    rw [eq, Option.bind_some, ed, Option.bind_some, ee, Option.bind_some]
  · rw [hd i hi, back_oneHot A m' hm]

/-- **C150, L-infinity loss and `alpha` (refuted).** With `alpha = 0` the derivative of `-alpha*weight*distance` is 0
everywhere, but with at least two actions the error of the action with the largest difference is changed. -/
theorem C150_sup_refuted (n A m j : Nat) (hm : m < A) (hA : 2 ≤ A) (hj : j < n) (soft support q g error : Arr ℝ)
    (weight clip : ℝ) (h : Ready n A soft q g error) (hsup : n ≤ support.len) (hz : support.get j ≠ 0)
    (h0 : smax A (qval n support.get soft.get) m ≠ g.get m)
    (hmax : ∀ i, i < A → i ≠ m → |smax A (qval n support.get soft.get) i - g.get i| <
      |smax A (qval n support.get soft.get) m - g.get m|) :
    ∃ r e', supOpt n A soft support q g error weight 0 clip = some (r, e') ∧
      e'.get (m * n + j) ≠ error.get (m * n + j) := by
  obtain ⟨r, e', G, e, -, hG, hAd⟩ := C150_sup_partial n A m hm soft support q g error weight 0 clip h hsup h0 hmax
  refine ⟨r, e', e, fun hc => ?_⟩
  have h1 := hAd.2.1 m hm j hj
  rw [hc, sub_self] at h1
  have hg0 : G m = 0 := by
    rcases mul_eq_zero.1 h1.symm with h | h
    · exact h
    · exact absurd h hz
  have h2 := (hG m hm).unique (sup_grad A m hm g.get _ h0 hmax m hm)
  simp only [if_true] at h2
  set Q := qval n support.get soft.get
  have hp := smax_pos A h.pos Q m
  have hlt : smax A Q m < 1 := by
    have hs := smax_sum A h.pos Q
    obtain ⟨k, hk, hkm⟩ : ∃ k, k < A ∧ k ≠ m := by
      by_cases h : m = 0
      · exact ⟨1, by omega, by omega⟩
      · exact ⟨0, by omega, by omega⟩
    rw [← Finset.add_sum_erase _ _ (Finset.mem_range.2 hm)] at hs
    have : smax A Q k ≤ ∑ i ∈ (range A).erase m, smax A Q i :=
      Finset.single_le_sum (f := fun i => smax A Q i) (fun i _ => (smax_pos A h.pos Q i).le)
        (Finset.mem_erase.2 ⟨hkm, Finset.mem_range.2 hk⟩)
    have := smax_pos A h.pos Q k
    linarith
  rw [hg0] at h2
  have hd : smax A Q m - g.get m ≠ 0 := sub_ne_zero.2 h0
  rcases mul_eq_zero.1 h2.symm with h | h
  · rcases mul_eq_zero.1 h with h | h
    · linarith
    · linarith
  · rcases div_eq_zero_iff.1 h with h | h
    · exact hd (by linarith)
    · exact hd (abs_eq_zero.1 h)

/-- **C150, L-infinity loss of equal policies (refuted).** If the given vector is the policy of the network, the loss
divides zero by zero, in both networks. -/
theorem C150_sup_equal_refuted (n A : Nat) (soft support q g error : Arr ℝ) (weight alpha clip : ℝ)
    (h : Ready n A soft q g error) (hsup : n ≤ support.len) :
    ((∀ i, i < A → smax A (qval n support.get soft.get) i = g.get i) →
      supOpt n A soft support q g error weight alpha clip = none) ∧
    ((∀ i, i < A → smax A (qval n (fun _ => 1 / (n : ℝ)) soft.get) i = g.get i) →
      supQr n A soft q g error weight alpha clip = none) := by
  constructor
  · intro heq
    obtain ⟨q', eq, hql, hQ⟩ := q_of h hsup
    unfold supOpt
    rw [eq, Option.bind_some, supCore_equal A h.pos q' g _ hQ hql h.lenG heq]; rfl
  · intro heq
    obtain ⟨q', eq, hql, hQ⟩ := qQr_of h
    unfold supQr
    rw [eq, Option.bind_some, supCore_equal A h.pos q' g _ hQ hql h.lenG heq]; rfl

/-- **C150, the older KL loss.** It returns `klApprox` instead of the divergence. If action `m` alone has the largest
value, the error before the limit is the derivative of `-alpha*weight*klApprox`, plus `alpha*weight` for action 0 and
minus `alpha*weight` for action `m`: the gradient if `m = 0`. -/
theorem C150_kl_plain_partial (n A m : Nat) (hm : m < A) (soft support q g error : Arr ℝ) (weight alpha clip : ℝ)
    (hc : 0 ≤ clip) (h : Ready n A soft q g error) (hsup : n ≤ support.len)
    (hmax : ∀ i, i < A → i ≠ m → qval n support.get soft.get i < qval n support.get soft.get m) :
    ∃ r e' G, klPlain n A soft support q g error weight alpha clip = some (r, e') ∧
      r = klApprox A g.get (qval n support.get soft.get) ∧
      GradAt A (fun Q => -(alpha * weight) * klApprox A g.get Q) (qval n support.get soft.get) G ∧
      Adds n A support.get (fun i => Clip.nearest (-clip) clip
        (G i + ((if i = 0 then alpha * weight else 0) - (if i = m then alpha * weight else 0)))) error e' := by
  obtain ⟨q', eq, hql, hQ⟩ := q_of h hsup
  obtain ⟨s, es, hsl, hs⟩ := softmax_zeros A q' hql _ hQ
  have em1 := maxLoop_of A h.pos q' hql
  have em2 := maxLoop_of A h.pos g h.lenG
  have etop : top A q'.get = top A (qval n support.get soft.get) := by
    unfold top
    exact congrArg _ (funext fun i => hQ i i.2)
  obtain ⟨o, e, el, hol, hel, hoe⟩ := klLoop_of A h.pos q' g s (qval n support.get soft.get) hQ hql h.lenG (by omega) hs
    (top A q'.get) (top A g.get) weight alpha
  obtain ⟨d, ed, hdl, hd⟩ := derivativeSoftmax_back A s o (qval n support.get soft.get) (by omega) (by omega) hs
  have ei := sumInto_of A d e (by omega) (by omega)
  obtain ⟨dc, ec, hcl, hcv⟩ := clip_of ⟨e.len, fun k => if k < A then d.get k + e.get k else e.get k⟩ clip hc A
    (by dsimp only; omega)
  obtain ⟨e', ee, h1, h2, h3⟩ := spreadCat_of n A dc support error hcl hsup h.lenError
  refine ⟨klApprox A g.get (qval n support.get soft.get), e', _, ?_, rfl, approx_grad A m hm _ _ _ hmax,
    adds_of h1 h2 h3 ?_⟩
  · unfold klPlain
    rw [eq, Option.bind_some, es, Option.bind_some, em1, Option.bind_some, em2, Option.bind_some, el, Option.bind_some,
      ed, Option.bind_some, ei, Option.bind_some, ec, Option.bind_some]
    rw [klApprox, ← etop]
    exact bind_some_of ee
  · intro i hi
    rw [hcv i hi]
    dsimp only
    rw [if_pos hi, hd i hi, (hoe i hi).2]
    congr 1
    rw [back_congr A _ _ _ (fun k hk => (hoe k hk).1) i, back, etop]
    ring

/-- **C150, gradient of the older KL loss (refuted).** If an action other than 0 alone has the largest value, then the
error added to an output `(0, j)` with non-zero support is not the derivative of `-alpha*weight*klApprox` in that output,
whenever `alpha*weight` is not zero and the limit is large. -/
theorem C150_kl_plain_refuted (n A m j : Nat) (hm : m < A) (hm0 : m ≠ 0) (hj : j < n) (soft support q g error : Arr ℝ)
    (weight alpha : ℝ) (hw : alpha * weight ≠ 0) (h : Ready n A soft q g error) (hsup : n ≤ support.len)
    (hz : support.get j ≠ 0)
    (hmax : ∀ i, i < A → i ≠ m → qval n support.get soft.get i < qval n support.get soft.get m) :
    ∃ c, ∀ clip, c ≤ clip → ∃ r e', klPlain n A soft support q g error weight alpha clip = some (r, e') ∧
      ¬ HasDerivAt (fun t => -(alpha * weight) * klApprox A g.get (qval n support.get (Function.update soft.get (0 * n + j) t)))
        (e'.get (0 * n + j) - error.get (0 * n + j)) (soft.get (0 * n + j)) := by
  obtain ⟨G, hG⟩ : ∃ G, GradAt A (fun Q => -(alpha * weight) * klApprox A g.get Q) (qval n support.get soft.get) G :=
    ⟨_, approx_grad A m hm _ _ _ hmax⟩
  refine ⟨|G 0 + alpha * weight|, fun clip hc => ?_⟩
  obtain ⟨r, e', G', e, -, hG', hAd⟩ := C150_kl_plain_partial n A m hm soft support q g error weight alpha clip
    ((abs_nonneg _).trans hc) h hsup hmax
  refine ⟨r, e', e, fun hd => ?_⟩
  have hu := hd.unique (table_deriv n support.get soft.get (fun Q => -(alpha * weight) * klApprox A g.get Q) 0 j hj (G 0)
    (hG 0 h.pos))
  rw [hAd.2.1 0 h.pos j hj] at hu
  have hu := mul_right_cancel₀ hz hu
  dsimp only at hu
  rw [(hG' 0 h.pos).unique (hG 0 h.pos), if_pos rfl, if_neg (Ne.symm hm0), sub_zero] at hu
  unfold Clip.nearest at hu
  rw [abs_le] at hc
  rw [min_eq_right hc.2, max_eq_right hc.1] at hu
  exact hw (by linarith)

/-! ### A concrete network: two actions, two atoms on `[0, 1]` -/

/-- The distributions: values 3/4 and 1/4. -/
noncomputable def soft2 : Arr ℝ := ⟨4, fun k => if k = 0 ∨ k = 3 then 1 / 4 else 3 / 4⟩

/-- The support. -/
noncomputable def support2 : Arr ℝ := ⟨2, fun k => if k = 0 then 0 else 1⟩

theorem ready2 (g : Arr ℝ) (hg : 2 ≤ g.len) : Ready 2 2 soft2 (zeros 2) g (zeros 4) :=
  ⟨by norm_num, by simp [soft2], by simp [zeros], hg, by simp [zeros], fun _ _ => rfl⟩

theorem qval2 : qval 2 support2.get soft2.get 0 = 3 / 4 ∧ qval 2 support2.get soft2.get 1 = 1 / 4 := by
  simp [qval, support2, soft2, Finset.sum_range_succ]

theorem smax2 (x : Nat → ℝ) : smax 2 x 0 = Real.exp (x 0) / (Real.exp (x 0) + Real.exp (x 1)) ∧
    smax 2 x 1 = Real.exp (x 1) / (Real.exp (x 0) + Real.exp (x 1)) := by
  simp [smax, Finset.sum_range_succ]

theorem policy2 : 1 / 2 < smax 2 (qval 2 support2.get soft2.get) 0 ∧ smax 2 (qval 2 support2.get soft2.get) 1 < 1 / 2 := by
  have h : Real.exp (1 / 4) < Real.exp (3 / 4) := Real.exp_lt_exp.2 (by norm_num)
  have h0 := Real.exp_pos (1 / 4)
  rw [(smax2 _).1, (smax2 _).2, qval2.1, qval2.2]
  constructor
  · rw [lt_div_iff₀ (by linarith)]; linarith
  · rw [div_lt_iff₀ (by linarith)]; linarith

theorem zero2 (i : Nat) : smax 2 (zeros 2).get i = 1 / 2 := by
  simp [smax, zeros]

/-- The hypotheses of the L1 theorems. -/
example : Ready 2 2 soft2 (zeros 2) (zeros 2) (zeros 4) ∧ 2 ≤ support2.len ∧
    ∀ i, i < 2 → smax 2 (qval 2 support2.get soft2.get) i ≠ smax 2 (zeros 2).get i := by
  refine ⟨ready2 _ (le_refl _), le_refl _, fun i hi => ?_⟩
  rw [zero2]
  have := policy2
  interval_cases i
  · exact this.1.ne'
  · exact this.2.ne

/-- The hypotheses of the L-infinity theorems: the given vector is `(0, 1/2)`. -/
example : ∃ g : Arr ℝ, Ready 2 2 soft2 (zeros 2) g (zeros 4) ∧ support2.get 1 ≠ 0 ∧
    smax 2 (qval 2 support2.get soft2.get) 0 ≠ g.get 0 ∧
    ∀ i, i < 2 → i ≠ 0 → |smax 2 (qval 2 support2.get soft2.get) i - g.get i| <
      |smax 2 (qval 2 support2.get soft2.get) 0 - g.get 0| := by
  have h := policy2
  have hp := smax_pos 2 (by norm_num) (qval 2 support2.get soft2.get) 1
  refine ⟨⟨2, fun k => if k = 0 then 0 else 1 / 2⟩, ready2 _ (le_refl _), by simp [support2], ?_, fun i hi h0 => ?_⟩
  · simp only [if_true]; linarith
  · have : i = 1 := by omega
    subst this
    simp only [if_true, one_ne_zero, if_false, sub_zero]
    rw [abs_of_neg (by linarith), abs_of_pos (by linarith)]
    linarith

/-- The hypothesis of the older KL loss, with the greatest value at action 0. -/
example : ∀ i, i < 2 → i ≠ 0 → qval 2 support2.get soft2.get i < qval 2 support2.get soft2.get 0 := by
  intro i hi h0
  have : i = 1 := by omega
  subst this
  rw [qval2.1, qval2.2]; norm_num

/-- The hypothesis of the refutation: greatest value at action 1. -/
example : ∃ soft : Arr ℝ, Ready 2 2 soft (zeros 2) (zeros 2) (zeros 4) ∧
    ∀ i, i < 2 → i ≠ 1 → qval 2 support2.get soft.get i < qval 2 support2.get soft.get 1 := by
  refine ⟨⟨4, fun k => if k = 1 then 1 / 4 else if k = 3 then 3 / 4 else 1 / 2⟩,
    ⟨by norm_num, by simp, by simp [zeros], by simp [zeros], by simp [zeros], fun _ _ => rfl⟩, fun i hi h1 => ?_⟩
  have : i = 0 := by omega
  subst this
  simp [qval, support2, Finset.sum_range_succ]
  norm_num

/-- **C150, value of the older KL loss (refuted).** For two actions of values 3/4 and 1/4 and the uniform policy it
returns a negative number, which no divergence is. -/
theorem C150_kl_plain_value_refuted (weight alpha clip : ℝ) (hc : 0 ≤ clip) :
    ∃ r e', klPlain 2 2 soft2 support2 (zeros 2) (zeros 2) (zeros 4) weight alpha clip = some (r, e') ∧
      r < 0 ∧ 0 ≤ klDist 2 (zeros 2).get (qval 2 support2.get soft2.get) := by
  have hmax : ∀ i, i < 2 → i ≠ 0 → qval 2 support2.get soft2.get i < qval 2 support2.get soft2.get 0 := by
    intro i hi h0
    have : i = 1 := by omega
    subst this
    rw [qval2.1, qval2.2]; norm_num
  obtain ⟨r, e', G, e, hr, -⟩ := C150_kl_plain_partial 2 2 0 (by norm_num) soft2 support2 (zeros 2) (zeros 2) (zeros 4)
    weight alpha clip hc (ready2 _ (le_refl _)) (le_refl _) hmax
  refine ⟨r, e', e, ?_, kl_nonneg 2 (by norm_num) _ _⟩
  have ht : top 2 (qval 2 support2.get soft2.get) = 3 / 4 := by
    rw [top, sup_fin_eq 2 0 (by norm_num) _ (fun i hi => by
      by_cases h : i = 0
      · rw [h]
      · exact (hmax i hi h).le), qval2.1]
  have ht0 : top 2 (zeros 2).get = 0 := sup_fin_eq 2 0 (by norm_num) (zeros 2).get (fun i hi => le_refl _)
  have hp := smax_pos 2 (by norm_num) (qval 2 support2.get soft2.get) 1
  rw [hr, klApprox, ht, ht0, Finset.sum_range_succ, Finset.sum_range_succ, Finset.sum_range_zero, qval2.1, qval2.2]
  simp only [zeros]
  linarith

end LLab.Diversity
