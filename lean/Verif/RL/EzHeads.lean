import Verif.Net.Vae

/-!
The prediction part of an EfficientZero model (`/repo/src/efficientzeromodel.c`): a body whose
output goes to a policy head and to a value head. All three are models of fully connected layers.
Property C145.
-/

namespace LLab.Ez

open Finset LLab.Chain

/-! ### Model -/

/-- `prediction_f`, `prediction_f_policy`, `prediction_f_value` of an `efficientzeromodel`. -/
structure Heads where
  body : List Fcl
  policy : List Fcl
  value : List Fcl

/-- `get_input_layer_size` (`/repo/src/model.c` 9420-9447) for fully connected layers in order; the
`-1` of a model without layers is `0` here, the theorems speak of models with layers. -/
def inputSize : List Fcl → Nat
  | [] => 0
  | f :: _ => f.input

/-- `get_output_dimension_from_model`: the outputs of the last layer. -/
def outputSize : List Fcl → Nat
  | [] => 0
  | [f] => f.output
  | _ :: f :: fs => outputSize (f :: fs)

/-- `efficientzero_ff_prediction_f` (`/repo/src/efficientzeromodel.c` 288-292). `dB`, `dP`, `dV` are
the dropout draws in the three models. -/
noncomputable def ffHeads (dB dP dV : Nat → Nat → Bool) (x : Arr ℝ) (h : Heads) : Option Heads :=
  (ffModel dB (inputSize h.body) x h.body).bind fun b =>
    (ffModel dV (inputSize h.value) (outputLayer x b) h.value).bind fun v =>
      (ffModel dP (inputSize h.policy) (outputLayer x b) h.policy).bind fun p => some ⟨b, p, v⟩

/-- `efficientzero_bp_prediction_f` (`/repo/src/efficientzeromodel.c` 294-299). The last call is on
`prediction_f_value`, as in the code. The sum is written over the array the policy head returned;
that array belongs to the policy head, but is not read again before a reset. -/
noncomputable def bpHeads (x e : Arr ℝ) (h : Heads) : Option (Heads × Arr ℝ) :=
  (bpModel e (outputLayer x h.body) h.policy).bind fun p =>
    (bpModel e (outputLayer x h.body) h.value).bind fun v =>
      (Vec.zip1DInPlace (fun a b => a + b) p.2 v.2 (outputSize h.body)).bind fun t =>
        (bpModel t x v.1).bind fun r => some (⟨h.body, p.1, r.1⟩, r.2)

/-- A copy made by `copy_model_without_learning_parameters` computing with the parameters of the
model it was made from (`real_m` of `model_tensor_input_ff_multicore_opt`). -/
def lend : List Fcl → List Fcl → List Fcl
  | r :: rs, c :: cs => { c with weights := r.weights, biases := r.biases } :: lend rs cs
  | _, _ => []

/-- `model_tensor_input_ff_multicore_opt` (`/repo/src/multi_core_model.c` 172-196) with as many
threads as samples. The threads work on different copies and only read the shared parameters, so
any order gives the same (C40). -/
noncomputable def ffAll (k : Nat) (draws : Nat → Nat → Nat → Bool) (real : List Fcl) (inputs : Arr (Arr ℝ))
    (copies : Arr (List Fcl)) : Option (Arr (List Fcl)) :=
  loop k (fun i (c : Arr (List Fcl)) => (c.read i).bind fun m => (inputs.read i).bind fun x =>
    (ffModel (draws i) (inputSize real) x (lend real m)).bind fun m' => c.write i m') copies

/-- `model_tensor_input_bp_multicore_opt` (`/repo/src/multi_core_model.c` 296-326) with as many
threads as samples; `errs` is `returning_error`. -/
noncomputable def bpAll (k : Nat) (real : List Fcl) (inputs es : Arr (Arr ℝ)) (s : Arr (List Fcl) × Arr (Arr ℝ)) :
    Option (Arr (List Fcl) × Arr (Arr ℝ)) :=
  loop k (fun i (s : Arr (List Fcl) × Arr (Arr ℝ)) => (s.1.read i).bind fun m => (inputs.read i).bind fun x =>
    (es.read i).bind fun e => (bpModel e x (lend real m)).bind fun r =>
      (s.1.write i r.1).bind fun c => (s.2.write i r.2).bind fun q => some (c, q)) s

/-- `batch_prediction_f`, `batch_prediction_f_policy`, `batch_prediction_f_value`. -/
structure Copies where
  body : Arr (List Fcl)
  policy : Arr (List Fcl)
  value : Arr (List Fcl)

/-- `model_outputs` (`/repo/src/efficientzeromodel.c` 581-584, 597-600). -/
def outputsOf (k : Nat) (inputs : Arr (Arr ℝ)) (copies : Arr (List Fcl)) : Option (Arr (Arr ℝ)) :=
  loop k (fun i (o : Arr (Arr ℝ)) => (copies.read i).bind fun m => (inputs.read i).bind fun x =>
    o.write i (outputLayer x m)) ⟨k, fun _ => ⟨0, fun _ => 0⟩⟩

/-- `efficientzero_ff_prediction_f_opt` (`/repo/src/efficientzeromodel.c` 576-588). -/
noncomputable def ffHeadsOpt (threads batch : Nat) (dB dP dV : Nat → Nat → Nat → Bool) (h : Heads) (xs : Arr (Arr ℝ)) (c : Copies) :
    Option Copies :=
  (ffAll (min threads batch) dB h.body xs c.body).bind fun b =>
    (outputsOf (min threads batch) xs b).bind fun ys =>
      (ffAll (min threads batch) dV h.value ys c.value).bind fun v =>
        (ffAll (min threads batch) dP h.policy ys c.policy).bind fun p => some ⟨b, p, v⟩

/-- The sums of the errors of the two heads (`/repo/src/efficientzeromodel.c` 604-606). -/
noncomputable def sumErrors (k n : Nat) (e2 e1 : Arr (Arr ℝ)) : Option (Arr (Arr ℝ)) :=
  loop k (fun i (a : Arr (Arr ℝ)) => (a.read i).bind fun p => (e2.read i).bind fun v =>
    (Vec.zip1DInPlace (fun a b => a + b) p v n).bind fun t => a.write i t) e1

/-- An array of `n` unset pointers. -/
def noErrors (n : Nat) : Arr (Arr ℝ) := ⟨n, fun _ => ⟨0, fun _ => 0⟩⟩

/-- `efficientzero_bp_prediction_f_opt` (`/repo/src/efficientzeromodel.c` 590-614). -/
noncomputable def bpHeadsOpt (threads batch : Nat) (h : Heads) (xs es : Arr (Arr ℝ)) (c : Copies) :
    Option (Copies × Arr (Arr ℝ)) :=
  (outputsOf (min threads batch) xs c.body).bind fun ys =>
    (bpAll (min threads batch) h.policy ys es (c.policy, noErrors batch)).bind fun p =>
      (bpAll (min threads batch) h.value ys es (c.value, noErrors batch)).bind fun v =>
        (sumErrors (min threads batch) (outputSize h.body) v.2 p.2).bind fun t =>
          (bpAll (min threads batch) h.body xs t (c.body, noErrors batch)).bind fun b =>
            some (⟨b.1, p.1, v.1⟩, b.2)

/-! ### Proofs -/

theorem _root_.LLab.Chain.Pull.plus {n : Nat} {A B : (Nat → ℝ) → ℝ} {y g1 g2 : Nat → ℝ}
    (h1 : Pull n 1 (fun y _ => A y) y (fun _ => 1) g1) (h2 : Pull n 1 (fun y _ => B y) y (fun _ => 1) g2) :
    Pull n 1 (fun y _ => A y + B y) y (fun _ => 1) (fun i => g1 i + g2 i) := by
  intro c c' t0 hc hd
  obtain ⟨d1, a1, b1⟩ := h1 c c' t0 hc hd
  obtain ⟨d2, a2, b2⟩ := h2 c c' t0 hc hd
  refine ⟨fun k => d1 k + d2 k, fun k hk => (a1 k hk).add (a2 k hk), ?_⟩
  simp only [mul_add, add_mul, Finset.sum_add_distrib]
  rw [b1, b2]

/-- What a call needs of one model: its layers ready and fitting, and the point no kink. -/
structure Usable (draws : Nat → Nat → Bool) (n m : Nat) (x : Nat → ℝ) (fs : List Fcl) : Prop where
  ne : fs ≠ []
  ready : ∀ f, f ∈ fs → f.Ready ∧ f.drop ≠ .test
  fits : Fits n fs
  out : outDim n (units draws 0 fs) = m
  kink : NoKink (units draws 0 fs) x

theorem inputSize_eq {n : Nat} {fs : List Fcl} (hne : fs ≠ []) (hf : Fits n fs) : inputSize fs = n := by
  cases fs with
  | nil => exact absurd rfl hne
  | cons f fs => exact hf.1

theorem outputSize_eq (draws : Nat → Nat → Bool) : ∀ (fs : List Fcl) (i n : Nat), fs ≠ [] →
    outputSize fs = outDim n (units draws i fs)
  | [], _, _, h => absurd rfl h
  | [f], _, _, _ => rfl
  | _ :: g :: fs, i, _, _ => outputSize_eq draws (g :: fs) (i + 1) 0 (by simp)

/-- One model, forward and backward. -/
theorem model_both (draws : Nat → Nat → Bool) (n m : Nat) (x : Arr ℝ) (y : Nat → ℝ) (fs : List Fcl)
    (h : Usable draws n m y fs) (hx : n ≤ x.len) (hy : ∀ i, i < n → x.get i = y i) :
    ∃ gs, ffModel draws n x fs = some gs ∧ m ≤ (outputLayer x gs).len ∧
      (∀ k, k < m → (outputLayer x gs).get k = net (units draws 0 fs) y k) ∧
      ∀ e : Arr ℝ, m ≤ e.len → ∃ hs err, bpModel e x gs = some (hs, err) ∧ n ≤ err.len ∧
        Pull n m (net (units draws 0 fs)) y e.get err.get ∧
        ∀ Λ : (Nat → ℝ) → ℝ, Pull m 1 (fun z _ => Λ z) (net (units draws 0 fs) y) (fun _ => 1) e.get →
          IsGradient (units draws 0 fs) n y (fun us x => Λ (net us x)) fs hs err := by
  obtain ⟨gs, e1, h1, h2, h3, h4⟩ := model_gradient draws n x y fs h.ready h.fits hx hy h.kink
  rw [h2, h.out] at h1 h3
  rw [h.out] at h4
  exact ⟨gs, e1, h1, h3, h4⟩

theorem ffLayer_keeps {x : Arr ℝ} {draw : Nat → Bool} {f f' : Fcl} (h : ffLayer x draw f = some f') :
    f'.weights = f.weights ∧ f'.biases = f.biases := by
  unfold ffLayer at h
  obtain ⟨pre, -, h⟩ := Option.bind_eq_some_iff.1 h
  obtain ⟨post, -, h⟩ := Option.bind_eq_some_iff.1 h
  by_cases h1 : f.drop = .off
  · rw [if_pos h1] at h
    cases h
    exact ⟨rfl, rfl⟩
  · rw [if_neg h1] at h
    obtain ⟨mask, -, h⟩ := Option.bind_eq_some_iff.1 h
    by_cases h2 : f.drop = .train
    · rw [if_pos h2] at h
      obtain ⟨dt, -, h⟩ := Option.bind_eq_some_iff.1 h
      cases h
      exact ⟨rfl, rfl⟩
    · rw [if_neg h2] at h
      cases h
      exact ⟨rfl, rfl⟩

theorem lend_cons_self {r f : Fcl} {rs fs : List Fcl} (hw : f.weights = r.weights) (hb : f.biases = r.biases)
    (h : lend rs fs = fs) : lend (r :: rs) (f :: fs) = f :: fs := by
  simp only [lend, h, ← hw, ← hb]

theorem lend_from (draws : Nat → Nat → Bool) : ∀ (rs cs gs : List Fcl) (prev : Fcl) (i : Nat),
    ffFrom draws prev i (lend rs cs) = some gs → lend rs gs = gs
  | [], _, gs, _, _, h => by
    simp only [lend, ffFrom, Option.some.injEq] at h
    rw [← h]
    rfl
  | r :: rs, [], gs, _, _, h => by
    simp only [lend, ffFrom, Option.some.injEq] at h
    rw [← h]
    rfl
  | r :: rs, c :: cs, gs, prev, i, h => by
    simp only [lend, ffFrom] at h
    by_cases h1 : (c.act = .softmax ∧ lend rs cs ≠ [])
    · rw [if_pos h1] at h; cases h
    rw [if_neg h1] at h
    by_cases h2 : prev.output ≠ c.input
    · rw [if_pos h2] at h; cases h
    rw [if_neg h2] at h
    obtain ⟨x, -, h⟩ := Option.bind_eq_some_iff.1 h
    obtain ⟨f', e1, h⟩ := Option.bind_eq_some_iff.1 h
    obtain ⟨fs', e2, h⟩ := Option.bind_eq_some_iff.1 h
    cases h
    obtain ⟨k1, k2⟩ := ffLayer_keeps e1
    exact lend_cons_self k1 k2 (lend_from draws rs cs fs' f' (i + 1) e2)

/-- The layers a forward pass leaves still have the parameters lent to them. -/
theorem lend_self (draws : Nat → Nat → Bool) (n : Nat) (x : Arr ℝ) : ∀ (rs cs gs : List Fcl),
    ffModel draws n x (lend rs cs) = some gs → lend rs gs = gs
  | [], _, gs, h => by
    simp only [lend, ffModel, Option.some.injEq] at h
    rw [← h]
    rfl
  | r :: rs, [], gs, h => by
    simp only [lend, ffModel, Option.some.injEq] at h
    rw [← h]
    rfl
  | r :: rs, c :: cs, gs, h => by
    simp only [lend, ffModel] at h
    by_cases h1 : (c.act = .softmax ∧ lend rs cs ≠ [])
    · rw [if_pos h1] at h; cases h
    rw [if_neg h1] at h
    by_cases h2 : n ≠ c.input
    · rw [if_pos h2] at h; cases h
    rw [if_neg h2] at h
    obtain ⟨f', e1, h⟩ := Option.bind_eq_some_iff.1 h
    obtain ⟨fs', e2, h⟩ := Option.bind_eq_some_iff.1 h
    cases h
    obtain ⟨k1, k2⟩ := ffLayer_keeps e1
    exact lend_cons_self k1 k2 (lend_from draws rs cs fs' f' 1 e2)

theorem ffAll_eq (k : Nat) (draws : Nat → Nat → Nat → Bool) (real : List Fcl) (inputs : Arr (Arr ℝ))
    (copies : Arr (List Fcl)) (hc : k ≤ copies.len) (hi : k ≤ inputs.len) (g : Nat → List Fcl)
    (h : ∀ i, i < k → ffModel (draws i) (inputSize real) (inputs.get i) (lend real (copies.get i)) = some (g i)) :
    ffAll k draws real inputs copies = some ⟨copies.len, fun i => if i < k then g i else copies.get i⟩ := by
  refine loop_fill g fun i hik b hb hg => ?_
  rw [Arr.read_eq (by omega), Option.bind_some, Arr.read_eq (by omega), Option.bind_some, hg i le_rfl, h i hik,
    Option.bind_some, Arr.write_eq _ (by omega)]

theorem outputsOf_eq (k : Nat) (inputs : Arr (Arr ℝ)) (copies : Arr (List Fcl)) (hc : k ≤ copies.len) (hi : k ≤ inputs.len) :
    outputsOf k inputs copies = some ⟨k, fun i => if i < k then outputLayer (inputs.get i) (copies.get i) else ⟨0, fun _ => 0⟩⟩ := by
  refine loop_fill (fun i => outputLayer (inputs.get i) (copies.get i)) fun i hik b hb _ => ?_
  rw [Arr.read_eq (by omega), Option.bind_some, Arr.read_eq (by omega), Option.bind_some,
    Arr.write_eq _ (by rw [hb]; exact hik)]

theorem bpAll_eq (k : Nat) (real : List Fcl) (inputs es : Arr (Arr ℝ)) (copies : Arr (List Fcl)) (errs : Arr (Arr ℝ))
    (hc : k ≤ copies.len) (hi : k ≤ inputs.len) (he : k ≤ es.len) (hr : k ≤ errs.len) (g : Nat → List Fcl × Arr ℝ)
    (h : ∀ i, i < k → bpModel (es.get i) (inputs.get i) (lend real (copies.get i)) = some (g i)) :
    bpAll k real inputs es (copies, errs) = some (⟨copies.len, fun i => if i < k then (g i).1 else copies.get i⟩,
      ⟨errs.len, fun i => if i < k then (g i).2 else errs.get i⟩) := by
  obtain ⟨s', e, h1⟩ := loop_inv (n := k) (s := (copies, errs))
    (f := fun i (s : Arr (List Fcl) × Arr (Arr ℝ)) => (s.1.read i).bind fun m => (inputs.read i).bind fun x =>
      (es.read i).bind fun e => (bpModel e x (lend real m)).bind fun r =>
        (s.1.write i r.1).bind fun c => (s.2.write i r.2).bind fun q => some (c, q))
    (fun i s => s = (⟨copies.len, fun j => if j < i then (g j).1 else copies.get j⟩,
      ⟨errs.len, fun j => if j < i then (g j).2 else errs.get j⟩))
    (by simp)
    (by
      rintro i hik s rfl
      refine ⟨_, ?_, rfl⟩
      rw [Arr.read_eq (by dsimp only; omega), Option.bind_some, Arr.read_eq (by omega), Option.bind_some,
        Arr.read_eq (by omega), Option.bind_some]
      dsimp only
      rw [if_neg (lt_irrefl i), h i hik, Option.bind_some, Arr.write_eq _ (by dsimp only; omega), Option.bind_some,
        Arr.write_eq _ (by dsimp only; omega), Option.bind_some]
      congr 3
      · funext j
        by_cases hj : j = i
        · subst hj; simp
        · rw [Function.update_of_ne hj]
          exact if_congr (by omega) rfl rfl
      · funext j
        by_cases hj : j = i
        · subst hj; simp
        · rw [Function.update_of_ne hj]
          exact if_congr (by omega) rfl rfl)
  rw [← h1]
  exact e

theorem sumErrors_eq (k n : Nat) (e2 e1 : Arr (Arr ℝ)) (h1 : k ≤ e1.len) (h2 : k ≤ e2.len)
    (h3 : ∀ i, i < k → n ≤ (e1.get i).len ∧ n ≤ (e2.get i).len) :
    ∃ t, sumErrors k n e2 e1 = some t ∧ t.len = e1.len ∧ ∀ i, i < k → n ≤ (t.get i).len ∧
      ∀ j, j < n → (t.get i).get j = (e1.get i).get j + (e2.get i).get j := by
  have hz := fun i (hi : i < k) => zipIn_run (fun a b : ℝ => a + b) (e1.get i) (e2.get i) n (h3 i hi).1 (h3 i hi).2
  choose r hr1 hr2 hr3 using hz
  refine ⟨_, loop_fill (fun i => if hi : i < k then r i hi else ⟨0, fun _ => 0⟩) fun i hik b hb hg => ?_, rfl, fun i hi => ?_⟩
  · rw [Arr.read_eq (by omega), Option.bind_some, Arr.read_eq (by omega), Option.bind_some, hg i le_rfl, hr1 i hik,
      Option.bind_some, Arr.write_eq _ (by omega), dif_pos hik]
  · dsimp only
    rw [if_pos hi, dif_pos hi]
    exact ⟨by rw [hr2]; exact (h3 i hi).1, hr3 i hi⟩

/-- The copies a pass works with: copies of the body and of both heads, each with the parameters of
its model; `n` inputs, `m` numbers between body and heads, `p` and `v` outputs. -/
structure CopiesOk (k n m p v : Nat) (dB dP dV : Nat → Nat → Nat → Bool) (h : Heads) (xs : Arr (Arr ℝ)) (c : Copies) : Prop where
  lens : k ≤ c.body.len ∧ k ≤ c.policy.len ∧ k ≤ c.value.len ∧ k ≤ xs.len
  real : inputSize h.body = n ∧ outputSize h.body = m ∧ inputSize h.policy = m ∧ inputSize h.value = m
  len : ∀ i, i < k → n ≤ (xs.get i).len
  body : ∀ i, i < k → Usable (dB i) n m (xs.get i).get (lend h.body (c.body.get i))
  policy : ∀ i, i < k → Usable (dP i) m p (net (units (dB i) 0 (lend h.body (c.body.get i))) (xs.get i).get)
    (lend h.policy (c.policy.get i))
  value : ∀ i, i < k → Usable (dV i) m v (net (units (dB i) 0 (lend h.body (c.body.get i))) (xs.get i).get)
    (lend h.value (c.value.get i))

/-- **C145 (partial): the batch versions.** For every number of samples (at most as many as there are
copies), all sizes, layers, inputs, dropout draws, and losses `Λp` and `Λv` of the two heads whose
gradient at the outputs is the error passed in: the forward pass is defined, both heads are given the
output of the body, and their last arrays hold the function of body and head. The backward pass is
defined, and for every sample each head accumulates the gradient of its loss in its parameters, the
body accumulates the gradient of the sum of both losses in its parameters, and the returned error is
the gradient in the input. Missing: the version for one sample (`C145_single_refuted`), and separate
errors for the two heads, which the functions do not take. -/
theorem C145_heads_partial (threads batch n m p v : Nat) (dB dP dV : Nat → Nat → Nat → Bool) (h : Heads)
    (xs es : Arr (Arr ℝ)) (c : Copies) (ok : CopiesOk (min threads batch) n m p v dB dP dV h xs c)
    (he : min threads batch ≤ es.len) (hel : ∀ i, i < min threads batch → p ≤ (es.get i).len ∧ v ≤ (es.get i).len)
    (Λp Λv : Nat → (Nat → ℝ) → ℝ)
    (hp : ∀ i, i < min threads batch → Pull p 1 (fun z _ => Λp i z)
      (net (units (dP i) 0 (lend h.policy (c.policy.get i))) (net (units (dB i) 0 (lend h.body (c.body.get i))) (xs.get i).get))
      (fun _ => 1) (es.get i).get)
    (hv : ∀ i, i < min threads batch → Pull v 1 (fun z _ => Λv i z)
      (net (units (dV i) 0 (lend h.value (c.value.get i))) (net (units (dB i) 0 (lend h.body (c.body.get i))) (xs.get i).get))
      (fun _ => 1) (es.get i).get) :
    ∃ c1 c2 errs, ffHeadsOpt threads batch dB dP dV h xs c = some c1 ∧
      bpHeadsOpt threads batch h xs es c1 = some (c2, errs) ∧ ∀ i, i < min threads batch →
        (∃ y : Arr ℝ, y = outputLayer (xs.get i) (c1.body.get i) ∧
          (∀ k, k < p → (outputLayer y (c1.policy.get i)).get k = net (units (dP i) 0 (lend h.policy (c.policy.get i)))
            (net (units (dB i) 0 (lend h.body (c.body.get i))) (xs.get i).get) k) ∧
          ∀ k, k < v → (outputLayer y (c1.value.get i)).get k = net (units (dV i) 0 (lend h.value (c.value.get i)))
            (net (units (dB i) 0 (lend h.body (c.body.get i))) (xs.get i).get) k) ∧
        (∃ errP, IsGradient (units (dP i) 0 (lend h.policy (c.policy.get i))) m
          (net (units (dB i) 0 (lend h.body (c.body.get i))) (xs.get i).get)
          (fun us y => Λp i (net us y)) (lend h.policy (c.policy.get i)) (c2.policy.get i) errP) ∧
        (∃ errV, IsGradient (units (dV i) 0 (lend h.value (c.value.get i))) m
          (net (units (dB i) 0 (lend h.body (c.body.get i))) (xs.get i).get)
          (fun us y => Λv i (net us y)) (lend h.value (c.value.get i)) (c2.value.get i) errV) ∧
        IsGradient (units (dB i) 0 (lend h.body (c.body.get i))) n (xs.get i).get
          (fun us x => Λp i (net (units (dP i) 0 (lend h.policy (c.policy.get i))) (net us x)) +
            Λv i (net (units (dV i) 0 (lend h.value (c.value.get i))) (net us x)))
          (lend h.body (c.body.get i)) (c2.body.get i) (errs.get i) := by
  obtain ⟨l1, l2, l3, l4⟩ := ok.lens
  obtain ⟨r1, r2, r3, r4⟩ := ok.real
  generalize hk : min threads batch = k at *
  have kb : k ≤ batch := by omega
  -- bodies forward
  have hB := fun i (hi : i < k) => model_both (dB i) n m (xs.get i) (xs.get i).get _ (ok.body i hi) (ok.len i hi) (fun _ _ => rfl)
  choose gB eB lB vB bB using hB
  have hP := fun i (hi : i < k) => model_both (dP i) m p (outputLayer (xs.get i) (gB i hi)) _ _ (ok.policy i hi) (lB i hi) (vB i hi)
  choose gP eP lP vP bP using hP
  have hV := fun i (hi : i < k) => model_both (dV i) m v (outputLayer (xs.get i) (gB i hi)) _ _ (ok.value i hi) (lB i hi) (vB i hi)
  choose gV eV lV vV bV using hV
  have hbP := fun i (hi : i < k) => bP i hi (es.get i) (hel i hi).1
  choose hsP errP ebP lbP pbP gbP using hbP
  have hbV := fun i (hi : i < k) => bV i hi (es.get i) (hel i hi).2
  choose hsV errV ebV lbV pbV gbV using hbV
  have f1 := ffAll_eq k dB h.body xs c.body l1 l4 (fun i => if hi : i < k then gB i hi else [])
    (fun i hi => by rw [r1, dif_pos hi]; exact eB i hi)
  have f2 := outputsOf_eq k xs ⟨c.body.len, fun i => if i < k then (if hi : i < k then gB i hi else []) else c.body.get i⟩ l1 l4
  have hys : ∀ i (hi : i < k), (if i < k then outputLayer (xs.get i) (if i < k then (if hi : i < k then gB i hi else []) else c.body.get i)
      else (⟨0, fun _ => 0⟩ : Arr ℝ)) = outputLayer (xs.get i) (gB i hi) := by
    intro i hi
    rw [if_pos hi, if_pos hi, dif_pos hi]
  obtain ⟨ys, hysdef⟩ : ∃ ys : Arr (Arr ℝ), ys = ⟨k, fun i => if i < k then outputLayer (xs.get i)
    (if i < k then (if hi : i < k then gB i hi else []) else c.body.get i) else ⟨0, fun _ => 0⟩⟩ := ⟨_, rfl⟩
  have ysl : k ≤ ys.len := by rw [hysdef]
  have ysg : ∀ i (hi : i < k), ys.get i = outputLayer (xs.get i) (gB i hi) := by
    intro i hi
    rw [hysdef]
    exact hys i hi
  rw [← hysdef] at f2
  have f3 := ffAll_eq k dV h.value ys c.value l3 ysl (fun i => if hi : i < k then gV i hi else [])
    (fun i hi => by rw [r4, dif_pos hi, ysg i hi]; exact eV i hi)
  have f4 := ffAll_eq k dP h.policy ys c.policy l2 ysl (fun i => if hi : i < k then gP i hi else [])
    (fun i hi => by rw [r3, dif_pos hi, ysg i hi]; exact eP i hi)
  have b1 := bpAll_eq k h.policy ys es ⟨c.policy.len, fun i => if i < k then (if hi : i < k then gP i hi else []) else c.policy.get i⟩
    (noErrors batch) l2 ysl he kb (fun i => if hi : i < k then (hsP i hi, errP i hi) else ([], ⟨0, fun _ => 0⟩))
    (fun i hi => by
      dsimp only
      rw [if_pos hi, dif_pos hi, dif_pos hi, ysg i hi, lend_self _ _ _ _ _ _ (eP i hi)]
      exact ebP i hi)
  have b2 := bpAll_eq k h.value ys es ⟨c.value.len, fun i => if i < k then (if hi : i < k then gV i hi else []) else c.value.get i⟩
    (noErrors batch) l3 ysl he kb (fun i => if hi : i < k then (hsV i hi, errV i hi) else ([], ⟨0, fun _ => 0⟩))
    (fun i hi => by
      dsimp only
      rw [if_pos hi, dif_pos hi, dif_pos hi, ysg i hi, lend_self _ _ _ _ _ _ (eV i hi)]
      exact ebV i hi)
  obtain ⟨t, et, lt, gt⟩ := sumErrors_eq k m
    ⟨(noErrors batch).len, fun i => if i < k then (if hi : i < k then (hsV i hi, errV i hi) else ([], ⟨0, fun _ => 0⟩)).2 else (noErrors batch).get i⟩
    ⟨(noErrors batch).len, fun i => if i < k then (if hi : i < k then (hsP i hi, errP i hi) else ([], ⟨0, fun _ => 0⟩)).2 else (noErrors batch).get i⟩
    kb kb (fun i hi => by
      dsimp only
      rw [if_pos hi, if_pos hi, dif_pos hi, dif_pos hi]
      exact ⟨lbP i hi, lbV i hi⟩)
  have gt' : ∀ i (hi : i < k), m ≤ (t.get i).len ∧ ∀ j, j < m → (t.get i).get j = (errP i hi).get j + (errV i hi).get j := by
    intro i hi
    have := gt i hi
    dsimp only at this
    rw [if_pos hi, if_pos hi, dif_pos hi, dif_pos hi] at this
    exact this
  have hbB := fun i (hi : i < k) => bB i hi (t.get i) (gt' i hi).1
  choose hsB errB ebB lbB pbB gbB using hbB
  have b3 := bpAll_eq k h.body xs t ⟨c.body.len, fun i => if i < k then (if hi : i < k then gB i hi else []) else c.body.get i⟩
    (noErrors batch) l1 l4 (by rw [lt]; exact kb) kb (fun i => if hi : i < k then (hsB i hi, errB i hi) else ([], ⟨0, fun _ => 0⟩))
    (fun i hi => by
      dsimp only
      rw [if_pos hi, dif_pos hi, dif_pos hi, lend_self _ _ _ _ _ _ (eB i hi)]
      exact ebB i hi)
  have hff : ffHeadsOpt threads batch dB dP dV h xs c = some
      ⟨⟨c.body.len, fun i => if i < k then (if hi : i < k then gB i hi else []) else c.body.get i⟩,
       ⟨c.policy.len, fun i => if i < k then (if hi : i < k then gP i hi else []) else c.policy.get i⟩,
       ⟨c.value.len, fun i => if i < k then (if hi : i < k then gV i hi else []) else c.value.get i⟩⟩ := by
    unfold ffHeadsOpt
    rw [hk, f1, Option.bind_some, f2, Option.bind_some, f3, Option.bind_some, f4, Option.bind_some]
  have hbp : bpHeadsOpt threads batch h xs es
      ⟨⟨c.body.len, fun i => if i < k then (if hi : i < k then gB i hi else []) else c.body.get i⟩,
       ⟨c.policy.len, fun i => if i < k then (if hi : i < k then gP i hi else []) else c.policy.get i⟩,
       ⟨c.value.len, fun i => if i < k then (if hi : i < k then gV i hi else []) else c.value.get i⟩⟩ = some
      (⟨⟨c.body.len, fun i => if i < k then (if hi : i < k then (hsB i hi, errB i hi) else ([], ⟨0, fun _ => 0⟩)).1 else
          (if i < k then (if hi : i < k then gB i hi else []) else c.body.get i)⟩,
        ⟨c.policy.len, fun i => if i < k then (if hi : i < k then (hsP i hi, errP i hi) else ([], ⟨0, fun _ => 0⟩)).1 else
          (if i < k then (if hi : i < k then gP i hi else []) else c.policy.get i)⟩,
        ⟨c.value.len, fun i => if i < k then (if hi : i < k then (hsV i hi, errV i hi) else ([], ⟨0, fun _ => 0⟩)).1 else
          (if i < k then (if hi : i < k then gV i hi else []) else c.value.get i)⟩⟩,
       ⟨(noErrors batch).len, fun i => if i < k then (if hi : i < k then (hsB i hi, errB i hi) else ([], ⟨0, fun _ => 0⟩)).2 else
          (noErrors batch).get i⟩) := by
    unfold bpHeadsOpt
    dsimp only
    rw [hk, f2, Option.bind_some, b1, Option.bind_some, b2, Option.bind_some, r2]
    dsimp only
    rw [et, Option.bind_some, b3, Option.bind_some]
  refine ⟨_, _, _, hff, hbp, fun i hi => ⟨⟨_, rfl, fun j hj => ?_, fun j hj => ?_⟩, ⟨errP i hi, ?_⟩, ⟨errV i hi, ?_⟩, ?_⟩⟩
  · dsimp only
    rw [if_pos hi, dif_pos hi, if_pos hi, dif_pos hi]
    exact vP i hi j hj
  · dsimp only
    rw [if_pos hi, dif_pos hi, if_pos hi, dif_pos hi]
    exact vV i hi j hj
  · dsimp only
    rw [if_pos hi, dif_pos hi]
    exact gbP i hi (Λp i) (hp i hi)
  · dsimp only
    rw [if_pos hi, dif_pos hi]
    exact gbV i hi (Λv i) (hv i hi)
  · dsimp only
    rw [if_pos hi, dif_pos hi, if_pos hi]
    refine gbB i hi (fun y => Λp i (net (units (dP i) 0 (lend h.policy (c.policy.get i))) y) +
      Λv i (net (units (dV i) 0 (lend h.value (c.value.get i))) y)) ?_
    refine ((Pull.comp (pbP i hi) (hp i hi)).plus (Pull.comp (pbV i hi) (hv i hi))).congr (fun _ _ => rfl) fun j hj => ?_
    exact (gt' i hi).2 j hj

/-- **C145, forward for one sample.** The body is given the input, both heads are given its output, and their last
arrays hold the function of body and head. -/
theorem C145_single_forward (n m p v : Nat) (dB dP dV : Nat → Nat → Bool) (h : Heads) (x : Arr ℝ) (hx : n ≤ x.len)
    (hB : Usable dB n m x.get h.body) (hP : Usable dP m p (net (units dB 0 h.body) x.get) h.policy)
    (hV : Usable dV m v (net (units dB 0 h.body) x.get) h.value) :
    ∃ h', ffHeads dB dP dV x h = some h' ∧
      (∀ k, k < p → (outputLayer (outputLayer x h'.body) h'.policy).get k = net (units dP 0 h.policy) (net (units dB 0 h.body) x.get) k) ∧
      ∀ k, k < v → (outputLayer (outputLayer x h'.body) h'.value).get k = net (units dV 0 h.value) (net (units dB 0 h.body) x.get) k := by
  obtain ⟨b, e1, l1, v1, -⟩ := model_both dB n m x x.get _ hB hx (fun _ _ => rfl)
  obtain ⟨q, e2, -, v2, -⟩ := model_both dP m p _ _ _ hP l1 v1
  obtain ⟨w, e3, -, v3, -⟩ := model_both dV m v _ _ _ hV l1 v1
  refine ⟨⟨b, q, w⟩, ?_, v2, v3⟩
  unfold ffHeads
  rw [inputSize_eq hB.ne hB.fits, inputSize_eq hP.ne hP.fits, inputSize_eq hV.ne hV.fits, e1, Option.bind_some, e3, Option.bind_some,
    e2, Option.bind_some]

/-- **C145 (refuted, body).** Whatever the model, the input and the error: the backward pass for one sample leaves the
body as it was, so no derivative is ever accumulated for its parameters. -/
theorem C145_single_body_refuted (x e : Arr ℝ) (h h' : Heads) (err : Arr ℝ) (hb : bpHeads x e h = some (h', err)) :
    h'.body = h.body := by
  unfold bpHeads at hb
  obtain ⟨p, -, hb⟩ := Option.bind_eq_some_iff.1 hb
  obtain ⟨v, -, hb⟩ := Option.bind_eq_some_iff.1 hb
  obtain ⟨t, -, hb⟩ := Option.bind_eq_some_iff.1 hb
  obtain ⟨r, -, hb⟩ := Option.bind_eq_some_iff.1 hb
  cases hb
  rfl

theorem demoOne_usable (x : Nat → ℝ) : Usable (fun _ _ => false) 1 1 x [demoOne] where
  ne := by simp
  ready f hf := by
    obtain rfl : f = demoOne := by simpa using hf
    exact ⟨demoOne_ready, by simp [demoOne]⟩
  fits := ⟨rfl, fun _ => rfl, trivial⟩
  out := rfl
  kink := ⟨(fun h => by rcases h with h | h | h <;> cases h), trivial⟩

/-- Body, policy head and value head are one unit each. -/
noncomputable def demoHeads : Heads := ⟨[demoOne], [demoOne], [demoOne]⟩

theorem demoHeads_run : ∃ h1 h2 err, ffHeads (fun _ _ => false) (fun _ _ => false) (fun _ _ => false) (Arr.ofList [1]) demoHeads = some h1 ∧
    bpHeads (Arr.ofList [1]) (Arr.ofList [1]) h1 = some (h2, err) := ⟨_, _, _, rfl, rfl⟩

/-- **C145 (refuted, one sample).** Two heads with the sum of their outputs as the loss: forward and backward run, but
what the body has accumulated is not the gradient of the loss, whose derivative in the bias of the body is 2. -/
theorem C145_single_refuted : ∃ h1 h2 err,
    ffHeads (fun _ _ => false) (fun _ _ => false) (fun _ _ => false) (Arr.ofList [1]) demoHeads = some h1 ∧
    bpHeads (Arr.ofList [1]) (Arr.ofList [1]) h1 = some (h2, err) ∧
    HasDerivAt (fun v => net (units (fun _ _ => false) 0 [demoOne]) (net ((units (fun _ _ => false) 0 [demoOne]).set 0
      { demoOne.unit (fun _ => false) with b := Function.update (demoOne.unit fun _ => false).b 0 v }) (Arr.ofList [(1 : ℝ)]).get) 0 +
      net (units (fun _ _ => false) 0 [demoOne]) (net ((units (fun _ _ => false) 0 [demoOne]).set 0
      { demoOne.unit (fun _ => false) with b := Function.update (demoOne.unit fun _ => false).b 0 v }) (Arr.ofList [(1 : ℝ)]).get) 0) 2 0 ∧
    ∀ err', ¬ IsGradient (units (fun _ _ => false) 0 [demoOne]) 1 (Arr.ofList [(1 : ℝ)]).get
      (fun us x => net (units (fun _ _ => false) 0 [demoOne]) (net us x) 0 + net (units (fun _ _ => false) 0 [demoOne]) (net us x) 0)
      demoHeads.body h2.body err' := by
  obtain ⟨h1, h2, err, e1, e2⟩ := demoHeads_run
  have hd : HasDerivAt (fun v => net (units (fun _ _ => false) 0 [demoOne]) (net ((units (fun _ _ => false) 0 [demoOne]).set 0
      { demoOne.unit (fun _ => false) with b := Function.update (demoOne.unit fun _ => false).b 0 v }) (Arr.ofList [(1 : ℝ)]).get) 0 +
      net (units (fun _ _ => false) 0 [demoOne]) (net ((units (fun _ _ => false) 0 [demoOne]).set 0
      { demoOne.unit (fun _ => false) with b := Function.update (demoOne.unit fun _ => false).b 0 v }) (Arr.ofList [(1 : ℝ)]).get) 0) 2 0 := by
    have hf : ∀ v : ℝ, net (units (fun _ _ => false) 0 [demoOne]) (net ((units (fun _ _ => false) 0 [demoOne]).set 0
      { demoOne.unit (fun _ => false) with b := Function.update (demoOne.unit fun _ => false).b 0 v }) (Arr.ofList [(1 : ℝ)]).get) 0 = 1 + v := by
      intro v
      simp [units, net, Unit.fn, Unit.z, Fcl.unit, demoOne, actFn, Arr.ofList]
    simp only [hf]
    have := ((hasDerivAt_id (0 : ℝ)).const_add 1).add ((hasDerivAt_id (0 : ℝ)).const_add 1)
    refine this.congr_deriv ?_
    norm_num
  refine ⟨h1, h2, err, e1, e2, hd, fun err' hg => ?_⟩
  have hb := C145_single_body_refuted _ _ _ _ _ e2
  have hf1 : h1.body[0]? = some { demoOne with pre := (h1.body.head?.getD demoOne).pre, post := (h1.body.head?.getD demoOne).post } := by
    cases e1
    rfl
  obtain ⟨-, -, h3⟩ := hg
  rw [hb] at h3
  have d := (h3 0 demoOne _ (demoOne.unit fun _ => false) rfl hf1 rfl).2.1 (by simp [demoOne]) 0 (by simp [demoOne])
  have hz : demoOne.biases.get 0 = 0 := by simp [demoOne, Arr.ofList]
  rw [hz] at d
  have := d.unique hd
  simp at this

/-- **C145 (refuted, one thread).** A model made for one thread has no arrays of copies (`/repo/src/efficientzeromodel.c`
70-119: they are `NULL`), so the batch version is undefined for every number of threads passed and every input. -/
theorem C145_one_thread_refuted (threads : Nat) (ht : 0 < threads) (dB dP dV : Nat → Nat → Nat → Bool) (h : Heads) (xs : Arr (Arr ℝ)) (c : Copies)
    (hc : c.body.len = 0) : ffHeadsOpt threads 1 dB dP dV h xs c = none := by
  have hk : min threads 1 = 1 := by omega
  have : ffAll 1 dB h.body xs c.body = none := by
    simp [ffAll, loop, Arr.read, hc]
  unfold ffHeadsOpt
  rw [hk, this]
  rfl

example : ffHeadsOpt 4 1 (fun _ _ _ => false) (fun _ _ _ => false) (fun _ _ _ => false) demoHeads ⟨4, fun _ => Arr.ofList [1]⟩
    ⟨⟨0, fun _ => []⟩, ⟨0, fun _ => []⟩, ⟨0, fun _ => []⟩⟩ = none :=
  C145_one_thread_refuted 4 (by omega) _ _ _ _ _ _ rfl

/-- Two samples on two threads, the loss of each head is its output: `CopiesOk` and the gradients hold. -/
example : ∃ c1 c2 errs,
    ffHeadsOpt 2 2 (fun _ _ _ => false) (fun _ _ _ => false) (fun _ _ _ => false) demoHeads ⟨2, fun _ => Arr.ofList [1]⟩
      ⟨⟨2, fun _ => [demoOne]⟩, ⟨2, fun _ => [demoOne]⟩, ⟨2, fun _ => [demoOne]⟩⟩ = some c1 ∧
    bpHeadsOpt 2 2 demoHeads ⟨2, fun _ => Arr.ofList [1]⟩ ⟨2, fun _ => Arr.ofList [1]⟩ c1 = some (c2, errs) := by
  have hP : ∀ z : Nat → ℝ, Pull 1 1 (fun z _ => z 0) z (fun _ => 1) (Arr.ofList [(1 : ℝ)]).get := by
    intro z cc cc' t0 hc hd
    refine ⟨fun _ => cc' 0, fun k _ => hd 0 (by omega), by simp [Arr.ofList]⟩
  obtain ⟨c1, c2, errs, h1, h2, -⟩ := C145_heads_partial 2 2 1 1 1 1 (fun _ _ _ => false) (fun _ _ _ => false) (fun _ _ _ => false) demoHeads
    ⟨2, fun _ => Arr.ofList [1]⟩ ⟨2, fun _ => Arr.ofList [1]⟩ ⟨⟨2, fun _ => [demoOne]⟩, ⟨2, fun _ => [demoOne]⟩, ⟨2, fun _ => [demoOne]⟩⟩
    ⟨by simp, ⟨rfl, rfl, rfl, rfl⟩, fun i _ => by simp [Arr.ofList], fun i _ => demoOne_usable _, fun i _ => demoOne_usable _, fun i _ => demoOne_usable _⟩
    (by simp) (fun i _ => by simp [Arr.ofList]) (fun _ z => z 0) (fun _ z => z 0) (fun i _ => hP _) (fun i _ => hP _)
  exact ⟨c1, c2, errs, h1, h2⟩

end LLab.Ez
