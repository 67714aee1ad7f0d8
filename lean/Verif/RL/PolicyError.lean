import Verif.Math.Softmax
import Verif.Math.Vector
import Verif.Common.Mat
import Verif.Transf.AttentionCurve
import Mathlib.Analysis.SpecialFunctions.Log.Deriv
import Mathlib.Analysis.SpecialFunctions.Sqrt

/-!
The error of a policy (`policy_gradient_model_error`, `/repo/src/model.c`
9236-9305) and of inverse Q-learning (`derivative_inverse_q_function_array`,
`/repo/src/math_functions.c` 431-458). Properties C120 and C121.
-/

namespace LLab.PolicyError

open Finset LLab.Softmax LLab.Attention

/-! ### Model: policy gradient -/

/-- `mul_value(output, 1.0/gamma, temp, n); softmax(temp, q, n)` on two new
arrays. -/
noncomputable def tempered (n : Nat) (gamma : ℝ) (z : Arr ℝ) : Option (Arr ℝ) := do
  let temp ← Vec.map1D (fun x => x * (1 / gamma)) z ⟨n, fun _ => 0⟩ n
  softmax temp ⟨n, fun _ => 0⟩ n

/-- The other policy, when its weight is positive; `other = none` is a null
pointer. -/
noncomputable def otherPolicy (n : Nat) (thr2 gamma : ℝ) (other : Option (Arr ℝ)) : Option (Arr ℝ) :=
  if 0 < thr2 then do
    let o ← other
    tempered n gamma o
  else some ⟨0, fun _ => 0⟩

/-- The first loop: `error[i] = (-1/q[i])*error_alpha[i]`. -/
noncomputable def rewardLoop (n : Nat) (q alpha error : Arr ℝ) : Option (Arr ℝ) :=
  loop n (fun i (e : Arr ℝ) => do
    let a ← alpha.read i
    let x ← q.read i
    e.write i (-1 / x * a)) error

/-- The entropy loop. -/
noncomputable def entropyLoop (n : Nat) (thr1 : ℝ) (q error : Arr ℝ) : Option (Arr ℝ) :=
  if 0 < thr1 then
    loop n (fun i (e : Arr ℝ) => do
      let x ← q.read i
      if x = 0 then e.addAt i (-(thr1 * (1 - 999))) else e.addAt i (-(thr1 * (1 + Real.log x)))) error
  else some error

/-- The loop of the distance to the other policy. -/
noncomputable def distanceLoop (n : Nat) (thr2 : ℝ) (q q2 error : Arr ℝ) : Option (Arr ℝ) :=
  if 0 < thr2 then do
    let s ← loop n (fun i (s : ℝ) => do
      let a ← q2.read i
      let b ← q.read i
      some (s + (a - b) * (a - b))) 0
    if 0 < Real.sqrt s then
      loop n (fun i (e : Arr ℝ) => do
        let a ← q.read i
        let b ← q2.read i
        e.addAt i (-(thr2 * (a - b) / Real.sqrt s))) error
    else some error
  else some error

/-- `policy_gradient_model_error(m, output)` (`/repo/src/model.c` 9236-9305):
`z` is the output layer, `alpha` the rewards, `thr1` and `thr2` the weights of
entropy and distance, `gamma` the temperature, `err` is `m->error`. Of the
printing only the reads of `q[0]` and `q[1]` are kept. -/
noncomputable def policyError (n : Nat) (thr1 thr2 gamma : ℝ) (z alpha : Arr ℝ) (other : Option (Arr ℝ)) (err : Arr ℝ) :
    Option (Arr ℝ) := do
  let q2 ← otherPolicy n thr2 gamma other
  let q ← tempered n gamma z
  let _ ← q.read 0
  let _ ← q.read 1
  let error ← rewardLoop n q alpha ⟨n, fun _ => 0⟩
  let error ← entropyLoop n thr1 q error
  let error ← distanceLoop n thr2 q q2 error
  let err ← derivativeSoftmax err q error n
  loop n (fun i (e : Arr ℝ) => do
    let x ← e.read i
    e.write i (x * (1 / gamma))) err

/-! ### Model: inverse Q-learning -/

/-- The soft value of the next state: 0 when `gamma` is not positive. -/
noncomputable def nextValue (size : Nat) (alpha1 gamma : ℝ) (nextQ : Arr ℝ) : Option ℝ :=
  if 0 < gamma then do
    let y ← loop size (fun i (y : ℝ) => do
      let x ← nextQ.read i
      some (y + Real.exp (x / alpha1))) 0
    some (alpha1 * Real.log y / size)
  else some 0

/-- `derivative_inverse_q_function_array(current_q, next_q, output, action,
alpha1, alpha2, gamma, size)` (`/repo/src/math_functions.c` 431-458), called by
`inverse_q_model_error` (`/repo/src/model.c` 9217-9224) with the output layer,
the output given by the user, `m->error`, `m->error_alpha` and the two
thresholds. A zero denominator is not undefined here: it gives the value of the
real division, and the theorems exclude it. -/
noncomputable def inverseQ (size : Nat) (alpha1 alpha2 gamma : ℝ) (q nextQ action output : Arr ℝ) : Option (Arr ℝ) := do
  let y ← nextValue size alpha1 gamma nextQ
  let d ← loop size (fun i (d : ℝ) => do
    let x ← q.read i
    some (d + Real.exp (x / alpha1))) 0
  loop size (fun i (o : Arr ℝ) => do
    let a ← action.read i
    let x ← q.read i
    let o ← if 0 < a then
        o.write i (-1 - 2 / (4 * alpha2 * ((x - gamma * y) * (x - gamma * y) * (x - gamma * y))))
      else some o
    o.addAt i (Real.exp (x / alpha1) / (size * d))) output

/-! ### Specification -/

/-- The soft value of a state, divided by the number of actions. -/
noncomputable def softValue (size : Nat) (alpha1 : ℝ) (q : Nat → ℝ) : ℝ :=
  alpha1 * Real.log (∑ i ∈ range size, Real.exp (q i / alpha1)) / size

/-- The discounted value of the next state. -/
noncomputable def target (size : Nat) (alpha1 gamma : ℝ) (nextQ : Nat → ℝ) : ℝ :=
  if 0 < gamma then gamma * softValue size alpha1 nextQ else 0

/-- The loss of inverse Q-learning that is differentiated: for every chosen
action with `δ = Q(s,a) - γ V(s')` the term `-δ + 1/(4 α₂ δ²)`, plus the value of
the state. -/
noncomputable def inverseLoss (size : Nat) (alpha1 alpha2 gamma : ℝ) (action nextQ q : Nat → ℝ) : ℝ :=
  (∑ i ∈ range size, if 0 < action i then
    -(q i - target size alpha1 gamma nextQ) + 1 / (4 * alpha2 * (q i - target size alpha1 gamma nextQ) ^ 2) else 0) +
    softValue size alpha1 q


/-- The policy of the outputs `z` at temperature `gamma`. -/
noncomputable def policy (n : Nat) (gamma : ℝ) (z : Nat → ℝ) : Nat → ℝ := smax n (fun i => z i * (1 / gamma))

/-- The entropy of a policy. -/
noncomputable def entropy (n : Nat) (q : Nat → ℝ) : ℝ := -∑ i ∈ range n, q i * Real.log (q i)

/-- The distance of two policies. -/
noncomputable def distance (n : Nat) (q q2 : Nat → ℝ) : ℝ := Real.sqrt (∑ i ∈ range n, (q2 i - q i) ^ 2)

/-- The reward-weighted negative log-likelihood. -/
noncomputable def rewardTerm (n : Nat) (alpha q : Nat → ℝ) : ℝ := -∑ i ∈ range n, alpha i * Real.log (q i)

/-- The loss whose gradient is computed: rewards, plus the entropy, minus the
distance to the other policy. -/
noncomputable def loss (n : Nat) (thr1 thr2 gamma : ℝ) (alpha : Nat → ℝ) (other z : Nat → ℝ) : ℝ :=
  rewardTerm n alpha (policy n gamma z) + (if 0 < thr1 then thr1 * entropy n (policy n gamma z) else 0) -
    (if 0 < thr2 then thr2 * distance n (policy n gamma z) (policy n gamma other) else 0)

/-! ### Proofs -/

theorem tempered_eq (n : Nat) (gamma : ℝ) (z : Arr ℝ) (hz : n ≤ z.len) :
    ∃ q, tempered n gamma z = some q ∧ q.len = n ∧ ∀ i, i < n → q.get i = policy n gamma z.get i := by
  have h1 : Vec.map1D (fun x => x * (1 / gamma)) z ⟨n, fun _ => 0⟩ n = _ :=
    Vec.C64_map (fun x => x * (1 / gamma)) z ⟨n, fun _ => 0⟩ n hz (le_refl n)
  refine ⟨_, (bind_some_of h1).trans (softmax_eq _ _ n (le_refl n) (le_refl n)), rfl, fun i hi => ?_⟩
  dsimp only
  rw [if_pos hi]
  unfold policy
  exact smax_congr (fun k hk => if_pos hk) hi

theorem policy_pos (n : Nat) (gamma : ℝ) (z : Nat → ℝ) (i : Nat) (hi : i < n) : 0 < policy n gamma z i :=
  div_pos (Real.exp_pos _) (sum_exp_pos _ ⟨i, Finset.mem_range.2 hi⟩ _)

/-- Velocity of the softmax of a moving vector. -/
theorem smax_curve (n : Nat) (X : ℝ → Nat → ℝ) (X' : Nat → ℝ) (τ : ℝ) (h : Moves n X X' τ) (i : Nat) (hi : i < n) :
    HasDerivAt (fun s => smax n (X s) i) (smax n (X τ) i * (X' i - ∑ k ∈ range n, smax n (X τ) k * X' k)) τ := by
  have hp : 0 < ∑ k ∈ range n, Real.exp (X τ k) := sum_exp_pos _ ⟨i, Finset.mem_range.2 hi⟩ _
  have hd : HasDerivAt (fun s => ∑ k ∈ range n, Real.exp (X s k)) (∑ k ∈ range n, Real.exp (X τ k) * X' k) τ :=
    HasDerivAt.fun_sum fun k hk => (h k (Finset.mem_range.1 hk)).exp
  have := (h i hi).exp.fun_div hd hp.ne'
  refine this.congr_deriv ?_
  unfold smax
  have : ∑ k ∈ range n, Real.exp (X τ k) / (∑ k ∈ range n, Real.exp (X τ k)) * X' k =
      (∑ k ∈ range n, Real.exp (X τ k) * X' k) / ∑ k ∈ range n, Real.exp (X τ k) := by
    rw [Finset.sum_div]
    exact Finset.sum_congr rfl fun k _ => by ring
  rw [this]
  field_simp

theorem policy_curve (n : Nat) (gamma : ℝ) (Z : ℝ → Nat → ℝ) (Z' : Nat → ℝ) (τ : ℝ) (h : Moves n Z Z' τ) (i : Nat)
    (hi : i < n) : HasDerivAt (fun s => policy n gamma (Z s) i)
      (policy n gamma (Z τ) i * (Z' i * (1 / gamma) - ∑ k ∈ range n, policy n gamma (Z τ) k * (Z' k * (1 / gamma)))) τ :=
  smax_curve n (fun s i => Z s i * (1 / gamma)) (fun i => Z' i * (1 / gamma)) τ (fun k hk => (h k hk).mul_const _) i hi

/-- The derivative of the soft-max is its own transpose. -/
theorem dsoftmax_adjoint (n : Nat) (q e x : Nat → ℝ) :
    ∑ i ∈ range n, e i * (q i * (x i - ∑ k ∈ range n, q k * x k)) =
      ∑ k ∈ range n, (∑ j ∈ range n, ∑ i ∈ range n, if k = j then
        (if i = j then q i * (1 - q j) * e i else -(q j * q i * e i)) else 0) * x k := by
  have h1 : ∀ k ∈ range n, (∑ j ∈ range n, ∑ i ∈ range n, if k = j then
        (if i = j then q i * (1 - q j) * e i else -(q j * q i * e i)) else 0) * x k =
      q k * e k * x k - q k * x k * ∑ i ∈ range n, q i * e i := by
    intro k hk
    rw [Finset.sum_eq_single k (fun j _ hj => Finset.sum_eq_zero fun i _ => if_neg (Ne.symm hj)) (fun h => absurd hk h)]
    have : ∀ i ∈ range n, (if k = k then (if i = k then q i * (1 - q k) * e i else -(q k * q i * e i)) else 0) =
        (if i = k then q k * e k else 0) - q k * (q i * e i) := by
      intro i _
      rw [if_pos rfl]
      by_cases h : i = k
      · subst h; rw [if_pos rfl, if_pos rfl]; ring
      · rw [if_neg h, if_neg h]; ring
    rw [Finset.sum_congr rfl this, Finset.sum_sub_distrib, Finset.sum_ite_eq', if_pos hk, ← Finset.mul_sum]
    ring
  rw [Finset.sum_congr rfl h1, Finset.sum_sub_distrib, ← Finset.sum_mul]
  have h2 : ∀ i ∈ range n, e i * (q i * (x i - ∑ k ∈ range n, q k * x k)) =
      q i * e i * x i - q i * e i * ∑ k ∈ range n, q k * x k := fun i _ => by ring
  rw [Finset.sum_congr rfl h2, Finset.sum_sub_distrib, ← Finset.sum_mul]
  ring

/-- The derivative of the loss with respect to the policy. -/
noncomputable def inner (n : Nat) (thr1 thr2 : ℝ) (alpha q q2 : Nat → ℝ) (i : Nat) : ℝ :=
  -1 / q i * alpha i + (if 0 < thr1 then -(thr1 * (1 + Real.log (q i))) else 0) +
    if 0 < thr2 ∧ 0 < distance n q q2 then -(thr2 * (q i - q2 i) / distance n q q2) else 0

theorem policyError_run (n : Nat) (thr1 thr2 gamma : ℝ) (z alpha : Arr ℝ) (other : Option (Arr ℝ)) (o err : Arr ℝ)
    (hn : 2 ≤ n) (hz : n ≤ z.len) (ha : n ≤ alpha.len) (ho : 0 < thr2 → other = some o ∧ n ≤ o.len) (he : n ≤ err.len) :
    ∃ r, policyError n thr1 thr2 gamma z alpha other err = some r ∧ r.len = err.len ∧
      ∀ j, j < n → r.get j = (err.get j + ∑ j' ∈ range n, ∑ i ∈ range n, if j = j' then
        (if i = j' then policy n gamma z.get i * (1 - policy n gamma z.get j') *
            inner n thr1 thr2 alpha.get (policy n gamma z.get) (policy n gamma o.get) i
          else -(policy n gamma z.get j' * policy n gamma z.get i *
            inner n thr1 thr2 alpha.get (policy n gamma z.get) (policy n gamma o.get) i)) else 0) * (1 / gamma) := by
  obtain ⟨q, eq, lq, gq⟩ := tempered_eq n gamma z hz
  have e2 : ∃ q2, otherPolicy n thr2 gamma other = some q2 ∧ (0 < thr2 → q2.len = n ∧ ∀ i, i < n → q2.get i = policy n gamma o.get i) := by
    unfold otherPolicy
    by_cases h : 0 < thr2
    · obtain ⟨h1, h2⟩ := ho h
      obtain ⟨q2, a, b, c⟩ := tempered_eq n gamma o h2
      rw [if_pos h, h1]
      exact ⟨q2, a, fun _ => ⟨b, c⟩⟩
    · rw [if_neg h]
      exact ⟨_, rfl, fun h' => absurd h' h⟩
  obtain ⟨q2, eq2, gq2⟩ := e2
  have r1 : rewardLoop n q alpha ⟨n, fun _ => 0⟩ = some ⟨n, fun k => if k < n then -1 / q.get k * alpha.get k else 0⟩ :=
    loop_fill (fun k => -1 / q.get k * alpha.get k) fun i hi b hb _ => by
      simp [Arr.read_eq (show i < alpha.len by omega), Arr.read_eq (show i < q.len by omega),
        Arr.write_eq _ (show i < b.len by rw [hb]; exact hi)]
  have r2 : ∀ e : Arr ℝ, e.len = n → ∃ e', entropyLoop n thr1 q e = some e' ∧ e'.len = n ∧ ∀ i, i < n → e'.get i = e.get i +
      if 0 < thr1 then -(thr1 * (1 + Real.log (q.get i))) else 0 := by
    intro e le
    unfold entropyLoop
    by_cases h : 0 < thr1
    · rw [if_pos h]
      have := loop_add (n := n) (f := fun i (e : Arr ℝ) => do
          let x ← q.read i
          if x = 0 then e.addAt i (-(thr1 * (1 - 999))) else e.addAt i (-(thr1 * (1 + Real.log x))))
        (fun i k => if k = i then -(thr1 * (1 + Real.log (q.get i))) else 0) (a := e) (fun i hi b hb => by
          have hq : q.get i ≠ 0 := by rw [gq i hi]; exact (policy_pos n gamma _ i hi).ne'
          rw [Arr.read_eq (show i < q.len by omega), Option.bind_eq_bind, Option.bind_some, if_neg hq,
            Arr.addAt_eq' _ (show i < b.len by omega)])
      refine ⟨_, this, le, fun i hi => ?_⟩
      dsimp only
      rw [Finset.sum_ite_eq, if_pos (Finset.mem_range.2 hi), if_pos h]
    · rw [if_neg h]
      refine ⟨e, rfl, le, fun i _ => ?_⟩
      rw [if_neg h, add_zero]
  have r3 : ∀ e : Arr ℝ, e.len = n → ∃ e', distanceLoop n thr2 q q2 e = some e' ∧ e'.len = n ∧ ∀ i, i < n → e'.get i = e.get i +
      if 0 < thr2 ∧ 0 < distance n q.get q2.get then -(thr2 * (q.get i - q2.get i) / distance n q.get q2.get) else 0 := by
    intro e le
    unfold distanceLoop
    by_cases h : 0 < thr2
    · rw [if_pos h]
      obtain ⟨l2, -⟩ := gq2 h
      have hs := loop_sum (n := n) (f := fun i (s : ℝ) => do
          let a ← q2.read i
          let b ← q.read i
          some (s + (a - b) * (a - b))) (s := 0) (fun i => (q2.get i - q.get i) * (q2.get i - q.get i)) (fun i hi t => by
            simp [Arr.read_eq (show i < q.len by omega), Arr.read_eq (show i < q2.len by omega)])
      rw [hs, Option.bind_eq_bind, Option.bind_some]
      have hd : Real.sqrt (0 + ∑ i ∈ range n, (q2.get i - q.get i) * (q2.get i - q.get i)) = distance n q.get q2.get := by
        unfold distance
        rw [zero_add]
        exact congrArg _ (Finset.sum_congr rfl fun i _ => (sq _).symm)
      rw [hd]
      by_cases h' : 0 < distance n q.get q2.get
      · rw [if_pos h']
        have := loop_add (n := n) (f := fun i (e : Arr ℝ) => do
            let a ← q.read i
            let b ← q2.read i
            e.addAt i (-(thr2 * (a - b) / distance n q.get q2.get)))
          (fun i k => if k = i then -(thr2 * (q.get i - q2.get i) / distance n q.get q2.get) else 0) (a := e) (fun i hi b hb => by
            rw [Arr.read_eq (show i < q.len by omega), Option.bind_eq_bind, Option.bind_some,
              Arr.read_eq (show i < q2.len by omega), Option.bind_some,
              Arr.addAt_eq' _ (show i < b.len by omega)])
        refine ⟨_, this, le, fun i hi => ?_⟩
        dsimp only
        rw [Finset.sum_ite_eq, if_pos (Finset.mem_range.2 hi), if_pos ⟨h, h'⟩]
      · rw [if_neg h']
        refine ⟨e, rfl, le, fun i _ => ?_⟩
        rw [if_neg (fun h'' => h' h''.2), add_zero]
    · rw [if_neg h]
      refine ⟨e, rfl, le, fun i _ => ?_⟩
      rw [if_neg (fun h'' => h h''.1), add_zero]
  obtain ⟨e2, ee2, le2, ge2⟩ := r2 ⟨n, fun k => if k < n then -1 / q.get k * alpha.get k else 0⟩ rfl
  obtain ⟨e3, ee3, le3, ge3⟩ := r3 e2 le2
  have e4 := derivativeSoftmax_eq err q e3 n (by omega) (by omega) he
  have e5 := loop_fill (n := n) (f := fun i (e : Arr ℝ) => do
      let x ← e.read i
      e.write i (x * (1 / gamma)))
    (fun k => (err.get k + ∑ j ∈ range n, ∑ i ∈ range n, if k = j then
        (if i = j then q.get i * (1 - q.get j) * e3.get i
          else -(q.get j * q.get i * e3.get i)) else 0) * (1 / gamma))
    (a := ⟨err.len, fun k => err.get k + ∑ j ∈ range n, ∑ i ∈ range n, if k = j then
        (if i = j then q.get i * (1 - q.get j) * e3.get i
          else -(q.get j * q.get i * e3.get i)) else 0⟩) (fun i hi b hb hk => by
      have hl : i < b.len := by rw [hb]; exact lt_of_lt_of_le hi he
      rw [Arr.read_eq hl, Option.bind_eq_bind, Option.bind_some, Arr.write_eq _ hl, hk i (le_refl _)])
  unfold policyError
  simp only [Option.bind_eq_bind]
  rw [eq2, Option.bind_some, eq, Option.bind_some, Arr.read_eq (show 0 < q.len by omega),
    Option.bind_some, Arr.read_eq (show 1 < q.len by omega), Option.bind_some, r1, Option.bind_some, ee2, Option.bind_some,
    ee3, Option.bind_some, e4, Option.bind_some]
  refine ⟨_, e5, rfl, fun j hj => ?_⟩
  · dsimp only
    rw [if_pos hj]
    congr 2
    refine Finset.sum_congr rfl fun j' hj' => Finset.sum_congr rfl fun i hi => ?_
    have hi' := Finset.mem_range.1 hi
    have hinner : e3.get i = inner n thr1 thr2 alpha.get (policy n gamma z.get) (policy n gamma o.get) i := by
      rw [ge3 i hi', ge2 i hi']
      dsimp only
      rw [if_pos hi']
      unfold inner
      rw [gq i hi']
      by_cases h : 0 < thr2
      · have hd : distance n q.get q2.get = distance n (policy n gamma z.get) (policy n gamma o.get) := by
          unfold distance
          exact congrArg _ (Finset.sum_congr rfl fun k hk => by
            rw [gq k (Finset.mem_range.1 hk), (gq2 h).2 k (Finset.mem_range.1 hk)])
        rw [hd, (gq2 h).2 i hi']
      · congr 1
        rw [if_neg (fun h' => h h'.1), if_neg (fun h' => h h'.1)]
    rw [hinner, gq i hi', gq j' (Finset.mem_range.1 hj')]

/-- **C120.** With a cleared error array, the error computed for a policy is the
gradient, in every direction, of the loss
`-Σ rᵢ log πᵢ + τ·H(π) - δ·‖π - π'‖`, where `π` is the softmax of the outputs at
the given temperature, `H` its entropy and `π'` the other policy; the two last
terms are present when their weights are positive. The distance must not be
zero, where it has no derivative, and there must be two actions. -/
theorem C120_policy_error (n : Nat) (thr1 thr2 gamma : ℝ) (z alpha : Arr ℝ) (other : Option (Arr ℝ)) (o err : Arr ℝ)
    (hn : 2 ≤ n) (hz : n ≤ z.len) (ha : n ≤ alpha.len) (ho : 0 < thr2 → other = some o ∧ n ≤ o.len) (he : n ≤ err.len)
    (h0 : ∀ j, j < n → err.get j = 0)
    (hd : 0 < thr2 → 0 < distance n (policy n gamma z.get) (policy n gamma o.get)) :
    ∃ r, policyError n thr1 thr2 gamma z alpha other err = some r ∧
      ∀ (Z : ℝ → Nat → ℝ) (Z' : Nat → ℝ) (τ : ℝ), Z τ = z.get → Moves n Z Z' τ →
        HasDerivAt (fun s => loss n thr1 thr2 gamma alpha.get o.get (Z s)) (∑ j ∈ range n, r.get j * Z' j) τ := by
  obtain ⟨r, er, -, gr⟩ := policyError_run n thr1 thr2 gamma z alpha other o err hn hz ha ho he
  refine ⟨r, er, fun Z Z' τ hZ mZ => ?_⟩
  set q := policy n gamma z.get with hq
  set q2 := policy n gamma o.get with hq2
  set D : Nat → ℝ := fun i => q i * (Z' i * (1 / gamma) - ∑ k ∈ range n, q k * (Z' k * (1 / gamma))) with hD
  have cq : ∀ i, i < n → HasDerivAt (fun s => policy n gamma (Z s) i) (D i) τ := by
    intro i hi
    have := policy_curve n gamma Z Z' τ mZ i hi
    rw [hZ] at this
    exact this
  have at0 : ∀ i, policy n gamma (Z τ) i = q i := fun i => by rw [hZ]
  have qp : ∀ i, i < n → 0 < q i := fun i hi => policy_pos n gamma _ i hi
  have cl : ∀ i, i < n → HasDerivAt (fun s => Real.log (policy n gamma (Z s) i)) (D i / q i) τ := by
    intro i hi
    have := (cq i hi).log (by rw [at0]; exact (qp i hi).ne')
    rw [at0] at this
    exact this
  have c1 : HasDerivAt (fun s => rewardTerm n alpha.get (policy n gamma (Z s))) (∑ i ∈ range n, -1 / q i * alpha.get i * D i) τ := by
    have := (HasDerivAt.fun_sum (u := range n) fun i hi => (cl i (Finset.mem_range.1 hi)).const_mul (alpha.get i)).fun_neg
    refine this.congr_deriv ?_
    rw [← Finset.sum_neg_distrib]
    exact Finset.sum_congr rfl fun i _ => by ring
  have c2 : HasDerivAt (fun s => if 0 < thr1 then thr1 * entropy n (policy n gamma (Z s)) else 0)
      (∑ i ∈ range n, (if 0 < thr1 then -(thr1 * (1 + Real.log (q i))) else 0) * D i) τ := by
    by_cases h : 0 < thr1
    · simp only [if_pos h]
      have := ((HasDerivAt.fun_sum (u := range n) fun i hi => (cq i (Finset.mem_range.1 hi)).fun_mul
        (cl i (Finset.mem_range.1 hi))).fun_neg).const_mul thr1
      refine this.congr_deriv ?_
      rw [← Finset.sum_neg_distrib, Finset.mul_sum]
      refine Finset.sum_congr rfl fun i hi => ?_
      rw [at0]
      have := (qp i (Finset.mem_range.1 hi)).ne'
      field_simp
      ring
    · simp only [if_neg h, zero_mul, Finset.sum_const_zero]
      exact hasDerivAt_const _ _
  have c3 : HasDerivAt (fun s => if 0 < thr2 then thr2 * distance n (policy n gamma (Z s)) q2 else 0)
      (∑ i ∈ range n, (if 0 < thr2 ∧ 0 < distance n q q2 then thr2 * (q i - q2 i) / distance n q q2 else 0) * D i) τ := by
    by_cases h : 0 < thr2
    · have hp := hd h
      simp only [if_pos h, if_pos (And.intro h hp)]
      have hs : HasDerivAt (fun s => ∑ i ∈ range n, (q2 i - policy n gamma (Z s) i) ^ 2)
          (∑ i ∈ range n, 2 * (q i - q2 i) * D i) τ := by
        have := HasDerivAt.fun_sum (u := range n) fun i hi => ((cq i (Finset.mem_range.1 hi)).const_sub (q2 i)).fun_pow 2
        refine this.congr_deriv (Finset.sum_congr rfl fun i _ => ?_)
        rw [at0]
        push_cast
        ring
      have hne : ∑ i ∈ range n, (q2 i - policy n gamma (Z τ) i) ^ 2 ≠ 0 := by
        simp only [at0]
        intro h'
        unfold distance at hp
        rw [h', Real.sqrt_zero] at hp
        exact lt_irrefl _ hp
      have := (hs.sqrt hne).const_mul thr2
      refine this.congr_deriv ?_
      have hdd : Real.sqrt (∑ i ∈ range n, (q2 i - policy n gamma (Z τ) i) ^ 2) = distance n q q2 := by
        simp only [at0]
        rfl
      rw [hdd, Finset.sum_div, Finset.mul_sum]
      refine Finset.sum_congr rfl fun i _ => ?_
      field_simp
    · simp only [if_neg h, if_neg (fun h' : 0 < thr2 ∧ 0 < distance n q q2 => h h'.1), zero_mul, Finset.sum_const_zero]
      exact hasDerivAt_const _ _
  have key := (c1.fun_add c2).fun_sub c3
  refine key.congr_deriv ?_
  have hr : ∑ j ∈ range n, r.get j * Z' j = ∑ i ∈ range n, inner n thr1 thr2 alpha.get q q2 i * D i := by
    rw [dsoftmax_adjoint n q (inner n thr1 thr2 alpha.get q q2) (fun i => Z' i * (1 / gamma))]
    refine Finset.sum_congr rfl fun j hj => ?_
    rw [gr j (Finset.mem_range.1 hj), h0 j (Finset.mem_range.1 hj), zero_add]
    ring
  rw [hr, ← Finset.sum_add_distrib, ← Finset.sum_sub_distrib]
  refine Finset.sum_congr rfl fun i _ => ?_
  unfold inner
  by_cases h : 0 < thr2 ∧ 0 < distance n q q2
  · rw [if_pos h, if_pos h]; ring
  · rw [if_neg h, if_neg h]; ring

/-- Two actions, rewards, entropy and another policy: the hypotheses of
`C120_policy_error` hold together. -/
example : ∃ r, policyError 2 1 1 2 ⟨2, fun i => i⟩ ⟨2, fun _ => 3⟩ (some ⟨2, fun _ => 0⟩) ⟨2, fun _ => 0⟩ = some r ∧
    ∀ (Z : ℝ → Nat → ℝ) (Z' : Nat → ℝ) (τ : ℝ), Z τ = (fun i : Nat => (i : ℝ)) → Moves 2 Z Z' τ →
      HasDerivAt (fun s => loss 2 1 1 2 (fun _ => 3) (fun _ => 0) (Z s)) (∑ j ∈ range 2, r.get j * Z' j) τ := by
  refine C120_policy_error 2 1 1 2 ⟨2, fun i => i⟩ ⟨2, fun _ => 3⟩ (some ⟨2, fun _ => 0⟩) ⟨2, fun _ => 0⟩ ⟨2, fun _ => 0⟩
    (by norm_num) (le_refl _) (le_refl _) (fun _ => ⟨rfl, le_refl _⟩) (le_refl _) (fun _ _ => rfl) fun _ => ?_
  unfold distance
  refine Real.sqrt_pos.2 (Finset.sum_pos' (fun _ _ => sq_nonneg _) ⟨0, by simp, ?_⟩)
  refine sq_pos_of_ne_zero ?_
  unfold policy smax
  simp only [Finset.sum_range_succ, Finset.sum_range_zero]
  norm_num
  intro h
  have : Real.exp (1 / 2) > 1 := Real.one_lt_exp_iff.2 (by norm_num)
  have h3 : (1 + Real.exp (1 / 2)) ≠ 0 := by positivity
  field_simp at h
  linarith

/-- **C120, refutation.** The entropy enters with the wrong sign for a bonus: with
no rewards and no other policy, following the negative error, as every optimizer
of the library does, lowers the entropy of the policy, whatever the weight. -/
theorem C120_entropy_refuted (n : Nat) (thr1 gamma : ℝ) (z alpha err : Arr ℝ) (hn : 2 ≤ n) (hz : n ≤ z.len)
    (ha : n ≤ alpha.len) (he : n ≤ err.len) (h0 : ∀ j, j < n → err.get j = 0) (ha0 : ∀ j, j < n → alpha.get j = 0)
    (ht : 0 < thr1) :
    ∃ r, policyError n thr1 0 gamma z alpha none err = some r ∧
      HasDerivAt (fun s => entropy n (policy n gamma fun j => z.get j - s * r.get j))
        (-(∑ j ∈ range n, r.get j ^ 2) / thr1) 0 := by
  obtain ⟨r, er, H⟩ := C120_policy_error n thr1 0 gamma z alpha none z err hn hz ha (fun h => absurd h (lt_irrefl _)) he h0
    (fun h => absurd h (lt_irrefl _))
  refine ⟨r, er, ?_⟩
  have hm : Moves n (fun s j => z.get j - s * r.get j) (fun j => -r.get j) 0 := by
    intro j _
    have := ((hasDerivAt_id (0 : ℝ)).mul_const (r.get j)).const_sub (z.get j)
    simpa using this
  have := (H _ _ 0 (by funext j; simp) hm).div_const thr1
  refine (this.congr_deriv ?_).congr_of_eventuallyEq (Filter.Eventually.of_forall fun s => ?_)
  · congr 1
    rw [← Finset.sum_neg_distrib]
    exact Finset.sum_congr rfl fun j _ => by ring
  · unfold loss
    dsimp only
    rw [if_pos ht, if_neg (lt_irrefl _)]
    have : rewardTerm n alpha.get (policy n gamma fun j => z.get j - s * r.get j) = 0 := by
      unfold rewardTerm
      rw [Finset.sum_eq_zero fun i hi => by rw [ha0 i (Finset.mem_range.1 hi), zero_mul], neg_zero]
    rw [this]
    field_simp
    ring

/-- The rate is negative for the outputs `1` and `0`. -/
theorem C120_entropy_falls_refuted : ∃ r, policyError 2 1 0 1 ⟨2, fun i => if i = 0 then 1 else 0⟩ ⟨2, fun _ => 0⟩ none
      ⟨2, fun _ => 0⟩ = some r ∧ -(∑ j ∈ range 2, r.get j ^ 2) / 1 < 0 := by
  obtain ⟨r, er, -, gr⟩ := policyError_run 2 1 0 1 ⟨2, fun i => if i = 0 then 1 else 0⟩ ⟨2, fun _ => 0⟩ none ⟨2, fun _ => 0⟩
    ⟨2, fun _ => 0⟩ (le_refl _) (le_refl _) (le_refl _) (fun h => absurd h (lt_irrefl _)) (le_refl _)
  refine ⟨r, er, ?_⟩
  set q := policy 2 1 (fun i => if i = 0 then (1 : ℝ) else 0) with hq
  have q0 : q 0 = Real.exp 1 / (Real.exp 1 + 1) := by
    rw [hq]; unfold policy smax; simp [Finset.sum_range_succ]
  have q1 : q 1 = 1 / (Real.exp 1 + 1) := by
    rw [hq]; unfold policy smax; simp [Finset.sum_range_succ]
  have hp := Real.exp_pos 1
  have l0 : Real.log (q 0) = 1 - Real.log (Real.exp 1 + 1) := by
    rw [q0, Real.log_div hp.ne' (by positivity), Real.log_exp]
  have l1 : Real.log (q 1) = -Real.log (Real.exp 1 + 1) := by
    rw [q1, Real.log_div one_ne_zero (by positivity), Real.log_one, zero_sub]
  have r0 : r.get 0 = -(q 0 * q 1) := by
    rw [gr 0 (by norm_num)]
    simp only [inner, Finset.sum_range_succ, Finset.sum_range_zero]
    norm_num
    rw [l0, l1]
    have : q 0 = 1 - q 1 := by rw [q0, q1]; field_simp; ring
    rw [this]; ring
  have hne : r.get 0 ≠ 0 := by
    rw [r0, q0, q1]
    have : Real.exp 1 + 1 ≠ 0 := by positivity
    intro h
    have := neg_eq_zero.1 h
    have h2 : 0 < Real.exp 1 / (Real.exp 1 + 1) * (1 / (Real.exp 1 + 1)) := by positivity
    linarith
  rw [Finset.sum_range_succ, Finset.sum_range_one]
  have := sq_pos_of_ne_zero hne
  have := sq_nonneg (r.get 1)
  linarith

/-- **C120, refutation.** A policy with a single action is not possible: the
second probability is printed, hence read out of range. -/
theorem C120_one_action_refuted (thr1 thr2 gamma : ℝ) (z alpha err : Arr ℝ) (other : Option (Arr ℝ)) (hz : 1 ≤ z.len) :
    policyError 1 thr1 thr2 gamma z alpha other err = none := by
  obtain ⟨q, eq, lq, -⟩ := tempered_eq 1 gamma z hz
  unfold policyError
  rw [Option.bind_eq_bind, Option.bind_eq_none_iff]
  intro q2 _
  refine (bind_some_of eq).trans ?_
  refine (bind_some_of (Arr.read_eq (show 0 < q.len by omega))).trans ?_
  have : q.read 1 = none := by
    unfold Arr.read
    rw [if_neg (by omega)]
  rw [this]
  rfl

theorem inverseQ_run (size : Nat) (alpha1 alpha2 gamma : ℝ) (q nextQ action output : Arr ℝ) (hq : size ≤ q.len)
    (hn : 0 < gamma → size ≤ nextQ.len) (ha : size ≤ action.len) (ho : size ≤ output.len) :
    inverseQ size alpha1 alpha2 gamma q nextQ action output = some ⟨output.len, fun k => if k < size then
      (if 0 < action.get k then -1 - 2 / (4 * alpha2 * (q.get k - target size alpha1 gamma nextQ.get) ^ 3) else output.get k) +
        Real.exp (q.get k / alpha1) / (size * ∑ i ∈ range size, Real.exp (q.get i / alpha1)) else output.get k⟩ := by
  have e1 : ∃ y, nextValue size alpha1 gamma nextQ = some y ∧ gamma * y = target size alpha1 gamma nextQ.get := by
    unfold nextValue target
    by_cases h : 0 < gamma
    · rw [if_pos h, if_pos h]
      have := loop_sum (n := size) (f := fun i (y : ℝ) => do
        let x ← nextQ.read i
        some (y + Real.exp (x / alpha1))) (s := 0) (fun i => Real.exp (nextQ.get i / alpha1)) (fun i hi t => by
          simp [Arr.read_eq (show i < nextQ.len from lt_of_lt_of_le hi (hn h))])
      refine ⟨_, bind_some_of this, ?_⟩
      rw [zero_add]
      rfl
    · rw [if_neg h, if_neg h]
      exact ⟨0, rfl, mul_zero _⟩
  obtain ⟨y, ey, hy⟩ := e1
  have e2 := loop_sum (n := size) (f := fun i (d : ℝ) => do
        let x ← q.read i
        some (d + Real.exp (x / alpha1))) (s := 0) (fun i => Real.exp (q.get i / alpha1)) (fun i hi t => by
          simp [Arr.read_eq (show i < q.len from lt_of_lt_of_le hi hq)])
  refine (bind_some_of ey).trans <| (bind_some_of e2).trans ?_
  refine loop_fill (a := output) (fun k => (if 0 < action.get k then -1 - 2 / (4 * alpha2 * (q.get k - target size alpha1 gamma nextQ.get) ^ 3) else output.get k) +
        Real.exp (q.get k / alpha1) / (size * ∑ i ∈ range size, Real.exp (q.get i / alpha1))) fun i hi b hb hk => ?_
  have hl : i < b.len := by omega
  rw [Arr.read_eq (show i < action.len by omega), Option.bind_eq_bind, Option.bind_some,
    Arr.read_eq (show i < q.len by omega), Option.bind_some, hy, zero_add]
  have hc : ∀ x : ℝ, x * x * x = x ^ 3 := fun x => by ring
  rw [hc]
  by_cases h : 0 < action.get i
  · rw [if_pos h, Arr.write_eq _ hl, Option.bind_eq_bind, Option.bind_some]
    refine (Arr.addAt_eq' _ (by exact hl)).trans ?_
    refine congrArg some (Arr.ext' rfl fun k => ?_)
    dsimp only
    by_cases hki : k = i
    · subst hki; simp [h]
    · simp [hki]
  · rw [if_neg h, Option.bind_eq_bind, Option.bind_some]
    refine (Arr.addAt_eq' _ hl).trans ?_
    refine congrArg some (Arr.ext' rfl fun k => ?_)
    dsimp only
    by_cases hki : k = i
    · subst hki; simp [h, hk k (le_refl _)]
    · simp [hki]

/-- **C121.** With a cleared error array, non-zero temperatures and no chosen action whose value equals the discounted value of the
next state, the error of inverse Q-learning is the gradient, in every direction,
of `inverseLoss`, the next state being held fixed. Without a positive
discount the values of the next state are not read. -/
theorem C121_inverse_q_error (size : Nat) (alpha1 alpha2 gamma : ℝ) (q nextQ action output : Arr ℝ) (hs : 0 < size)
    (hq : size ≤ q.len) (hn : 0 < gamma → size ≤ nextQ.len) (ha : size ≤ action.len) (ho : size ≤ output.len)
    (h1 : alpha1 ≠ 0) (h2 : alpha2 ≠ 0) (h0 : ∀ j, j < size → output.get j = 0)
    (hd : ∀ i, i < size → 0 < action.get i → q.get i ≠ target size alpha1 gamma nextQ.get) :
    ∃ r, inverseQ size alpha1 alpha2 gamma q nextQ action output = some r ∧ r.len = output.len ∧
      ∀ (Q : ℝ → Nat → ℝ) (Q' : Nat → ℝ) (τ : ℝ), Q τ = q.get → Moves size Q Q' τ →
        HasDerivAt (fun s => inverseLoss size alpha1 alpha2 gamma action.get nextQ.get (Q s))
          (∑ j ∈ range size, r.get j * Q' j) τ := by
  refine ⟨_, inverseQ_run size alpha1 alpha2 gamma q nextQ action output hq hn ha ho, rfl,
    fun Q Q' τ hQ mQ => ?_⟩
  have at0 : ∀ i, Q τ i = q.get i := fun i => by rw [hQ]
  set V := target size alpha1 gamma nextQ.get with hV
  have hsz : (size : ℝ) ≠ 0 := by exact_mod_cast hs.ne'
  have c1 : HasDerivAt (fun s => ∑ i ∈ range size, if 0 < action.get i then -(Q s i - V) + 1 / (4 * alpha2 * (Q s i - V) ^ 2) else 0)
      (∑ i ∈ range size, (if 0 < action.get i then -1 - 2 / (4 * alpha2 * (q.get i - V) ^ 3) else 0) * Q' i) τ := by
    refine HasDerivAt.fun_sum fun i hi => ?_
    have hi' := Finset.mem_range.1 hi
    by_cases h : 0 < action.get i
    · simp only [if_pos h]
      have hne : q.get i - V ≠ 0 := sub_ne_zero.2 (hd i hi' h)
      have hm : HasDerivAt (fun s => Q s i - V) (Q' i) τ := (mQ i hi').sub_const V
      have hp := (hm.fun_pow 2).const_mul (4 * alpha2)
      have hne' : 4 * alpha2 * (Q τ i - V) ^ 2 ≠ 0 := by rw [at0]; positivity
      have := hm.fun_neg.fun_add (hp.fun_inv hne')
      simp only [one_div]
      refine this.congr_deriv ?_
      rw [at0]
      push_cast
      field_simp
      ring
    · simp only [if_neg h, zero_mul]
      exact hasDerivAt_const _ _
  have c2 : HasDerivAt (fun s => softValue size alpha1 (Q s))
      (∑ i ∈ range size, Real.exp (q.get i / alpha1) / (size * ∑ i ∈ range size, Real.exp (q.get i / alpha1)) * Q' i) τ := by
    have hp : 0 < ∑ i ∈ range size, Real.exp (q.get i / alpha1) :=
      sum_exp_pos _ ⟨0, Finset.mem_range.2 hs⟩ (fun i => q.get i / alpha1)
    have hd : HasDerivAt (fun s => ∑ k ∈ range size, Real.exp (Q s k / alpha1))
        (∑ k ∈ range size, Real.exp (q.get k / alpha1) * (Q' k / alpha1)) τ := by
      have := HasDerivAt.fun_sum (u := range size) fun k hk => ((mQ k (Finset.mem_range.1 hk)).div_const alpha1).exp
      simpa only [at0] using this
    have := ((hd.log (by simp only [at0]; exact hp.ne')).const_mul alpha1).div_const (size : ℝ)
    refine this.congr_deriv ?_
    simp only [at0]
    rw [Finset.sum_div, Finset.mul_sum, Finset.sum_div]
    refine Finset.sum_congr rfl fun i _ => ?_
    field_simp
  have := c1.fun_add c2
  refine this.congr_deriv ?_
  rw [← Finset.sum_add_distrib]
  refine Finset.sum_congr rfl fun i hi => ?_
  dsimp only
  rw [if_pos (Finset.mem_range.1 hi), h0 i (Finset.mem_range.1 hi)]
  by_cases h : 0 < action.get i
  · rw [if_pos h]; ring
  · rw [if_neg h]; ring

/-- Two actions, the first chosen, with a next state. -/
example : ∃ r, inverseQ 2 1 1 (1/2) ⟨2, fun _ => 7⟩ ⟨2, fun _ => 0⟩ ⟨2, fun i => if i = 0 then 1 else 0⟩ ⟨2, fun _ => 0⟩ = some r ∧
    r.len = 2 ∧ ∀ (Q : ℝ → Nat → ℝ) (Q' : Nat → ℝ) (τ : ℝ), Q τ = (fun _ => (7 : ℝ)) → Moves 2 Q Q' τ →
        HasDerivAt (fun s => inverseLoss 2 1 1 (1/2) (fun i => if i = 0 then 1 else 0) (fun _ => 0) (Q s))
          (∑ j ∈ range 2, r.get j * Q' j) τ := by
  refine C121_inverse_q_error 2 1 1 (1/2) ⟨2, fun _ => 7⟩ ⟨2, fun _ => 0⟩ ⟨2, fun i => if i = 0 then 1 else 0⟩ ⟨2, fun _ => 0⟩
    (by norm_num) (le_refl _) (fun _ => le_refl _) (le_refl _) (le_refl _) one_ne_zero one_ne_zero
    (fun _ _ => rfl) fun i _ _ => ?_
  unfold target softValue
  rw [if_pos (by norm_num)]
  simp only [zero_div, Real.exp_zero, Finset.sum_const, Finset.card_range]
  norm_num
  have : Real.log 2 ≤ 2 - 1 := Real.log_le_sub_one_of_pos (by norm_num)
  intro h
  linarith

/-- **C121, refutation.** The regulariser is not the one of the chi-square
divergence, `-(δ - δ²/(4 α₂))`, whose slope in a chosen action is
`-1 + δ/(2 α₂)` plus the slope of the value: at `δ = 1`, `α₂ = 1` the code
writes `-3/2` and not `-1/2`. -/
theorem C121_chi_square_refuted : ∃ r, inverseQ 1 1 1 0 ⟨1, fun _ => 1⟩ ⟨0, fun _ => 0⟩ ⟨1, fun _ => 1⟩ ⟨1, fun _ => 0⟩ = some r ∧
    r.get 0 = -1 / 2 ∧
    HasDerivAt (fun x : ℝ => -(x - x ^ 2 / 4) + softValue 1 1 (fun _ => x)) (1 / 2) 1 := by
  refine ⟨_, inverseQ_run 1 1 1 0 ⟨1, fun _ => 1⟩ ⟨0, fun _ => 0⟩ ⟨1, fun _ => 1⟩ ⟨1, fun _ => 0⟩ (le_refl _)
    (fun h => absurd h (lt_irrefl _)) (le_refl _) (le_refl _), ?_, ?_⟩
  · simp [target]
    norm_num
  · have : (fun x : ℝ => -(x - x ^ 2 / 4) + softValue 1 1 (fun _ => x)) = fun x : ℝ => x ^ 2 / 4 := by
      funext x
      simp [softValue]
    rw [this]
    have := (hasDerivAt_pow 2 (1 : ℝ)).div_const 4
    refine this.congr_deriv ?_
    norm_num

end LLab.PolicyError
