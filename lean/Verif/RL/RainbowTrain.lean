import Verif.RL.PolicyTrain
import Verif.Replay.BufferProps
import Mathlib.Analysis.SpecialFunctions.Pow.Real

/-!
One training passage of `train_rainbow` (`/repo/src/rainbow.c` 1750-1838) after the
experiences have been sampled (C59, C60) and their returns computed (C61), and the
functions of `/repo/src/multi_core_dueling_categorical_dqn.c` it calls. Property C129.

As in C122 the networks are parameters: what one pass adds to the derivatives is an
arbitrary function. What is modelled is which passes are made, with which data, and where
their results go.
-/

namespace LLab.RainbowTrain

open Finset LLab.SumTree LLab.Schedule

/-- The data of one temporal difference pass: the arguments of
`get_loss_for_dueling_categorical_dqn_opt_with_error` or
`get_loss_for_qr_dqn_opt_with_error`. -/
structure Item (X : Type) where
  state : X
  reward : ℝ
  action : Int
  next : X
  nonterm : Int
  lam : ℝ
  weight : ℝ

/-- The networks: parameters `Θ`, components `C` of the derivatives, buffers `B`. -/
structure Fns (Θ C B X : Type) where
  cleanOn : B
  cleanTg : B
  /-- a loss followed by the backward pass, on the buffers of the online and the target
  network of a thread: new buffers, derivatives added, error (`new_error`) -/
  td : B → B → Θ → Θ → Item X → B × B × (C → ℝ) × ℝ
  /-- `compute_l_infinite_…_opt` followed by the backward pass, for a state, its recorded
  action values and `alpha`: new buffers, derivatives added, value returned -/
  dd : B → Θ → X → (Nat → ℝ) → ℝ → B × (C → ℝ) × ℝ

/-- The sampled batch: the arrays `temp_states_t`, `temp_rewards`, `temp_actions`,
`temp_states_t_1`, `temp_nonterminal_state_t_1`, `lambdas` and `weighted_errors`. -/
structure Batch (X : Type) where
  size : Nat
  state : Nat → X
  reward : Nat → ℝ
  action : Nat → Int
  next : Nat → X
  nonterm : Nat → Int
  lam : Nat → ℝ
  weight : Nat → ℝ

/-- The networks of the agent: parameters of the online and the target network,
derivatives of the online network, derivatives and buffers of the copies of the threads
(`online_net_wlp`, `target_net_wlp`), and `new_errors`. -/
structure Nets (Θ C B : Type) where
  θ : Θ
  θt : Θ
  d : C → ℝ
  wd : Nat → C → ℝ
  on : Nat → B
  tg : Nat → B
  newErr : Nat → ℝ

variable {Θ C B X : Type}

/-- What thread `k` of the round starting at `i` is given
(`/repo/src/rainbow.c` 1767, `/repo/src/multi_core_dueling_categorical_dqn.c` 243-262): all
arrays are advanced by `i`, except `lambdas`. -/
def given (b : Batch X) (i k : Nat) : Item X :=
  ⟨b.state (i + k), b.reward (i + k), b.action (i + k), b.next (i + k), b.nonterm (i + k), b.lam k, b.weight (i + k)⟩

/-- The pass of thread `k`. -/
def pass (F : Fns Θ C B X) (b : Batch X) (i k : Nat) (s : Nets Θ C B) : B × B × (C → ℝ) × ℝ :=
  F.td (s.on k) (s.tg k) s.θ s.θt (given b i k)

/-- The loop over the batch (`/repo/src/rainbow.c` 1762-1771), from `i` on, with `T`
threads: the passes, the sum of the derivatives under any interleaving, the resets. Its
runs are the finite derivations. -/
inductive Rounds [DecidableEq C] (F : Fns Θ C B X) (comps : List C) (T : Nat) (b : Batch X) :
    Nat → Nets Θ C B → Nets Θ C B → Prop
  | done {i : Nat} {s : Nets Θ C B} (h : b.size ≤ i) : Rounds F comps T b i s s
  | round {i : Nat} {s s' : Nets Θ C B} {d : C → ℝ} (h : i < b.size)
      (hd : Multithread comps (min T (b.size - i))
        (fun k c => if k < min T (b.size - i) then s.wd k c + (pass F b i k s).2.2.1 c else s.wd k c) s.d d)
      (r : Rounds F comps T b (i + T)
        { s with d := d
                 wd := fun k => if k < min T (b.size - i) then fun _ => 0 else s.wd k
                 on := fun k => if k < min T (b.size - i) then F.cleanOn else s.on k
                 tg := fun k => if k < min T (b.size - i) then F.cleanTg else s.tg k
                 newErr := fun t => if i ≤ t ∧ t < i + min T (b.size - i) then (pass F b i (t - i) s).2.2.2 else s.newErr t } s') :
      Rounds F comps T b i s s'

/-- The pass of thread `k` for the diversity error: `states_t[j]` and `q_functions[j]` do
not depend on the round (`/repo/src/multi_core_dueling_categorical_dqn.c` 212-217). -/
def ddPass (F : Fns Θ C B X) (alpha : ℝ) (state : Nat → X) (qs : Nat → Nat → ℝ) (k : Nat) (s : Nets Θ C B) :
    B × (C → ℝ) × ℝ :=
  F.dd (s.on k) s.θ (state k) (qs k) alpha

/-- `dueling_categorical_dqn_train_l_infinite`
(`/repo/src/multi_core_dueling_categorical_dqn.c` 200-238), from `i` on; the value it
returns is treated separately. -/
inductive DdRounds [DecidableEq C] (F : Fns Θ C B X) (comps : List C) (T n : Nat) (alpha : ℝ) (state : Nat → X)
    (qs : Nat → Nat → ℝ) : Nat → Nets Θ C B → Nets Θ C B → Prop
  | done {i : Nat} {s : Nets Θ C B} (h : n ≤ i) : DdRounds F comps T n alpha state qs i s s
  | round {i : Nat} {s s' : Nets Θ C B} {d : C → ℝ} (h : i < n)
      (hd : Multithread comps (min T (n - i))
        (fun k c => if k < min T (n - i) then s.wd k c + (ddPass F alpha state qs k s).2.1 c else s.wd k c) s.d d)
      (r : DdRounds F comps T n alpha state qs (i + min T (n - i))
        { s with d := d
                 wd := fun k => if k < min T (n - i) then fun _ => 0 else s.wd k
                 on := fun k => if k < min T (n - i) then F.cleanOn else s.on k } s') :
      DdRounds F comps T n alpha state qs i s s'

/-! ### The value returned by one round -/

/-- The state of one round of `q` threads
(`/repo/src/multi_core_dueling_categorical_dqn.c` 208-230): how far the main thread is
(`q` creations, then `q` joins), which threads have stored their value, the variable `error`
and the sum. All threads are given the address of the same variable of the block of the
first loop; using it after the block has been left is undefined, compilers keep it in one
place, and that is what is modelled. -/
structure Ret where
  pc : Nat
  put : Nat → Bool
  cell : ℝ
  ret : ℝ

/-- Steps of the main thread and of the threads, for the values `v`. -/
inductive Ret.Step (q : Nat) (v : Nat → ℝ) : Ret → Ret → Prop
  | create {s : Ret} (h : s.pc < q) : Ret.Step q v s { s with pc := s.pc + 1, cell := 0 }
  | store {s : Ret} (k : Nat) (h : k < s.pc) (hq : k < q) (h' : s.put k = false) :
      Ret.Step q v s { s with put := Function.update s.put k true, cell := v k }
  | join {s : Ret} (h : q ≤ s.pc) (h' : s.pc < 2 * q) (hp : s.put (s.pc - q) = true) :
      Ret.Step q v s { s with pc := s.pc + 1, ret := s.ret + s.cell }

/-- The round can return `r`. -/
def Returns (q : Nat) (v : Nat → ℝ) (r : ℝ) : Prop :=
  ∃ s, Relation.ReflTransGen (Ret.Step q v) ⟨0, fun _ => false, 0, 0⟩ s ∧ s.pc = 2 * q ∧ s.ret = r

/-! ### Specification -/

/-- The data of sample `t`. -/
def own (b : Batch X) (t : Nat) : Item X :=
  ⟨b.state t, b.reward t, b.action t, b.next t, b.nonterm t, b.lam t, b.weight t⟩

/-- The data of sample `t` with another discount. -/
def Item.withLam (x : Item X) (l : ℝ) : Item X := { x with lam := l }

/-- What a pass on clean buffers contributes to the derivatives. -/
def contribution (F : Fns Θ C B X) (θ θt : Θ) (x : Item X) : C → ℝ := (F.td F.cleanOn F.cleanTg θ θt x).2.2.1

/-- The error a pass on clean buffers reports. -/
def errorOf (F : Fns Θ C B X) (θ θt : Θ) (x : Item X) : ℝ := (F.td F.cleanOn F.cleanTg θ θt x).2.2.2

/-- The same for the diversity error. -/
def ddContribution (F : Fns Θ C B X) (θ : Θ) (alpha : ℝ) (x : X) (q : Nat → ℝ) : C → ℝ := (F.dd F.cleanOn θ x q alpha).2.1

/-- The networks of the threads are clean. -/
structure Ready (F : Fns Θ C B X) (T : Nat) (s : Nets Θ C B) : Prop where
  wd : ∀ k, k < T → s.wd k = fun _ => 0
  on : ∀ k, k < T → s.on k = F.cleanOn
  tg : ∀ k, k < T → s.tg k = F.cleanTg

/-! ### Proofs -/

theorem rounds_run [DecidableEq C] {F : Fns Θ C B X} {comps : List C} {T : Nat} {b : Batch X} (hn : comps.Nodup)
    (hall : ∀ c, c ∈ comps) {i : Nat} {s s' : Nets Θ C B} (hr : Rounds F comps T b i s s') (hi : i % T = 0)
    (hA : Ready F T s) :
    Ready F T s' ∧ s'.θ = s.θ ∧ s'.θt = s.θt ∧
      (∀ c, s'.d c = s.d c + ∑ t ∈ Ico i b.size, contribution F s.θ s.θt ((own b t).withLam (b.lam (t % T))) c) ∧
      (∀ t, s'.newErr t = if i ≤ t ∧ t < b.size then errorOf F s.θ s.θt ((own b t).withLam (b.lam (t % T))) else s.newErr t) := by
  induction hr with
  | done h =>
    refine ⟨hA, rfl, rfl, fun c => ?_, fun t => ?_⟩
    · rw [Finset.Ico_eq_empty (by omega), Finset.sum_empty, add_zero]
    · rw [if_neg (by omega)]
  | @round i s s' d h hd r ih =>
    set q := min T (b.size - i) with hq
    have hgiv : ∀ k, k < T → given b i k = (own b (i + k)).withLam (b.lam ((i + k) % T)) := by
      intro k hk
      have : (i + k) % T = k := by rw [Nat.add_mod, hi, Nat.zero_add, Nat.mod_mod, Nat.mod_eq_of_lt hk]
      rw [this]
      rfl
    have hpass : ∀ k, k < T → pass F b i k s = F.td F.cleanOn F.cleanTg s.θ s.θt ((own b (i + k)).withLam (b.lam ((i + k) % T))) := by
      intro k hk
      unfold pass
      rw [hA.on k hk, hA.tg k hk, hgiv k hk]
    obtain ⟨i1, i2, i3, i4, i5⟩ := ih (by rw [Nat.add_mod_right]; exact hi) (by
      refine ⟨fun k hk => ?_, fun k hk => ?_, fun k hk => ?_⟩
      · show (if k < q then fun _ => 0 else s.wd k) = _
        split_ifs
        · rfl
        · exact hA.wd k hk
      · show (if k < q then F.cleanOn else s.on k) = _
        split_ifs
        · rfl
        · exact hA.on k hk
      · show (if k < q then F.cleanTg else s.tg k) = _
        split_ifs
        · rfl
        · exact hA.tg k hk)
    dsimp only at i2 i3 i4 i5
    refine ⟨i1, i2, i3, fun c => ?_, fun t => ?_⟩
    · have hs := (C39_multithread comps hn q _ s.d d hd).1 c
      rw [if_pos (hall c)] at hs
      rw [i4 c, hs, add_assoc]
      congr 1
      have hend : ∑ t ∈ Ico (i + T) b.size, contribution F s.θ s.θt ((own b t).withLam (b.lam (t % T))) c =
          ∑ t ∈ Ico (i + q) b.size, contribution F s.θ s.θt ((own b t).withLam (b.lam (t % T))) c := by
        by_cases hT : T ≤ b.size - i
        · rw [hq, min_eq_left hT]
        · rw [Finset.Ico_eq_empty (by omega), Finset.Ico_eq_empty (by omega)]
      rw [hend, ← Finset.sum_Ico_consecutive _ (show i ≤ i + q by omega) (show i + q ≤ b.size by omega)]
      congr 1
      rw [Finset.sum_Ico_eq_sum_range, Nat.add_sub_cancel_left]
      refine Finset.sum_congr rfl fun k hk => ?_
      have hk' := Finset.mem_range.1 hk
      have hkT : k < T := lt_of_lt_of_le hk' (min_le_left _ _)
      rw [if_pos hk', hA.wd k hkT, hpass k hkT, zero_add]
      rfl
    · rw [i5 t]
      by_cases h1 : i + T ≤ t ∧ t < b.size
      · rw [if_pos h1, if_pos (by omega)]
      · rw [if_neg h1]
        by_cases h2 : i ≤ t ∧ t < b.size
        · rw [if_pos h2, if_pos (by omega), hpass (t - i) (by omega)]
          have : i + (t - i) = t := by omega
          rw [this]
          rfl
        · rw [if_neg h2, if_neg (by omega)]

theorem rounds_exist [DecidableEq C] (F : Fns Θ C B X) (comps : List C) (T : Nat) (hT : 0 < T) (b : Batch X) (i : Nat)
    (s : Nets Θ C B) : ∃ s', Rounds F comps T b i s s' := by
  induction hk : b.size - i using Nat.strong_induction_on generalizing i s with
  | _ k ih =>
    by_cases h : i < b.size
    · obtain ⟨d, hd⟩ := PolicyTrain.multithread_exists comps (min T (b.size - i))
        (fun k c => if k < min T (b.size - i) then s.wd k c + (pass F b i k s).2.2.1 c else s.wd k c) s.d
      obtain ⟨s', r⟩ := ih (b.size - (i + T)) (by omega) (i + T) _ rfl
      exact ⟨s', .round h hd r⟩
    · exact ⟨s, .done (by omega)⟩

/-- **C129, temporal difference part (partial: the discount).** For every number of
threads and every interleaving, the loop over the batch ends, makes one pass per sample on
clean networks, with the state, action, return, next state and weight of that sample, adds
all of them to the derivatives of the online network, records every error in the place of its
sample, and leaves the networks of the threads clean. The discount of sample `t`, however,
is that of sample `t mod threads`.

Full statement: the same with the discount of sample `t`; it holds when there are at least
as many threads as samples (`C129_enough_threads_partial`). -/
theorem C129_batch_partial [DecidableEq C] (F : Fns Θ C B X) (comps : List C) (T : Nat) (hT : 0 < T) (b : Batch X)
    (s : Nets Θ C B) (hn : comps.Nodup) (hall : ∀ c, c ∈ comps) (hA : Ready F T s) :
    (∃ s', Rounds F comps T b 0 s s') ∧ ∀ s', Rounds F comps T b 0 s s' → Ready F T s' ∧ s'.θ = s.θ ∧ s'.θt = s.θt ∧
      (∀ c, s'.d c = s.d c + ∑ t ∈ range b.size, contribution F s.θ s.θt ((own b t).withLam (b.lam (t % T))) c) ∧
      ∀ t, t < b.size → s'.newErr t = errorOf F s.θ s.θt ((own b t).withLam (b.lam (t % T))) := by
  refine ⟨rounds_exist F comps T hT b 0 s, fun s' hr => ?_⟩
  obtain ⟨h1, h2, h3, h4, h5⟩ := rounds_run hn hall hr (Nat.zero_mod T) hA
  refine ⟨h1, h2, h3, fun c => ?_, fun t ht => ?_⟩
  · rw [h4 c, Finset.range_eq_Ico]
  · rw [h5 t, if_pos ⟨Nat.zero_le t, ht⟩]

/-- **C129, enough threads.** With at least as many threads as samples every sample is
trained with its own data, whatever the interleaving. -/
theorem C129_enough_threads_partial [DecidableEq C] (F : Fns Θ C B X) (comps : List C) (T : Nat) (b : Batch X) (hT : b.size ≤ T)
    (s s' : Nets Θ C B) (hn : comps.Nodup) (hall : ∀ c, c ∈ comps) (hA : Ready F T s) (h : Rounds F comps T b 0 s s') :
    (∀ c, s'.d c = s.d c + ∑ t ∈ range b.size, contribution F s.θ s.θt (own b t) c) ∧
      ∀ t, t < b.size → s'.newErr t = errorOf F s.θ s.θt (own b t) := by
  have hown : ∀ t, t < b.size → (own b t).withLam (b.lam (t % T)) = own b t := by
    intro t ht
    rw [Nat.mod_eq_of_lt (lt_of_lt_of_le ht hT)]
    rfl
  obtain ⟨-, -, -, h4, h5⟩ := rounds_run hn hall h (Nat.zero_mod T) hA
  refine ⟨fun c => ?_, fun t ht => ?_⟩
  · rw [h4 c, Finset.range_eq_Ico]
    congr 1
    refine Finset.sum_congr rfl fun t ht => ?_
    rw [hown t (Finset.mem_Ico.1 ht).2]
  · rw [h5 t, if_pos ⟨Nat.zero_le t, ht⟩, hown t ht]

/-- One parameter whose derivative is the target `reward + lam · next`. -/
noncomputable def demoF : Fns ℝ (Fin 1) Unit ℝ :=
  ⟨(), (), fun _ _ θ _ x => ((), (), fun _ => θ * x.state - (x.reward + x.lam * x.next), x.reward + x.lam * x.next),
    fun _ θ x q alpha => ((), fun _ => alpha * (θ * x - q 0), θ * x - q 0)⟩

/-- Two samples, the first of which reached the end after one step (`lambdas[0]` keeps its
value, say 1), the second after two. -/
noncomputable def demoB : Batch ℝ := ⟨2, fun _ => 1, fun _ => 0, fun _ => 0, fun _ => 1, fun _ => 1, fun t => if t = 0 then 1 else 1 / 2, fun _ => 1⟩

/-- Clean networks. -/
noncomputable def demoS : Nets ℝ (Fin 1) Unit := ⟨0, 0, fun _ => 0, fun _ _ => 0, fun _ => (), fun _ => (), fun _ => 0⟩

theorem demo_ready (T : Nat) : Ready demoF T demoS := ⟨fun _ _ => rfl, fun _ _ => rfl, fun _ _ => rfl⟩

/-- Non-vacuity: five samples on two threads. -/
example (b : Batch ℝ) (hb : b.size = 5) : ∃ s', Rounds demoF [0] 2 b 0 demoS s' ∧
    s'.d 0 = ∑ t ∈ range 5, (0 * b.state t - (b.reward t + b.lam (t % 2) * b.next t)) := by
  obtain ⟨⟨s', h⟩, H⟩ := C129_batch_partial demoF [0] 2 (by decide) b demoS (by simp) (fun c => by simp [Subsingleton.elim c 0])
    (demo_ready 2)
  refine ⟨s', h, ?_⟩
  rw [(H s' h).2.2.2.1 0, hb]
  show (0 : ℝ) + _ = _
  rw [zero_add]
  rfl

/-- **C129 refuted for fewer threads than samples.** Two samples on one thread: in every
execution the second is trained with the discount of the first, and the derivatives are
not the sum over the samples. -/
theorem C129_discount_refuted : ∀ s', Rounds demoF [0] 1 demoB 0 demoS s' →
    s'.d 0 ≠ demoS.d 0 + ∑ t ∈ range demoB.size, contribution demoF demoS.θ demoS.θt (own demoB t) 0 := by
  intro s' h
  have H := ((C129_batch_partial demoF [0] 1 (by decide) demoB demoS (by simp) (fun c => by simp [Subsingleton.elim c 0])
    (demo_ready 1)).2 s' h).2.2.2.1 0
  rw [H]
  simp only [Finset.sum_range_succ, Finset.sum_range_zero, contribution, own, Item.withLam, demoF,
    demoB, demoS]
  norm_num

/-! ### Diversity -/

theorem dd_run [DecidableEq C] {F : Fns Θ C B X} {comps : List C} {T n : Nat} {alpha : ℝ} {state : Nat → X} {qs : Nat → Nat → ℝ}
    (hn : comps.Nodup) (hall : ∀ c, c ∈ comps) {i : Nat} {s s' : Nets Θ C B} (hr : DdRounds F comps T n alpha state qs i s s')
    (hi : i < n → i % T = 0) (hA : Ready F T s) :
    Ready F T s' ∧ s'.θ = s.θ ∧ s'.θt = s.θt ∧ s'.newErr = s.newErr ∧
      ∀ c, s'.d c = s.d c + ∑ t ∈ Ico i n, ddContribution F s.θ alpha (state (t % T)) (qs (t % T)) c := by
  induction hr with
  | done h =>
    refine ⟨hA, rfl, rfl, rfl, fun c => ?_⟩
    rw [Finset.Ico_eq_empty (by omega), Finset.sum_empty, add_zero]
  | @round i s s' d h hd r ih =>
    have hi' := hi h
    set q := min T (n - i) with hq
    obtain ⟨i1, i2, i3, i4, i5⟩ := ih (by
      intro hlt
      have hqT : q = T := by omega
      rw [hqT, Nat.add_mod_right]
      exact hi') (by
      refine ⟨fun k hk => ?_, fun k hk => ?_, fun k hk => hA.tg k hk⟩
      · show (if k < q then fun _ => 0 else s.wd k) = _
        split_ifs
        · rfl
        · exact hA.wd k hk
      · show (if k < q then F.cleanOn else s.on k) = _
        split_ifs
        · rfl
        · exact hA.on k hk)
    dsimp only at i2 i3 i4 i5
    refine ⟨i1, i2, i3, i4, fun c => ?_⟩
    have hs := (C39_multithread comps hn q _ s.d d hd).1 c
    rw [if_pos (hall c)] at hs
    rw [i5 c, hs, add_assoc]
    congr 1
    rw [← Finset.sum_Ico_consecutive _ (show i ≤ i + q by omega) (show i + q ≤ n by omega)]
    congr 1
    rw [Finset.sum_Ico_eq_sum_range, Nat.add_sub_cancel_left]
    refine Finset.sum_congr rfl fun k hk => ?_
    have hk' := Finset.mem_range.1 hk
    have hkT : k < T := lt_of_lt_of_le hk' (min_le_left _ _)
    have hmod : (i + k) % T = k := by rw [Nat.add_mod, hi', Nat.zero_add, Nat.mod_mod, Nat.mod_eq_of_lt hkT]
    rw [if_pos hk', hA.wd k hkT, zero_add, hmod]
    unfold ddPass
    rw [hA.on k hkT]
    rfl

theorem dd_exist [DecidableEq C] (F : Fns Θ C B X) (comps : List C) (T n : Nat) (hT : 0 < T) (alpha : ℝ) (state : Nat → X)
    (qs : Nat → Nat → ℝ) (i : Nat) (s : Nets Θ C B) : ∃ s', DdRounds F comps T n alpha state qs i s s' := by
  induction hk : n - i using Nat.strong_induction_on generalizing i s with
  | _ k ih =>
    by_cases h : i < n
    · obtain ⟨d, hd⟩ := PolicyTrain.multithread_exists comps (min T (n - i))
        (fun k c => if k < min T (n - i) then s.wd k c + (ddPass F alpha state qs k s).2.1 c else s.wd k c) s.d
      obtain ⟨s', r⟩ := ih (n - (i + min T (n - i))) (by omega) (i + min T (n - i)) _ rfl
      exact ⟨s', .round h hd r⟩
    · exact ⟨s, .done (by omega)⟩

/-- **C129, diversity part (partial: which states).** The pass number `t` of the diversity
error is made on state number `t mod threads`: with fewer threads than samples the states
from `threads` on are never used, and the others several times. With enough threads every
state is used once. -/
theorem C129_diversity_partial [DecidableEq C] (F : Fns Θ C B X) (comps : List C) (T n : Nat) (hT : 0 < T) (alpha : ℝ)
    (state : Nat → X) (qs : Nat → Nat → ℝ) (s : Nets Θ C B) (hn : comps.Nodup) (hall : ∀ c, c ∈ comps) (hA : Ready F T s) :
    (∃ s', DdRounds F comps T n alpha state qs 0 s s') ∧ ∀ s', DdRounds F comps T n alpha state qs 0 s s' →
      Ready F T s' ∧ s'.θ = s.θ ∧ s'.θt = s.θt ∧ s'.newErr = s.newErr ∧
      (∀ c, s'.d c = s.d c + ∑ t ∈ range n, ddContribution F s.θ alpha (state (t % T)) (qs (t % T)) c) ∧
      (n ≤ T → ∀ c, s'.d c = s.d c + ∑ t ∈ range n, ddContribution F s.θ alpha (state t) (qs t) c) := by
  refine ⟨dd_exist F comps T n hT alpha state qs 0 s, fun s' hr => ?_⟩
  obtain ⟨h1, h2, h3, h4, h5⟩ := dd_run hn hall hr (fun _ => Nat.zero_mod T) hA
  refine ⟨h1, h2, h3, h4, fun c => by rw [h5 c, Finset.range_eq_Ico], fun hnT c => ?_⟩
  rw [h5 c, Finset.range_eq_Ico]
  congr 1
  refine Finset.sum_congr rfl fun t ht => ?_
  rw [Nat.mod_eq_of_lt (lt_of_lt_of_le (Finset.mem_Ico.1 ht).2 hnT)]

/-- **C129 refuted for the diversity error.** With fewer threads than samples, what the
training does is the same whatever the remaining states and action values are. -/
theorem C129_diversity_refuted [DecidableEq C] (F : Fns Θ C B X) (comps : List C) (T n : Nat) (hT : 0 < T) (alpha : ℝ)
    (state state' : Nat → X) (qs qs' : Nat → Nat → ℝ) (s s1 s2 : Nets Θ C B) (hn : comps.Nodup) (hall : ∀ c, c ∈ comps)
    (hA : Ready F T s) (hs : ∀ k, k < T → state k = state' k) (hq : ∀ k, k < T → qs k = qs' k)
    (h1 : DdRounds F comps T n alpha state qs 0 s s1) (h2 : DdRounds F comps T n alpha state' qs' 0 s s2) : s1.d = s2.d := by
  funext c
  rw [((C129_diversity_partial F comps T n hT alpha state qs s hn hall hA).2 s1 h1).2.2.2.2.1 c,
    ((C129_diversity_partial F comps T n hT alpha state' qs' s hn hall hA).2 s2 h2).2.2.2.2.1 c]
  congr 1
  refine Finset.sum_congr rfl fun t _ => ?_
  rw [hs _ (Nat.mod_lt t hT), hq _ (Nat.mod_lt t hT)]

/-- Non-vacuity: three samples on two threads. -/
example : ∃ s1 s2, DdRounds demoF [0] 2 3 1 (fun _ => 1) (fun _ _ => 0) 0 demoS s1 ∧
    DdRounds demoF [0] 2 3 1 (fun t => if t < 2 then 1 else 7) (fun _ _ => 0) 0 demoS s2 ∧ s1.d = s2.d := by
  obtain ⟨s1, h1⟩ := dd_exist demoF [0] 2 3 (by decide) 1 (fun _ => 1) (fun _ _ => 0) 0 demoS
  obtain ⟨s2, h2⟩ := dd_exist demoF [0] 2 3 (by decide) 1 (fun t => if t < 2 then 1 else 7) (fun _ _ => 0) 0 demoS
  exact ⟨s1, s2, h1, h2, C129_diversity_refuted demoF [0] 2 3 (by decide) 1 _ _ _ _ demoS s1 s2 (by simp)
    (fun c => by simp [Subsingleton.elim c 0]) (demo_ready 2) (fun k hk => by rw [if_pos hk]) (fun _ _ => rfl) h1 h2⟩

/-! ### The value returned -/

theorem ret_create (q : Nat) (v : Nat → ℝ) (m : Nat) (hm : m ≤ q) :
    Relation.ReflTransGen (Ret.Step q v) ⟨0, fun _ => false, 0, 0⟩ ⟨m, fun _ => false, 0, 0⟩ := by
  induction m with
  | zero => exact .refl
  | succ m ih => exact (ih (by omega)).tail (.create (s := ⟨m, fun _ => false, 0, 0⟩) (by exact hm))

theorem ret_store (q : Nat) (v : Nat → ℝ) (m : Nat) (hm : m ≤ q) :
    Relation.ReflTransGen (Ret.Step q v) ⟨q, fun _ => false, 0, 0⟩
      ⟨q, fun k => decide (k < m), if m = 0 then 0 else v (m - 1), 0⟩ := by
  induction m with
  | zero =>
    have : (fun k : Nat => decide (k < 0)) = fun _ => false := by
      funext k
      simp
    rw [this]
    exact .refl
  | succ m ih =>
    have h := (ih (by omega)).tail (.store m (by exact hm) (by omega) (by simp))
    have e : Function.update (fun k : Nat => decide (k < m)) m true = fun k => decide (k < m + 1) := by
      funext k
      by_cases hk : k = m
      · subst hk
        rw [Function.update_self]
        simp
      · rw [Function.update_of_ne hk]
        exact decide_eq_decide.2 (by omega)
    rw [← e]
    exact h

theorem ret_join (q : Nat) (v : Nat → ℝ) (x : ℝ) (p : Nat → Bool) (hp : ∀ k, k < q → p k = true) (m : Nat) (hm : m ≤ q) :
    Relation.ReflTransGen (Ret.Step q v) ⟨q, p, x, 0⟩ ⟨q + m, p, x, m * x⟩ := by
  induction m with
  | zero =>
    have : ((0 : Nat) : ℝ) * x = 0 := by simp
    rw [this]
    exact .refl
  | succ m ih =>
    have h := (ih (by omega)).tail (.join (by simp) (by show q + m < 2 * q; omega) (by
      show p (q + m - q) = true
      rw [Nat.add_sub_cancel_left]
      exact hp m (by omega)))
    have : ((m + 1 : Nat) : ℝ) * x = m * x + x := by push_cast; ring
    rw [this]
    exact h

/-- **C129 refuted for the distance returned.** A round of any number of threads can return
that number times the value of the last thread, whatever the others computed, instead of the
sum that moves `alpha`. -/
theorem C129_distance_refuted (q : Nat) (v : Nat → ℝ) (hq : 0 < q) : Returns q v (q * v (q - 1)) := by
  refine ⟨⟨q + q, fun k => decide (k < q), v (q - 1), q * v (q - 1)⟩, ?_, by show q + q = 2 * q; omega, rfl⟩
  have h2 := ret_store q v q (le_refl q)
  rw [if_neg (by omega)] at h2
  exact ((ret_create q v q (le_refl q)).trans h2).trans
    (ret_join q v (v (q - 1)) (fun k => decide (k < q)) (fun k hk => by simpa using hk) q (le_refl q))

/-- Three threads whose values are 1, 2 and 6: the round can return 18. -/
example : Returns 3 (fun k => if k = 0 then 1 else if k = 1 then 2 else 6) 18 := by
  have h := C129_distance_refuted 3 (fun k => if k = 0 then 1 else if k = 1 then 2 else 6) (by decide)
  have e : ((3 : Nat) : ℝ) * (fun k : Nat => if k = 0 then (1 : ℝ) else if k = 1 then 2 else 6) (3 - 1) = 18 := by norm_num
  rw [e] at h
  exact h

/-- **C129, distance of a single thread.** -/
theorem C129_distance_one_thread_partial (v : Nat → ℝ) (r : ℝ) (h : Returns 1 v r) : r = v 0 := by
  obtain ⟨s, hs, hpc, rfl⟩ := h
  have inv : (s.pc = 0 ∧ s.ret = 0 ∧ s.put 0 = false) ∨ (s.pc = 1 ∧ s.ret = 0 ∧ (s.put 0 = true → s.cell = v 0)) ∨
      (s.pc = 2 ∧ s.ret = v 0) := by
    clear hpc
    induction hs with
    | refl => exact Or.inl ⟨rfl, rfl, rfl⟩
    | tail _ st ih =>
      cases st with
      | create h =>
        rcases ih with ⟨h1, h2, h3⟩ | ⟨h1, -, -⟩ | ⟨h1, -⟩
        · exact Or.inr (Or.inl ⟨by show _ + 1 = 1; rw [h1], h2, fun hp => by
            have hp' : _ = true := hp
            rw [h3] at hp'
            cases hp'⟩)
        · omega
        · omega
      | store k hk hq h' =>
        obtain rfl : k = 0 := by omega
        rcases ih with ⟨h1, h2, h3⟩ | ⟨h1, h2, h3⟩ | ⟨h1, h2⟩
        · omega
        · exact Or.inr (Or.inl ⟨h1, h2, fun _ => rfl⟩)
        · exact Or.inr (Or.inr ⟨h1, h2⟩)
      | join h h' hp =>
        rcases ih with ⟨h1, -, -⟩ | ⟨h1, h2, h3⟩ | ⟨h1, -⟩
        · omega
        · refine Or.inr (Or.inr ⟨by show _ + 1 = 2; rw [h1], ?_⟩)
          show _ + _ = _
          rw [h2, zero_add]
          exact h3 (by rw [h1] at hp; exact hp)
        · omega
  rcases inv with ⟨h1, -⟩ | ⟨h1, -⟩ | ⟨-, h2⟩
  · omega
  · omega
  · exact h2

/-! ### Importance weights -/

/-- The weight of a sample before normalisation (`/repo/src/rainbow.c` 1752): `p` is the
entry of `ranked_values` used, `S` the sum, `N` the number of experiences. -/
noncomputable def rawWeight (N : Nat) (S beta p : ℝ) : ℝ := (1 / (N * (p / S))) ^ beta

/-- The weight stored for a sample in buffer slot `slot` (`/repo/src/rainbow.c` 1752, 1758-1759). -/
noncomputable def weight (N : Nat) (S beta : ℝ) (ranked : Nat → ℝ) (slot : Nat) : ℝ :=
  rawWeight N S beta (ranked slot) * (1 / rawWeight N S beta (ranked (N - 1)))

/-- `ranked_values[index]` (`/repo/src/rainbow.c` 1300). -/
noncomputable def rankedValue (alpha : ℝ) (i : Nat) : ℝ := (1 / ((i : ℝ) + 1)) ^ alpha

theorem rankedValue_pos (alpha : ℝ) (i : Nat) : 0 < rankedValue alpha i :=
  Real.rpow_pos_of_pos (by positivity) _

/-- The closed form of the weight. -/
theorem weight_eq (N : Nat) (hN : 0 < N) (S alpha beta : ℝ) (hS : 0 < S) (slot : Nat) :
    weight N S beta (rankedValue alpha) slot = (rankedValue alpha (N - 1) / rankedValue alpha slot) ^ beta := by
  have hN' : (0 : ℝ) < N := by exact_mod_cast hN
  have h1 := rankedValue_pos alpha (N - 1)
  have h2 := rankedValue_pos alpha slot
  unfold weight rawWeight
  rw [one_div ((1 / (N * (rankedValue alpha (N - 1) / S))) ^ beta), ← Real.inv_rpow (by positivity),
    ← Real.mul_rpow (by positivity) (by positivity)]
  congr 1
  field_simp

/-- **C129, weights (partial: whose).** Every weight of a stored experience is positive and
at most one. -/
theorem C129_weights_partial (N : Nat) (S alpha beta : ℝ) (hS : 0 < S) (ha : 0 ≤ alpha) (hb : 0 ≤ beta) (slot : Nat) (h : slot < N) :
    0 < weight N S beta (rankedValue alpha) slot ∧ weight N S beta (rankedValue alpha) slot ≤ 1 := by
  have h1 := rankedValue_pos alpha (N - 1)
  have h2 := rankedValue_pos alpha slot
  rw [weight_eq N (by omega) S alpha beta hS]
  refine ⟨Real.rpow_pos_of_pos (by positivity) _, Real.rpow_le_one (by positivity) ?_ hb⟩
  rw [div_le_one h2]
  unfold rankedValue
  refine Real.rpow_le_rpow (by positivity) ?_ ha
  refine one_div_le_one_div_of_le (by positivity) ?_
  have : (slot : ℝ) ≤ ((N - 1 : Nat) : ℝ) := by exact_mod_cast (by omega)
  linarith

/-- Non-vacuity. -/
example : 0 < weight 8 3 (1 / 2) (rankedValue 1) 5 ∧ weight 8 3 (1 / 2) (rankedValue 1) 5 ≤ 1 :=
  C129_weights_partial 8 3 1 (1 / 2) (by norm_num) (by norm_num) (by norm_num) 5 (by decide)

/-- **C129 refuted for the weights.** The weight of an experience drawn with the
probability of its rank `pos` is computed from its slot in the buffer instead: unless the two
agree, it is never the weight that belongs to the probability with which it was drawn. -/
theorem C129_weights_refuted (N : Nat) (S alpha beta : ℝ) (hN : 0 < N) (hS : 0 < S) (ha : 0 < alpha) (hb : 0 < beta)
    (pos slot : Nat) (hne : slot ≠ pos) :
    weight N S beta (rankedValue alpha) slot ≠
      rawWeight N S beta (rankedValue alpha pos) * (1 / rawWeight N S beta (rankedValue alpha (N - 1))) := by
  intro e
  have h1 := rankedValue_pos alpha (N - 1)
  have h2 := rankedValue_pos alpha slot
  have h3 := rankedValue_pos alpha pos
  have e' : weight N S beta (rankedValue alpha) slot = weight N S beta (rankedValue alpha) pos := e
  rw [weight_eq N hN S alpha beta hS, weight_eq N hN S alpha beta hS] at e'
  have e2 := (Real.rpow_left_inj (by positivity) (by positivity) hb.ne').1 e'
  have e3 : rankedValue alpha slot = rankedValue alpha pos := by
    rw [div_eq_div_iff h2.ne' h3.ne'] at e2
    exact (mul_left_cancel₀ h1.ne' e2).symm
  have e4 := (Real.rpow_left_inj (by positivity) (by positivity) ha.ne').1 e3
  have e5 : ((slot : ℝ) + 1) = (pos : ℝ) + 1 := by
    have := congrArg (fun x => 1 / x) e4
    simpa using this
  exact hne (by exact_mod_cast (add_right_cancel e5))

/-- The two do differ in buffers that occur: after adding two experiences and giving the
first a smaller priority, the experience of rank 0 is in slot 1. -/
example : ((Replay.Buf.run (S := Nat) (α := Nat) 100 (Replay.Buf.init 4 0)
    [.add ⟨1, 2, 0, 5, 1⟩, .add ⟨2, 3, 0, 5, 1⟩, .setPriority 0 7]).map fun b => b.heap.ind.get 0) = some 1 := by
  decide

/-! ### The whole passage -/

/-- The agent: networks and the settings used by the passage. -/
structure Agent (Θ C B : Type) where
  nets : Nets Θ C B
  threads : Nat
  lr : ℝ
  lrMin : ℝ
  lrMax : ℝ
  initialLr : ℝ
  lrDecay : ℝ
  lrThreshold : Nat
  lrFlag : Nat
  beta1 : ℝ
  beta2 : ℝ
  startBeta1 : ℝ
  startBeta2 : ℝ
  /-- `train_iteration` -/
  iteration : Nat
  clipFlag : Bool
  clipValue : ℝ
  /-- `epochs_to_copy_target` -/
  epochs : Nat
  /-- `tau_copying` -/
  tau : ℝ
  /-- `alpha`, the weight of the diversity error -/
  alpha : ℝ

/-- The library functions used at the end of a passage:
`adaptive_gradient_clipping_dueling_categorical_dqn`, `update_dueling_categorical_dqn` (of
the rate, batch size, betas, time step, parameters and derivatives) and
`slow_paste_dueling_categorical_dqn` (C43). -/
structure Ends (Θ C : Type) where
  clip : ℝ → Θ → (C → ℝ) → C → ℝ
  update : ℝ → Nat → ℝ → ℝ → Nat → Θ → (C → ℝ) → Θ
  paste : Θ → Θ → ℝ → Θ

/-- Lines 1814-1827 of `/repo/src/rainbow.c`: clipping, update, copy to the target network
(a remainder by zero is undefined), learning rate, betas and time step, resets. `alpha` is the
new weight of the diversity error. -/
noncomputable def finish (E : Ends Θ C) (batch : Nat) (alpha : ℝ) (a : Agent Θ C B) : Option (Agent Θ C B) := do
  let d := if a.clipFlag then E.clip a.clipValue a.nets.θ a.nets.d else a.nets.d
  let θ := E.update a.lr batch a.beta1 a.beta2 a.iteration a.nets.θ d
  if a.iteration ≠ 0 ∧ a.epochs = 0 then none
  else
    let θt := if a.iteration ≠ 0 ∧ a.iteration % a.epochs = 0 then E.paste θ a.nets.θt a.tau else a.nets.θt
    let lr ← updateLr a.lr a.lrMin a.lrMax a.initialLr a.lrDecay a.iteration a.lrThreshold a.lrFlag
    some { a with nets := { a.nets with θ := θ, θt := θt, d := fun _ => 0 }, lr := lr, beta1 := a.beta1 * a.startBeta1,
                  beta2 := a.beta2 * a.startBeta2, iteration := a.iteration + 1, alpha := alpha }

/-- One passage of `train_rainbow` after the sampling: the loop over the batch, if the buffer
of recorded states is full enough the loop for the diversity error (`dd` gives the states and
their values), the end. The new `alpha` is the old one times 1.01 or 0.99
(`/repo/src/rainbow.c` 1799-1805). -/
def Train [DecidableEq C] (F : Fns Θ C B X) (E : Ends Θ C) (comps : List C) (b : Batch X)
    (dd : Option ((Nat → X) × (Nat → Nat → ℝ))) (a : Agent Θ C B) (r : Option (Agent Θ C B)) : Prop :=
  ∃ n1 n2 alpha, Rounds F comps a.threads b 0 a.nets n1 ∧
    (match dd with
      | none => n2 = n1 ∧ alpha = a.alpha
      | some (x, q) => DdRounds F comps a.threads b.size a.alpha x q 0 n1 n2 ∧
          (alpha = a.alpha * 1.01 ∨ alpha = a.alpha * 0.99)) ∧
    r = finish E b.size alpha { a with nets := n2 }

/-- The derivatives a passage should use: all the samples, and all the recorded states. -/
noncomputable def wanted (F : Fns Θ C B X) (b : Batch X) (dd : Option ((Nat → X) × (Nat → Nat → ℝ))) (a : Agent Θ C B) : C → ℝ := fun c =>
  ∑ t ∈ range b.size, contribution F a.nets.θ a.nets.θt (own b t) c +
    match dd with
    | none => 0
    | some (x, q) => ∑ t ∈ range b.size, ddContribution F a.nets.θ a.alpha (x t) (q t) c

/-- **C129, one passage.** With at least as many threads as samples, a training passage ends
under every interleaving, and any two executions give the same result but for `alpha`: the
online network is updated once, with the sum of what every sample and every recorded state
contributes on clean networks; the target network is replaced by the soft copy of the updated
online network when the number of the passage is a positive multiple of the configured number,
and otherwise unchanged; no derivatives are left and the networks of the threads are clean. -/
theorem C129_passage_partial [DecidableEq C] (F : Fns Θ C B X) (E : Ends Θ C) (comps : List C) (b : Batch X)
    (dd : Option ((Nat → X) × (Nat → Nat → ℝ))) (a : Agent Θ C B) (lr : ℝ) (hn : comps.Nodup) (hall : ∀ c, c ∈ comps)
    (hT : 0 < a.threads) (hb : b.size ≤ a.threads) (hA : Ready F a.threads a.nets) (h0 : a.nets.d = fun _ => 0)
    (hE : 0 < a.epochs) (hlr : updateLr a.lr a.lrMin a.lrMax a.initialLr a.lrDecay a.iteration a.lrThreshold a.lrFlag = some lr) :
    (∃ r, Train F E comps b dd a r) ∧ ∀ r, Train F E comps b dd a r → ∃ a', r = some a' ∧
      a'.nets.θ = E.update a.lr b.size a.beta1 a.beta2 a.iteration a.nets.θ
        (if a.clipFlag then E.clip a.clipValue a.nets.θ (wanted F b dd a) else wanted F b dd a) ∧
      a'.nets.θt = (if 0 < a.iteration ∧ a.epochs ∣ a.iteration then E.paste a'.nets.θ a.nets.θt a.tau else a.nets.θt) ∧
      Ready F a.threads a'.nets ∧ (a'.nets.d = fun _ => 0) ∧ a'.lr = lr ∧ a'.beta1 = a.beta1 * a.startBeta1 ∧
      a'.beta2 = a.beta2 * a.startBeta2 ∧ a'.iteration = a.iteration + 1 ∧ a'.threads = a.threads ∧ a'.epochs = a.epochs ∧
      a'.tau = a.tau ∧ (∀ t, t < b.size → a'.nets.newErr t = errorOf F a.nets.θ a.nets.θt (own b t)) := by
  constructor
  · obtain ⟨n1, h1⟩ := rounds_exist F comps a.threads hT b 0 a.nets
    cases dd with
    | none => exact ⟨_, n1, n1, a.alpha, h1, ⟨rfl, rfl⟩, rfl⟩
    | some p =>
      obtain ⟨x, q⟩ := p
      obtain ⟨n2, h2⟩ := dd_exist F comps a.threads b.size hT a.alpha x q 0 n1
      exact ⟨_, n1, n2, a.alpha * 1.01, h1, ⟨h2, Or.inl rfl⟩, rfl⟩
  · rintro r ⟨n1, n2, alpha, h1, h2, rfl⟩
    obtain ⟨r1, r2, r3, -, -⟩ := rounds_run hn hall h1 (Nat.zero_mod _) hA
    obtain ⟨s1, s2⟩ := C129_enough_threads_partial F comps a.threads b hb a.nets n1 hn hall hA h1
    have key : Ready F a.threads n2 ∧ n2.θ = a.nets.θ ∧ n2.θt = a.nets.θt ∧ n2.d = wanted F b dd a ∧
        ∀ t, t < b.size → n2.newErr t = errorOf F a.nets.θ a.nets.θt (own b t) := by
      cases dd with
      | none =>
        obtain ⟨rfl, -⟩ := h2
        refine ⟨r1, r2, r3, ?_, s2⟩
        funext c
        rw [s1 c, h0]
        show (0 : ℝ) + _ = _ + 0
        rw [zero_add, add_zero]
      | some p =>
        obtain ⟨x, q⟩ := p
        obtain ⟨d1, d2, d3, d4, -, d6⟩ := (C129_diversity_partial F comps a.threads b.size hT a.alpha x q n1 hn hall r1).2 n2 h2.1
        refine ⟨d1, d2.trans r2, d3.trans r3, ?_, fun t ht => by rw [d4]; exact s2 t ht⟩
        funext c
        rw [d6 hb c, s1 c, h0, r2]
        show (0 : ℝ) + _ + _ = _
        rw [zero_add]
        rfl
    obtain ⟨k1, k2, k3, k4, k5⟩ := key
    have hdvd : (a.iteration ≠ 0 ∧ a.iteration % a.epochs = 0) = (0 < a.iteration ∧ a.epochs ∣ a.iteration) := by
      rw [Nat.dvd_iff_mod_eq_zero, Nat.pos_iff_ne_zero]
    have hfin : ∃ a', finish E b.size alpha { a with nets := n2 } = some a' ∧
        a' = { a with
          nets := { n2 with
            θ := E.update a.lr b.size a.beta1 a.beta2 a.iteration n2.θ (if a.clipFlag then E.clip a.clipValue n2.θ n2.d else n2.d)
            θt := if a.iteration ≠ 0 ∧ a.iteration % a.epochs = 0 then
                E.paste (E.update a.lr b.size a.beta1 a.beta2 a.iteration n2.θ
                  (if a.clipFlag then E.clip a.clipValue n2.θ n2.d else n2.d)) n2.θt a.tau else n2.θt
            d := fun _ => 0 }
          lr := lr, beta1 := a.beta1 * a.startBeta1, beta2 := a.beta2 * a.startBeta2, iteration := a.iteration + 1, alpha := alpha } := by
      refine ⟨_, ?_, rfl⟩
      unfold finish
      dsimp only
      rw [if_neg (by omega), hlr]
      rfl
    obtain ⟨a', hf, he⟩ := hfin
    refine ⟨a', hf, ?_⟩
    subst he
    refine ⟨?_, ?_, ⟨k1.wd, k1.on, k1.tg⟩, rfl, rfl, rfl, rfl, rfl, rfl, rfl, rfl, k5⟩
    · dsimp only
      rw [k2, k4]
    · dsimp only
      rw [k2, k3, k4]
      simp only [hdvd]

/-- The batches and recorded states of a sequence of passages, and the agents between them. -/
inductive Trains [DecidableEq C] (F : Fns Θ C B X) (E : Ends Θ C) (comps : List C) :
    Nat → Agent Θ C B → Agent Θ C B → Prop
  | nil {a : Agent Θ C B} : Trains F E comps 0 a a
  | snoc {n : Nat} {a a1 a2 : Agent Θ C B} (b : Batch X) (dd : Option ((Nat → X) × (Nat → Nat → ℝ)))
      (h : Trains F E comps n a a1) (h' : Train F E comps b dd a1 (some a2)) : Trains F E comps (n + 1) a a2

/-- What a passage does to the target network and the counters, for any number of threads. -/
theorem train_target [DecidableEq C] {F : Fns Θ C B X} {E : Ends Θ C} {comps : List C} {b : Batch X}
    {dd : Option ((Nat → X) × (Nat → Nat → ℝ))} {a a' : Agent Θ C B} (hn : comps.Nodup) (hall : ∀ c, c ∈ comps)
    (hA : Ready F a.threads a.nets) (h : Train F E comps b dd a (some a')) :
    Ready F a'.threads a'.nets ∧ a'.iteration = a.iteration + 1 ∧ a'.epochs = a.epochs ∧ a'.threads = a.threads ∧ a'.tau = a.tau ∧
      a'.nets.θt = if 0 < a.iteration ∧ a.epochs ∣ a.iteration then E.paste a'.nets.θ a.nets.θt a.tau else a.nets.θt := by
  obtain ⟨n1, n2, alpha, h1, h2, h3⟩ := h
  obtain ⟨r1, -, r3, -, -⟩ := rounds_run hn hall h1 (Nat.zero_mod _) hA
  have key : Ready F a.threads n2 ∧ n2.θt = a.nets.θt := by
    cases dd with
    | none =>
      obtain ⟨rfl, -⟩ := h2
      exact ⟨r1, r3⟩
    | some p =>
      obtain ⟨x, q⟩ := p
      obtain ⟨d1, -, d3, -, -⟩ := dd_run hn hall h2.1 (fun _ => Nat.zero_mod _) r1
      exact ⟨d1, d3.trans r3⟩
  unfold finish at h3
  dsimp only at h3
  by_cases hz : a.iteration ≠ 0 ∧ a.epochs = 0
  · rw [if_pos hz] at h3
    cases h3
  rw [if_neg hz] at h3
  obtain ⟨lr, -, h4⟩ := Option.bind_eq_some_iff.1 h3.symm
  cases h4
  refine ⟨⟨key.1.wd, key.1.on, key.1.tg⟩, rfl, rfl, rfl, rfl, ?_⟩
  dsimp only
  rw [key.2]
  by_cases hd : 0 < a.iteration ∧ a.epochs ∣ a.iteration
  · rw [if_pos hd, if_pos ⟨by omega, Nat.mod_eq_zero_of_dvd hd.2⟩]
  · rw [if_neg hd, if_neg (fun h => hd ⟨by omega, Nat.dvd_of_mod_eq_zero h.2⟩)]

/-- **C129, history of the target network.** Whatever is sampled, for every number of
threads and every schedule: the passage counter, which starts at one
(`/repo/src/rainbow.c` 272), counts the passages, and until the first passage whose number is
the configured one the target network keeps its initial parameters. -/
theorem C129_target [DecidableEq C] (F : Fns Θ C B X) (E : Ends Θ C) (comps : List C) (hn : comps.Nodup) (hall : ∀ c, c ∈ comps)
    (n : Nat) (a a' : Agent Θ C B) (h1 : a.iteration = 1) (hA : Ready F a.threads a.nets) (h : Trains F E comps n a a') :
    a'.iteration = n + 1 ∧ (n < a.epochs → a'.nets.θt = a.nets.θt) ∧
      (∀ a1 a2 b dd, Trains F E comps n a a1 → Train F E comps b dd a1 (some a2) →
        a2.nets.θt = if a.epochs ∣ n + 1 then E.paste a2.nets.θ a1.nets.θt a.tau else a1.nets.θt) := by
  have inv : ∀ n a', Trains F E comps n a a' → Ready F a'.threads a'.nets ∧ a'.iteration = n + 1 ∧ a'.epochs = a.epochs ∧
      a'.tau = a.tau ∧ (n < a.epochs → a'.nets.θt = a.nets.θt) := by
    clear h
    intro n a' h
    induction h with
    | nil => exact ⟨hA, h1, rfl, rfl, fun _ => rfl⟩
    | @snoc n a a1 a2 b dd h h' ih =>
      obtain ⟨j1, j2, j3, j4, j5⟩ := ih h1 hA
      obtain ⟨t1, t2, t3, t4, t5, t6⟩ := train_target hn hall j1 h'
      refine ⟨t1, by rw [t2, j2], t3.trans j3, t5.trans j4, fun hlt => ?_⟩
      rw [t6, if_neg, j5 (by omega)]
      rintro ⟨-, hd⟩
      rw [j2, j3] at hd
      have := Nat.le_of_dvd (by omega) hd
      omega
  obtain ⟨j1, j2, j3, j4, j5⟩ := inv n a' h
  refine ⟨j2, j5, fun a1 a2 b dd g g' => ?_⟩
  obtain ⟨m1, m2, m3, m4, m5⟩ := inv n a1 g
  obtain ⟨-, -, -, -, -, t6⟩ := train_target hn hall m1 g'
  rw [t6, m2, m3, m4]
  simp

/-- A plain gradient step, and a copy. -/
noncomputable def demoE : Ends ℝ (Fin 1) := ⟨fun _ _ d => d, fun lr n _ _ _ θ d => θ - lr / n * d 0, fun θ θt tau => tau * θ + (1 - tau) * θt⟩

/-- Two threads, a copy every second passage, no decay of the rate. -/
noncomputable def demoA : Agent ℝ (Fin 1) Unit :=
  ⟨demoS, 2, 1, 0, 1, 1, 0, 1, 0, 0, 0, 0, 0, 1, false, 0, 2, 1, 1⟩

theorem demo_lr : updateLr (1 : ℝ) 0 1 1 0 1 1 0 = some 1 := by
  unfold updateLr
  rw [if_pos rfl]

/-- Non-vacuity: the hypotheses of `C129_passage_partial` hold of this agent, with a diversity error. -/
example : ∃ a', Train demoF demoE [0] demoB (some (fun _ => 1, fun _ _ => 0)) demoA (some a') ∧ a'.nets.θt = 0 ∧ a'.iteration = 2 := by
  obtain ⟨⟨r, hr⟩, H⟩ := C129_passage_partial demoF demoE [0] demoB (some (fun _ => 1, fun _ _ => 0)) demoA 1 (by simp)
    (fun c => by simp [Subsingleton.elim c 0]) (by decide) (by decide) (demo_ready 2) rfl (by decide) demo_lr
  obtain ⟨a', rfl, -, h2, -, -, -, -, -, h3, -⟩ := H r hr
  refine ⟨a', hr, ?_, h3⟩
  rw [h2, if_neg (by rintro ⟨-, h⟩; exact absurd h (by decide))]
  rfl

/-- Non-vacuity of `C129_target`: there are histories. -/
example : ∃ a', Trains (X := ℝ) demoF demoE [0] 1 demoA a' ∧ a'.iteration = 2 ∧ a'.nets.θt = 0 := by
  obtain ⟨⟨r, hr⟩, H⟩ := C129_passage_partial demoF demoE [0] demoB none demoA 1 (by simp)
    (fun c => by simp [Subsingleton.elim c 0]) (by decide) (by decide) (demo_ready 2) rfl (by decide) demo_lr
  obtain ⟨a', rfl, -⟩ := H r hr
  have ht : Trains (X := ℝ) demoF demoE [0] 1 demoA a' := .snoc demoB none .nil hr
  have hC := C129_target demoF demoE [0] (by simp) (fun c => by simp [Subsingleton.elim c 0]) 1 demoA a' rfl (demo_ready 2) ht
  exact ⟨a', ht, hC.1, hC.2.1 (by decide)⟩

end LLab.RainbowTrain
