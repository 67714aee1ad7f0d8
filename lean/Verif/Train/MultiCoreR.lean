import Verif.Train.MultiCore
import Mathlib.Data.Real.Basic
import Mathlib.Logic.Relation
import Mathlib.Tactic.Ring
import Mathlib.Tactic.NormNum

/-!
The multicore drivers of recurrent models (`/repo/src/multi_core_rmodel.c`). Property C130.

`ff_rmodel_lstm_multicore` (80-102), `ff_rmodel_lstm_multicore_opt` (116-137) and
`bp_rmodel_lstm_multicore` (156-184) have the loops of C40 (`MultiCore.Drive`): a thread works
on the model, the states and the error of its own instance. In
`bp_rmodel_lstm_multicore_opt` (201-231) the threads share a model: `bp_rmodel_lstm_opt`
(`/repo/src/rmodel.c` 1118 and the other calls of `lstm_bp` in it) adds the derivatives
to `lstms2[j]->d_w`, `d_u` and `d_biases`, where `lstms2` is that shared model. Nothing protects
them: adding is reading and then writing.
-/

namespace LLab.MultiCoreR

open Finset

/-- One component of the shared derivatives during a round: its value, what each thread has
read and not yet written back, what each thread still has to add. (Two threads accessing it at
once without protection is undefined in C; the model gives every access its natural meaning.) -/
structure Cell where
  d : ℝ
  tmp : Nat → Option ℝ
  rem : Nat → List ℝ

/-- The two halves of `d[…] += x` by thread `k` (`/repo/src/recurrent.c`, `lstm_bp`). -/
inductive Cell.Step : Cell → Cell → Prop
  | read {s : Cell} (k : Nat) (x : ℝ) (r : List ℝ) (h : s.tmp k = none) (hr : s.rem k = x :: r) :
      Cell.Step s { s with tmp := Function.update s.tmp k (some s.d) }
  | write {s : Cell} (k : Nat) (x t : ℝ) (r : List ℝ) (h : s.tmp k = some t) (hr : s.rem k = x :: r) :
      Cell.Step s { d := t + x, tmp := Function.update s.tmp k none, rem := Function.update s.rem k r }

/-- A round of `q` threads, thread `j` adding the values `xs j`: all have ended. -/
def Round (q : Nat) (xs : Nat → List ℝ) (d d' : ℝ) : Prop :=
  ∃ s : Cell, Relation.ReflTransGen Cell.Step ⟨d, fun _ => none, fun j => if j < q then xs j else []⟩ s ∧
    (∀ j, s.rem j = []) ∧ s.d = d'

/-- The loop `for(i = 0; i < mini_batch_size; i+=threads)` of `bp_rmodel_lstm_multicore_opt`
(`/repo/src/multi_core_rmodel.c` 207-229), from `i` on, as seen by one component of the
derivatives. -/
inductive Drive (xs : Nat → List ℝ) (batch threads : Nat) : Nat → ℝ → ℝ → Prop
  | done {i : Nat} {d : ℝ} (h : batch ≤ i) : Drive xs batch threads i d d
  | round {i : Nat} {d d1 d' : ℝ} (h : i < batch) (hr : Round (min threads (batch - i)) (fun j => xs (i + j)) d d1)
      (r : Drive xs batch threads (i + threads) d1 d') : Drive xs batch threads i d d'

/-! ### Proofs -/

/-- A thread can go to its end alone. -/
theorem solo (k : Nat) (l : List ℝ) : ∀ s : Cell, s.tmp k = none → s.rem k = l →
    Relation.ReflTransGen Cell.Step s ⟨s.d + l.sum, s.tmp, Function.update s.rem k []⟩ := by
  induction l with
  | nil =>
    intro s h hr
    have e : (⟨s.d + ([] : List ℝ).sum, s.tmp, Function.update s.rem k []⟩ : Cell) = s := by
      rw [← hr, Function.update_eq_self]
      simp [hr]
    rw [e]
  | cons x l ih =>
    intro s h hr
    have s1 : Cell.Step s { s with tmp := Function.update s.tmp k (some s.d) } := .read k x l h hr
    have s2 : Cell.Step { s with tmp := Function.update s.tmp k (some s.d) }
        { d := s.d + x, tmp := Function.update (Function.update s.tmp k (some s.d)) k none, rem := Function.update s.rem k l } :=
      .write (s := { s with tmp := Function.update s.tmp k (some s.d) }) k x s.d l (by simp) hr
    have e : Function.update (Function.update s.tmp k (some s.d)) k none = s.tmp := by
      rw [Function.update_idem, ← h, Function.update_eq_self]
    rw [e] at s2
    have s3 := ih ⟨s.d + x, s.tmp, Function.update s.rem k l⟩ h (by simp)
    dsimp only at s3
    rw [Function.update_idem, add_assoc] at s3
    rw [List.sum_cons]
    exact (Relation.ReflTransGen.single s1).trans ((Relation.ReflTransGen.single s2).trans s3)

/-- The first `m` threads go to their end one after the other. -/
theorem serial (m : Nat) (s : Cell) (h : ∀ j, j < m → s.tmp j = none) :
    Relation.ReflTransGen Cell.Step s
      ⟨s.d + ∑ j ∈ range m, (s.rem j).sum, s.tmp, fun j => if j < m then [] else s.rem j⟩ := by
  induction m with
  | zero =>
    have e : (⟨s.d + ∑ j ∈ range 0, (s.rem j).sum, s.tmp, fun j => if j < 0 then [] else s.rem j⟩ : Cell) = s := by
      simp
    rw [e]
  | succ m ih =>
    have h1 := ih fun j hj => h j (by omega)
    have h2 := solo m (s.rem m) ⟨s.d + ∑ j ∈ range m, (s.rem j).sum, s.tmp, fun j => if j < m then [] else s.rem j⟩
      (h m (by omega)) (by simp)
    refine h1.trans ?_
    have e : Function.update (fun j => if j < m then [] else s.rem j) m [] = fun j => if j < m + 1 then [] else s.rem j := by
      funext j
      by_cases hj : j = m
      · subst hj
        simp
      · rw [Function.update_of_ne hj]
        by_cases h' : j < m
        · rw [if_pos h', if_pos (by omega)]
        · rw [if_neg h', if_neg (by omega)]
    dsimp only at h2
    rw [e, add_assoc, ← Finset.sum_range_succ (fun j => (s.rem j).sum)] at h2
    exact h2

/-- A round in which nothing is lost. -/
theorem round_serial (q : Nat) (xs : Nat → List ℝ) (d : ℝ) : Round q xs d (d + ∑ j ∈ range q, (xs j).sum) := by
  refine ⟨_, serial q _ fun _ _ => rfl, fun j => ?_, ?_⟩
  · dsimp only
    by_cases h : j < q
    · rw [if_pos h]
    · rw [if_neg h, if_neg h]
  · dsimp only
    congr 1
    refine Finset.sum_congr rfl fun j hj => ?_
    rw [if_pos (Finset.mem_range.1 hj)]

/-- A round in which everything but the last thread's work is lost. -/
theorem round_lost (q : Nat) (xs : Nat → List ℝ) (d : ℝ) (hne : xs q ≠ []) : Round (q + 1) xs d (d + (xs q).sum) := by
  obtain ⟨x, r, hx⟩ := List.exists_cons_of_ne_nil hne
  set s0 : Cell := ⟨d, fun _ => none, fun j => if j < q + 1 then xs j else []⟩ with hs0
  have hq : s0.rem q = x :: r := by
    show (if q < q + 1 then xs q else []) = _
    rw [if_pos (Nat.lt_succ_self q), hx]
  have s1 : Cell.Step s0 { s0 with tmp := Function.update s0.tmp q (some s0.d) } := .read q x r rfl hq
  have s2 := serial q { s0 with tmp := Function.update s0.tmp q (some s0.d) } fun j hj => by
    show Function.update s0.tmp q (some s0.d) j = none
    rw [Function.update_of_ne (by omega)]
  dsimp only at s2
  set s3 : Cell := ⟨s0.d + ∑ j ∈ range q, (s0.rem j).sum, Function.update s0.tmp q (some s0.d),
    fun j => if j < q then [] else s0.rem j⟩ with hs3
  have s4 : Cell.Step s3 { d := d + x, tmp := Function.update s3.tmp q none, rem := Function.update s3.rem q r } :=
    .write (s := s3) q x d r (by simp [hs3, hs0]) (by
      show (if q < q then [] else s0.rem q) = _
      rw [if_neg (lt_irrefl q), hq])
  have s5 := solo q r { d := d + x, tmp := Function.update s3.tmp q none, rem := Function.update s3.rem q r } (by simp) (by simp)
  dsimp only at s5
  refine ⟨_, (Relation.ReflTransGen.single s1).trans (s2.trans ((Relation.ReflTransGen.single s4).trans s5)), fun j => ?_, ?_⟩
  · dsimp only
    by_cases h : j = q
    · subst h
      simp
    · rw [Function.update_of_ne h, Function.update_of_ne h]
      show (if j < q then [] else if j < q + 1 then xs j else []) = []
      by_cases h' : j < q
      · rw [if_pos h']
      · rw [if_neg h', if_neg (by omega)]
  · dsimp only
    rw [hx, List.sum_cons, add_assoc]

/-- A round of at most one thread. -/
theorem round_one (q : Nat) (hq : q ≤ 1) (xs : Nat → List ℝ) (d d' : ℝ) (h : Round q xs d d') :
    d' = d + ∑ j ∈ range q, (xs j).sum := by
  obtain ⟨s, hs, hr, rfl⟩ := h
  have inv : (∀ j, j ≠ 0 → s.rem j = []) ∧ s.d + (s.rem 0).sum = d + ∑ j ∈ range q, (xs j).sum ∧
      (∀ t, s.tmp 0 = some t → t = s.d) := by
    clear hr
    induction hs with
    | refl =>
      refine ⟨fun j hj => ?_, ?_, fun t ht => by simp at ht⟩
      · show (if j < q then xs j else []) = []
        rw [if_neg (by omega)]
      · show d + (if 0 < q then xs 0 else []).sum = _
        rcases Nat.le_one_iff_eq_zero_or_eq_one.1 hq with rfl | rfl
        · simp
        · simp
    | tail _ st ih =>
      obtain ⟨h1, h2, h3⟩ := ih
      cases st with
      | read k x r h hr =>
        obtain rfl : k = 0 := by
          by_contra hk
          rw [h1 k hk] at hr
          cases hr
        exact ⟨h1, h2, fun t ht => by
          dsimp only at ht
          rw [Function.update_self] at ht
          exact (Option.some.inj ht).symm⟩
      | write k x t r h hr =>
        obtain rfl : k = 0 := by
          by_contra hk
          rw [h1 k hk] at hr
          cases hr
        refine ⟨fun j hj => ?_, ?_, fun t ht => by simp at ht⟩
        · dsimp only
          rw [Function.update_of_ne hj]
          exact h1 j hj
        · dsimp only
          rw [Function.update_self, ← h2, hr, h3 t h, List.sum_cons]
          ring
  rw [← inv.2.1, hr 0]
  simp

theorem drive_serial (xs : Nat → List ℝ) (batch threads : Nat) (hT : 0 < threads) (i : Nat) (d : ℝ) :
    Drive xs batch threads i d (d + ∑ k ∈ Ico i batch, (xs k).sum) := by
  induction hk : batch - i using Nat.strong_induction_on generalizing i d with
  | _ k ih =>
    by_cases h : i < batch
    · have h1 := round_serial (min threads (batch - i)) (fun j => xs (i + j)) d
      have h2 := ih (batch - (i + threads)) (by omega) (i + threads)
        (d + ∑ j ∈ range (min threads (batch - i)), (xs (i + j)).sum) rfl
      have e : d + ∑ j ∈ range (min threads (batch - i)), (xs (i + j)).sum + ∑ k ∈ Ico (i + threads) batch, (xs k).sum =
          d + ∑ k ∈ Ico i batch, (xs k).sum := by
        rw [add_assoc]
        congr 1
        have e1 : ∑ j ∈ range (min threads (batch - i)), (xs (i + j)).sum =
            ∑ k ∈ Ico i (i + min threads (batch - i)), (xs k).sum := by
          rw [Finset.sum_Ico_eq_sum_range, Nat.add_sub_cancel_left]
        rw [e1]
        by_cases ht : threads ≤ batch - i
        · rw [min_eq_left ht]
          exact Finset.sum_Ico_consecutive _ (by omega) (by omega)
        · rw [Finset.Ico_eq_empty (show ¬ i + threads < batch by omega), Finset.sum_empty, add_zero]
          congr 2
          omega
      rw [e] at h2
      exact .round h h1 h2
    · rw [Finset.Ico_eq_empty h, Finset.sum_empty, add_zero]
      exact .done (by omega)

/-- **C130, own models.** The forward drivers and the backward driver in which every instance
has its own model, for every batch size, every number of threads and every schedule: the call
ends, every instance has been worked on exactly once, with its own model, states, input and error,
and its result stored in its place. `I` are the arguments of the instances, `work` what
`ff_rmodel` or `bp_rmodel` does step by step to the model and the results. -/
theorem C130_own_models {σ I : Type} (work : I → List (σ → σ)) (inst : Nat → I) (batch threads : Nat) (hT : 1 ≤ threads) (s : Nat → σ) :
    (∃ s', MultiCore.Drive (fun k => work (inst k)) batch threads 0 s s') ∧
      ∀ s', MultiCore.Drive (fun k => work (inst k)) batch threads 0 s s' →
        ∀ k, s' k = if k < batch then (work (inst k)).foldl (fun x f => f x) (s k) else s k := by
  obtain ⟨h1, h2⟩ := MultiCore.C40_each_once (fun k => work (inst k)) batch threads hT s
  exact ⟨h1, fun s' h k => h2 s' h k⟩

/-- Non-vacuity: five instances on two threads. -/
example (s : Nat → Nat) (inst : Nat → Nat) : ∃ s', MultiCore.Drive (fun k => [fun x => x + inst k, fun x => 2 * x]) 5 2 0 s s' ∧
    s' 4 = 2 * (s 4 + inst 4) := by
  obtain ⟨⟨s', h⟩, H⟩ := C130_own_models (fun i : Nat => [fun x => x + i, fun x => 2 * x]) inst 5 2 (by decide) s
  refine ⟨s', h, ?_⟩
  rw [H s' h 4, if_pos (by decide)]
  rfl

/-- **C130, shared model (partial: one thread).** With one thread, the backward driver on a
shared model adds to every derivative what all the instances contribute.

Full statement: for any number of threads and every schedule. -/
theorem C130_shared_model_partial (xs : Nat → List ℝ) (batch : Nat) (d d' : ℝ) (h : Drive xs batch 1 0 d d') :
    d' = d + ∑ k ∈ range batch, (xs k).sum := by
  have gen : ∀ i d d', Drive xs batch 1 i d d' → d' = d + ∑ k ∈ Ico i batch, (xs k).sum := by
    intro i d d' h
    induction h with
    | done h => rw [Finset.Ico_eq_empty (by omega), Finset.sum_empty, add_zero]
    | @round i d d1 d' h hr r ih =>
      have h1 := round_one _ (by omega) _ _ _ hr
      have hm : min 1 (batch - i) = 1 := by omega
      rw [hm, Finset.sum_range_one] at h1
      rw [ih, h1, Finset.sum_eq_sum_Ico_succ_bot h, add_assoc]
      rfl
  rw [gen 0 d d' h, Finset.range_eq_Ico]

/-- Non-vacuity: the run exists, for any number of threads. -/
example : Drive (fun _ => [1, 2]) 3 1 0 0 9 := by
  have h := drive_serial (fun _ => [1, 2]) 3 1 (by decide) 0 0
  have e : (0 : ℝ) + ∑ k ∈ Ico 0 3, (([1, 2] : List ℝ)).sum = 9 := by
    norm_num
  rw [e] at h
  exact h

/-- **C130 refuted for the shared model.** With at least two threads and at least that many
instances, there is a schedule in which the contributions of all but the last instance of the
first round are lost. -/
theorem C130_shared_model_refuted (xs : Nat → List ℝ) (batch threads : Nat) (hT : 2 ≤ threads) (hB : threads ≤ batch)
    (hne : xs (threads - 1) ≠ []) (d : ℝ) :
    Drive xs batch threads 0 d (d + ∑ k ∈ Ico (threads - 1) batch, (xs k).sum) := by
  have hm : min threads (batch - 0) = threads - 1 + 1 := by omega
  have h1 := round_lost (threads - 1) (fun j => xs (0 + j)) d (by rw [Nat.zero_add]; exact hne)
  rw [← hm] at h1
  have h2 := drive_serial xs batch threads (by omega) (0 + threads) (d + (xs (0 + (threads - 1))).sum)
  have e : d + (xs (0 + (threads - 1))).sum + ∑ k ∈ Ico (0 + threads) batch, (xs k).sum =
      d + ∑ k ∈ Ico (threads - 1) batch, (xs k).sum := by
    rw [Finset.sum_eq_sum_Ico_succ_bot (show threads - 1 < batch by omega), add_assoc, Nat.zero_add, Nat.zero_add]
    rw [show threads - 1 + 1 = threads by omega]
  rw [e] at h2
  exact .round (by omega) h1 h2

/-- Two instances on two threads, each contributing 1: the derivative can be 1 instead of 2. -/
example : Drive (fun _ => [1]) 2 2 0 0 1 ∧ Drive (fun _ => [1]) 2 2 0 0 2 := by
  constructor
  · have h := C130_shared_model_refuted (fun _ => [1]) 2 2 (by decide) (by decide) (by simp) 0
    have e : (0 : ℝ) + ∑ k ∈ Ico (2 - 1) 2, (([1] : List ℝ)).sum = 1 := by norm_num
    rw [e] at h
    exact h
  · have h := drive_serial (fun _ => [1]) 2 2 (by decide) 0 0
    have e : (0 : ℝ) + ∑ k ∈ Ico 0 2, (([1] : List ℝ)).sum = 2 := by norm_num
    rw [e] at h
    exact h

end LLab.MultiCoreR
