import Mathlib.Algebra.BigOperators.Group.Finset.Basic
import Mathlib.Algebra.BigOperators.Intervals
import Mathlib.Data.List.Range
import Mathlib.Tactic.Linarith

/-!
The multicore drivers that run a batch on a fixed number of threads
(`/repo/src/multi_core_model.c`). Property C40.

The work on one sample is an arbitrary list of atomic steps on that sample's own
model; the shared inputs and the shared parameters (`real_m`) are only read.
-/

namespace LLab.MultiCore

open Finset

variable {σ : Type}

/-- A step of the thread working on sample `fst`. -/
abbrev Step (σ : Type) := Nat × (σ → σ)

/-- One step: the model of that sample changes. -/
def step (s : Nat → σ) (a : Step σ) : Nat → σ := Function.update s a.1 (a.2 (s a.1))

/-- A sequence of steps. -/
def run (t : List (Step σ)) (s : Nat → σ) : Nat → σ := t.foldl step s

/-- An interleaving of the threads of the samples `jobs`: the steps of each job, in
order, and nothing else. -/
def Schedule (prog : Nat → List (σ → σ)) (jobs : Finset Nat) (t : List (Step σ)) : Prop :=
  ∀ k, (t.filter fun a => decide (a.1 = k)).map Prod.snd = if k ∈ jobs then prog k else []

/-- The samples of the round starting at `i`: `for(j = 0; j < threads && j+i <
mini_batch_size; j++)` with the arguments `m[i+j]`, `inputs[i+j]`, `errors[i+j]`,
`&returning_error[i+j]` (`/repo/src/multi_core_model.c` 139-147). -/
def jobs (batch threads i : Nat) : Finset Nat :=
  ((range threads).filter fun j => j + i < batch).image fun j => i + j

/-- The loop `for(i = 0; i < mini_batch_size; i+=threads)` from `i` on: a round of
threads is started, joined, then the next round. This is the common structure of
`model_tensor_input_ff_multicore` (131-154), `_ff_multicore_opt` (172-196),
`_bp_multicore` (248-277), `_bp_multicore_opt` (296-326),
`ff_error_bp_model_multicore` (346-374) and `_multicore_opt` (393-422), and of the two drivers of
`/repo/src/multi_core_vae_model.c` (60-84, 104-131). -/
inductive Drive (prog : Nat → List (σ → σ)) (batch threads : Nat) : Nat → (Nat → σ) → (Nat → σ) → Prop
  | done (i : Nat) (s : Nat → σ) : batch ≤ i → Drive prog batch threads i s s
  | round (i : Nat) (s s' : Nat → σ) (t : List (Step σ)) : i < batch → Schedule prog (jobs batch threads i) t →
      Drive prog batch threads (i + threads) (run t s) s' → Drive prog batch threads i s s'

theorem run_eq (t : List (Step σ)) (s : Nat → σ) (k : Nat) :
    run t s k = ((t.filter fun a => decide (a.1 = k)).map Prod.snd).foldl (fun x f => f x) (s k) := by
  induction t generalizing s with
  | nil => rfl
  | cons a t ih =>
    show run t (step s a) k = _
    rw [ih, List.filter_cons]
    by_cases h : a.1 = k
    · rw [if_pos (by simpa using h), List.map_cons, List.foldl_cons]
      unfold step
      rw [← h, Function.update_self]
    · rw [if_neg (by simpa using h)]
      unfold step
      rw [Function.update_of_ne (Ne.symm h)]

theorem mem_jobs {batch threads i k : Nat} : k ∈ jobs batch threads i ↔ i ≤ k ∧ k < i + threads ∧ k < batch := by
  unfold jobs
  rw [mem_image]
  constructor
  · rintro ⟨j, hj, rfl⟩
    obtain ⟨h1, h2⟩ := mem_filter.1 hj
    have := mem_range.1 h1
    omega
  · rintro ⟨h1, h2, h3⟩
    exact ⟨k - i, mem_filter.2 ⟨mem_range.2 (by omega), by omega⟩, by omega⟩

theorem drive_eq {prog : Nat → List (σ → σ)} {batch threads i : Nat} {s s' : Nat → σ}
    (h : Drive prog batch threads i s s') (k : Nat) :
    s' k = if i ≤ k ∧ k < batch then (prog k).foldl (fun x f => f x) (s k) else s k := by
  induction h with
  | done i s hi => rw [if_neg (by omega)]
  | round i s s' t hi ht _ ih =>
    rw [ih, run_eq, ht k]
    by_cases hk : k ∈ jobs batch threads i
    · have := mem_jobs.1 hk
      rw [if_pos hk, if_neg (by omega), if_pos (by omega)]
    · rw [if_neg hk]
      have : ¬ (i ≤ k ∧ k < i + threads ∧ k < batch) := fun h => hk (mem_jobs.2 h)
      simp only [List.foldl_nil]
      by_cases h2 : i ≤ k ∧ k < batch
      · rw [if_pos h2, if_pos (by omega)]
      · rw [if_neg h2, if_neg (by omega)]

/-- A schedule always exists: one thread after the other. -/
theorem schedule_exists (prog : Nat → List (σ → σ)) (J : Finset Nat) : ∃ t, Schedule prog J t := by
  induction J using Finset.induction_on with
  | empty => exact ⟨[], fun k => by simp⟩
  | insert j J hj ih =>
    obtain ⟨t, ht⟩ := ih
    refine ⟨(prog j).map (fun f => (j, f)) ++ t, fun k => ?_⟩
    rw [List.filter_append, List.map_append, ht k]
    by_cases hk : k = j
    · subst hk
      rw [if_neg hj, if_pos (mem_insert_self _ _), List.append_nil, List.filter_eq_self.2]
      · rw [List.map_map]
        exact List.map_id _
      · intro a ha
        obtain ⟨f, _, rfl⟩ := List.mem_map.1 ha
        simp
    · have : (List.filter (fun a : Step σ => decide (a.1 = k)) ((prog j).map fun f => (j, f))) = [] := by
        rw [List.filter_eq_nil_iff]
        intro a ha
        obtain ⟨f, _, rfl⟩ := List.mem_map.1 ha
        simpa using fun h => hk h.symm
      rw [this, List.map_nil, List.nil_append]
      refine if_congr ?_ rfl rfl
      rw [mem_insert]
      simp [hk]

/-- **C40.** For every batch size, every number of threads that is at least one and
every interleaving, the driver ends, runs the work of every sample of the batch
exactly once on that sample's own model, from beginning to end, and touches no
other model. -/
theorem C40_each_once (prog : Nat → List (σ → σ)) (batch threads : Nat) (hT : 1 ≤ threads) (s : Nat → σ) :
    (∃ s', Drive prog batch threads 0 s s') ∧
    ∀ s', Drive prog batch threads 0 s s' →
      ∀ k, s' k = if k < batch then (prog k).foldl (fun x f => f x) (s k) else s k := by
  constructor
  · have key : ∀ d i (s : Nat → σ), batch - i ≤ d → ∃ s', Drive prog batch threads i s s' := by
      intro d
      induction d with
      | zero => exact fun i s h => ⟨s, .done i s (by omega)⟩
      | succ d ih =>
        intro i s h
        by_cases hi : batch ≤ i
        · exact ⟨s, .done i s hi⟩
        · obtain ⟨t, ht⟩ := schedule_exists prog (jobs batch threads i)
          obtain ⟨s', hs'⟩ := ih (i + threads) (run t s) (by omega)
          exact ⟨s', .round i s s' t (by omega) ht hs'⟩
    exact key batch 0 s (by omega)
  · intro s' h k
    rw [drive_eq h k]
    exact if_congr (by omega) rfl rfl

/-- At most `threads` threads run at the same time. -/
theorem C40_at_most_threads (batch threads i : Nat) : (jobs batch threads i).card ≤ threads := by
  unfold jobs
  refine card_image_le.trans ((card_filter_le _ _).trans ?_)
  rw [card_range]

example : jobs 7 3 6 = {6} := by decide

/-- **C40, zero threads.** With `threads = 0` and a non-empty batch no execution ends. -/
theorem C40_zero_threads_partial (prog : Nat → List (σ → σ)) (batch : Nat) (hB : 0 < batch) (s s' : Nat → σ) :
    ¬ Drive prog batch 0 0 s s' := by
  intro h
  have key : ∀ i (s s' : Nat → σ), Drive prog batch 0 i s s' → i = 0 → False := by
    intro i s s' h
    induction h with
    | done i s hi => omega
    | round i s s' t hi ht _ ih => exact fun h0 => ih (by omega)
  exact key 0 s s' h rfl

/-! ### The loss driver -/

variable {α : Type} [AddCommMonoid α]

/-- `model_tensor_input_ff_multicore_only_for_ff_loss_reset_opt`
(`/repo/src/multi_core_model.c` 197-230) with `loss i` the summed error of sample
`i`; thread `j` sums the samples `j*value, …` (its worker: lines 52-69). `none` is
the division by zero of an empty batch or no threads. Sample losses do not depend
on each other: each thread uses its own model and resets it after every sample. -/
def lossReset (batch threads : Nat) (loss : Nat → α) : Option α :=
  let threads := if batch < threads then batch else threads
  if threads = 0 then none
  else
    let value := batch / threads
    some (∑ j ∈ range threads,
      ∑ i ∈ range (if batch - j * value < value then batch - j * value else value), loss (j * value + i))

theorem lossReset_eq (batch threads : Nat) (loss : Nat → α) (h : 0 < min batch threads) :
    lossReset batch threads loss =
      some (∑ i ∈ range (min batch threads * (batch / min batch threads)), loss i) := by
  have ht : (if batch < threads then batch else threads) = min batch threads := by
    rw [Nat.min_def]
    split_ifs <;> omega
  unfold lossReset
  dsimp only
  rw [ht]
  generalize min batch threads = T at h ⊢
  rw [if_neg (by omega)]
  congr 1
  have hv : ∀ j, j < T → (if batch - j * (batch / T) < batch / T then batch - j * (batch / T) else batch / T) = batch / T := by
    intro j hj
    have h1 : (j + 1) * (batch / T) ≤ T * (batch / T) := Nat.mul_le_mul_right _ hj
    have h2 := Nat.mul_div_le batch T
    rw [Nat.add_mul] at h1
    rw [if_neg (by omega)]
  rw [Finset.sum_congr rfl fun j hj => by rw [hv j (mem_range.1 hj)]]
  generalize batch / T = v
  clear hv h ht
  induction T with
  | zero => simp
  | succ T ih => rw [Finset.sum_range_succ, ih, Nat.add_mul, Nat.one_mul, Finset.sum_range_add]

/-- **C40, batch loss (partial).** When the threads divide the batch evenly the
returned value is the total loss; in general only the first
`threads·(batch/threads)` samples count. -/
theorem C40_loss_partial (batch threads : Nat) (hB : 0 < batch) (hT : 0 < threads) (loss : Nat → α) :
    (min batch threads ∣ batch → lossReset batch threads loss = some (∑ i ∈ range batch, loss i)) ∧
    lossReset batch threads loss = some (∑ i ∈ range (batch - batch % min batch threads), loss i) := by
  have h := lossReset_eq batch threads loss (by omega)
  have e : min batch threads * (batch / min batch threads) = batch - batch % min batch threads := by
    have := Nat.div_add_mod batch (min batch threads)
    omega
  rw [e] at h
  refine ⟨fun hd => ?_, h⟩
  rw [h, Nat.mod_eq_zero_of_dvd hd, Nat.sub_zero]

example : lossReset 4 2 (fun i => i + 1) = some 10 := by decide

/-- **C40, batch loss refuted**: three samples on two threads: the third is ignored. -/
theorem C40_loss_refuted : ¬ ∀ (batch threads : Nat) (loss : Nat → Nat), 0 < batch → 0 < threads →
    lossReset batch threads loss = some (∑ i ∈ range batch, loss i) := by
  intro h
  have := h 3 2 (fun _ => 1) (by omega) (by omega)
  revert this
  decide

end LLab.MultiCore
