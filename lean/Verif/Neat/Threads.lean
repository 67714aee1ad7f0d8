import Mathlib.Logic.Function.Basic
import Mathlib.Order.Basic
import Mathlib.Algebra.Order.Ring.Nat
import Mathlib.Data.List.Basic
import Mathlib.Data.List.Nodup
import Mathlib.Tactic.Common

/-!
Evaluating genomes on several threads (`/repo/src/multi_core_neat.c`). Property C113. A genome's evaluation is a function `ff` of the genome and its input; the
scratch fields it writes in the genome are not modelled, so the genomes handed in must be different objects.
-/

namespace LLab.NeatThreads

variable {G I O : Type}

/-! ### Model -/

/-- One write of a thread: `output[fst] = snd`. -/
abbrev Write (O : Type) := Nat × O

/-- `genome_thread_ff_opt` (`/repo/src/multi_core_neat.c` 35-49) for a thread with `count > 0` genomes: the genomes and inputs it is handed start
at `base`, its results at `index`. `none`: a read outside the arrays. -/
def chunk (ff : G → I → O) (gs : List G) (xs : List I) (base index count : Nat) : Option (List (Write O)) :=
  (List.range count).mapM fun j => (gs[base + j]?).bind fun g => (xs[base + j]?).bind fun x => some (index + j, ff g x)

/-- The program of thread `i` in `feed_forward_multi_thread_opt` (`/repo/src/multi_core_neat.c` 87-103) for `n` genomes on `threads` threads. -/
def worker (ff : G → I → O) (gs : List G) (xs : List I) (n threads i : Nat) : Option (List (Write O)) :=
  chunk ff gs xs (i * (n / threads)) (i * (n / threads)) (if i = threads - 1 then n - i * (n / threads) else n / threads)

/-- An interleaving of the programs of all threads: the writes of each thread, in order, and nothing else. -/
def Interleaved (progs : List (List (Write O))) (t : List (Nat × Write O)) : Prop :=
  ∀ i, (t.filter fun a => decide (a.1 = i)).map Prod.snd = progs.getD i []

/-- The array after the writes; `none` cells were never written. -/
def written (t : List (Nat × Write O)) : Nat → Option O :=
  t.foldl (fun o a => Function.update o a.2.1 (some a.2.2)) fun _ => none

/-- `feed_forward_multi_thread_opt` (`/repo/src/multi_core_neat.c` 75-110): `some none` for the result `NULL`, otherwise the
number of threads started and their programs. -/
def evaluate (ff : G → I → O) (n threads : Nat) (xs : List I) (gs : List G) : Option (Option (List (List (Write O)))) :=
  if threads = 0 ∨ n = 0 then some none
  else
    let threads := if threads > n then n else threads
    ((List.range threads).mapM (worker ff gs xs n threads)).map some

/-- The genomes (or inputs) with a non-zero index, `/repo/src/multi_core_neat.c` 134-140. `none`: a read outside the arrays. -/
def selected {α : Type} (n : Nat) (indices : List Int) (as : List α) : Option (List α) :=
  (List.range n).foldlM (fun r i => (indices[i]?).bind fun b => if b ≠ 0 then (as[i]?).map fun a => r ++ [a] else some r) []

/-- `feed_forward_multi_thread_opt_with_indices` (`/repo/src/multi_core_neat.c` 112-167). -/
def evaluateSelected (ff : G → I → O) (n threads : Nat) (xs : List I) (gs : List G) (indices : List Int) :
    Option (Option (List (List (Write O)))) :=
  if threads = 0 ∨ n = 0 then some none
  else (selected n indices gs).bind fun gs' => (selected n indices xs).bind fun xs' =>
    let m := gs'.length
    if m = 0 then some none
    else
      let threads := if threads > n then n else threads
      let threads := if threads > m then m else threads
      ((List.range threads).mapM (worker ff gs' xs' m threads)).map some

/-! ### Proofs -/

theorem mapM_run {α β : Type} (f : α → Option β) (g : α → β) : ∀ l : List α, (∀ a ∈ l, f a = some (g a)) → l.mapM f = some (l.map g) := by
  intro l
  induction l with
  | nil => intro _; simp
  | cons x xs ih =>
    intro h
    rw [List.mapM_cons, h x (by simp), ih fun a ha => h a (by simp [ha])]
    rfl

/-- The result of genome `k`. -/
def result (ff : G → I → O) (gs : List G) (xs : List I) (k : Nat) : Option O :=
  (gs[k]?).bind fun g => (xs[k]?).bind fun x => some (ff g x)

theorem result_some (ff : G → I → O) (gs : List G) (xs : List I) (k : Nat) (h1 : k < gs.length) (h2 : k < xs.length) :
    result ff gs xs k = some (ff gs[k] xs[k]) := by
  rw [result, List.getElem?_eq_getElem h1, List.getElem?_eq_getElem h2]
  rfl

/-- Where thread `i` starts and how many genomes it has. -/
def count (n threads i : Nat) : Nat := if i = threads - 1 then n - i * (n / threads) else n / threads

theorem count_cover (n threads : Nat) (i : Nat) (hi : i < threads) : i * (n / threads) + count n threads i ≤ n := by
  have h1 : threads * (n / threads) ≤ n := Nat.mul_div_le n threads
  have h2 : (i + 1) * (n / threads) ≤ threads * (n / threads) := Nat.mul_le_mul_right _ hi
  rw [Nat.add_mul] at h2
  unfold count
  split_ifs <;> omega

theorem owner (n threads k : Nat) (hT : 0 < threads) (hk : k < n) (hn : threads ≤ n) :
    ∃ i, i < threads ∧ i * (n / threads) ≤ k ∧ k < i * (n / threads) + count n threads i := by
  have hA : 0 < n / threads := Nat.div_pos hn hT
  by_cases h : k / (n / threads) < threads - 1
  · refine ⟨k / (n / threads), by omega, Nat.div_mul_le_self k _, ?_⟩
    rw [count, if_neg (by omega)]
    have h1 := Nat.div_add_mod k (n / threads)
    have h2 := Nat.mod_lt k hA
    rw [Nat.mul_comm] at h1
    omega
  · refine ⟨threads - 1, by omega, ?_, ?_⟩
    · have h1 : threads - 1 ≤ k / (n / threads) := by omega
      exact Nat.le_trans (Nat.mul_le_mul_right _ h1) (Nat.div_mul_le_self k _)
    · rw [count, if_pos rfl]
      have h1 : threads * (n / threads) ≤ n := Nat.mul_div_le n threads
      have h2 : (threads - 1) * (n / threads) ≤ threads * (n / threads) := Nat.mul_le_mul_right _ (by omega)
      omega

theorem owner_unique (n threads k i i' : Nat) (hi : i < threads) (hi' : i' < threads)
    (h1 : i * (n / threads) ≤ k) (h2 : k < i * (n / threads) + count n threads i)
    (h1' : i' * (n / threads) ≤ k) (h2' : k < i' * (n / threads) + count n threads i') : i = i' := by
  have key : ∀ a b, a < threads → b < threads → a < b → k < a * (n / threads) + count n threads a → b * (n / threads) ≤ k → False := by
    intro a b ha hb hab h3 h4
    rw [count, if_neg (by omega)] at h3
    have : (a + 1) * (n / threads) ≤ b * (n / threads) := Nat.mul_le_mul_right _ hab
    rw [Nat.add_mul] at this
    omega
  rcases Nat.lt_trichotomy i i' with h | h | h
  · exact (key i i' hi hi' h h2 h1').elim
  · exact h
  · exact (key i' i hi' hi h h2' h1).elim

theorem mapM_pairs {α β : Type} (f : α → Option (Nat × β)) (pos : α → Nat) (Q : Nat × β → Prop) : ∀ l : List α,
    (∀ a ∈ l, ∃ b, f a = some b ∧ b.1 = pos a ∧ Q b) → ∃ r, l.mapM f = some r ∧ r.map Prod.fst = l.map pos ∧ ∀ w ∈ r, Q w := by
  intro l
  induction l with
  | nil => intro _; exact ⟨[], by simp, rfl, by simp⟩
  | cons x xs ih =>
    intro h
    obtain ⟨b, e, h1, h2⟩ := h x (by simp)
    obtain ⟨r, er, h3, h4⟩ := ih fun a ha => h a (by simp [ha])
    refine ⟨b :: r, by rw [List.mapM_cons, e, er]; rfl, by simp [h1, h3], ?_⟩
    intro w hw
    rcases List.mem_cons.1 hw with rfl | hw
    · exact h2
    · exact h4 w hw

theorem worker_run (ff : G → I → O) (gs : List G) (xs : List I) (n threads i : Nat) (hi : i < threads)
    (hg : n ≤ gs.length) (hx : n ≤ xs.length) :
    ∃ p, worker ff gs xs n threads i = some p ∧ p.map Prod.fst = (List.range (count n threads i)).map (i * (n / threads) + ·) ∧
      ∀ w ∈ p, result ff gs xs w.1 = some w.2 := by
  have hc := count_cover n threads i hi
  obtain ⟨p, e, h1, h2⟩ := mapM_pairs (fun j => (gs[i * (n / threads) + j]?).bind fun g => (xs[i * (n / threads) + j]?).bind fun x =>
      some (i * (n / threads) + j, ff g x)) (i * (n / threads) + ·) (fun w => result ff gs xs w.1 = some w.2) (List.range (count n threads i)) (by
    intro j hj
    have hj := List.mem_range.1 hj
    have q1 : i * (n / threads) + j < gs.length := by omega
    have q2 : i * (n / threads) + j < xs.length := by omega
    refine ⟨(i * (n / threads) + j, ff gs[i * (n / threads) + j] xs[i * (n / threads) + j]), ?_, rfl, result_some ff gs xs _ q1 q2⟩
    simp only [List.getElem?_eq_getElem q1, List.getElem?_eq_getElem q2, Option.bind_some])
  exact ⟨p, e, h1, h2⟩

theorem written_eq (t : List (Nat × Write O)) (k : Nat) (v : O) (h1 : ∀ a ∈ t, a.2.1 = k → a.2.2 = v) (h2 : ∃ a ∈ t, a.2.1 = k) :
    written t k = some v := by
  have key : ∀ (t : List (Nat × Write O)) (o : Nat → Option O), (∀ a ∈ t, a.2.1 = k → a.2.2 = v) → ((∃ a ∈ t, a.2.1 = k) ∨ o k = some v) →
      t.foldl (fun (o : Nat → Option O) a => Function.update o a.2.1 (some a.2.2)) o k = some v := by
    intro t
    induction t with
    | nil =>
      intro o _ h
      rcases h with ⟨a, h, _⟩ | h
      · simp at h
      · exact h
    | cons b t ih =>
      intro o h1 h2
      rw [List.foldl_cons]
      refine ih _ (fun a ha => h1 a (by simp [ha])) ?_
      by_cases hb : b.2.1 = k
      · right
        rw [hb, Function.update_self, h1 b (by simp) hb]
      · rcases h2 with ⟨a, ha, hak⟩ | h2
        · rcases List.mem_cons.1 ha with rfl | ha
          · exact absurd hak hb
          · exact Or.inl ⟨a, ha, hak⟩
        · right
          rw [Function.update_of_ne (Ne.symm hb)]
          exact h2
  exact key t _ h1 (Or.inl h2)

/-- The threads of one evaluation do together what is asked for. -/
theorem workers_run (ff : G → I → O) (gs : List G) (xs : List I) (n threads : Nat) (hT : 0 < threads) (hn : threads ≤ n)
    (hg : n ≤ gs.length) (hx : n ≤ xs.length) :
    ∃ progs, (List.range threads).mapM (worker ff gs xs n threads) = some progs ∧ progs.length = threads ∧
      ∀ t, Interleaved progs t →
        (∀ a ∈ t, a.2.1 < n) ∧
        (∀ k, k < n → (t.filter fun a => decide (a.2.1 = k)).length = 1) ∧
        ∀ k, k < n → written t k = result ff gs xs k := by
  have hw : ∀ i, ∃ p, i < threads → worker ff gs xs n threads i = some p ∧
      p.map Prod.fst = (List.range (count n threads i)).map (i * (n / threads) + ·) ∧ ∀ w ∈ p, result ff gs xs w.1 = some w.2 := by
    intro i
    by_cases hi : i < threads
    · obtain ⟨p, hp⟩ := worker_run ff gs xs n threads i hi hg hx
      exact ⟨p, fun _ => hp⟩
    · exact ⟨[], fun h => absurd h hi⟩
  choose p hp using hw
  refine ⟨(List.range threads).map p, ?_, by simp, ?_⟩
  · apply mapM_run
    intro i hi
    exact (hp i (List.mem_range.1 hi)).1
  intro t ht
  have hget : ∀ i, i < threads → (t.filter fun a => decide (a.1 = i)).map Prod.snd = p i := by
    intro i hi
    rw [ht i]
    simp [List.getD, hi]
  have hthread : ∀ a ∈ t, a.1 < threads ∧ a.2 ∈ p a.1 := by
    intro a ha
    have hm : a.2 ∈ (t.filter fun b => decide (b.1 = a.1)).map Prod.snd :=
      List.mem_map.2 ⟨a, List.mem_filter.2 ⟨ha, by simp⟩, rfl⟩
    by_cases h : a.1 < threads
    · exact ⟨h, by rw [hget a.1 h] at hm; exact hm⟩
    · rw [ht a.1] at hm
      simp [List.getD, h] at hm
  have hpos : ∀ a ∈ t, a.1 * (n / threads) ≤ a.2.1 ∧ a.2.1 < a.1 * (n / threads) + count n threads a.1 := by
    intro a ha
    obtain ⟨h1, h2⟩ := hthread a ha
    have h3 : a.2.1 ∈ (p a.1).map Prod.fst := List.mem_map.2 ⟨a.2, h2, rfl⟩
    rw [(hp a.1 h1).2.1] at h3
    obtain ⟨j, hj, e⟩ := List.mem_map.1 h3
    have := List.mem_range.1 hj
    omega
  refine ⟨?_, ?_, ?_⟩
  · intro a ha
    have h1 := hpos a ha
    have h2 := count_cover n threads a.1 (hthread a ha).1
    omega
  · intro k hk
    obtain ⟨i, hi, o1, o2⟩ := owner n threads k hT hk hn
    have e1 : (t.filter fun a => decide (a.2.1 = k)) = ((t.filter fun a => decide (a.1 = i)).filter fun a => decide (a.2.1 = k)) := by
      rw [List.filter_filter]
      apply List.filter_congr
      intro a ha
      by_cases h : a.2.1 = k
      · have h1 := hpos a ha
        rw [h] at h1
        have h3 := owner_unique n threads k a.1 i (hthread a ha).1 hi h1.1 h1.2 o1 o2
        simp [h, h3]
      · simp [h]
    rw [e1]
    have e2 : ((t.filter fun a => decide (a.1 = i)).filter fun a => decide (a.2.1 = k)).length =
        (((p i).map Prod.fst).filter fun x => decide (x = k)).length := by
      rw [← hget i hi, List.map_map, List.filter_map, List.length_map]
      rfl
    rw [e2, (hp i hi).2.1, List.filter_map, List.length_map]
    have e3 : (List.range (count n threads i)).filter ((fun x => decide (x = k)) ∘ (i * (n / threads) + ·)) = [k - i * (n / threads)] := by
      have hlt : k - i * (n / threads) < count n threads i := by omega
      have hcong : (List.range (count n threads i)).filter ((fun x => decide (x = k)) ∘ (i * (n / threads) + ·)) =
          (List.range (count n threads i)).filter (fun j => j == k - i * (n / threads)) := by
        apply List.filter_congr
        intro j _
        simp only [Function.comp]
        by_cases h : j = k - i * (n / threads)
        · subst h
          simp
          omega
        · have : ¬ i * (n / threads) + j = k := by omega
          simp [h, this]
      rw [hcong, List.filter_beq, List.count_eq_one_of_mem List.nodup_range (List.mem_range.2 hlt)]
      rfl
    rw [e3]
    rfl
  · intro k hk
    rw [result_some ff gs xs k (by omega) (by omega)]
    apply written_eq
    · intro a ha hak
      obtain ⟨h1, h2⟩ := hthread a ha
      have := (hp a.1 h1).2.2 a.2 h2
      rw [hak, result_some ff gs xs k (by omega) (by omega)] at this
      exact (Option.some.inj this).symm
    · obtain ⟨i, hi, o1, o2⟩ := owner n threads k hT hk hn
      have h3 : k ∈ (p i).map Prod.fst := by
        rw [(hp i hi).2.1]
        exact List.mem_map.2 ⟨k - i * (n / threads), List.mem_range.2 (by omega), by omega⟩
      rw [← hget i hi, List.map_map] at h3
      obtain ⟨a, ha, e⟩ := List.mem_map.1 h3
      exact ⟨a, (List.mem_filter.1 ha).1, e⟩

/-- **C113.** Evaluating `n` genomes on any positive number of threads, for every interleaving of the threads: nothing is written outside
the result, every genome is evaluated exactly once, and its place holds the output of its own network on its own input.
At most one thread per genome is started. -/
theorem C113_each_once (ff : G → I → O) (gs : List G) (xs : List I) (n threads : Nat) (hT : 0 < threads) (hn : 0 < n)
    (hg : n ≤ gs.length) (hx : n ≤ xs.length) :
    ∃ progs, evaluate ff n threads xs gs = some (some progs) ∧ progs.length = min threads n ∧
      ∀ t, Interleaved progs t →
        (∀ a ∈ t, a.2.1 < n) ∧
        (∀ k, k < n → (t.filter fun a => decide (a.2.1 = k)).length = 1) ∧
        ∀ k g x, k < n → gs[k]? = some g → xs[k]? = some x → written t k = some (ff g x) := by
  have hmin : (if threads > n then n else threads) = min threads n := by
    split_ifs <;> omega
  obtain ⟨progs, e, hl, h⟩ := workers_run ff gs xs n (min threads n) (by omega) (by omega) hg hx
  refine ⟨progs, ?_, hl, fun t ht => ?_⟩
  · rw [evaluate, if_neg (by omega)]
    dsimp only
    rw [hmin, e]
    rfl
  · obtain ⟨h1, h2, h3⟩ := h t ht
    refine ⟨h1, h2, fun k g x hk hgk hxk => ?_⟩
    rw [h3 k hk, result, hgk, hxk]
    rfl

/-- **C113 (nothing to do).** `NULL` comes back exactly when there are no threads or no genomes. -/
theorem C113_null (ff : G → I → O) (gs : List G) (xs : List I) (n threads : Nat) (hg : n ≤ gs.length) (hx : n ≤ xs.length) :
    evaluate ff n threads xs gs = some none ↔ threads = 0 ∨ n = 0 := by
  constructor
  · intro h
    by_contra hc
    obtain ⟨p, e, -⟩ := C113_each_once ff gs xs n threads (by omega) (by omega) hg hx
    rw [e] at h
    simp at h
  · intro h
    rw [evaluate, if_pos h]

/-- The entries of a list whose index is not zero, in order. -/
def chosen {α : Type} (indices : List Int) (as : List α) : List α :=
  ((indices.zip as).filter fun p => decide (p.1 ≠ 0)).map Prod.snd

theorem selected_eq {α : Type} (n : Nat) (indices : List Int) (as : List α) (hi : indices.length = n) (ha : as.length = n) :
    selected n indices as = some (chosen indices as) := by
  have key : ∀ m, m ≤ n → (List.range m).foldlM (fun r i => (indices[i]?).bind fun b =>
      if b ≠ 0 then (as[i]?).map fun a => r ++ [a] else some r) ([] : List α) = some (chosen (indices.take m) (as.take m)) := by
    intro m
    induction m with
    | zero => intro _; rfl
    | succ m ih =>
      intro hm
      have h1 : m < indices.length := by omega
      have h2 : m < as.length := by omega
      rw [List.range_succ, List.foldlM_append, ih (by omega)]
      simp only [Option.bind_eq_bind, Option.bind_some, List.foldlM_cons, List.foldlM_nil, List.getElem?_eq_getElem h1, List.getElem?_eq_getElem h2]
      have e : chosen (indices.take (m + 1)) (as.take (m + 1)) =
          chosen (indices.take m) (as.take m) ++ (if indices[m] ≠ 0 then [as[m]] else []) := by
        unfold chosen
        rw [List.take_succ_eq_append_getElem h1, List.take_succ_eq_append_getElem h2, List.zip_append (by simp; omega), List.filter_append,
          List.map_append]
        congr 1
        by_cases h : indices[m] = 0 <;> simp [h]
      rw [e]
      by_cases h : indices[m] = 0
      · simp [h]
      · simp [h]
  have := key n (le_refl n)
  rw [selected, this, List.take_of_length_le (by omega), List.take_of_length_le (by omega)]

theorem chosen_length {α β : Type} (indices : List Int) (as : List α) (bs : List β) (ha : as.length = indices.length) (hb : bs.length = indices.length) :
    (chosen indices as).length = (chosen indices bs).length := by
  induction indices generalizing as bs with
  | nil => simp [chosen]
  | cons i is ih =>
    cases as with
    | nil => simp at ha
    | cons a as =>
      cases bs with
      | nil => simp at hb
      | cons b bs =>
        have := ih as bs (by simpa using ha) (by simpa using hb)
        unfold chosen at this ⊢
        by_cases h : i = 0
        · simpa [h] using this
        · simpa [h] using this

/-- **C113 (with indices).** Only the genomes with a non-zero index are evaluated, each once, and the results stand in the order of the genomes,
without gaps; `NULL` comes back exactly when there is nothing to do. -/
theorem C113_selected (ff : G → I → O) (gs : List G) (xs : List I) (indices : List Int) (n threads : Nat) (hT : 0 < threads)
    (hi : indices.length = n) (hg : gs.length = n) (hx : xs.length = n) :
    (chosen indices gs = [] → evaluateSelected ff n threads xs gs indices = some none) ∧
    (chosen indices gs ≠ [] → ∃ progs, evaluateSelected ff n threads xs gs indices = some (some progs) ∧
      progs.length = min threads (chosen indices gs).length ∧
      ∀ t, Interleaved progs t →
        (∀ a ∈ t, a.2.1 < (chosen indices gs).length) ∧
        (∀ k, k < (chosen indices gs).length → (t.filter fun a => decide (a.2.1 = k)).length = 1) ∧
        ∀ k g x, (chosen indices gs)[k]? = some g → (chosen indices xs)[k]? = some x → written t k = some (ff g x)) := by
  have e1 := selected_eq n indices gs hi hg
  have e2 := selected_eq n indices xs hi hx
  have hlen := chosen_length indices gs xs (by omega) (by omega)
  constructor
  · intro h
    rw [evaluateSelected]
    by_cases hc : threads = 0 ∨ n = 0
    · rw [if_pos hc]
    · rw [if_neg hc, e1, Option.bind_some, e2, Option.bind_some]
      dsimp only
      rw [if_pos (by rw [h]; rfl)]
  · intro h
    have hm : 0 < (chosen indices gs).length := List.length_pos_iff.2 h
    have hle : (chosen indices gs).length ≤ n := by
      unfold chosen
      rw [List.length_map]
      refine Nat.le_trans (List.length_filter_le _ _) ?_
      rw [List.length_zip]
      omega
    obtain ⟨progs, e, hl, hh⟩ := workers_run ff (chosen indices gs) (chosen indices xs) (chosen indices gs).length
      (min threads (chosen indices gs).length) (by omega) (by omega) le_rfl (by omega)
    refine ⟨progs, ?_, hl, fun t ht => ?_⟩
    · rw [evaluateSelected, if_neg (by omega), e1, Option.bind_some, e2, Option.bind_some]
      dsimp only
      rw [if_neg (by omega)]
      have : (if (if threads > n then n else threads) > (chosen indices gs).length then (chosen indices gs).length
          else if threads > n then n else threads) = min threads (chosen indices gs).length := by
        split_ifs <;> omega
      rw [this, e]
      rfl
    · obtain ⟨h1, h2, h3⟩ := hh t ht
      refine ⟨h1, h2, fun k g x hgk hxk => ?_⟩
      have hk : k < (chosen indices gs).length := (List.getElem?_eq_some_iff.1 hgk).1
      rw [h3 k hk, result, hgk, hxk]
      rfl

/-- An interleaving always exists. -/
theorem interleaved_exists (progs : List (List (Write O))) : ∃ t, Interleaved progs t := by
  refine ⟨(progs.zipIdx.map fun p => p.1.map fun w => (p.2, w)).flatten, fun i => ?_⟩
  have key : ∀ (l : List (List (Write O))) (s : Nat), (((l.zipIdx s).map fun p => p.1.map fun w => (p.2, w)).flatten.filter
      fun a => decide (a.1 = i)).map Prod.snd = if s ≤ i then l.getD (i - s) [] else [] := by
    intro l
    induction l with
    | nil => intro s; simp
    | cons p ps ih =>
      intro s
      rw [List.zipIdx_cons, List.map_cons, List.flatten_cons, List.filter_append, List.map_append, ih]
      by_cases h : s = i
      · subst h
        rw [if_neg (by omega), if_pos le_rfl, List.filter_map, List.map_map]
        simp [Function.comp_def]
      · have e : ((p.map fun w => (s, w)).filter fun a => decide (a.1 = i)) = [] := by
          rw [List.filter_eq_nil_iff]
          intro a ha
          obtain ⟨w, _, rfl⟩ := List.mem_map.1 ha
          simpa using h
        rw [e]
        by_cases h2 : s ≤ i
        · rw [if_pos (by omega), if_pos h2, show i - s = (i - (s + 1)) + 1 by omega]
          simp
        · rw [if_neg (by omega), if_neg h2]
          rfl
  have := key progs 0
  simpa using this

example : (evaluate (fun (g x : Nat) => g * x) 5 2 [1, 2, 3, 4, 5] [10, 20, 30, 40, 50]) =
    some (some [[(0, 10), (1, 40)], [(2, 90), (3, 160), (4, 250)]]) := by decide +kernel

example : (evaluateSelected (fun (g x : Nat) => g * x) 3 8 [1, 2, 3] [10, 20, 30] [1, 0, 7]) =
    some (some [[(0, 10)], [(1, 90)]]) := by decide +kernel

end LLab.NeatThreads
