import Verif.Replay.Buffer

/-! Properties C10, C11 and C58 of the replay ring and its priority heap. -/

namespace LLab.Replay

variable {S α : Type} [LinearOrder α]

/-- **C10.** After any legal history on a buffer of capacity `cap ≥ 1`, no
access is out of bounds; with `k` experiences added, the fill count is
`min k cap`, each of the last `cap` experiences is stored with all its five
fields in its slot, and every slot not covered by them is empty. -/
theorem C10_ring (cap : Nat) (hc : 0 < cap) (zero hundred : α) (ops : List (Op S α))
    (hl : Legal cap 0 ops) :
    ∃ b, (Buf.init cap zero : Buf S α).run hundred ops = some b ∧
      b.length = some (min (added ops).length cap) ∧
      (∀ (k : Nat) e, (added ops)[k]? = some e → (added ops).length ≤ k + cap →
        b.Holds (k % cap) e) ∧
      (∀ s, s < cap → (added ops).length ≤ s → b.st.get s = none) := by
  obtain ⟨b, e, i, _⟩ := Inv.run hc hundred ops _ [] (Inv.init (S := S) cap zero) hl
  rw [List.nil_append] at i
  exact ⟨b, e, i.length_eq hc, i.holds, fun s hs hk => i.empty s hs (by omega)⟩

/-- The last `cap` experiences occupy pairwise different slots, so none of them
hides another. -/
theorem C10_slots_distinct (cap n j k : Nat) (hj : j < n) (hk : k < n) (hj' : n ≤ j + cap)
    (hk' : n ≤ k + cap) (hjk : j ≠ k) : j % cap ≠ k % cap := by
  intro h
  have h1 := Nat.div_add_mod j cap
  have h2 := Nat.div_add_mod k cap
  rw [h] at h1
  rcases Nat.lt_trichotomy (j / cap) (k / cap) with h3 | h3 | h3
  · have : cap * (j / cap) + cap ≤ cap * (k / cap) := by
      calc cap * (j / cap) + cap = cap * (j / cap + 1) := by rw [Nat.mul_add, Nat.mul_one]
        _ ≤ _ := Nat.mul_le_mul_left _ h3
    omega
  · rw [h3] at h1; omega
  · have : cap * (k / cap) + cap ≤ cap * (j / cap) := by
      calc cap * (k / cap) + cap = cap * (k / cap + 1) := by rw [Nat.mul_add, Nat.mul_one]
        _ ≤ _ := Nat.mul_le_mul_left _ h3
    omega

/-- **C11.** After any legal history: the heap arrays were never accessed out of
bounds, the two index maps are inverse bijections on the filled part, the array
is a max-heap, and the priority of every slot is the one the history asked for. -/
theorem C11_heap (cap : Nat) (hc : 0 < cap) (zero hundred : α) (ops : List (Op S α))
    (hl : Legal cap 0 ops) :
    ∃ b, (Buf.init cap zero : Buf S α).run hundred ops = some b ∧
      b.heap.Bij (min (added ops).length cap) ∧
      b.heap.Ordered (min (added ops).length cap) ∧
      Prio cap hundred 0 (fun _ => zero) ops b.heap.values.get := by
  obtain ⟨b, e, i, p⟩ := Inv.run hc hundred ops _ [] (Inv.init (S := S) cap zero) hl
  rw [List.nil_append] at i
  exact ⟨b, e, i.bij, i.ordered, p⟩

/-- The heap's root carries the largest priority among the stored slots. -/
theorem C11_root_is_max (cap : Nat) (hc : 0 < cap) (zero hundred : α) (ops : List (Op S α))
    (hl : Legal cap 0 ops) :
    ∃ b, (Buf.init cap zero : Buf S α).run hundred ops = some b ∧
      ∀ s, s < min (added ops).length cap →
        b.heap.values.get s ≤ b.heap.values.get (b.heap.ind.get 0) := by
  obtain ⟨b, e, i, p⟩ := Inv.run hc hundred ops _ [] (Inv.init (S := S) cap zero) hl
  rw [List.nil_append] at i
  refine ⟨b, e, fun s hs => ?_⟩
  have hb := i.bij.2 s hs
  have := ordered_top i.ordered _ hb.1
  rwa [Heap.val, hb.2] at this

/-- A concrete legal history with wrap-around and priority updates. -/
def demoOps : List (Op Nat Nat) :=
  [.add ⟨0, 1, 0, 5, 1⟩, .add ⟨1, 2, 1, 6, 1⟩, .setPriority 0 7, .add ⟨2, 3, 0, 4, 1⟩,
    .setPriority 1 300, .add ⟨3, 4, 1, 9, 0⟩]

example : Legal 3 0 demoOps := by simp [Legal, demoOps]

example : ((Buf.init 3 0 : Buf Nat Nat).run 100 demoOps).map
    (fun b => (b.cur, (List.range 3).map b.heap.ind.get, (List.range 3).map b.heap.values.get,
      (List.range 3).map b.rewards.get)) = some (1, [0, 2, 1], [300, 300, 100], [9, 6, 4]) := by
  decide

/-! ### Priority write-back of a training step -/

/-- The loop at `/repo/src/rainbow.c` 1830-1838: for each sampled heap position
that did not occur earlier in the batch, `update_buffer_state(position, |err|)`.
`seen` is the part of `reverse_batch` before the current entry; errors are given
as absolute values. -/
def Buf.writeBack : Buf S α → List Nat → List (Nat × α) → Option (Buf S α)
  | b, _, [] => some b
  | b, seen, (pos, err) :: rest =>
    if pos ∈ seen then Buf.writeBack b (seen ++ [pos]) rest
    else do
      let b' ← b.updateState pos err
      Buf.writeBack b' (seen ++ [pos]) rest

/-- What a user expects: every sampled experience (slot `batch[i] =
error_indices[reverse_batch[i]]` at sampling time) ends with its own new error
as priority, for a batch of distinct positions. -/
def WriteBackCorrect (b b' : Buf S α) (batch : List (Nat × α)) : Prop :=
  ∀ p ∈ batch, b'.heap.values.get (b.heap.ind.get p.1) = p.2

/-- **C58 (partial).** With one distinct sampled position the write-back sets
exactly that experience's priority. Missing: batches with two or more distinct
positions, for which the statement is false (`C58_write_back_refuted`). -/
theorem C58_write_back_single_partial (cap : Nat) (hc : 0 < cap) (zero hundred : α)
    (ops : List (Op S α)) (hl : Legal cap 0 ops) (b : Buf S α)
    (hb : (Buf.init cap zero : Buf S α).run hundred ops = some b) (pos : Nat)
    (hp : pos < min (added ops).length cap) (err : α) :
    ∃ b', b.writeBack [] [(pos, err)] = some b' ∧ WriteBackCorrect b b' [(pos, err)] ∧
      ∀ s, s ≠ b.heap.ind.get pos → b'.heap.values.get s = b.heap.values.get s := by
  obtain ⟨b0, e, i, p⟩ := Inv.run hc hundred ops _ [] (Inv.init (S := S) cap zero) hl
  rw [List.nil_append] at i
  rw [hb] at e
  obtain rfl : b = b0 := by simpa using e
  obtain ⟨h', e', w', o', v'⟩ := update_spec (pos := pos) err
    ⟨i.sized, i.bij, min_le_right _ _⟩ i.ordered hp
  refine ⟨{ b with heap := h' }, ?_, ?_, ?_⟩
  · simp [Buf.writeBack, Buf.updateState, i.length_eq hc, e']
  · intro q hq
    simp at hq
    subst hq
    simp [v']
  · intro s hs
    simp [v', hs]

/-- Three experiences just added. -/
def threeAdds : List (Op Nat Nat) :=
  [.add ⟨0, 1, 0, 5, 1⟩, .add ⟨1, 2, 1, 6, 1⟩, .add ⟨2, 3, 0, 4, 1⟩]

/-- **C58 (refuted in general).** The write-back uses the heap positions recorded
at sampling time although each update moves the heap: after three insertions,
sampling positions 0 and 2 leaves the second sampled experience with its old
priority. -/
theorem C58_write_back_refuted :
    ∃ b b' : Buf Nat Nat, (Buf.init 3 0 : Buf Nat Nat).run 100 threeAdds = some b ∧
      b.writeBack [] [(0, 1), (2, 2)] = some b' ∧
      ¬ WriteBackCorrect b b' [(0, 1), (2, 2)] := by
  refine ⟨((Buf.init 3 0 : Buf Nat Nat).run 100 threeAdds).get (by decide),
    ((((Buf.init 3 0 : Buf Nat Nat).run 100 threeAdds).get (by decide)).writeBack []
      [(0, 1), (2, 2)]).get (by decide), by simp, by simp, ?_⟩
  intro h
  have := h (2, 2) (by simp)
  revert this
  decide

end LLab.Replay
