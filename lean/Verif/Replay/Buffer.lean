import Verif.Replay.HeapLemmas

/-!
Model of the replay ring of `/repo/src/rainbow.c`: `add_experience` (1530-1582)
with ranked sampling, and the priority write-back at the end of
`train_rainbow` (1830-1838).

The five parallel arrays `buffer_state_t`, `buffer_state_t_1`, `rewards`,
`actions`, `nonterminal_state_t_1` are kept as five arrays; a state vector is an
opaque value of type `S` and the null pointer is `none`.  Rewards and
priorities live in a linear order `α`.  Memory management (`free` of the
overwritten state) is not modelled.
-/

namespace LLab.Replay

variable {S α : Type} [LinearOrder α]

/-- The part of `struct rainbow` used by `add_experience` with
`sampling_flag == RANKED_SAMPLING`. -/
structure Buf (S α : Type) where
  /-- `max_buffer_size` -/
  cap : Nat
  /-- `buffer_state_t` -/
  st : Arr (Option S)
  /-- `buffer_state_t_1` -/
  st1 : Arr (Option S)
  /-- `rewards` -/
  rewards : Arr α
  /-- `actions` -/
  actions : Arr Int
  /-- `nonterminal_state_t_1` -/
  nonterm : Arr Int
  /-- `buffer_current_index` -/
  cur : Nat
  /-- `error_priorization`, `error_indices`, `reverse_error_indices` -/
  heap : Heap α

/-- One experience as passed to `add_experience`. -/
structure Exp (S α : Type) where
  state : S
  next : S
  action : Int
  reward : α
  nonterminal : Int

/-- The length computed at `/repo/src/rainbow.c` 1363-1365 and 1589-1591. -/
def Buf.length (b : Buf S α) : Option Nat :=
  if b.cap = 0 then none
  else do
    let l ← b.st.read (b.cap - 1)
    some (if l.isNone then b.cur else b.cap)

/-- `update_buffer_state(r, index, error)` (`/repo/src/rainbow.c` 1362-1368). -/
def Buf.updateState (b : Buf S α) (pos : Nat) (error : α) : Option (Buf S α) := do
  let n ← b.length
  let h ← b.heap.update n pos error
  some { b with heap := h }

/-- `add_experience` (`/repo/src/rainbow.c` 1530-1582), ranked sampling.
`hundred` is the literal 100 of `add_buffer_state`. -/
def Buf.addExperience (hundred : α) (b : Buf S α) (e : Exp S α) : Option (Buf S α) := do
  let old ← b.st.read b.cur
  let st ← b.st.write b.cur (some e.state)
  let st1 ← b.st1.write b.cur (some e.next)
  let rewards ← b.rewards.write b.cur e.reward
  let actions ← b.actions.write b.cur e.action
  let nonterm ← b.nonterm.write b.cur e.nonterminal
  let b1 : Buf S α := { b with st, st1, rewards, actions, nonterm }
  let b2 ← if old.isNone then do
      let h ← b1.heap.add hundred b1.cur
      some { b1 with heap := h }
    else do
      let pos ← b1.heap.rev.read b1.cur
      let top ← b1.heap.at 0
      b1.updateState pos top
  some { b2 with cur := (b2.cur + 1) % b2.cap }

/-- `init_rainbow` allocates with `calloc`: null states, zeroed maps. -/
def Buf.init (cap : Nat) (zero : α) : Buf S α :=
  ⟨cap, ⟨cap, fun _ => none⟩, ⟨cap, fun _ => none⟩, ⟨cap, fun _ => zero⟩, ⟨cap, fun _ => 0⟩,
    ⟨cap, fun _ => 0⟩, 0, ⟨⟨cap, fun _ => zero⟩, ⟨cap, fun _ => 0⟩, ⟨cap, fun _ => 0⟩⟩⟩

/-- What happens to the buffer between two observations: a new experience, or a
priority update of a stored slot through its heap position. -/
inductive Op (S α : Type) where
  | add (e : Exp S α)
  | setPriority (slot : Nat) (error : α)

/-- One operation. A priority update goes through `reverse_error_indices`, as
the caller at `/repo/src/rainbow.c` 1564 does. -/
def Buf.step (hundred : α) (b : Buf S α) : Op S α → Option (Buf S α)
  | .add e => b.addExperience hundred e
  | .setPriority slot error => do
    let pos ← b.heap.rev.read slot
    b.updateState pos error

/-- A whole history. -/
def Buf.run (hundred : α) : Buf S α → List (Op S α) → Option (Buf S α)
  | b, [] => some b
  | b, o :: os => do
    let b' ← b.step hundred o
    Buf.run hundred b' os

/-! ### Specification -/

/-- The experiences added by a history, oldest first. -/
def added : List (Op S α) → List (Exp S α)
  | [] => []
  | .add e :: os => e :: added os
  | .setPriority _ _ :: os => added os

/-- Slot `s` of the buffer holds experience `e`, all five fields. -/
def Buf.Holds (b : Buf S α) (s : Nat) (e : Exp S α) : Prop :=
  b.st.get s = some e.state ∧ b.st1.get s = some e.next ∧ b.rewards.get s = e.reward ∧
    b.actions.get s = e.action ∧ b.nonterm.get s = e.nonterminal

/-- Priority updates only name slots that have been filled by then. -/
def Legal (cap : Nat) : Nat → List (Op S α) → Prop
  | _, [] => True
  | k, .add _ :: os => Legal cap (k + 1) os
  | k, .setPriority slot _ :: os => slot < min k cap ∧ Legal cap k os

/-- The priority each slot should have after a history: a new experience gets
the current maximum over the stored slots (`hundred` when the buffer is empty),
an update sets the named slot only. -/
inductive Prio (cap : Nat) (hundred : α) : Nat → (Nat → α) → List (Op S α) → (Nat → α) → Prop
  | done (k pr) : Prio cap hundred k pr [] pr
  | add (k pr e os top pr') :
      (k = 0 → top = hundred) →
      (k ≠ 0 → (∃ s < min k cap, pr s = top) ∧ ∀ s < min k cap, pr s ≤ top) →
      Prio cap hundred (k + 1) (Function.update pr (k % cap) top) os pr' →
      Prio cap hundred k pr (.add e :: os) pr'
  | set (k pr slot error os pr') :
      Prio cap hundred k (Function.update pr slot error) os pr' →
      Prio cap hundred k pr (.setPriority slot error :: os) pr'

/-- Invariant of the ring after the experiences `es` were added. -/
structure Inv (b : Buf S α) (cap : Nat) (es : List (Exp S α)) : Prop where
  hcap : b.cap = cap
  lens : b.st.len = cap ∧ b.st1.len = cap ∧ b.rewards.len = cap ∧ b.actions.len = cap ∧
    b.nonterm.len = cap
  cur : b.cur = es.length % cap
  empty : ∀ s, s < cap → min es.length cap ≤ s → b.st.get s = none
  holds : ∀ (k : Nat) e, es[k]? = some e → es.length ≤ k + cap → b.Holds (k % cap) e
  sized : b.heap.Sized cap
  bij : b.heap.Bij (min es.length cap)
  ordered : b.heap.Ordered (min es.length cap)

theorem Inv.filled {b : Buf S α} {cap : Nat} {es : List (Exp S α)} (i : Inv b cap es)
    (hc : 0 < cap) {s : Nat} (hs : s < min es.length cap) : (b.st.get s).isSome := by
  -- the most recent k with k % cap = s
  have hs1 : s < cap := lt_of_lt_of_le hs (min_le_right _ _)
  have hs2 : s < es.length := lt_of_lt_of_le hs (min_le_left _ _)
  set q := (es.length - 1 - s) / cap with hq
  have h1 : s + cap * q < es.length := by
    have := Nat.mul_div_le (es.length - 1 - s) cap
    rw [← hq] at this; omega
  have h2 : es.length ≤ s + cap * q + cap := by
    have := Nat.lt_mul_div_succ (es.length - 1 - s) hc
    rw [← hq, Nat.mul_add] at this
    omega
  obtain ⟨e, he⟩ : ∃ e, es[s + cap * q]? = some e := ⟨_, List.getElem?_eq_getElem h1⟩
  have := (i.holds _ e he h2).1
  rw [Nat.add_mul_mod_self_left, Nat.mod_eq_of_lt hs1] at this
  simp [this]

theorem Inv.length_eq {b : Buf S α} {cap : Nat} {es : List (Exp S α)} (i : Inv b cap es)
    (hc : 0 < cap) : b.length = some (min es.length cap) := by
  unfold Buf.length
  rw [i.hcap, if_neg (by omega)]
  have hr : b.st.read (cap - 1) = some (b.st.get (cap - 1)) :=
    Arr.read_eq (by rw [i.lens.1]; omega)
  simp only [hr, Option.bind_eq_bind, Option.bind_some]
  by_cases hf : cap ≤ es.length
  · have := i.filled hc (s := cap - 1) (by rw [Nat.min_eq_right hf]; omega)
    rw [Option.isSome_iff_exists] at this
    obtain ⟨x, hx⟩ := this
    simp [hx, Nat.min_eq_right hf]
  · have hm : min es.length cap = es.length := by omega
    have := i.empty (cap - 1) (by omega) (by omega)
    rw [this, hm, i.cur, Nat.mod_eq_of_lt (by omega)]
    simp

theorem Inv.set {b : Buf S α} {cap : Nat} {es : List (Exp S α)} (i : Inv b cap es)
    (hc : 0 < cap) {slot : Nat} (hs : slot < min es.length cap) (hundred error : α) :
    ∃ b', b.step hundred (.setPriority slot error) = some b' ∧ Inv b' cap es ∧
      ∀ s, b'.heap.values.get s = if s = slot then error else b.heap.values.get s := by
  have hb := i.bij.2 slot hs
  have hr : b.heap.rev.read slot = some (b.heap.rev.get slot) :=
    Arr.read_eq (by rw [i.sized.2.2]; omega)
  obtain ⟨h', e', w', o', v'⟩ := update_spec (pos := b.heap.rev.get slot) error
    ⟨i.sized, i.bij, min_le_right _ _⟩ i.ordered hb.1
  refine ⟨{ b with heap := h' }, ?_, ?_, ?_⟩
  · simp [Buf.step, hr, Buf.updateState, i.length_eq hc, e']
  · exact ⟨i.hcap, i.lens, i.cur, i.empty, i.holds, w'.sized, w'.bij, o'⟩
  · intro s
    rw [v' s, hb.2]

theorem ordered_top {h : Heap α} {n : Nat} (ho : h.Ordered n) : ∀ p, p < n → h.val p ≤ h.val 0 := by
  intro p
  induction p using Nat.strong_induction_on with
  | _ p ih =>
    intro hp
    by_cases h0 : p = 0
    · subst h0; exact le_rfl
    · exact (ho p (by omega) hp).trans (ih _ (by omega) (by omega))

theorem Inv.add {b : Buf S α} {cap : Nat} {es : List (Exp S α)} (i : Inv b cap es)
    (hc : 0 < cap) (hundred : α) (e : Exp S α) :
    ∃ b' top, b.addExperience hundred e = some b' ∧ Inv b' cap (es ++ [e]) ∧
      (es.length = 0 → top = hundred) ∧
      (es.length ≠ 0 → top = b.heap.val 0) ∧
      ∀ s, b'.heap.values.get s = if s = es.length % cap then top else b.heap.values.get s := by
  have hcl : b.cur < cap := by rw [i.cur]; exact Nat.mod_lt _ hc
  obtain ⟨l1, l2, l3, l4, l5⟩ := i.lens
  have hread : b.st.read b.cur = some (b.st.get b.cur) := Arr.read_eq (by omega)
  set b1 : Buf S α := ⟨b.cap, ⟨b.st.len, Function.update b.st.get b.cur (some e.state)⟩,
    ⟨b.st1.len, Function.update b.st1.get b.cur (some e.next)⟩,
    ⟨b.rewards.len, Function.update b.rewards.get b.cur e.reward⟩,
    ⟨b.actions.len, Function.update b.actions.get b.cur e.action⟩,
    ⟨b.nonterm.len, Function.update b.nonterm.get b.cur e.nonterminal⟩, b.cur, b.heap⟩ with hb1
  -- how the ring contents change
  have hholds : ∀ (h' : Heap α) (c' : Nat) (k : Nat) e', (es ++ [e])[k]? = some e' →
      (es ++ [e]).length ≤ k + cap →
      Buf.Holds (⟨b1.cap, b1.st, b1.st1, b1.rewards, b1.actions, b1.nonterm, c', h'⟩ : Buf S α)
        (k % cap) e' := by
    intro h' c' k e' hk hlen
    simp only [List.length_append, List.length_cons, List.length_nil] at hlen
    by_cases hke : k = es.length
    · subst hke
      rw [List.getElem?_append_right le_rfl] at hk
      simp at hk
      subst hk
      simp [Buf.Holds, hb1, i.cur]
    · have hk2 : k < es.length := by
        have := (List.getElem?_eq_some_iff.1 hk).1
        simp only [List.length_append, List.length_cons, List.length_nil] at this
        omega
      rw [List.getElem?_append_left hk2] at hk
      have hne : k % cap ≠ b.cur := by
        rw [i.cur]
        intro heq
        have h1 := Nat.div_add_mod k cap
        have h2 := Nat.div_add_mod es.length cap
        rw [heq] at h1
        have h3 : cap * (k / cap) < cap * (es.length / cap) := by omega
        have h4 : k / cap < es.length / cap := lt_of_mul_lt_mul_left' h3
        have h5 : cap * (k / cap) + cap ≤ cap * (es.length / cap) := by
          calc cap * (k / cap) + cap = cap * (k / cap + 1) := by rw [Nat.mul_add, Nat.mul_one]
            _ ≤ _ := Nat.mul_le_mul_left _ h4
        omega
      have := i.holds k e' hk (by omega)
      simpa [Buf.Holds, hb1, Function.update_apply, hne] using this
  have hcur' : (b.cur + 1) % cap = (es ++ [e]).length % cap := by
    rw [i.cur, List.length_append]; simp
  by_cases hf : es.length < cap
  · -- a fresh slot
    have hmin : min es.length cap = es.length := by omega
    have hcure : b.cur = es.length := by rw [i.cur, Nat.mod_eq_of_lt hf]
    have hnone := i.empty b.cur hcl (by omega)
    have hbij := i.bij
    have hord := i.ordered
    rw [hmin] at hbij hord
    obtain ⟨h', e', s', bj', o', v'⟩ := add_spec hundred i.sized hbij hord hf
    have hm2 : min (es ++ [e]).length cap = es.length + 1 := by simp; omega
    refine ⟨⟨b1.cap, b1.st, b1.st1, b1.rewards, b1.actions, b1.nonterm, (b.cur + 1) % b.cap, h'⟩,
      (if es.length = 0 then hundred else b.heap.val 0), ?_, ?_, ?_, ?_, ?_⟩
    · simp [Buf.addExperience, hread, Arr.write, l1, l2, l3, l4, l5, hcl, hnone, hcure ▸ e', hb1]
    · refine ⟨i.hcap, i.lens, ?_, ?_, hholds _ _, s', ?_, ?_⟩
      · simp only [i.hcap]; exact hcur'
      · intro s hs hge
        rw [hm2] at hge
        have : s ≠ b.cur := by omega
        simp [hb1, Function.update_apply, this, i.empty s hs (by omega)]
      · rw [hm2]; exact bj'
      · rw [hm2]; exact o'
    · intro h0; simp [h0]
    · intro h0; simp [h0]
    · intro s
      rw [v' s, Nat.mod_eq_of_lt hf]
  · -- overwriting the oldest slot
    have hmin : min es.length cap = cap := by omega
    have hsome := i.filled hc (s := b.cur) (by omega)
    have hnn : b.st.get b.cur ≠ none := Option.isSome_iff_ne_none.1 hsome
    have hbij := i.bij
    have hord := i.ordered
    rw [hmin] at hbij hord
    have w : Wf b.heap cap cap := ⟨i.sized, hbij, le_rfl⟩
    have hrv := hbij.2 b.cur hcl
    have hr : b.heap.rev.read b.cur = some (b.heap.rev.get b.cur) :=
      Arr.read_eq (by rw [i.sized.2.2]; omega)
    have hat := w.at_eq (p := 0) hc
    obtain ⟨h', e', w', o', v'⟩ := update_spec (pos := b.heap.rev.get b.cur) (b.heap.val 0) w
      hord hrv.1
    have hlen1 : b1.length = some cap := by
      unfold Buf.length
      simp only [hb1, i.hcap, show cap ≠ 0 by omega, if_false]
      rw [Arr.read_eq (by simp [l1]; omega)]
      have : (Function.update b.st.get b.cur (some e.state)) (cap - 1) ≠ none := by
        rw [Function.update_apply]
        split_ifs
        · simp
        · exact Option.isSome_iff_ne_none.1 (i.filled hc (by omega))
      simp [this]
    have hm2 : min (es ++ [e]).length cap = cap := by simp; omega
    refine ⟨⟨b1.cap, b1.st, b1.st1, b1.rewards, b1.actions, b1.nonterm, (b.cur + 1) % b.cap, h'⟩,
      b.heap.val 0, ?_, ?_, ?_, ?_, ?_⟩
    · have hu : b1.updateState (b.heap.rev.get b.cur) (b.heap.val 0) =
          some { b1 with heap := h' } := by
        simp [Buf.updateState, hlen1, show b1.heap = b.heap from rfl, e']
      have : b.addExperience hundred e = (b1.updateState (b.heap.rev.get b.cur) (b.heap.val 0)).bind
          (fun b2 => some { b2 with cur := (b2.cur + 1) % b2.cap }) := by
        simp [Buf.addExperience, hread, Arr.write, l1, l2, l3, l4, l5, hcl, hnn, hr, hat, hb1]
      rw [this, hu]
      rfl
    · refine ⟨i.hcap, i.lens, ?_, ?_, hholds _ _, w'.sized, ?_, ?_⟩
      · simp only [i.hcap]; exact hcur'
      · intro s hs hge
        omega
      · rw [hm2]; exact w'.bij
      · rw [hm2]; exact o'
    · intro h0; omega
    · intro _; rfl
    · intro s
      rw [v' s, hrv.2, i.cur]

theorem Inv.init (cap : Nat) (zero : α) : Inv (Buf.init cap zero : Buf S α) cap [] := by
  refine ⟨rfl, ⟨rfl, rfl, rfl, rfl, rfl⟩, ?_, ?_, ?_, ⟨rfl, rfl, rfl⟩, ?_, ?_⟩
  · simp [Buf.init]
  · intro s _ _; rfl
  · intro k e hk; simp at hk
  · refine ⟨?_, ?_⟩ <;> intro p hp <;> simp at hp
  · intro p _ hp; simp at hp

theorem Inv.run {cap : Nat} (hc : 0 < cap) (hundred : α) : ∀ (ops : List (Op S α)) (b : Buf S α)
    (es : List (Exp S α)), Inv b cap es → Legal cap es.length ops →
    ∃ b', b.run hundred ops = some b' ∧ Inv b' cap (es ++ added ops) ∧
      Prio cap hundred es.length b.heap.values.get ops b'.heap.values.get := by
  intro ops
  induction ops with
  | nil =>
    intro b es i _
    exact ⟨b, rfl, by simpa [added] using i, .done _ _⟩
  | cons o os ih =>
    intro b es i hl
    cases o with
    | add e =>
      obtain ⟨b1, top, e1, i1, t0, t1, v1⟩ := i.add hc hundred e
      obtain ⟨b2, e2, i2, p2⟩ := ih b1 (es ++ [e]) i1 (by simpa [Legal] using hl)
      refine ⟨b2, by simp [Buf.run, Buf.step, e1, e2], by simpa [added] using i2, ?_⟩
      refine .add _ _ _ _ top _ t0 ?_ ?_
      · intro h0
        have ht := t1 h0
        have hm : 0 < min es.length cap := by omega
        refine ⟨⟨b.heap.ind.get 0, (i.bij.1 0 hm).1, by rw [ht]; rfl⟩, ?_⟩
        intro s hs
        have hb := i.bij.2 s hs
        have := ordered_top i.ordered _ hb.1
        rw [Heap.val, hb.2] at this
        rw [ht]; exact this
      · have : b1.heap.values.get = Function.update b.heap.values.get (es.length % cap) top := by
          funext s; rw [v1 s, Function.update_apply]
        rw [← this]
        simpa using p2
    | setPriority slot error =>
      obtain ⟨hs, hl'⟩ := hl
      obtain ⟨b1, e1, i1, v1⟩ := i.set hc hs hundred error
      obtain ⟨b2, e2, i2, p2⟩ := ih b1 es i1 hl'
      refine ⟨b2, by simp [Buf.run, e1, e2], by simpa [added] using i2, ?_⟩
      refine .set _ _ _ _ _ _ ?_
      have : b1.heap.values.get = Function.update b.heap.values.get slot error := by
        funext s; rw [v1 s, Function.update_apply]
      rw [← this]
      exact p2

end LLab.Replay
