import Verif.Common.Arr
import Mathlib.Order.Lattice
import Mathlib.Algebra.Order.Group.Nat
import Mathlib.Tactic.Linarith

/-!
Model of the indexed max-heap used by prioritised replay:
`max_heapify`, `max_heapify_up`, `remove_ith_element_from_max_heap`
(`/repo/src/utils.c` 1301-1364) and `add_buffer_state`, `update_buffer_state`
(`/repo/src/rainbow.c` 1291-1323, 1362-1399).

Priorities are elements of a linear order (floats without NaN).
`none` is an out-of-bounds access.
-/

namespace LLab.Replay

variable {α : Type} [LinearOrder α]

/-- The three arrays `error_priorization` (`values`), `error_indices` (`ind`:
heap position → buffer slot) and `reverse_error_indices` (`rev`: slot → heap
position). -/
structure Heap (α : Type) where
  values : Arr α
  ind : Arr Nat
  rev : Arr Nat

/-- `values[indices[p]]` -/
def Heap.at (h : Heap α) (p : Nat) : Option α := do
  let s ← h.ind.read p
  h.values.read s

/-- The swap at `/repo/src/utils.c` 1315-1319 and 1340-1344: positions `i` and
`l` exchange their slots, the reverse map is updated, in the C statement
order. -/
def Heap.swap (h : Heap α) (i l : Nat) : Option (Heap α) := do
  let x ← h.ind.read i
  let y ← h.ind.read l
  let ind1 ← h.ind.write i y
  let z ← ind1.read l
  let rev1 ← h.rev.write z i
  let rev2 ← rev1.write x l
  let ind2 ← ind1.write l x
  some ⟨h.values, ind2, rev2⟩

/-- Choice of `largest` in `max_heapify` (`/repo/src/utils.c` 1303-1311). -/
def Heap.largest (h : Heap α) (n i : Nat) : Option Nat := do
  let left := 2 * i + 1
  let right := 2 * i + 2
  let l1 ← if left < n then do
      let a ← h.at left
      let b ← h.at i
      some (if a ≥ b then left else i)
    else some i
  if right < n then do
      let a ← h.at right
      let b ← h.at l1
      some (if a ≥ b then right else l1)
    else some l1

/-- `max_heapify(values, indices, reverse_indices, n, i)` (`/repo/src/utils.c`
1301-1322).  `fuel` bounds the recursion depth (`n` is enough). -/
def Heap.down : Nat → Heap α → Nat → Nat → Option (Heap α)
  | 0, _, _, _ => none
  | fuel + 1, h, n, i => do
    let l ← h.largest n i
    if l ≠ i then do
      let h' ← h.swap i l
      Heap.down fuel h' n l
    else some h

/-- The parent computed at `/repo/src/utils.c` 1332-1335. -/
def parentC (i : Nat) : Nat := if i % 2 = 1 then (i - 1) / 2 else (i - 2) / 2

/-- `max_heapify_up(values, indices, reverse_indices, n, i)` (`/repo/src/utils.c`
1326-1347).  `fuel` bounds the recursion depth (`i + 1` is enough). -/
def Heap.up : Nat → Heap α → Nat → Option (Heap α)
  | 0, _, _ => none
  | fuel + 1, h, i =>
    if i = 0 then some h
    else do
      let a ← h.at (parentC i)
      let b ← h.at i
      if a ≤ b then do
        let h' ← h.swap i (parentC i)
        Heap.up fuel h' (parentC i)
      else some h

/-- `remove_ith_element_from_max_heap(values, indices, reverse_indices, n, i)`
(`/repo/src/utils.c` 1349-1364). -/
def Heap.removeAt (h : Heap α) (n i : Nat) : Option (Heap α) :=
  if i ≥ n then some h
  else do
    let v1 ← h.at i
    let v2 ← h.at (n - 1)
    let s ← h.ind.read i
    let t ← h.ind.read (n - 1)
    let rev1 ← h.rev.write s (n - 1)
    let rev2 ← rev1.write t i
    let ind1 ← h.ind.write i t
    let ind2 ← ind1.write (n - 1) s
    let h1 : Heap α := ⟨h.values, ind2, rev2⟩
    if v2 < v1 then Heap.down (n + 1) h1 (n - 1) i
    else if v2 > v1 then Heap.up (i + 1) h1 i
    else some h1

/-- Initial priority of a new experience (`/repo/src/rainbow.c` 1292-1295). -/
def Heap.best (hundred : α) (h : Heap α) (index : Nat) : Option α :=
  if index = 0 then some hundred else h.at 0

/-- The heap part of `add_buffer_state(r, index)` (`/repo/src/rainbow.c`
1291-1299).  `hundred` is the constant 100 given to the first experience. -/
def Heap.add (hundred : α) (h : Heap α) (index : Nat) : Option (Heap α) := do
  let best ← h.best hundred index
  let values ← h.values.write index best
  let ind ← h.ind.write index index
  let rev ← h.rev.write index index
  Heap.up (index + 1) ⟨values, ind, rev⟩ index

/-- `update_buffer_state(r, index, error)` (`/repo/src/rainbow.c` 1362-1368) for a
buffer currently holding `length` experiences; `index` is a heap position. -/
def Heap.update (h : Heap α) (length index : Nat) (error : α) : Option (Heap α) := do
  let h1 ← h.removeAt length index
  if length = 0 then none
  else do
    let s ← h1.ind.read (length - 1)
    let values ← h1.values.write s error
    Heap.up length ⟨values, h1.ind, h1.rev⟩ (length - 1)

/-! ### Specification -/

/-- The two index maps describe one bijection between the heap positions below
`n` and the buffer slots below `n`. -/
def Heap.Bij (h : Heap α) (n : Nat) : Prop :=
  (∀ p, p < n → h.ind.get p < n ∧ h.rev.get (h.ind.get p) = p) ∧
  (∀ s, s < n → h.rev.get s < n ∧ h.ind.get (h.rev.get s) = s)

/-- Priority found at heap position `p`. -/
def Heap.val (h : Heap α) (p : Nat) : α := h.values.get (h.ind.get p)

/-- Max-heap order on the first `n` positions: each position's priority is at
most its parent's. -/
def Heap.Ordered (h : Heap α) (n : Nat) : Prop :=
  ∀ p, 0 < p → p < n → h.val p ≤ h.val ((p - 1) / 2)

/-- The three arrays have the buffer's capacity. -/
def Heap.Sized (h : Heap α) (cap : Nat) : Prop :=
  h.values.len = cap ∧ h.ind.len = cap ∧ h.rev.len = cap

end LLab.Replay
