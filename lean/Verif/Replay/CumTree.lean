import Verif.Common.Arr
import Mathlib.Algebra.Order.Field.Basic
import Mathlib.Algebra.BigOperators.Group.Finset.Basic
import Mathlib.Algebra.BigOperators.Ring.Finset
import Mathlib.Algebra.Order.BigOperators.Group.Finset
import Mathlib.Tactic.Linarith
import Mathlib.Tactic.Ring
import Mathlib.Tactic.FieldSimp

/-!
Model of the cumulative priority tree and of weighted sampling:
`/repo/src/utils.c` 1366-1543.

Weights are elements of an ordered field (`float` arithmetic without rounding).
`none` is an out-of-bounds access.
-/

namespace LLab.Replay

/-- Parent of `index > 0` as computed at `/repo/src/utils.c` 1369-1372 and
1400-1403. -/
def parentIdx (i : Nat) : Nat := if i % 2 = 0 then (i - 2) / 2 else (i - 1) / 2

section Tree

variable {F : Type} [Add F]

/-- `update_recursive_cumulative_heap_up(values, index, started_index, n, value)`
(`/repo/src/utils.c` 1366-1384). The parameter `n` is unused by the code. `fuel`
bounds the recursion (`index + 1` is enough). -/
def cumUp : Nat → Arr F → Nat → Bool → F → Option (Arr F)
  | 0, _, _, _, _ => none
  | fuel + 1, values, index, started, value => do
    let values ← if started then some values else do
      let x ← values.read index
      values.write index (x + value)
    if index = 0 then some values
    else cumUp fuel values (parentIdx index) false value

end Tree

/-- `index_is_inside_buffer(buffer, length, index)` (`/repo/src/utils.c`
1386-1394), the buffer prefix given as a list. -/
def insideBuffer : List Nat → Nat → Bool
  | [], _ => false
  | b :: bs, index => if b = index then true else insideBuffer bs index

/-- The `do … while(child > parent)` loop of `value_is_child`
(`/repo/src/utils.c` 1399-1404): returns the final `child`. -/
def climb (parent child : Nat) : Nat :=
  if parent < parentIdx child ∧ parentIdx child < child then climb parent (parentIdx child)
  else parentIdx child
termination_by child
decreasing_by omega

/-- `value_is_child(child, parent)` (`/repo/src/utils.c` 1396-1408). -/
def valueIsChild (child parent : Nat) : Bool :=
  if child ≤ parent then false else climb parent child = parent

section Sampling

variable {F : Type} [Field F] [LinearOrder F]

/-- `subtracted_value(index, current_values, taken_values, taken_values_length)`
(`/repo/src/utils.c` 1410-1420). `seen` is the part of `taken_values` before the
current entry. -/
def subtractedValue (index : Nat) (cur : Arr F) : List Nat → List Nat → F → Option F
  | _, [], ret => some ret
  | seen, t :: ts, ret => do
    let ret ← if insideBuffer seen t = false ∧ valueIsChild t index = true then do
        let x ← cur.read t
        some (ret + x)
      else some ret
    subtractedValue index cur (seen ++ [t]) ts ret

/-- First index in `[i, size)` outside `taken` (loops at `/repo/src/utils.c`
1455-1458 and 1467-1470). -/
def firstFree (taken : List Nat) (size : Nat) (i : Nat) : Option Nat :=
  if i < size then
    if insideBuffer taken i = false then some i else firstFree taken size (i + 1)
  else none
termination_by size - i

/-- `weighted_random_sample` (`/repo/src/utils.c` 1436-1484). `fuel` bounds the
recursion (`size` is enough); `none` also stands for the unsigned wrap of
`index - 1` at `index = 0`. -/
def weightedSample (cum cur : Arr F) (size : Nat) (sum : F) (taken : List Nat) :
    Nat → Nat → F → Option Nat
  | 0, _, _ => none
  | fuel + 1, index, r =>
    if index ≥ size then (if index = 0 then none else some (index - 1))
    else do
      let v ← if insideBuffer taken index = false then do
          let x ← cur.read index
          some (x / sum)
        else some 0
      if insideBuffer taken index = false ∧ r ≤ v then some index
      else
        let left := index * 2 + 1
        let right := index * 2 + 2
        if left ≥ size then some ((firstFree taken size (index + 1)).getD index)
        else if right ≥ size then
          if insideBuffer taken left = false then some left
          else some ((firstFree taken size (index + 1)).getD left)
        else do
          let vLeft ← if insideBuffer taken left = false then cur.read left else some 0
          let sub ← subtractedValue left cur [] taken 0
          let cl ← cum.read left
          let mass := (vLeft + cl - sub) / sum
          if r - v ≤ mass then weightedSample cum cur size sum taken fuel left (r - v)
          else weightedSample cum cur size sum taken fuel right (r - v - mass)

/-- `subtracted_value_rewards` (`/repo/src/utils.c` 1422-1433). `pw c` stands for
`pow(1/c, alpha)`. -/
def subtractedValueRewards (pw : Int → F) (index : Nat) (cur : Arr Int) :
    List Nat → List Nat → F → Option F
  | _, [], ret => some ret
  | seen, t :: ts, ret => do
    let c ← cur.read t
    let ret := if insideBuffer seen t = false ∧ c > 0 ∧ valueIsChild t index = true then ret + pw c
      else ret
    subtractedValueRewards pw index cur (seen ++ [t]) ts ret

/-- `weighted_random_sample_rewards` (`/repo/src/utils.c` 1485-1543). -/
def weightedSampleRewards (pw : Int → F) (cum : Arr F) (cur : Arr Int) (size : Nat) (sum : F)
    (taken : List Nat) : Nat → Nat → F → Option Nat
  | 0, _, _ => none
  | fuel + 1, index, r =>
    if index ≥ size then (if index = 0 then none else some (index - 1))
    else do
      let c ← cur.read index
      let free : Bool := decide (c > 0) && !(insideBuffer taken index)
      let v : F := if free then pw c / sum else 0
      if free = true ∧ r ≤ v then some index
      else
        let left := index * 2 + 1
        let right := index * 2 + 2
        let r := r - v
        if left ≥ size then some (if c > 0 then index else size)
        else do
          let cLeft ← cur.read left
          if right ≥ size then some (if cLeft > 0 then left else size)
          else do
            let vLeft : F := if cLeft > 0 ∧ insideBuffer taken left = false then pw cLeft else 0
            let sub ← subtractedValueRewards pw left cur [] taken 0
            let cl ← cum.read left
            let mass := (vLeft + cl - sub) / sum
            if r ≤ mass then do
              let a ← weightedSampleRewards pw cum cur size sum taken fuel left r
              let a ← if a = size then
                  weightedSampleRewards pw cum cur size sum taken fuel right (r - mass)
                else some a
              some (if c > 0 ∧ a = size then index else a)
            else do
              let a ← weightedSampleRewards pw cum cur size sum taken fuel right (r - mass)
              let a ← if a = size then
                  weightedSampleRewards pw cum cur size sum taken fuel left r
                else some a
              some (if c > 0 ∧ a = size then index else a)

end Sampling

/-! ### Specification: the implicit binary tree -/

/-- `Below p q`: node `q` is strictly below node `p` in the heap-shaped tree (the
children of `p` are `2p+1` and `2p+2`). -/
inductive Below : Nat → Nat → Prop
  | left (p) : Below p (2 * p + 1)
  | right (p) : Below p (2 * p + 2)
  | leftUp (p q) : Below p q → Below p (2 * q + 1)
  | rightUp (p q) : Below p q → Below p (2 * q + 2)

end LLab.Replay
