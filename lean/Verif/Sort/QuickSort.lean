import Mathlib.Order.Defs.LinearOrder
import Mathlib.Data.List.Basic
import Mathlib.Order.Lattice
import Mathlib.Algebra.Order.Group.Nat
import Mathlib.Tactic.Linarith

/-!
Model of `quick_sort` / `quick_sort_int` (`/repo/src/utils.c` 857-909).

The two C functions have the same text up to the element type, so one
definition, polymorphic in a linearly ordered element type, models both.
`none` is undefined behaviour (an access outside an array).
-/

namespace LLab.Sort

variable {α : Type}

/-- The C expression `A[I[i]]`; `none` when either access is out of bounds.
Models the reads in `/repo/src/utils.c` 860, 866, 867. -/
def key (A : List α) (I : List Nat) (i : Nat) : Option α := do
  let k ← I[i]?
  A[k]?

/-- `while (A[I[++i]] < pivot);` entered with `i + 1 = start`
(`/repo/src/utils.c` 866, 898).  Returns the final `i`. -/
def scanUp [LinearOrder α] (A : List α) (I : List Nat) (pivot : α) (start : Nat) : Option Nat :=
  if _h : start < I.length then
    match key A I start with
    | none => none
    | some v => if v < pivot then scanUp A I pivot (start + 1) else some start
  else none
termination_by I.length - start

/-- `while (A[I[--j]] > pivot);` entered with the given value of `j`
(`/repo/src/utils.c` 867, 899).  `j = 0` would read `I[-1]`. -/
def scanDown [LinearOrder α] (A : List α) (I : List Nat) (pivot : α) : Nat → Option Nat
  | 0 => none
  | j + 1 =>
    match key A I j with
    | none => none
    | some v => if pivot < v then scanDown A I pivot j else some j

/-- The `while (1)` partition loop (`/repo/src/utils.c` 864-873, 896-905).
`i1` is the C variable `i` plus one (so that `lo - 1` needs no negative
number), `j` is the C variable `j`.  Returns the final `j` and the index
array.  `fuel` bounds the number of iterations; `C01_quick_sort` shows it is
never exhausted. -/
def partitionLoop [LinearOrder α] (A : List α) (pivot : α) :
    Nat → List Nat → Nat → Nat → Option (Nat × List Nat)
  | 0, _, _, _ => none
  | fuel + 1, I, i1, j => do
    let i' ← scanUp A I pivot i1
    let j' ← scanDown A I pivot j
    if i' ≥ j' then
      some (j', I)
    else
      let a ← I[i']?
      let b ← I[j']?
      partitionLoop A pivot fuel ((I.set i' b).set j' a) (i' + 1) j'

/-- `quick_sort` for non-negative bounds (`/repo/src/utils.c` 857-877).
`fuel` bounds the recursion depth; see `quickSort`. -/
def quickSortAux [LinearOrder α] (A : List α) : Nat → List Nat → Nat → Nat → Option (List Nat)
  | 0, _, _, _ => none
  | fuel + 1, I, lo, hi =>
    if lo < hi then do
      let pivot ← key A I (lo + (hi - lo) / 2)
      let (j, I1) ← partitionLoop A pivot (hi + 2) I lo (hi + 1)
      let I2 ← quickSortAux A fuel I1 lo j
      quickSortAux A fuel I2 (j + 1) hi
    else some I

/-- `quick_sort(A,I,lo,hi)` and `quick_sort_int(A,I,lo,hi)`
(`/repo/src/utils.c` 857-877, 889-909) with C `int` bounds. -/
def quickSort [LinearOrder α] (A : List α) (I : List Nat) (lo hi : Int) : Option (List Nat) :=
  if lo < hi then
    if lo < 0 then none else quickSortAux A (hi.toNat + 1 - lo.toNat) I lo.toNat hi.toNat
  else some I

end LLab.Sort
