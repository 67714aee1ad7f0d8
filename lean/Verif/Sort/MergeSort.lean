import Verif.Sort.QuickSort
import Mathlib.Algebra.Order.Floor.Ring
import Mathlib.Data.Rat.Floor

/-!
Model of `sort`, `merge_sort`, `merge` and their `_double` twins
(`/repo/src/utils.c` 971-1078, 1100-1112).
-/

namespace LLab.Sort

variable {α : Type}

/-- `n` consecutive cells starting at `start`; `none` if they leave the array.
Models the copy loops at `/repo/src/utils.c` 1004-1011. -/
def readSlice {β : Type} (l : List β) (start n : Nat) : Option (List β) :=
  if start + n ≤ l.length then some ((l.drop start).take n) else none

/-- The three `while` loops of `merge` (`/repo/src/utils.c` 1013-1035): the
sequence of indices they store from `indices[left]` on.  Each argument pairs
`leftArray[i]` with `leftIndices[i]` (resp. right). -/
def mergeLoop : List (Int × Nat) → List (Int × Nat) → List Nat
  | [], r => r.map Prod.snd
  | (x, a) :: l, r => mergeGo x a (l.map Prod.snd) (mergeLoop l) r
where
  /-- The `else` branches taken while `leftArray[i] = x` stays larger; `rest` and `next` are what
  follows `x` when the right array is used up, and when it is not. -/
  mergeGo (x : Int) (a : Nat) (rest : List Nat) (next : List (Int × Nat) → List Nat) : List (Int × Nat) → List Nat
    | [] => a :: rest
    | (y, b) :: r => if x ≤ y then a :: next ((y, b) :: r) else b :: mergeGo x a rest next r

theorem mergeLoop_nil (r : List (Int × Nat)) : mergeLoop [] r = r.map Prod.snd := rfl

theorem mergeLoop_cons_nil (p : Int × Nat) (l : List (Int × Nat)) : mergeLoop (p :: l) [] = (p :: l).map Prod.snd := rfl

/-- One round of the `while` loop at `/repo/src/utils.c` 1013-1021. -/
theorem mergeLoop_cons_cons (x : Int) (a : Nat) (l : List (Int × Nat)) (y : Int) (b : Nat) (r : List (Int × Nat)) :
    mergeLoop ((x, a) :: l) ((y, b) :: r) = if x ≤ y then a :: mergeLoop l ((y, b) :: r) else b :: mergeLoop ((x, a) :: l) r := rfl

/-- `merge(values, indices, left, middle, right)` (`/repo/src/utils.c` 995-1036;
`merge_double` 1037-1078).  `toInt` is the C conversion of a `float`/`double`
to `int` that happens because `leftArray` and `rightArray` have type `int[]`.
Note that the values are read at `left + i`, not at `indices[left + i]`. -/
def merge (toInt : α → Int) (values : List α) (indices : List Nat)
    (left middle right : Nat) : Option (List Nat) := do
  let leftSize := middle - left + 1
  let rightSize := right - middle
  let lv ← readSlice values left leftSize
  let li ← readSlice indices left leftSize
  let rv ← readSlice values (middle + 1) rightSize
  let ri ← readSlice indices (middle + 1) rightSize
  some (indices.take left ++ mergeLoop ((lv.map toInt).zip li) ((rv.map toInt).zip ri)
    ++ indices.drop (right + 1))

/-- `merge_sort` for non-negative bounds (`/repo/src/utils.c` 972-981, 983-992);
`fuel` bounds the recursion depth. -/
def mergeSortAux (toInt : α → Int) (values : List α) :
    Nat → List Nat → Nat → Nat → Option (List Nat)
  | 0, _, _, _ => none
  | fuel + 1, I, left, right =>
    if left < right then do
      let middle := left + (right - left) / 2
      let I1 ← mergeSortAux toInt values fuel I left middle
      let I2 ← mergeSortAux toInt values fuel I1 (middle + 1) right
      merge toInt values I2 left middle right
    else some I

/-- `sort(values, indices, low, high)` and `sort_double`
(`/repo/src/utils.c` 1100-1112) with C `int` bounds. -/
def sortC (toInt : α → Int) (values : List α) (I : List Nat) (low high : Int) :
    Option (List Nat) :=
  if low < high then
    if low < 0 then none
    else mergeSortAux toInt values (high.toNat + 1 - low.toNat) I low.toNat high.toNat
  else some I

/-- C conversion of a floating value to `int`: truncation towards zero
(values outside the range of `int` are not modelled). -/
def truncRat (q : Rat) : Int := if q < 0 then ⌈q⌉ else ⌊q⌋

end LLab.Sort
