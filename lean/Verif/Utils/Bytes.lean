import Mathlib.Data.List.Basic
import Mathlib.Order.Lattice
import Mathlib.Algebra.Order.Group.Nat
import Mathlib.Tactic.Linarith

/-! Model of the byte-order helpers (`/repo/src/utils.c` 1546-1589) and
property `C55`. -/

namespace LLab.Utils

variable {β : Type}

/-- The loop of `reverse_ptr` (`/repo/src/utils.c` 1557-1561); the first argument
is the number of iterations left, `i` the loop variable. -/
def reverseLoop (size : Nat) : Nat → Nat → List β → Option (List β)
  | 0, _, a => some a
  | k + 1, i, a =>
    match a[i]?, a[size - 1 - i]? with
    | some x, some y => reverseLoop size k (i + 1) ((a.set i y).set (size - 1 - i) x)
    | _, _ => none

/-- `reverse_ptr(ptr, size)` (`/repo/src/utils.c` 1552-1563). -/
def reversePtr (a : List β) (size : Nat) : Option (List β) :=
  if size ≤ 1 then some a else reverseLoop size (size / 2) 0 a

/-- `swap_array_bytes_order(ptr, size, len)` (`/repo/src/utils.c` 1566-1574).
The function computes `array = (char*)&ptr`, the address of its own pointer
parameter, so the bytes it reverses are those of the parameter (8 bytes on the
platforms considered), not the caller's data.  `none`: the loop runs past the
parameter.  Result: the caller's data after the call. -/
def swapArrayBytesOrder (data : List β) (size len : Nat) : Option (List β) :=
  if size ≤ 1 ∨ len = 0 then some data
  else if size * len ≤ 8 then some data else none

/-- `convert_data` (`/repo/src/utils.c` 1576-1579; `convert_communication_data`
1581-1584 has the same body). -/
def convertData (littleEndian : Bool) (data : List β) (size len : Nat) : Option (List β) :=
  if littleEndian then some data else swapArrayBytesOrder data size len

/-- Specification: reverse each of the consecutive blocks of `size` bytes. -/
def reverseBlocks (size : Nat) : Nat → List β → List β
  | 0, l => l
  | k + 1, l => (l.take size).reverse ++ reverseBlocks size k (l.drop size)

theorem reverseLoop_spec (size : Nat) : ∀ (k i : Nat) (a orig : List β),
    orig.length = size → a.length = size → i + k = size / 2 →
    (∀ j, j < size → a[j]? = if j < i ∨ size - 1 - i < j then orig[size - 1 - j]? else orig[j]?) →
    reverseLoop size k i a = some orig.reverse := by
  intro k
  induction k with
  | zero =>
    intro i a orig ho ha hik hinv
    rw [reverseLoop]
    congr 1
    apply List.ext_getElem? 
    intro j
    by_cases hj : j < size
    · rw [hinv j hj, List.getElem?_reverse (by omega), ho]
      split
      · rfl
      · congr 1; omega
    · rw [List.getElem?_eq_none (by omega), List.getElem?_eq_none (by simp; omega)]
  | succ k ih =>
    intro i a orig ho ha hik hinv
    have h1 : i < a.length := by omega
    have h2 : size - 1 - i < a.length := by omega
    rw [reverseLoop, List.getElem?_eq_getElem h1, List.getElem?_eq_getElem h2]
    apply ih (i + 1) _ orig ho (by simp; omega) (by omega)
    intro j hj
    have ei : a[i]? = orig[i]? := by rw [hinv i (by omega), if_neg (by omega)]
    have el : a[size - 1 - i]? = orig[size - 1 - i]? := by
      rw [hinv _ (by omega), if_neg (by omega)]
    by_cases hjl : j = size - 1 - i
    · subst hjl
      rw [List.getElem?_set_self (by simp; omega), if_pos (by omega), ← List.getElem?_eq_getElem h1,
        ei]
      congr 1; omega
    · rw [List.getElem?_set_ne (by omega)]
      by_cases hji : j = i
      · subst hji
        rw [List.getElem?_set_self h1, if_pos (by omega), ← List.getElem?_eq_getElem h2, el]
      · rw [List.getElem?_set_ne (by omega), hinv j hj]
        by_cases hc : j < i ∨ size - 1 - i < j
        · rw [if_pos hc, if_pos (by omega)]
        · rw [if_neg hc, if_neg (by omega)]

/-- **C55, one element (part that holds).** `reverse_ptr` reverses the bytes of
one object, stays in bounds, and is its own inverse.  Missing: the array
routine, see `C55_convert_data_refuted`. -/
theorem C55_reverse_ptr_partial (a : List β) :
    reversePtr a a.length = some a.reverse ∧ reversePtr a.reverse a.length = some a := by
  have main : ∀ b : List β, reversePtr b b.length = some b.reverse := by
    intro b
    rw [reversePtr]
    split
    · next h =>
      congr 1
      match b, h with
      | [], _ => rfl
      | [x], _ => rfl
    · apply reverseLoop_spec b.length (b.length / 2) 0 b b rfl rfl (by omega)
      intro j hj
      rw [if_neg (by omega)]
  refine ⟨main a, ?_⟩
  have := main a.reverse
  rwa [List.length_reverse, List.reverse_reverse] at this

/-- On a little-endian machine `convert_data` does nothing (part of `C55`). -/
theorem C55_little_endian_partial (data : List β) (size len : Nat) :
    convertData true data size len = some data := rfl

/-- **C55 (refuted).** On a big-endian machine `convert_data` never changes the
data it is given: it either leaves it as it is or is undefined. -/
theorem C55_convert_data_never_converts (data : List β) (size len : Nat) :
    convertData false data size len = some data ∨ convertData false data size len = none := by
  simp only [convertData, swapArrayBytesOrder]
  split
  · contradiction
  · split
    · exact Or.inl rfl
    · split
      · exact Or.inl rfl
      · exact Or.inr rfl

/-- **C55 (refuted).** The specified conversion of a four-byte integer differs
from what the code does, and an array of three integers is undefined. -/
theorem C55_convert_data_refuted :
    (∃ data : List Nat, convertData false data 4 1 ≠ some (reverseBlocks 4 1 data)) ∧
    (∀ data : List Nat, convertData false data 4 3 = none) := by
  refine ⟨⟨[1, 0, 0, 0], by decide⟩, fun data => by simp [convertData, swapArrayBytesOrder]⟩

example : reversePtr [1, 2, 3, 4, 5] 5 = some [5, 4, 3, 2, 1] :=
  (C55_reverse_ptr_partial [1, 2, 3, 4, 5]).1

end LLab.Utils
