import Mathlib.Logic.Function.Basic
import Mathlib.Tactic.Common

/-!
Bounds-checked C arrays.

`Arr α` is a block of `len` cells.  `get` is only observable below `len`;
`read` and `write` return `none` (undefined behaviour) outside.
-/

namespace LLab

/-- A C array of `len` cells. -/
structure Arr (α : Type) where
  /-- number of cells -/
  len : Nat
  /-- contents (meaningful below `len`) -/
  get : Nat → α

namespace Arr

variable {α : Type}

/-- `a[i]` -/
def read (a : Arr α) (i : Nat) : Option α := if i < a.len then some (a.get i) else none

/-- `a[i] = v` -/
def write (a : Arr α) (i : Nat) (v : α) : Option (Arr α) :=
  if i < a.len then some ⟨a.len, Function.update a.get i v⟩ else none

theorem read_eq {a : Arr α} {i : Nat} (h : i < a.len) : a.read i = some (a.get i) := by
  simp [read, h]

theorem write_eq {a : Arr α} {i : Nat} (v : α) (h : i < a.len) :
    a.write i v = some ⟨a.len, Function.update a.get i v⟩ := by
  simp [write, h]

/-- The array holding the elements of a list. -/
def ofList [Inhabited α] (l : List α) : Arr α := ⟨l.length, fun i => l.getD i default⟩

end Arr

end LLab
