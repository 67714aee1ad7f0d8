import Verif.Common.Act
import Verif.Common.Loop2

/-! `float**`: an array of `rows` arrays of `cols` cells each. -/

namespace LLab

/-- Running a step whose result is known. -/
theorem bind_some_of {α β : Type} {o : Option α} {a : α} {f : α → Option β} (h : o = some a) : o.bind f = f a := by
  rw [h]; rfl

/-- `rows` pointers to blocks of `cols` cells. -/
structure Mat (α : Type) where
  /-- number of blocks -/
  rows : Nat
  /-- cells per block -/
  cols : Nat
  /-- contents -/
  get : Nat → Nat → α

namespace Mat

variable {α : Type}

/-- `a[i][j]` -/
def read (a : Mat α) (i j : Nat) : Option α := if i < a.rows ∧ j < a.cols then some (a.get i j) else none

/-- `a[i][j] = v` -/
def write (a : Mat α) (i j : Nat) (v : α) : Option (Mat α) :=
  if i < a.rows ∧ j < a.cols then
    some ⟨a.rows, a.cols, fun r c => if r = i ∧ c = j then v else a.get r c⟩ else none

/-- `a[i][j] += v` -/
def addAt [Add α] (a : Mat α) (i j : Nat) (v : α) : Option (Mat α) := do
  let x ← a.read i j
  a.write i j (x + v)

theorem read_eq {a : Mat α} {i j : Nat} (h : i < a.rows) (h' : j < a.cols) : a.read i j = some (a.get i j) := by
  simp [read, h, h']

theorem write_eq {a : Mat α} {i j : Nat} (v : α) (h : i < a.rows) (h' : j < a.cols) :
    a.write i j v = some ⟨a.rows, a.cols, fun r c => if r = i ∧ c = j then v else a.get r c⟩ := by
  simp [write, h, h']

theorem addAt_mk [AddMonoid α] {rows cols : Nat} {g : Nat → Nat → α} {i j : Nat} (v : α) (h : i < rows)
    (h' : j < cols) :
    (Mat.mk rows cols g).addAt i j v = some ⟨rows, cols, g + Pi.single i (Pi.single j v)⟩ := by
  unfold addAt
  rw [read_eq h h']
  simp only [Option.bind_eq_bind, Option.bind_some]
  rw [write_eq _ h h']
  congr 2
  funext r c
  simp only [Pi.add_apply]
  by_cases hr : r = i
  · subst hr
    simp only [Pi.single_eq_same, true_and, Pi.single_apply]
    split_ifs with hc
    · rw [hc]
    · simp
  · simp [hr]

end Mat

end LLab
