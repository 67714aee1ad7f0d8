import Mathlib.Logic.Equiv.Basic
import Mathlib.Algebra.Group.End
import Mathlib.Order.Lattice
import Mathlib.Algebra.Order.Group.Nat
import Mathlib.Tactic.Linarith

/-!
Model of the shuffle functions (`/repo/src/utils.c` 173-524).

`RM` is `RAND_MAX`, `rs i` is the result of the `rand()` call of iteration `i`.
`none` is an out-of-bounds access.
-/

namespace LLab.Utils

variable {β γ δ ε ζ : Type}

/-- `t = m[j]; m[j] = m[i]; m[i] = t;` (`/repo/src/utils.c` 179-181). -/
def swapAt (m : List β) (i j : Nat) : Option (List β) := do
  let t ← m[j]?
  let x ← m[i]?
  some ((m.set j x).set i t)

/-- `t3 = v[j]; v[i] = v[i]; v[i] = t3;` as written for the integer vectors
(`/repo/src/utils.c` 262, 269-270; also 297/304-305, 333-334/341-344,
372-373/380-383).  The code stores into `v[i]` twice and never into `v[j]`. -/
def copyAt (v : List β) (i j : Nat) : Option (List β) := do
  let t ← v[j]?
  let x ← v[i]?
  some ((v.set i x).set i t)

/-- `j = i + rand() / (RAND_MAX / (n - i) + 1)` (`/repo/src/utils.c` 178). -/
def pickIndex (RM n i r : Nat) : Nat := i + r / (RM / (n - i) + 1)

/-- `for (i = 0; i < n - 1; i++)` of every shuffle function
(`/repo/src/utils.c` 176-182); `step` is the loop body after `j` is drawn,
`σ` is the tuple of arrays it works on.  First argument: iterations left;
second: `i`. -/
def shuffleLoop {σ : Type} (step : Nat → Nat → σ → Option σ) (RM n : Nat) (rs : Nat → Nat) :
    Nat → Nat → σ → Option σ
  | 0, _, s => some s
  | k + 1, i, s =>
    match step i (pickIndex RM n i (rs i)) s with
    | none => none
    | some s' => shuffleLoop step RM n rs k (i + 1) s'

/-- `if (n > 1) for (i = 0; i < n-1; i++)` (`/repo/src/utils.c` 174-184). -/
def shuffleWith {σ : Type} (step : Nat → Nat → σ → Option σ) (RM n : Nat) (rs : Nat → Nat)
    (s : σ) : Option σ :=
  if n > 1 then shuffleLoop step RM n rs (n - 1) 0 s else some s

/-- `shuffle_char_matrix`, `shuffle_float_matrix`, `shuffle_int_matrix`,
`shuffle_int_array` (`/repo/src/utils.c` 173-186, 397-410, 439-452, 461-474);
also `shuffle_genome_set`, `shuffle_node_set`, `shuffle_connection_set`
(`/repo/src/neat_utils.c` 609-652), which have the same text. -/
def shuffle1 (RM : Nat) (rs : Nat → Nat) (m : List β) (n : Nat) : Option (List β) :=
  shuffleWith (fun i j m => swapAt m i j) RM n rs m

/-- `shuffle_char_matrices`, `shuffle_float_matrices`,
`shuffle_float_matrix_float_tensor`, `shuffle_int_matrices`
(`/repo/src/utils.c` 197-213, 224-240, 415-431, 508-524). -/
def shuffle2 (RM : Nat) (rs : Nat → Nat) (m : List β) (m1 : List γ) (n : Nat) :
    Option (List β × List γ) :=
  shuffleWith (fun i j (s : List β × List γ) => do
    let a ← swapAt s.1 i j
    let b ← swapAt s.2 i j
    some (a, b)) RM n rs (m, m1)

/-- `shuffle_char_matrices_float_int_vectors`,
`shuffle_float_matrices_float_int_vectors` (`/repo/src/utils.c` 253-275,
288-310). -/
def shuffle4 (RM : Nat) (rs : Nat → Nat) (m : List β) (m1 : List γ) (f : List δ) (v : List ε)
    (n : Nat) : Option (List β × List γ × List δ × List ε) :=
  shuffleWith (fun i j (s : List β × List γ × List δ × List ε) => do
    let a ← swapAt s.1 i j
    let b ← swapAt s.2.1 i j
    let c ← swapAt s.2.2.1 i j
    let d ← copyAt s.2.2.2 i j
    some (a, b, c, d)) RM n rs (m, m1, f, v)

/-- `shuffle_char_matrices_float_int_int_vectors`,
`shuffle_float_matrices_float_int_int_vectors` (`/repo/src/utils.c` 324-349,
363-388). -/
def shuffle5 (RM : Nat) (rs : Nat → Nat) (m : List β) (m1 : List γ) (f : List δ) (v : List ε)
    (v2 : List ζ) (n : Nat) : Option (List β × List γ × List δ × List ε × List ζ) :=
  shuffleWith (fun i j (s : List β × List γ × List δ × List ε × List ζ) => do
    let a ← swapAt s.1 i j
    let b ← swapAt s.2.1 i j
    let c ← swapAt s.2.2.1 i j
    let d ← copyAt s.2.2.2.1 i j
    let e ← copyAt s.2.2.2.2 i j
    some (a, b, c, d, e)) RM n rs (m, m1, f, v, v2)

/-- `shuffle_int_array_until_length(m, n, length)` (`/repo/src/utils.c` 483-496).
The C loop bound `length - 1` is compared as `size_t`, so `length = 0` would
loop past the array; the model therefore treats `length = 0` as undefined. -/
def shuffleUntil (RM : Nat) (rs : Nat → Nat) (m : List β) (n length : Nat) : Option (List β) :=
  if n > 1 then
    if length = 0 then none
    else shuffleLoop (fun i j m => swapAt m i j) RM n rs (length - 1) 0 m
  else some m

end LLab.Utils
