import Verif.Common.Loop
import Mathlib.Algebra.Order.Field.Basic
import Mathlib.Algebra.Order.BigOperators.Group.Finset
import Mathlib.Logic.Equiv.Basic
import Mathlib.Tactic.Linarith
import Mathlib.Tactic.Ring

/-!
The consensus of the scores of several dueling networks: `scores_and_indices_readapter` and
`scores_and_indices_readapter_float` (utils.c 1647-1782), the order they take from
`get_sorted_probability_vector` (math_functions.c 95-126), the layer boundaries they take from
`get_array_size_scores_index_dueling_categorical_dqn` (dueling_categorical_dqn.c 874-979), and the merge
sort that was written for the same purpose (utils.c 1587-1645).
-/

namespace LLab.Consensus

open LLab

variable {K : Type} [Field K] [LinearOrder K] [IsStrictOrderedRing K]

/-! ### Layer boundaries -/

/-- dueling_categorical_dqn.c 874-979 `get_array_size_scores_index_dueling_categorical_dqn`: `sizes` are the
score counts of the fully connected, convolutional and residual convolutional layers of the five models in
the order of the loops; the function adds them up and returns the first partial sum above `s`, or the total. -/
def nextSum : List Nat → Nat → Nat → Nat
  | [], acc, _ => acc
  | n :: l, acc, s => if acc + n > s then acc + n else nextSum l (acc + n) s

/-- The loop `do{ last_sum = sum; sum = next(sum); body }while(last_sum != sum)` (utils.c 1659-1665,
1676-1686, 1706-1712, 1723-1733, 1752-1756, 1770-1774); running out of fuel gives `none`. -/
def walk {σ : Type} (sizes : List Nat) (f : Nat → Nat → σ → Option σ) : Nat → Nat → σ → Option σ
  | 0, _, _ => none
  | fuel + 1, last, st => do
    let st' ← f last (nextSum sizes 0 last) st
    (if last ≠ nextSum sizes 0 last then walk sizes f fuel (nextSum sizes 0 last) st' else some st')

/-! ### The order of one layer -/

/-- The two functions of libm used by math_functions.c 95-126. -/
structure Fn (K : Type) where
  erf : K → K
  sqrt : K → K

/-- math_functions.c 100-104: the number stored for a pair. Division by zero is Lean's, so the theorems about
the order ask for positive spreads. -/
def probGreater (F : Fn K) (mi mj si sj : K) : K :=
  if 1 < 1 - 1 / 2 * F.erf ((mi - mj) / (F.sqrt 2 * F.sqrt (si * si + sj * sj)))
  then 1 - 1 / 2 * F.erf ((mi - mj) / (F.sqrt 2 * F.sqrt (si * si + sj * sj))) - 1
  else 1 - 1 / 2 * F.erf ((mi - mj) / (F.sqrt 2 * F.sqrt (si * si + sj * sj)))

/-- math_functions.c 97-108: the table of the pairs; `off` is the offset of the pointers `means+last_sum`. -/
def table (F : Fn K) (means std : Arr K) (off n : Nat) : Option (Arr K) :=
  loop n (fun i p => loopFrom (i + 1) n (fun j p => do
    let si ← std.read (off + i)
    let sj ← std.read (off + j)
    let mi ← means.read (off + i)
    let mj ← means.read (off + j)
    let p ← p.write (i * n + j) (probGreater F mi mj si sj)
    let x ← p.read (i * n + j)
    p.write (j * n + i) (1 - x)) p) ⟨n * n, fun _ => 0⟩

/-- math_functions.c 111-121: one visit of the exchange loops. -/
def exchange (n off i j : Nat) (s : Arr K × Arr Nat) : Option (Arr K × Arr Nat) :=
  if j = i then some s else do
    let a ← s.1.read (j * n + i)
    let b ← s.1.read (i * n + j)
    (if a < b then do
      let p ← s.1.write (i * n + j) a
      let p ← p.write (j * n + i) b
      let x ← s.2.read (off + i)
      let y ← s.2.read (off + j)
      let q ← s.2.write (off + i) y
      let q ← q.write (off + j) x
      some (p, q)
    else some s)

/-- math_functions.c 95-126 `get_sorted_probability_vector`; only `index` is observable. The function is
declared to return a pointer and has no return statement; its callers ignore the value. -/
def getSorted (F : Fn K) (means std : Arr K) (off n : Nat) (index : Arr Nat) : Option (Arr Nat) := do
  let p ← table F means std off n
  let s ← loop n (fun i => loop (n - 1) (fun j => exchange n off i j)) (p, index)
  some s.2

/-! ### All layers -/

/-- utils.c 1653-1657, 1700-1704: `means[i] += indices[j][i]`. -/
def sums (vals : Arr (Arr K)) (m N : Nat) : Option (Arr K) :=
  loop N (fun i a => loop m (fun j a => do
    let r ← vals.read j
    let v ← r.read i
    a.addAt i v) a) ⟨N, fun _ => 0⟩

/-- utils.c 1659-1665, 1706-1712: every layer divided by its number of scores. -/
def divide (lo hi : Nat) (a : Arr K) : Option (Arr K) :=
  loopFrom lo hi (fun i a => do
    let x ← a.read i
    a.write i (x / ((hi - lo : Nat) : K))) a

/-- utils.c 1668-1674, 1715-1721: the sums of the squared differences from `means`. -/
def squares (vals : Arr (Arr K)) (means : Arr K) (m N : Nat) : Option (Arr K) :=
  loop N (fun i a => loop m (fun j a => do
    let r ← vals.read j
    let v ← r.read i
    let x ← means.read i
    a.addAt i ((v - x) * (v - x))) a) ⟨N, fun _ => 0⟩

/-- utils.c 1679-1685, 1726-1732: one layer of the last pass. -/
def layer (F : Fn K) (means : Arr K) (lo hi : Nat) (s : Arr Nat × Arr K) : Option (Arr Nat × Arr K) := do
  let s ← loopFrom lo hi (fun i s => do
    let q ← s.1.write i (i - lo)
    let x ← s.2.read i
    let d ← s.2.write i (x / ((hi - lo : Nat) : K))
    some (q, d)) s
  (if lo ≠ hi then do
    let q ← getSorted F means s.2 lo (hi - lo) s.1
    some (q, s.2)
  else some s)

/-- utils.c 1647-1692 `readapt_scores` (`vals` are the indices read as floats) and 1694-1739
`readapt_scores_float` (`vals` are the scores). `index` may be the first row of the indices: it is written
only in the last pass, after the last read of the rows. -/
def readapt (F : Fn K) (sizes : List Nat) (vals : Arr (Arr K)) (m N : Nat) (index : Arr Nat) :
    Option (Arr Nat) := do
  let means ← sums vals m N
  let means ← walk sizes divide (sizes.sum + 1) 0 means
  let std ← squares vals means m N
  let s ← walk sizes (layer F means) (sizes.sum + 1) 0 (index, std)
  some s.1

/-- utils.c 1742-1747 `set_float_vector_to_int_vector` on the pointers shifted by `lo`; the indices are taken
as natural numbers. -/
def setScores (v2 : Arr Nat) (step : K) (lo hi : Nat) (v1 : Arr K) : Option (Arr K) :=
  loop (hi - lo) (fun i v1 => do
    let t ← v2.read (lo + i)
    v1.write (lo + t) ((i : K) * step)) v1

/-- utils.c 614-631 `copy_array`, `copy_int_array`: `memcpy` of `n` entries. -/
def copyRow {α : Type} (src dst : Arr α) (n : Nat) : Option (Arr α) :=
  if n ≤ src.len ∧ n ≤ dst.len then some ⟨dst.len, fun k => if k < n then src.get k else dst.get k⟩ else none

/-- utils.c 1757-1761, 1775-1779: rows one to `m - 1` become copies of row zero. -/
def spreadRows {α : Type} (m N : Nat) (a : Arr (Arr α)) : Option (Arr (Arr α)) :=
  loopFrom 1 m (fun i a => do
    let s ← a.read 0
    let d ← a.read i
    let r ← copyRow s d N
    a.write i r) a

/-- The common part of utils.c 1749-1782: the new first rows, then the copies. -/
def finish (F : Fn K) (sizes : List Nat) (m N : Nat) (step : K) (vals : Arr (Arr K))
    (indices : Arr (Arr Nat)) (scores : Arr (Arr K)) : Option (Arr (Arr Nat) × Arr (Arr K)) := do
  let i0 ← indices.read 0
  let q ← readapt F sizes vals m N i0
  let indices ← indices.write 0 q
  let s0 ← scores.read 0
  let s0 ← walk sizes (setScores q step) (sizes.sum + 1) 0 s0
  let scores ← scores.write 0 s0
  let scores ← spreadRows m N scores
  let indices ← spreadRows m N indices
  some (indices, scores)

/-- The indices of the rows read as floats (utils.c 1655, 1670 `((float)indices[j][i])`). -/
def asFloat (a : Arr (Arr Nat)) : Arr (Arr K) := ⟨a.len, fun j => ⟨(a.get j).len, fun i => ((a.get j).get i : K)⟩⟩

/-- utils.c 1749-1764 `scores_and_indices_readapter`. -/
def readapter (F : Fn K) (sizes : List Nat) (m N : Nat) (step : K)
    (indices : Arr (Arr Nat)) (scores : Arr (Arr K)) : Option (Arr (Arr Nat) × Arr (Arr K)) :=
  finish F sizes m N step (asFloat indices) indices scores

/-- utils.c 1767-1782 `scores_and_indices_readapter_float`. -/
def readapterFloat (F : Fn K) (sizes : List Nat) (m N : Nat) (step : K)
    (indices : Arr (Arr Nat)) (scores : Arr (Arr K)) : Option (Arr (Arr Nat) × Arr (Arr K)) :=
  finish F sizes m N step scores indices scores

/-! ### The unused merge sort -/

/-- utils.c 1587-1636: the state of the three merging loops. -/
structure MState (K : Type) where
  i : Nat
  j : Nat
  p : Arr K
  index : Arr Nat

/-- utils.c 1587-1636 `merge_for_probabilities`. The three loops `while(i<n1 && j<n2)`, `while(i<n1)`,
`while(j<n2)` are one loop whose round `t` has `k = left + t`: each round takes the branch those loops take. -/
def merge (p : Arr K) (index : Arr Nat) (left middle right n : Nat) : Option (Arr K × Arr Nat) := do
  let n1 := middle - left + 1
  let n2 := right - middle
  let l ← loop n1 (fun i l => do
    let x ← p.read ((left + i) * n + middle + i)
    let y ← index.read (left + i)
    some (l ++ [(x, y)])) []
  let r ← loop n2 (fun j r => do
    let x ← p.read ((middle + 1 + j) * n + right + j)
    let y ← index.read (middle + 1 + j)
    some (r ++ [(x, y)])) []
  let s ← loop (n1 + n2) (fun t (s : MState K) =>
    match l[s.i]?, r[s.j]? with
    | some a, some b =>
      if a.1 < b.1 then do
        let p ← s.p.write ((left + t) * n + (left + t) + middle + s.j + 1) a.1
        let q ← s.index.write (left + t) a.2
        some ⟨s.i + 1, s.j, p, q⟩
      else do
        let p ← s.p.write ((left + t + s.j + 1) * n + right) b.1
        let q ← s.index.write (left + t) b.2
        some ⟨s.i, s.j + 1, p, q⟩
    | some a, none => do
        let p ← s.p.write ((left + t) * n + (left + t) + middle + s.j + 1) a.1
        let q ← s.index.write (left + t) a.2
        some ⟨s.i + 1, s.j, p, q⟩
    | none, some b => do
        let p ← s.p.write ((left + t + s.j + 1) * n + right) b.1
        let q ← s.index.write (left + t) b.2
        some ⟨s.i, s.j + 1, p, q⟩
    | none, none => none) ⟨0, 0, p, index⟩
  some (s.p, s.index)

/-- utils.c 1638-1645 `merge_sort_for_probabilities`, with fuel for the recursion. -/
def mergeSort : Nat → Arr K → Arr Nat → Nat → Nat → Nat → Option (Arr K × Arr Nat)
  | 0, _, _, _, _, _ => none
  | fuel + 1, p, index, left, right, n =>
    if left < right then do
      let s ← mergeSort fuel p index left (left + (right - left) / 2) n
      let s ← mergeSort fuel s.1 s.2 (left + (right - left) / 2 + 1) right n
      merge s.1 s.2 left (left + (right - left) / 2) right n
    else some (p, index)

end LLab.Consensus
