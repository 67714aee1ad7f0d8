import Verif.Common.Loop
import Mathlib.Algebra.Field.Basic
import Mathlib.Algebra.Field.Rat
import Mathlib.Algebra.BigOperators.Ring.Finset
import Mathlib.Algebra.BigOperators.Field
import Mathlib.Tactic.Ring
import Mathlib.Tactic.Linarith

/-!
Vector primitives of `/repo/src/math_functions.c` over a field, with bounds
checks, and property C64.
-/

namespace LLab.Vec

open Finset

variable {F : Type} [Field F]

/-- The shape shared by `dot1D` (817-822), `div1D` (842-847), `sum1D` (859-864),
`sub1D` (875-880) of `/repo/src/math_functions.c`: `output[i] = op(a[i], b[i])`,
for three different arrays. -/
def zip1D (op : F → F → F) (a b output : Arr F) (size : Nat) : Option (Arr F) :=
  loop size (fun i (o : Arr F) => do
    let x ← a.read i
    let y ← b.read i
    o.write i (op x y)) output

/-- The same when the output array *is* the first input, as in the gradient sums
`sum1D(m->d, m2->d, m->d, n)`. -/
def zip1DInPlace (op : F → F → F) (a b : Arr F) (size : Nat) : Option (Arr F) :=
  loop size (fun i (o : Arr F) => do
    let x ← o.read i
    let y ← b.read i
    o.write i (op x y)) a

/-- `mul_value` (893-898) and `add_value` (901-906). -/
def map1D (op : F → F) (input output : Arr F) (dimension : Nat) : Option (Arr F) :=
  loop dimension (fun i (o : Arr F) => do
    let x ← input.read i
    o.write i (op x)) output

/-- `additional_mul_value` (917-922). -/
def additionalMulValue (input : Arr F) (value : F) (output : Arr F) (dimension : Nat) :
    Option (Arr F) :=
  loop dimension (fun i (o : Arr F) => do
    let x ← input.read i
    o.addAt i (x * value)) output

/-- `dotProduct1D` (824-831). -/
def dotProduct (a b : Arr F) (size : Nat) : Option F :=
  loop size (fun i s => do
    let x ← a.read i
    let y ← b.read i
    some (s + x * y)) 0

/-- `sum_over_input`, `sum_over_input_double` (75-93). -/
def sumOver (a : Arr F) (dimension : Nat) : Option F :=
  loop dimension (fun i s => do
    let x ← a.read i
    some (s + x)) 0

/-- `compute_prob_average` (924-930). -/
def probAverage (input output : Arr F) (size : Nat) : Option (Arr F) := do
  let sum ← sumOver input size
  loop size (fun i (o : Arr F) => do
    let x ← input.read i
    o.write i (x / sum)) output

/-- `mat_mul(mat1, mat2, mat3, size1, size2, size3)` (174-183). -/
def matMul (m1 m2 m3 : Arr F) (s1 s2 s3 : Nat) : Option (Arr F) :=
  loop s1 (fun i (o : Arr F) =>
    loop s2 (fun j (o : Arr F) =>
      loop s3 (fun k (o : Arr F) => do
        let x ← m1.read (i * s2 + j)
        let y ← m2.read (j * s3 + k)
        o.addAt (i * s3 + k) (x * y)) o) o) m3

theorem zip1D_eq (op : F → F → F) (a b output : Arr F) (n : Nat) (ha : n ≤ a.len) (hb : n ≤ b.len)
    (ho : n ≤ output.len) :
    zip1D op a b output n =
      some ⟨output.len, fun k => if k < n then op (a.get k) (b.get k) else output.get k⟩ := by
  apply loop_fill (v := fun k => op (a.get k) (b.get k))
  intro i hi c hc _
  simp [Arr.read_eq (show i < a.len by omega), Arr.read_eq (show i < b.len by omega),
    Arr.write_eq _ (show i < c.len by omega)]

theorem zip1DInPlace_eq (op : F → F → F) (a b : Arr F) (n : Nat) (ha : n ≤ a.len)
    (hb : n ≤ b.len) :
    zip1DInPlace op a b n =
      some ⟨a.len, fun k => if k < n then op (a.get k) (b.get k) else a.get k⟩ := by
  apply loop_fill (v := fun k => op (a.get k) (b.get k))
  intro i hi c hc hk
  simp [Arr.read_eq (show i < c.len by omega), Arr.read_eq (show i < b.len by omega),
    Arr.write_eq _ (show i < c.len by omega), hk i (le_refl _)]

/-- **C64, elementwise operations.** In bounds, cell by cell, nothing else
touched; writing over the first operand gives the same values. -/
theorem C64_elementwise (op : F → F → F) (a b output : Arr F) (n : Nat) (ha : n ≤ a.len)
    (hb : n ≤ b.len) (ho : n ≤ output.len) :
    ∃ o p, zip1D op a b output n = some o ∧ zip1DInPlace op a b n = some p ∧
      (∀ i, i < n → o.get i = op (a.get i) (b.get i) ∧ p.get i = op (a.get i) (b.get i)) ∧
      (∀ i, n ≤ i → o.get i = output.get i ∧ p.get i = a.get i) := by
  refine ⟨_, _, zip1D_eq op a b output n ha hb ho, zip1DInPlace_eq op a b n ha hb, ?_, ?_⟩
  · intro i hi; simp [hi]
  · intro i hi; simp [show ¬ i < n by omega]

/-- **C64, scaling.** -/
theorem C64_map (op : F → F) (input output : Arr F) (n : Nat) (hi : n ≤ input.len)
    (ho : n ≤ output.len) :
    map1D op input output n =
      some ⟨output.len, fun k => if k < n then op (input.get k) else output.get k⟩ := by
  apply loop_fill (v := fun k => op (input.get k))
  intro i hi' c hc _
  simp [Arr.read_eq (show i < input.len by omega), Arr.write_eq _ (show i < c.len by omega)]

/-- **C64, scaled accumulation.** -/
theorem C64_additional_mul_value (input output : Arr F) (value : F) (n : Nat) (hi : n ≤ input.len)
    (ho : n ≤ output.len) :
    additionalMulValue input value output n =
      some ⟨output.len, fun k => output.get k + if k < n then input.get k * value else 0⟩ := by
  unfold additionalMulValue
  rw [loop_add (D := fun i k => if k = i then input.get i * value else 0)]
  · congr 2
    funext k
    congr 1
    rw [Finset.sum_ite_eq (range n) k (fun i => input.get i * value)]
    simp
  · intro i hi' c hc
    simp only [Arr.read_eq (show i < input.len by omega), Option.bind_eq_bind, Option.bind_some]
    exact Arr.addAt_eq' _ (by omega)

theorem sumOver_eq (a : Arr F) (n : Nat) (ha : n ≤ a.len) :
    sumOver a n = some (∑ i ∈ range n, a.get i) := by
  unfold sumOver
  rw [loop_sum (fun i => a.get i) (fun i h t => by simp [Arr.read_eq (show i < a.len by omega)]),
    zero_add]

/-- **C64, inner product and sum.** -/
theorem C64_dot (a b : Arr F) (n : Nat) (ha : n ≤ a.len) (hb : n ≤ b.len) :
    dotProduct a b n = some (∑ i ∈ range n, a.get i * b.get i) ∧
      sumOver a n = some (∑ i ∈ range n, a.get i) := by
  refine ⟨?_, sumOver_eq a n ha⟩
  unfold dotProduct
  rw [loop_sum (fun i => a.get i * b.get i) (fun i h t => by
    simp [Arr.read_eq (show i < a.len by omega), Arr.read_eq (show i < b.len by omega)]), zero_add]

/-- **C64, normalisation to a distribution.** If the entries do not sum to 0, the
output sums to one and is proportional to the input. -/
theorem C64_prob_average (input output : Arr F) (n : Nat) (hi : n ≤ input.len) (ho : n ≤ output.len)
    (hs : ∑ i ∈ range n, input.get i ≠ 0) :
    ∃ o, probAverage input output n = some o ∧ ∑ i ∈ range n, o.get i = 1 ∧
      ∀ i, i < n → o.get i * ∑ i ∈ range n, input.get i = input.get i := by
  have e : probAverage input output n = some ⟨output.len, fun k => if k < n then
      input.get k / ∑ i ∈ range n, input.get i else output.get k⟩ := by
    unfold probAverage
    rw [sumOver_eq input n hi]
    simp only [Option.bind_eq_bind, Option.bind_some]
    apply loop_fill (v := fun k => input.get k / ∑ i ∈ range n, input.get i)
    intro i hi' c hc _
    simp [Arr.read_eq (show i < input.len by omega), Arr.write_eq _ (show i < c.len by omega)]
  refine ⟨_, e, ?_, ?_⟩
  · rw [Finset.sum_congr rfl (g := fun k => input.get k / ∑ i ∈ range n, input.get i)
      (fun k hk => by simp [Finset.mem_range.1 hk]), ← Finset.sum_div]
    exact div_self hs
  · intro i hi'
    simp only [hi', if_true]
    exact div_mul_cancel₀ _ hs

example : ∑ i ∈ range 2, (Arr.ofList [(1 : ℚ), 3]).get i ≠ 0 := by
  norm_num [Finset.sum_range_succ, Arr.ofList]

theorem idx_lt {i j n m : Nat} (hi : i < n) (hj : j < m) : i * m + j < n * m := by
  calc i * m + j < i * m + m := by omega
    _ = (i + 1) * m := by ring
    _ ≤ n * m := Nat.mul_le_mul_right m (by omega)

theorem idx_inj {i j i' j' m : Nat} (hj : j < m) (hj' : j' < m) (h : i * m + j = i' * m + j') :
    i = i' ∧ j = j' := by
  have hm : 0 < m := by omega
  have h1 := congrArg (· / m) h
  have h2 := congrArg (· % m) h
  simp only [Nat.mul_comm _ m, Nat.mul_add_div hm, Nat.mul_add_mod, Nat.mod_eq_of_lt hj,
    Nat.mod_eq_of_lt hj', Nat.div_eq_of_lt hj, Nat.div_eq_of_lt hj', Nat.add_zero] at h1 h2
  exact ⟨h1, h2⟩

/-- **C64, matrix product.** `mat_mul` stays in bounds and adds to entry
`(r, c)` of the row-major `size1 × size3` result the sum over the inner index;
other cells keep their content. -/
theorem C64_mat_mul (m1 m2 m3 : Arr F) (s1 s2 s3 : Nat) (h1 : s1 * s2 ≤ m1.len)
    (h2 : s2 * s3 ≤ m2.len) (h3 : s1 * s3 ≤ m3.len) :
    ∃ o, matMul m1 m2 m3 s1 s2 s3 = some o ∧ o.len = m3.len ∧
      (∀ r c, r < s1 → c < s3 → o.get (r * s3 + c) = m3.get (r * s3 + c) +
        ∑ j ∈ range s2, m1.get (r * s2 + j) * m2.get (j * s3 + c)) ∧
      (∀ q, s1 * s3 ≤ q → o.get q = m3.get q) := by
  have e : matMul m1 m2 m3 s1 s2 s3 = some ⟨m3.len, fun q => m3.get q +
      ∑ i ∈ range s1, ∑ j ∈ range s2, ∑ k ∈ range s3,
        if q = i * s3 + k then m1.get (i * s2 + j) * m2.get (j * s3 + k) else 0⟩ := by
    unfold matMul
    apply loop_add
    intro i hi b hb
    apply loop_add
    intro j hj c hc
    apply loop_add
    intro k hk d hd
    have i1 := idx_lt hi hj
    have i2 := idx_lt hj hk
    have i3 := idx_lt hi hk
    simp only [Arr.read_eq (show i * s2 + j < m1.len by omega),
      Arr.read_eq (show j * s3 + k < m2.len by omega), Option.bind_eq_bind, Option.bind_some]
    exact Arr.addAt_eq' _ (by omega)
  refine ⟨_, e, rfl, ?_, ?_⟩
  · intro r c hr hc
    dsimp only
    congr 1
    rw [Finset.sum_eq_single r]
    · apply Finset.sum_congr rfl
      intro j hj
      rw [Finset.sum_eq_single c]
      · simp
      · intro k hk hkc
        rw [if_neg]
        intro h
        exact hkc (idx_inj hc (Finset.mem_range.1 hk) h).2.symm
      · intro h; exact absurd (Finset.mem_range.2 hc) h
    · intro i _ hir
      apply Finset.sum_eq_zero
      intro j _
      apply Finset.sum_eq_zero
      intro k hk
      rw [if_neg]
      intro h
      exact hir (idx_inj hc (Finset.mem_range.1 hk) h).1.symm
    · intro h; exact absurd (Finset.mem_range.2 hr) h
  · intro q hq
    dsimp only
    rw [Finset.sum_eq_zero, add_zero]
    intro i hi
    apply Finset.sum_eq_zero
    intro j _
    apply Finset.sum_eq_zero
    intro k hk
    rw [if_neg]
    have := idx_lt (Finset.mem_range.1 hi) (Finset.mem_range.1 hk)
    omega

example : (2 * 3 ≤ (Arr.ofList [(1 : ℚ), 2, 3, 4, 5, 6]).len) := by decide

/-! `std` returns the variance. -/

/-- `std(v, mean, size)` (61-69): no square root is taken. -/
def stdC (v : Arr F) (mean : F) (size : Nat) : Option F := do
  let s ← loop size (fun i s => do
    let x ← v.read i
    some (s + (x - mean) * (x - mean))) 0
  some (s / size)

/-- **C64 (refuted for `std`).** The function called `std` returns the variance:
for the values 0 and 4 with mean 2 it gives 4, whose square is not the
variance 4. -/
theorem C64_std_refuted : stdC (Arr.ofList [(0 : ℚ), 4]) 2 2 = some 4 ∧ (4 : ℚ) ^ 2 ≠ 4 := by
  constructor
  · simp [stdC, loop, Arr.read, Arr.ofList]; norm_num
  · norm_num

end LLab.Vec
