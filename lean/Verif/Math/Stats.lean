import Verif.Common.Act
import Mathlib.Data.Matrix.Mul
import Mathlib.Data.Real.Basic
import Mathlib.Analysis.SpecialFunctions.Sqrt
import Mathlib.Tactic.Linarith
import Mathlib.Tactic.Ring
import Mathlib.Tactic.FieldSimp

/-!
Property C173: `mean`, `std` and `mat_mul` of `/repo/src/math_functions.c`.

Real arithmetic for the statistics, any ring for the product. `none` is an access out of bounds or a division by zero. The three
arrays of the product do not overlap.
-/

namespace LLab.Stats

open Finset

/-! ### Model -/

/-- `mean` (`/repo/src/math_functions.c` 49-58); `none` in place of the array is `NULL`. -/
noncomputable def mean (v : Option (Arr ℝ)) (size : Nat) : Option ℝ :=
  match v with
  | none => some 0
  | some a =>
    (loop size (fun i s => (a.read i).map fun x => s + x) 0).bind fun s => if size = 0 then none else some (s / size)

/-- `std` (`/repo/src/math_functions.c` 61-69), with the mean as an argument. -/
noncomputable def std (a : Arr ℝ) (m : ℝ) (size : Nat) : Option ℝ :=
  (loop size (fun i s => (a.read i).map fun x => s + |x - m| * |x - m|) 0).bind fun s => if size = 0 then none else some (s / size)

/-- `mat_mul` (`/repo/src/math_functions.c` 174-183). -/
def matMul {R : Type} [CommRing R] (mat1 mat2 mat3 : Arr R) (size1 size2 size3 : Nat) : Option (Arr R) :=
  loop size1 (fun i => loop size2 fun j => loop size3 fun k (mat3 : Arr R) =>
    (mat1.read (i * size2 + j)).bind fun a => (mat2.read (j * size3 + k)).bind fun b => mat3.addAt (i * size3 + k) (a * b)) mat3

/-! ### Specification -/

/-- The array as a matrix, row by row. -/
def asMatrix {R : Type} (a : Arr R) (m n : Nat) : Matrix (Fin m) (Fin n) R := fun i j => a.get (i * n + j)

/-- The variance of the first `size` numbers around `m`. -/
noncomputable def variance (a : Arr ℝ) (m : ℝ) (size : Nat) : ℝ := (∑ i ∈ range size, (a.get i - m) ^ 2) / size

/-! ### Lemmas -/

theorem mean_eq (a : Arr ℝ) (size : Nat) (h : size ≤ a.len) (h0 : size ≠ 0) :
    mean (some a) size = some ((∑ i ∈ range size, a.get i) / size) := by
  rw [mean, loop_sum (fun i => a.get i) (fun i hi t => by rw [Arr.read_eq (by omega)]; rfl), Option.bind_some, if_neg h0, zero_add]

theorem std_eq (a : Arr ℝ) (m : ℝ) (size : Nat) (h : size ≤ a.len) (h0 : size ≠ 0) : std a m size = some (variance a m size) := by
  rw [std, loop_sum (fun i => |a.get i - m| * |a.get i - m|) (fun i hi t => by rw [Arr.read_eq (by omega)]; rfl), Option.bind_some,
    if_neg h0, zero_add, variance]
  simp only [abs_mul_abs_self, sq]

theorem idx_lt {m n i j : Nat} (hi : i < m) (hj : j < n) : i * n + j < m * n :=
  calc i * n + j < i * n + n := by omega
    _ = (i + 1) * n := by ring
    _ ≤ m * n := Nat.mul_le_mul_right _ hi

theorem matMul_eq {R : Type} [CommRing R] (mat1 mat2 mat3 : Arr R) (s1 s2 s3 : Nat) (h1 : mat1.len = s1 * s2) (h2 : mat2.len = s2 * s3)
    (h3 : mat3.len = s1 * s3) : matMul mat1 mat2 mat3 s1 s2 s3 = some ⟨s1 * s3, fun q => mat3.get q +
      if q < s1 * s3 then ∑ j ∈ range s2, mat1.get (q / s3 * s2 + j) * mat2.get (j * s3 + q % s3) else 0⟩ := by
  have key : loop s1 (fun i => loop s2 fun j => loop s3 fun k (mat3 : Arr R) =>
      (mat1.read (i * s2 + j)).bind fun a => (mat2.read (j * s3 + k)).bind fun b => mat3.addAt (i * s3 + k) (a * b)) ⟨s1 * s3, mat3.get⟩ =
      some ⟨s1 * s3, mat3.get + ∑ i ∈ range s1, ∑ j ∈ range s2, ∑ k ∈ range s3,
        Pi.single (i * s3 + k) (mat1.get (i * s2 + j) * mat2.get (j * s3 + k))⟩ := by
    refine loop_act (Arr.mk (s1 * s3)) (fun i => ∑ j ∈ range s2, ∑ k ∈ range s3, Pi.single (i * s3 + k) (mat1.get (i * s2 + j) * mat2.get (j * s3 + k))) (fun i hi g => ?_) _
    refine loop_act (Arr.mk (s1 * s3)) (fun j => ∑ k ∈ range s3, Pi.single (i * s3 + k) (mat1.get (i * s2 + j) * mat2.get (j * s3 + k))) (fun j hj g => ?_) _
    refine loop_act (Arr.mk (s1 * s3)) (fun k => Pi.single (i * s3 + k) (mat1.get (i * s2 + j) * mat2.get (j * s3 + k))) (fun k hk g => ?_) _
    rw [Arr.read_eq (by rw [h1]; exact idx_lt hi hj), Option.bind_some, Arr.read_eq (by rw [h2]; exact idx_lt hj hk), Option.bind_some,
      Arr.addAt_mk _ _ _ (idx_lt hi hk)]
  obtain ⟨len3, g3⟩ := mat3
  dsimp only at h3 key
  subst h3
  rw [matMul, key]
  congr 2
  funext q
  rw [Pi.add_apply]
  congr 1
  have hswap : ∑ i ∈ range s1, ∑ j ∈ range s2, ∑ k ∈ range s3, (Pi.single (i * s3 + k) (mat1.get (i * s2 + j) * mat2.get (j * s3 + k)) : Nat → R) =
      ∑ i ∈ range s1, ∑ k ∈ range s3, Pi.single (i * s3 + k) (∑ j ∈ range s2, mat1.get (i * s2 + j) * mat2.get (j * s3 + k)) := by
    refine Finset.sum_congr rfl fun i _ => ?_
    rw [Finset.sum_comm]
    refine Finset.sum_congr rfl fun k _ => ?_
    funext t
    rw [Finset.sum_apply]
    simp only [Pi.single_apply]
    by_cases ht : t = i * s3 + k
    · simp only [if_pos ht]
    · simp only [if_neg ht, Finset.sum_const_zero]
  rw [hswap, single_sum_rows s1 s3 (fun i k => ∑ j ∈ range s2, mat1.get (i * s2 + j) * mat2.get (j * s3 + k)) q]

/-! ### Theorems -/

/-- The mean of at least one number is between any bounds of them and is the number around which their squared differences, as `std`
gives them, are the least. Without an array it is zero. -/
theorem C173_mean (a : Arr ℝ) (size : Nat) (h : size ≤ a.len) (h0 : size ≠ 0) : ∃ m, mean (some a) size = some m ∧
    size * m = ∑ i ∈ range size, a.get i ∧
    (∀ lo hi, (∀ i, i < size → lo ≤ a.get i ∧ a.get i ≤ hi) → lo ≤ m ∧ m ≤ hi) ∧
    (∀ c, ∃ x y, std a m size = some x ∧ std a c size = some y ∧ y = x + (c - m) ^ 2) ∧ mean none size = some 0 := by
  have hp : (0 : ℝ) < size := by exact_mod_cast Nat.pos_of_ne_zero h0
  have hm : (size : ℝ) * ((∑ i ∈ range size, a.get i) / size) = ∑ i ∈ range size, a.get i := by field_simp
  refine ⟨_, mean_eq a size h h0, hm, fun lo hi hb => ⟨?_, ?_⟩, fun c => ⟨_, _, std_eq a _ size h h0, std_eq a c size h h0, ?_⟩, rfl⟩
  · rw [le_div_iff₀ hp]
    have := Finset.sum_le_sum (s := range size) (f := fun _ => lo) (g := a.get) fun i hi' => (hb i (Finset.mem_range.mp hi')).1
    rw [Finset.sum_const, Finset.card_range, nsmul_eq_mul] at this
    linarith
  · rw [div_le_iff₀ hp]
    have := Finset.sum_le_sum (s := range size) (f := a.get) (g := fun _ => hi) fun i hi' => (hb i (Finset.mem_range.mp hi')).2
    rw [Finset.sum_const, Finset.card_range, nsmul_eq_mul] at this
    linarith
  · generalize (∑ i ∈ range size, a.get i) / size = m at hm
    have hexp : ∀ d : ℝ, ∑ i ∈ range size, (a.get i - d) ^ 2 = ∑ i ∈ range size, a.get i ^ 2 - 2 * d * ∑ i ∈ range size, a.get i + size * d ^ 2 := fun d => by
      rw [Finset.mul_sum, ← Finset.sum_sub_distrib]
      have : (size : ℝ) * d ^ 2 = ∑ i ∈ range size, d ^ 2 := by rw [Finset.sum_const, Finset.card_range, nsmul_eq_mul]
      rw [this, ← Finset.sum_add_distrib]
      exact Finset.sum_congr rfl fun i _ => by ring
    rw [variance, variance, hexp, hexp, ← hm]
    field_simp
    ring

/-- `std` gives the mean of the squared differences, which does not change if all the numbers and the mean move by the same. -/
theorem C173_variance_partial (a : Arr ℝ) (m c : ℝ) (size : Nat) (h : size ≤ a.len) (h0 : size ≠ 0) :
    std a m size = some (variance a m size) ∧ std ⟨a.len, fun i => a.get i + c⟩ (m + c) size = std a m size ∧ 0 ≤ variance a m size := by
  refine ⟨std_eq a m size h h0, ?_, div_nonneg (Finset.sum_nonneg fun i _ => sq_nonneg _) (Nat.cast_nonneg _)⟩
  rw [std_eq _ _ _ (by exact h) h0, std_eq a m size h h0, variance, variance]
  congr 3
  funext i
  show (a.get i + c - (m + c)) ^ 2 = (a.get i - m) ^ 2
  ring

/-- It should give the standard deviation, the root of that, which grows with the numbers: it grows with the square of their scale, and
is the standard deviation only if that is zero or one. -/
theorem C173_std_refuted (a : Arr ℝ) (m c : ℝ) (size : Nat) (h : size ≤ a.len) (h0 : size ≠ 0) :
    (∃ x, std a m size = some x ∧ std ⟨a.len, fun i => c * a.get i⟩ (c * m) size = some (c ^ 2 * x)) ∧
    (std a m size = some (Real.sqrt (variance a m size)) ↔ variance a m size = 0 ∨ variance a m size = 1) := by
  refine ⟨⟨_, std_eq a m size h h0, ?_⟩, ?_⟩
  · rw [std_eq _ _ _ (by exact h) h0, variance, variance, ← mul_div_assoc, Finset.mul_sum]
    congr 3
    funext i
    show (c * a.get i - c * m) ^ 2 = c ^ 2 * (a.get i - m) ^ 2
    ring
  · rw [std_eq a m size h h0]
    have hn : 0 ≤ variance a m size := div_nonneg (Finset.sum_nonneg fun i _ => sq_nonneg _) (Nat.cast_nonneg _)
    generalize variance a m size = x at hn
    constructor
    · intro he
      have he := Option.some.inj he
      have hs := Real.mul_self_sqrt hn
      rw [← he] at hs
      rcases eq_or_ne x 0 with hx | hx
      · exact Or.inl hx
      · exact Or.inr (mul_left_cancel₀ hx (by rw [hs, mul_one]))
    · rintro (rfl | rfl)
      · rw [Real.sqrt_zero]
      · rw [Real.sqrt_one]

/-- The product of the first two matrices is added to the third; nothing else changes. -/
theorem C173_product {R : Type} [CommRing R] (mat1 mat2 mat3 : Arr R) (s1 s2 s3 : Nat) (h1 : mat1.len = s1 * s2) (h2 : mat2.len = s2 * s3)
    (h3 : mat3.len = s1 * s3) : ∃ r, matMul mat1 mat2 mat3 s1 s2 s3 = some r ∧ r.len = s1 * s3 ∧
      asMatrix r s1 s3 = asMatrix mat3 s1 s3 + asMatrix mat1 s1 s2 * asMatrix mat2 s2 s3 := by
  refine ⟨_, matMul_eq mat1 mat2 mat3 s1 s2 s3 h1 h2 h3, rfl, ?_⟩
  funext i k
  rw [Matrix.add_apply, Matrix.mul_apply]
  have hs : 0 < s3 := by have := k.2; omega
  have hd : (i.1 * s3 + k.1) / s3 = i.1 := by rw [Nat.mul_comm, Nat.mul_add_div hs, Nat.div_eq_of_lt k.2, Nat.add_zero]
  have hm : (i.1 * s3 + k.1) % s3 = k.1 := by rw [Nat.mul_comm, Nat.mul_add_mod, Nat.mod_eq_of_lt k.2]
  show mat3.get (i.1 * s3 + k.1) + (if i.1 * s3 + k.1 < s1 * s3 then _ else 0) = _
  rw [if_pos (idx_lt i.2 k.2), hd, hm, ← Fin.sum_univ_eq_sum_range (fun j => mat1.get (i.1 * s2 + j) * mat2.get (j * s3 + k.1)) s2]
  rfl

/-- Multiplying three matrices in both orders into arrays of zeros gives the same. -/
theorem C173_assoc {R : Type} [CommRing R] (A B C : Arr R) (m n p q : Nat) (hA : A.len = m * n) (hB : B.len = n * p) (hC : C.len = p * q) :
    ∃ ab abc bc abc', matMul A B ⟨m * p, fun _ => 0⟩ m n p = some ab ∧ matMul ab C ⟨m * q, fun _ => 0⟩ m p q = some abc ∧
      matMul B C ⟨n * q, fun _ => 0⟩ n p q = some bc ∧ matMul A bc ⟨m * q, fun _ => 0⟩ m n q = some abc' ∧
      asMatrix abc m q = asMatrix abc' m q := by
  have hz : ∀ a b, asMatrix (⟨a * b, fun _ => (0 : R)⟩ : Arr R) a b = 0 := fun a b => rfl
  obtain ⟨ab, e1, l1, x1⟩ := C173_product A B ⟨m * p, fun _ => 0⟩ m n p hA hB rfl
  obtain ⟨abc, e2, _, x2⟩ := C173_product ab C ⟨m * q, fun _ => 0⟩ m p q l1 hC rfl
  obtain ⟨bc, e3, l3, x3⟩ := C173_product B C ⟨n * q, fun _ => 0⟩ n p q hB hC rfl
  obtain ⟨abc', e4, _, x4⟩ := C173_product A bc ⟨m * q, fun _ => 0⟩ m n q hA l3 rfl
  exact ⟨ab, abc, bc, abc', e1, e2, e3, e4, by rw [x2, x1, x4, x3, hz, hz, hz, zero_add, zero_add, zero_add, zero_add, Matrix.mul_assoc]⟩

/-- The result should be the product: it is only if the third matrix was zero. -/
theorem C173_product_refuted {R : Type} [CommRing R] (mat1 mat2 mat3 r : Arr R) (s1 s2 s3 : Nat) (h1 : mat1.len = s1 * s2)
    (h2 : mat2.len = s2 * s3) (h3 : mat3.len = s1 * s3) (h : matMul mat1 mat2 mat3 s1 s2 s3 = some r) :
    asMatrix r s1 s3 = asMatrix mat1 s1 s2 * asMatrix mat2 s2 s3 ↔ asMatrix mat3 s1 s3 = 0 := by
  obtain ⟨r', e, _, x⟩ := C173_product mat1 mat2 mat3 s1 s2 s3 h1 h2 h3
  rw [h] at e
  cases e
  rw [x]
  exact add_eq_right

/-- The hypotheses are met: the deviation of 0 and 4 is said to be four, and a product of a row and a column. -/
example : std (Arr.ofList [0, 4]) 2 2 = some 4 ∧ variance (Arr.ofList [0, 4]) 2 2 = 4 ∧
    ∃ r, matMul (⟨2, fun _ => 3⟩ : Arr ℤ) ⟨2, fun _ => 5⟩ ⟨1, fun _ => 0⟩ 1 2 1 = some r ∧ r.get 0 = 30 := by
  have hv : variance (Arr.ofList [0, 4]) 2 2 = 4 := by
    rw [variance, Finset.sum_range_succ, Finset.sum_range_one]
    show ((0 - 2) ^ 2 + (4 - 2) ^ 2 : ℝ) / ((2 : ℕ) : ℝ) = 4
    norm_num
  refine ⟨by rw [std_eq _ _ _ (by decide) (by decide), hv], hv, ?_⟩
  refine ⟨_, matMul_eq _ _ _ 1 2 1 rfl rfl rfl, ?_⟩
  decide +kernel

end LLab.Stats
