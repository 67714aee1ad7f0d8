import Verif.Math.Vector
import Mathlib.Analysis.Calculus.Deriv.Abs
import Mathlib.Analysis.Calculus.Deriv.Add
import Mathlib.Tactic.Ring
import Mathlib.Tactic.NormNum

/-!
Model of `total_variation_loss_2d` and its derivative
(`/repo/src/math_functions.c` 503-540), property C63.
-/

namespace LLab.TV

open Finset

/-- `total_variation_loss_2d` (503-517) for `rows, cols ≥ 1`. `garbage` is the
indeterminate initial value of the local variable `sum`. After the inner loop
`j = cols - 1`, after the outer one `i = rows - 1`. -/
noncomputable def tvLoss (garbage : ℝ) (y : Arr ℝ) (rows cols : Nat) : Option ℝ := do
  let s ← loop (rows - 1) (fun i s => do
    let s ← loop (cols - 1) (fun j s => do
      let a ← y.read ((i + 1) * cols + j)
      let b ← y.read (i * cols + j)
      let c ← y.read (i * cols + (j + 1))
      some (s + (|a - b| + |c - b|))) s
    let a ← y.read ((i + 1) * cols + (cols - 1))
    let b ← y.read (i * cols + (cols - 1))
    some (s + |a - b|)) garbage
  loop (cols - 1) (fun j s => do
    let c ← y.read ((rows - 1) * cols + (j + 1))
    let b ← y.read ((rows - 1) * cols + j)
    some (s + |c - b|)) s

/-- Sum of the absolute differences of vertically and horizontally adjacent
pixels. -/
noncomputable def tv (p : Nat → Nat → ℝ) (rows cols : Nat) : ℝ :=
  (∑ i ∈ range (rows - 1), ∑ j ∈ range cols, |p (i + 1) j - p i j|) +
    ∑ i ∈ range rows, ∑ j ∈ range (cols - 1), |p i (j + 1) - p i j|

/-- **C63 (partial).** The loss is the total variation plus the indeterminate
initial value; missing: the initial value is never set to 0. -/
theorem C63_loss_partial (garbage : ℝ) (y : Arr ℝ) (rows cols : Nat) (hr : 1 ≤ rows) (hc : 1 ≤ cols)
    (hy : rows * cols ≤ y.len) :
    tvLoss garbage y rows cols =
      some (garbage + tv (fun i j => y.get (i * cols + j)) rows cols) := by
  obtain ⟨r, rfl⟩ : ∃ r, rows = r + 1 := ⟨rows - 1, by omega⟩
  obtain ⟨c, rfl⟩ : ∃ c, cols = c + 1 := ⟨cols - 1, by omega⟩
  have hin : ∀ i j, i < r + 1 → j < c + 1 → i * (c + 1) + j < y.len := fun i j h1 h2 =>
    lt_of_lt_of_le (Vec.idx_lt h1 h2) hy
  unfold tvLoss
  simp only [Nat.add_sub_cancel]
  rw [loop_sum (fun i => (∑ j ∈ range c, (|y.get ((i + 1) * (c + 1) + j) - y.get (i * (c + 1) + j)| +
      |y.get (i * (c + 1) + (j + 1)) - y.get (i * (c + 1) + j)|)) +
      |y.get ((i + 1) * (c + 1) + c) - y.get (i * (c + 1) + c)|)]
  · simp only [Option.bind_eq_bind, Option.bind_some]
    rw [loop_sum (fun j => |y.get (r * (c + 1) + (j + 1)) - y.get (r * (c + 1) + j)|)]
    · congr 1
      rw [add_assoc]
      congr 1
      unfold tv
      simp only [Nat.add_sub_cancel, Finset.sum_range_succ _ c, Finset.sum_range_succ _ r,
        Finset.sum_add_distrib]
      ring
    · intro j hj t
      simp [Arr.read_eq (hin r (j + 1) (by omega) (by omega)), Arr.read_eq (hin r j (by omega) (by omega))]
  · intro i hi t
    rw [loop_sum (fun j => (|y.get ((i + 1) * (c + 1) + j) - y.get (i * (c + 1) + j)| +
      |y.get (i * (c + 1) + (j + 1)) - y.get (i * (c + 1) + j)|))]
    · simp only [Option.bind_eq_bind, Option.bind_some,
        Arr.read_eq (hin (i + 1) c (by omega) (by omega)), Arr.read_eq (hin i c (by omega) (by omega)),
        add_assoc]
    · intro j hj t
      simp [Arr.read_eq (hin (i + 1) j (by omega) (by omega)), Arr.read_eq (hin i j (by omega) (by omega)),
        Arr.read_eq (hin i (j + 1) (by omega) (by omega))]

example : (1 : Nat) ≤ 2 ∧ (1 : Nat) ≤ 3 ∧ 2 * 3 ≤ (Arr.ofList [(1 : ℝ), 2, 3, 4, 5, 6]).len := by
  simp [Arr.ofList]

/-- **C63 (refuted: loss).** On a constant image the total variation is 0 but the
returned value is whatever the stack held. -/
theorem C63_loss_refuted (garbage : ℝ) :
    tvLoss garbage (Arr.ofList [5, 5]) 1 2 = some garbage := by
  rw [C63_loss_partial garbage _ 1 2 (by decide) (by decide) (by simp [Arr.ofList])]
  simp [tv, Arr.ofList]

/-- `derivative_total_variation_loss_2d` (519-540) on one row (`rows = 1`): only
the last loop runs. -/
noncomputable def dTvRow (y output : Arr ℝ) (cols : Nat) : Option (Arr ℝ) :=
  loop (cols - 1) (fun j (o : Arr ℝ) => do
    let c ← y.read (j + 1)
    let b ← y.read j
    let ratio2 := (c - b) / |c - b|
    let o ← o.addAt j ratio2
    o.addAt (j + 1) ratio2) output

/-- **C63 (refuted: gradient).** For the one-row image `(0, 1)` the loss is
`|y₁ - y₀|`, whose derivative in `y₀` is `-1`; the library adds `+1`. -/
theorem C63_gradient_refuted :
    ∃ o, dTvRow (Arr.ofList [0, 1]) (Arr.ofList [0, 0]) 2 = some o ∧
      ¬ HasDerivAt (fun t => tv (fun i j => if i = 0 ∧ j = 0 then t else 1) 1 2) (o.get 0) 0 := by
  refine ⟨⟨2, fun k => if k = 0 then 1 else if k = 1 then 1 else 0⟩, ?_, ?_⟩
  · simp only [dTvRow, loop]
    simp [Arr.read, Arr.ofList, Arr.addAt, Arr.write]
    funext k
    by_cases h1 : k = 1
    · simp [h1]
    · by_cases h0 : k = 0
      · simp [h0, h1]
      · simp only [Function.update_apply, h0, h1, if_false]
        obtain ⟨m, rfl⟩ : ∃ m, k = m + 2 := ⟨k - 2, by omega⟩
        simp [List.getD]
        rfl
  · intro h
    have h2 : HasDerivAt (fun t : ℝ => 1 - t) (-1) 0 := by
      simpa using (hasDerivAt_id (0 : ℝ)).const_sub 1
    have h3 : HasDerivAt (fun t => tv (fun i j => if i = 0 ∧ j = 0 then t else 1) 1 2) (-1) 0 := by
      refine h2.congr_of_eventuallyEq ?_
      filter_upwards [Iio_mem_nhds (show (0 : ℝ) < 1 by norm_num)] with t ht
      have : 0 ≤ 1 - t := by have : t < 1 := ht; linarith
      simp [tv, abs_of_nonneg this]
    have := h.unique h3
    norm_num at this

end LLab.TV
