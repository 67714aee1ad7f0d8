import Verif.Sort.Props
import Verif.Math.Softmax
import Mathlib.Algebra.Order.Floor.Ring
import Mathlib.Algebra.Order.Archimedean.Real.Basic

/-!
Model of `sample_softmax_with_temperature` (`/repo/src/math_functions.c`
186-223) and property C62.
-/

namespace LLab.SampleSoftmax

open Finset

/-- C conversion of a float to `int` (truncation towards zero). -/
noncomputable def truncReal (x : ℝ) : Int := if x < 0 then ⌈x⌉ else ⌊x⌋

/-- The probabilities computed at lines 191-205. -/
noncomputable def probs (input : List ℝ) (temperature : ℝ) : List ℝ :=
  let scaled := input.map (· / temperature);
  let sum := (scaled.map Real.exp).sum;
  scaled.map (fun x => Real.exp x / sum)

/-- The selection loop at lines 210-216; `some none` when no index is found. -/
noncomputable def select (p : List ℝ) : List Nat → ℝ → Option (Option Nat)
  | [], _ => some none
  | k :: ks, r => do
    let pk ← p[k]?
    if pk ≤ r then some (some k) else select p ks (r - pk)

/-- `sample_softmax_with_temperature` with the draw `r` (lines 186-223). The
indices are sorted by the library's `sort`; the fallback converts a
probability to `int`. The side effect on `input` is not modelled. -/
noncomputable def sample (input : List ℝ) (temperature r : ℝ) : Option Int := do
  let p := probs input temperature
  let idx ← Sort.sortC truncReal p (List.range p.length) 0 ((p.length : Int) - 1)
  let found ← select p idx r
  match found with
  | some k => some (k : Int)
  | none => do
    let last ← idx[idx.length - 1]?
    let pl ← p[last]?
    some (truncReal pl)

theorem probs_length (input : List ℝ) (t : ℝ) : (probs input t).length = input.length := by
  simp [probs]

theorem exp_le_sum (l : List ℝ) (x : ℝ) (hx : x ∈ l) : Real.exp x ≤ (l.map Real.exp).sum := by
  induction l with
  | nil => simp at hx
  | cons a l ih =>
    have hn : 0 ≤ (l.map Real.exp).sum :=
      List.sum_nonneg (by simp only [List.mem_map]; rintro _ ⟨y, _, rfl⟩; exact (Real.exp_pos y).le)
    simp only [List.map_cons, List.sum_cons]
    rcases List.mem_cons.1 hx with rfl | h
    · linarith
    · have := ih h; have := Real.exp_pos a; linarith

theorem exp_lt_sum (l : List ℝ) (hl : 2 ≤ l.length) (x : ℝ) (hx : x ∈ l) :
    Real.exp x < (l.map Real.exp).sum := by
  cases l with
  | nil => simp at hx
  | cons a l =>
    cases l with
    | nil => simp at hl
    | cons b l =>
      have hn : 0 ≤ (l.map Real.exp).sum :=
        List.sum_nonneg (by simp only [List.mem_map]; rintro _ ⟨y, _, rfl⟩; exact (Real.exp_pos y).le)
      have ha := Real.exp_pos a
      have hb := Real.exp_pos b
      rcases List.mem_cons.1 hx with rfl | h
      · simp only [List.map_cons, List.sum_cons]; linarith
      · have := exp_le_sum (b :: l) x h
        simp only [List.map_cons, List.sum_cons] at this ⊢
        linarith

theorem probs_trunc (input : List ℝ) (t : ℝ) (h : 2 ≤ input.length) :
    ∀ x ∈ probs input t, truncReal x = 0 := by
  intro x hx
  simp only [probs, List.mem_map] at hx
  obtain ⟨y, ⟨z, hz, rfl⟩, rfl⟩ := hx
  set l := input.map (· / t) with hl
  have hmem : z / t ∈ l := List.mem_map.2 ⟨z, hz, rfl⟩
  have h1 := exp_lt_sum l (by simpa [hl] using h) (z / t) hmem
  have h0 := Real.exp_pos (z / t)
  have hs : 0 < (l.map Real.exp).sum := h0.trans h1
  have h2 : 0 < Real.exp (z / t) / (l.map Real.exp).sum := div_pos h0 hs
  have h3 : Real.exp (z / t) / (l.map Real.exp).sum < 1 := (div_lt_one hs).2 h1
  unfold truncReal
  rw [if_neg (not_lt.2 h2.le), Int.floor_eq_zero_iff]
  exact ⟨h2.le, h3⟩

theorem sort_probs (input : List ℝ) (t : ℝ) (h : 2 ≤ input.length) :
    Sort.sortC truncReal (probs input t) (List.range input.length) 0 ((input.length : Int) - 1) =
      some (List.range input.length) := by
  apply Sort.C02_sort_already_sorted_partial _ _ _ _ _ (le_refl _)
  · rw [probs_length]; omega
  · simp
  · rw [List.pairwise_map]
    apply List.Pairwise.imp_of_mem (R := fun _ _ => True)
    · intro a b ha hb _
      rw [probs_trunc input t h a ha, probs_trunc input t h b hb]
    · exact List.pairwise_of_forall (fun _ _ => trivial)

theorem select_mem (p : List ℝ) : ∀ (ks : List Nat) (r : ℝ), (∀ k ∈ ks, k < p.length) →
    ∃ o, select p ks r = some o ∧ ∀ k, o = some k → k ∈ ks := by
  intro ks
  induction ks with
  | nil => intro r _; exact ⟨none, rfl, by simp⟩
  | cons k ks ih =>
    intro r h
    have hk : k < p.length := h k (by simp)
    simp only [select, List.getElem?_eq_getElem hk, Option.bind_eq_bind, Option.bind_some]
    split_ifs with hc
    · exact ⟨some k, rfl, by simp⟩
    · obtain ⟨o, e, ho⟩ := ih (r - p[k]) (fun x hx => h x (by simp [hx]))
      exact ⟨o, e, fun x hx => List.mem_cons_of_mem _ (ho x hx)⟩

/-- **C62 (partial).** With at least two actions the sampled action exists, for
every input, temperature and draw; missing: the distribution, which is wrong. -/
theorem C62_in_range_partial (input : List ℝ) (t r : ℝ) (h : 2 ≤ input.length) :
    ∃ a : Nat, sample input t r = some (a : Int) ∧ a < input.length := by
  unfold sample
  simp only [probs_length, sort_probs input t h, Option.bind_eq_bind, Option.bind_some]
  obtain ⟨o, e, ho⟩ := select_mem (probs input t) (List.range input.length) r (by
    intro k hk; rw [probs_length]; exact List.mem_range.1 hk)
  simp only [e, Option.bind_some]
  cases o with
  | some k => exact ⟨k, rfl, List.mem_range.1 (ho k rfl)⟩
  | none =>
    have hl : input.length - 1 < input.length := by omega
    have hl' : input.length - 1 < (probs input t).length := by rw [probs_length]; omega
    refine ⟨0, ?_, by omega⟩
    simp only [List.length_range, List.getElem?_range hl, Option.bind_some,
      List.getElem?_eq_getElem hl']
    rw [probs_trunc input t h _ (List.getElem_mem hl')]
    rfl

example : 2 ≤ [(0 : ℝ), 1, 2].length := by simp

/-- **C62 (refuted: range).** With a single action the function returns action 1,
which does not exist, for every draw below 1. -/
theorem C62_single_action_refuted (x t r : ℝ) (hr : r < 1) : sample [x] t r = some 1 := by
  have hp : probs [x] t = [1] := by
    simp [probs, (Real.exp_pos (x / t)).ne']
  unfold sample
  rw [hp]
  simp [Sort.sortC, select, not_le.2 hr, truncReal, List.range_succ]

/-- **C62 (refuted: distribution).** With two equally likely actions, action 1 is
never returned, whatever the draw in `[0, 1)`. -/
theorem C62_distribution_refuted (x t r : ℝ) (hr : r < 1) : sample [x, x] t r = some 0 := by
  have hp : probs [x, x] t = [1 / 2, 1 / 2] := by
    have := Real.exp_pos (x / t)
    have h : Real.exp (x / t) / (Real.exp (x / t) + Real.exp (x / t)) = 2⁻¹ := by
      field_simp; norm_num
    simp [probs, h]
  have hs := sort_probs [x, x] t (by simp)
  unfold sample
  rw [hp] at hs ⊢
  simp only [List.length_cons, List.length_nil] at hs ⊢
  rw [hs]
  have hr2 : ¬ (2⁻¹ : ℝ) ≤ r - 2⁻¹ := by norm_num; linarith
  by_cases h : (2⁻¹ : ℝ) ≤ r
  · simp [select, List.range_succ, h]
  · have h0 : truncReal 2⁻¹ = 0 := by
      unfold truncReal
      rw [if_neg (by norm_num), Int.floor_eq_zero_iff]
      constructor <;> norm_num
    simp [select, List.range_succ, h, hr2, h0]

end LLab.SampleSoftmax
