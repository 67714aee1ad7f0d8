import Verif.Common.Mat
import Verif.Common.Act
import Mathlib.Analysis.SpecialFunctions.Sqrt
import Mathlib.Tactic.FieldSimp
import Mathlib.Tactic.Positivity
import Mathlib.Tactic.Linarith

/-!
Adaptive gradient clipping: `adaptive_gradient_clipping_fcl`,
`adaptive_gradient_clipping_lstm`, `adaptive_gradient_clipping_cl` (gradient-descent
branch). Property C38.
-/

namespace LLab.Agc

open Finset

/-- `sum += a[off+j]*a[off+j]` over `j < n`. -/
noncomputable def sqRow (a : Arr ℝ) (off n : Nat) : Option ℝ :=
  loop n (fun j s => (a.read (off + j)).bind fun x => some (s + x * x)) 0

/-- One unit (`/repo/src/clipping_gradient.c` 1185-1200; the same statements at
1090-1107, 1109-1126, 1205-1220 and 1244-1259): the two sums (accumulated in one
loop in the code), `ratio = max(|w|,epsilon)/|g|`, and the scaling by
`threshold*(1/ratio)` when `ratio > threshold`. -/
noncomputable def agcRow (threshold epsilon : ℝ) (w : Arr ℝ) (off n : Nat) (d : Arr ℝ) : Option (Arr ℝ) :=
  (sqRow w off n).bind fun sw => (sqRow d off n).bind fun sg =>
    let ratio := max (Real.sqrt sw) epsilon / Real.sqrt sg
    if ratio > threshold then
      loop n (fun j d => (d.read (off + j)).bind fun x => d.write (off + j) (x * (1 / ratio * threshold))) d
    else some d

/-- `adaptive_gradient_clipping_fcl(f,threshold,epsilon)`
(`/repo/src/clipping_gradient.c` 1174-1226) on a layer whose forward pass is not
dropout only: `w`, `d` are the weights and their gradients, or the scores and
theirs for edge-popup. The same loop over one gate's arrays is
`adaptive_gradient_clipping_lstm` (1081-1171). -/
noncomputable def agc (threshold epsilon : ℝ) (input output : Nat) (w d : Arr ℝ) : Option (Arr ℝ) :=
  loop output (fun i d => agcRow threshold epsilon w (i * input) input d) d

/-- `adaptive_gradient_clipping_cl` in gradient-descent mode
(`/repo/src/clipping_gradient.c` 1236-1261): each kernel is one block. -/
noncomputable def agcKernels (threshold epsilon : ℝ) (per : Nat) (kernels : List (Arr ℝ × Arr ℝ)) :
    Option (List (Arr ℝ)) :=
  kernels.mapM fun p => agcRow threshold epsilon p.1 0 per p.2

/-! ### Specification -/

/-- Norm of unit `i`'s row. -/
noncomputable def rowNorm (a : Arr ℝ) (input i : Nat) : ℝ := Real.sqrt (∑ j ∈ range input, a.get (i * input + j) ^ 2)

/-- The property: every unit's gradient norm is at most `threshold` times the
weight norm (floored at `epsilon`), and units already within that bound are
unchanged. -/
def Clipped (threshold epsilon : ℝ) (input output : Nat) (w d d' : Arr ℝ) : Prop :=
  ∀ i, i < output → rowNorm d' input i ≤ threshold * max (rowNorm w input i) epsilon ∧
    (rowNorm d input i ≤ threshold * max (rowNorm w input i) epsilon →
      ∀ j, j < input → d'.get (i * input + j) = d.get (i * input + j))

/-! ### Results -/

theorem sqRow_eq (a : Arr ℝ) (off n : Nat) (h : off + n ≤ a.len) :
    sqRow a off n = some (∑ j ∈ range n, a.get (off + j) ^ 2) := by
  unfold sqRow
  refine (loop_sum (fun j => a.get (off + j) ^ 2) fun j hj t => ?_).trans (by rw [zero_add])
  refine (bind_some_of (Arr.read_eq (by omega))).trans ?_
  rw [sq]

theorem scale_row (c : ℝ) (d : Arr ℝ) (off n : Nat) (h : off + n ≤ d.len) :
    loop n (fun j d => (d.read (off + j)).bind fun x => d.write (off + j) (x * c)) d =
      some ⟨d.len, fun q => if off ≤ q ∧ q < off + n then d.get q * c else d.get q⟩ := by
  obtain ⟨d', e, hd⟩ := loop_inv (σ := Arr ℝ) (n := n) (s := d)
    (f := fun j d => (d.read (off + j)).bind fun x => d.write (off + j) (x * c))
    (fun j st => st = ⟨d.len, fun q => if off ≤ q ∧ q < off + j then d.get q * c else d.get q⟩)
    (by
      refine Arr.ext' rfl fun q => ?_
      dsimp only
      rw [if_neg (by omega)]) (by
      rintro j hj _ rfl
      refine ⟨_, ?_, rfl⟩
      refine (bind_some_of (Arr.read_eq (by dsimp only; omega))).trans ?_
      rw [Arr.write_eq _ (by dsimp only; omega)]
      congr 1
      refine Arr.ext' rfl fun q => ?_
      dsimp only
      by_cases hq : q = off + j
      · subst hq
        rw [Function.update_self, if_neg (by omega), if_pos (by omega)]
      · rw [Function.update_of_ne hq]
        exact if_congr (by omega) rfl rfl)
  rw [e, hd]

/-- The factor the code applies to unit `i`. -/
noncomputable def factor (threshold epsilon W G : ℝ) : ℝ :=
  if max W epsilon / G > threshold then 1 / (max W epsilon / G) * threshold else 1

theorem agcRow_eq (threshold epsilon : ℝ) (w d : Arr ℝ) (off n : Nat) (hw : off + n ≤ w.len) (hd : off + n ≤ d.len) :
    agcRow threshold epsilon w off n d = some ⟨d.len, fun q => if off ≤ q ∧ q < off + n then
      d.get q * factor threshold epsilon (Real.sqrt (∑ j ∈ range n, w.get (off + j) ^ 2))
        (Real.sqrt (∑ j ∈ range n, d.get (off + j) ^ 2)) else d.get q⟩ := by
  unfold agcRow
  refine (bind_some_of (sqRow_eq w off n hw)).trans ?_
  refine (bind_some_of (sqRow_eq d off n hd)).trans ?_
  dsimp only
  unfold factor
  split_ifs with h
  · exact scale_row _ d off n hd
  · congr 1
    refine Arr.ext' rfl fun q => ?_
    simp

theorem agc_eq (threshold epsilon : ℝ) (input output : Nat) (w d : Arr ℝ) (hw : w.len = output * input)
    (hd : d.len = output * input) :
    ∃ d', agc threshold epsilon input output w d = some d' ∧ d'.len = d.len ∧
      ∀ i, i < output → ∀ j, j < input → d'.get (i * input + j) =
        d.get (i * input + j) * factor threshold epsilon (rowNorm w input i) (rowNorm d input i) := by
  obtain ⟨d', e, h1, h2, _⟩ := loop_inv (σ := Arr ℝ) (n := output) (s := d)
    (f := fun i d => agcRow threshold epsilon w (i * input) input d)
    (fun k st => st.len = d.len ∧ (∀ i, i < k → ∀ j, j < input → st.get (i * input + j) =
      d.get (i * input + j) * factor threshold epsilon (rowNorm w input i) (rowNorm d input i)) ∧
      ∀ q, k * input ≤ q → st.get q = d.get q)
    ⟨rfl, fun i hi => absurd hi (by omega), fun q _ => rfl⟩ (by
      rintro k hk st ⟨g1, g2, g3⟩
      have hle : k * input + input ≤ output * input := by
        rw [← Nat.succ_mul]; exact Nat.mul_le_mul_right _ hk
      refine ⟨_, agcRow_eq threshold epsilon w st (k * input) input (by omega) (by omega), g1, ?_, ?_⟩
      · intro i hi j hj
        dsimp only
        rcases Nat.lt_or_ge i k with hik | hik
        · have : i * input + input ≤ k * input := by
            rw [← Nat.succ_mul]; exact Nat.mul_le_mul_right _ hik
          rw [if_neg (by omega), g2 i hik j hj]
        · obtain rfl : i = k := by omega
          rw [if_pos (by omega), g3 _ (by omega)]
          unfold rowNorm
          congr 3
          refine Finset.sum_congr rfl fun j _ => ?_
          rw [g3 _ (by omega)]
      · intro q hq
        dsimp only
        rw [Nat.succ_mul] at hq
        rw [if_neg (by omega), g3 q (by omega)])
  exact ⟨d', e, h1, h2⟩

theorem factor_bounds (threshold epsilon W G : ℝ) (ht : 0 < threshold) :
    0 ≤ factor threshold epsilon W G ∧ factor threshold epsilon W G ≤ 1 := by
  unfold factor
  split_ifs with h
  · have hp : 0 < max W epsilon / G := lt_trans ht h
    refine ⟨by positivity, ?_⟩
    rw [one_div, inv_mul_le_iff₀ hp, mul_one]
    exact le_of_lt h
  · exact ⟨zero_le_one, le_rfl⟩

/-- **C38, partial.** Adaptive clipping multiplies each unit's gradient by one
factor in `[0,1]`, so it never enlarges a gradient or changes its direction. Missing:
the bound itself, which the code does not establish. -/
theorem C38_agc_partial (threshold epsilon : ℝ) (ht : 0 < threshold) (input output : Nat) (w d : Arr ℝ)
    (hw : w.len = output * input) (hd : d.len = output * input) :
    ∃ d', agc threshold epsilon input output w d = some d' ∧ d'.len = d.len ∧
      ∀ i, i < output → ∃ c, 0 ≤ c ∧ c ≤ 1 ∧ (∀ j, j < input → d'.get (i * input + j) = c * d.get (i * input + j)) ∧
        rowNorm d' input i ≤ rowNorm d input i := by
  obtain ⟨d', e, l, h⟩ := agc_eq threshold epsilon input output w d hw hd
  refine ⟨d', e, l, fun i hi => ?_⟩
  obtain ⟨f0, f1⟩ := factor_bounds threshold epsilon (rowNorm w input i) (rowNorm d input i) ht
  refine ⟨_, f0, f1, fun j hj => by rw [h i hi j hj, mul_comm], ?_⟩
  refine Real.sqrt_le_sqrt (Finset.sum_le_sum fun j hj => ?_)
  rw [h i hi j (Finset.mem_range.1 hj), mul_pow]
  exact mul_le_of_le_one_right (sq_nonneg _) (pow_le_one₀ f0 f1)

example : ∃ w d : Arr ℝ, w.len = 2 * 3 ∧ d.len = 2 * 3 ∧ (0 : ℝ) < 1 / 100 :=
  ⟨⟨6, fun _ => 1⟩, ⟨6, fun k => k⟩, rfl, rfl, by norm_num⟩

/-- **C38, refuted.** The ratio is inverted, so whatever the positive threshold:
a gradient far above the bound is returned unchanged, and a gradient within the
bound is changed. -/
theorem C38_agc_refuted (threshold : ℝ) (ht : 0 < threshold) :
    (∃ w d d' : Arr ℝ, agc threshold (1 / 1000) 1 1 w d = some d' ∧ d' = d ∧
      threshold * max (rowNorm w 1 0) (1 / 1000) < rowNorm d' 1 0 ∧
      ¬ Clipped threshold (1 / 1000) 1 1 w d d') ∧
    ∃ w d d' : Arr ℝ, agc threshold (1 / 1000) 1 1 w d = some d' ∧
      rowNorm d 1 0 ≤ threshold * max (rowNorm w 1 0) (1 / 1000) ∧ d'.get 0 ≠ d.get 0 := by
  have hn : ∀ x : ℝ, 0 ≤ x → rowNorm ⟨1, fun _ => x⟩ 1 0 = x := by
    intro x hx
    simp only [rowNorm, Finset.sum_range_one]
    exact Real.sqrt_sq hx
  have hm : max (1 : ℝ) (1 / 1000) = 1 := max_eq_left (by norm_num)
  constructor
  · set G := threshold + 1 / threshold + 1 with hG
    have hti : 0 < 1 / threshold := by positivity
    have hGp : 0 < G := by positivity
    obtain ⟨d', e, l, h⟩ := agc_eq threshold (1 / 1000) 1 1 ⟨1, fun _ => 1⟩ ⟨1, fun _ => G⟩ rfl rfl
    have hf : factor threshold (1 / 1000) 1 G = 1 := by
      unfold factor
      rw [hm, if_neg]
      rw [gt_iff_lt, not_lt, div_le_iff₀ hGp, hG]
      have : threshold * (1 / threshold) = 1 := by field_simp
      nlinarith
    have hrow : agcRow threshold (1 / 1000) (⟨1, fun _ => 1⟩ : Arr ℝ) (0 * 1) 1 ⟨1, fun _ => G⟩ =
        some ⟨1, fun _ => G⟩ := by
      rw [agcRow_eq _ _ _ _ _ _ (by simp) (by simp)]
      congr 1
      refine Arr.ext' rfl fun q => ?_
      have e1 : Real.sqrt (∑ j ∈ range 1, (1 : ℝ) ^ 2) = 1 := by simp
      have e2 : Real.sqrt (∑ j ∈ range 1, G ^ 2) = G := by
        rw [Finset.sum_range_one]; exact Real.sqrt_sq hGp.le
      simp only [e1, e2, hf, mul_one, ite_self]
    have e' : agc threshold (1 / 1000) 1 1 ⟨1, fun _ => 1⟩ ⟨1, fun _ => G⟩ = some ⟨1, fun _ => G⟩ := by
      unfold agc
      simp only [loop, Option.bind_eq_bind, Option.bind_some]
      exact hrow
    have hlt : threshold * max (rowNorm ⟨1, fun _ => 1⟩ 1 0) (1 / 1000) < rowNorm ⟨1, fun _ => G⟩ 1 0 := by
      rw [hn 1 zero_le_one, hn G hGp.le, hm, hG]
      linarith
    exact ⟨_, _, _, e', rfl, hlt, fun hc => absurd (hc 0 (by decide)).1 (not_le.2 hlt)⟩
  · set g := min (threshold) (1 / (2 * threshold)) with hg
    have hgp : 0 < g := lt_min ht (by positivity)
    obtain ⟨d', e, l, h⟩ := agc_eq threshold (1 / 1000) 1 1 ⟨1, fun _ => 1⟩ ⟨1, fun _ => g⟩ rfl rfl
    refine ⟨_, _, d', e, ?_, ?_⟩
    · rw [hn 1 zero_le_one, hn g hgp.le, hm, mul_one]
      exact min_le_left _ _
    · have h0 := h 0 (by decide) 0 (by decide)
      rw [hn 1 zero_le_one, hn g hgp.le] at h0
      simp only [Nat.zero_mul, Nat.add_zero] at h0
      rw [h0]
      have hlt : threshold < 1 / g := by
        rw [lt_div_iff₀ hgp]
        calc threshold * g ≤ threshold * (1 / (2 * threshold)) := by
              exact mul_le_mul_of_nonneg_left (min_le_right _ _) ht.le
          _ = 1 / 2 := by field_simp
          _ < 1 := by norm_num
      unfold factor
      rw [hm, if_pos hlt]
      intro hc
      have h1 : 1 / (1 / g) * threshold = 1 := by
        have : g * (1 / (1 / g) * threshold) = g * 1 := by rw [hc, mul_one]
        exact mul_left_cancel₀ hgp.ne' this
      have h2 : threshold * g = 1 := by
        rw [one_div_one_div] at h1
        rw [mul_comm]; exact h1
      rw [lt_div_iff₀ hgp] at hlt
      linarith

/-- **C38, convolutional kernels, partial.** The same holds kernel by kernel. -/
theorem C38_kernels_partial (threshold epsilon : ℝ) (ht : 0 < threshold) (per : Nat) (kernels : List (Arr ℝ × Arr ℝ))
    (h : ∀ p ∈ kernels, p.1.len = per ∧ p.2.len = per) :
    ∃ r, agcKernels threshold epsilon per kernels = some r ∧
      List.Forall₂ (fun p d' => ∃ c, 0 ≤ c ∧ c ≤ 1 ∧ d'.len = per ∧ ∀ j, j < per → d'.get j = c * p.2.get j) kernels r := by
  induction kernels with
  | nil => exact ⟨[], rfl, .nil⟩
  | cons p l ih =>
    obtain ⟨r, e, hr⟩ := ih fun q hq => h q (by simp [hq])
    obtain ⟨h1, h2⟩ := h p (by simp)
    refine ⟨⟨p.2.len, fun q => if 0 ≤ q ∧ q < 0 + per then
        p.2.get q * factor threshold epsilon (Real.sqrt (∑ j ∈ range per, p.1.get (0 + j) ^ 2))
          (Real.sqrt (∑ j ∈ range per, p.2.get (0 + j) ^ 2)) else p.2.get q⟩ :: r, ?_, .cons ?_ hr⟩
    · unfold agcKernels at e ⊢
      rw [List.mapM_cons, agcRow_eq _ _ _ _ _ _ (by omega) (by omega), e]
      rfl
    · obtain ⟨f0, f1⟩ := factor_bounds threshold epsilon (Real.sqrt (∑ j ∈ range per, p.1.get (0 + j) ^ 2))
        (Real.sqrt (∑ j ∈ range per, p.2.get (0 + j) ^ 2)) ht
      refine ⟨_, f0, f1, h2, fun j hj => ?_⟩
      dsimp only
      rw [if_pos (by omega), mul_comm]

end LLab.Agc
