import Verif.Common.Bilinear
import Verif.Common.Mat
import Mathlib.Analysis.SpecialFunctions.Sqrt
import Mathlib.Analysis.Calculus.Deriv.Inv

/-!
Scaled L2 normalisation (`/repo/src/normalization.c` 877-917). Property C35.
-/

namespace LLab.L2Norm

open Finset

/-! ### Model -/

/-- The accumulation of squares (`/repo/src/normalization.c` 879-882). -/
noncomputable def squares (n : Nat) (x : Arr ℝ) : Option ℝ :=
  loop n (fun i (s : ℝ) => do
    let v ← x.read i
    some (s + v * v)) 0

/-- `feed_forward_scaled_l2_norm` (`/repo/src/normalization.c` 877-889);
returns the norm and the output array. -/
noncomputable def ff (n : Nat) (g : ℝ) (x out : Arr ℝ) : Option (ℝ × Arr ℝ) := do
  let s ← squares n x
  let norm := Real.sqrt s
  let out ← loop n (fun i (out : Arr ℝ) => do
    let v ← x.read i
    out.write i (v * g / norm)) out
  some (norm, out)

/-- `back_propagation_scaled_l2_norm` (`/repo/src/normalization.c` 904-917);
state `(*d_learned_g, input_error)`. -/
noncomputable def bp (n : Nat) (g norm : ℝ) (x e : Arr ℝ) (st : ℝ × Arr ℝ) : Option (ℝ × Arr ℝ) :=
  loop n (fun i (st : ℝ × Arr ℝ) => do
    let ei ← e.read i
    let xi ← x.read i
    let ie ← loop n (fun j (ie : Arr ℝ) => do
      let ej ← e.read j
      let xj ← x.read j
      if i = j then ie.addAt i (g * ei * (norm * norm - xi * xi) / (norm * norm * norm))
      else ie.addAt i (-(g * ej * (xi * xj) / (norm * norm * norm)))) st.2
    some (st.1 + ei * xi / norm, ie)) st

/-! ### Forward -/

theorem squares_eq (n : Nat) (x : Arr ℝ) (hx : n ≤ x.len) :
    squares n x = some (∑ i ∈ range n, x.get i ^ 2) := by
  unfold squares
  refine (loop_act (fun s : ℝ => s) (fun i => x.get i ^ 2) ?_ 0).trans (by rw [zero_add])
  intro i hi s
  rw [Arr.read_eq (by omega)]
  simp only [Option.bind_eq_bind, Option.bind_some]
  congr 2
  ring

theorem ff_eq (n : Nat) (g : ℝ) (x out : Arr ℝ) (hx : n ≤ x.len) (ho : n ≤ out.len) :
    ∃ out', ff n g x out = some (Real.sqrt (∑ i ∈ range n, x.get i ^ 2), out') ∧
      ∀ i, i < n → out'.get i = x.get i * g / Real.sqrt (∑ i ∈ range n, x.get i ^ 2) := by
  generalize hN : Real.sqrt (∑ i ∈ range n, x.get i ^ 2) = N
  obtain ⟨o, e, h1, h2⟩ := loop_inv (n := n) (s := out)
    (f := fun i (out : Arr ℝ) => (x.read i).bind fun v => out.write i (v * g / N))
    (fun k o => o.len = out.len ∧ ∀ i, i < k → o.get i = x.get i * g / N)
    ⟨rfl, by intro i hi; omega⟩
    (by
      rintro k hk o ⟨h1, h2⟩
      rw [Arr.read_eq (by omega)]
      simp only [Option.bind_some]
      rw [Arr.write_eq _ (by omega)]
      refine ⟨_, rfl, h1, fun i hi => ?_⟩
      dsimp only
      by_cases hik : i = k
      · subst hik; rw [Function.update_self]
      · rw [Function.update_of_ne hik]
        exact h2 i (by omega))
  refine ⟨o, ?_, h2⟩
  unfold ff
  refine (bind_some_of (squares_eq n x hx)).trans ?_
  rw [hN]
  exact (bind_some_of e).trans rfl

theorem norm_pos {n : Nat} {x : Nat → ℝ} (h : ∃ i, i < n ∧ x i ≠ 0) : 0 < Real.sqrt (∑ i ∈ range n, x i ^ 2) := by
  obtain ⟨i, hi, hx⟩ := h
  refine Real.sqrt_pos.2 (Finset.sum_pos' (fun _ _ => sq_nonneg _) ⟨i, Finset.mem_range.2 hi, ?_⟩)
  positivity

/-- **C35 (forward).** For every non-zero input the output is a positive multiple
`1/‖x‖` of `g·x` and its Euclidean norm is `|g|`. -/
theorem C35_scaled_l2_forward (n : Nat) (g : ℝ) (x out : Arr ℝ) (hx : n ≤ x.len) (ho : n ≤ out.len)
    (hne : ∃ i, i < n ∧ x.get i ≠ 0) :
    ∃ norm out', ff n g x out = some (norm, out') ∧ 0 < norm ∧ norm ^ 2 = ∑ i ∈ range n, x.get i ^ 2 ∧
      (∀ i, i < n → out'.get i = g / norm * x.get i) ∧
      Real.sqrt (∑ i ∈ range n, out'.get i ^ 2) = |g| := by
  obtain ⟨o, e, h⟩ := ff_eq n g x out hx ho
  have hp := norm_pos hne
  have hsq : Real.sqrt (∑ i ∈ range n, x.get i ^ 2) ^ 2 = ∑ i ∈ range n, x.get i ^ 2 :=
    Real.sq_sqrt (Finset.sum_nonneg fun _ _ => sq_nonneg _)
  refine ⟨_, o, e, hp, hsq, fun i hi => by rw [h i hi]; ring, ?_⟩
  generalize hN : Real.sqrt (∑ i ∈ range n, x.get i ^ 2) = N at *
  have : ∑ i ∈ range n, o.get i ^ 2 = g ^ 2 := by
    rw [Finset.sum_congr rfl fun i hi => show o.get i ^ 2 = x.get i ^ 2 * (g ^ 2 / N ^ 2) by
      rw [h i (Finset.mem_range.1 hi)]; ring, ← Finset.sum_mul, ← hsq]
    field_simp
  rw [this, Real.sqrt_sq_eq_abs]

/-- Non-vacuity: the vector `(3, 4)` has norm `5`. -/
example : ∃ norm out', ff 2 2 ⟨2, fun i => if i = 0 then 3 else 4⟩ ⟨2, fun _ => 0⟩ = some (norm, out') ∧
    norm ^ 2 = 25 := by
  obtain ⟨N, o, e, -, h, -⟩ := C35_scaled_l2_forward 2 2 ⟨2, fun i => if i = 0 then 3 else 4⟩ ⟨2, fun _ => 0⟩
    (by simp) (by simp) ⟨0, by omega, by simp⟩
  exact ⟨N, o, e, by rw [h]; norm_num [Finset.sum_range_succ]⟩

/-! ### Backward -/

theorem bp_eq (n : Nat) (g N : ℝ) (x e : Arr ℝ) (dg : ℝ) (ie : Arr ℝ) (hx : n ≤ x.len) (he : n ≤ e.len)
    (hi : n ≤ ie.len) :
    ∃ ie', bp n g N x e (dg, ie) = some (dg + ∑ i ∈ range n, e.get i * x.get i / N, ie') ∧
      ie'.len = ie.len ∧ ∀ p, p < n → ie'.get p = ie.get p + ∑ j ∈ range n,
        (if p = j then g * e.get p * (N * N - x.get p * x.get p) / (N * N * N)
         else -(g * e.get j * (x.get p * x.get j) / (N * N * N))) := by
  have hinner : ∀ i, i < n → ∀ f : Nat → ℝ, loop n (fun j (ie : Arr ℝ) => do
      let ej ← e.read j
      let xj ← x.read j
      if i = j then ie.addAt i (g * e.get i * (N * N - x.get i * x.get i) / (N * N * N))
      else ie.addAt i (-(g * ej * (x.get i * xj) / (N * N * N)))) ⟨ie.len, f⟩ = some ⟨ie.len, f + ∑ j ∈ range n,
        Pi.single i (if i = j then g * e.get i * (N * N - x.get i * x.get i) / (N * N * N)
         else -(g * e.get j * (x.get i * x.get j) / (N * N * N)))⟩ := by
    intro i hi' f
    refine loop_act (fun f => Arr.mk ie.len f) _ ?_ f
    intro j hj f
    rw [Arr.read_eq (by omega), Arr.read_eq (by omega)]
    simp only [Option.bind_eq_bind, Option.bind_some]
    by_cases hij : i = j
    · rw [if_pos hij, if_pos hij]; exact Arr.addAt_mk _ _ _ (by omega)
    · rw [if_neg hij, if_neg hij]; exact Arr.addAt_mk _ _ _ (by omega)
  have key := loop_act (n := n) (M := ℝ × (Nat → ℝ))
    (f := fun i (st : ℝ × Arr ℝ) => (e.read i).bind fun ei => (x.read i).bind fun xi =>
      (loop n (fun j (ie : Arr ℝ) => do
        let ej ← e.read j
        let xj ← x.read j
        if i = j then ie.addAt i (g * ei * (N * N - xi * xi) / (N * N * N))
        else ie.addAt i (-(g * ej * (xi * xj) / (N * N * N)))) st.2).bind fun ie =>
      some (st.1 + ei * xi / N, ie))
    (fun m => (m.1, Arr.mk ie.len m.2))
    (fun i => (e.get i * x.get i / N, ∑ j ∈ range n,
        Pi.single i (if i = j then g * e.get i * (N * N - x.get i * x.get i) / (N * N * N)
         else -(g * e.get j * (x.get i * x.get j) / (N * N * N)))))
    (by
      intro i hi' m
      rw [Arr.read_eq (by omega), Arr.read_eq (by omega)]
      simp only [Option.bind_some]
      exact (bind_some_of (hinner i hi' m.2)).trans rfl)
    (dg, ie.get)
  refine ⟨⟨ie.len, (ie.get + ∑ i ∈ range n, ∑ j ∈ range n,
        Pi.single i (if i = j then g * e.get i * (N * N - x.get i * x.get i) / (N * N * N)
         else -(g * e.get j * (x.get i * x.get j) / (N * N * N))))⟩, ?_, rfl, ?_⟩
  · refine (show bp n g N x e (dg, ie) = _ from key).trans ?_
    simp only [Prod.fst_add, Prod.snd_add, Prod.fst_sum, Prod.snd_sum]
  · intro p hp
    simp only [Pi.add_apply, Finset.sum_apply]
    congr 1
    rw [Finset.sum_eq_single p]
    · simp only [Pi.single_eq_same]
    · intro i _ hip
      exact Finset.sum_eq_zero fun j _ => by rw [Pi.single_eq_of_ne (Ne.symm hip)]
    · intro h; exact absurd (Finset.mem_range.2 hp) h

/-- The error-weighted output of the forward pass. -/
noncomputable def Weighted (n : Nat) (g : ℝ) (x out e : Arr ℝ) (L : ℝ) : Prop :=
  ∃ norm out', ff n g x out = some (norm, out') ∧ L = ∑ i ∈ range n, e.get i * out'.get i

/-- **C35 (backward).** With the norm stored by the forward pass, the backward
pass adds to `*d_learned_g` the derivative of the error-weighted output in `g`,
and to every `input_error[p]` its derivative in the input coordinate `x[p]`, at
every non-zero input. -/
theorem C35_scaled_l2_gradient (n : Nat) (g : ℝ) (x out e : Arr ℝ) (dg : ℝ) (ie : Arr ℝ) (hx : n ≤ x.len)
    (ho : n ≤ out.len) (he : n ≤ e.len) (hi : n ≤ ie.len) (hne : ∃ i, i < n ∧ x.get i ≠ 0) :
    ∃ norm out', ff n g x out = some (norm, out') ∧
    ∃ dg' ie', bp n g norm x e (dg, ie) = some (dg', ie') ∧
      (∃ F : ℝ → ℝ, (∀ t, Weighted n t x out e (F t)) ∧ HasDerivAt F (dg' - dg) g) ∧
      ∀ p, p < n → ∃ F : ℝ → ℝ,
        (∀ t, Weighted n g ⟨x.len, Function.update x.get p t⟩ out e (F t)) ∧
        HasDerivAt F (ie'.get p - ie.get p) (x.get p) := by
  have hp := norm_pos hne
  have hS : 0 < ∑ i ∈ range n, x.get i ^ 2 := Real.sqrt_pos.1 hp
  obtain ⟨o, eo, -⟩ := ff_eq n g x out hx ho
  obtain ⟨ie', eb, -, hb⟩ := bp_eq n g (Real.sqrt (∑ i ∈ range n, x.get i ^ 2)) x e dg ie hx he hi
  have key : ∀ (t : ℝ) (y : Nat → ℝ), Weighted n t ⟨x.len, y⟩ out e
      (∑ i ∈ range n, e.get i * (y i * t / Real.sqrt (∑ i ∈ range n, y i ^ 2))) := by
    intro t y
    obtain ⟨o, eo, h⟩ := ff_eq n t ⟨x.len, y⟩ out hx ho
    exact ⟨_, o, eo, Finset.sum_congr rfl fun i hi => by rw [h i (Finset.mem_range.1 hi)]⟩
  refine ⟨_, o, eo, _, ie', eb, ⟨_, fun t => key t x.get, ?_⟩, fun p hp' => ⟨_, fun t => key g _, ?_⟩⟩
  · rw [add_sub_cancel_left]
    refine (HasDerivAt.fun_sum fun i _ =>
      ((((hasDerivAt_id g).const_mul (x.get i)).div_const _).const_mul (e.get i))).congr_deriv ?_
    exact Finset.sum_congr rfl fun i _ => by ring
  · rw [hb p hp', add_sub_cancel_left]
    generalize hN : Real.sqrt (∑ i ∈ range n, x.get i ^ 2) = N at hp
    have hN2 : N ^ 2 = ∑ i ∈ range n, x.get i ^ 2 := by rw [← hN]; exact Real.sq_sqrt hS.le
    have hu : ∀ i, HasDerivAt (fun t => Function.update x.get p t i) (if i = p then 1 else 0) (x.get p) := by
      intro i
      by_cases hip : i = p
      · subst hip
        simp only [Function.update_self, if_true]
        exact hasDerivAt_id _
      · simp only [Function.update_of_ne hip, if_neg hip]
        exact hasDerivAt_const _ _
    have hself : ∀ i, Function.update x.get p (x.get p) i = x.get i := by
      intro i; rw [Function.update_eq_self]
    have hSd : HasDerivAt (fun t => ∑ i ∈ range n, Function.update x.get p t i ^ 2) (2 * x.get p) (x.get p) := by
      refine (HasDerivAt.fun_sum fun i _ => (hu i).fun_pow 2).congr_deriv ?_
      rw [Finset.sum_eq_single p]
      · simp
      · intro i _ hip; simp [hip]
      · intro h; exact absurd (Finset.mem_range.2 hp') h
    have hNd : HasDerivAt (fun t => Real.sqrt (∑ i ∈ range n, Function.update x.get p t i ^ 2)) (x.get p / N)
        (x.get p) := by
      refine (hSd.sqrt ?_).congr_deriv ?_
      · simp only [hself]; exact hS.ne'
      · simp only [hself, hN]
        field_simp
    have hterm : ∀ i ∈ range n, HasDerivAt (fun t => e.get i * (Function.update x.get p t i * g /
        Real.sqrt (∑ i ∈ range n, Function.update x.get p t i ^ 2)))
        (e.get i * (((if i = p then 1 else 0) * g * N - x.get i * g * (x.get p / N)) / N ^ 2)) (x.get p) := by
      intro i _
      refine ((((hu i).mul_const g).fun_div hNd ?_).const_mul _).congr_deriv ?_
      · simp only [hself, hN]; exact hp.ne'
      · simp only [hself, hN]
    refine (HasDerivAt.fun_sum hterm).congr_deriv ?_
    refine Finset.sum_congr rfl fun i _ => ?_
    by_cases hip : i = p
    · subst hip
      simp only [if_true]
      field_simp
    · rw [if_neg hip, if_neg (Ne.symm hip)]
      field_simp
      ring

/-- Non-vacuity of the hypotheses: dimension two, input `(3, 4)`. -/
example : ∃ norm out', ff 2 2 ⟨2, fun i => if i = 0 then 3 else 4⟩ ⟨2, fun _ => 0⟩ = some (norm, out') ∧
    ∃ dg' ie', bp 2 2 norm ⟨2, fun i => if i = 0 then 3 else 4⟩ ⟨2, fun _ => 1⟩ (0, ⟨2, fun _ => 0⟩) = some (dg', ie') := by
  obtain ⟨N, o, e, dg', ie', h, -⟩ := C35_scaled_l2_gradient 2 2 ⟨2, fun i => if i = 0 then 3 else 4⟩ ⟨2, fun _ => 0⟩
    ⟨2, fun _ => 1⟩ 0 ⟨2, fun _ => 0⟩ (by simp) (by simp) (by simp) (by simp) ⟨0, by omega, by simp⟩
  exact ⟨N, o, e, dg', ie', h⟩

end LLab.L2Norm
