import Verif.Layers.LSTM

/-!
Mathematics of back-propagation through time for one LSTM layer: tangents of the
unrolled network, and the adjoint recursion that pairs with them.
-/

namespace LLab.LSTM

open Finset LLab.Act

/-- Hidden and cell state before step `t` of the unrolled layer: `(h_t, c_t)`. -/
noncomputable def states (n m : Nat) (z0 : Nat → Nat → Nat → ℝ) (x : Nat → Nat → ℝ) (mask h0 c0 : Nat → ℝ)
    (W U B : Nat → Nat → ℝ) : Nat → (Nat → ℝ) × (Nat → ℝ)
  | 0 => (h0, c0)
  | t + 1 =>
    let s := states n m z0 x mask h0 c0 W U B t
    let p := pre n m (z0 t) W U B (x t) (fun j => mask j * s.1 j)
    let c := fun i => tanhh (p 3 i) * sigmoid (p 1 i) + s.2 i * sigmoid (p 0 i)
    (fun i => sigmoid (p 2 i) * tanhh (c i), c)

/-- Pre-activations at step `t` of the unrolled layer. -/
noncomputable def preAt (n m : Nat) (z0 : Nat → Nat → Nat → ℝ) (x : Nat → Nat → ℝ) (mask h0 c0 : Nat → ℝ)
    (W U B : Nat → Nat → ℝ) (t : Nat) : Nat → Nat → ℝ :=
  pre n m (z0 t) W U B (x t) (fun j => mask j * (states n m z0 x mask h0 c0 W U B t).1 j)

/-- The explicit dependence of a pre-activation on the parameters. -/
noncomputable def explicit (n m : Nat) (W' U' B' : Nat → Nat → ℝ) (x h : Nat → ℝ) (g i : Nat) : ℝ :=
  ∑ j ∈ range n, W' g (i * n + j) * x j + ∑ j ∈ range m, U' g (i * m + j) * h j + B' g i

/-- Tangent of the cell state of one unit. -/
noncomputable def cellDot (p p' : Nat → Nat → ℝ) (c c' : Nat → ℝ) (i : Nat) : ℝ :=
  dTanhh (p 3 i) * p' 3 i * sigmoid (p 1 i) + tanhh (p 3 i) * (dSigmoid (p 1 i) * p' 1 i) +
    (c' i * sigmoid (p 0 i) + c i * (dSigmoid (p 0 i) * p' 0 i))

/-- Tangents of `(h_t, c_t)` along a parameter curve with velocity `W', U', B'`. -/
noncomputable def tangents (n m : Nat) (z0 : Nat → Nat → Nat → ℝ) (x : Nat → Nat → ℝ) (mask h0 c0 : Nat → ℝ)
    (W U B W' U' B' : Nat → Nat → ℝ) : Nat → (Nat → ℝ) × (Nat → ℝ)
  | 0 => (fun _ => 0, fun _ => 0)
  | t + 1 =>
    let s := states n m z0 x mask h0 c0 W U B t
    let s1 := states n m z0 x mask h0 c0 W U B (t + 1)
    let d := tangents n m z0 x mask h0 c0 W U B W' U' B' t
    let p := preAt n m z0 x mask h0 c0 W U B t
    let p' := fun g i => explicit n m W' U' B' (x t) (fun j => mask j * s.1 j) g i +
      ∑ j ∈ range m, U g (i * m + j) * (mask j * d.1 j)
    let c' := cellDot p p' s.2 d.2
    (fun i => dSigmoid (p 2 i) * p' 2 i * tanhh (s1.2 i) + sigmoid (p 2 i) * (dTanhh (s1.2 i) * c' i), c')

/-- Tangent of the pre-activations at step `t`. -/
noncomputable def preDot (n m : Nat) (z0 : Nat → Nat → Nat → ℝ) (x : Nat → Nat → ℝ) (mask h0 c0 : Nat → ℝ)
    (W U B W' U' B' : Nat → Nat → ℝ) (t g i : Nat) : ℝ :=
  explicit n m W' U' B' (x t) (fun j => mask j * (states n m z0 x mask h0 c0 W U B t).1 j) g i +
    ∑ j ∈ range m, U g (i * m + j) * (mask j * (tangents n m z0 x mask h0 c0 W U B W' U' B' t).1 j)

section
variable (n m : Nat) (z0 : Nat → Nat → Nat → ℝ) (x : Nat → Nat → ℝ) (mask h0 c0 : Nat → ℝ)
variable (W U B : ℝ → Nat → Nat → ℝ) (W' U' B' : Nat → Nat → ℝ) (s0 : ℝ)

theorem preAt_hasDerivAt (hW : ∀ g k, HasDerivAt (fun s => W s g k) (W' g k) s0)
    (hU : ∀ g k, HasDerivAt (fun s => U s g k) (U' g k) s0)
    (hB : ∀ g k, HasDerivAt (fun s => B s g k) (B' g k) s0) (t : Nat)
    (hs : ∀ j, HasDerivAt (fun s => (states n m z0 x mask h0 c0 (W s) (U s) (B s) t).1 j)
      ((tangents n m z0 x mask h0 c0 (W s0) (U s0) (B s0) W' U' B' t).1 j) s0) (g i : Nat) :
    HasDerivAt (fun s => preAt n m z0 x mask h0 c0 (W s) (U s) (B s) t g i)
      (preDot n m z0 x mask h0 c0 (W s0) (U s0) (B s0) W' U' B' t g i) s0 := by
  unfold preAt pre preDot explicit
  have h1 : HasDerivAt (fun s => ∑ j ∈ range n, W s g (i * n + j) * x t j)
      (∑ j ∈ range n, W' g (i * n + j) * x t j) s0 :=
    HasDerivAt.fun_sum fun j _ => (hW g _).mul_const _
  have h2 : HasDerivAt (fun s => ∑ j ∈ range m, U s g (i * m + j) *
      (mask j * (states n m z0 x mask h0 c0 (W s) (U s) (B s) t).1 j))
      (∑ j ∈ range m, (U' g (i * m + j) * (mask j * (states n m z0 x mask h0 c0 (W s0) (U s0) (B s0) t).1 j) +
        U s0 g (i * m + j) * (mask j * (tangents n m z0 x mask h0 c0 (W s0) (U s0) (B s0) W' U' B' t).1 j))) s0 :=
    HasDerivAt.fun_sum fun j _ => (hU g _).fun_mul ((hs j).const_mul _)
  refine (((h1.const_add _).fun_add h2).fun_add (hB g i)).congr_deriv ?_
  rw [Finset.sum_add_distrib]
  ring

theorem states_hasDerivAt (hW : ∀ g k, HasDerivAt (fun s => W s g k) (W' g k) s0)
    (hU : ∀ g k, HasDerivAt (fun s => U s g k) (U' g k) s0)
    (hB : ∀ g k, HasDerivAt (fun s => B s g k) (B' g k) s0) (t : Nat) :
    (∀ i, HasDerivAt (fun s => (states n m z0 x mask h0 c0 (W s) (U s) (B s) t).1 i)
      ((tangents n m z0 x mask h0 c0 (W s0) (U s0) (B s0) W' U' B' t).1 i) s0) ∧
    (∀ i, HasDerivAt (fun s => (states n m z0 x mask h0 c0 (W s) (U s) (B s) t).2 i)
      ((tangents n m z0 x mask h0 c0 (W s0) (U s0) (B s0) W' U' B' t).2 i) s0) := by
  induction t with
  | zero => exact ⟨fun i => hasDerivAt_const _ _, fun i => hasDerivAt_const _ _⟩
  | succ t ih =>
    have hp := preAt_hasDerivAt n m z0 x mask h0 c0 W U B W' U' B' s0 hW hU hB t ih.1
    have hc : ∀ i, HasDerivAt (fun s => (states n m z0 x mask h0 c0 (W s) (U s) (B s) (t + 1)).2 i)
        ((tangents n m z0 x mask h0 c0 (W s0) (U s0) (B s0) W' U' B' (t + 1)).2 i) s0 := by
      intro i
      have e3 := (C20_tanh _).comp s0 (hp 3 i)
      have e1 := (C20_sigmoid _).comp s0 (hp 1 i)
      have e0 := (C20_sigmoid _).comp s0 (hp 0 i)
      exact (e3.fun_mul e1).fun_add ((ih.2 i).fun_mul e0)
    refine ⟨fun i => ?_, hc⟩
    have e2 := (C20_sigmoid _).comp s0 (hp 2 i)
    have ec := (C20_tanh _).comp s0 (hc i)
    exact e2.fun_mul ec

end

/-! ### The adjoint recursion -/

/-- Derivative of the loss in the pre-activation of gate `g` of unit `i`, from
the derivatives `D` in the gate values (`df, di, do, dc`). -/
noncomputable def gateErr (z D : Nat → Nat → ℝ) (g i : Nat) : ℝ :=
  if g = 0 then D 0 i * dSigmoid (z 0 i)
  else if g = 1 then D 1 i * dSigmoid (z 1 i)
  else if g = 2 then D 2 i * dSigmoid (z 2 i)
  else D 3 i * sigmoid (z 1 i) * dTanhh (z 3 i)

/-- Error flowing back into the hidden state of the previous step. -/
noncomputable def backH (m : Nat) (U : Nat → Nat → ℝ) (mask : Nat → ℝ) (z D : Nat → Nat → ℝ) (j : Nat) : ℝ :=
  ∑ i ∈ range m, ∑ g ∈ range 4, gateErr z D g i * U g (i * m + j) * mask j

/-- Error flowing back into the cell state of the previous step. -/
noncomputable def backC (z D : Nat → Nat → ℝ) (i : Nat) : ℝ := D 3 i * sigmoid (z 0 i)

/-- One step of the adjoint recursion: gate-value errors of a step from the total
hidden-state error `dh` and the cell-state error `carry` of the next step. -/
noncomputable def gateD (z : Nat → Nat → ℝ) (ct cm dh carry : Nat → ℝ) (g i : Nat) : ℝ :=
  let dc := dh i * sigmoid (z 2 i) * dTanhh (ct i) + carry i
  if g = 0 then dc * cm i else if g = 1 then dc * tanhh (z 3 i) else if g = 2 then dh i * tanhh (ct i) else dc

/-- The adjoints of step `T-1-k`. -/
noncomputable def adj (m T : Nat) (U : Nat → Nat → ℝ) (mask : Nat → ℝ) (z : Nat → Nat → Nat → ℝ)
    (c e : Nat → Nat → ℝ) : Nat → Nat → Nat → ℝ
  | 0 => gateD (z (T - 1)) (c T) (c (T - 1)) (e (T - 1)) (fun _ => 0)
  | k + 1 => gateD (z (T - 1 - (k + 1))) (c (T - 1 - k)) (c (T - 1 - (k + 1)))
      (fun j => e (T - 1 - (k + 1)) j + backH m U mask (z (T - 1 - k)) (adj m T U mask z c e k) j)
      (fun i => backC (z (T - 1 - k)) (adj m T U mask z c e k) i)

/-- The transpose identity for one unit: the hidden-state and cell-state errors
paired with the tangents equal the pre-activation errors paired with the
pre-activation tangents plus what flows to the previous cell state. -/
theorem unit_transpose (z z' : Nat → Nat → ℝ) (ct cm cm' dh carry : Nat → ℝ) (i : Nat) :
    dh i * (dSigmoid (z 2 i) * z' 2 i * tanhh (ct i) + sigmoid (z 2 i) * (dTanhh (ct i) * cellDot z z' cm cm' i)) +
      carry i * cellDot z z' cm cm' i =
    ∑ g ∈ range 4, gateErr z (gateD z ct cm dh carry) g i * z' g i +
      backC z (gateD z ct cm dh carry) i * cm' i := by
  simp only [Finset.sum_range_succ, Finset.sum_range_zero, gateErr, gateD, backC, cellDot, if_true, one_ne_zero,
    if_false, show ¬ (2 : ℕ) = 0 by omega, show ¬ (2 : ℕ) = 1 by omega, show ¬ (3 : ℕ) = 0 by omega,
    show ¬ (3 : ℕ) = 1 by omega, show ¬ (3 : ℕ) = 2 by omega]
  ring

/-- Pulling the hidden-state tangent out of the pre-activation tangents. -/
theorem backH_pair (m : Nat) (U : Nat → Nat → ℝ) (mask : Nat → ℝ) (z D : Nat → Nat → ℝ) (h' : Nat → ℝ) :
    ∑ i ∈ range m, ∑ g ∈ range 4, gateErr z D g i * ∑ j ∈ range m, U g (i * m + j) * (mask j * h' j) =
      ∑ j ∈ range m, backH m U mask z D j * h' j := by
  unfold backH
  simp only [Finset.sum_mul, Finset.mul_sum]
  calc ∑ i ∈ range m, ∑ g ∈ range 4, ∑ j ∈ range m, gateErr z D g i * (U g (i * m + j) * (mask j * h' j))
      = ∑ i ∈ range m, ∑ j ∈ range m, ∑ g ∈ range 4, gateErr z D g i * (U g (i * m + j) * (mask j * h' j)) :=
        Finset.sum_congr rfl fun i _ => Finset.sum_comm
    _ = ∑ j ∈ range m, ∑ i ∈ range m, ∑ g ∈ range 4, gateErr z D g i * (U g (i * m + j) * (mask j * h' j)) :=
        Finset.sum_comm
    _ = _ := by
        refine Finset.sum_congr rfl fun j _ => Finset.sum_congr rfl fun i _ => Finset.sum_congr rfl fun g _ => ?_
        ring

section
variable (n m : Nat) (z0 : Nat → Nat → Nat → ℝ) (x : Nat → Nat → ℝ) (mask h0 c0 : Nat → ℝ)
variable (W U B W' U' B' : Nat → Nat → ℝ)

local notation "St" => states n m z0 x mask h0 c0 W U B
local notation "Tg" => tangents n m z0 x mask h0 c0 W U B W' U' B'
local notation "Pr" => preAt n m z0 x mask h0 c0 W U B
local notation "Pd" => preDot n m z0 x mask h0 c0 W U B W' U' B'

/-- One step of the pairing. -/
theorem step_pair (t : Nat) (dh carry : Nat → ℝ) :
    ∑ i ∈ range m, dh i * (Tg (t + 1)).1 i + ∑ i ∈ range m, carry i * (Tg (t + 1)).2 i =
      ∑ i ∈ range m, ∑ g ∈ range 4,
        gateErr (Pr t) (gateD (Pr t) (St (t + 1)).2 (St t).2 dh carry) g i *
          explicit n m W' U' B' (x t) (fun j => mask j * (St t).1 j) g i +
      (∑ j ∈ range m, backH m U mask (Pr t) (gateD (Pr t) (St (t + 1)).2 (St t).2 dh carry) j * (Tg t).1 j +
        ∑ i ∈ range m, backC (Pr t) (gateD (Pr t) (St (t + 1)).2 (St t).2 dh carry) i * (Tg t).2 i) := by
  rw [← backH_pair, ← Finset.sum_add_distrib, ← add_assoc, ← Finset.sum_add_distrib, ← Finset.sum_add_distrib]
  refine Finset.sum_congr rfl fun i _ => ?_
  refine (unit_transpose (Pr t) (Pd t) (St (t + 1)).2 (St t).2 (Tg t).2 dh carry i).trans ?_
  congr 1
  rw [← Finset.sum_add_distrib]
  refine Finset.sum_congr rfl fun g _ => ?_
  unfold preDot
  ring

/-- **Adjoint identity over the window.** -/
theorem window_pair (T : Nat) (e : Nat → Nat → ℝ) (k : Nat) (hk : k < T) :
    ∑ κ ∈ range (k + 1), ∑ i ∈ range m, e (T - 1 - κ) i * (Tg (T - 1 - κ + 1)).1 i =
      ∑ κ ∈ range (k + 1), ∑ i ∈ range m, ∑ g ∈ range 4,
        gateErr (Pr (T - 1 - κ)) (adj m T U mask Pr (fun t => (St t).2) e κ) g i *
          explicit n m W' U' B' (x (T - 1 - κ)) (fun j => mask j * (St (T - 1 - κ)).1 j) g i +
      (∑ j ∈ range m, backH m U mask (Pr (T - 1 - k)) (adj m T U mask Pr (fun t => (St t).2) e k) j *
          (Tg (T - 1 - k)).1 j +
        ∑ i ∈ range m, backC (Pr (T - 1 - k)) (adj m T U mask Pr (fun t => (St t).2) e k) i *
          (Tg (T - 1 - k)).2 i) := by
  induction k with
  | zero =>
    have := step_pair n m z0 x mask h0 c0 W U B W' U' B' (T - 1) (e (T - 1)) (fun _ => 0)
    simp only [zero_mul, Finset.sum_const_zero, add_zero] at this
    simp only [zero_add, Finset.sum_range_one, Nat.sub_zero]
    rw [this, show T - 1 + 1 = T by omega]
    rfl
  | succ k ih =>
    have hstep := step_pair n m z0 x mask h0 c0 W U B W' U' B' (T - 1 - (k + 1))
      (fun j => e (T - 1 - (k + 1)) j + backH m U mask (Pr (T - 1 - k)) (adj m T U mask Pr (fun t => (St t).2) e k) j)
      (fun i => backC (Pr (T - 1 - k)) (adj m T U mask Pr (fun t => (St t).2) e k) i)
    have hT : T - 1 - (k + 1) + 1 = T - 1 - k := by omega
    rw [hT] at hstep
    rw [Finset.sum_range_succ, Finset.sum_range_succ _ (k + 1), ih (by omega), hT]
    rw [show adj m T U mask Pr (fun t => (St t).2) e (k + 1) = gateD (Pr (T - 1 - (k + 1))) (St (T - 1 - k)).2
      (St (T - 1 - (k + 1))).2
      (fun j => e (T - 1 - (k + 1)) j + backH m U mask (Pr (T - 1 - k)) (adj m T U mask Pr (fun t => (St t).2) e k) j)
      (fun i => backC (Pr (T - 1 - k)) (adj m T U mask Pr (fun t => (St t).2) e k) i) from rfl]
    simp only [add_mul, Finset.sum_add_distrib] at hstep
    linarith

/-- The derivative of the error-weighted hidden states over a window of `T ≥ 1`
steps is the sum over time of the pre-activation errors paired with the explicit
parameter dependence. -/
theorem bptt_pair (T : Nat) (hT : 1 ≤ T) (e : Nat → Nat → ℝ) :
    ∑ t ∈ range T, ∑ i ∈ range m, e t i * (Tg (t + 1)).1 i =
      ∑ κ ∈ range T, ∑ i ∈ range m, ∑ g ∈ range 4,
        gateErr (Pr (T - 1 - κ)) (adj m T U mask Pr (fun t => (St t).2) e κ) g i *
          explicit n m W' U' B' (x (T - 1 - κ)) (fun j => mask j * (St (T - 1 - κ)).1 j) g i := by
  have h := window_pair n m z0 x mask h0 c0 W U B W' U' B' T e (T - 1) (by omega)
  rw [show T - 1 + 1 = T by omega, Nat.sub_self] at h
  rw [show Tg 0 = (fun _ => 0, fun _ => 0) from rfl] at h
  simp only [mul_zero, Finset.sum_const_zero, add_zero] at h
  rw [← h, ← Finset.sum_range_reflect]

end

end LLab.LSTM
