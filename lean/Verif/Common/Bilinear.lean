import Verif.Common.Loop
import Mathlib.Analysis.Calculus.Deriv.Add
import Mathlib.Analysis.Calculus.Deriv.Mul
import Mathlib.Analysis.Calculus.Deriv.Comp
import Mathlib.Algebra.BigOperators.Ring.Finset
import Mathlib.Tactic.Ring
import Mathlib.Tactic.Linarith

/-!
Layers whose output is a sum of products input·weight. `T` is the set of
multiply-add steps; step `τ` adds `x (a τ) * w (b τ)` to output `o τ`.
-/

namespace LLab

open Finset

/-- A function affine in one variable has its slope as derivative. -/
theorem hasDerivAt_of_affine {f : ℝ → ℝ} {x g : ℝ} (h : ∀ t, f t = f x + (t - x) * g) :
    HasDerivAt f g x := by
  have h1 : HasDerivAt (fun t => f x + (t - x) * g) (1 * g) x :=
    (((hasDerivAt_id x).sub_const x).mul_const g).const_add (f x)
  rw [one_mul] at h1
  have : f = fun t => f x + (t - x) * g := funext h
  rw [this]
  exact h1

theorem sum_pick {R : Type} [NonAssocSemiring R] (K p : Nat) (hp : p < K) (e : Nat → R) (v : R) :
    ∑ k ∈ range K, e k * (if k = p then v else 0) = e p * v := by
  rw [Finset.sum_eq_single p]
  · simp
  · intro b _ hb; simp [hb]
  · intro h; exact absurd (Finset.mem_range.2 hp) h

theorem weighted_terms {R : Type} [CommSemiring R] {ι : Type} (T : Finset ι) (o : ι → Nat) (K : Nat)
    (hK : ∀ τ ∈ T, o τ < K) (e out0 : Nat → R) (v : ι → R) :
    ∑ k ∈ range K, e k * (out0 k + ∑ τ ∈ T, if k = o τ then v τ else 0) =
      ∑ k ∈ range K, e k * out0 k + ∑ τ ∈ T, e (o τ) * v τ := by
  simp only [mul_add, Finset.sum_add_distrib, Finset.mul_sum]
  congr 1
  rw [Finset.sum_comm]
  apply Finset.sum_congr rfl
  intro τ hτ
  exact sum_pick K (o τ) (hK τ hτ) e (v τ)

theorem update_split (w : Nat → ℝ) (q b : Nat) (t : ℝ) :
    Function.update w q t b = w b + if b = q then t - w q else 0 := by
  by_cases h : b = q
  · subst h; simp
  · simp [h]

/-- Derivative of the error-weighted output in weight `q`. -/
theorem bilinear_deriv_w {ι : Type} (T : Finset ι) (o a b : ι → Nat) (K : Nat)
    (hK : ∀ τ ∈ T, o τ < K) (e x w out0 : Nat → ℝ) (q : Nat) :
    HasDerivAt (fun t => ∑ k ∈ range K, e k *
        (out0 k + ∑ τ ∈ T, if k = o τ then x (a τ) * Function.update w q t (b τ) else 0))
      (∑ τ ∈ T, if q = b τ then e (o τ) * x (a τ) else 0) (w q) := by
  apply hasDerivAt_of_affine
  intro t
  rw [weighted_terms T o K hK e out0, weighted_terms T o K hK e out0, add_assoc]
  congr 1
  rw [Finset.mul_sum, ← Finset.sum_add_distrib]
  apply Finset.sum_congr rfl
  intro τ _
  rw [update_split w q (b τ) t, update_split w q (b τ) (w q)]
  by_cases h : b τ = q
  · simp [h]; ring
  · simp [h, Ne.symm h]

/-- Derivative of the error-weighted output in input `q`. -/
theorem bilinear_deriv_x {ι : Type} (T : Finset ι) (o a b : ι → Nat) (K : Nat)
    (hK : ∀ τ ∈ T, o τ < K) (e x w out0 : Nat → ℝ) (q : Nat) :
    HasDerivAt (fun t => ∑ k ∈ range K, e k *
        (out0 k + ∑ τ ∈ T, if k = o τ then Function.update x q t (a τ) * w (b τ) else 0))
      (∑ τ ∈ T, if q = a τ then e (o τ) * w (b τ) else 0) (x q) := by
  have h := bilinear_deriv_w T o b a K hK e w x out0 q
  refine h.congr_of_eventuallyEq ?_
  filter_upwards with t
  simp only [mul_comm]

/-- Derivative of a sum of products of an error, an input and a weight in
weight `q`. -/
theorem steps_deriv_w {ι : Type} (T : Finset ι) (o a b : ι → Nat) (e x w : Nat → ℝ) (c : ℝ) (q : Nat) :
    HasDerivAt (fun t => c + ∑ τ ∈ T, e (o τ) * (x (a τ) * Function.update w q t (b τ)))
      (∑ τ ∈ T, if q = b τ then e (o τ) * x (a τ) else 0) (w q) := by
  apply hasDerivAt_of_affine
  intro t
  rw [add_assoc]
  congr 1
  rw [Finset.mul_sum, ← Finset.sum_add_distrib]
  apply Finset.sum_congr rfl
  intro τ _
  rw [update_split w q (b τ) t, update_split w q (b τ) (w q)]
  by_cases h : b τ = q
  · simp [h]; ring
  · simp [h, Ne.symm h]

/-- Derivative of a sum of products of an error, an input and a weight in
input `q`. -/
theorem steps_deriv_x {ι : Type} (T : Finset ι) (o a b : ι → Nat) (e x w : Nat → ℝ) (c : ℝ) (q : Nat) :
    HasDerivAt (fun t => c + ∑ τ ∈ T, e (o τ) * (Function.update x q t (a τ) * w (b τ)))
      (∑ τ ∈ T, if q = a τ then e (o τ) * w (b τ) else 0) (x q) := by
  have h := steps_deriv_w T o b a e w x c q
  refine h.congr_of_eventuallyEq ?_
  filter_upwards with t
  simp only [mul_comm (w _)]

/-- Two independent loops run together. -/
theorem loop_pair {σ τ : Type} {n : Nat} {f : Nat → σ × τ → Option (σ × τ)}
    {g : Nat → σ → Option σ} {h : Nat → τ → Option τ} {a a' : σ} {b b' : τ}
    (hf : ∀ i, i < n → ∀ s t, f i (s, t) = (g i s).bind fun s' => (h i t).bind fun t' => some (s', t'))
    (hg : loop n g a = some a') (hh : loop n h b = some b') :
    loop n f (a, b) = some (a', b') := by
  induction n generalizing a' b' with
  | zero =>
    simp only [loop, Option.some.injEq] at hg hh ⊢
    rw [hg, hh]
  | succ n ih =>
    simp only [loop, Option.bind_eq_bind] at hg hh ⊢
    obtain ⟨a1, e1, e1'⟩ := Option.bind_eq_some_iff.1 hg
    obtain ⟨b1, e2, e2'⟩ := Option.bind_eq_some_iff.1 hh
    rw [ih (fun i hi => hf i (by omega)) e1 e2]
    simp [hf n (by omega), e1', e2']

end LLab
