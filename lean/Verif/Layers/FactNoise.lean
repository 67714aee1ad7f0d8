import Verif.Common.Act
import Mathlib.Analysis.SpecialFunctions.Sqrt
import Mathlib.Tactic.Linarith
import Mathlib.Tactic.Ring

/-!
Property C172: the factorised noise of the noisy layers: `factorised_gaussian` and `set_factorised_noise`
(`/repo/src/math_functions.c` 1230-1254), as `fully_connected_layer` and the resets call it
(`/repo/src/fully_connected_layers.c` 219, 1382).

The numbers of `random_general_gaussian(0,1)` are the stream `g`; a counter says how many have been taken. Real arithmetic.
-/

namespace LLab.FactNoise

/-! ### Model -/

open Classical in
/-- `factorised_gaussian` (`/repo/src/math_functions.c` 1230-1239) on the number drawn. -/
noncomputable def factorised (x : ℝ) : ℝ :=
  let sgn : ℝ := if x < 0 then -1 else 1
  let y : ℝ := if x < 0 then -x else x
  sgn * Real.sqrt y

/-- The arrays and how many numbers have been drawn. -/
structure St where
  noise : Arr ℝ
  biases : Arr ℝ
  drawn : Nat

/-- The body of the inner loop (`/repo/src/math_functions.c` 1248-1251). -/
noncomputable def body (g : Nat → ℝ) (input i : Nat) (fx : ℝ) (j : Nat) (s : St) : Option St :=
  (if i = 0 then (s.biases.write j (factorised (g s.drawn))).map fun b => { s with biases := b, drawn := s.drawn + 1 } else some s).bind fun s =>
  (s.biases.read j).bind fun fy =>
  (s.noise.write (j * input + i) (fx * fy)).map fun n => { s with noise := n }

/-- `set_factorised_noise` (`/repo/src/math_functions.c` 1241-1254). -/
noncomputable def setNoise (g : Nat → ℝ) (input output : Nat) (s : St) : Option St :=
  loop input (fun i s => loop output (body g input i (factorised (g s.drawn))) { s with drawn := s.drawn + 1 }) s

/-! ### Specification -/

/-- The signed root: the number whose square, with its sign, is `x`. -/
def SignedRoot (x y : ℝ) : Prop := y * |y| = x

/-! ### Theorems -/

/-- The signed root is the one number with the sign of the draw whose square is its size. -/
theorem C172_root (x y : ℝ) : factorised x = y ↔ SignedRoot x y := by
  have h1 : ∀ x, factorised x * |factorised x| = x := fun x => by
    unfold factorised
    by_cases h : x < 0
    · simp only [if_pos h]
      rw [neg_one_mul, abs_neg, abs_of_nonneg (Real.sqrt_nonneg _), neg_mul, Real.mul_self_sqrt (by linarith), neg_neg]
    · simp only [if_neg h]
      rw [one_mul, abs_of_nonneg (Real.sqrt_nonneg _), Real.mul_self_sqrt (by linarith)]
  have inj : ∀ a b : ℝ, a * |a| = b * |b| → a = b := fun a b h => by
    have hs : ∀ c : ℝ, 0 ≤ c → c * |c| = c ^ 2 := fun c hc => by rw [abs_of_nonneg hc]; ring
    have hn : ∀ c : ℝ, c ≤ 0 → c * |c| = -c ^ 2 := fun c hc => by rw [abs_of_nonpos hc]; ring
    rcases le_total 0 a with ha | ha <;> rcases le_total 0 b with hb | hb
    · rw [hs a ha, hs b hb] at h
      exact (pow_left_inj₀ ha hb two_ne_zero).mp h
    · rw [hs a ha, hn b hb] at h
      have h2 : a = 0 := pow_eq_zero_iff two_ne_zero |>.mp (le_antisymm (by nlinarith [sq_nonneg b]) (sq_nonneg a))
      have h3 : b = 0 := pow_eq_zero_iff two_ne_zero |>.mp (le_antisymm (by nlinarith [sq_nonneg a]) (sq_nonneg b))
      rw [h2, h3]
    · rw [hn a ha, hs b hb] at h
      have h2 : a = 0 := pow_eq_zero_iff two_ne_zero |>.mp (le_antisymm (by nlinarith [sq_nonneg b]) (sq_nonneg a))
      have h3 : b = 0 := pow_eq_zero_iff two_ne_zero |>.mp (le_antisymm (by nlinarith [sq_nonneg a]) (sq_nonneg b))
      rw [h2, h3]
    · rw [hn a ha, hn b hb] at h
      have := (pow_left_inj₀ (neg_nonneg.mpr ha) (neg_nonneg.mpr hb) two_ne_zero).mp (by rw [neg_sq, neg_sq]; linarith)
      linarith
  constructor
  · rintro rfl; exact h1 x
  · intro h; exact inj _ _ ((h1 x).trans h.symm)

/-- Every entry of the noise of the weights is the product of the number of its input and that of its output, and the noise of the biases
are the numbers of the outputs. They are the signed roots of `input + output` draws, each used for one of them. -/
theorem C172_noise (g : Nat → ℝ) (input output : Nat) (hi : 0 < input) (s : St) (hn : s.noise.len = input * output)
    (hb : s.biases.len = output) : ∃ (s' : St) (X Y : Nat → ℝ), setNoise g input output s = some s' ∧
      (∀ i j, i < input → j < output → s'.noise.get (j * input + i) = X i * Y j) ∧ (∀ j, j < output → s'.biases.get j = Y j) ∧
      SignedRoot (g s.drawn) (X 0) ∧ (∀ j, j < output → SignedRoot (g (s.drawn + 1 + j)) (Y j)) ∧
      (∀ i, 0 < i → i < input → SignedRoot (g (s.drawn + output + i)) (X i)) ∧ s'.drawn = s.drawn + (input + output) ∧
      s'.noise.len = input * output ∧ s'.biases.len = output := by
  let k := s.drawn
  let at' : Nat → Nat := fun i => if i = 0 then k else k + output + i
  let X : Nat → ℝ := fun i => factorised (g (at' i))
  let Y : Nat → ℝ := fun j => factorised (g (k + 1 + j))
  have key : ∃ s', setNoise g input output s = some s' ∧ (s'.noise.len = input * output ∧ s'.biases.len = output ∧ s'.drawn = at' input ∧
      (0 < input → ∀ j, j < output → s'.biases.get j = Y j) ∧
      ∀ i, i < input → ∀ j, j < output → s'.noise.get (j * input + i) = X i * Y j) := by
    refine loop_inv (fun m (t : St) => t.noise.len = input * output ∧ t.biases.len = output ∧ t.drawn = at' m ∧
      (0 < m → ∀ j, j < output → t.biases.get j = Y j) ∧
      ∀ i, i < m → ∀ j, j < output → t.noise.get (j * input + i) = X i * Y j) ?_ ?_
    · exact ⟨hn, hb, (if_pos rfl).symm, fun h => absurd h (Nat.lt_irrefl 0), fun i h => absurd h (Nat.not_lt_zero i)⟩
    · rintro m hm t ⟨t1, t2, t3, t4, t5⟩
      have inner : ∃ t', loop output (body g input m (factorised (g t.drawn))) { t with drawn := t.drawn + 1 } = some t' ∧
          (t'.noise.len = input * output ∧ t'.biases.len = output ∧ t'.drawn = at' m + 1 + (if m = 0 then output else 0) ∧
          (∀ j, j < (if m = 0 then output else output) → t'.biases.get j = Y j) ∧
          (∀ i, i < m → ∀ j, j < output → t'.noise.get (j * input + i) = X i * Y j) ∧
          ∀ j, j < output → t'.noise.get (j * input + m) = X m * Y j) := by
        have := loop_inv (n := output) (f := body g input m (factorised (g t.drawn))) (s := { t with drawn := t.drawn + 1 })
          (fun c (t' : St) => t'.noise.len = input * output ∧ t'.biases.len = output ∧ t'.drawn = at' m + 1 + (if m = 0 then c else 0) ∧
          (∀ j, j < (if m = 0 then c else output) → t'.biases.get j = Y j) ∧
          (∀ i, i < m → ∀ j, j < output → t'.noise.get (j * input + i) = X i * Y j) ∧
          ∀ j, j < c → t'.noise.get (j * input + m) = X m * Y j) ?_ ?_
        · exact this
        · refine ⟨t1, t2, by simp [t3], fun j hj => ?_, t5, fun j hj => absurd hj (Nat.not_lt_zero j)⟩
          by_cases h0 : m = 0
          · rw [if_pos h0] at hj; exact absurd hj (Nat.not_lt_zero j)
          · rw [if_neg h0] at hj; exact t4 (Nat.pos_of_ne_zero h0) j hj
        · rintro c hc t' ⟨u1, u2, u3, u4, u5, u6⟩
          have hidx : c * input + m < input * output := by
            calc c * input + m < c * input + input := by omega
              _ = (c + 1) * input := by ring
              _ ≤ output * input := Nat.mul_le_mul_right _ hc
              _ = input * output := Nat.mul_comm _ _
          have hother : ∀ i j, i < m → j * input + i ≠ c * input + m := fun i j hi' he => by
            have h1 := congrArg (· % input) he
            simp only [Nat.mul_comm _ input,
              Nat.mul_add_mod, Nat.mod_eq_of_lt hm, Nat.mod_eq_of_lt (show i < input by omega)] at h1
            omega
          have hrow : ∀ j, j < c → j * input + m ≠ c * input + m := fun j hj he => by
            have : j * input = c * input := by omega
            have := Nat.eq_of_mul_eq_mul_right hi this
            omega
          by_cases h0 : m = 0
          · simp only [if_pos h0] at u3 u4
            have hat : at' m = k := if_pos h0
            refine ⟨⟨⟨t'.noise.len, Function.update t'.noise.get (c * input + m) (X m * Y c)⟩,
              ⟨t'.biases.len, Function.update t'.biases.get c (Y c)⟩, t'.drawn + 1⟩, ?_, ?_⟩
            · rw [body, if_pos h0, Arr.write_eq _ (by rw [u2]; exact hc), Option.map_some, Option.bind_some, Arr.read_eq (by show c < t'.biases.len; rw [u2]; exact hc), Option.bind_some,
                Arr.write_eq _ (by show c * input + m < t'.noise.len; rw [u1]; exact hidx), Option.map_some]
              have hy : factorised (g t'.drawn) = Y c := by rw [u3, hat]
              have hx : factorised (g t.drawn) = X m := by rw [t3]
              simp only [Function.update_self, hy, hx]
            · refine ⟨u1, u2, ?_, ?_, ?_, ?_⟩
              · show t'.drawn + 1 = _
                rw [if_pos h0, u3]; omega
              · intro j hj
                rw [if_pos h0] at hj
                show Function.update t'.biases.get c (Y c) j = Y j
                by_cases hjc : j = c
                · rw [hjc, Function.update_self]
                · rw [Function.update_of_ne hjc]; exact u4 j (by omega)
              · intro i hi' j hj
                show Function.update _ _ _ _ = _
                rw [Function.update_of_ne (hother i j hi')]; exact u5 i hi' j hj
              · intro j hj
                show Function.update _ _ _ _ = _
                by_cases hjc : j = c
                · rw [hjc, Function.update_self]
                · rw [Function.update_of_ne (hrow j (by omega))]; exact u6 j (by omega)
          · simp only [if_neg h0] at u3 u4
            refine ⟨⟨⟨t'.noise.len, Function.update t'.noise.get (c * input + m) (X m * Y c)⟩, t'.biases, t'.drawn⟩, ?_, ?_⟩
            · rw [body, if_neg h0, Option.bind_some, Arr.read_eq (by rw [u2]; exact hc), Option.bind_some,
                Arr.write_eq _ (by rw [u1]; exact hidx), Option.map_some, u4 c hc]
              have hx : factorised (g t.drawn) = X m := by rw [t3]
              rw [hx]
            · refine ⟨u1, u2, ?_, ?_, ?_, ?_⟩
              · show t'.drawn = _
                rw [if_neg h0, u3]
              · intro j hj
                rw [if_neg h0] at hj
                exact u4 j hj
              · intro i hi' j hj
                show Function.update _ _ _ _ = _
                rw [Function.update_of_ne (hother i j hi')]; exact u5 i hi' j hj
              · intro j hj
                show Function.update _ _ _ _ = _
                by_cases hjc : j = c
                · rw [hjc, Function.update_self]
                · rw [Function.update_of_ne (hrow j (by omega))]; exact u6 j (by omega)
      obtain ⟨t', e, u1, u2, u3, u4, u5, u6⟩ := inner
      refine ⟨t', e, u1, u2, ?_, fun _ j hj => u4 j (by rw [ite_self]; exact hj), fun i hi' j hj => ?_⟩
      · rw [u3]
        show (if m = 0 then k else k + output + m) + 1 + (if m = 0 then output else 0) = if m + 1 = 0 then k else k + output + (m + 1)
        by_cases h0 : m = 0
        · simp only [h0]; simp; omega
        · simp only [if_neg h0]; simp; omega
      · rcases Nat.lt_succ_iff_lt_or_eq.mp hi' with h | rfl
        · exact u5 i h j hj
        · exact u6 j hj
  obtain ⟨s', e, h1, h2, h3, h4, h5⟩ := key
  refine ⟨s', X, Y, e, fun i j hi' hj => h5 i hi' j hj, h4 hi, (C172_root _ _).mp rfl, fun j _ => (C172_root _ _).mp rfl, fun i hp _ => (C172_root _ _).mp ?_, ?_, h1, h2⟩
  · show _ = factorised (g (at' i))
    rw [show at' i = k + output + i from if_neg (by omega)]
  · rw [h3, show at' input = k + output + input from if_neg (by omega)]
    show s.drawn + output + input = _
    omega

/-- The noises of different weights are not independent: those of the four weights between two inputs and two outputs always have the
same cross products. -/
theorem C172_rank (g : Nat → ℝ) (input output : Nat) (s s' : St) (hn : s.noise.len = input * output) (hb : s.biases.len = output)
    (h : setNoise g input output s = some s') (i i' j j' : Nat) (hi : i < input) (hi' : i' < input) (hj : j < output) (hj' : j' < output) :
    s'.noise.get (j * input + i) * s'.noise.get (j' * input + i') = s'.noise.get (j * input + i') * s'.noise.get (j' * input + i) := by
  obtain ⟨t, X, Y, e, h1, _⟩ := C172_noise g input output (by omega) s hn hb
  rw [h] at e
  cases e
  rw [h1 i j hi hj, h1 i' j' hi' hj', h1 i' j hi' hj, h1 i j' hi hj']
  ring

/-- A layer without inputs keeps the noise of its biases as it is. -/
theorem C172_empty (g : Nat → ℝ) (output : Nat) (s : St) : setNoise g 0 output s = some s := rfl

/-- The hypotheses are met by a layer of two inputs and three outputs, with draws that make all of its noise one or minus one. -/
example : ∃ s', setNoise (fun n => if n = 2 then -1 else 1) 2 3 ⟨⟨6, fun _ => 0⟩, ⟨3, fun _ => 0⟩, 0⟩ = some s' ∧
    s'.noise.get (0 * 2 + 1) = 1 ∧ s'.noise.get (1 * 2 + 0) = -1 ∧ s'.biases.get 1 = -1 ∧ s'.drawn = 5 := by
  obtain ⟨s', X, Y, e, h1, h2, h3, h4, h5, h6, _⟩ := C172_noise (fun n => if n = 2 then -1 else 1) 2 3 (by decide) ⟨⟨6, fun _ => 0⟩, ⟨3, fun _ => 0⟩, 0⟩ rfl rfl
  have r1 : SignedRoot 1 1 := by simp [SignedRoot]
  have r2 : SignedRoot (-1) (-1) := by simp [SignedRoot]
  have x0 : X 0 = 1 := by rw [← (C172_root _ _).mpr h3]; exact (C172_root _ _).mpr (by simpa using r1)
  have x1 : X 1 = 1 := by rw [← (C172_root _ _).mpr (h5 1 (by decide) (by decide))]; exact (C172_root _ _).mpr (by simpa using r1)
  have y0 : Y 0 = 1 := by rw [← (C172_root _ _).mpr (h4 0 (by decide))]; exact (C172_root _ _).mpr (by simpa using r1)
  have y1 : Y 1 = -1 := by rw [← (C172_root _ _).mpr (h4 1 (by decide))]; exact (C172_root _ _).mpr (by simpa using r2)
  refine ⟨s', e, ?_, ?_, ?_, h6⟩
  · rw [h1 1 0 (by decide) (by decide), x1, y0]; norm_num
  · rw [h1 0 1 (by decide) (by decide), x0, y1]; norm_num
  · rw [h2 1 (by decide), y1]

end LLab.FactNoise
