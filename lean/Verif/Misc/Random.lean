import Mathlib.Analysis.SpecialFunctions.Trigonometric.Bounds
import Mathlib.Analysis.SpecialFunctions.Pow.Real
import Mathlib.Analysis.SpecialFunctions.Sqrt
import Mathlib.Analysis.Real.Pi.Bounds
import Verif.Common.Loop
import Verif.Common.Arr

/-!
Random initial values (`/repo/src/initialization.c`) and the positional encoding (`/repo/src/positional_encoding.c`).
Properties C114 and C115. Numbers are real; `rand()` gives an arbitrary number from 0 to `RAND_MAX`.
-/

namespace LLab.Random

/-! ### Model of the random numbers -/

/-- `r2` (`/repo/src/initialization.c` 28-30) for the value `k` of `rand()` and `R = RAND_MAX`. -/
noncomputable def r2 (R k : Nat) : ℝ := (k : ℝ) / R

/-- `signed_r2` (`/repo/src/initialization.c` 42-46): the first value of `rand()` is `k`, the second `k'`. -/
noncomputable def signedR2 (R k k' : Nat) (n : ℝ) : ℝ := if r2 R k ≥ 0.5 then r2 R k' * n else -r2 R k' * n

/-- `generate_from_random_distribution` (`/repo/src/initialization.c` 48-50). -/
noncomputable def generate (R k : Nat) (lo hi : ℝ) : ℝ := lo + (k : ℝ) / (R / (hi - lo))

/-- `drand` (`/repo/src/initialization.c` 52-54). -/
noncomputable def drand (R k : Nat) : ℝ := ((k : ℝ) + 1) / (R + 1)

/-- `random_normal` (`/repo/src/initialization.c` 57-59). `none`: logarithm of zero or root of a negative number. -/
noncomputable def randomNormal (R k k' : Nat) : Option ℝ :=
  if drand R k ≤ 0 then none
  else if -2 * Real.log (drand R k) < 0 then none
  else some (Real.sqrt (-2 * Real.log (drand R k)) * Real.cos (2 * Real.pi * drand R k'))

/-- `random_general_gaussian` (`/repo/src/initialization.c` 63-65). -/
noncomputable def gaussian (R k k' : Nat) (mean std : ℝ) : Option ℝ := (randomNormal R k k').map fun z => mean + std * z

/-- `random_general_gaussian_xavier_init` (`/repo/src/initialization.c` 69-71). -/
noncomputable def xavier (R k k' : Nat) (n : ℝ) : Option ℝ := gaussian R k k' 0 (Real.sqrt (1 / n))

/-- `random_general_gaussian_xavier_init2` (`/repo/src/initialization.c` 74-76). -/
noncomputable def xavier2 (R k k' : Nat) (n m : ℝ) : Option ℝ := gaussian R k k' 0 (Real.sqrt (2 / (n + m)))

/-- `random_general_gaussian_kaiming_init` (`/repo/src/initialization.c` 79-81). -/
noncomputable def kaiming (R k k' : Nat) (n : ℝ) : Option ℝ := gaussian R k k' 0 (Real.sqrt (2 / n))

/-- `random_beta` (`/repo/src/initialization.c` 32-40). `none`: zero divided by zero. -/
noncomputable def randomBeta (R k k' : Nat) (alpha beta : ℝ) : Option ℝ :=
  let x := r2 R k ^ (1 / alpha)
  let y := r2 R k' ^ (1 / beta)
  if x + y = 0 then none else some (x / (x + y))

/-- `signed_kaiming_constant` (`/repo/src/initialization.c` 84-86). -/
noncomputable def kaimingConstant (R k k' : Nat) (n : ℝ) : ℝ := signedR2 R k k' (Real.sqrt (2 / n))

/-! ### Proofs -/

theorem r2_range (R k : Nat) (hk : k ≤ R) : 0 ≤ r2 R k ∧ r2 R k ≤ 1 := by
  unfold r2
  constructor
  · positivity
  · apply div_le_one_of_le₀
    · exact_mod_cast hk
    · positivity

/-- **C115 (ranges).** `r2` lies in [0,1], `signed_r2(n)` in [-n,n], the uniform number in [lo,hi], and the Kaiming constant within `sqrt(2/n)` of zero;
all the end points are reached. -/
theorem C115_ranges (R : Nat) (hR : 0 < R) :
    (∀ k, k ≤ R → 0 ≤ r2 R k ∧ r2 R k ≤ 1) ∧ r2 R 0 = 0 ∧ r2 R R = 1 ∧
    (∀ k k' n, k ≤ R → k' ≤ R → 0 ≤ n → |signedR2 R k k' n| ≤ n) ∧
    (∀ n, signedR2 R 0 R n = -n ∧ signedR2 R R R n = n) ∧
    (∀ k lo hi, k ≤ R → lo < hi → lo ≤ generate R k lo hi ∧ generate R k lo hi ≤ hi) ∧
    (∀ lo hi, lo < hi → generate R 0 lo hi = lo ∧ generate R R lo hi = hi) ∧
    ∀ k k' n, k ≤ R → k' ≤ R → |kaimingConstant R k k' n| ≤ Real.sqrt (2 / n) := by
  have hR' : (R : ℝ) ≠ 0 := by exact_mod_cast hR.ne'
  have hRp : (0 : ℝ) < R := by exact_mod_cast hR
  have h0 : r2 R 0 = 0 := by simp [r2]
  have h1 : r2 R R = 1 := by simp [r2, hR']
  have hs : ∀ k k' n, k ≤ R → k' ≤ R → 0 ≤ n → |signedR2 R k k' n| ≤ n := by
    intro k k' n _ hk' hn
    obtain ⟨a, b⟩ := r2_range R k' hk'
    unfold signedR2
    rw [abs_le]
    split_ifs
    · constructor <;> nlinarith
    · constructor <;> nlinarith
  have hgen : ∀ (k : Nat) (lo hi : ℝ), lo < hi → generate R k lo hi = lo + r2 R k * (hi - lo) := by
    intro k lo hi h
    have : hi - lo ≠ 0 := by linarith
    unfold generate r2
    field_simp
  refine ⟨r2_range R, h0, h1, hs, ?_, ?_, ?_, ?_⟩
  · intro n
    unfold signedR2
    rw [h0, h1]
    norm_num
  · intro k lo hi hk h
    obtain ⟨a, b⟩ := r2_range R k hk
    rw [hgen k lo hi h]
    constructor <;> nlinarith
  · intro lo hi h
    rw [hgen _ lo hi h, hgen _ lo hi h, h0, h1]
    constructor <;> ring
  · intro k k' n hk hk'
    exact hs k k' _ hk hk' (Real.sqrt_nonneg _)

example : generate 4 1 2 6 = 3 := by unfold generate; norm_num

/-- **C115 (normal numbers).** For every pair of values of `rand()` the normal number is defined and its size is at most `sqrt (2 log (RAND_MAX + 1))`, so a
Gaussian initial value never leaves `mean ± std * sqrt (2 log (RAND_MAX + 1))`. -/
theorem C115_normal (R k k' : Nat) (hk : k ≤ R) (mean std : ℝ) (hstd : 0 ≤ std) :
    ∃ z, gaussian R k k' mean std = some z ∧ |z - mean| ≤ std * Real.sqrt (2 * Real.log (R + 1)) := by
  have hRp : (0 : ℝ) < R + 1 := by positivity
  have hkp : (0 : ℝ) < k + 1 := by positivity
  have hk' : (k : ℝ) + 1 ≤ R + 1 := by exact_mod_cast Nat.add_le_add_right hk 1
  have hd : 0 < drand R k := div_pos hkp hRp
  have hd1 : drand R k ≤ 1 := div_le_one_of_le₀ hk' hRp.le
  have hlog : Real.log (drand R k) ≤ 0 := Real.log_nonpos hd.le hd1
  have hlog2 : -Real.log (drand R k) ≤ Real.log (R + 1) := by
    rw [drand, Real.log_div hkp.ne' hRp.ne']
    have : 0 ≤ Real.log ((k : ℝ) + 1) := Real.log_nonneg (by linarith [Nat.cast_nonneg (α := ℝ) k])
    linarith
  refine ⟨mean + std * (Real.sqrt (-2 * Real.log (drand R k)) * Real.cos (2 * Real.pi * drand R k')), ?_, ?_⟩
  · rw [gaussian, randomNormal, if_neg (by linarith), if_neg (by linarith)]
    rfl
  · rw [add_sub_cancel_left, abs_mul, abs_of_nonneg hstd, abs_mul, abs_of_nonneg (Real.sqrt_nonneg _)]
    apply mul_le_mul_of_nonneg_left _ hstd
    calc Real.sqrt (-2 * Real.log (drand R k)) * |Real.cos (2 * Real.pi * drand R k')|
        ≤ Real.sqrt (-2 * Real.log (drand R k)) * 1 := mul_le_mul_of_nonneg_left (Real.abs_cos_le_one _) (Real.sqrt_nonneg _)
      _ = Real.sqrt (-2 * Real.log (drand R k)) := mul_one _
      _ ≤ Real.sqrt (2 * Real.log (R + 1)) := Real.sqrt_le_sqrt (by linarith)

/-- **C115 (layer initialisers).** Every value the three layer initialisers give is defined, and with `n` inputs its square is at most
`2 log (RAND_MAX + 1)` times the variance: `1/n`, `2/(n+m)` and `2/n`. -/
theorem C115_layers (R k k' : Nat) (hk : k ≤ R) (n m : ℝ) (hn : 0 < n) (hm : 0 < m) :
    (∃ z, xavier R k k' n = some z ∧ z ^ 2 ≤ 2 * Real.log (R + 1) * (1 / n)) ∧
    (∃ z, xavier2 R k k' n m = some z ∧ z ^ 2 ≤ 2 * Real.log (R + 1) * (2 / (n + m))) ∧
    ∃ z, kaiming R k k' n = some z ∧ z ^ 2 ≤ 2 * Real.log (R + 1) * (2 / n) := by
  have key : ∀ v : ℝ, 0 ≤ v → ∃ z, gaussian R k k' 0 (Real.sqrt v) = some z ∧ z ^ 2 ≤ 2 * Real.log (R + 1) * v := by
    intro v hv
    obtain ⟨z, e, hz⟩ := C115_normal R k k' hk 0 (Real.sqrt v) (Real.sqrt_nonneg v)
    refine ⟨z, e, ?_⟩
    rw [sub_zero] at hz
    have hlog : 0 ≤ 2 * Real.log ((R : ℝ) + 1) := by
      have := Real.log_nonneg (x := (R : ℝ) + 1) (by linarith [Nat.cast_nonneg (α := ℝ) R])
      linarith
    calc z ^ 2 = |z| ^ 2 := (sq_abs z).symm
      _ ≤ (Real.sqrt v * Real.sqrt (2 * Real.log (R + 1))) ^ 2 := pow_le_pow_left₀ (abs_nonneg z) hz 2
      _ = 2 * Real.log (R + 1) * v := by rw [mul_pow, Real.sq_sqrt hv, Real.sq_sqrt hlog, mul_comm]
  exact ⟨key _ (by positivity), key _ (by positivity), key _ (by positivity)⟩

example : ∃ z, kaiming 32767 5 9 3 = some z ∧ z ^ 2 ≤ 2 * Real.log ((32767 : Nat) + 1) * (2 / 3) :=
  (C115_layers 32767 5 9 (by omega) 3 4 (by norm_num) (by norm_num)).2.2

/-- **C115 (beta numbers, partial).** If not both values of `rand()` are zero, the number is defined and lies in [0,1]. Missing: both zero
(`C115_beta_refuted`). -/
theorem C115_beta_partial (R k k' : Nat) (hR : 0 < R) (alpha beta : ℝ) (h : 0 < k ∨ 0 < k') :
    ∃ z, randomBeta R k k' alpha beta = some z ∧ 0 ≤ z ∧ z ≤ 1 := by
  have hRp : (0 : ℝ) < R := by exact_mod_cast hR
  have hn : ∀ j : Nat, 0 ≤ r2 R j := fun j => by unfold r2; positivity
  have hx : 0 ≤ r2 R k ^ (1 / alpha) := Real.rpow_nonneg (hn k) _
  have hy : 0 ≤ r2 R k' ^ (1 / beta) := Real.rpow_nonneg (hn k') _
  have hpos : 0 < r2 R k ^ (1 / alpha) + r2 R k' ^ (1 / beta) := by
    rcases h with h | h
    · have : 0 < r2 R k := by unfold r2; have : (0 : ℝ) < k := by exact_mod_cast h
                              positivity
      have := Real.rpow_pos_of_pos this (1 / alpha)
      linarith
    · have : 0 < r2 R k' := by unfold r2; have : (0 : ℝ) < k' := by exact_mod_cast h
                               positivity
      have := Real.rpow_pos_of_pos this (1 / beta)
      linarith
  refine ⟨_, by rw [randomBeta, if_neg hpos.ne'], div_nonneg hx hpos.le, ?_⟩
  apply div_le_one_of_le₀ _ hpos.le
  linarith

example : ∃ z, randomBeta 32767 0 3 2 5 = some z ∧ 0 ≤ z ∧ z ≤ 1 := C115_beta_partial 32767 0 3 (by omega) 2 5 (Or.inr (by omega))

/-- **C115 (beta numbers, refuted).** With both values zero it is zero divided by zero, for instance for the parameters 2 and 5 used by
`update_gsa_nodes` (`/repo/src/aco_process.c` 1002). -/
theorem C115_beta_refuted (R : Nat) : randomBeta R 0 0 2 5 = none := by
  rw [randomBeta, if_pos]
  simp only [r2, Nat.cast_zero, zero_div]
  rw [Real.zero_rpow (by norm_num), Real.zero_rpow (by norm_num), add_zero]

/-! ### The positional encoding -/

/-- `sin_cos_positional_encoding_vector` (`/repo/src/positional_encoding.c` 40-56): row `i` is a position. `none`: an odd dimension ends the program. -/
noncomputable def encoding (d len : Nat) : Option (Arr ℝ) :=
  if d % 2 = 1 then none
  else loop len (fun i (a : Arr ℝ) => loop (d / 2) (fun j (a : Arr ℝ) =>
    (a.write (i * d + 2 * j) (Real.sin (i / ((10000 : ℝ) ^ (2 * (2 * j)) / d)))).bind fun a =>
      a.write (i * d + 2 * j + 1) (Real.cos (i / ((10000 : ℝ) ^ (2 * (2 * j + 1)) / d)))) a) ⟨len * d, fun _ => 0⟩

/-- The encoding of the paper: position `i`, pair `j`. -/
noncomputable def paper (d i j : Nat) : ℝ × ℝ :=
  (Real.sin (i / (10000 : ℝ) ^ ((2 * j : ℝ) / d)), Real.cos (i / (10000 : ℝ) ^ ((2 * j : ℝ) / d)))

/-- The value of one cell. -/
noncomputable def cell (d i c : Nat) : ℝ :=
  if c % 2 = 0 then Real.sin (i / ((10000 : ℝ) ^ (2 * c) / d)) else Real.cos (i / ((10000 : ℝ) ^ (2 * c) / d))

theorem row_run (d i : Nat) (hd : d % 2 = 0) (a : Arr ℝ) (ha : (i + 1) * d ≤ a.len) :
    ∃ b, loop (d / 2) (fun j (a : Arr ℝ) =>
      (a.write (i * d + 2 * j) (Real.sin (i / ((10000 : ℝ) ^ (2 * (2 * j)) / d)))).bind fun a =>
        a.write (i * d + 2 * j + 1) (Real.cos (i / ((10000 : ℝ) ^ (2 * (2 * j + 1)) / d)))) a = some b ∧ b.len = a.len ∧
      (∀ p, p < i * d → b.get p = a.get p) ∧ ∀ c, c < d → b.get (i * d + c) = cell d i c := by
  have hrow : (i + 1) * d = i * d + d := Nat.succ_mul i d
  have key : ∀ m, m ≤ d / 2 → ∃ b, loop m (fun j (a : Arr ℝ) =>
      (a.write (i * d + 2 * j) (Real.sin (i / ((10000 : ℝ) ^ (2 * (2 * j)) / d)))).bind fun a =>
        a.write (i * d + 2 * j + 1) (Real.cos (i / ((10000 : ℝ) ^ (2 * (2 * j + 1)) / d)))) a = some b ∧ b.len = a.len ∧
      (∀ p, p < i * d → b.get p = a.get p) ∧ ∀ c, c < 2 * m → b.get (i * d + c) = cell d i c := by
    intro m
    induction m with
    | zero => intro _; exact ⟨a, rfl, rfl, fun _ _ => rfl, by intro c hc; omega⟩
    | succ m ih =>
      intro hm
      obtain ⟨b, e, hl, h1, h2⟩ := ih (by omega)
      refine ⟨⟨b.len, Function.update (Function.update b.get (i * d + 2 * m) (Real.sin (i / ((10000 : ℝ) ^ (2 * (2 * m)) / d))))
        (i * d + 2 * m + 1) (Real.cos (i / ((10000 : ℝ) ^ (2 * (2 * m + 1)) / d)))⟩, ?_, hl, ?_, ?_⟩
      · simp only [loop, Option.bind_eq_bind]
        rw [e, Option.bind_some, Arr.write_eq _ (by omega), Option.bind_some, Arr.write_eq _ (by dsimp only; omega)]
      · intro p hp
        dsimp only
        rw [Function.update_of_ne (by omega), Function.update_of_ne (by omega)]
        exact h1 p hp
      · intro c hc
        dsimp only
        by_cases c1 : c = 2 * m + 1
        · subst c1
          rw [show i * d + (2 * m + 1) = i * d + 2 * m + 1 by omega, Function.update_self, cell, if_neg (by omega)]
        · rw [Function.update_of_ne (by omega)]
          by_cases c2 : c = 2 * m
          · subst c2
            rw [Function.update_self, cell, if_pos (by omega)]
          · rw [Function.update_of_ne (by omega)]
            exact h2 c (by omega)
  obtain ⟨b, e, h1, h2, h3⟩ := key (d / 2) le_rfl
  exact ⟨b, e, h1, h2, fun c hc => h3 c (by omega)⟩

theorem encoding_run (d len : Nat) (hd : d % 2 = 0) :
    ∃ a, encoding d len = some a ∧ a.len = len * d ∧ ∀ i c, i < len → c < d → a.get (i * d + c) = cell d i c := by
  have key : ∀ m, m ≤ len → ∃ a, loop m (fun i (a : Arr ℝ) => loop (d / 2) (fun j (a : Arr ℝ) =>
    (a.write (i * d + 2 * j) (Real.sin (i / ((10000 : ℝ) ^ (2 * (2 * j)) / d)))).bind fun a =>
      a.write (i * d + 2 * j + 1) (Real.cos (i / ((10000 : ℝ) ^ (2 * (2 * j + 1)) / d)))) a) ⟨len * d, fun _ => 0⟩ = some a ∧
      a.len = len * d ∧ ∀ i c, i < m → c < d → a.get (i * d + c) = cell d i c := by
    intro m
    induction m with
    | zero => intro _; exact ⟨_, rfl, rfl, by intro i c hi; omega⟩
    | succ m ih =>
      intro hm
      obtain ⟨a, e, hl, h⟩ := ih (by omega)
      obtain ⟨b, e2, hl2, h1, h2⟩ := row_run d m hd a (by rw [hl]; exact Nat.mul_le_mul_right d hm)
      refine ⟨b, by simp only [loop, Option.bind_eq_bind]; rw [e, Option.bind_some]; exact e2, by rw [hl2, hl], ?_⟩
      intro i c hi hc
      by_cases him : i = m
      · rw [him]; exact h2 c hc
      · have : (i + 1) * d ≤ m * d := Nat.mul_le_mul_right d (by omega)
        rw [Nat.succ_mul] at this
        rw [h1 _ (by omega)]
        exact h i c (by omega) hc
  obtain ⟨a, e, h⟩ := key len le_rfl
  exact ⟨a, by rw [encoding, if_neg (by omega)]; exact e, h⟩

/-- **C114 (partial).** For every even dimension and every length: all cells are written and lie in [-1,1], position 0 is encoded as
0, 1, 0, 1, …, and different positions below `3 * 10 ^ 8 / dimension` get different rows. Missing: the documented formula (`C114_paper_refuted`). -/
theorem C114_encoding_partial (d len : Nat) (hd : d % 2 = 0) :
    ∃ a, encoding d len = some a ∧ a.len = len * d ∧
      (∀ p, p < len * d → -1 ≤ a.get p ∧ a.get p ≤ 1) ∧
      (∀ c, 0 < len → c < d → a.get c = if c % 2 = 0 then 0 else 1) ∧
      ∀ i i', 0 < d → i < i' → i' < len → i' * d ≤ 3 * 10 ^ 8 → ∃ c, c < d ∧ a.get (i * d + c) ≠ a.get (i' * d + c) := by
  obtain ⟨a, e, hl, h⟩ := encoding_run d len hd
  refine ⟨a, e, hl, ?_, ?_, ?_⟩
  · intro p hp
    have hd0 : 0 < d := by
      rcases Nat.eq_zero_or_pos d with h0 | h0
      · rw [h0, Nat.mul_zero] at hp; omega
      · exact h0
    have h1 : p / d < len := (Nat.div_lt_iff_lt_mul hd0).2 hp
    have h2 : p / d * d + p % d = p := by rw [Nat.mul_comm]; exact Nat.div_add_mod p d
    rw [← h2, h _ _ h1 (Nat.mod_lt p hd0), cell]
    split_ifs
    · exact ⟨Real.neg_one_le_sin _, Real.sin_le_one _⟩
    · exact ⟨Real.neg_one_le_cos _, Real.cos_le_one _⟩
  · intro c h0 hc
    have := h 0 c h0 hc
    rw [Nat.zero_mul, Nat.zero_add] at this
    rw [this, cell]
    simp
  · intro i i' hd0 hii hi' hbound
    refine ⟨1, by omega, ?_⟩
    rw [h i 1 (by omega) (by omega), h i' 1 hi' (by omega), cell, cell, if_neg (by omega), if_neg (by omega)]
    have hdp : (0 : ℝ) < d := by exact_mod_cast hd0
    have form : ∀ i : Nat, (i : ℝ) / ((10000 : ℝ) ^ (2 * 1) / d) = (i : ℝ) * d / 10 ^ 8 := by
      intro i
      field_simp
      norm_num
    rw [form i, form i']
    have hb : ((i' : ℝ) * d) ≤ 3 * 10 ^ 8 := by exact_mod_cast hbound
    have hlt : (i : ℝ) * d < i' * d := by
      apply mul_lt_mul_of_pos_right _ hdp
      exact_mod_cast hii
    have hi0 : 0 ≤ (i : ℝ) * d := by positivity
    have hpi := Real.pi_gt_three
    have := Real.cos_lt_cos_of_nonneg_of_le_pi (x := (i : ℝ) * d / 10 ^ 8) (y := (i' : ℝ) * d / 10 ^ 8) (by positivity)
      (by rw [div_le_iff₀ (by positivity)]; nlinarith) (by apply div_lt_div_of_pos_right hlt; positivity)
    exact this.ne'

example : ∃ a, encoding 4 3 = some a ∧ a.get 1 = 1 := by
  obtain ⟨a, e, _, _, h, _⟩ := C114_encoding_partial 4 3 rfl
  exact ⟨a, e, by simpa using h 1 (by omega) (by omega)⟩

/-- **C114 (refuted).** The code does not compute the encoding of the paper it cites: with dimension 2, position 1 has a different cosine. -/
theorem C114_paper_refuted : ∃ a, encoding 2 2 = some a ∧ a.get 3 ≠ (paper 2 1 0).2 := by
  obtain ⟨a, e, _, h⟩ := encoding_run 2 2 rfl
  refine ⟨a, e, ?_⟩
  have := h 1 1 (by omega) (by omega)
  rw [show 1 * 2 + 1 = 3 from rfl] at this
  rw [this, cell, if_neg (by omega), paper]
  dsimp only
  have e1 : ((1 : Nat) : ℝ) / ((10000 : ℝ) ^ (2 * 1) / ((2 : Nat) : ℝ)) = 2 / 10 ^ 8 := by norm_num
  have e2 : ((1 : Nat) : ℝ) / (10000 : ℝ) ^ ((2 * ((0 : Nat) : ℝ)) / ((2 : Nat) : ℝ)) = 1 := by simp
  rw [e1, e2]
  have hpi := Real.pi_gt_three
  exact (Real.cos_lt_cos_of_nonneg_of_le_pi (x := 2 / 10 ^ 8) (y := 1) (by positivity) (by linarith) (by norm_num)).ne'

end LLab.Random
