import Verif.Aco.Firefly
import Mathlib.Analysis.SpecialFunctions.Trigonometric.Basic

/-!
The whale step of the ant colony search (`update_woa_nodes`, `/repo/src/aco_process.c` 811-881). Property C166.

The candidates of one weight, as in `Verif.Aco.Firefly`. `best` is `best_global_params->single_p`, the value the candidates of a weight have found best so far,
which the step does not change. The draws of `r2` are parameters. `pw` is `pow(·, 1.0 / softmax_temperature)`, `ex` is `exp`,
`turn v` is `cos(2 * PI * v)`.
-/

namespace LLab.Aco.Woa

open LLab.Sort LLab.Aco.Fa

variable {F : Type} [Field F] [LinearOrder F]

/-- The parameters of the step. -/
structure Rule (F : Type) where
  /-- `alpha_woa` -/
  alpha : F
  /-- `weight_woa` -/
  weight : F
  /-- `beta_woa` -/
  beta : F
  pw : F → F
  ex : F → F
  turn : F → F
  toInt : F → Int

/-- The draws for one candidate, in the order of the code: those for `a` and `c`, the coin of the branch, the index
`(int)(width * r2())` lowered by one at `width`, the draw of the roulette, the number of turns and the coin of its sign. -/
structure Draw (F : Type) where
  ra : F
  rc : F
  coin : F
  index : Nat
  ran : F
  rv : F
  rs : F

/-- `float_abs` (`/repo/src/math_functions.c` 1106-1108). -/
def fabs (x : F) : F := if x > 0 then x else -x

/-- `a` (`/repo/src/aco_process.c` 839). -/
def Draw.a (R : Rule F) (d : Draw F) : F := R.alpha * 2 * d.ra - R.alpha

/-- `value` (`/repo/src/aco_process.c` 871-873). -/
def Draw.value (d : Draw F) : F := if d.rs < 1 / 2 then d.rv * (-1) else d.rv

/-- The body of the loop over `k` (`/repo/src/aco_process.c` 838-876); `chosen` is the outcome of the roulette. -/
def step (R : Rule F) (best : F) (d : Draw F) (chosen : Option Nat) (l : List (Particle F)) (k : Nat) : Option (List (Particle F)) :=
  (l[k]?).bind fun p =>
    if best ≠ p.x then
      if d.coin < 1 / 2 then
        if fabs (d.a R) < 1 then
          some (l.set k { p with x := best - R.weight * d.a R * fabs (2 * d.rc * best - p.x) })
        else (l[chosen.getD d.index]?).bind fun q =>
          some (l.set k { p with x := q.x - R.weight * d.a R * fabs (2 * d.rc * q.x - p.x) })
      else
        some (l.set k { p with x := R.weight * fabs (best - p.x) * R.ex (R.beta * d.value) * R.turn d.value + best })
    else some l

/-- The roulette (`/repo/src/aco_process.c` 855-862). The shares `vs` are `none` if they are `NaN`: then no comparison succeeds. -/
def roulette (vs : Option (List F)) (bright : List Nat) (ran : F) : Option (Option Nat) :=
  match vs with
  | some vs => pick vs bright ran
  | none => some none

/-- The loop over `k`, the first `k` rounds. The roulette is run in every round here; its outcome matters in one branch only. -/
def rounds (R : Rule F) (best : F) (d : Nat → Draw F) (bright : List Nat) (vs : Option (List F)) : Nat → List (Particle F) → Option (List (Particle F))
  | 0, l => some l
  | k + 1, l => (rounds R best d bright vs k l).bind fun l =>
    (roulette vs bright (d k).ran).bind fun t => step R best (d k) t l k

/-- `update_woa_nodes` (`/repo/src/aco_process.c` 811-881) for the candidates of one weight. -/
def group (R : Rule F) (c : Nat) (best : F) (d : Nat → Draw F) (l : List (Particle F)) : Option (List (Particle F)) :=
  (sortC R.toInt (l.map (·.scent)) (List.range l.length) 0 ((l.length : Int) - 1)).bind fun order =>
    (powers R.pw (order.drop c) (l.map (·.scent)) 0).bind fun p =>
      if p.2 = 0 then rounds R best d (order.drop c) none l.length l
      else (divide p.2 (order.drop c) p.1).bind fun vs => rounds R best d (order.drop c) (some vs) l.length l

/-! ### Specification -/

/-- Where candidate `p` may end: it encircles the best value, or spirals around it, or is drawn to a value `y`. -/
inductive Moved (R : Rule F) (best : F) (d : Draw F) (p : Particle F) (explore : F → Prop) : Particle F → Prop
  | stay : p.x = best → Moved R best d p explore p
  | encircle : p.x ≠ best → d.coin < 1 / 2 → |d.a R| < 1 → Moved R best d p explore { p with x := best - R.weight * d.a R * |2 * d.rc * best - p.x| }
  | search (y : F) : p.x ≠ best → d.coin < 1 / 2 → 1 ≤ |d.a R| → explore y → Moved R best d p explore { p with x := y - R.weight * d.a R * |2 * d.rc * y - p.x| }
  | spiral : p.x ≠ best → 1 / 2 ≤ d.coin → Moved R best d p explore { p with x := best + R.weight * |best - p.x| * R.ex (R.beta * d.value) * R.turn d.value }

variable [IsStrictOrderedRing F]

theorem fabs_eq (x : F) : fabs x = |x| := by
  rw [fabs]
  by_cases h : x > 0
  · rw [if_pos h, abs_of_pos h]
  · rw [if_neg h, abs_of_nonpos (not_lt.1 h)]

theorem step_spec (R : Rule F) (best : F) (d : Draw F) (t : Option Nat) (l : List (Particle F)) (k : Nat) (p : Particle F) (hp : l[k]? = some p)
    (hd : d.index < l.length) (ht : ∀ m, t = some m → m < l.length) :
    ∃ p', step R best d t l k = some (l.set k p') ∧ Moved R best d p (fun y => ∃ q, l[t.getD d.index]? = some q ∧ q.x = y) p' := by
  have hk : k < l.length := (List.getElem?_eq_some_iff.1 hp).1
  have hself : l.set k p = l := by
    have : l[k] = p := (List.getElem?_eq_some_iff.1 hp).2
    rw [← this, List.set_getElem_self]
  rw [step, hp, Option.bind_some]
  by_cases hb : best = p.x
  · exact ⟨p, (if_neg (not_not.2 hb)).trans (by rw [hself]), .stay hb.symm⟩
  · rw [if_pos hb]
    by_cases hc : d.coin < 1 / 2
    · rw [if_pos hc]
      by_cases ha : fabs (d.a R) < 1
      · rw [if_pos ha]
        refine ⟨_, rfl, ?_⟩
        rw [fabs_eq] at ha
        rw [fabs_eq]
        exact .encircle (Ne.symm hb) hc ha
      · rw [if_neg ha]
        have hlt : t.getD d.index < l.length := by
          cases t with
          | none => exact hd
          | some m => exact ht m rfl
        have hq : l[t.getD d.index]? = some l[t.getD d.index] := List.getElem?_eq_getElem hlt
        rw [hq, Option.bind_some]
        refine ⟨_, rfl, ?_⟩
        rw [fabs_eq] at ha
        rw [fabs_eq]
        exact .search _ (Ne.symm hb) hc (not_lt.1 ha) ⟨_, rfl, rfl⟩
    · rw [if_neg hc]
      refine ⟨_, rfl, ?_⟩
      rw [fabs_eq, add_comm]
      exact .spiral (Ne.symm hb) (not_lt.1 hc)

/-- The value of number `m` when it is the turn of `k`: the new one before `k`, the old one from `k` on. -/
def valueAt (l l' : List (Particle F)) (k m : Nat) : Option F := if m < k then (l'[m]?).map (·.x) else (l[m]?).map (·.x)

/-- What the roulette over the candidates `bright` gives for the draw `u`: nothing if they do not glow at all or if the draw is above all shares, else
the first at which the shares add up to the draw. -/
def Chosen (pw : F → F) (l : List (Particle F)) (bright : List Nat) (u : F) (t : Option Nat) : Prop :=
  ((bright.map (glow pw l)).sum = 0 ∧ t = none) ∨
  ((bright.map (glow pw l)).sum ≠ 0 ∧ ((t = none ∧ ∀ j < bright.length, upTo pw l bright (j + 1) < u) ∨
    ∃ j m, t = some m ∧ bright[j]? = some m ∧ (∀ i < j, upTo pw l bright (i + 1) < u) ∧ u ≤ upTo pw l bright (j + 1)))

omit [IsStrictOrderedRing F] in
theorem Chosen.mem {pw : F → F} {l : List (Particle F)} {bright : List Nat} {u : F} {t : Option Nat} (h : Chosen pw l bright u t) (m : Nat) (hm : t = some m) : m ∈ bright := by
  rcases h with ⟨-, h⟩ | ⟨-, ⟨h, -⟩ | ⟨j, m', h, hj, -⟩⟩
  · rw [h] at hm; cases hm
  · rw [h] at hm; cases hm
  · rw [h] at hm; cases hm; exact List.mem_of_getElem? hj

theorem roulette_spec (pw : F → F) (l : List (Particle F)) (bright : List Nat) (vs : Option (List F)) (u : F)
    (h0 : vs = none → (bright.map (glow pw l)).sum = 0)
    (hv : ∀ v, vs = some v → (bright.map (glow pw l)).sum ≠ 0 ∧ ∀ n ∈ bright, v[n]? = some (glow pw l n / (bright.map (glow pw l)).sum)) :
    ∃ t, roulette vs bright u = some t ∧ Chosen pw l bright u t := by
  cases vs with
  | none => exact ⟨none, rfl, Or.inl ⟨h0 rfl, rfl⟩⟩
  | some v =>
    obtain ⟨hS, hv⟩ := hv v rfl
    have spec := pick_spec v (fun n => glow pw l n / (bright.map (glow pw l)).sum) bright u hv
    simp only [sum_div] at spec
    rcases spec with ⟨e, h1⟩ | ⟨j, m, e, hj, h1, h2⟩
    · exact ⟨none, e, Or.inr ⟨hS, Or.inl ⟨rfl, h1⟩⟩⟩
    · exact ⟨some m, e, Or.inr ⟨hS, Or.inr ⟨j, m, rfl, hj, h1, h2⟩⟩⟩

theorem rounds_spec (R : Rule F) (best : F) (d : Nat → Draw F) (bright : List Nat) (vs : Option (List F)) (l : List (Particle F))
    (hd : ∀ k, (d k).index < l.length) (hin : ∀ n ∈ bright, n < l.length)
    (h0 : vs = none → (bright.map (glow R.pw l)).sum = 0)
    (hv : ∀ v, vs = some v → (bright.map (glow R.pw l)).sum ≠ 0 ∧ ∀ n ∈ bright, v[n]? = some (glow R.pw l n / (bright.map (glow R.pw l)).sum)) :
    ∀ k ≤ l.length, ∃ l', rounds R best d bright vs k l = some l' ∧ l'.length = l.length ∧ (∀ n, k ≤ n → l'[n]? = l[n]?) ∧
      ∀ n < k, ∀ p, l[n]? = some p → ∃ p' t, l'[n]? = some p' ∧ Chosen R.pw l bright (d n).ran t ∧
        Moved R best (d n) p (fun y => valueAt l l' n (t.getD (d n).index) = some y) p' := by
  intro k
  induction k with
  | zero => exact fun _ => ⟨l, rfl, rfl, fun _ _ => rfl, fun n hn => absurd hn (by omega)⟩
  | succ k ih =>
    intro hk
    obtain ⟨l1, e1, hl1, hout, hin1⟩ := ih (by omega)
    obtain ⟨t, et, ht⟩ := roulette_spec R.pw l bright vs (d k).ran h0 hv
    have hp1 : l1[k]? = some l[k] := (hout k (le_refl _)).trans (List.getElem?_eq_getElem (by omega))
    obtain ⟨p', es, hm⟩ := step_spec R best (d k) t l1 k l[k] hp1 (by rw [hl1]; exact hd k) (fun m hm => by rw [hl1]; exact hin m (ht.mem m hm))
    refine ⟨l1.set k p', ?_, by rw [List.length_set, hl1], ?_, ?_⟩
    · rw [rounds, e1, Option.bind_some]
      rw [et, Option.bind_some, es]
    · intro n hn
      rw [List.getElem?_set_ne (by omega), hout n (by omega)]
    · have hval : ∀ n ≤ k, ∀ m, valueAt l (l1.set k p') n m = valueAt l l1 n m := by
        intro n hn m
        rw [valueAt, valueAt]
        by_cases hmn : m < n
        · rw [if_pos hmn, if_pos hmn, List.getElem?_set_ne (by omega)]
        · rw [if_neg hmn, if_neg hmn]
      intro n hn p hp
      by_cases hnk : n = k
      · subst hnk
        rw [List.getElem?_eq_getElem (by omega)] at hp
        cases hp
        refine ⟨p', t, List.getElem?_set_self (by omega), ht, ?_⟩
        have hval' : ∀ m, valueAt l (l1.set n p') n m = (l1[m]?).map (·.x) := by
          intro m
          rw [hval n (le_refl _), valueAt]
          by_cases hmn : m < n
          · rw [if_pos hmn]
          · rw [if_neg hmn, hout m (by omega)]
        have hiff : (fun y => valueAt l (l1.set n p') n (t.getD (d n).index) = some y) = fun y => ∃ q, l1[t.getD (d n).index]? = some q ∧ q.x = y := by
          funext y
          rw [hval', Option.map_eq_some_iff]
        rw [hiff]
        exact hm
      · obtain ⟨p'', t', h1, h2, h3⟩ := hin1 n (by omega) p hp
        refine ⟨p'', t', ?_, h2, ?_⟩
        · rw [List.getElem?_set_ne (by omega)]
          exact h1
        · have hiff : (fun y => valueAt l (l1.set k p') n (t'.getD (d n).index) = some y) = fun y => valueAt l l1 n (t'.getD (d n).index) = some y := by
            funext y
            rw [hval n (by omega)]
          rw [hiff]
          exact h3

/-! ### Theorems -/

/-- **C166 (the step).** For any candidates, draws and parameters the step runs without undefined behaviour and keeps everything but
the values. A candidate at the best value stays. Any other encircles the best value, spirals around it, or, if `|a|` is at least
one, is drawn to the value another candidate has at that time: one chosen by the roulette among those ranked past the share, or the
drawn index. -/
theorem C166_step (R : Rule F) (c : Nat) (best : F) (d : Nat → Draw F) (l : List (Particle F)) (hd : ∀ k, (d k).index < l.length) :
    ∃ order l', sortC R.toInt (l.map (·.scent)) (List.range l.length) 0 ((l.length : Int) - 1) = some order ∧ order.Perm (List.range l.length) ∧
      group R c best d l = some l' ∧ l'.length = l.length ∧
      ∀ (n : Nat) (p : Particle F), l[n]? = some p → ∃ p' t, l'[n]? = some p' ∧ Chosen R.pw l (order.drop c) (d n).ran t ∧
        Moved R best (d n) p (fun y => valueAt l l' n (t.getD (d n).index) = some y) p' := by
  obtain ⟨order, eo, hp, _⟩ := C02_sort_partial R.toInt (l.map (·.scent)) (List.range l.length) 0 ((l.length : Int) - 1) (by omega)
    (by rw [List.length_map]; omega) (by rw [List.length_range]; omega)
  have nd : order.Nodup := hp.nodup_iff.2 List.nodup_range
  have hin' : ∀ n ∈ order.drop c, n < l.length := fun n hn => List.mem_range.1 (hp.mem_iff.1 (List.mem_of_mem_drop hn))
  have ndd : (order.drop c).Nodup := (List.drop_sublist c order).nodup nd
  obtain ⟨vs1, e1, hl1, h1, -⟩ := powers_spec R.pw (fun n => ((l.map (·.scent))[n]?).getD 0) (order.drop c) (l.map (·.scent)) 0 ndd (by
    intro n hn
    have hlt : n < (l.map (·.scent)).length := by rw [List.length_map]; exact hin' n hn
    rw [List.getElem?_eq_getElem hlt, Option.getD_some])
  have hg : ∀ n ∈ order.drop c, R.pw (((l.map (·.scent))[n]?).getD 0) = glow R.pw l n := by
    intro n hn
    have hlt := hin' n hn
    have : l[n]? = some l[n] := List.getElem?_eq_getElem hlt
    rw [List.getElem?_map, this, glow, this]
    rfl
  rw [List.map_congr_left hg, zero_add] at e1
  by_cases hS : ((order.drop c).map (glow R.pw l)).sum = 0
  · obtain ⟨l', e, hl, -, h⟩ := rounds_spec R best d (order.drop c) none l hd hin' (fun _ => hS) (fun v hv => by cases hv) l.length (le_refl _)
    refine ⟨order, l', eo, hp, ?_, hl, fun n p hp => h n (List.getElem?_eq_some_iff.1 hp).1 p hp⟩
    rw [group, eo, Option.bind_some, e1, Option.bind_some]
    exact (if_pos hS).trans e
  · obtain ⟨vs, e2, h2, -⟩ := divide_spec ((order.drop c).map (glow R.pw l)).sum (glow R.pw l) (order.drop c) vs1 ndd (fun n hn => by rw [h1 n hn, hg n hn])
    obtain ⟨l', e, hl, -, h⟩ := rounds_spec R best d (order.drop c) (some vs) l hd hin' (fun hv => by cases hv) (fun v hv => by
      cases hv
      exact ⟨hS, h2⟩) l.length (le_refl _)
    refine ⟨order, l', eo, hp, ?_, hl, fun n p hp => h n (List.getElem?_eq_some_iff.1 hp).1 p hp⟩
    rw [group, eo, Option.bind_some, e1, Option.bind_some]
    refine (if_neg hS).trans ?_
    rw [e2, Option.bind_some, e]

/-- **C166 (late steps exploit).** `a` lies between `-alpha` and `alpha` for draws in [0,1]: once `alpha_woa` is below one, no candidate searches
any more. -/
theorem C166_exploit (R : Rule F) (best : F) (d : Draw F) (p p' : Particle F) (E : F → Prop) (h0 : 0 ≤ d.ra) (h1 : d.ra ≤ 1) (ha : 0 ≤ R.alpha)
    (hm : Moved R best d p E p') : |d.a R| ≤ R.alpha ∧ (R.alpha < 1 → Moved R best d p (fun _ => False) p') := by
  have hb : |d.a R| ≤ R.alpha := by
    rw [Draw.a, abs_le]
    constructor <;> nlinarith
  refine ⟨hb, fun hlt => ?_⟩
  cases hm with
  | stay h => exact .stay h
  | encircle h1 h2 h3 => exact .encircle h1 h2 h3
  | search y h1 h2 h3 h4 => exact absurd (lt_of_le_of_lt (h3.trans hb) hlt) (lt_irrefl _)
  | spiral h1 h2 => exact .spiral h1 h2

/-- **C166 (how far from the best).** A candidate that encircles ends within `weight * alpha` of the distance between itself and the scaled best value;
one that spirals ends within `weight * e^|beta|` of its distance from the best value. -/
theorem C166_distance (R : Rule ℝ) (hex : R.ex = Real.exp) (htu : ∀ v, R.turn v = Real.cos (2 * Real.pi * v)) (hw : 0 ≤ R.weight) (best : ℝ) (d : Draw ℝ)
    (h0 : 0 ≤ d.ra) (h1 : d.ra ≤ 1) (ha : 0 ≤ R.alpha) (g0 : 0 ≤ d.rv) (g1 : d.rv ≤ 1) (p p' : Particle ℝ) (hm : Moved R best d p (fun _ => False) p') :
    p' = p ∨ |p'.x - best| ≤ R.weight * R.alpha * |2 * d.rc * best - p.x| ∨ |p'.x - best| ≤ R.weight * |best - p.x| * Real.exp |R.beta| := by
  have hb := (C166_exploit R best d p p' _ h0 h1 ha hm).1
  cases hm with
  | stay h => exact Or.inl rfl
  | encircle k1 k2 k3 =>
    refine Or.inr (Or.inl ?_)
    have e : best - R.weight * d.a R * |2 * d.rc * best - p.x| - best = -(R.weight * d.a R * |2 * d.rc * best - p.x|) := by ring
    show |best - R.weight * d.a R * |2 * d.rc * best - p.x| - best| ≤ _
    rw [e, abs_neg, abs_mul, abs_mul, abs_abs, abs_of_nonneg hw]
    exact mul_le_mul_of_nonneg_right (mul_le_mul_of_nonneg_left hb hw) (abs_nonneg _)
  | search y k1 k2 k3 k4 => exact absurd k4 (by simp)
  | spiral k1 k2 =>
    refine Or.inr (Or.inr ?_)
    have e : best + R.weight * |best - p.x| * R.ex (R.beta * d.value) * R.turn d.value - best = R.weight * |best - p.x| * R.ex (R.beta * d.value) * R.turn d.value := by ring
    show |best + R.weight * |best - p.x| * R.ex (R.beta * d.value) * R.turn d.value - best| ≤ _
    have hv : |d.value| ≤ 1 := by
      rw [Draw.value]
      by_cases hs : d.rs < 1 / 2
      · rw [if_pos hs, abs_le]; constructor <;> linarith
      · rw [if_neg hs, abs_le]; constructor <;> linarith
    have hexp : Real.exp (R.beta * d.value) ≤ Real.exp |R.beta| := by
      refine Real.exp_le_exp.2 (le_trans (le_abs_self _) ?_)
      rw [abs_mul]
      exact mul_le_of_le_one_right (abs_nonneg _) hv
    have hpos : 0 ≤ R.weight * |best - p.x| := mul_nonneg hw (abs_nonneg _)
    rw [e, hex, htu, abs_mul, abs_mul, abs_of_nonneg hpos, abs_of_pos (Real.exp_pos _)]
    calc R.weight * |best - p.x| * Real.exp (R.beta * d.value) * |Real.cos (2 * Real.pi * d.value)|
        ≤ R.weight * |best - p.x| * Real.exp (R.beta * d.value) * 1 :=
          mul_le_mul_of_nonneg_left (Real.abs_cos_le_one _) (mul_nonneg hpos (Real.exp_pos _).le)
      _ ≤ R.weight * |best - p.x| * Real.exp |R.beta| := by
          rw [mul_one]
          exact mul_le_mul_of_nonneg_left hexp hpos

/-- A plain rule over the rationals. -/
def plain : Rule Rat := ⟨1 / 2, 1, 0, id, fun _ => 1, fun _ => 1, truncRat⟩

/-- Two candidates; the first encircles the best value 6 from 4, the second is there already. -/
example : group plain 1 6 (fun _ => ⟨1, 1 / 2, 0, 0, 0, 0, 0⟩) [⟨4, 0, 0, 1, 0, none⟩, ⟨6, 0, 0, 2, 0, none⟩] = some [⟨5, 0, 0, 1, 0, none⟩, ⟨6, 0, 0, 2, 0, none⟩] := by
  decide +kernel

end LLab.Aco.Woa
