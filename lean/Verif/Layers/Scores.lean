import Verif.Common.Loop
import Mathlib.Order.Lattice
import Mathlib.Tactic.Order

/-!
Comparison of edge-popup scores (`/repo/src/fully_connected_layers.c`
2439-2471), property C56. A score is `none` for NaN and otherwise an element
of a linear order (take the extended reals to include infinities); every
comparison with NaN is false, as in C.
-/

namespace LLab.Scores

variable {α : Type} [LinearOrder α]

/-- `a > b` on scores. -/
def gt (a b : Option α) : Bool :=
  match a, b with
  | some x, some y => decide (y < x)
  | _, _ => false

/-- `bool_is_real(d)` (`/repo/src/utils.c` 528-530): `!(d != d)`. -/
def isReal (a : Option α) : Bool := a.isSome

/-- `d < MAXIMUM_SCORE`. -/
def below (mx : α) (a : Option α) : Bool :=
  match a with
  | some x => decide (x < mx)
  | none => false

/-- The loop shared by the two functions
(`/repo/src/fully_connected_layers.c` 2447-2453 and 2464-2470). -/
def compareLoop (mx : α) (a b : Arr (Option α)) (size : Nat) (out : Arr (Option α)) :
    Option (Arr (Option α)) :=
  loop size (fun i out => do
    let x ← a.read i
    let y ← b.read i
    if gt x y && isReal x && below mx x then out.write i x
    else if isReal y && below mx y then out.write i y
    else some out) out

/-- `compare_score_fcl` (`/repo/src/fully_connected_layers.c` 2439-2454) on
layers that own scores; `s1`, `s2`, `s3` are the products `input*output` of
the three layers. -/
def compareFcl (mx : α) (a b : Arr (Option α)) (s1 s2 s3 : Nat) (out : Arr (Option α)) :
    Option (Arr (Option α)) :=
  if s1 ≠ s2 ∨ s1 ≠ s3 then some out else compareLoop mx a b s1 out

/-- The C value of a comparison. -/
def cbool (b : Bool) : Nat := if b then 1 else 0

/-- `compare_score_fcl_with_vector` (`/repo/src/fully_connected_layers.c`
2456-2471). The guard is written `in_out != in_out != out` and parsed as
`(in_out != in_out) != out`. -/
def compareFclVector (mx : α) (a b : Arr (Option α)) (s1 s3 : Nat) (out : Arr (Option α)) :
    Option (Arr (Option α)) :=
  if cbool (s1 != s1) ≠ s3 then some out else compareLoop mx a b s1 out

/-! ### Specification -/

/-- A usable score: a number below the limit. -/
def Valid (mx : α) (a : Option α) (x : α) : Prop := a = some x ∧ x < mx

/-! ### C56 -/

/-- **C56, `compare_score_fcl` (partial).** The call stays in bounds and at each position
writes the larger score when both are usable, the second one when only the
second is usable, and nothing when neither is. Missing: keeping the first
score when only the first is usable (`C56_only_first_refuted`). -/
theorem C56_compare_partial (mx : α) (a b out : Arr (Option α)) (size : Nat)
    (ha : size ≤ a.len) (hb : size ≤ b.len) (ho : size ≤ out.len) :
    ∃ out', compareFcl mx a b size size size out = some out' ∧ out'.len = out.len ∧
      (∀ i, i < size → ∀ x y, Valid mx (a.get i) x → Valid mx (b.get i) y →
        out'.get i = some (max x y)) ∧
      (∀ i, i < size → (∀ x, ¬ Valid mx (a.get i) x) → ∀ y, Valid mx (b.get i) y →
        out'.get i = some y) ∧
      (∀ i, (∀ x, ¬ Valid mx (a.get i) x) → (∀ y, ¬ Valid mx (b.get i) y) →
        out'.get i = out.get i) ∧
      (∀ i, size ≤ i → out'.get i = out.get i) := by
  simp only [compareFcl, ne_eq, not_true_eq_false, or_self, if_false, compareLoop]
  rw [loop_fill (fun i => if gt (a.get i) (b.get i) && isReal (a.get i) && below mx (a.get i) then a.get i
    else if isReal (b.get i) && below mx (b.get i) then b.get i else out.get i)]
  · refine ⟨_, rfl, rfl, ?_, ?_, ?_, ?_⟩
    · rintro i hi x y ⟨hx, hx'⟩ ⟨hy, hy'⟩
      simp only [hi, if_true, hx, hy, gt, isReal, below, hx', hy', decide_true, Option.isSome_some,
        Bool.and_true, decide_eq_true_eq]
      split_ifs with h
      · rw [max_eq_left h.le]
      · rw [max_eq_right (not_lt.1 h)]
    · rintro i hi hx y ⟨hy, hy'⟩
      have h1 : below mx (a.get i) = false := by
        cases h : a.get i with
        | none => rfl
        | some x =>
          simp only [below, decide_eq_false_iff_not]
          exact fun h' => hx x ⟨h, h'⟩
      simp only [hi, if_true, h1, Bool.and_false, Bool.false_eq_true, if_false]
      simp [hy, isReal, below, hy']
    · intro i hx hy
      have h1 : ∀ c : Arr (Option α), (∀ x, ¬ Valid mx (c.get i) x) → below mx (c.get i) = false := by
        intro c hc
        cases h : c.get i with
        | none => rfl
        | some x =>
          simp only [below, decide_eq_false_iff_not]
          exact fun h' => hc x ⟨h, h'⟩
      simp [h1 a hx, h1 b hy]
    · intro i hi
      simp [Nat.not_lt.2 hi]
  · intro i hi o hol hog
    rw [Arr.read_eq (by omega), Arr.read_eq (by omega)]
    simp only [Option.bind_eq_bind, Option.bind_some]
    split_ifs with h1 h2
    · rw [Arr.write_eq _ (by omega)]
    · rw [Arr.write_eq _ (by omega)]
    · simp only [Option.some.injEq]
      refine Arr.ext' rfl (fun k => ?_)
      dsimp only
      by_cases hk : k = i
      · subst hk; simp [hog k (Nat.le_refl k)]
      · simp [Function.update_of_ne hk]

/-- Non-vacuity: larger first, larger second, NaN first, both over the limit. -/
example : (compareFcl (100 : Int) (Arr.ofList [some 3, some 4, none, some 200])
    (Arr.ofList [some 1, some 9, some 7, some 300]) 4 4 4 (Arr.ofList [some 0, some 0, some 0, some 5])).map
    (fun o => (o.get 0, o.get 1, o.get 2, o.get 3)) = some (some 3, some 9, some 7, some 5) := by decide

/-- **C56 refuted (only the first usable).** When the second score is NaN the
usable first score is not kept. -/
theorem C56_only_first_refuted :
    ∃ (a b out : Arr (Option Int)), Valid 100 (a.get 0) 3 ∧ (∀ y, ¬ Valid 100 (b.get 0) y) ∧
      (compareFcl (100 : Int) a b 1 1 1 out).map (fun o => o.get 0) = some (some 0) := by
  refine ⟨Arr.ofList [some 3], Arr.ofList [none], Arr.ofList [some 0], ⟨rfl, by decide⟩, ?_, by decide⟩
  rintro y ⟨h, -⟩
  cases h

/-- **C56 refuted (vector variant).** `compare_score_fcl_with_vector` never
changes the output scores, whatever the sizes and scores. -/
theorem C56_vector_refuted (mx : α) (a b out : Arr (Option α)) (size : Nat) (hs : 0 < size) :
    compareFclVector mx a b size size out = some out := by
  unfold compareFclVector
  rw [if_pos]
  simp [cbool]
  omega

end LLab.Scores
