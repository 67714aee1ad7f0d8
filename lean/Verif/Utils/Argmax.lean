import Mathlib.Order.Lattice
import Mathlib.Order.Defs.LinearOrder
import Mathlib.Algebra.Order.Group.Nat
import Mathlib.Tactic.Linarith

/-! Model of `argmax` (`/repo/src/utils.c` 1284-1296) and property `C06`. -/

namespace LLab.Utils

variable {α : Type} [LinearOrder α]

/-- The `for` loop of `argmax` (`/repo/src/utils.c` 1289-1294): `i` runs over
the positions, `(mx, index)` are the C locals; the list is `vector[i..]`. -/
def argmaxLoop : List α → Nat → α → Nat → Nat
  | [], _, _, index => index
  | x :: xs, i, mx, index =>
    if x > mx then argmaxLoop xs (i + 1) x i else argmaxLoop xs (i + 1) mx index

/-- `argmax(vector, dimension)` (`/repo/src/utils.c` 1284-1296); `vector = none`
is the NULL pointer, and the outer `none` is an out-of-bounds read. -/
def argmax (vector : Option (List α)) (dimension : Int) : Option Int :=
  match vector with
  | none => some (-1)
  | some v =>
    if dimension ≤ 0 then some (-1)
    else if v.length < dimension.toNat then none
    else match v with
      | [] => none
      | x :: xs => some (argmaxLoop ((x :: xs).take dimension.toNat) 0 x 0 : Nat)

theorem argmaxLoop_spec (v : List α) : ∀ (rest : List α) (i : Nat) (mx : α) (index : Nat),
    v.drop i = rest → v[index]? = some mx →
    (∀ (k : Nat) x, k < i → v[k]? = some x → x ≤ mx) →
    (∀ (k : Nat) x, k < index → v[k]? = some x → x < mx) →
    (∃ m, v[argmaxLoop rest i mx index]? = some m ∧
      (∀ (k : Nat) x, v[k]? = some x → x ≤ m) ∧
      (∀ (k : Nat) x, k < argmaxLoop rest i mx index → v[k]? = some x → x < m)) := by
  intro rest
  induction rest with
  | nil =>
    intro i mx index hd hm hle hlt
    refine ⟨mx, hm, ?_, hlt⟩
    intro k x hx
    refine hle k x ?_ hx
    obtain ⟨hk, _⟩ := List.getElem?_eq_some_iff.1 hx
    have := List.drop_eq_nil_iff.1 hd
    omega
  | cons y ys ih =>
    intro i mx index hd hm hle hlt
    have hy : v[i]? = some y := by
      have : (v.drop i)[0]? = some y := by rw [hd]; rfl
      simpa using this
    have hd' : v.drop (i + 1) = ys := by
      rw [← List.tail_drop, hd]; rfl
    rw [argmaxLoop]
    split
    · next hgt =>
      refine ih (i + 1) y i hd' hy ?_ ?_
      · intro k x hk hx
        by_cases h : k = i
        · subst h; rw [hy] at hx; cases hx; exact le_refl _
        · exact (hle k x (by omega) hx).trans hgt.le
      · intro k x hk hx
        exact lt_of_le_of_lt (hle k x hk hx) hgt
    · next hgt =>
      refine ih (i + 1) mx index hd' hm ?_ hlt
      intro k x hk hx
      by_cases h : k = i
      · subst h; rw [hy] at hx; cases hx; exact not_lt.1 hgt
      · exact hle k x (by omega) hx

/-- **C06.** For every non-empty vector `argmax` returns a position in range
whose entry is at least every entry and strictly larger than every earlier
one. -/
theorem C06_argmax (v : List α) (hv : v ≠ []) :
    ∃ (r : Nat) (m : α), argmax (some v) v.length = some (r : Int) ∧ v[r]? = some m ∧
      (∀ (k : Nat) x, v[k]? = some x → x ≤ m) ∧ (∀ (k : Nat) x, k < r → v[k]? = some x → x < m) := by
  obtain ⟨x, xs, rfl⟩ : ∃ x xs, v = x :: xs := by
    cases v with
    | nil => contradiction
    | cons x xs => exact ⟨x, xs, rfl⟩
  obtain ⟨m, h1, h2, h3⟩ := argmaxLoop_spec (x :: xs) (x :: xs) 0 x 0 rfl rfl
    (fun k _ hk => by omega) (fun k _ hk => by omega)
  refine ⟨argmaxLoop (x :: xs) 0 x 0, m, ?_, h1, h2, h3⟩
  have e1 : ¬ (((x :: xs).length : Int) ≤ 0) := by simp only [List.length_cons]; omega
  have e2 : ((x :: xs).length : Int).toNat = (x :: xs).length := by simp
  simp only [argmax, e1, if_false, e2, lt_irrefl, List.take_length]

/-- **C06, failure value.** The answer is `-1` exactly for a NULL vector or a
non-positive dimension. -/
theorem C06_argmax_failure (vector : Option (List α)) (dimension : Int)
    (h : ∀ v, vector = some v → dimension ≤ v.length) :
    argmax vector dimension = some (-1) ↔ (vector = none ∨ dimension ≤ 0) := by
  cases vector with
  | none => simp [argmax]
  | some v =>
    have hv := h v rfl
    by_cases hd : dimension ≤ 0
    · simp [argmax, hd]
    · have : ¬ v.length < dimension.toNat := by omega
      cases v with
      | nil => simp at hv; omega
      | cons x xs =>
        simp only [argmax, hd, if_false, this, Option.some.injEq, reduceCtorEq, or_self, iff_false]

example : ∃ r : Nat, argmax (some [(3 : Int), 7, 1, 7]) 4 = some (r : Int) ∧ r = 1 :=
  ⟨1, rfl, rfl⟩

end LLab.Utils
