import Verif.Common.Loop
import Mathlib.Order.Lattice
import Mathlib.Order.Defs.LinearOrder
import Mathlib.Data.Int.Order.Basic

/-! `clip_vector`, `copy_clipped_vector` (`/repo/src/math_functions.c` 127-156) and
property C22. The `exit(1)` on `minimum > maximum` is the outcome `none`. -/

namespace LLab.Clip

variable {F : Type} [LinearOrder F]

/-- `copy_clipped_vector(vector, output, maximum, minimum, dimension)`
(`/repo/src/math_functions.c` 127-141). -/
def copyClipped (vector output : Arr F) (maximum minimum : F) (dimension : Nat) : Option (Arr F) :=
  if minimum > maximum then none
  else loop dimension (fun i (o : Arr F) => do
    let v ← vector.read i
    if v < minimum then o.write i minimum
    else if v > maximum then o.write i maximum
    else o.write i v) output

/-- `clip_vector(vector, minimum, maximum, dimension)`
(`/repo/src/math_functions.c` 143-156). -/
def clip (vector : Arr F) (minimum maximum : F) (dimension : Nat) : Option (Arr F) :=
  if minimum > maximum then none
  else loop dimension (fun i (o : Arr F) => do
    let v ← o.read i
    if v < minimum then o.write i minimum
    else if v > maximum then o.write i maximum
    else some o) vector

/-- The point of `[lo, hi]` nearest to `x`. -/
def nearest (lo hi x : F) : F := max lo (min hi x)

theorem clip_eq (vector : Arr F) (lo hi : F) (n : Nat) (h : lo ≤ hi) (hn : n ≤ vector.len) :
    clip vector lo hi n =
      some ⟨vector.len, fun k => if k < n then nearest lo hi (vector.get k) else vector.get k⟩ := by
  unfold clip
  rw [if_neg (not_lt.2 h)]
  apply loop_fill (v := fun k => nearest lo hi (vector.get k))
  intro i hi' b hb hk
  simp only [Arr.read_eq (show i < b.len by omega), Option.bind_eq_bind, Option.bind_some]
  rw [hk i (le_refl _)]
  unfold nearest
  split_ifs with h1 h2
  · rw [Arr.write_eq _ (by omega), min_eq_right (h1.le.trans h), max_eq_left h1.le]
  · rw [Arr.write_eq _ (by omega), min_eq_left h2.le, max_eq_right h]
  · rw [min_eq_right (not_lt.1 h2), max_eq_right (not_lt.1 h1), ← hk i (le_refl _),
      Function.update_eq_self]

theorem copyClipped_eq (vector output : Arr F) (lo hi : F) (n : Nat) (h : lo ≤ hi)
    (hn : n ≤ vector.len) (ho : n ≤ output.len) :
    copyClipped vector output hi lo n =
      some ⟨output.len, fun k => if k < n then nearest lo hi (vector.get k) else output.get k⟩ := by
  unfold copyClipped
  rw [if_neg (not_lt.2 h)]
  apply loop_fill (v := fun k => nearest lo hi (vector.get k))
  intro i hi' b hb hk
  simp only [Arr.read_eq (show i < vector.len by omega), Option.bind_eq_bind, Option.bind_some]
  unfold nearest
  split_ifs with h1 h2
  · rw [Arr.write_eq _ (by omega), min_eq_right (h1.le.trans h), max_eq_left h1.le]
  · rw [Arr.write_eq _ (by omega), min_eq_left h2.le, max_eq_right h]
  · rw [Arr.write_eq _ (by omega), min_eq_right (not_lt.1 h2), max_eq_right (not_lt.1 h1)]

/-- **C22.** `clip_vector` stays in bounds; every entry in range is unchanged,
entries below (above) the interval become its lower (upper) end, cells beyond
`dimension` are unchanged, and clipping again changes nothing. -/
theorem C22_clip (vector : Arr F) (lo hi : F) (n : Nat) (h : lo ≤ hi) (hn : n ≤ vector.len) :
    ∃ o, clip vector lo hi n = some o ∧ o.len = vector.len ∧
      (∀ i, i < n → lo ≤ o.get i ∧ o.get i ≤ hi) ∧
      (∀ i, i < n → lo ≤ vector.get i → vector.get i ≤ hi → o.get i = vector.get i) ∧
      (∀ i, i < n → vector.get i < lo → o.get i = lo) ∧
      (∀ i, i < n → hi < vector.get i → o.get i = hi) ∧
      (∀ i, n ≤ i → o.get i = vector.get i) ∧
      clip o lo hi n = some o := by
  refine ⟨_, clip_eq vector lo hi n h hn, rfl, ?_, ?_, ?_, ?_, ?_, ?_⟩
  · intro i hi'
    simp only [hi', if_true, nearest]
    exact ⟨le_max_left _ _, max_le h (min_le_left _ _)⟩
  · intro i hi' h1 h2
    simp only [hi', if_true, nearest]
    rw [min_eq_right h2, max_eq_right h1]
  · intro i hi' h1
    simp only [hi', if_true, nearest]
    rw [min_eq_right (h1.le.trans h), max_eq_left h1.le]
  · intro i hi' h1
    simp only [hi', if_true, nearest]
    rw [min_eq_left h1.le, max_eq_right h]
  · intro i hi'
    simp [show ¬ i < n by omega]
  · refine (clip_eq _ lo hi n h (by exact hn)).trans ?_
    congr 2
    funext k
    dsimp only
    split_ifs
    · unfold nearest
      rw [min_eq_right (max_le h (min_le_left _ _)), max_eq_right (le_max_left _ _)]
    · rfl

/-- **C22, copy.** `copy_clipped_vector` (which takes the maximum first) writes
what `clip_vector` would leave in place. -/
theorem C22_copy_clipped (vector output : Arr F) (lo hi : F) (n : Nat) (h : lo ≤ hi)
    (hn : n ≤ vector.len) (ho : n ≤ output.len) :
    ∃ o c, copyClipped vector output hi lo n = some o ∧ clip vector lo hi n = some c ∧
      (∀ i, i < n → o.get i = c.get i) ∧ (∀ i, n ≤ i → o.get i = output.get i) := by
  refine ⟨_, _, copyClipped_eq vector output lo hi n h hn ho, clip_eq vector lo hi n h hn, ?_, ?_⟩
  · intro i hi'; simp [hi']
  · intro i hi'; simp [show ¬ i < n by omega]

example : clip (Arr.ofList [(-5 : Int), 0, 9]) (-1) 3 3 ≠ none := by decide

end LLab.Clip
