import Verif.Common.Act

/-! Pointers into an array: `&a[off]`. -/

namespace LLab.Arr

variable {α : Type}

/-- `&a[off]`, for reading. -/
def view (a : Arr α) (off : Nat) : Arr α := ⟨a.len - off, fun u => a.get (off + u)⟩

/-- Run `f` on `&a[off]` and keep its writes in `a`. -/
def onView (a : Arr α) (off : Nat) (f : Arr α → Option (Arr α)) : Option (Arr α) := do
  let b ← f (a.view off)
  some ⟨a.len, fun u => if off ≤ u then b.get (u - off) else a.get u⟩

@[simp] theorem view_len (a : Arr α) (off : Nat) : (a.view off).len = a.len - off := rfl
@[simp] theorem view_get (a : Arr α) (off u : Nat) : (a.view off).get u = a.get (off + u) := rfl

theorem onView_eq {a b : Arr α} {off : Nat} {f : Arr α → Option (Arr α)} (h : f (a.view off) = some b) :
    a.onView off f = some ⟨a.len, fun u => if off ≤ u then b.get (u - off) else a.get u⟩ := by
  unfold onView
  rw [h]
  rfl

/-- A function that adds `D t` to cell `t` of the view, for `t < n`. -/
theorem onView_add [AddCommMonoid α] {a : Arr α} {off n : Nat} {f : Arr α → Option (Arr α)}
    (D : Nat → α) {len : Nat}
    (h : f (a.view off) = some ⟨len, fun t => a.get (off + t) + if t < n then D t else 0⟩) :
    a.onView off f = some ⟨a.len, a.get + ∑ t ∈ Finset.range n, Pi.single (off + t) (D t)⟩ := by
  rw [onView_eq h]
  congr 2
  funext u
  simp only [Pi.add_apply, Finset.sum_apply, Pi.single_apply]
  split_ifs with h1 h2
  · rw [Nat.add_sub_cancel' h1, Finset.sum_eq_single (u - off)]
    · rw [if_pos (by omega)]
    · intro t _ ht; rw [if_neg (by omega)]
    · intro ht; exact absurd (Finset.mem_range.2 h2) ht
  · rw [Nat.add_sub_cancel' h1, Finset.sum_eq_zero, add_zero]
    intro t ht
    have := Finset.mem_range.1 ht
    rw [if_neg (by omega)]
  · rw [Finset.sum_eq_zero, add_zero]
    intro t _
    rw [if_neg (by omega)]

end LLab.Arr

namespace LLab.Arr

variable {α : Type}

/-- `a` with the cells from `off` on replaced by `b`. -/
def splice (a : Arr α) (off : Nat) (b : Arr α) : Arr α :=
  ⟨a.len, fun u => if off ≤ u then b.get (u - off) else a.get u⟩

@[simp] theorem splice_len (a : Arr α) (off : Nat) (b : Arr α) : (a.splice off b).len = a.len := rfl

theorem splice_ge (a : Arr α) {off u : Nat} (b : Arr α) (h : off ≤ u) :
    (a.splice off b).get u = b.get (u - off) := by simp [splice, h]

theorem splice_lt (a : Arr α) {off u : Nat} (b : Arr α) (h : u < off) :
    (a.splice off b).get u = a.get u := by simp [splice, Nat.not_le.2 h]

end LLab.Arr
