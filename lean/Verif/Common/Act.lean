import Verif.Common.Loop
import Verif.Math.Vector
import Mathlib.Algebra.BigOperators.Pi
import Mathlib.Algebra.BigOperators.Intervals

/-!
Loops that add to several arrays at once. `act m` is the machine state whose
arrays hold the contents `m`; `M` is a product of function types.
-/

namespace LLab

open Finset

theorem loop_act {σ M : Type} [AddCommMonoid M] {n : Nat} {f : Nat → σ → Option σ} (act : M → σ)
    (D : Nat → M) (h : ∀ i, i < n → ∀ m, f i (act m) = some (act (m + D i))) (m : M) :
    loop n f (act m) = some (act (m + ∑ i ∈ range n, D i)) := by
  induction n with
  | zero => simp [loop]
  | succ n ih =>
    simp only [loop]
    rw [ih (fun i hi => h i (by omega))]
    simp only [Option.bind_eq_bind, Option.bind_some]
    rw [h n (by omega), Finset.sum_range_succ, add_assoc]

theorem Arr.addAt_mk {α : Type} [AddMonoid α] (len : Nat) (g : Nat → α) {i : Nat} (v : α)
    (h : i < len) : (Arr.mk len g).addAt i v = some ⟨len, g + Pi.single i v⟩ := by
  rw [Arr.addAt_eq' v (by exact h)]
  congr 2
  funext k
  simp [Pi.single_apply]

theorem Arr.read_mk {α : Type} (len : Nat) (g : Nat → α) {i : Nat} (h : i < len) :
    (Arr.mk len g).read i = some (g i) := Arr.read_eq h

/-- Row-major traversal: a sum over `m*n` cells is a double sum. -/
theorem sum_rows {α : Type} [AddCommMonoid α] (m n : Nat) (f : Nat → α) :
    ∑ q ∈ range (m * n), f q = ∑ j ∈ range m, ∑ i ∈ range n, f (j * n + i) := by
  induction m with
  | zero => simp
  | succ m ih => rw [Finset.sum_range_succ, ← ih, Nat.succ_mul, Finset.sum_range_add]

theorem single_sum_rows {α : Type} [AddCommMonoid α] (m n : Nat) (v : Nat → Nat → α) (k : Nat) :
    (∑ j ∈ range m, ∑ i ∈ range n, (Pi.single (j * n + i) (v j i) : Nat → α)) k =
      if k < m * n then v (k / n) (k % n) else 0 := by
  have : ∑ j ∈ range m, ∑ i ∈ range n, (Pi.single (j * n + i) (v j i) : Nat → α)
      = ∑ q ∈ range (m * n), Pi.single q (v (q / n) (q % n)) := by
    rw [sum_rows]
    refine Finset.sum_congr rfl fun j _ => Finset.sum_congr rfl fun i hi => ?_
    have hi' := Finset.mem_range.1 hi
    have hn : 0 < n := by omega
    rw [Nat.mul_comm j n, Nat.mul_add_div hn, Nat.mul_add_mod, Nat.div_eq_of_lt hi',
      Nat.mod_eq_of_lt hi', Nat.add_zero]
  rw [this, Finset.sum_apply]
  simp only [Pi.single_apply]
  rw [Finset.sum_ite_eq]
  simp [Finset.mem_range]

/-- `loop_act` for a counter running over `lo..hi-1`. -/
theorem loopFrom_act {σ M : Type} [AddCommMonoid M] {lo hi n : Nat} (hn : hi - lo = n)
    {f : Nat → σ → Option σ} (act : M → σ)
    (D : Nat → M) (h : ∀ i, i < n → ∀ m, f (lo + i) (act m) = some (act (m + D i))) (m : M) :
    loopFrom lo hi f (act m) = some (act (m + ∑ i ∈ range n, D i)) := by
  unfold loopFrom
  rw [hn]
  exact loop_act act D h m

/-- A double loop that writes each cell `addr r s` of a rectangle once. -/
theorem loop2_write {α : Type} {A B : Nat} {f : Nat → Nat → Arr α → Option (Arr α)}
    (addr : Nat → Nat → Nat) (val : Nat → Nat → α) (a : Arr α)
    (hf : ∀ r, r < A → ∀ s, s < B → ∀ b : Arr α, b.len = a.len → f r s b = b.write (addr r s) (val r s))
    (hlt : ∀ r, r < A → ∀ s, s < B → addr r s < a.len)
    (hinj : ∀ r, r < A → ∀ s, s < B → ∀ r', r' < A → ∀ s', s' < B →
      addr r s = addr r' s' → r = r' ∧ s = s') :
    ∃ a', loop A (fun r b => loop B (fun s b => f r s b) b) a = some a' ∧ a'.len = a.len ∧
      (∀ r, r < A → ∀ s, s < B → a'.get (addr r s) = val r s) ∧
      (∀ u, (∀ r, r < A → ∀ s, s < B → u ≠ addr r s) → a'.get u = a.get u) := by
  obtain ⟨a', e', h1, h2, h3⟩ := loop_inv (n := A) (f := fun r b => loop B (fun s b => f r s b) b) (s := a)
    (fun c b => b.len = a.len ∧ (∀ r, r < c → r < A → ∀ s, s < B → b.get (addr r s) = val r s) ∧
      (∀ u, (∀ r, r < c → r < A → ∀ s, s < B → u ≠ addr r s) → b.get u = a.get u))
    ⟨rfl, by intro r h; omega, by intros; rfl⟩ (by
      rintro r hr b ⟨h1, h2, h3⟩
      obtain ⟨b', e', g1, g2, g3⟩ := loop_inv (n := B) (f := fun s b => f r s b) (s := b)
        (fun d b' => b'.len = a.len ∧ (∀ s, s < d → s < B → b'.get (addr r s) = val r s) ∧
          (∀ u, (∀ s, s < d → s < B → u ≠ addr r s) → b'.get u = b.get u))
        ⟨h1, by intro r h; omega, by intros; rfl⟩ (by
          rintro s hs b' ⟨g1, g2, g3⟩
          rw [hf r hr s hs b' g1, Arr.write_eq _ (by rw [g1]; exact hlt r hr s hs)]
          refine ⟨_, rfl, g1, ?_, ?_⟩
          · intro s' hs' hB
            dsimp only
            by_cases h : s' = s
            · subst h; simp
            · rw [Function.update_of_ne]
              · exact g2 s' (by omega) hB
              · intro hc; exact h (hinj r hr s' hB r hr s hs hc).2
          · intro u hu
            dsimp only
            rw [Function.update_of_ne (hu s (by omega) hs)]
            exact g3 u fun s' h hB => hu s' (by omega) hB)
      refine ⟨b', e', g1, ?_, ?_⟩
      · intro r' hr' hA s hs
        by_cases h : r' = r
        · subst h; exact g2 s hs hs
        · rw [g3 _ (fun s' _ hB hc => h (hinj r' hA s hs r hr s' hB hc).1)]
          exact h2 r' (by omega) hA s hs
      · intro u hu
        rw [g3 u fun s h hB => hu r (by omega) hr s hB]
        exact h3 u fun r' h hA => hu r' (by omega) hA)
  exact ⟨a', e', h1, fun r hr => h2 r hr hr, fun u hu => h3 u fun r hr hA => hu r hA⟩

/-- A sum over the middle part of a range. -/
theorem sum_window {α : Type} [AddCommMonoid α] (n pad : Nat) (F : Nat → α) :
    ∑ p ∈ range n, (if pad ≤ p ∧ p < n - pad then F p else 0) = ∑ p ∈ range (n - 2 * pad), F (pad + p) := by
  rw [← Finset.sum_filter]
  have : (range n).filter (fun p => pad ≤ p ∧ p < n - pad) = (range (n - 2 * pad)).image (pad + ·) := by
    ext p
    simp only [Finset.mem_filter, Finset.mem_range, Finset.mem_image]
    constructor
    · rintro ⟨h1, h2, h3⟩
      exact ⟨p - pad, by omega, by omega⟩
    · rintro ⟨q, hq, rfl⟩
      omega
  rw [this, Finset.sum_image]
  intro a _ b _ h
  exact Nat.add_left_cancel h

/-! ### Three-dimensional tensors stored row by row -/

/-- Position of component `(c, a, b)` in a tensor with `A` rows and `B` columns. -/
def ix3 (A B c a b : Nat) : Nat := c * A * B + a * B + b

theorem ix3_eq (A B c a b : Nat) : ix3 A B c a b = (c * A + a) * B + b := by
  unfold ix3; ring

theorem ix3_lt {C A B c a b : Nat} (hc : c < C) (ha : a < A) (hb : b < B) :
    ix3 A B c a b < C * A * B := by
  rw [ix3_eq]
  exact Vec.idx_lt (Vec.idx_lt hc ha) hb

theorem ix3_inj {A B c a b c' a' b' : Nat} (ha : a < A) (hb : b < B) (ha' : a' < A) (hb' : b' < B)
    (h : ix3 A B c a b = ix3 A B c' a' b') : c = c' ∧ a = a' ∧ b = b' := by
  rw [ix3_eq, ix3_eq] at h
  obtain ⟨h1, h2⟩ := Vec.idx_inj hb hb' h
  obtain ⟨h3, h4⟩ := Vec.idx_inj ha ha' h1
  exact ⟨h3, h4, h2⟩

theorem ix2_inj {B a b a' b' : Nat} (hb : b < B) (hb' : b' < B) :
    a * B + b = a' * B + b' ↔ a = a' ∧ b = b' :=
  ⟨fun h => Vec.idx_inj hb hb' h, fun ⟨h1, h2⟩ => by rw [h1, h2]⟩

end LLab
