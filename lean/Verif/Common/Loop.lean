import Verif.Common.Arr
import Mathlib.Algebra.BigOperators.Group.Finset.Basic
import Mathlib.Algebra.BigOperators.Intervals
import Mathlib.Algebra.BigOperators.Fin

/-!
Counting loops over bounds-checked arrays, and the lemmas that turn them into
finite sums.
-/

namespace LLab

/-- `for(i = 0; i < n; i++) s = f(i, s);` where the body may fail. -/
def loop {σ : Type} : Nat → (Nat → σ → Option σ) → σ → Option σ
  | 0, _, s => some s
  | n + 1, f, s => do
    let s' ← loop n f s
    f n s'

/-- `for(i = lo; i < hi; i++) s = f(i, s);` -/
def loopFrom {σ : Type} (lo hi : Nat) (f : Nat → σ → Option σ) (s : σ) : Option σ :=
  loop (hi - lo) (fun i => f (lo + i)) s

theorem loop_inv {σ : Type} (P : Nat → σ → Prop) {n : Nat} {f : Nat → σ → Option σ} {s : σ}
    (h0 : P 0 s) (hs : ∀ i, i < n → ∀ s, P i s → ∃ s', f i s = some s' ∧ P (i + 1) s') :
    ∃ s', loop n f s = some s' ∧ P n s' := by
  induction n with
  | zero => exact ⟨s, rfl, h0⟩
  | succ n ih =>
    obtain ⟨s1, e1, p1⟩ := ih (fun i hi => hs i (by omega))
    obtain ⟨s2, e2, p2⟩ := hs n (by omega) s1 p1
    exact ⟨s2, by simp [loop, e1, e2], p2⟩

theorem loop_congr {σ : Type} {n : Nat} {f g : Nat → σ → Option σ} {s : σ}
    (h : ∀ i, i < n → ∀ s, f i s = g i s) : loop n f s = loop n g s := by
  induction n with
  | zero => rfl
  | succ n ih =>
    simp only [loop]
    rw [ih (fun i hi => h i (by omega))]
    congr 1
    funext s'
    exact h n (by omega) s'

theorem loop_pure {σ : Type} {n : Nat} {f : Nat → σ → Option σ} {g : Nat → σ → σ} {s : σ}
    (P : σ → Prop) (h0 : P s) (hP : ∀ i, i < n → ∀ s, P s → P (g i s))
    (h : ∀ i, i < n → ∀ s, P s → f i s = some (g i s)) :
    loop n f s = some (Nat.rec s (fun i s => g i s) n) := by
  have : ∃ s', loop n f s = some s' ∧ (s' = Nat.rec s (fun i s => g i s) n ∧ P s') := by
    apply loop_inv (fun i t => t = Nat.rec s (fun i s => g i s) i ∧ P t) ⟨rfl, h0⟩
    intro i hi t ht
    refine ⟨g i t, h i hi t ht.2, ?_, hP i hi t ht.2⟩
    rw [ht.1]
  obtain ⟨s', e, e', _⟩ := this
  rw [e, e']

namespace Arr

variable {α : Type}

@[ext] theorem ext' {a b : Arr α} (h1 : a.len = b.len) (h2 : ∀ k, a.get k = b.get k) : a = b := by
  cases a; cases b
  simp only [mk.injEq] at *
  exact ⟨h1, funext h2⟩

/-- `a[i] += v` -/
def addAt [Add α] (a : Arr α) (i : Nat) (v : α) : Option (Arr α) := do
  let x ← a.read i
  a.write i (x + v)

theorem addAt_eq [Add α] {a : Arr α} {i : Nat} (v : α) (h : i < a.len) :
    a.addAt i v = some ⟨a.len, Function.update a.get i (a.get i + v)⟩ := by
  simp [addAt, read_eq h, write_eq _ h]

theorem addAt_eq' [AddMonoid α] {a : Arr α} {i : Nat} (v : α) (h : i < a.len) :
    a.addAt i v = some ⟨a.len, fun k => a.get k + if k = i then v else 0⟩ := by
  rw [addAt_eq v h]
  congr 2
  funext k
  by_cases hk : k = i
  · subst hk; simp
  · simp [hk]

end Arr

/-- A loop whose body adds `D i` pointwise to an array adds the sum of the `D i`. -/
theorem loop_add {α : Type} [AddCommMonoid α] {n : Nat} {f : Nat → Arr α → Option (Arr α)}
    (D : Nat → Nat → α) {a : Arr α}
    (h : ∀ i, i < n → ∀ b : Arr α, b.len = a.len →
      f i b = some ⟨b.len, fun k => b.get k + D i k⟩) :
    loop n f a = some ⟨a.len, fun k => a.get k + ∑ i ∈ Finset.range n, D i k⟩ := by
  induction n with
  | zero => simp [loop]
  | succ n ih =>
    simp only [loop]
    rw [ih (fun i hi => h i (by omega))]
    simp only [Option.bind_eq_bind, Option.bind_some]
    refine (h n (by omega) _ (by rfl)).trans ?_
    congr 2
    funext k
    simp only [Finset.sum_range_succ, add_assoc]

/-- A loop writing cell `i` in round `i`. -/
theorem loop_fill {α : Type} {n : Nat} {f : Nat → Arr α → Option (Arr α)} (v : Nat → α) {a : Arr α}
    (h : ∀ i, i < n → ∀ b : Arr α, b.len = a.len → (∀ k, i ≤ k → b.get k = a.get k) →
      f i b = some ⟨b.len, Function.update b.get i (v i)⟩) :
    loop n f a = some ⟨a.len, fun k => if k < n then v k else a.get k⟩ := by
  induction n with
  | zero => simp [loop]
  | succ n ih =>
    simp only [loop]
    rw [ih (fun i hi => h i (by omega))]
    simp only [Option.bind_eq_bind, Option.bind_some]
    refine (h n (by omega) _ (by rfl) (fun k hk => by simp [show ¬ k < n by omega])).trans ?_
    congr 2
    funext k
    by_cases hk : k = n
    · subst hk; simp
    · by_cases h2 : k < n
      · simp [hk, h2, show k < n + 1 by omega]
      · simp [hk, h2, show ¬ k < n + 1 by omega]

/-- A scalar accumulation loop. -/
theorem loop_sum {α : Type} [AddCommMonoid α] {n : Nat} {f : Nat → α → Option α} (v : Nat → α) {s : α}
    (h : ∀ i, i < n → ∀ t, f i t = some (t + v i)) :
    loop n f s = some (s + ∑ i ∈ Finset.range n, v i) := by
  induction n with
  | zero => simp [loop]
  | succ n ih =>
    simp only [loop]
    rw [ih (fun i hi => h i (by omega))]
    simp only [Option.bind_eq_bind, Option.bind_some]
    rw [h n (by omega), Finset.sum_range_succ, add_assoc]

end LLab
