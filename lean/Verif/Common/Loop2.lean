import Verif.Common.Loop

/-! Nested loops. -/

namespace LLab

variable {σ : Type}

/-- Invariant rule for two nested counting loops. -/
theorem loop2_inv (P : Nat → Nat → σ → Prop) {A B : Nat} {f : Nat → Nat → σ → Option σ} {st : σ}
    (h0 : P 0 0 st)
    (hstep : ∀ r, r < A → ∀ s, s < B → ∀ st, P r s st → ∃ st', f r s st = some st' ∧ P r (s + 1) st')
    (hrow : ∀ r, r < A → ∀ st, P r B st → P (r + 1) 0 st) :
    ∃ st', loop A (fun r st => loop B (fun s st => f r s st) st) st = some st' ∧ P A 0 st' := by
  apply loop_inv (fun r st => P r 0 st) h0
  intro r hr st hst
  obtain ⟨st', e, h⟩ := loop_inv (n := B) (f := fun s st => f r s st) (s := st) (fun s st => P r s st) hst
    (fun s hs st h => hstep r hr s hs st h)
  exact ⟨st', e, hrow r hr st' h⟩

/-- Nested loops over windows: step `(r, s)` establishes `Good r s` of the
array and changes only the cells of window `(r, s)`; windows are disjoint. -/
theorem loop2_windows {α τ : Type} {A B : Nat} {f : Nat → Nat → τ × Arr α → Option (τ × Arr α)}
    (inv : τ → Prop) (cell : Nat → Nat → Nat → Prop) (Good : Nat → Nat → (Nat → α) → Prop)
    (t : τ) (a : Arr α) (ht : inv t)
    (hf : ∀ r, r < A → ∀ s, s < B → ∀ t b, inv t → b.len = a.len → ∃ t' b', f r s (t, b) = some (t', b') ∧
      inv t' ∧ b'.len = a.len ∧ Good r s b'.get ∧ ∀ u, ¬ cell r s u → b'.get u = b.get u)
    (hcong : ∀ r s g g', (∀ u, cell r s u → g u = g' u) → Good r s g → Good r s g')
    (hdisj : ∀ r, r < A → ∀ s, s < B → ∀ r', r' < A → ∀ s', s' < B → ∀ u, cell r s u → cell r' s' u →
      r = r' ∧ s = s') :
    ∃ t' a', loop A (fun r st => loop B (fun s st => f r s st) st) (t, a) = some (t', a') ∧ inv t' ∧
      a'.len = a.len ∧ (∀ r, r < A → ∀ s, s < B → Good r s a'.get) ∧
      ∀ u, (∀ r, r < A → ∀ s, s < B → ¬ cell r s u) → a'.get u = a.get u := by
  obtain ⟨⟨t', a'⟩, e, h1, h2, h3, h4⟩ := loop2_inv (A := A) (B := B) (f := f) (st := (t, a))
    (fun r s st => inv st.1 ∧ st.2.len = a.len ∧
      (∀ r', r' < A → ∀ s', s' < B → (r' < r ∨ (r' = r ∧ s' < s)) → Good r' s' st.2.get) ∧
      ∀ u, (∀ r', r' < A → ∀ s', s' < B → ¬ cell r' s' u) → st.2.get u = a.get u)
    ⟨ht, rfl, by intro r' _ s' _ h; omega, by intros; rfl⟩
    (by
      rintro r hr s hs ⟨t1, b⟩ ⟨h1, h2, h3, h4⟩
      obtain ⟨t', b', e, g1, g2, g3, g4⟩ := hf r hr s hs t1 b h1 h2
      refine ⟨(t', b'), e, g1, g2, ?_, ?_⟩
      · intro r' hr' s' hs' h
        by_cases heq : r' = r ∧ s' = s
        · obtain ⟨rfl, rfl⟩ := heq
          exact g3
        · refine hcong r' s' b.get b'.get ?_ (h3 r' hr' s' hs' (by omega))
          intro u hu
          refine (g4 u fun hc => heq ?_).symm
          exact hdisj r' hr' s' hs' r hr s hs u hu hc
      · intro u hu
        exact (g4 u (hu r hr s hs)).trans (h4 u hu))
    (by
      rintro r hr st ⟨h1, h2, h3, h4⟩
      refine ⟨h1, h2, ?_, h4⟩
      intro r' hr' s' hs' h
      exact h3 r' hr' s' hs' (by omega))
  exact ⟨t', a', e, h1, h2, fun r hr s hs => h3 r hr s hs (Or.inl hr), h4⟩

end LLab
