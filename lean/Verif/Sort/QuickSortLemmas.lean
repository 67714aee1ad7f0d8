import Verif.Sort.QuickSort

/-! Helper lemmas for `C01`: invariants of the Hoare partition. -/

namespace LLab.Sort

variable {α : Type}

/-- `I'` is a rearrangement of `I` that only moves entries inside `[lo, hi]`. -/
structure SliceRel (lo hi : Nat) (I I' : List Nat) : Prop where
  perm : I'.Perm I
  outside : ∀ k, (k < lo ∨ hi < k) → I'[k]? = I[k]?
  inside : ∀ k, lo ≤ k → k ≤ hi → ∃ k', lo ≤ k' ∧ k' ≤ hi ∧ I'[k]? = I[k']?

theorem SliceRel.refl (lo hi : Nat) (I : List Nat) : SliceRel lo hi I I :=
  ⟨List.Perm.refl _, fun _ _ => rfl, fun k h1 h2 => ⟨k, h1, h2, rfl⟩⟩

theorem SliceRel.trans {lo hi : Nat} {I I' I'' : List Nat}
    (h1 : SliceRel lo hi I I') (h2 : SliceRel lo hi I' I'') : SliceRel lo hi I I'' := by
  refine ⟨h2.perm.trans h1.perm, fun k hk => (h2.outside k hk).trans (h1.outside k hk), ?_⟩
  intro k a b
  obtain ⟨k', a', b', e⟩ := h2.inside k a b
  obtain ⟨k'', a'', b'', e'⟩ := h1.inside k' a' b'
  exact ⟨k'', a'', b'', e.trans e'⟩

theorem SliceRel.mono {lo hi lo' hi' : Nat} {I I' : List Nat}
    (h : SliceRel lo hi I I') (hl : lo' ≤ lo) (hh : hi ≤ hi') : SliceRel lo' hi' I I' := by
  refine ⟨h.perm, fun k hk => h.outside k (by omega), ?_⟩
  intro k a b
  by_cases hk : lo ≤ k ∧ k ≤ hi
  · obtain ⟨k', a', b', e⟩ := h.inside k hk.1 hk.2
    exact ⟨k', by omega, by omega, e⟩
  · exact ⟨k, a, b, h.outside k (by omega)⟩

theorem SliceRel.length {lo hi : Nat} {I I' : List Nat} (h : SliceRel lo hi I I') :
    I'.length = I.length := h.perm.length_eq

theorem key_congr {A : List α} {I I' : List Nat} {k k' : Nat} (h : I'[k]? = I[k']?) :
    key A I' k = key A I k' := by
  simp [key, h]

/-- Every `A[I[k]]` with `k` in `[lo, hi]` is a valid access. -/
def Valid (A : List α) (I : List Nat) (lo hi : Nat) : Prop :=
  ∀ k, lo ≤ k → k ≤ hi → ∃ v, key A I k = some v

theorem SliceRel.valid {A : List α} {lo hi : Nat} {I I' : List Nat}
    (h : SliceRel lo hi I I') (hv : Valid A I lo hi) : Valid A I' lo hi := by
  intro k a b
  obtain ⟨k', a', b', e⟩ := h.inside k a b
  obtain ⟨v, hv⟩ := hv k' a' b'
  exact ⟨v, (key_congr e).trans hv⟩

theorem key_lt {A : List α} {I : List Nat} {k : Nat} {v : α} (h : key A I k = some v) :
    k < I.length := by
  by_contra hc
  have : I[k]? = none := List.getElem?_eq_none (by omega)
  simp [key, this] at h

theorem swap_sliceRel {lo hi i j : Nat} {I : List Nat} {a b : Nat}
    (hi1 : lo ≤ i) (hij : i < j) (hj : j ≤ hi) (ha : I[i]? = some a) (hb : I[j]? = some b) :
    SliceRel lo hi I ((I.set i b).set j a) := by
  obtain ⟨hil, ha'⟩ := List.getElem?_eq_some_iff.1 ha
  obtain ⟨hjl, hb'⟩ := List.getElem?_eq_some_iff.1 hb
  refine ⟨?_, ?_, ?_⟩
  · subst ha' hb'
    exact List.set_set_perm hil hjl
  · intro k hk
    rw [List.getElem?_set_ne (by omega), List.getElem?_set_ne (by omega)]
  · intro k h1 h2
    by_cases hkj : k = j
    · subst hkj
      refine ⟨i, hi1, by omega, ?_⟩
      rw [List.getElem?_set_self (by simpa using hjl), ha]
    · rw [List.getElem?_set_ne (by omega)]
      by_cases hki : k = i
      · subst hki
        refine ⟨j, by omega, hj, ?_⟩
        rw [List.getElem?_set_self hil, hb]
      · exact ⟨k, h1, h2, by rw [List.getElem?_set_ne (by omega)]⟩

variable [LinearOrder α]

theorem scanUp_spec (A : List α) (I : List Nat) (pivot : α) :
    ∀ (d start s : Nat), s = start + d →
      (∀ k, start ≤ k → k ≤ s → ∃ v, key A I k = some v) →
      (∀ v, key A I s = some v → pivot ≤ v) →
      ∃ i', scanUp A I pivot start = some i' ∧ start ≤ i' ∧ i' ≤ s ∧
        (∀ k, start ≤ k → k < i' → ∀ v, key A I k = some v → v < pivot) ∧
        ∃ v, key A I i' = some v ∧ pivot ≤ v := by
  intro d
  induction d with
  | zero =>
    intro start s hs hdef hsent
    have hs' : s = start := by omega
    subst hs'
    obtain ⟨v, hv⟩ := hdef s (by omega) (by omega)
    have hp := hsent v hv
    refine ⟨s, ?_, by omega, by omega, fun k _ _ => by omega, v, hv, hp⟩
    rw [scanUp]
    simp [key_lt hv, hv, not_lt.2 hp]
  | succ d ih =>
    intro start s hs hdef hsent
    obtain ⟨v, hv⟩ := hdef start (by omega) (by omega)
    by_cases hp : v < pivot
    · obtain ⟨i', e, h1, h2, h3, h4⟩ := ih (start + 1) s (by omega)
        (fun k a b => hdef k (by omega) b) hsent
      refine ⟨i', ?_, by omega, h2, ?_, h4⟩
      · rw [scanUp]
        simp [key_lt hv, hv, hp, e]
      · intro k a b w hw
        by_cases hk : k = start
        · subst hk
          rw [hv] at hw
          cases hw
          exact hp
        · exact h3 k (by omega) b w hw
    · refine ⟨start, ?_, by omega, by omega, fun k _ _ => by omega, v, hv, not_lt.1 hp⟩
      rw [scanUp]
      simp [key_lt hv, hv, hp]

theorem scanDown_spec (A : List α) (I : List Nat) (pivot : α) :
    ∀ (j s : Nat), s < j →
      (∀ k, s ≤ k → k < j → ∃ v, key A I k = some v) →
      (∀ v, key A I s = some v → v ≤ pivot) →
      ∃ j', scanDown A I pivot j = some j' ∧ s ≤ j' ∧ j' < j ∧
        (∀ k, j' < k → k < j → ∀ v, key A I k = some v → pivot < v) ∧
        ∃ v, key A I j' = some v ∧ v ≤ pivot := by
  intro j
  induction j with
  | zero => intro s h; omega
  | succ j ih =>
    intro s hs hdef hsent
    obtain ⟨v, hv⟩ := hdef j (by omega) (by omega)
    by_cases hp : pivot < v
    · have hsj : s ≠ j := by
        intro e
        subst e
        exact absurd (hsent v hv) (not_le.2 hp)
      obtain ⟨j', e, h1, h2, h3, h4⟩ := ih s (by omega) (fun k a b => hdef k a (by omega)) hsent
      refine ⟨j', ?_, h1, by omega, ?_, h4⟩
      · simp [scanDown, hv, hp, e]
      · intro k a b w hw
        by_cases hk : k = j
        · subst hk
          rw [hv] at hw
          cases hw
          exact hp
        · exact h3 k a (by omega) w hw
    · refine ⟨j, ?_, by omega, by omega, fun k _ _ => by omega, v, hv, not_lt.1 hp⟩
      simp [scanDown, hv, hp]

theorem partition_spec (A : List α) (pivot : α) (lo hi : Nat) :
    ∀ (fuel : Nat) (I : List Nat) (i1 j : Nat), j < fuel → Valid A I lo hi →
      lo ≤ i1 → i1 ≤ j → j ≤ hi + 1 →
      (∀ k, lo ≤ k → k < i1 → ∀ v, key A I k = some v → v ≤ pivot) →
      (∀ k, j ≤ k → k ≤ hi → ∀ v, key A I k = some v → pivot ≤ v) →
      (∃ s, i1 ≤ s ∧ s ≤ hi ∧ (j = hi + 1 → s < hi) ∧ ∀ v, key A I s = some v → pivot ≤ v) →
      (∃ s, lo ≤ s ∧ s < j ∧ ∀ v, key A I s = some v → v ≤ pivot) →
      ∃ j' I', partitionLoop A pivot fuel I i1 j = some (j', I') ∧ lo ≤ j' ∧ j' < hi ∧
        SliceRel lo hi I I' ∧
        (∀ k, lo ≤ k → k ≤ j' → ∀ v, key A I' k = some v → v ≤ pivot) ∧
        (∀ k, j' < k → k ≤ hi → ∀ v, key A I' k = some v → pivot ≤ v) := by
  intro fuel
  induction fuel with
  | zero => intro I i1 j h; omega
  | succ fuel ih =>
    intro I i1 j hfuel hvalid hlo hij hj hL hR ⟨s, hs1, hs2, hs3, hs4⟩ ⟨t, ht1, ht2, ht3⟩
    obtain ⟨i', ei, i1', i2', i3', vi, hvi, hpi⟩ := scanUp_spec A I pivot (s - i1) i1 s (by omega)
      (fun k a b => hvalid k (by omega) (by omega)) hs4
    obtain ⟨j', ej, j1', j2', j3', vj, hvj, hpj⟩ := scanDown_spec A I pivot j t ht2
      (fun k a b => hvalid k (by omega) (by omega)) ht3
    by_cases hbr : i' ≥ j'
    · refine ⟨j', I, ?_, by omega, ?_, SliceRel.refl _ _ _, ?_, ?_⟩
      · simp [partitionLoop, ei, ej, hbr]
      · by_cases hjh : j = hi + 1
        · have := hs3 hjh
          omega
        · omega
      · intro k a b v hv
        by_cases hk : k < i1
        · exact hL k a hk v hv
        · by_cases hk2 : k < i'
          · exact (i3' k (by omega) hk2 v hv).le
          · have : k = j' := by omega
            subst this
            rw [hvj] at hv
            cases hv
            exact hpj
      · intro k a b v hv
        by_cases hk : k < j
        · exact (j3' k a hk v hv).le
        · exact hR k (by omega) b v hv
    · have hlt : i' < j' := by omega
      have hil := key_lt hvi
      have hjl := key_lt hvj
      have ha : I[i']? = some I[i'] := List.getElem?_eq_getElem hil
      have hb : I[j']? = some I[j'] := List.getElem?_eq_getElem hjl
      set I2 := (I.set i' I[j']).set j' I[i'] with hI2
      have hsw : SliceRel lo hi I I2 := swap_sliceRel (by omega) hlt (by omega) ha hb
      have hk_ne : ∀ k, k ≠ i' → k ≠ j' → key A I2 k = key A I k := by
        intro k h1 h2
        apply key_congr
        rw [hI2, List.getElem?_set_ne (by omega), List.getElem?_set_ne (by omega)]
      have hk_i : key A I2 i' = key A I j' := by
        apply key_congr
        rw [hI2, List.getElem?_set_ne (by omega), List.getElem?_set_self hil, hb]
      have hk_j : key A I2 j' = key A I i' := by
        apply key_congr
        rw [hI2, List.getElem?_set_self (by simpa using hjl), ha]
      obtain ⟨j'', I'', e, h1, h2, h3, h4, h5⟩ := ih I2 (i' + 1) j' (by omega) (hsw.valid hvalid)
        (by omega) (by omega) (by omega)
        (by
          intro k a b v hv
          by_cases hki : k = i'
          · subst hki
            rw [hk_i, hvj] at hv
            cases hv
            exact hpj
          · rw [hk_ne k hki (by omega)] at hv
            by_cases hk : k < i1
            · exact hL k a hk v hv
            · exact (i3' k (by omega) (by omega) v hv).le)
        (by
          intro k a b v hv
          by_cases hkj : k = j'
          · subst hkj
            rw [hk_j, hvi] at hv
            cases hv
            exact hpi
          · rw [hk_ne k (by omega) hkj] at hv
            by_cases hk : k < j
            · exact (j3' k (by omega) hk v hv).le
            · exact hR k (by omega) b v hv)
        ⟨j', by omega, by omega, by omega, by
          intro v hv
          rw [hk_j, hvi] at hv
          cases hv
          exact hpi⟩
        ⟨i', by omega, hlt, by
          intro v hv
          rw [hk_i, hvj] at hv
          cases hv
          exact hpj⟩
      refine ⟨j'', I'', ?_, h1, h2, hsw.trans h3, h4, h5⟩
      simp [partitionLoop, ei, ej, hbr, ha, hb]
      rw [← e, hI2]

/-- The values read through `I` are non-decreasing on `[lo, hi]`. -/
def SortedOn (A : List α) (I : List Nat) (lo hi : Nat) : Prop :=
  ∀ k l, lo ≤ k → k ≤ l → l ≤ hi → ∀ x y, key A I k = some x → key A I l = some y → x ≤ y

theorem quickSortAux_spec (A : List α) :
    ∀ (fuel : Nat) (I : List Nat) (lo hi : Nat), hi + 1 - lo ≤ fuel → 0 < fuel →
      Valid A I lo hi →
      ∃ I', quickSortAux A fuel I lo hi = some I' ∧ SliceRel lo hi I I' ∧ SortedOn A I' lo hi := by
  intro fuel
  induction fuel with
  | zero => intro I lo hi _ h; omega
  | succ fuel ih =>
    intro I lo hi hf _ hvalid
    by_cases hlt : lo < hi
    · obtain ⟨pivot, hp⟩ := hvalid (lo + (hi - lo) / 2) (by omega) (by omega)
      obtain ⟨j, I1, e1, hj1, hj2, hrel1, hL, hR⟩ := partition_spec A pivot lo hi (hi + 2) I lo
        (hi + 1) (by omega) hvalid (by omega) (by omega) (by omega)
        (fun k _ _ => by omega) (fun k _ _ => by omega)
        ⟨lo + (hi - lo) / 2, by omega, by omega, fun _ => by omega, by
          intro v hv; rw [hp] at hv; cases hv; exact le_refl _⟩
        ⟨lo + (hi - lo) / 2, by omega, by omega, by
          intro v hv; rw [hp] at hv; cases hv; exact le_refl _⟩
      have hv1 := hrel1.valid hvalid
      obtain ⟨I2, e2, hrel2, hs2⟩ := ih I1 lo j (by omega) (by omega)
        (fun k a b => hv1 k a (by omega))
      have hrel2' : SliceRel lo hi I1 I2 := hrel2.mono (le_refl _) (by omega)
      have hv2 := hrel2'.valid hv1
      obtain ⟨I3, e3, hrel3, hs3⟩ := ih I2 (j + 1) hi (by omega) (by omega)
        (fun k a b => hv2 k (by omega) b)
      have hrel3' : SliceRel lo hi I2 I3 := hrel3.mono (by omega) (le_refl _)
      refine ⟨I3, ?_, (hrel1.trans hrel2').trans hrel3', ?_⟩
      · simp [quickSortAux, hlt, hp, e1, e2, e3]
      · have hLow : ∀ k, lo ≤ k → k ≤ j → ∀ v, key A I3 k = some v → v ≤ pivot := by
          intro k a b v hv
          rw [key_congr (hrel3.outside k (by omega))] at hv
          obtain ⟨k', a', b', e⟩ := hrel2.inside k a b
          rw [key_congr e] at hv
          exact hL k' a' b' v hv
        have hHigh : ∀ k, j < k → k ≤ hi → ∀ v, key A I3 k = some v → pivot ≤ v := by
          intro k a b v hv
          obtain ⟨k', a', b', e⟩ := hrel3.inside k (by omega) b
          rw [key_congr e, key_congr (hrel2.outside k' (by omega))] at hv
          exact hR k' (by omega) b' v hv
        intro k l a b c x y hx hy
        by_cases hl : l ≤ j
        · rw [key_congr (hrel3.outside k (by omega))] at hx
          rw [key_congr (hrel3.outside l (by omega))] at hy
          exact hs2 k l a b hl x y hx hy
        · by_cases hk : k ≤ j
          · exact (hLow k a hk x hx).trans (hHigh l (by omega) c y hy)
          · exact hs3 k l (by omega) b c x y hx hy
    · refine ⟨I, by simp [quickSortAux, hlt], SliceRel.refl _ _ _, ?_⟩
      intro k l a b c x y hx hy
      have : k = l := by omega
      subst this
      rw [hx] at hy
      cases hy
      exact le_refl _

end LLab.Sort
