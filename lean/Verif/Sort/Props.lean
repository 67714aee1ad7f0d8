import Verif.Sort.QuickSortLemmas
import Verif.Sort.MergeSortLemmas
import Mathlib.Tactic.NormNum
import Mathlib.Tactic.IntervalCases

/-! Property theorems for sorting: `C01`, `C02`. -/

namespace LLab.Sort

variable {α : Type} [LinearOrder α]

/-- **C01.** `quick_sort(A, I, lo, hi)` terminates without undefined behaviour,
permutes `I`, changes nothing outside `[lo, hi]`, and the values read through
the new index array are non-decreasing on `[lo, hi]`. -/
theorem C01_quick_sort (A : List α) (I : List Nat) (lo hi : Int)
    (hlo : 0 ≤ lo) (hhi : hi < I.length)
    (hvalid : ∀ k : Nat, lo ≤ k → k ≤ hi → ∀ x, I[k]? = some x → x < A.length) :
    ∃ I', quickSort A I lo hi = some I' ∧ I'.Perm I ∧
      (∀ k : Nat, (k < lo ∨ hi < k) → I'[k]? = I[k]?) ∧
      (∀ k l : Nat, lo ≤ k → k ≤ l → (l : Int) ≤ hi →
        ∃ a b x y, I'[k]? = some a ∧ I'[l]? = some b ∧ A[a]? = some x ∧ A[b]? = some y ∧ x ≤ y) := by
  have hV : Valid A I lo.toNat hi.toNat ∨ hi < lo := by
    by_cases h : hi < lo
    · exact Or.inr h
    · refine Or.inl ?_
      intro k h1 h2
      have hk : k < I.length := by omega
      have e : I[k]? = some I[k] := List.getElem?_eq_getElem hk
      have := hvalid k (by omega) (by omega) _ e
      exact ⟨A[I[k]], by simp [key, e, List.getElem?_eq_getElem this]⟩
  have main : ∃ I', quickSort A I lo hi = some I' ∧ I'.Perm I ∧
      (∀ k : Nat, (k < lo ∨ hi < k) → I'[k]? = I[k]?) ∧
      (hi < lo ∨ (Valid A I' lo.toNat hi.toNat ∧ SortedOn A I' lo.toNat hi.toNat)) := by
    by_cases hlt : lo < hi
    · have hV' : Valid A I lo.toNat hi.toNat := by
        rcases hV with h | h
        · exact h
        · omega
      obtain ⟨I', e, hrel, hs⟩ := quickSortAux_spec A (hi.toNat + 1 - lo.toNat) I lo.toNat hi.toNat
        (le_refl _) (by omega) hV'
      refine ⟨I', ?_, hrel.perm, ?_, Or.inr ⟨hrel.valid hV', hs⟩⟩
      · simp [quickSort, hlt, e]
        omega
      · intro k hk
        exact hrel.outside k (by omega)
    · refine ⟨I, by simp [quickSort, hlt], List.Perm.refl _, fun _ _ => rfl, ?_⟩
      rcases hV with h | h
      · refine Or.inr ⟨h, ?_⟩
        intro k l a b c x y hx hy
        have : k = l := by omega
        subst this
        rw [hx] at hy
        cases hy
        exact le_refl _
      · exact Or.inl h
  obtain ⟨I', e, hp, ho, hs⟩ := main
  refine ⟨I', e, hp, ho, ?_⟩
  intro k l hk hkl hl
  rcases hs with hs | ⟨hv, hs⟩
  · omega
  · obtain ⟨x, hx⟩ := hv k (by omega) (by omega)
    obtain ⟨y, hy⟩ := hv l (by omega) (by omega)
    have hle := hs k l (by omega) hkl (by omega) x y hx hy
    have gk := List.getElem?_eq_getElem (key_lt hx)
    have gl := List.getElem?_eq_getElem (key_lt hy)
    refine ⟨_, _, x, y, gk, gl, ?_, ?_, hle⟩
    · simpa [key, gk] using hx
    · simpa [key, gl] using hy

/-- Non-vacuity: a five-element array with duplicates meets the hypotheses. -/
example : ∃ I', quickSort [(5 : Int), 3, 5, -1, 3] [0, 1, 2, 3, 4] 0 4 = some I' ∧
    I'.Perm [0, 1, 2, 3, 4] := by
  obtain ⟨I', h, p, _⟩ := C01_quick_sort [(5 : Int), 3, 5, -1, 3] [0, 1, 2, 3, 4] 0 4 (by omega)
    (by simp) (by
      intro k h1 h2 x hx
      have : k < 5 := by omega
      interval_cases k <;> simp at hx <;> subst hx <;> simp)
  exact ⟨I', h, p⟩

omit [LinearOrder α] in
/-- **C02 (part that holds).** For every conversion to `int`, every value array
and every index array, `sort` runs without undefined behaviour, permutes the
index array and leaves everything outside `[low, high]` alone.  Missing: the
values need not come out in order, see `C02_sort_refuted`. -/
theorem C02_sort_partial (toInt : α → Int) (values : List α) (I : List Nat) (low high : Int)
    (hlo : 0 ≤ low) (hv : high < values.length) (hI : high < I.length) :
    ∃ I', sortC toInt values I low high = some I' ∧ I'.Perm I ∧
      ∀ k : Nat, (k < low ∨ high < k) → I'[k]? = I[k]? := by
  by_cases hlt : low < high
  · obtain ⟨I', e, p, o⟩ := mergeSortAux_spec toInt values (high.toNat + 1 - low.toNat) I low.toNat
      high.toNat (le_refl _) (by omega) (by omega) (by omega)
    refine ⟨I', ?_, p, fun k hk => o k (by omega)⟩
    simp [sortC, hlt, e]
    omega
  · exact ⟨I, by simp [sortC, hlt], List.Perm.refl _, fun _ _ => rfl⟩

omit [LinearOrder α] in
/-- **C02 (second part that holds).** On a value array that is already in
order (after conversion to `int`) `sort` leaves the index array as it is. -/
theorem C02_sort_already_sorted_partial (toInt : α → Int) (values : List α) (I : List Nat)
    (low high : Int) (hlo : 0 ≤ low) (hv : high < values.length) (hI : high < I.length)
    (hs : (values.map toInt).Pairwise (· ≤ ·)) :
    sortC toInt values I low high = some I := by
  by_cases hlt : low < high
  · have := mergeSortAux_of_le toInt values hs (high.toNat + 1 - low.toNat) I low.toNat
      high.toNat (le_refl _) (by omega) (by omega) (by omega)
    simp [sortC, hlt, this]
    omega
  · simp [sortC, hlt]

example : sortC id [(1 : Int), 2, 2, 7] [0, 1, 2, 3] 0 3 = some [0, 1, 2, 3] :=
  C02_sort_already_sorted_partial _ _ _ _ _ (by omega) (by simp) (by simp) (by simp)

/-- Witnesses for `C02_sort_refuted`: two independent defects.
First, on integral values `3,1,2,0` the result lists `0,2,1,3`: the merge reads
`values[left+i]` instead of `values[indices[left+i]]`.  Second, on `1/2, 1/5`
the result keeps `1/2` before `1/5`: the merge compares values truncated to
`int`. -/
theorem C02_sort_witnesses :
    sortC truncRat [3, 1, 2, 0] [0, 1, 2, 3] 0 3 = some [3, 2, 1, 0] ∧
    sortC truncRat [1/2, 1/5] [0, 1] 0 1 = some [0, 1] := by
  have t0 : truncRat 0 = 0 := by simp [truncRat]
  have t1 : truncRat 1 = 1 := by
    have : ¬ ((1 : Rat) < 0) := by norm_num
    simp [truncRat, this]
  have t2 : truncRat 2 = 2 := by simp [truncRat]
  have t3 : truncRat 3 = 3 := by simp [truncRat]
  have th : truncRat (1/2) = 0 := by
    have : ¬ ((1/2 : Rat) < 0) := by norm_num
    rw [truncRat, if_neg this]; norm_num
  have tf : truncRat (1/5) = 0 := by
    have : ¬ ((1/5 : Rat) < 0) := by norm_num
    rw [truncRat, if_neg this]; norm_num
  constructor
  · simp [sortC, mergeSortAux, merge, readSlice, mergeLoop_nil, mergeLoop_cons_nil, mergeLoop_cons_cons, t0, t1, t2, t3]
  · simp only [one_div] at th tf
    simp [sortC, mergeSortAux, merge, readSlice, mergeLoop_nil, mergeLoop_cons_nil, mergeLoop_cons_cons, th, tf]

/-- **C02 (refuted).** It is not the case that `sort`, started on the identity
permutation, always lists the values in non-decreasing order. -/
theorem C02_sort_refuted :
    ¬ ∀ values : List Rat, ∃ I',
      sortC truncRat values (List.range values.length) 0 (values.length - 1) = some I' ∧
      (I'.filterMap (fun k => values[k]?)).Pairwise (· ≤ ·) := by
  intro h
  obtain ⟨I', e, hs⟩ := h [3, 1, 2, 0]
  have := C02_sort_witnesses.1
  have e' : some I' = some [3, 2, 1, 0] := by
    rw [← e, ← this]
    rfl
  cases e'
  norm_num [List.filterMap] at hs

end LLab.Sort
