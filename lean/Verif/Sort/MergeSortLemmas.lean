import Verif.Sort.MergeSort
import Verif.Sort.QuickSortLemmas

/-! Helper lemmas for `C02`. -/

namespace LLab.Sort

variable {α : Type}

theorem readSlice_eq {β : Type} {l : List β} {start n : Nat} (h : start + n ≤ l.length) :
    readSlice l start n = some ((l.drop start).take n) := by
  simp [readSlice, h]

theorem mergeLoop_perm : ∀ (l r : List (Int × Nat)),
    (mergeLoop l r).Perm (l.map Prod.snd ++ r.map Prod.snd)
  | [], r => by simp [mergeLoop_nil, mergeLoop_cons_nil]
  | p :: l, [] => by simp [mergeLoop_nil, mergeLoop_cons_nil]
  | (x, a) :: l, (y, b) :: r => by
    rw [mergeLoop_cons_cons]
    split
    · simpa using mergeLoop_perm l ((y, b) :: r)
    · have := mergeLoop_perm ((x, a) :: l) r
      refine (List.Perm.cons b this).trans ?_
      simp only [List.map_cons, List.cons_append]
      exact (List.perm_middle (l₁ := a :: l.map Prod.snd)).symm

theorem map_snd_zip_of_length {β γ : Type} (l : List β) (r : List γ) (h : l.length = r.length) :
    (l.zip r).map Prod.snd = r := by
  rw [List.map_snd_zip (by omega)]

theorem split3 (I : List Nat) (left middle right : Nat) (h1 : left ≤ middle) (h2 : middle ≤ right) :
    I = I.take left ++ ((I.drop left).take (middle - left + 1) ++
      (I.drop (middle + 1)).take (right - middle)) ++ I.drop (right + 1) := by
  have e1 : I.drop (middle + 1) = (I.drop left).drop (middle - left + 1) := by
    rw [List.drop_drop]; congr 1; omega
  have e2 : I.drop (right + 1) = (I.drop (middle + 1)).drop (right - middle) := by
    rw [List.drop_drop]; congr 1; omega
  calc I = I.take left ++ I.drop left := (List.take_append_drop _ _).symm
    _ = I.take left ++ ((I.drop left).take (middle - left + 1) ++ I.drop (middle + 1)) := by
        congr 1; rw [e1]; exact (List.take_append_drop _ _).symm
    _ = I.take left ++ ((I.drop left).take (middle - left + 1) ++
          ((I.drop (middle + 1)).take (right - middle) ++ I.drop (right + 1))) := by
        congr 2; rw [e2]; exact (List.take_append_drop _ _).symm
    _ = _ := by simp [List.append_assoc]

theorem merge_spec (toInt : α → Int) (values : List α) (I : List Nat) (left middle right : Nat)
    (h1 : left ≤ middle) (h2 : middle ≤ right) (hv : right < values.length) (hI : right < I.length) :
    ∃ I', merge toInt values I left middle right = some I' ∧ I'.Perm I ∧
      ∀ k, (k < left ∨ right < k) → I'[k]? = I[k]? := by
  have r1 := readSlice_eq (l := values) (start := left) (n := middle - left + 1) (by omega)
  have r2 := readSlice_eq (l := I) (start := left) (n := middle - left + 1) (by omega)
  have r3 := readSlice_eq (l := values) (start := middle + 1) (n := right - middle) (by omega)
  have r4 := readSlice_eq (l := I) (start := middle + 1) (n := right - middle) (by omega)
  set A1 := (I.drop left).take (middle - left + 1) with hA1
  set A2 := (I.drop (middle + 1)).take (right - middle) with hA2
  set M := mergeLoop
    ((((values.drop left).take (middle - left + 1)).map toInt).zip A1)
    ((((values.drop (middle + 1)).take (right - middle)).map toInt).zip A2) with hM
  have hperm : M.Perm (A1 ++ A2) := by
    have := mergeLoop_perm
      ((((values.drop left).take (middle - left + 1)).map toInt).zip A1)
      ((((values.drop (middle + 1)).take (right - middle)).map toInt).zip A2)
    rw [map_snd_zip_of_length _ _ (by simp [hA1]; omega),
      map_snd_zip_of_length _ _ (by simp [hA2]; omega)] at this
    exact this
  have hlen : M.length = right + 1 - left := by
    rw [hperm.length_eq]; simp [hA1, hA2]; omega
  refine ⟨I.take left ++ M ++ I.drop (right + 1), ?_, ?_, ?_⟩
  · simp [merge, r1, r2, r3, r4, hM]
  · conv_rhs => rw [split3 I left middle right h1 h2]
    exact List.Perm.append_right _ (List.Perm.append_left _ hperm)
  · intro k hk
    have hlt : (I.take left).length = left := by simp; omega
    rcases hk with hk | hk
    · rw [List.append_assoc, List.getElem?_append_left (by omega), List.getElem?_take_of_lt hk]
    · rw [List.getElem?_append_right (by rw [List.length_append]; omega), List.getElem?_drop]
      congr 1
      rw [List.length_append]
      omega

theorem mergeSortAux_spec (toInt : α → Int) (values : List α) :
    ∀ (fuel : Nat) (I : List Nat) (left right : Nat), right + 1 - left ≤ fuel → 0 < fuel →
      right < values.length → right < I.length →
      ∃ I', mergeSortAux toInt values fuel I left right = some I' ∧ I'.Perm I ∧
        ∀ k, (k < left ∨ right < k) → I'[k]? = I[k]? := by
  intro fuel
  induction fuel with
  | zero => intro I l r _ h; omega
  | succ fuel ih =>
    intro I left right hf _ hv hI
    by_cases hlt : left < right
    · set middle := left + (right - left) / 2 with hm
      obtain ⟨I1, e1, p1, o1⟩ := ih I left middle (by omega) (by omega) (by omega) (by omega)
      obtain ⟨I2, e2, p2, o2⟩ := ih I1 (middle + 1) right (by omega) (by omega) (by omega)
        (by rw [p1.length_eq]; omega)
      obtain ⟨I3, e3, p3, o3⟩ := merge_spec toInt values I2 left middle right (by omega) (by omega)
        hv (by rw [p2.length_eq, p1.length_eq]; omega)
      refine ⟨I3, ?_, p3.trans (p2.trans p1), ?_⟩
      · simp only [mergeSortAux, hlt, if_true, ← hm]
        simp [e1, e2, e3]
      · intro k hk
        rw [o3 k hk, o2 k (by omega), o1 k (by omega)]
    · exact ⟨I, by simp [mergeSortAux, hlt], List.Perm.refl _, fun _ _ => rfl⟩

/-- Merging when the left run's keys are all at most the right run's keys
keeps the order. -/
theorem mergeLoop_of_le : ∀ (l r : List (Int × Nat)),
    (∀ p ∈ l, ∀ q ∈ r, p.1 ≤ q.1) → mergeLoop l r = l.map Prod.snd ++ r.map Prod.snd
  | [], r, _ => by simp [mergeLoop_nil, mergeLoop_cons_nil]
  | p :: l, [], _ => by simp [mergeLoop_nil, mergeLoop_cons_nil]
  | (x, a) :: l, (y, b) :: r, h => by
    rw [mergeLoop_cons_cons, if_pos (h (x, a) (by simp) (y, b) (by simp))]
    rw [mergeLoop_of_le l ((y, b) :: r) (fun p hp q hq => h p (by simp [hp]) q hq)]
    simp

theorem merge_of_le (toInt : α → Int) (values : List α) (I : List Nat) (left middle right : Nat)
    (h1 : left ≤ middle) (h2 : middle ≤ right) (hv : right < values.length) (hI : right < I.length)
    (hs : (values.map toInt).Pairwise (· ≤ ·)) :
    merge toInt values I left middle right = some I := by
  have r1 := readSlice_eq (l := values) (start := left) (n := middle - left + 1) (by omega)
  have r2 := readSlice_eq (l := I) (start := left) (n := middle - left + 1) (by omega)
  have r3 := readSlice_eq (l := values) (start := middle + 1) (n := right - middle) (by omega)
  have r4 := readSlice_eq (l := I) (start := middle + 1) (n := right - middle) (by omega)
  have key : mergeLoop
      ((((values.drop left).take (middle - left + 1)).map toInt).zip
        ((I.drop left).take (middle - left + 1)))
      ((((values.drop (middle + 1)).take (right - middle)).map toInt).zip
        ((I.drop (middle + 1)).take (right - middle))) =
      (I.drop left).take (middle - left + 1) ++ (I.drop (middle + 1)).take (right - middle) := by
    rw [mergeLoop_of_le]
    · rw [map_snd_zip_of_length _ _ (by simp; omega), map_snd_zip_of_length _ _ (by simp; omega)]
    · intro p hp q hq
      have hp1 := (List.of_mem_zip (a := p.1) (b := p.2) hp).1
      have hq1 := (List.of_mem_zip (a := q.1) (b := q.2) hq).1
      rw [List.map_take, List.map_drop] at hp1 hq1
      obtain ⟨i, hi, ei⟩ := List.mem_iff_getElem.1 hp1
      obtain ⟨j, hj, ej⟩ := List.mem_iff_getElem.1 hq1
      simp only [List.length_take, List.length_drop, List.length_map] at hi hj
      rw [← ei, ← ej]
      simp only [List.getElem_take, List.getElem_drop]
      exact List.pairwise_iff_getElem.1 hs _ _ (by simp; omega) (by simp; omega) (by omega)
  simp only [merge, r1, r2, r3, r4, Option.bind_eq_bind, Option.bind_some, key]
  rw [← split3 I left middle right h1 h2]

theorem mergeSortAux_of_le (toInt : α → Int) (values : List α)
    (hs : (values.map toInt).Pairwise (· ≤ ·)) :
    ∀ (fuel : Nat) (I : List Nat) (left right : Nat), right + 1 - left ≤ fuel → 0 < fuel →
      right < values.length → right < I.length →
      mergeSortAux toInt values fuel I left right = some I := by
  intro fuel
  induction fuel with
  | zero => intro I l r _ h; omega
  | succ fuel ih =>
    intro I left right hf _ hv hI
    by_cases hlt : left < right
    · simp only [mergeSortAux, hlt, if_true]
      rw [ih I left _ (by omega) (by omega) (by omega) (by omega)]
      simp only [Option.bind_eq_bind, Option.bind_some]
      rw [ih I _ right (by omega) (by omega) (by omega) (by omega)]
      simp only [Option.bind_some]
      exact merge_of_le toInt values I _ _ _ (by omega) (by omega) hv hI hs
    · simp [mergeSortAux, hlt]

end LLab.Sort
