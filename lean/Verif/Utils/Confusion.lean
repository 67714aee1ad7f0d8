import Mathlib.Algebra.Order.Field.Basic
import Mathlib.Order.Lattice
import Mathlib.Tactic.Linarith
import Mathlib.Tactic.Positivity
import Mathlib.Tactic.FieldSimp

/-! Model of the confusion matrix and its metrics (`/repo/src/utils.c` 702-804)
and property `C07`. -/

namespace LLab.Utils

variable {α : Type} [LinearOrder α]

/-- `conf_mat[r][c]++` with bounds checks (`/repo/src/utils.c` 717-723). -/
def bump (cm : List (List Nat)) (r c : Nat) : Option (List (List Nat)) := do
  let row ← cm[r]?
  let x ← row[c]?
  some (cm.set r (row.set c (x + 1)))

/-- One iteration of the loop of `confusion_matrix` (`/repo/src/utils.c` 716-723)
for position `i` with label `r` and model output `m`.  The four C conditions are
exhaustive for comparable values; with a NaN none would hold. -/
def confStep (threshold : α) (i : Nat) (m r : α) (cm : List (List Nat)) :
    Option (List (List Nat)) :=
  if r ≥ threshold ∧ m ≥ threshold then bump cm (i * 2 + 1) (i * 2 + 1)
  else if r < threshold ∧ m < threshold then bump cm (i * 2) (i * 2)
  else if r ≥ threshold ∧ m < threshold then bump cm (i * 2 + 1) (i * 2)
  else if r < threshold ∧ m ≥ threshold then bump cm (i * 2) (i * 2 + 1)
  else some cm

/-- The loop over the positions (`/repo/src/utils.c` 715-724); the lists are the
arrays from position `i` on. -/
def confLoop (threshold : α) : Nat → List α → List α → List (List Nat) → Option (List (List Nat))
  | i, m :: ms, r :: rs, cm =>
    match confStep threshold i m r cm with
    | none => none
    | some cm' => confLoop threshold (i + 1) ms rs cm'
  | _, _, _, cm => some cm

/-- The zero matrix allocated when `cm == NULL` (`/repo/src/utils.c` 705-710). -/
def zeroMat (size : Nat) : List (List Nat) := List.replicate (2 * size) (List.replicate (2 * size) 0)

/-- `confusion_matrix(model_output, real_output, cm, size, threshold)`
(`/repo/src/utils.c` 702-727); `cm = none` is NULL.  Arrays shorter than `size`
are undefined behaviour. -/
def confusionMatrix (model real : List α) (cm : Option (List (List Nat))) (size : Nat)
    (threshold : α) : Option (List (List Nat)) :=
  if model.length < size ∨ real.length < size then none
  else confLoop threshold 0 (model.take size) (real.take size) (cm.getD (zeroMat size))

/-- A history of calls, each feeding the result of the previous one
(the intended use, see the comment at `/repo/src/utils.c` 695-699). -/
def confHistory (size : Nat) (threshold : α) :
    List (List α × List α) → List (List Nat) → Option (List (List Nat))
  | [], cm => some cm
  | (m, r) :: rest, cm =>
    match confusionMatrix m r (some cm) size threshold with
    | none => none
    | some cm' => confHistory size threshold rest cm'

/-- Cell `(r, c)`; only used where the matrix is known to be large enough. -/
def Cell (cm : List (List Nat)) (r c n : Nat) : Prop := ∃ row, cm[r]? = some row ∧ row[c]? = some n

/-- The matrix has the documented size `2*size × 2*size`. -/
def WellSized (size : Nat) (cm : List (List Nat)) : Prop :=
  cm.length = 2 * size ∧ ∀ (k : Nat) row, cm[k]? = some row → row.length = 2 * size

/-- `100 * num / den` as computed at `/repo/src/utils.c` 740-742, 760-762,
779-781, 798-800: a zero denominator gives NaN in C (all callers have
`num ≤ den`), which the next line replaces by 0. -/
def percent {F : Type} [Field F] (num den : Nat) : F :=
  if den = 0 then 0 else 100 * (num : F) / (den : F)

/-- `accuracy_array(cm,size)[i]` from the four cells of block `i`:
`tn = cm[2i][2i]`, `fp = cm[2i][2i+1]`, `fn = cm[2i+1][2i]`, `tp = cm[2i+1][2i+1]`
(`/repo/src/utils.c` 736-747). -/
def accuracyCell {F : Type} [Field F] (tn fp fn tp : Nat) : F := percent (tn + tp) (tn + tp + fn + fp)
/-- `precision_array` (`/repo/src/utils.c` 756-766). -/
def precisionCell {F : Type} [Field F] (_tn fp _fn tp : Nat) : F := percent tp (tp + fp)
/-- `sensitivity_array` (`/repo/src/utils.c` 775-785). -/
def sensitivityCell {F : Type} [Field F] (_tn _fp fn tp : Nat) : F := percent tp (tp + fn)
/-- `specificity_array` (`/repo/src/utils.c` 794-804). -/
def specificityCell {F : Type} [Field F] (tn fp _fn _tp : Nat) : F := percent tn (tn + fp)

/-! ### Lemmas -/

theorem bump_spec {size : Nat} {cm : List (List Nat)} (hw : WellSized size cm) {r c : Nat}
    (hr : r < 2 * size) (hc : c < 2 * size) :
    ∃ cm', bump cm r c = some cm' ∧ WellSized size cm' ∧
      ∀ a b n, Cell cm a b n → Cell cm' a b (if a = r ∧ b = c then n + 1 else n) := by
  have h1 : r < cm.length := by rw [hw.1]; exact hr
  have e1 := List.getElem?_eq_getElem h1
  have h2 : c < cm[r].length := by rw [hw.2 r _ e1]; exact hc
  have e2 := List.getElem?_eq_getElem h2
  refine ⟨cm.set r (cm[r].set c (cm[r][c] + 1)), ?_, ⟨?_, ?_⟩, ?_⟩
  · simp [bump, e1, e2]
  · simp [hw.1]
  · intro k row hk
    by_cases hkr : r = k
    · subst hkr
      rw [List.getElem?_set_self h1] at hk
      cases hk
      simp [hw.2 r _ e1]
    · rw [List.getElem?_set_ne hkr] at hk
      exact hw.2 k row hk
  · rintro a b n ⟨row, ha, hb⟩
    by_cases har : a = r
    · subst har
      rw [e1] at ha
      cases ha
      refine ⟨_, List.getElem?_set_self h1, ?_⟩
      by_cases hbc : b = c
      · subst hbc
        rw [e2] at hb
        cases hb
        simp [List.getElem?_set_self h2]
      · rw [List.getElem?_set_ne (Ne.symm hbc)]
        simpa [hbc] using hb
    · refine ⟨row, ?_, ?_⟩
      · rw [List.getElem?_set_ne (Ne.symm har)]; exact ha
      · simpa [har] using hb

/-- Which of the four cells of a block an instance counts in. -/
def counts (threshold : α) (actual predicted : Bool) (m r : α) : Nat :=
  if (decide (r ≥ threshold) = actual ∧ decide (m ≥ threshold) = predicted) then 1 else 0

def bit (b : Bool) : Nat := if b then 1 else 0

theorem confStep_spec {size : Nat} {cm : List (List Nat)} (hw : WellSized size cm)
    (threshold : α) (i : Nat) (hi : i < size) (m r : α) :
    ∃ cm', confStep threshold i m r cm = some cm' ∧ WellSized size cm' ∧
      (∀ actual predicted n, Cell cm (i * 2 + bit actual) (i * 2 + bit predicted) n →
        Cell cm' (i * 2 + bit actual) (i * 2 + bit predicted) (n + counts threshold actual predicted m r)) ∧
      (∀ k actual predicted n, k ≠ i → Cell cm (k * 2 + bit actual) (k * 2 + bit predicted) n →
        Cell cm' (k * 2 + bit actual) (k * 2 + bit predicted) n) := by
  have key : ∀ (A P : Bool), (decide (r ≥ threshold) = A) → (decide (m ≥ threshold) = P) →
      confStep threshold i m r cm = bump cm (i * 2 + bit A) (i * 2 + bit P) := by
    intro A P hA hP
    by_cases h1 : r ≥ threshold <;> by_cases h2 : m ≥ threshold
    all_goals
      simp only [h1, h2, decide_true, decide_false] at hA hP
      subst hA hP
      simp [confStep, bit, h1, h2, not_le.1, not_lt.2, lt_of_not_ge]
  have hb : ∀ b, bit b < 2 := by intro b; cases b <;> simp [bit]
  have b1 := hb (decide (r ≥ threshold))
  have b2 := hb (decide (m ≥ threshold))
  obtain ⟨cm', e, w, c⟩ := bump_spec hw (r := i * 2 + bit (decide (r ≥ threshold)))
    (c := i * 2 + bit (decide (m ≥ threshold))) (by omega) (by omega)
  refine ⟨cm', (key _ _ rfl rfl).trans e, w, ?_, ?_⟩
  · intro actual predicted n hn
    have := c _ _ n hn
    have hinj : ∀ a b : Bool, (i * 2 + bit a = i * 2 + bit b) ↔ (b = a) := by
      intro a b; cases a <;> cases b <;> simp [bit]
    simp only [hinj] at this
    unfold counts
    split at this
    · next h => rw [if_pos h]; exact this
    · next h => rw [if_neg h]; exact this
  · intro k actual predicted n hk hn
    have := c _ _ n hn
    have hne : ¬ (k * 2 + bit actual = i * 2 + bit (decide (r ≥ threshold)) ∧
      k * 2 + bit predicted = i * 2 + bit (decide (m ≥ threshold))) := by
      have := hb actual
      omega
    rw [if_neg hne] at this
    exact this

theorem confLoop_spec {size : Nat} (threshold : α) : ∀ (ms rs : List α) (i : Nat) (cm : List (List Nat)),
    WellSized size cm → ms.length = rs.length → i + ms.length ≤ size →
    ∃ cm', confLoop threshold i ms rs cm = some cm' ∧ WellSized size cm' ∧
      (∀ k actual predicted n m r, ms[k]? = some m → rs[k]? = some r →
        Cell cm ((i + k) * 2 + bit actual) ((i + k) * 2 + bit predicted) n →
        Cell cm' ((i + k) * 2 + bit actual) ((i + k) * 2 + bit predicted)
          (n + counts threshold actual predicted m r)) ∧
      (∀ k actual predicted n, k < i →
        Cell cm (k * 2 + bit actual) (k * 2 + bit predicted) n →
        Cell cm' (k * 2 + bit actual) (k * 2 + bit predicted) n) := by
  intro ms
  induction ms with
  | nil =>
    intro rs i cm hw _ _
    refine ⟨cm, by simp [confLoop], hw, ?_, fun k a p n _ h => h⟩
    intro k a p n m r hm
    simp at hm
  | cons m ms ih =>
    intro rs i cm hw hl hi
    cases rs with
    | nil => simp at hl
    | cons r rs =>
      obtain ⟨cm1, e1, w1, c1, o1⟩ := confStep_spec hw threshold i (by simp at hi; omega) m r
      obtain ⟨cm2, e2, w2, c2, o2⟩ := ih rs (i + 1) cm1 w1 (by simpa using hl) (by simp at hi; omega)
      refine ⟨cm2, by simp [confLoop, e1, e2], w2, ?_, ?_⟩
      · intro k a p n m' r' hm hr hc
        cases k with
        | zero =>
          simp at hm hr
          subst hm hr
          simp only [Nat.add_zero] at hc ⊢
          exact o2 i a p _ (by omega) (c1 a p n hc)
        | succ k =>
          simp at hm hr
          have e : i + (k + 1) = i + 1 + k := by omega
          rw [e] at hc ⊢
          exact c2 k a p n m' r' hm hr (o1 _ a p n (by omega) hc)
      · intro k a p n hk hc
        exact o2 k a p n (by omega) (o1 k a p n (by omega) hc)

/-! ### Properties -/

/-- Number of calls of the history whose instance at position `k` has the given
actual and predicted class. -/
def countHistory (threshold : α) (k : Nat) (actual predicted : Bool)
    (h : List (List α × List α)) : Nat :=
  h.countP (fun mr => (mr.2[k]?.any (fun r => decide (r ≥ threshold) = actual)) &&
    (mr.1[k]?.any (fun m => decide (m ≥ threshold) = predicted)))

theorem countHistory_cons (threshold : α) (k : Nat) (a p : Bool) (m r : List α)
    (rest : List (List α × List α)) (x y : α) (hkm : m[k]? = some x) (hkr : r[k]? = some y) :
    countHistory threshold k a p ((m, r) :: rest) =
        counts threshold a p x y + countHistory threshold k a p rest := by
  simp only [countHistory, List.countP_cons, hkm, hkr, Option.any_some, counts,
    Bool.and_eq_true, decide_eq_true_eq]
  omega

/-- **C07, counts.** After any history of calls on arrays of the documented size,
each of the four cells of block `k` holds its old value plus the number of calls
in which output `k` had that actual class (row) and predicted class (column);
no access is out of bounds. -/
theorem C07_confusion_counts (size : Nat) (threshold : α) (h : List (List α × List α)) :
    ∀ (cm : List (List Nat)), WellSized size cm →
    (∀ mr ∈ h, mr.1.length = size ∧ mr.2.length = size) →
    ∃ cm', confHistory size threshold h cm = some cm' ∧ WellSized size cm' ∧
      ∀ k actual predicted n, k < size → Cell cm (k * 2 + bit actual) (k * 2 + bit predicted) n →
        Cell cm' (k * 2 + bit actual) (k * 2 + bit predicted)
          (n + countHistory threshold k actual predicted h) := by
  induction h with
  | nil =>
    intro cm hw _
    exact ⟨cm, rfl, hw, fun k a p n _ hc => by simpa [countHistory] using hc⟩
  | cons mr rest ih =>
    obtain ⟨m, r⟩ := mr
    intro cm hw hlen
    have hmr := hlen (m, r) (by simp)
    simp only at hmr
    obtain ⟨cm1, e1, w1, c1, _⟩ := confLoop_spec threshold m r 0 cm hw (by omega) (by omega)
    obtain ⟨cm2, e2, w2, c2⟩ := ih cm1 w1 (fun x hx => hlen x (by simp [hx]))
    have e0 : confusionMatrix m r (some cm) size threshold = some cm1 := by
      rw [confusionMatrix, if_neg (by omega), List.take_of_length_le (by omega),
        List.take_of_length_le (by omega)]
      exact e1
    refine ⟨cm2, by simp [confHistory, e0, e2], w2, ?_⟩
    intro k a p n hk hc
    have hkm : m[k]? = some m[k] := List.getElem?_eq_getElem (by omega)
    have hkr : r[k]? = some r[k] := List.getElem?_eq_getElem (by omega)
    have h1 := c1 k a p n _ _ hkm hkr (by simpa using hc)
    simp only [Nat.zero_add] at h1
    have h2 := c2 k a p _ hk h1
    rw [countHistory_cons threshold k a p m r rest _ _ hkm hkr, ← Nat.add_assoc]
    exact h2

/-- For every output position the four counts add up to the number of calls. -/
theorem countHistory_total (size : Nat) (threshold : α) (h : List (List α × List α))
    (hlen : ∀ mr ∈ h, mr.1.length = size ∧ mr.2.length = size) (k : Nat) (hk : k < size) :
    countHistory threshold k false false h + countHistory threshold k false true h +
      countHistory threshold k true false h + countHistory threshold k true true h = h.length := by
  induction h with
  | nil => simp [countHistory]
  | cons mr rest ih =>
    obtain ⟨m, r⟩ := mr
    have hmr := hlen (m, r) (by simp)
    simp only at hmr
    have ih' := ih (fun x hx => hlen x (by simp [hx]))
    have hkm : m[k]? = some m[k] := List.getElem?_eq_getElem (by omega)
    have hkr : r[k]? = some r[k] := List.getElem?_eq_getElem (by omega)
    simp only [countHistory_cons threshold k _ _ m r rest _ _ hkm hkr, List.length_cons]
    have : counts threshold false false m[k] r[k] + counts threshold false true m[k] r[k] +
        counts threshold true false m[k] r[k] + counts threshold true true m[k] r[k] = 1 := by
      unfold counts
      by_cases h1 : r[k] ≥ threshold <;> by_cases h2 : m[k] ≥ threshold <;> simp [h1, h2]
    omega

/-- **C07, metrics.** Accuracy, precision, sensitivity and specificity computed
from any counts are percentages between 0 and 100. -/
theorem C07_metrics_range {F : Type} [Field F] [LinearOrder F] [IsStrictOrderedRing F]
    (tn fp fn tp : Nat) :
    (0 ≤ (accuracyCell tn fp fn tp : F) ∧ (accuracyCell tn fp fn tp : F) ≤ 100) ∧
    (0 ≤ (precisionCell tn fp fn tp : F) ∧ (precisionCell tn fp fn tp : F) ≤ 100) ∧
    (0 ≤ (sensitivityCell tn fp fn tp : F) ∧ (sensitivityCell tn fp fn tp : F) ≤ 100) ∧
    (0 ≤ (specificityCell tn fp fn tp : F) ∧ (specificityCell tn fp fn tp : F) ≤ 100) := by
  have main : ∀ num den : Nat, num ≤ den →
      0 ≤ (percent num den : F) ∧ (percent num den : F) ≤ 100 := by
    intro num den h
    unfold percent
    split
    · exact ⟨le_refl _, by norm_num⟩
    · next hd =>
      have hpos : (0 : F) < den := by exact_mod_cast Nat.pos_of_ne_zero hd
      have hle : (num : F) ≤ den := by exact_mod_cast h
      constructor
      · positivity
      · rw [div_le_iff₀ hpos]; nlinarith
  exact ⟨main _ _ (by omega), main _ _ (by omega), main _ _ (by omega), main _ _ (by omega)⟩

/-- **C07, perfect predictions.** The percentages are right at the top end:
accuracy is 100 exactly when there is an instance and none is misclassified. -/
theorem C07_accuracy_full {F : Type} [Field F] [LinearOrder F] [IsStrictOrderedRing F]
    (tn fp fn tp : Nat) :
    (accuracyCell tn fp fn tp : F) = 100 ↔ (fp = 0 ∧ fn = 0 ∧ 0 < tn + tp) := by
  unfold accuracyCell percent
  split
  · next h =>
    constructor
    · intro hc; norm_num at hc
    · intro hc; omega
  · next hd =>
    have hpos : (0 : F) < ((tn + tp + fn + fp : Nat) : F) := by exact_mod_cast Nat.pos_of_ne_zero hd
    rw [div_eq_iff hpos.ne']
    have h100 : (100 : F) ≠ 0 := by norm_num
    rw [mul_right_inj' h100]
    constructor
    · intro e
      have e' : tn + tp = tn + tp + fn + fp := by exact_mod_cast e
      omega
    · rintro ⟨h1, h2, _⟩
      subst h1 h2
      simp

theorem zeroMat_wellSized (size : Nat) : WellSized size (zeroMat size) := by
  refine ⟨by simp [zeroMat], ?_⟩
  intro k row h
  obtain ⟨hk, e⟩ := List.getElem?_eq_some_iff.1 h
  simp only [zeroMat, List.getElem_replicate] at e
  rw [← e]; simp

theorem zeroMat_cell (size r c : Nat) (hr : r < 2 * size) (hc : c < 2 * size) :
    Cell (zeroMat size) r c 0 := by
  refine ⟨List.replicate (2 * size) 0, ?_, ?_⟩
  · simp [zeroMat, List.getElem?_replicate, hr]
  · simp [List.getElem?_replicate, hc]

/-- **C07, one cell per instance.** Starting from the zero matrix, after any history
of calls the four cells of the block of an output add up to the number of calls:
every instance is counted in exactly one of them. -/
theorem C07_confusion_total (size : Nat) (threshold : α) (h : List (List α × List α))
    (hlen : ∀ mr ∈ h, mr.1.length = size ∧ mr.2.length = size) :
    ∃ cm', confHistory size threshold h (zeroMat size) = some cm' ∧
      ∀ k, k < size → ∃ tn fp fn tp : Nat, Cell cm' (k * 2) (k * 2) tn ∧ Cell cm' (k * 2) (k * 2 + 1) fp ∧
        Cell cm' (k * 2 + 1) (k * 2) fn ∧ Cell cm' (k * 2 + 1) (k * 2 + 1) tp ∧ tn + fp + fn + tp = h.length := by
  obtain ⟨cm', e, _, c⟩ := C07_confusion_counts size threshold h (zeroMat size) (zeroMat_wellSized size) hlen
  refine ⟨cm', e, fun k hk => ?_⟩
  have hc := fun a p => c k a p 0 hk (zeroMat_cell size _ _ (by cases a <;> simp [bit] <;> omega)
    (by cases p <;> simp [bit] <;> omega))
  exact ⟨_, _, _, _, hc false false, hc false true, hc true false, hc true true, by
    have := countHistory_total size threshold h hlen k hk
    omega⟩

/-- Non-vacuity: the zero matrix and two calls on two outputs. -/
example : ∃ cm', confHistory 2 (5 : Int) [([9, 1], [7, 8]), ([2, 6], [9, 6])] (zeroMat 2) = some cm' ∧
    Cell cm' 1 1 1 := by
  obtain ⟨cm', e, c⟩ := C07_confusion_total 2 (5 : Int) [([9, 1], [7, 8]), ([2, 6], [9, 6])] (by simp)
  refine ⟨cm', e, ?_⟩
  obtain ⟨cm2, e2, _, c2⟩ := C07_confusion_counts 2 (5 : Int) [([9, 1], [7, 8]), ([2, 6], [9, 6])]
    (zeroMat 2) (zeroMat_wellSized 2) (by simp)
  rw [e] at e2
  cases e2
  exact c2 0 true true 0 (by omega) (zeroMat_cell 2 _ _ (by simp [bit]) (by simp [bit]))

/-- Non-vacuity: two calls on two outputs starting from the zero matrix. -/
example : ∃ cm', confHistory 2 (5 : Int) [([9, 1], [7, 8]), ([2, 6], [9, 6])] (zeroMat 2) = some cm' ∧
    Cell cm' 1 1 1 ∧ Cell cm' 1 0 1 ∧ Cell cm' 3 3 1 ∧ Cell cm' 3 2 1 := by
  obtain ⟨cm', e, _, c⟩ := C07_confusion_counts 2 (5 : Int) [([9, 1], [7, 8]), ([2, 6], [9, 6])]
    (zeroMat 2) (zeroMat_wellSized 2) (by simp)
  refine ⟨cm', e, ?_, ?_, ?_, ?_⟩
  · exact c 0 true true 0 (by omega) (zeroMat_cell 2 _ _ (by simp [bit]) (by simp [bit]))
  · exact c 0 true false 0 (by omega) (zeroMat_cell 2 _ _ (by simp [bit]) (by simp [bit]))
  · exact c 1 true true 0 (by omega) (zeroMat_cell 2 _ _ (by simp [bit]) (by simp [bit]))
  · exact c 1 true false 0 (by omega) (zeroMat_cell 2 _ _ (by simp [bit]) (by simp [bit]))

end LLab.Utils
