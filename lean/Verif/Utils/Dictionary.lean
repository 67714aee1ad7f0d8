import Mathlib.Data.List.Infix
import Mathlib.Tactic.Common

/-!
Model of the integer-array dictionary (`/repo/src/dictionary.c` 30-70) and
property `C08`.
-/

namespace LLab.Dict

/-- `struct mystruct` reachable from a `mystruct*` (`/repo/src/llab.h` 687-691);
`nil` is the NULL pointer. -/
inductive Trie where
  | nil : Trie
  | node (c : Int) (brother son : Trie) : Trie
deriving Repr

/-- `check_int_array(array, ms, size, index)` (`/repo/src/dictionary.c` 30-70).
The pair (`array`, `index`) is represented by the list of the remaining
elements `array[index..size-1]`.  Returns the answer and the new contents of
`*ms`. -/
def check : Trie → List Int → Bool × Trie
  | t, [] => (true, t)
  | .nil, x :: xs =>
    if xs = [] then (false, .node x .nil .nil)
    else
      let r := check .nil xs
      (r.1, .node x .nil r.2)
  | .node c b s, x :: xs =>
    if c = x then
      let r := check s xs
      (r.1, .node c b r.2)
    else
      match b with
      | .nil =>
        if xs = [] then (false, .node c (.node x .nil .nil) s)
        else
          let r := check .nil xs
          (r.1, .node c (.node x .nil r.2) s)
      | .node c2 b2 s2 =>
        if c2 ≠ x then
          let r := check b2 (x :: xs)
          (r.1, .node c (.node c2 r.2 s2) s)
        else
          let r := check s2 xs
          (r.1, .node c (.node c2 b2 r.2) s)
termination_by t xs => (xs.length, sizeOf t)

/-- The dictionary after a history of calls starting from an empty one. -/
def afterCalls (history : List (List Int)) : Trie :=
  history.foldl (fun t a => (check t a).2) .nil

/-- Paths present in the trie, following the first matching sibling. -/
def mem : Trie → List Int → Prop
  | _, [] => True
  | .nil, _ :: _ => False
  | .node c b s, x :: xs => if c = x then mem s xs else mem b (x :: xs)
termination_by t xs => (xs.length, sizeOf t)

theorem mem_empty (t : Trie) : mem t [] := by
  cases t <;> simp [mem]

theorem check_fst (t : Trie) (xs : List Int) : (check t xs).1 = true ↔ mem t xs := by
  fun_induction check t xs with
  | case1 t => simp [mem_empty]
  | case2 x => simp [mem]
  | case3 x xs hx r ih =>
    cases xs with
    | nil => contradiction
    | cons y ys => simp only [r, ih, mem]
  | case4 b s x xs r ih => simp only [r, ih, mem, if_true]
  | case5 c s x hne => simp [mem, hne]
  | case6 c s x xs hne hx r ih =>
    cases xs with
    | nil => contradiction
    | cons y ys => simp only [r, ih, mem, if_neg hne]
  | case7 c s x xs hne c2 b2 s2 hne2 r ih => simp only [r, ih, mem, if_neg hne, if_neg hne2]
  | case8 c s x xs hne c2 b2 s2 heq r ih =>
    have heq' : c2 = x := by simpa using heq
    simp only [r, ih, mem, if_neg hne, if_pos heq']

theorem nil_check_mem (xs : List Int) : ∀ ys, mem (check .nil xs).2 ys ↔ ys <+: xs := by
  induction xs with
  | nil => intro ys; cases ys <;> simp [check, mem]
  | cons x xs ih =>
    intro ys
    cases ys with
    | nil => simp [mem_empty]
    | cons y ys =>
      rw [check]
      by_cases hx : xs = []
      · subst hx
        cases ys <;> simp [mem, List.cons_prefix_cons, eq_comm]
      · simp [hx, mem, List.cons_prefix_cons, ih, eq_comm]

theorem check_snd (t : Trie) (xs : List Int) :
    ∀ ys, mem (check t xs).2 ys ↔ (mem t ys ∨ ys <+: xs) := by
  fun_induction check t xs with
  | case1 t =>
    intro ys
    cases ys <;> simp [mem_empty]
  | case2 x =>
    intro ys
    cases ys with
    | nil => simp [mem_empty]
    | cons y ys => cases ys <;> simp [mem, List.cons_prefix_cons, eq_comm]
  | case3 x xs hx r ih =>
    intro ys
    cases ys with
    | nil => simp [mem_empty]
    | cons y ys =>
      have := nil_check_mem xs ys
      simp only [mem, List.cons_prefix_cons, r, this]
      by_cases h : x = y <;> simp [h, eq_comm]
  | case4 b s x xs r ih =>
    intro ys
    cases ys with
    | nil => simp [mem_empty]
    | cons y ys =>
      simp only [mem, List.cons_prefix_cons, r, ih]
      by_cases h : x = y
      · simp [h]
      · simp [h, Ne.symm h]
  | case5 c s x hne =>
    intro ys
    cases ys with
    | nil => simp [mem_empty]
    | cons y ys =>
      by_cases h : c = y
      · subst h
        simp [mem, List.cons_prefix_cons, hne]
      · by_cases h2 : x = y
        · subst h2
          cases ys <;> simp [mem, h]
        · simp [mem, List.cons_prefix_cons, h, h2, Ne.symm h2]
  | case6 c s x xs hne hx r ih =>
    intro ys
    cases ys with
    | nil => simp [mem_empty]
    | cons y ys =>
      have := nil_check_mem xs ys
      by_cases h : c = y
      · subst h
        simp [mem, List.cons_prefix_cons, hne]
      · by_cases h2 : x = y
        · subst h2
          simp [mem, h, r, this, List.cons_prefix_cons]
        · simp [mem, List.cons_prefix_cons, h, h2, Ne.symm h2]
  | case7 c s x xs hne c2 b2 s2 hne2 r ih =>
    intro ys
    cases ys with
    | nil => simp [mem_empty]
    | cons y ys =>
      by_cases h : c = y
      · subst h
        simp [mem, List.cons_prefix_cons, hne]
      · by_cases h2 : c2 = y
        · subst h2
          simp [mem, h, List.cons_prefix_cons, hne2]
        · simp [mem, h, h2, r, ih]
  | case8 c s x xs hne c2 b2 s2 heq r ih =>
    intro ys
    have heq' : c2 = x := by simpa using heq
    subst heq'
    cases ys with
    | nil => simp [mem_empty]
    | cons y ys =>
      by_cases h : c = y
      · subst h
        simp [mem, List.cons_prefix_cons, hne]
      · by_cases h2 : c2 = y
        · subst h2
          simp [mem, h, r, ih, List.cons_prefix_cons]
        · simp [mem, h, h2, List.cons_prefix_cons, Ne.symm h2]

theorem foldl_mem (history : List (List Int)) :
    ∀ t ys, mem (history.foldl (fun t a => (check t a).2) t) ys ↔
      (mem t ys ∨ ∃ h ∈ history, ys <+: h) := by
  induction history with
  | nil => intro t ys; simp
  | cons a rest ih =>
    intro t ys
    simp only [List.foldl_cons, ih, check_snd, List.mem_cons, exists_eq_or_imp, or_assoc]

/-- **C08.** After any history of calls, `check_int_array` on `a` answers 1
exactly when `a` is empty or a prefix of an array passed before. -/
theorem C08_dictionary (history : List (List Int)) (a : List Int) :
    (check (afterCalls history) a).1 = true ↔ (a = [] ∨ ∃ h ∈ history, a <+: h) := by
  rw [check_fst, afterCalls, foldl_mem]
  cases a with
  | nil => simp [mem_empty]
  | cons x xs => simp [mem]

/-- **C08, fixed length.** When all arrays of the history have the length of
`a` (as the callers of the dictionary use it), the answer is exact membership:
1 iff `a` itself was passed before. -/
theorem C08_dictionary_fixed_length (history : List (List Int)) (a : List Int)
    (hlen : ∀ h ∈ history, h.length = a.length) (ha : a ≠ []) :
    (check (afterCalls history) a).1 = true ↔ a ∈ history := by
  rw [C08_dictionary]
  constructor
  · rintro (h | ⟨h, hm, hp⟩)
    · exact absurd h ha
    · rwa [hp.eq_of_length (hlen h hm).symm]
  · intro h
    exact Or.inr ⟨a, h, List.prefix_refl a⟩

/-- Non-vacuity, and the edge of the claim: a strict prefix of an inserted array
is reported as seen although it was never inserted. -/
example : (check (afterCalls [[1, 2, 3], [1, 4, 3]]) [1, 4, 3]).1 = true ∧
    (check (afterCalls [[1, 2, 3], [1, 4, 3]]) [1, 3, 3]).1 ≠ true ∧
    (check (afterCalls [[1, 2, 3], [1, 4, 3]]) [1, 2]).1 = true := by
  refine ⟨?_, ?_, ?_⟩
  · rw [C08_dictionary_fixed_length _ _ (by simp) (by simp)]; simp
  · rw [Ne, C08_dictionary_fixed_length _ _ (by simp) (by simp)]; simp
  · rw [C08_dictionary]
    exact Or.inr ⟨[1, 2, 3], by simp, ⟨[3], rfl⟩⟩

end LLab.Dict
