import Verif.Replay.CumTree

/-! Lemmas about the implicit tree, the cumulative sums and the samplers. -/

open scoped Classical

namespace LLab.Replay

theorem parentIdx_eq {i : Nat} (hi : 0 < i) : parentIdx i = (i - 1) / 2 := by
  unfold parentIdx; split_ifs <;> omega

theorem below_lt {p q : Nat} (h : Below p q) : p < q := by
  induction h <;> omega

theorem below_iff {p q : Nat} : Below p q ↔ 0 < q ∧ ((q - 1) / 2 = p ∨ Below p ((q - 1) / 2)) := by
  constructor
  · intro h
    cases h with
    | left => exact ⟨by omega, Or.inl (by omega)⟩
    | right => exact ⟨by omega, Or.inl (by omega)⟩
    | leftUp q h => exact ⟨by omega, Or.inr (by rwa [show (2 * q + 1 - 1) / 2 = q by omega])⟩
    | rightUp q h => exact ⟨by omega, Or.inr (by rwa [show (2 * q + 2 - 1) / 2 = q by omega])⟩
  · rintro ⟨h0, h | h⟩
    · rcases Nat.even_or_odd' q with ⟨c, hc | hc⟩
      · have : q = 2 * p + 2 := by omega
        rw [this]; exact .right p
      · have : q = 2 * p + 1 := by omega
        rw [this]; exact .left p
    · rcases Nat.even_or_odd' q with ⟨c, hc | hc⟩
      · have e : q = 2 * ((q - 1) / 2) + 2 := by omega
        rw [e]; exact .rightUp _ _ h
      · have e : q = 2 * ((q - 1) / 2) + 1 := by omega
        rw [e]; exact .leftUp _ _ h

/-- `q` lies in the subtree rooted at `p`. -/
def InSub (p q : Nat) : Prop := q = p ∨ Below p q

theorem inSub_le {p q : Nat} (h : InSub p q) : p ≤ q := by
  rcases h with h | h
  · omega
  · exact (below_lt h).le

theorem below_iff_children {p q : Nat} : Below p q ↔ InSub (2 * p + 1) q ∨ InSub (2 * p + 2) q := by
  constructor
  · intro h
    induction h with
    | left => exact Or.inl (Or.inl rfl)
    | right => exact Or.inr (Or.inl rfl)
    | leftUp q h ih =>
      rcases ih with (h | h) | (h | h)
      · subst h; exact Or.inl (Or.inr (.left _))
      · exact Or.inl (Or.inr (.leftUp _ _ h))
      · subst h; exact Or.inr (Or.inr (.left _))
      · exact Or.inr (Or.inr (.leftUp _ _ h))
    | rightUp q h ih =>
      rcases ih with (h | h) | (h | h)
      · subst h; exact Or.inl (Or.inr (.right _))
      · exact Or.inl (Or.inr (.rightUp _ _ h))
      · subst h; exact Or.inr (Or.inr (.right _))
      · exact Or.inr (Or.inr (.rightUp _ _ h))
  · intro h
    have key : ∀ c, Below p c → ∀ q, Below c q → Below p q := by
      intro c hc q hq
      induction hq with
      | left => exact .leftUp _ _ hc
      | right => exact .rightUp _ _ hc
      | leftUp _ _ ih => exact .leftUp _ _ ih
      | rightUp _ _ ih => exact .rightUp _ _ ih
    rcases h with (h | h) | (h | h)
    · subst h; exact .left p
    · exact key _ (.left p) q h
    · subst h; exact .right p
    · exact key _ (.right p) q h

theorem children_disjoint (p q : Nat) (h1 : InSub (2 * p + 1) q) (h2 : InSub (2 * p + 2) q) :
    False := by
  induction q using Nat.strong_induction_on with
  | _ q ih =>
    rcases h1 with h1 | h1
    · have := inSub_le h2; omega
    · rcases h2 with h2 | h2
      · subst h2
        rw [below_iff] at h1
        rcases h1.2 with h | h
        · omega
        · have := below_lt h; omega
      · rw [below_iff] at h1 h2
        refine ih ((q - 1) / 2) (by omega) ?_ ?_
        · rcases h1.2 with h | h
          · exact Or.inl h
          · exact Or.inr h
        · rcases h2.2 with h | h
          · exact Or.inl h
          · exact Or.inr h

theorem climb_spec (p : Nat) : ∀ c, p < c → (climb p c = p ↔ Below p c) := by
  intro c
  induction c using Nat.strong_induction_on with
  | _ c ih =>
    intro hc
    have hp := parentIdx_eq (i := c) (by omega)
    rw [climb]
    by_cases h : p < parentIdx c ∧ parentIdx c < c
    · rw [if_pos h, ih _ h.2 h.1, below_iff (q := c), hp]
      constructor
      · intro hb; exact ⟨by omega, Or.inr hb⟩
      · rintro ⟨_, hb | hb⟩
        · omega
        · exact hb
    · rw [if_neg h, below_iff, hp]
      constructor
      · intro hb; exact ⟨by omega, Or.inl hb⟩
      · rintro ⟨_, hb | hb⟩
        · exact hb
        · have := below_lt hb; omega

theorem valueIsChild_iff (c p : Nat) : valueIsChild c p = true ↔ Below p c := by
  unfold valueIsChild
  by_cases h : c ≤ p
  · simp only [h, if_true]
    constructor
    · intro h; simp at h
    · intro hb; have := below_lt hb; omega
  · simp only [h, if_false, decide_eq_true_eq]
    exact climb_spec p c (by omega)

theorem insideBuffer_iff (l : List Nat) (x : Nat) : insideBuffer l x = true ↔ x ∈ l := by
  induction l with
  | nil => simp [insideBuffer]
  | cons b bs ih =>
    simp only [insideBuffer, List.mem_cons]
    by_cases h : b = x
    · simp [h]
    · have : ¬ x = b := fun e => h e.symm
      simp [h, ih, this]

theorem insideBuffer_false (l : List Nat) (x : Nat) : insideBuffer l x = false ↔ x ∉ l := by
  rw [← insideBuffer_iff, Bool.not_eq_true]

/-! ### Sums -/

section Sums

variable {F : Type} [AddCommGroup F]

/-- Sum of `w` strictly below `p`, over the nodes `< n`. -/
noncomputable def sumBelow (w : Nat → F) (n p : Nat) : F :=
  ∑ q ∈ Finset.range n, if Below p q then w q else 0

/-- Sum of `w` over the subtree of `p`. -/
noncomputable def sumSub (w : Nat → F) (n p : Nat) : F :=
  ∑ q ∈ Finset.range n, if InSub p q then w q else 0

theorem sumSub_zero (w : Nat → F) {n p : Nat} (h : n ≤ p) : sumSub w n p = 0 := by
  unfold sumSub
  apply Finset.sum_eq_zero
  intro q hq
  rw [Finset.mem_range] at hq
  rw [if_neg]
  intro hs
  have := inSub_le hs
  omega

theorem sumSub_eq (w : Nat → F) {n p : Nat} (h : p < n) : sumSub w n p = w p + sumBelow w n p := by
  unfold sumSub sumBelow
  have : ∀ q ∈ Finset.range n, (if InSub p q then w q else 0) =
      (if q = p then w q else 0) + (if Below p q then w q else 0) := by
    intro q _
    by_cases hqp : q = p
    · have h1 : InSub p q := Or.inl hqp
      have h2 : ¬ Below p q := fun hb => by have := below_lt hb; omega
      rw [if_pos h1, if_pos hqp, if_neg h2, add_zero]
    · by_cases hb : Below p q
      · have h1 : InSub p q := Or.inr hb
        simp [hqp, hb, h1]
      · have h1 : ¬ InSub p q := by rintro (h | h); exacts [hqp h, hb h]
        simp [hqp, hb, h1]
  rw [Finset.sum_congr rfl this, Finset.sum_add_distrib, Finset.sum_ite_eq' (Finset.range n) p w,
    if_pos (Finset.mem_range.2 h)]

theorem sumBelow_eq (w : Nat → F) (n p : Nat) :
    sumBelow w n p = sumSub w n (2 * p + 1) + sumSub w n (2 * p + 2) := by
  unfold sumSub sumBelow
  rw [← Finset.sum_add_distrib]
  apply Finset.sum_congr rfl
  intro q _
  by_cases h1 : InSub (2 * p + 1) q
  · have h2 : ¬ InSub (2 * p + 2) q := fun h => children_disjoint p q h1 h
    have h3 : Below p q := below_iff_children.2 (Or.inl h1)
    simp [h1, h2, h3]
  · by_cases h2 : InSub (2 * p + 2) q
    · have h3 : Below p q := below_iff_children.2 (Or.inr h2)
      simp [h1, h2, h3]
    · have h3 : ¬ Below p q := fun h => by
        rcases below_iff_children.1 h with h | h
        exacts [h1 h, h2 h]
      simp [h1, h2, h3]

theorem below_root {q : Nat} (h : 0 < q) : Below 0 q := by
  induction q using Nat.strong_induction_on with
  | _ q ih =>
    rw [below_iff]
    refine ⟨h, ?_⟩
    by_cases h0 : (q - 1) / 2 = 0
    · exact Or.inl h0
    · exact Or.inr (ih _ (by omega) (by omega))

theorem sumSub_root (w : Nat → F) (n : Nat) : sumSub w n 0 = ∑ q ∈ Finset.range n, w q := by
  unfold sumSub
  apply Finset.sum_congr rfl
  intro q _
  rw [if_pos]
  by_cases h : q = 0
  · exact Or.inl h
  · exact Or.inr (below_root (by omega))

theorem sumBelow_update (w : Nat → F) {n i : Nat} (hi : i < n) (v : F) (p : Nat) :
    sumBelow (Function.update w i v) n p =
      sumBelow w n p + (if Below p i then v - w i else 0) := by
  unfold sumBelow
  have : ∀ q ∈ Finset.range n, (if Below p q then Function.update w i v q else 0) =
      (if Below p q then w q else 0) + (if q = i then (if Below p i then v - w i else 0) else 0) := by
    intro q _
    by_cases hq : q = i
    · subst hq
      by_cases hb : Below p q <;> simp [hb]
    · by_cases hb : Below p q <;> simp [hb, hq]
  rw [Finset.sum_congr rfl this, Finset.sum_add_distrib]
  congr 1
  rw [Finset.sum_ite_eq' (Finset.range n) i (fun _ => if Below p i then v - w i else 0),
    if_pos (Finset.mem_range.2 hi)]

theorem cumUp_aux : ∀ (fuel : Nat) (a : Arr F) (i : Nat) (st : Bool) (v : F), i < fuel → i < a.len →
    ∃ a', cumUp fuel a i st v = some a' ∧ a'.len = a.len ∧
      ∀ p, a'.get p = a.get p + (if Below p i ∨ (st = false ∧ p = i) then v else 0) := by
  intro fuel
  induction fuel with
  | zero => intro a i st v h; omega
  | succ fuel ih =>
    intro a i st v hf hl
    -- the possible write at `i`
    obtain ⟨a1, e1, l1, g1⟩ : ∃ a1 : Arr F,
        (if st then some a else (a.read i).bind fun x => a.write i (x + v)) = some a1 ∧
        a1.len = a.len ∧
        ∀ p, a1.get p = a.get p + (if st = false ∧ p = i then v else 0) := by
      cases st with
      | true => exact ⟨a, by simp, rfl, by intro p; simp⟩
      | false =>
        refine ⟨⟨a.len, Function.update a.get i (a.get i + v)⟩, ?_, rfl, ?_⟩
        · simp [Arr.read, Arr.write, hl]
        · intro p
          by_cases hp : p = i
          · subst hp; simp
          · simp [hp]
    have hstep : cumUp (fuel + 1) a i st v =
        if i = 0 then some a1 else cumUp fuel a1 (parentIdx i) false v := by
      cases st with
      | true =>
        simp only [if_true, Option.some.injEq] at e1
        subst e1
        simp [cumUp]
      | false =>
        simp only [Bool.false_eq_true, if_false] at e1
        simp only [cumUp, Bool.false_eq_true, if_false, Option.bind_eq_bind]
        have hr : a.read i = some (a.get i) := Arr.read_eq hl
        rw [hr] at e1 ⊢
        simp only [Option.bind_some] at e1 ⊢
        rw [e1]
        rfl
    rw [hstep]
    by_cases h0 : i = 0
    · subst h0
      refine ⟨a1, by simp, l1, ?_⟩
      intro p
      rw [g1 p]
      have : ¬ Below p 0 := fun h => by have := below_lt h; omega
      simp [this]
    · rw [if_neg h0, parentIdx_eq (by omega)]
      obtain ⟨a2, e2, l2, g2⟩ := ih a1 ((i - 1) / 2) false v (by omega) (by omega)
      refine ⟨a2, e2, l2.trans l1, ?_⟩
      intro p
      rw [g2 p, g1 p, add_assoc]
      congr 1
      have hb : (Below p ((i - 1) / 2) ∨ (false = false ∧ p = (i - 1) / 2)) ↔ Below p i := by
        rw [below_iff (q := i)]
        constructor
        · rintro (h | ⟨_, h⟩)
          · exact ⟨by omega, Or.inr h⟩
          · exact ⟨by omega, Or.inl h.symm⟩
        · rintro ⟨_, h | h⟩
          · exact Or.inr ⟨rfl, h.symm⟩
          · exact Or.inl h
      by_cases h1 : Below p i
      · have h2 : p ≠ i := by have := below_lt h1; omega
        rw [if_pos (hb.2 h1), if_pos (Or.inl h1), if_neg (fun h => h2 h.2), zero_add]
      · rw [if_neg (fun h => h1 (hb.1 h)), add_zero]
        simp [h1]

/-- `update_recursive_cumulative_heap_up(values, index, 1, n, value)` adds `value`
to every node above `index` and touches nothing else. -/
theorem cumUp_spec (a : Arr F) (i : Nat) (v : F) (hl : i < a.len) :
    ∃ a', cumUp (i + 1) a i true v = some a' ∧ a'.len = a.len ∧
      ∀ p, a'.get p = a.get p + (if Below p i then v else 0) := by
  obtain ⟨a', e, l, g⟩ := cumUp_aux (i + 1) a i true v (by omega) hl
  refine ⟨a', e, l, ?_⟩
  intro p
  rw [g p]
  simp

end Sums

/-! ### Sampling -/

section Samp

variable {F : Type} [Field F] [LinearOrder F] [IsStrictOrderedRing F]

theorem firstFree_spec (taken : List Nat) (size i k : Nat) (h : firstFree taken size i = some k) :
    i ≤ k ∧ k < size ∧ k ∉ taken := by
  induction hn : size - i generalizing i with
  | zero =>
    rw [firstFree, if_neg (by omega)] at h
    simp at h
  | succ n ih =>
    rw [firstFree, if_pos (by omega)] at h
    by_cases hb : insideBuffer taken i = false
    · rw [if_pos hb] at h
      simp at h
      subst h
      exact ⟨le_rfl, by omega, (insideBuffer_false _ _).1 hb⟩
    · rw [if_neg hb] at h
      obtain ⟨h1, h2, h3⟩ := ih (i + 1) h (by omega)
      exact ⟨by omega, h2, h3⟩

theorem firstFree_getD_lt (taken : List Nat) (size i d : Nat) (hd : d < size) :
    (firstFree taken size i).getD d < size := by
  cases h : firstFree taken size i with
  | none => simpa using hd
  | some k => simpa using (firstFree_spec _ _ _ _ h).2.1

theorem subtractedValue_spec (index : Nat) (cur : Arr F) (n : Nat) (hn : n ≤ cur.len) :
    ∀ (ts seen : List Nat) (ret : F), (∀ t ∈ ts, t < n) →
      subtractedValue index cur seen ts ret =
        some (ret + ∑ q ∈ Finset.range n,
          if Below index q ∧ q ∈ ts ∧ q ∉ seen then cur.get q else 0) := by
  intro ts
  induction ts with
  | nil => intro seen ret _; simp [subtractedValue]
  | cons t ts ih =>
    intro seen ret ht
    have htn : t < n := ht t (by simp)
    have ih' := ih (seen ++ [t])
    have hcond : (insideBuffer seen t = false ∧ valueIsChild t index = true) ↔
        (t ∉ seen ∧ Below index t) := by
      rw [insideBuffer_false, valueIsChild_iff]
    have hsplit : ∀ (x : F), (∑ q ∈ Finset.range n,
          if Below index q ∧ q ∈ t :: ts ∧ q ∉ seen then cur.get q else 0) =
        (if t ∉ seen ∧ Below index t then cur.get t else 0) +
        ∑ q ∈ Finset.range n, if Below index q ∧ q ∈ ts ∧ q ∉ seen ++ [t] then cur.get q else 0 := by
      intro _
      have h1 : ∀ q ∈ Finset.range n,
          (if Below index q ∧ q ∈ t :: ts ∧ q ∉ seen then cur.get q else 0) =
          (if q = t then (if t ∉ seen ∧ Below index t then cur.get t else 0) else 0) +
          (if Below index q ∧ q ∈ ts ∧ q ∉ seen ++ [t] then cur.get q else 0) := by
        intro q _
        by_cases hq : q = t
        · subst hq
          by_cases hs : q ∈ seen <;> by_cases hb : Below index q <;> simp [hs, hb]
        · simp [hq]
      rw [Finset.sum_congr rfl h1, Finset.sum_add_distrib]
      congr 1
      rw [Finset.sum_ite_eq' (Finset.range n) t
        (fun _ => if t ∉ seen ∧ Below index t then cur.get t else 0),
        if_pos (Finset.mem_range.2 htn)]
    have hread : cur.read t = some (cur.get t) := Arr.read_eq (by omega)
    rw [hsplit 0]
    by_cases hc : t ∉ seen ∧ Below index t
    · rw [subtractedValue, if_pos (hcond.2 hc)]
      simp only [hread, Option.bind_eq_bind, Option.bind_some]
      rw [ih' _ (fun x hx => ht x (by simp [hx])), if_pos hc, add_assoc]
    · rw [subtractedValue, if_neg (fun h => hc (hcond.1 h))]
      simp only [Option.bind_eq_bind, Option.bind_some]
      rw [ih' _ (fun x hx => ht x (by simp [hx])), if_neg hc, zero_add]

/-- Weight that remains for drawing: zero on the already chosen positions. -/
def remaining (w : Nat → F) (taken : List Nat) (q : Nat) : F := if q ∈ taken then 0 else w q

/-- One unfolding of the sampler when all accesses are in bounds. -/
theorem weightedSample_succ (cum cur : Arr F) (size : Nat) (sum : F) (taken : List Nat)
    (hcum : size ≤ cum.len) (hcur : size ≤ cur.len) (ht : ∀ t ∈ taken, t < size)
    (fuel index : Nat) (r : F) (hi : index < size) :
    weightedSample cum cur size sum taken (fuel + 1) index r =
      (if index ∉ taken ∧ r ≤ cur.get index / sum then some index
      else if size ≤ index * 2 + 1 then some ((firstFree taken size (index + 1)).getD index)
      else if size ≤ index * 2 + 2 then
        if index * 2 + 1 ∉ taken then some (index * 2 + 1)
        else some ((firstFree taken size (index + 1)).getD (index * 2 + 1))
      else
        let v := remaining cur.get taken index / sum
        let mass := (remaining cur.get taken (index * 2 + 1) + cum.get (index * 2 + 1) -
          ∑ q ∈ Finset.range size, if Below (index * 2 + 1) q ∧ q ∈ taken then cur.get q else 0) / sum
        if r - v ≤ mass then weightedSample cum cur size sum taken fuel (index * 2 + 1) (r - v)
        else weightedSample cum cur size sum taken fuel (index * 2 + 2) (r - v - mass)) := by
  have hread : cur.read index = some (cur.get index) := Arr.read_eq (by omega)
  rw [weightedSample, if_neg (by omega)]
  by_cases hT : index ∈ taken
  · have hb : insideBuffer taken index = true := (insideBuffer_iff _ _).2 hT
    simp only [hb, Bool.true_eq_false, if_false, false_and, hT, not_true_eq_false, ge_iff_le]
    by_cases hL : size ≤ index * 2 + 1
    · simp [hL]
    · simp only [hL, if_false]
      by_cases hR : size ≤ index * 2 + 2
      · simp only [hR, if_true, insideBuffer_false, Option.bind_eq_bind, Option.bind_some]
      · simp only [hR, if_false]
        have hcl : cum.read (index * 2 + 1) = some (cum.get (index * 2 + 1)) :=
          Arr.read_eq (by omega)
        have hrl : cur.read (index * 2 + 1) = some (cur.get (index * 2 + 1)) :=
          Arr.read_eq (by omega)
        have hsub := subtractedValue_spec (index * 2 + 1) cur size hcur taken [] 0 ht
        simp only [List.not_mem_nil, not_false_eq_true, and_true, zero_add] at hsub
        by_cases hTl : index * 2 + 1 ∈ taken
        · have hbl : insideBuffer taken (index * 2 + 1) = true := (insideBuffer_iff _ _).2 hTl
          simp [hbl, hsub, hcl, remaining, hT, hTl]
        · have hbl : insideBuffer taken (index * 2 + 1) = false := (insideBuffer_false _ _).2 hTl
          simp [hbl, hsub, hcl, hrl, remaining, hT, hTl]
  · have hb : insideBuffer taken index = false := (insideBuffer_false _ _).2 hT
    simp only [hb, if_true, hread, Option.bind_eq_bind, Option.bind_some, true_and, hT,
      not_false_eq_true, ge_iff_le]
    by_cases hv : r ≤ cur.get index / sum
    · simp [hv]
    · simp only [hv, if_false]
      by_cases hL : size ≤ index * 2 + 1
      · simp [hL]
      · simp only [hL, if_false]
        by_cases hR : size ≤ index * 2 + 2
        · simp only [hR, if_true, insideBuffer_false, Option.bind_eq_bind, Option.bind_some]
        · simp only [hR, if_false]
          have hcl : cum.read (index * 2 + 1) = some (cum.get (index * 2 + 1)) :=
            Arr.read_eq (by omega)
          have hrl : cur.read (index * 2 + 1) = some (cur.get (index * 2 + 1)) :=
            Arr.read_eq (by omega)
          have hsub := subtractedValue_spec (index * 2 + 1) cur size hcur taken [] 0 ht
          simp only [List.not_mem_nil, not_false_eq_true, and_true, zero_add] at hsub
          by_cases hTl : index * 2 + 1 ∈ taken
          · have hbl : insideBuffer taken (index * 2 + 1) = true := (insideBuffer_iff _ _).2 hTl
            simp [hbl, hsub, hcl, remaining, hT, hTl]
          · have hbl : insideBuffer taken (index * 2 + 1) = false :=
              (insideBuffer_false _ _).2 hTl
            simp [hbl, hsub, hcl, hrl, remaining, hT, hTl]

theorem weightedSample_lt (cum cur : Arr F) (size : Nat) (sum : F) (taken : List Nat)
    (hcum : size ≤ cum.len) (hcur : size ≤ cur.len) (ht : ∀ t ∈ taken, t < size) :
    ∀ (fuel index : Nat) (r : F), index < size → size - index < fuel + 1 →
      ∃ k, weightedSample cum cur size sum taken fuel index r = some k ∧ k < size := by
  intro fuel
  induction fuel with
  | zero => intro index r hi hf; omega
  | succ fuel ih =>
    intro index r hi hf
    rw [weightedSample_succ cum cur size sum taken hcum hcur ht fuel index r hi]
    by_cases h1 : index ∉ taken ∧ r ≤ cur.get index / sum
    · exact ⟨index, by rw [if_pos h1], hi⟩
    · rw [if_neg h1]
      by_cases hL : size ≤ index * 2 + 1
      · exact ⟨_, by rw [if_pos hL], firstFree_getD_lt _ _ _ _ hi⟩
      · rw [if_neg hL]
        by_cases hR : size ≤ index * 2 + 2
        · rw [if_pos hR]
          by_cases hT : index * 2 + 1 ∉ taken
          · exact ⟨_, by rw [if_pos hT], by omega⟩
          · exact ⟨_, by rw [if_neg hT], firstFree_getD_lt _ _ _ _ (by omega)⟩
        · rw [if_neg hR]
          simp only
          split_ifs
          · exact ih _ _ (by omega) (by omega)
          · exact ih _ _ (by omega) (by omega)

theorem remaining_sum (w : Nat → F) (taken : List Nat) (n p : Nat) :
    sumBelow (remaining w taken) n p =
      sumBelow w n p - ∑ q ∈ Finset.range n, if Below p q ∧ q ∈ taken then w q else 0 := by
  unfold sumBelow
  rw [← Finset.sum_sub_distrib]
  apply Finset.sum_congr rfl
  intro q _
  by_cases hb : Below p q <;> by_cases hq : q ∈ taken <;> simp [hb, hq, remaining]

theorem sumSub_nonneg {w : Nat → F} (hw : ∀ q, 0 ≤ w q) (n p : Nat) : 0 ≤ sumSub w n p := by
  unfold sumSub
  apply Finset.sum_nonneg
  intro q _
  split_ifs
  · exact hw q
  · exact le_rfl

/-- The draw `r` selects `k` exactly when it falls into `k`'s interval; the
intervals of a subtree are disjoint, have the length of the remaining weight and
lie in `(0, mass]`. -/
theorem weightedSample_intervals (cum cur : Arr F) (size : Nat) (sum : F) (taken : List Nat)
    (hcum : size ≤ cum.len) (hcur : size ≤ cur.len) (ht : ∀ t ∈ taken, t < size)
    (hw : ∀ q, q < size → 0 ≤ cur.get q) (hsum : 0 < sum)
    (hinv : ∀ p, p < size → cum.get p = sumBelow cur.get size p) :
    ∀ (fuel index : Nat), index < size → size - index < fuel + 1 →
      ∃ a : Nat → F,
        (∀ k, InSub index k → k < size → 0 ≤ a k ∧
          a k + remaining cur.get taken k / sum ≤
            sumSub (remaining cur.get taken) size index / sum) ∧
        (∀ j k, InSub index j → InSub index k → j < size → k < size → j ≠ k →
          a j + remaining cur.get taken j / sum ≤ a k ∨
          a k + remaining cur.get taken k / sum ≤ a j) ∧
        (∀ r, 0 < r → r ≤ sumSub (remaining cur.get taken) size index / sum →
          ∃ k, weightedSample cum cur size sum taken fuel index r = some k ∧ InSub index k ∧
            k < size ∧ a k < r ∧ r ≤ a k + remaining cur.get taken k / sum) := by
  have hrem : ∀ q, q < size → 0 ≤ remaining cur.get taken q := by
    intro q hq; unfold remaining; split_ifs
    · exact le_rfl
    · exact hw q hq
  have hsub0 : ∀ p, 0 ≤ sumSub (remaining cur.get taken) size p := by
    intro p
    unfold sumSub
    apply Finset.sum_nonneg
    intro q hq
    split_ifs
    · exact hrem q (Finset.mem_range.1 hq)
    · exact le_rfl
  intro fuel
  induction fuel with
  | zero => intro index hi hf; omega
  | succ fuel ih =>
    intro index hi hf
    set w := remaining cur.get taken with hwdef
    have hstep := weightedSample_succ cum cur size sum taken hcum hcur ht fuel index
    have hT := sumSub_eq w hi
    have hB := sumBelow_eq w size index
    have hv0 : 0 ≤ w index / sum := div_nonneg (hrem index hi) hsum.le
    have hfirst : ∀ r : F, 0 < r → r ≤ w index / sum → index ∉ taken ∧ r ≤ cur.get index / sum := by
      intro r h0 hr
      have hnt : index ∉ taken := by
        intro h
        simp only [hwdef, remaining, h, if_true, zero_div] at hr
        exact absurd h0 (not_lt.2 hr)
      refine ⟨hnt, ?_⟩
      simpa [hwdef, remaining, hnt] using hr
    by_cases hL : size ≤ index * 2 + 1
    · -- leaf
      have e1 : sumBelow w size index = 0 := by
        rw [hB, sumSub_zero w (by omega), sumSub_zero w (by omega), add_zero]
      have honly : ∀ k, InSub index k → k < size → k = index := by
        intro k hk hks
        rcases hk with h | h
        · exact h
        · rcases below_iff_children.1 h with h | h <;> have := inSub_le h <;> omega
      refine ⟨fun _ => 0, ?_, ?_, ?_⟩
      · intro k hk hks
        rw [honly k hk hks, hT, e1, add_zero, zero_add]
        exact ⟨le_rfl, le_rfl⟩
      · intro j k hj hk hjs hks hne
        exact absurd ((honly j hj hjs).trans (honly k hk hks).symm) hne
      · intro r h0 hr
        rw [hT, e1, add_zero] at hr
        refine ⟨index, ?_, Or.inl rfl, hi, h0, by rw [zero_add]; exact hr⟩
        rw [hstep r hi, if_pos (hfirst r h0 hr)]
    · by_cases hR : size ≤ index * 2 + 2
      · -- only a left child, itself a leaf
        have hl : index * 2 + 1 < size := by omega
        have e2 : sumSub w size (2 * index + 1) = w (2 * index + 1) := by
          rw [sumSub_eq w (by omega), sumBelow_eq, sumSub_zero w (by omega),
            sumSub_zero w (by omega), add_zero, add_zero]
        have e1 : sumBelow w size index = w (index * 2 + 1) := by
          rw [hB, sumSub_zero w (by omega : size ≤ 2 * index + 2), add_zero, e2, Nat.mul_comm]
        have honly : ∀ k, InSub index k → k < size → k = index ∨ k = index * 2 + 1 := by
          intro k hk hks
          rcases hk with h | h
          · exact Or.inl h
          · rcases below_iff_children.1 h with h | h
            · rcases h with h | h
              · exact Or.inr (by omega)
              · rcases below_iff_children.1 h with h | h <;> have := inSub_le h <;> omega
            · have := inSub_le h; omega
        have hwl : 0 ≤ w (index * 2 + 1) / sum := div_nonneg (hrem _ hl) hsum.le
        have hne : index * 2 + 1 ≠ index := by omega
        refine ⟨fun k => if k = index then 0 else w index / sum, ?_, ?_, ?_⟩
        · intro k hk hks
          rw [hT, e1, add_div]
          rcases honly k hk hks with h | h
          · subst h
            simp [hwl]
          · subst h
            simp only [hne, if_false]
            exact ⟨hv0, le_rfl⟩
        · intro j k hj hk hjs hks hjk
          rcases honly j hj hjs with h | h <;> rcases honly k hk hks with h' | h'
          · omega
          · subst h; subst h'
            left; simp [hne]
          · subst h; subst h'
            right; simp [hne]
          · omega
        · intro r h0 hr
          rw [hT, e1, add_div] at hr
          by_cases hc : r ≤ w index / sum
          · refine ⟨index, ?_, Or.inl rfl, hi, by simpa using h0, by simpa using hc⟩
            rw [hstep r hi, if_pos (hfirst r h0 hc)]
          · have hc' := not_le.1 hc
            have hwlp : 0 < w (index * 2 + 1) / sum := by linarith
            have hnl : index * 2 + 1 ∉ taken := by
              intro h
              simp [hwdef, remaining, h] at hwlp
            have hnf : ¬ (index ∉ taken ∧ r ≤ cur.get index / sum) := by
              rintro ⟨h1, h2⟩
              exact hc (by simpa [hwdef, remaining, h1] using h2)
            refine ⟨index * 2 + 1, ?_, Or.inr (by rw [Nat.mul_comm]; exact .left _), hl, ?_, ?_⟩
            · rw [hstep r hi, if_neg hnf, if_neg hL, if_pos hR, if_pos hnl]
            · simpa [hne] using hc'
            · simpa [hne] using hr
      · -- two children
        have hl : index * 2 + 1 < size := by omega
        have hr' : index * 2 + 2 < size := by omega
        obtain ⟨aL, bL, dL, sL⟩ := ih (index * 2 + 1) hl (by omega)
        obtain ⟨aR, bR, dR, sR⟩ := ih (index * 2 + 2) hr' (by omega)
        have hmass : remaining cur.get taken (index * 2 + 1) + cum.get (index * 2 + 1) -
            (∑ q ∈ Finset.range size, if Below (index * 2 + 1) q ∧ q ∈ taken then cur.get q else 0) =
            sumSub w size (index * 2 + 1) := by
          rw [hinv _ hl, sumSub_eq w hl, hwdef, remaining_sum]
          ring
        set mL := sumSub w size (index * 2 + 1) / sum with hmL
        set mR := sumSub w size (index * 2 + 2) / sum with hmR
        have htot : sumSub w size index / sum = w index / sum + (mL + mR) := by
          rw [hT, hB, add_div, add_div, hmL, hmR, Nat.mul_comm 2 index]
        have hmL0 : 0 ≤ mL := div_nonneg (hsub0 _) hsum.le
        have hmR0 : 0 ≤ mR := div_nonneg (hsub0 _) hsum.le
        have hcases : ∀ k, InSub index k → k = index ∨ InSub (index * 2 + 1) k ∨
            InSub (index * 2 + 2) k := by
          intro k hk
          rcases hk with h | h
          · exact Or.inl h
          · rw [Nat.mul_comm]; exact Or.inr (below_iff_children.1 h)
        have hnL : ¬ InSub (index * 2 + 1) index := fun h => by have := inSub_le h; omega
        have hnR : ¬ InSub (index * 2 + 2) index := fun h => by have := inSub_le h; omega
        have hdisj : ∀ k, InSub (index * 2 + 1) k → InSub (index * 2 + 2) k → False := by
          intro k h1 h2
          rw [Nat.mul_comm] at h1 h2
          exact children_disjoint index k h1 h2
        rw [htot]
        refine ⟨fun k => if k = index then 0 else if InSub (index * 2 + 1) k then
          w index / sum + aL k else w index / sum + mL + aR k, ?_, ?_, ?_⟩
        · intro k hk hks
          rcases hcases k hk with h | h | h
          · subst h
            simp only [if_true, zero_add]
            exact ⟨le_rfl, by linarith⟩
          · have hki : k ≠ index := fun e => hnL (e ▸ h)
            simp only [hki, h, if_true, if_false]
            have := bL k h hks
            exact ⟨by linarith [this.1], by linarith [this.2]⟩
          · have hki : k ≠ index := fun e => hnR (e ▸ h)
            have hkl : ¬ InSub (index * 2 + 1) k := fun h' => hdisj k h' h
            simp only [hki, hkl, if_false]
            have := bR k h hks
            exact ⟨by linarith [this.1], by linarith [this.2]⟩
        · intro j k hj hk hjs hks hjk
          rcases hcases j hj with h | h | h <;> rcases hcases k hk with h' | h' | h'
          · omega
          · subst h
            have hki : k ≠ j := fun e => hjk e.symm
            simp only [if_true, hki, if_false, h', zero_add]
            left; linarith [(bL k h' hks).1]
          · subst h
            have hki : k ≠ j := fun e => hjk e.symm
            have hkl : ¬ InSub (j * 2 + 1) k := fun h'' => hdisj k h'' h'
            simp only [if_true, hki, if_false, hkl, zero_add]
            left; linarith [(bR k h' hks).1]
          · subst h'
            simp only [if_true, hjk, if_false, h, zero_add]
            right; linarith [(bL j h hjs).1]
          · have hji : j ≠ index := fun e => hnL (e ▸ h)
            have hki : k ≠ index := fun e => hnL (e ▸ h')
            simp only [hji, hki, if_false, h, h', if_true]
            rcases dL j k h h' hjs hks hjk with x | x
            · left; linarith
            · right; linarith
          · have hji : j ≠ index := fun e => hnL (e ▸ h)
            have hki : k ≠ index := fun e => hnR (e ▸ h')
            have hkl : ¬ InSub (index * 2 + 1) k := fun h'' => hdisj k h'' h'
            simp only [hji, hki, if_false, h, hkl, if_true]
            left; linarith [(bL j h hjs).2, (bR k h' hks).1]
          · subst h'
            have hkl : ¬ InSub (k * 2 + 1) j := fun h'' => hdisj j h'' h
            simp only [if_true, hjk, if_false, hkl, zero_add]
            right; linarith [(bR j h hjs).1]
          · have hji : j ≠ index := fun e => hnR (e ▸ h)
            have hki : k ≠ index := fun e => hnL (e ▸ h')
            have hkl : ¬ InSub (index * 2 + 1) j := fun h'' => hdisj j h'' h
            simp only [hji, hki, if_false, h', hkl, if_true]
            right; linarith [(bL k h' hks).2, (bR j h hjs).1]
          · have hji : j ≠ index := fun e => hnR (e ▸ h)
            have hki : k ≠ index := fun e => hnR (e ▸ h')
            have hjl : ¬ InSub (index * 2 + 1) j := fun h'' => hdisj j h'' h
            have hkl : ¬ InSub (index * 2 + 1) k := fun h'' => hdisj k h'' h'
            simp only [hji, hki, if_false, hjl, hkl]
            rcases dR j k h h' hjs hks hjk with x | x
            · left; linarith
            · right; linarith
        · intro r h0 hr
          by_cases hc : r ≤ w index / sum
          · refine ⟨index, ?_, Or.inl rfl, hi, by simpa using h0, by simpa using hc⟩
            rw [hstep r hi, if_pos (hfirst r h0 hc)]
          · have hc' := not_le.1 hc
            have hnf : ¬ (index ∉ taken ∧ r ≤ cur.get index / sum) := by
              rintro ⟨h1, h2⟩
              exact hc (by simpa [hwdef, remaining, h1] using h2)
            have hs2 : weightedSample cum cur size sum taken (fuel + 1) index r =
                if r - w index / sum ≤ mL then
                  weightedSample cum cur size sum taken fuel (index * 2 + 1) (r - w index / sum)
                else weightedSample cum cur size sum taken fuel (index * 2 + 2)
                  (r - w index / sum - mL) := by
              rw [hstep r hi, if_neg hnf, if_neg hL, if_neg hR]
              dsimp only
              rw [hmass]
            rw [hs2]
            by_cases hg : r - w index / sum ≤ mL
            · rw [if_pos hg]
              obtain ⟨k, e, h1, h2, h3, h4⟩ := sL (r - w index / sum) (by linarith) hg
              have hki : k ≠ index := fun e => hnL (e ▸ h1)
              refine ⟨k, e, Or.inr (by
                rw [below_iff_children, Nat.mul_comm 2]; exact Or.inl h1), h2, ?_, ?_⟩
              · simp only [hki, h1, if_true, if_false]; linarith
              · simp only [hki, h1, if_true, if_false]; linarith
            · rw [if_neg hg]
              obtain ⟨k, e, h1, h2, h3, h4⟩ := sR (r - w index / sum - mL)
                (by linarith [not_le.1 hg]) (by linarith)
              have hki : k ≠ index := fun e => hnR (e ▸ h1)
              have hkl : ¬ InSub (index * 2 + 1) k := fun h'' => hdisj k h'' h1
              refine ⟨k, e, Or.inr (by
                rw [below_iff_children, Nat.mul_comm 2]; exact Or.inr h1), h2, ?_, ?_⟩
              · simp only [hki, hkl, if_false]; linarith
              · simp only [hki, hkl, if_false]; linarith

end Samp

end LLab.Replay
