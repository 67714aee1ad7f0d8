import Verif.Common.Mat
import Mathlib.Data.Finset.Card
import Mathlib.Data.Finset.Range
import Mathlib.Logic.Function.Basic
import Mathlib.Logic.Relation
import Mathlib.Tactic.Linarith

/-!
`there_are_no_cycles` (`/repo/src/struct_conn_handler.c` 51-78), the check of a graph
of connected structures. Property C51.

The structures are numbered; `visited` and `depth` of all of them are a function to
`Option Int`, `none` for a structure not visited yet. The recursion takes a fuel
argument, and running out of it is `none`: the theorems give a sufficient fuel.
-/

namespace LLab.Cycles

/-- The connections of the structures. -/
structure Graph where
  inputs : Nat → List Nat
  outputs : Nat → List Nat

/-- `visited` and `depth`. -/
abbrev Marks := Nat → Option Int

/-- One of the two loops of `there_are_no_cycles`: `rec` is the recursive call on the
neighbour at depth `depth+step`, and `bad e depth` is the rejection of a visited
neighbour of depth `e`. -/
def scan (rec : Nat → Int → Marks → Option (Bool × Marks)) (step : Int) (bad : Int → Int → Bool) :
    List Nat → Int → Marks → Option (Bool × Marks)
  | [], _, σ => some (true, σ)
  | c :: cs, d, σ =>
    match σ c with
    | none => (rec c (d + step) σ).bind fun r => if r.1 then scan rec step bad cs d r.2 else some (false, r.2)
    | some e => if bad e d then some (false, σ) else scan rec step bad cs d σ

/-- `there_are_no_cycles` (`/repo/src/struct_conn_handler.c` 51-78). -/
def noCycles (G : Graph) : Nat → Nat → Int → Marks → Option (Bool × Marks)
  | 0, _, _, _ => none
  | fuel + 1, s, depth, σ =>
    (scan (noCycles G fuel) (-1) (fun e d => decide (e > d)) (G.inputs s) depth (Function.update σ s (some depth))).bind fun r =>
      if r.1 then scan (noCycles G fuel) 1 (fun e d => decide (e < d)) (G.outputs s) depth r.2 else some (false, r.2)

/-- Nothing visited. -/
def fresh : Marks := fun _ => none

/-! ### Specification -/

/-- A connection from `u` to `v`. -/
def Edge (G : Graph) (u v : Nat) : Prop := v ∈ G.outputs u ∨ u ∈ G.inputs v

/-- No structure can be reached from itself by following connections. -/
def Acyclic (G : Graph) : Prop := ∀ v, ¬ Relation.TransGen (Edge G) v v

/-- Every connection goes from one level to the next. -/
def Levelled (G : Graph) (level : Nat → Int) : Prop := ∀ u v, Edge G u v → level v = level u + 1

theorem Levelled.acyclic (G : Graph) (level : Nat → Int) (h : Levelled G level) : Acyclic G := by
  have key : ∀ u v, Relation.TransGen (Edge G) u v → level u < level v := by
    intro u v huv
    induction huv with
    | single e => have := h _ _ e; omega
    | tail _ e ih => have := h _ _ e; omega
  intro v hv
  exact lt_irrefl _ (key v v hv)

/-- The number of structures not visited. -/
def unvisited (n : Nat) (σ : Marks) : Nat := ((Finset.range n).filter fun x => σ x = none).card

/-- Marks are kept. -/
def Ext (σ τ : Marks) : Prop := ∀ x, σ x ≠ none → τ x = σ x

theorem Ext.trans {σ τ υ : Marks} (h1 : Ext σ τ) (h2 : Ext τ υ) : Ext σ υ := by
  intro x hx
  have := h1 x hx
  rw [← this]
  exact h2 x (by rw [this]; exact hx)

theorem unvisited_le {n : Nat} {σ τ : Marks} (h : Ext σ τ) : unvisited n τ ≤ unvisited n σ := by
  refine Finset.card_le_card fun x hx => ?_
  rw [Finset.mem_filter] at hx ⊢
  refine ⟨hx.1, ?_⟩
  by_contra hne
  exact hne ((h x hne) ▸ hx.2)

/-- Depths are levels up to a shift. -/
def Inv (level : Nat → Int) (k : Int) (σ : Marks) : Prop := ∀ x e, σ x = some e → e = level x + k

theorem scan_ok (n : Nat) (level : Nat → Int) (k : Int) (fuel : Nat) (rec : Nat → Int → Marks → Option (Bool × Marks))
    (hrec : ∀ c d σ, c < n → σ c = none → unvisited n σ ≤ fuel → Inv level k σ → d = level c + k →
      ∃ τ, rec c d σ = some (true, τ) ∧ Inv level k τ ∧ Ext σ τ)
    (step : Int) (bad : Int → Int → Bool) (hbad : ∀ d, bad (d + step) d = false) (s : Nat) (cs : List Nat) (hcs : ∀ c ∈ cs, c < n ∧
      level c = level s + step) (d : Int) (hd : d = level s + k) (σ : Marks) (hu : unvisited n σ ≤ fuel) (hi : Inv level k σ) :
    ∃ τ, scan rec step bad cs d σ = some (true, τ) ∧ Inv level k τ ∧ Ext σ τ := by
  induction cs generalizing σ with
  | nil => exact ⟨σ, rfl, hi, fun x _ => rfl⟩
  | cons c cs ih =>
    obtain ⟨hc, hl⟩ := hcs c (by simp)
    unfold scan
    cases hσ : σ c with
    | none =>
      obtain ⟨τ, e1, hi1, he1⟩ := hrec c (d + step) σ hc hσ hu hi (by rw [hl, hd]; ring)
      obtain ⟨υ, e2, hi2, he2⟩ := ih (fun c hc => hcs c (by simp [hc])) τ (le_trans (unvisited_le he1) hu) hi1
      refine ⟨υ, ?_, hi2, he1.trans he2⟩
      refine (bind_some_of e1).trans ?_
      rw [if_pos rfl]
      exact e2
    | some e =>
      have he := hi c e hσ
      have : bad e d = false := by
        have e1 : e = d + step := by rw [he, hl, hd]; ring
        rw [e1]
        exact hbad d
      dsimp only
      rw [this, if_neg (by simp)]
      exact ih (fun c hc => hcs c (by simp [hc])) σ hu hi

theorem noCycles_ok (G : Graph) (n : Nat) (level : Nat → Int) (k : Int) (hG : Levelled G level)
    (hn : ∀ s, s < n → (∀ c ∈ G.inputs s, c < n) ∧ ∀ c ∈ G.outputs s, c < n) (fuel : Nat) (s : Nat) (d : Int) (σ : Marks) (hs : s < n)
    (hσ : σ s = none) (hu : unvisited n σ ≤ fuel) (hi : Inv level k σ) (hd : d = level s + k) :
    ∃ τ, noCycles G fuel s d σ = some (true, τ) ∧ Inv level k τ ∧ Ext σ τ := by
  induction fuel generalizing s d σ with
  | zero =>
    exfalso
    have : s ∈ (Finset.range n).filter fun x => σ x = none := Finset.mem_filter.2 ⟨Finset.mem_range.2 hs, hσ⟩
    have := Finset.card_pos.2 ⟨s, this⟩
    unfold unvisited at hu
    omega
  | succ fuel ih =>
    have hext : Ext σ (Function.update σ s (some d)) := by
      intro x hx
      have hne : x ≠ s := fun h => hx (by rw [h]; exact hσ)
      rw [Function.update_of_ne hne]
    have hlt : unvisited n (Function.update σ s (some d)) ≤ fuel := by
      have : unvisited n (Function.update σ s (some d)) < unvisited n σ := by
        refine Finset.card_lt_card ((Finset.ssubset_iff_of_subset fun x hx => ?_).2
          ⟨s, Finset.mem_filter.2 ⟨Finset.mem_range.2 hs, hσ⟩, fun hx => ?_⟩)
        · rw [Finset.mem_filter] at hx ⊢
          refine ⟨hx.1, ?_⟩
          by_contra hne
          exact hne ((hext x hne) ▸ hx.2)
        · have := (Finset.mem_filter.1 hx).2
          rw [Function.update_self] at this
          cases this
      omega
    have hi0 : Inv level k (Function.update σ s (some d)) := by
      intro x e hx
      by_cases hxs : x = s
      · rw [hxs, Function.update_self] at hx
        rw [← Option.some.inj hx, hd, hxs]
      · rw [Function.update_of_ne hxs] at hx
        exact hi x e hx
    obtain ⟨h1, h2⟩ := hn s hs
    obtain ⟨τ, e1, hi1, he1⟩ := scan_ok n level k fuel (noCycles G fuel) (fun c d σ hc hσ hu hi hd => ih c d σ hc hσ hu hi hd) (-1)
      (fun e d => decide (e > d)) (fun d => by simp) s (G.inputs s)
      (fun c hc => ⟨h1 c hc, by have := hG c s (Or.inr hc); omega⟩) d hd _ hlt hi0
    obtain ⟨υ, e2, hi2, he2⟩ := scan_ok n level k fuel (noCycles G fuel) (fun c d σ hc hσ hu hi hd => ih c d σ hc hσ hu hi hd) 1
      (fun e d => decide (e < d)) (fun d => by simp) s (G.outputs s)
      (fun c hc => ⟨h2 c hc, hG s c (Or.inl hc)⟩) d hd _ (le_trans (unvisited_le he1) hlt) hi1
    refine ⟨υ, ?_, hi2, (hext.trans he1).trans he2⟩
    unfold noCycles
    refine (bind_some_of e1).trans ?_
    rw [if_pos rfl]
    exact e2

/-- **C51 (partial: graphs in levels).** Every finite graph whose connections all go
from one level to the next has no cycle, and the check accepts it from every
structure. -/
theorem C51_levelled_partial (G : Graph) (n : Nat) (level : Nat → Int) (hG : Levelled G level)
    (hn : ∀ s, s < n → (∀ c ∈ G.inputs s, c < n) ∧ ∀ c ∈ G.outputs s, c < n) (s : Nat) (hs : s < n) (depth : Int) :
    Acyclic G ∧ ∃ τ, noCycles G n s depth fresh = some (true, τ) := by
  refine ⟨hG.acyclic, ?_⟩
  have hu : unvisited n fresh ≤ n := by
    refine le_trans (Finset.card_filter_le _ _) ?_
    rw [Finset.card_range]
  obtain ⟨τ, h, _⟩ := noCycles_ok G n level (depth - level s) hG hn n s depth fresh hs rfl hu (fun x e h => by cases h) (by ring)
  exact ⟨τ, h⟩

/-- A diamond: 0 to 1 and 2, both to 3. -/
example : Levelled ⟨fun v => if v = 3 then [1, 2] else if v = 1 ∨ v = 2 then [0] else [],
    fun v => if v = 0 then [1, 2] else if v = 1 ∨ v = 2 then [3] else []⟩ (fun v => if v = 0 then 0 else if v = 3 then 2 else 1) := by
  intro u v h
  rcases h with h | h
  · dsimp only at h ⊢
    split_ifs at h <;> simp at h <;> rcases h with rfl | rfl <;> simp_all
    omega
  · dsimp only at h ⊢
    split_ifs at h <;> simp at h <;> rcases h with rfl | rfl <;> simp_all
    omega

/-- Structures 0 and 1 feed each other, and 2 feeds both. -/
def accepted : Graph :=
  ⟨fun v => if v = 0 then [2, 1] else if v = 1 then [2, 0] else [],
   fun v => if v = 0 then [1] else if v = 1 then [0] else if v = 2 then [0, 1] else []⟩

/-- A chain 0, 1, 2, 3 with a shortcut from 0 to 3. -/
def rejected : Graph :=
  ⟨fun v => if v = 1 then [0] else if v = 2 then [1] else if v = 3 then [0, 2] else [],
   fun v => if v = 0 then [3, 1] else if v = 1 then [2] else if v = 2 then [3] else []⟩

/-- **C51 is refuted.** The check accepts, from structure 0, a graph in which two
structures feed each other. It also rejects, from structure 0, a graph without
cycles: a chain with a shortcut. -/
theorem C51_refuted :
    ((noCycles accepted 3 0 0 fresh).map Prod.fst = some true ∧ ¬ Acyclic accepted) ∧
      ((noCycles rejected 4 0 0 fresh).map Prod.fst = some false ∧ Acyclic rejected) := by
  refine ⟨⟨by decide, fun h => ?_⟩, by decide, ?_⟩
  · have h01 : Edge accepted 0 1 := Or.inl (by decide)
    have h10 : Edge accepted 1 0 := Or.inl (by decide)
    exact h 0 ((Relation.TransGen.single h01).tail h10)
  · have key : ∀ u v, Relation.TransGen (Edge rejected) u v → u < v := by
      have step : ∀ u v, Edge rejected u v → u < v := by
        intro u v h
        rcases h with h | h
        · simp only [rejected] at h
          split_ifs at h <;> simp at h <;> omega
        · simp only [rejected] at h
          split_ifs at h <;> simp at h <;> omega
      intro u v huv
      induction huv with
      | single e => exact step _ _ e
      | tail _ e ih => exact lt_trans ih (step _ _ e)
    intro v hv
    exact lt_irrefl _ (key v v hv)

end LLab.Cycles
