import Verif.Common.Loop
import Verif.Common.Mat
import Mathlib.Analysis.SpecialFunctions.Pow.Real
import Mathlib.Analysis.SpecialFunctions.Log.Basic
import Mathlib.Algebra.Order.Floor.Semiring
import Mathlib.Algebra.Order.BigOperators.Group.Finset

/-!
Monte-Carlo tree search: the search probabilities and the selection rules of
`visit_node` (`/repo/src/mcts.c`). Properties C57 and C80. The networks, the
expansion and the back-up are not modelled; rounding is not modelled.
-/

namespace LLab.Mcts

open Finset

/-- A child of the node: what the functions below read of `edges[i]`; `child` is the
visit count and the value of `output_node`, absent when it is `NULL`. -/
structure Edge where
  prior : ℝ
  child : Option (Nat × ℝ)

/-- `visit_count = pow(visit_count, 1.0/temperature)`, stored in a `uint64_t`. -/
noncomputable def powCount (temp : ℝ) (v : Nat) : Nat := ⌊(v : ℝ) ^ (1 / temp)⌋₊

/-- The first loop of `get_mcts_probability` on one edge. -/
noncomputable def powEdge (temp : ℝ) (e : Edge) : Edge := { e with child := e.child.map fun c => (powCount temp c.1, c.2) }

/-- The visit count of an edge that has a child. -/
def Edge.count (e : Edge) : Nat := (e.child.map Prod.fst).getD 0

/-- `get_mcts_probability` (`/repo/src/mcts.c` 398-416) on the `n` edges of the root:
the edges afterwards and the probabilities (`calloc` gives zero to edges without a
child). `none` is the division of 0 by 0. -/
noncomputable def probability (temp : ℝ) (edges : List Edge) : Option (List Edge × List ℝ) :=
  let edges := edges.map (powEdge temp)
  let sum : ℝ := ((edges.map fun e => (e.count : ℝ))).sum
  if sum = 0 ∧ ∃ e ∈ edges, e.child.isSome then none
  else some (edges, edges.map fun e => if e.child.isSome then (e.count : ℝ) / sum else 0)

theorem pow_pos (temp : ℝ) (ht : 0 < temp) (v : Nat) (hv : 1 ≤ v) : 1 ≤ powCount temp v := by
  unfold powCount
  rw [Nat.one_le_floor_iff]
  have h1 : (1 : ℝ) ≤ (v : ℝ) := by exact_mod_cast hv
  exact Real.one_le_rpow h1 (by positivity)

theorem powEdge_count (temp : ℝ) (e : Edge) :
    (powEdge temp e).count = (e.child.map fun c => powCount temp c.1).getD 0 := by
  unfold powEdge Edge.count
  cases e.child <;> rfl

/-- The weight of an edge in the search policy: the visit count to the power
`1 / temperature`, rounded down (the counter is an integer); 0 without a child. -/
noncomputable def weight (temp : ℝ) (e : Edge) : ℝ :=
  match e.child with
  | none => 0
  | some (visits, _) => (⌊(visits : ℝ) ^ (1 / temp)⌋₊ : ℝ)

/-- **C57, probabilities (partial: the statistics are changed).** For every positive
temperature and every root at least one of whose children has been visited, the
returned probabilities are non-negative, sum to one, are zero exactly where
there is no child, and are proportional to the weights. -/
theorem C57_probability_partial (temp : ℝ) (ht : 0 < temp) (edges : List Edge) (hv : ∀ e ∈ edges, ∀ c ∈ e.child, 1 ≤ c.1)
    (hc : ∃ e ∈ edges, e.child.isSome) :
    ∃ es p, probability temp edges = some (es, p) ∧ p.length = edges.length ∧ (∀ x ∈ p, 0 ≤ x ∧ x ≤ 1) ∧ p.sum = 1 ∧
      List.Forall₂ (fun e x => x = 0 ↔ e.child = none) edges p ∧
      List.Forall₂ (fun e x => x = weight temp e / (edges.map (weight temp)).sum) edges p := by
  have hw : ∀ e : Edge, weight temp e = ((powEdge temp e).count : ℝ) := by
    intro e
    rw [powEdge_count]
    unfold weight powCount
    cases e.child <;> simp
  have hpos : ∀ e ∈ edges, e.child.isSome → 1 ≤ (powEdge temp e).count := by
    intro e he hs
    rw [powEdge_count]
    obtain ⟨c, hc⟩ := Option.isSome_iff_exists.1 hs
    rw [hc]
    exact pow_pos temp ht c.1 (hv e he c (by rw [hc]; rfl))
  have hzero : ∀ e : Edge, e.child = none → (powEdge temp e).count = 0 := by
    intro e he
    rw [powEdge_count, he]
    rfl
  have hsome : ∀ e : Edge, (powEdge temp e).child.isSome = e.child.isSome := by
    intro e
    unfold powEdge
    cases e.child <;> rfl
  set S : ℝ := ((edges.map (powEdge temp)).map fun e => (e.count : ℝ)).sum with hS
  have hnn : ∀ x ∈ (edges.map (powEdge temp)).map (fun e => (e.count : ℝ)), 0 ≤ x := by
    intro x hx
    obtain ⟨e, _, rfl⟩ := List.mem_map.1 hx
    positivity
  have hle : ∀ e ∈ edges, ((powEdge temp e).count : ℝ) ≤ S := by
    intro e he
    exact List.single_le_sum hnn _ (List.mem_map.2 ⟨_, List.mem_map.2 ⟨e, he, rfl⟩, rfl⟩)
  have hSpos : 0 < S := by
    obtain ⟨e, he, hs⟩ := hc
    have h1 : (1 : ℝ) ≤ ((powEdge temp e).count : ℝ) := by exact_mod_cast hpos e he hs
    exact lt_of_lt_of_le (by linarith) (hle e he)
  have hp : ∀ e : Edge, (if (powEdge temp e).child.isSome then ((powEdge temp e).count : ℝ) / S else 0) =
      ((powEdge temp e).count : ℝ) / S := by
    intro e
    rw [hsome]
    split_ifs with h
    · rfl
    · rw [hzero e (by simpa using h)]
      simp
  refine ⟨edges.map (powEdge temp), (edges.map (powEdge temp)).map fun e => if e.child.isSome then (e.count : ℝ) / S else 0,
    ?_, ?_, ?_, ?_, ?_, ?_⟩
  · unfold probability
    dsimp only
    rw [if_neg (by rw [← hS]; exact fun h => absurd h.1 hSpos.ne')]
  · simp
  · intro x hx
    rw [List.map_map] at hx
    obtain ⟨e, he, rfl⟩ := List.mem_map.1 hx
    rw [Function.comp_apply, hp e]
    exact ⟨by positivity, (div_le_one hSpos).2 (hle e he)⟩
  · rw [List.map_map]
    have e1 : edges.map ((fun e : Edge => if e.child.isSome then (e.count : ℝ) / S else 0) ∘ powEdge temp) =
        edges.map fun e => ((powEdge temp e).count : ℝ) * S⁻¹ :=
      List.map_congr_left fun e _ => (hp e).trans (div_eq_mul_inv _ _)
    rw [e1, List.sum_map_mul_right]
    have e2 : (edges.map fun e => ((powEdge temp e).count : ℝ)).sum = S := by
      rw [hS, List.map_map]
      rfl
    rw [e2]
    exact mul_inv_cancel₀ hSpos.ne'
  · rw [List.map_map, List.forall₂_map_right_iff, List.forall₂_same]
    intro e he
    rw [Function.comp_apply, hp e]
    constructor
    · intro h0
      by_contra hne
      have h1 := hpos e he (Option.isSome_iff_ne_none.2 hne)
      rcases div_eq_zero_iff.1 h0 with h2 | h2
      · have : (powEdge temp e).count = 0 := by exact_mod_cast h2
        omega
      · exact hSpos.ne' h2
    · intro h
      rw [hzero e h]
      simp
  · rw [List.map_map, List.forall₂_map_right_iff, List.forall₂_same]
    intro e he
    have e2 : (edges.map (weight temp)).sum = S := by
      rw [hS, List.map_map]
      exact congrArg List.sum (List.map_congr_left fun e _ => hw e)
    rw [Function.comp_apply, hp e, e2, hw e]

example : ∀ e ∈ [⟨0.5, some (3, 1)⟩, ⟨0.5, none⟩], ∀ c ∈ (e : Edge).child, 1 ≤ c.1 := by simp

/-- `get_mcts_v` (`/repo/src/mcts.c` 418-427): the sum over the visited edges of the
probability times the normalised value. -/
noncomputable def searchValue (qMin qMax : ℝ) : List Edge → List ℝ → Option ℝ
  | [], _ => some 0
  | _ :: _, [] => none
  | e :: es, x :: p => (searchValue qMin qMax es p).bind fun v =>
    match e.child with
    | none => some v
    | some c => some (x * (c.2 - qMin) / (qMax - qMin) + v)

theorem searchValue_eq (qMin qMax : ℝ) (es : List Edge) (p : List ℝ) (h : p.length = es.length) :
    searchValue qMin qMax es p = some (List.sum (List.zipWith (fun e x => e.child.elim 0 fun c => x * ((c.2 - qMin) / (qMax - qMin))) es p)) := by
  induction es generalizing p with
  | nil => simp [searchValue]
  | cons e es ih =>
    cases p with
    | nil => simp at h
    | cons x p =>
      rw [searchValue, ih p (by simpa using h), List.zipWith_cons_cons, List.sum_cons]
      cases e.child with
      | none => simp
      | some c => simp [mul_div_assoc]

theorem zipWith_between (qMin qMax : ℝ) (hq : qMin < qMax) (es : List Edge) (p : List ℝ) (h : p.length = es.length)
    (hp : ∀ x ∈ p, 0 ≤ x) (hb : ∀ e ∈ es, ∀ c ∈ e.child, qMin ≤ c.2 ∧ c.2 ≤ qMax) :
    0 ≤ (List.zipWith (fun (e : Edge) x => e.child.elim 0 fun c => x * ((c.2 - qMin) / (qMax - qMin))) es p).sum ∧
    (List.zipWith (fun (e : Edge) x => e.child.elim 0 fun c => x * ((c.2 - qMin) / (qMax - qMin))) es p).sum ≤ p.sum := by
  induction es generalizing p with
  | nil =>
    cases p with
    | nil => simp
    | cons _ _ => simp at h
  | cons e es ih =>
    cases p with
    | nil => simp at h
    | cons x p =>
      obtain ⟨h1, h2⟩ := ih p (by simpa using h) (fun y hy => hp y (List.mem_cons_of_mem _ hy))
        (fun y hy => hb y (List.mem_cons_of_mem _ hy))
      have hx := hp x (List.mem_cons_self ..)
      rw [List.zipWith_cons_cons, List.sum_cons, List.sum_cons]
      have hb' := hb e (List.mem_cons_self ..)
      cases hc : e.child with
      | none => simp only [Option.elim_none]; constructor <;> linarith
      | some c =>
        obtain ⟨a, b⟩ := hb' c (by rw [hc]; rfl)
        have hd : 0 < qMax - qMin := by linarith
        have r0 : 0 ≤ (c.2 - qMin) / (qMax - qMin) := div_nonneg (by linarith) hd.le
        have r1 : (c.2 - qMin) / (qMax - qMin) ≤ 1 := (div_le_one hd).2 (by linarith)
        simp only [Option.elim_some]
        constructor
        · have := mul_nonneg hx r0
          linarith
        · have := mul_le_of_le_one_right hx r1
          linarith

/-- **C57, value.** The value the search reports for the root is the mean of the
normalised child values under the search policy, and lies between 0 and 1, whenever
the recorded bounds are distinct and enclose the child values. -/
theorem C57_value (temp : ℝ) (ht : 0 < temp) (edges : List Edge) (hv : ∀ e ∈ edges, ∀ c ∈ e.child, 1 ≤ c.1)
    (hc : ∃ e ∈ edges, e.child.isSome) (qMin qMax : ℝ) (hq : qMin < qMax)
    (hb : ∀ e ∈ edges, ∀ c ∈ e.child, qMin ≤ c.2 ∧ c.2 ≤ qMax) :
    ∃ es p v, probability temp edges = some (es, p) ∧ searchValue qMin qMax es p = some v ∧ 0 ≤ v ∧ v ≤ 1 ∧
      v = (edges.map fun e => weight temp e / (edges.map (weight temp)).sum *
        e.child.elim 0 fun c => (c.2 - qMin) / (qMax - qMin)).sum := by
  obtain ⟨es, p, h, hl, h01, hsum, hz, hw⟩ := C57_probability_partial temp ht edges hv hc
  have hes : es = edges.map (powEdge temp) := by
    unfold probability at h
    dsimp only at h
    split_ifs at h
    exact (congrArg Prod.fst (Option.some.inj h)).symm
  have hle : p.length = es.length := by rw [hes, List.length_map, hl]
  have hbe : ∀ e ∈ es, ∀ c ∈ e.child, qMin ≤ c.2 ∧ c.2 ≤ qMax := by
    intro e he c hc
    rw [hes] at he
    obtain ⟨e', he', rfl⟩ := List.mem_map.1 he
    obtain ⟨c', hc', rfl⟩ := Option.map_eq_some_iff.1 hc
    exact hb e' he' c' hc'
  obtain ⟨b0, b1⟩ := zipWith_between qMin qMax hq es p hle (fun x hx => (h01 x hx).1) hbe
  refine ⟨es, p, _, h, searchValue_eq _ _ _ _ hle, b0, hsum ▸ b1, ?_⟩
  rw [hes]
  generalize (edges.map (weight temp)).sum = S at hw ⊢
  clear h hz hl h01 hsum hes hle hbe b0 b1 hc hb hv
  induction hw with
  | nil => rfl
  | @cons e x es' p' hx _ ih =>
    rw [List.map_cons, List.map_cons, List.zipWith_cons_cons, List.sum_cons, List.sum_cons, ih, hx]
    congr 1
    unfold powEdge
    cases e.child with
    | none => simp
    | some c => simp

example : ∀ e ∈ [⟨0.5, some (3, 1)⟩, ⟨0.5, none⟩], ∀ c ∈ (e : Edge).child, (0 : ℝ) ≤ c.2 ∧ c.2 ≤ 2 := by simp

theorem pow_two_two : powCount (1 / 2) 2 = 4 := by
  unfold powCount
  have : ((2 : Nat) : ℝ) ^ (1 / (1 / 2) : ℝ) = 4 := by
    rw [show (1 / (1 / 2) : ℝ) = ((2 : Nat) : ℝ) by norm_num, Real.rpow_natCast]
    norm_num
  rw [this]
  exact Nat.floor_ofNat 4

/-- **C57, statistics refuted.** Asking for the probabilities changes the visit
counts of the tree: with temperature 1/2 a child visited twice counts four visits
afterwards. -/
theorem C57_statistics_refuted : ∃ es p, probability (1 / 2) [⟨1, some (2, 0)⟩] = some (es, p) ∧
    es.map Edge.count = [4] ∧ ([⟨1, some (2, 0)⟩] : List Edge).map Edge.count = [2] := by
  refine ⟨[⟨1, some (4, 0)⟩], [1], ?_, rfl, rfl⟩
  unfold probability
  have e : ([⟨1, some (2, 0)⟩] : List Edge).map (powEdge (1 / 2)) = [⟨1, some (4, 0)⟩] := by
    simp only [List.map_cons, List.map_nil, powEdge, Option.map_some, pow_two_two]
  rw [e]
  dsimp only
  rw [if_neg (by simp [Edge.count])]
  simp [Edge.count]

/-- The loop choosing the edge at the root (`/repo/src/mcts.c` 240-249) on the sorted
probabilities and indices: `random -= p[indices[i]]` after each edge that is not
taken. The initial `index = -1` is the result `none`: the next statement reads
`edges[-1]`. -/
noncomputable def rootSelect (p : List ℝ) : List Nat → ℝ → Option Nat
  | [], _ => none
  | i :: rest, random => (p[i]?).bind fun x => if x ≤ random then some i else rootSelect p rest (random - x)

/-- **C57, selection refuted.** With a single action (probability one) and a draw of
one half no edge is selected. -/
theorem C57_selection_refuted : ∃ (p : List ℝ) (indices : List Nat) (random : ℝ), p.sum = 1 ∧ (∀ x ∈ p, 0 ≤ x) ∧
    indices.Perm (List.range p.length) ∧ 0 ≤ random ∧ random ≤ 1 ∧ rootSelect p indices random = none := by
  refine ⟨[1], [0], 1 / 2, by simp, by simp, by simp, by norm_num, by norm_num, ?_⟩
  unfold rootSelect
  simp only [List.getElem?_cons_zero, Option.bind_some]
  rw [if_neg (by norm_num)]
  rfl

/-- **C57, selection (partial).** When an edge is selected it exists; and an edge is
selected exactly when some listed probability is at most the draw left at its turn. -/
theorem C57_selection_partial (p : List ℝ) (indices : List Nat) (hi : ∀ i ∈ indices, i < p.length) (random : ℝ) :
    (∀ k, rootSelect p indices random = some k → k < p.length ∧ k ∈ indices) ∧
    ((rootSelect p indices random).isSome ↔ ∃ j, ∃ h : j < indices.length,
      ∀ x ∈ p[indices[j]]?, x ≤ random - ((indices.take j).map fun i => (p[i]?).getD 0).sum) := by
  induction indices generalizing random with
  | nil => simp [rootSelect]
  | cons i l ih =>
    have hlt := hi i (by simp)
    obtain ⟨h1, h2⟩ := ih (fun k hk => hi k (by simp [hk])) (random - p[i])
    unfold rootSelect
    rw [List.getElem?_eq_getElem hlt]
    simp only [Option.bind_some]
    split_ifs with hle
    · refine ⟨fun k hk => ?_, ?_⟩
      · rw [← Option.some.inj hk]
        exact ⟨hlt, by simp⟩
      · simp only [Option.isSome_some, true_iff]
        refine ⟨0, by simp, fun x hx => ?_⟩
        rw [List.getElem_cons_zero, List.getElem?_eq_getElem hlt] at hx
        rw [← Option.some.inj hx]
        simpa using hle
    · refine ⟨fun k hk => ?_, ?_⟩
      · obtain ⟨a, b⟩ := h1 k hk
        exact ⟨a, by simp [b]⟩
      · rw [h2]
        constructor
        · rintro ⟨j, hj, hx⟩
          refine ⟨j + 1, by simpa using hj, fun x hxx => ?_⟩
          rw [List.getElem_cons_succ] at hxx
          have := hx x hxx
          rw [List.take_succ_cons, List.map_cons, List.sum_cons, List.getElem?_eq_getElem hlt]
          simp only [Option.getD_some]
          linarith
        · rintro ⟨j, hj, hx⟩
          cases j with
          | zero =>
            exfalso
            have := hx p[i] (by rw [List.getElem_cons_zero, List.getElem?_eq_getElem hlt]; rfl)
            simp at this
            exact hle this
          | succ j =>
            refine ⟨j, by simpa using hj, fun x hxx => ?_⟩
            have := hx x (by rw [List.getElem_cons_succ]; exact hxx)
            rw [List.take_succ_cons, List.map_cons, List.sum_cons, List.getElem?_eq_getElem hlt] at this
            simp only [Option.getD_some] at this
            linarith

/-! ### Selection below the root -/

/-- The exploration bonus `p*(log((1+v+c_base)/c_base)+c_init)*sqrt(v)/(1+v)`. -/
noncomputable def bonus (cBase cInit prior : ℝ) (v : Nat) : ℝ :=
  prior * (Real.log ((1 + v + cBase) / cBase) + cInit) * Real.sqrt v / (1 + v)

/-- The score of an edge with index at least one (`/repo/src/mcts.c` 264-267). -/
noncomputable def ucb (qHat qMin qMax cBase cInit : ℝ) (e : Edge) : ℝ :=
  match e.child with
  | none => qHat
  | some (v, q) => (q - qMin) / (qMax - qMin) + bonus cBase cInit e.prior v

/-- The score of the first edge (`/repo/src/mcts.c` 259-262): the value is not
normalised. -/
noncomputable def ucbFirst (qHat cBase cInit : ℝ) (e : Edge) : ℝ :=
  match e.child with
  | none => qHat
  | some (v, q) => q + bonus cBase cInit e.prior v

/-- The loop over the other edges: the best so far and the next index. -/
noncomputable def best (score : Edge → ℝ) : List Edge → Nat → Nat → ℝ → Nat
  | [], _, index, _ => index
  | e :: rest, i, index, top => if score e > top then best score rest (i + 1) i (score e) else best score rest (i + 1) index top

/-- The choice of the edge below the root (`/repo/src/mcts.c` 255-273). -/
noncomputable def select (qHat qMin qMax cBase cInit : ℝ) : List Edge → Option Nat
  | [] => none
  | e :: rest => some (best (ucb qHat qMin qMax cBase cInit) rest 1 0 (ucbFirst qHat cBase cInit e))

theorem best_spec (score : Edge → ℝ) (l : List Edge) (i index : Nat) (top : ℝ) :
    (best score l i index top = index ∧ (∀ e ∈ l, score e ≤ top)) ∨
    (∃ j, ∃ h : j < l.length, best score l i index top = i + j ∧ top < score l[j] ∧ ∀ e ∈ l, score e ≤ score l[j]) := by
  induction l generalizing i index top with
  | nil => exact Or.inl ⟨rfl, by simp⟩
  | cons x l ih =>
    unfold best
    split_ifs with h
    · right
      rcases ih (i + 1) i (score x) with ⟨e, hl⟩ | ⟨j, hj, e, h1, h2⟩
      · refine ⟨0, by simp, by rw [e]; rfl, h, fun y hy => ?_⟩
        rcases List.mem_cons.1 hy with rfl | hy
        · exact le_refl _
        · exact hl y hy
      · refine ⟨j + 1, by simpa using hj, by rw [e]; omega, ?_, fun y hy => ?_⟩
        · rw [List.getElem_cons_succ]
          exact lt_trans h h1
        · rw [List.getElem_cons_succ]
          rcases List.mem_cons.1 hy with rfl | hy
          · exact le_of_lt h1
          · exact h2 y hy
    · have hx := not_lt.1 h
      rcases ih (i + 1) index top with ⟨e, hl⟩ | ⟨j, hj, e, h1, h2⟩
      · refine Or.inl ⟨e, fun y hy => ?_⟩
        rcases List.mem_cons.1 hy with rfl | hy
        · exact hx
        · exact hl y hy
      · refine Or.inr ⟨j + 1, by simpa using hj, by rw [e]; omega, by rw [List.getElem_cons_succ]; exact h1, fun y hy => ?_⟩
        rw [List.getElem_cons_succ]
        rcases List.mem_cons.1 hy with rfl | hy
        · exact le_of_lt (lt_of_le_of_lt hx h1)
        · exact h2 y hy

/-- The score of an edge, written out: the estimate `qHat` of the parent for an edge
without a child; otherwise the value of the child scaled from `[qMin, qMax]` to
`[0, 1]` plus the prior times an exploration term. -/
noncomputable def score (qHat qMin qMax cBase cInit : ℝ) (e : Edge) : ℝ :=
  match e.child with
  | none => qHat
  | some (visits, q) => (q - qMin) / (qMax - qMin) +
      e.prior * (Real.log ((1 + visits + cBase) / cBase) + cInit) * (Real.sqrt visits / (1 + visits))

theorem ucb_eq_score (qHat qMin qMax cBase cInit : ℝ) (e : Edge) :
    ucb qHat qMin qMax cBase cInit e = score qHat qMin qMax cBase cInit e := by
  unfold ucb score bonus
  cases e.child with
  | none => rfl
  | some c => simp only [mul_div_assoc]

/-- **C80 (partial: the first edge must be unvisited or the values already
normalised).** The chosen edge exists and has the largest score of all edges. -/
theorem C80_ucb_partial (qHat qMin qMax cBase cInit : ℝ) (e0 : Edge) (rest : List Edge)
    (h0 : e0.child = none ∨ (qMin = 0 ∧ qMax = 1)) :
    ∃ k, select qHat qMin qMax cBase cInit (e0 :: rest) = some k ∧ ∃ h : k < (e0 :: rest).length,
      ∀ e ∈ e0 :: rest, score qHat qMin qMax cBase cInit e ≤ score qHat qMin qMax cBase cInit (e0 :: rest)[k] := by
  simp only [← ucb_eq_score]
  have hs : ucbFirst qHat cBase cInit e0 = ucb qHat qMin qMax cBase cInit e0 := by
    unfold ucbFirst ucb
    rcases h0 with h | ⟨rfl, rfl⟩
    · rw [h]
    · cases e0.child with
      | none => rfl
      | some c => simp
  refine ⟨_, rfl, ?_⟩
  rcases best_spec (ucb qHat qMin qMax cBase cInit) rest 1 0 (ucbFirst qHat cBase cInit e0) with ⟨e, hl⟩ | ⟨j, hj, e, h1, h2⟩
  · rw [e]
    refine ⟨by simp, fun y hy => ?_⟩
    rw [List.getElem_cons_zero]
    rcases List.mem_cons.1 hy with rfl | hy
    · exact le_refl _
    · rw [← hs]
      exact hl y hy
  · simp only [e]
    refine ⟨by rw [List.length_cons]; omega, fun y hy => ?_⟩
    have ej : (e0 :: rest)[1 + j]'(by rw [List.length_cons]; omega) = rest[j] := by
      simp only [Nat.add_comm 1 j, List.getElem_cons_succ]
    rw [ej]
    rcases List.mem_cons.1 hy with rfl | hy
    · rw [← hs]
      exact le_of_lt h1
    · exact h2 y hy

/-- **C80, refuted.** Values between 0 and 100, no prior: the first edge with value 2
(normalised 0.02) is chosen over the second with value 90 (normalised 0.9). -/
theorem C80_ucb_refuted : select 0 0 100 1 0 [⟨0, some (1, 2)⟩, ⟨0, some (1, 90)⟩] = some 0 ∧
    score 0 0 100 1 0 ⟨0, some (1, 2)⟩ < score 0 0 100 1 0 ⟨0, some (1, 90)⟩ := by
  simp only [← ucb_eq_score]
  constructor
  · simp only [select, best, ucb, ucbFirst, bonus]
    norm_num
  · simp only [ucb, bonus]
    norm_num

end LLab.Mcts
