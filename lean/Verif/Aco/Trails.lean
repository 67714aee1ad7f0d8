import Verif.Aco.GraphProps
import Verif.Replay.SampleProps

/-!
Properties C99 (every ant walks through a complete network), C100 (the network of the
strongest trail) and C101 (edges are taken in proportion to their pheromone).
-/

namespace LLab.Aco

variable {F : Type}

/-! ### C99 -/

section

variable [Zero F]

/-- **C99 (the graph).** For every list of layers that offers something to choose from,
`init_aco` builds its graph, whatever value the missing `return` of
`node_state` produces for the root. -/
theorem C99_graph (junk : Bool) (sizes widths depths : List Nat) (acts : List Int) (draw : Nat → Nat → F)
    (hs : 2 ≤ sizes.length) (hd : ∀ d ∈ depths, 3 ≤ d) (hp : ∀ n ∈ sizes, 0 < n)
    (hw : ∀ i, i + 1 < sizes.length → 0 < widths.getD i 0) :
    ∃ g, initAco junk sizes widths depths acts draw = some g ∧ Built g (specsOf sizes widths acts draw) ∧
      ∀ l ∈ specsOf sizes widths acts draw, l.Ok := by
  have hok : ∀ l ∈ specsOf sizes widths acts draw, l.Ok := by
    intro l hl
    simp only [specsOf, List.mem_map, List.mem_range] at hl
    obtain ⟨i, hi, rfl⟩ := hl
    have pos : ∀ j, j < sizes.length → 0 < sizes.getD j 0 := by
      intro j hj
      rw [List.getD_eq_getElem?_getD, List.getElem?_eq_getElem hj]
      exact hp _ (List.getElem_mem hj)
    refine ⟨pos i (by omega), pos (i + 1) (by omega), hw i (by omega), ?_⟩
    simp only [actFlags]
    split_ifs <;> simp
  rw [initAco, if_neg (by
    rintro (h | ⟨d, h1, h2⟩)
    · omega
    · have := hd d h1; omega)]
  obtain ⟨g, e, b⟩ := buildAll_spec junk _ [] rootGraph (by simp) hok rootGraph_built
  exact ⟨g, e, b, hok⟩

/-- **C99 (the network of a trail).** For every choice of one candidate per weight and one activation
per layer there is a trail, and `get_model_according_to_path` turns it
into the network with exactly these weights and activations, zero biases and the
layer sizes given to `init_aco`. -/
theorem C99_network_of_trail (junk : Bool) (sizes widths depths : List Nat) (acts : List Int) (draw : Nat → Nat → F)
    (hs : 2 ≤ sizes.length) (hd : ∀ d ∈ depths, 3 ≤ d) (hp : ∀ n ∈ sizes, 0 < n)
    (hw : ∀ i, i + 1 < sizes.length → 0 < widths.getD i 0) (cs : List Choice)
    (hlen : cs.length = sizes.length - 1)
    (hv : ∀ x ∈ (specsOf sizes widths acts draw).zip cs, x.2.Valid x.1) :
    ∃ g, initAco junk sizes widths depths acts draw = some g ∧
      modelOfTrail g (trailOf (specsOf sizes widths acts draw) cs) =
        some (layersOf 0 (specsOf sizes widths acts draw) cs) := by
  obtain ⟨g, e, b, hok⟩ := C99_graph junk sizes widths depths acts draw hs hd hp hw
  obtain ⟨t', e1, e2, _⟩ := follow_spec .indexCopy _ (cells_indexCopy g) _ _ _ cs freshTracker hok b.layout
    (by simp [specsOf, hlen]) hv rfl
  refine ⟨g, e, ?_⟩
  rw [modelOfTrail, e1, Option.map_some, e2, layersWith_eq]
  rfl

/-- **C99 (the ants).** Whatever the pheromones and the random draws, an ant finishes its walk, its trail
is that of a valid choice for every weight and every layer, and building the
network of that trail succeeds. Stated for any rule that picks an existing edge; `C99_ant_by_edges` and
`C99_ant_by_nodes` apply it to the two rules of the library. -/
theorem C99_ant (junk : Bool) (sizes widths depths : List Nat) (acts : List Int) (draw : Nat → Nat → F)
    (hs : 2 ≤ sizes.length) (hd : ∀ d ∈ depths, 3 ≤ d) (hp : ∀ n ∈ sizes, 0 < n)
    (hw : ∀ i, i + 1 < sizes.length → 0 < widths.getD i 0) :
    ∃ g, initAco junk sizes widths depths acts draw = some g ∧
      ∀ choose : Nat → Nat → Option Nat,
        (∀ j n, g.succ n ≠ [] → ∃ i, choose j n = some i ∧ i < (g.succ n).length) →
        ∃ cs : List Choice, cs.length = sizes.length - 1 ∧
          (∀ x ∈ (specsOf sizes widths acts draw).zip cs, x.2.Valid x.1) ∧
          antTrail g choose (g.nodes + 1) 0 0 = some (trailOf (specsOf sizes widths acts draw) cs) ∧
          modelOfTrail g (trailOf (specsOf sizes widths acts draw) cs) =
            some (layersOf 0 (specsOf sizes widths acts draw) cs) := by
  obtain ⟨g, e, b, hok⟩ := C99_graph junk sizes widths depths acts draw hs hd hp hw
  refine ⟨g, e, fun choose hch => ?_⟩
  obtain ⟨cs, hl, hv, e1⟩ := antTrail_spec choose hch _ (· = 0) 1 (g.nodes + 1) 0 0 hok b.layout rfl (by
    rw [b.nodes]; omega)
  have hl' : cs.length = sizes.length - 1 := by rw [hl]; simp [specsOf]
  obtain ⟨g', e', e2⟩ := C99_network_of_trail junk sizes widths depths acts draw hs hd hp hw cs hl' hv
  rw [e] at e'
  cases e'
  exact ⟨cs, hl', hv, e1, e2⟩

end

section

variable [Field F] [LinearOrder F] [IsStrictOrderedRing F]

omit [IsStrictOrderedRing F] in
/-- **C99 (`build_path_from_ant_index`).** -/
theorem C99_ant_by_edges (junk : Bool) (sizes widths depths : List Nat) (acts : List Int) (draw : Nat → Nat → F)
    (hs : 2 ≤ sizes.length) (hd : ∀ d ∈ depths, 3 ≤ d) (hp : ∀ n ∈ sizes, 0 < n)
    (hw : ∀ i, i + 1 < sizes.length → 0 < widths.getD i 0) :
    ∃ g, initAco junk sizes widths depths acts draw = some g ∧
      ∀ (toInt : F → Int) (ph r : Nat → F),
        ∃ cs : List Choice, cs.length = sizes.length - 1 ∧
          (∀ x ∈ (specsOf sizes widths acts draw).zip cs, x.2.Valid x.1) ∧
          antTrail g (byEdges toInt g ph r) (g.nodes + 1) 0 0 = some (trailOf (specsOf sizes widths acts draw) cs) ∧
          modelOfTrail g (trailOf (specsOf sizes widths acts draw) cs) =
            some (layersOf 0 (specsOf sizes widths acts draw) cs) := by
  obtain ⟨g, e, h⟩ := C99_ant junk sizes widths depths acts draw hs hd hp hw
  refine ⟨g, e, fun toInt ph r => h _ ?_⟩
  intro j n hn
  have : (g.outs n).map ph ≠ [] := by
    intro hc; apply hn; simp only [List.map_eq_nil_iff] at hc; simp [Graph.succ, hc]
  obtain ⟨i, e1, hi⟩ := nextEdge_lt toInt _ (r j) this
  exact ⟨i, e1, by simpa [Graph.succ] using hi⟩

omit [IsStrictOrderedRing F] in
/-- **C99 (`build_path_from_ant_index_according_to_nodes`).** -/
theorem C99_ant_by_nodes (junk : Bool) (sizes widths depths : List Nat) (acts : List Int) (draw : Nat → Nat → F)
    (hs : 2 ≤ sizes.length) (hd : ∀ d ∈ depths, 3 ≤ d) (hp : ∀ n ∈ sizes, 0 < n)
    (hw : ∀ i, i + 1 < sizes.length → 0 < widths.getD i 0) :
    ∃ g, initAco junk sizes widths depths acts draw = some g ∧
      ∀ (toInt : F → Int) (ph r : Nat → F),
        ∃ cs : List Choice, cs.length = sizes.length - 1 ∧
          (∀ x ∈ (specsOf sizes widths acts draw).zip cs, x.2.Valid x.1) ∧
          antTrail g (byNodes toInt g ph r) (g.nodes + 1) 0 0 = some (trailOf (specsOf sizes widths acts draw) cs) ∧
          modelOfTrail g (trailOf (specsOf sizes widths acts draw) cs) =
            some (layersOf 0 (specsOf sizes widths acts draw) cs) := by
  obtain ⟨g, e, h⟩ := C99_ant junk sizes widths depths acts draw hs hd hp hw
  refine ⟨g, e, fun toInt ph r => h _ ?_⟩
  intro j n hn
  have : ((g.outs n).map fun e => ph (g.dst e)) ≠ [] := by
    intro hc; apply hn; simp only [List.map_eq_nil_iff] at hc; simp [Graph.succ, hc]
  obtain ⟨i, e1, hi⟩ := nextEdge_lt toInt _ (r j) this
  exact ⟨i, e1, by simpa [Graph.succ] using hi⟩

end

/-- Three sizes, two layers, two and three candidates per weight, all activations in
the first layer and `TANH` in the second: a graph and a network as described. -/
example : ∃ g : Graph ℚ, initAco true [1, 2, 1] [2, 3, 1] [3, 3, 3] [-1, 4, 4] (fun i j => (i + j + 1 : ℚ)) = some g ∧
    modelOfTrail g [1, 0, 0, 3, 2, 1, 0, 0] =
      some [⟨0, 1, 2, [2, 0], [0, 0], 6⟩, ⟨1, 2, 1, [4, 6], [0], 4⟩] := by
  have := C99_network_of_trail true [1, 2, 1] [2, 3, 1] [3, 3, 3] [-1, 4, 4] (fun i j => (i + j + 1 : ℚ)) (by decide)
    (by decide) (by decide) (by
      intro i hi
      rcases i with _ | _ | i
      · decide
      · decide
      · simp only [List.length_cons, List.length_nil] at hi; omega)
    [⟨fun i => if i = 0 then 1 else 0, 3⟩, ⟨fun i => if i = 0 then 2 else 1, 0⟩] (by decide) (by
      intro x hx
      have hx : x ∈ [((⟨1, 2, 2, [0, 1, 2, 6, 4, 5], fun j => ((0 : Nat) + j + 1 : ℚ)⟩ : LayerSpec ℚ),
          (⟨fun i => if i = 0 then 1 else 0, 3⟩ : Choice)),
          (⟨2, 1, 3, [4], fun j => ((1 : Nat) + j + 1 : ℚ)⟩, ⟨fun i => if i = 0 then 2 else 1, 0⟩)] := hx
      simp only [List.mem_cons, List.not_mem_nil, or_false] at hx
      rcases hx with rfl | rfl
      · exact ⟨fun i _ => by dsimp only; split_ifs <;> decide, by decide⟩
      · exact ⟨fun i _ => by dsimp only; split_ifs <;> decide, by decide⟩)
  obtain ⟨g, e, h⟩ := this
  refine ⟨g, e, h.trans ?_⟩
  decide +kernel

/-! ### C100 -/

section

variable [LinearOrder F]

/-- The walk from `n` along `trail` always takes the first of the edges with the most pheromone and
ends where there is no edge. -/
def Greedy (g : Graph F) (ph : Nat → F) : Nat → List Nat → Prop
  | n, [] => g.outs n = []
  | n, i :: is => ∃ e, (g.outs n)[i]? = some e ∧ (∀ e' ∈ g.outs n, ph e' ≤ ph e) ∧
      (∀ j e', j < i → (g.outs n)[j]? = some e' → ph e' < ph e) ∧ Greedy g ph (g.dst e) is

theorem bestOf_spec (l : List F) (hl : l ≠ []) : ∃ i x, bestOf l = some i ∧ l[i]? = some x ∧
    (∀ y ∈ l, y ≤ x) ∧ ∀ j y, j < i → l[j]? = some y → y < x := by
  cases l with
  | nil => exact absurd rfl hl
  | cons x xs =>
    have key : ∀ (ys done : List F) (s : Nat × Nat × F), s.1 + 1 = done.length → s.2.1 < done.length →
        done[s.2.1]? = some s.2.2 → (∀ y ∈ done, y ≤ s.2.2) → (∀ j y, j < s.2.1 → done[j]? = some y → y < s.2.2) →
        ∀ s', s' = ys.foldl (fun (s : Nat × Nat × F) y =>
          if s.2.2 < y then (s.1 + 1, s.1 + 1, y) else (s.1 + 1, s.2.1, s.2.2)) s →
        (done ++ ys)[s'.2.1]? = some s'.2.2 ∧ (∀ y ∈ done ++ ys, y ≤ s'.2.2) ∧
          ∀ j y, j < s'.2.1 → (done ++ ys)[j]? = some y → y < s'.2.2 := by
      intro ys
      induction ys with
      | nil =>
        rintro done s h1 h2 h3 h4 h5 s' rfl
        simpa using ⟨h3, h4, h5⟩
      | cons y ys ih =>
        rintro done s h1 h2 h3 h4 h5 s' rfl
        have e : done ++ y :: ys = (done ++ [y]) ++ ys := by simp
        rw [e, List.foldl_cons]
        by_cases hc : s.2.2 < y
        · rw [if_pos hc]
          apply ih (done ++ [y]) (s.1 + 1, s.1 + 1, y) (by simp [h1]) (by simp; omega) (by
            simp only; rw [h1]; simp) _ _ _ rfl
          · intro z hz
            rcases List.mem_append.1 hz with hz | hz
            · exact (h4 z hz).trans hc.le
            · rw [List.mem_singleton.1 hz]
          · intro j z hj hz
            simp only at hj
            rw [List.getElem?_append_left (by omega)] at hz
            exact lt_of_le_of_lt (h4 z (List.mem_of_getElem? hz)) hc
        · rw [if_neg hc]
          apply ih (done ++ [y]) (s.1 + 1, s.2.1, s.2.2) (by simp [h1]) (by simp; omega) (by
            simp only; rw [List.getElem?_append_left h2]; exact h3) _ _ _ rfl
          · intro z hz
            rcases List.mem_append.1 hz with hz | hz
            · exact h4 z hz
            · rw [List.mem_singleton.1 hz]; exact not_lt.1 hc
          · intro j z hj hz
            simp only at hj
            rw [List.getElem?_append_left (by omega)] at hz
            exact h5 j z hj hz
    have := key xs [x] (0, 0, x) rfl (by simp) rfl (by simp) (by intro j y hj; simp at hj) _ rfl
    exact ⟨_, _, rfl, this.1, this.2.1, this.2.2⟩

theorem greedy_of_trail (g : Graph F) (ph : Nat → F) : ∀ (fuel j n : Nat) (tr : List Nat),
    antTrail g (fun _ n => bestOf ((g.outs n).map ph)) fuel j n = some tr → Greedy g ph n tr := by
  intro fuel
  induction fuel with
  | zero => intro j n tr h; simp [antTrail] at h
  | succ fuel ih =>
    intro j n tr h
    rw [antTrail] at h
    by_cases hn : g.succ n = []
    · rw [if_pos hn] at h
      cases h
      simpa [Graph.succ, Greedy] using hn
    · rw [if_neg hn] at h
      have ho : g.outs n ≠ [] := by intro hc; apply hn; simp [Graph.succ, hc]
      obtain ⟨i, x, e1, e2, h1, h2⟩ := bestOf_spec ((g.outs n).map ph) (by simpa using ho)
      rw [e1, Option.bind_some] at h
      rw [List.getElem?_map] at e2
      obtain ⟨e, he, hx⟩ := Option.map_eq_some_iff.1 e2
      rw [Graph.succ, List.getElem?_map, he, Option.map_some, Option.bind_some] at h
      obtain ⟨tr', h3, h4⟩ := Option.map_eq_some_iff.1 h
      subst h4 hx
      refine ⟨e, he, ?_, ?_, ih _ _ _ h3⟩
      · intro e' he'
        exact h1 _ (List.mem_map_of_mem he')
      · intro j' e' hj he'
        exact h2 j' _ hj (by rw [List.getElem?_map, he']; rfl)

end

section

variable [Zero F] [LinearOrder F]

/-- The network `get_best_model` really returns: only the first weight of each
layer is that of the trail, the others are zero. -/
def layersFirst : Nat → List (LayerSpec F) → List Choice → List (Fcl F)
  | n, l :: ls, c :: cs =>
    { layer := n, inp := l.inp, out := l.out
      weights := (List.replicate (l.inp * l.out) 0).set 0 (l.val (c.pick 0))
      biases := List.replicate l.out 0
      act := l.acts.getD c.act 0 } :: layersFirst (n + 1) ls cs
  | _, _, _ => []

omit [LinearOrder F] in
theorem layersWith_first (ls : List (LayerSpec F)) : ∀ (n : Nat) (cs : List Choice),
    layersWith (fun l c => (List.replicate (l.inp * l.out) 0).set 0 (l.val (c.pick 0))) n ls cs =
      layersFirst n ls cs := by
  induction ls with
  | nil => intro n cs; cases cs <;> rfl
  | cons l ls ih =>
    intro n cs
    cases cs with
    | nil => rfl
    | cons c cs => rw [layersWith, layersFirst, ih]

/-- **C100 (partial).** For every pheromones `get_best_model` follows the edges with the most
pheromone from the root to a last node, and the network it returns has
the sizes and the activations of that trail and the first weight of every layer.
Missing: all the other weights, which are zero instead of those of the trail. -/
theorem C100_best_model_partial (junk : Bool) (sizes widths depths : List Nat) (acts : List Int)
    (draw : Nat → Nat → F) (hs : 2 ≤ sizes.length) (hd : ∀ d ∈ depths, 3 ≤ d) (hp : ∀ n ∈ sizes, 0 < n)
    (hw : ∀ i, i + 1 < sizes.length → 0 < widths.getD i 0) :
    ∃ g, initAco junk sizes widths depths acts draw = some g ∧
      ∀ ph : Nat → F, ∃ cs : List Choice, cs.length = sizes.length - 1 ∧
        (∀ x ∈ (specsOf sizes widths acts draw).zip cs, x.2.Valid x.1) ∧
        Greedy g ph 0 (trailOf (specsOf sizes widths acts draw) cs) ∧
        bestModel g ph (g.nodes + 1) = some (layersFirst 0 (specsOf sizes widths acts draw) cs) := by
  obtain ⟨g, e, b, hok⟩ := C99_graph junk sizes widths depths acts draw hs hd hp hw
  refine ⟨g, e, fun ph => ?_⟩
  obtain ⟨cs, hl, hv, e1⟩ := antTrail_spec (g := g) (fun _ n => bestOf ((g.outs n).map ph)) (by
    intro j n hn
    have ho : g.outs n ≠ [] := by intro hc; apply hn; simp [Graph.succ, hc]
    obtain ⟨i, x, e1, e2, _⟩ := bestOf_spec ((g.outs n).map ph) (by simpa using ho)
    refine ⟨i, e1, ?_⟩
    have := (List.getElem?_eq_some_iff.1 e2).1
    simpa [Graph.succ] using this) _ (· = 0) 1 (g.nodes + 1) 0 0 hok b.layout rfl (by
    rw [b.nodes]; omega)
  obtain ⟨t', e2, e3, _⟩ := follow_spec .take _ (cells_take g) _ _ _ cs freshTracker hok b.layout hl hv rfl
  refine ⟨cs, by rw [hl]; simp [specsOf], hv, greedy_of_trail g ph _ _ _ _ e1, ?_⟩
  rw [bestModel, e1, Option.bind_some, e2, Option.map_some, e3, layersWith_first]
  rfl

end

/-- Two weights with two candidates each. -/
def demoAco : Option (Graph ℚ) := initAco false [1, 2] [2, 1] [3, 3] [1, 1] (fun _ j => j + 1)

/-- More pheromone on the edges to the second candidates. -/
def demoPh (e : Nat) : ℚ := if e = 8 ∨ e = 3 then 2 else 1

/-- **C100 (refuted).** With all the pheromone on the second candidates, the network of the trail has the weights `2` and
`4`; `get_best_model` returns one with `2` and `0`. -/
theorem C100_best_model_refuted :
    demoAco.bind (fun g => (antTrail g (fun _ n => bestOf ((g.outs n).map demoPh)) 20 0 0).bind fun tr =>
      (modelOfTrail g tr).map fun m => m.map (·.weights)) = some [[2, 4]] ∧
    demoAco.bind (fun g => (bestModel g demoPh 20).map fun m => m.map (·.weights)) = some [[2, 0]] := by
  decide +kernel

/-! ### C101 -/

section

variable [Field F] [LinearOrder F] [IsStrictOrderedRing F]

open Replay (Selects Tiles)

/-- Sum of the probabilities before `k`. -/
def offset (prob : List F) : List Nat → Nat → F
  | [], _ => 0
  | k0 :: ks, k => if k = k0 then 0 else prob.getD k0 0 + offset prob ks k

theorem offset_facts (prob : List F) (h0 : ∀ x ∈ prob, 0 ≤ x) : ∀ ks : List Nat, ks.Nodup →
    (∀ k ∈ ks, 0 ≤ offset prob ks k ∧ offset prob ks k + prob.getD k 0 ≤ (ks.map fun i => prob.getD i 0).sum) ∧
    ∀ j ∈ ks, ∀ k ∈ ks, j ≠ k → offset prob ks j + prob.getD j 0 ≤ offset prob ks k ∨
      offset prob ks k + prob.getD k 0 ≤ offset prob ks j := by
  have hn : ∀ k, 0 ≤ prob.getD k 0 := by
    intro k
    rw [List.getD_eq_getElem?_getD]
    cases h : prob[k]? with
    | none => simp
    | some x => exact h0 x (List.mem_of_getElem? h)
  intro ks
  induction ks with
  | nil => intro _; exact ⟨by simp, by simp⟩
  | cons k0 ks ih =>
    intro hnd
    obtain ⟨hnot, hnd'⟩ := List.nodup_cons.1 hnd
    obtain ⟨h1, h2⟩ := ih hnd'
    have hsum : 0 ≤ (ks.map fun i => prob.getD i 0).sum := by
      apply List.sum_nonneg
      intro x hx
      obtain ⟨i, _, rfl⟩ := List.mem_map.1 hx
      exact hn i
    have hne : ∀ k ∈ ks, k ≠ k0 := fun k hk hc => hnot (hc ▸ hk)
    constructor
    · intro k hk
      rw [List.map_cons, List.sum_cons, offset]
      rcases List.mem_cons.1 hk with rfl | hk
      · rw [if_pos rfl]
        constructor
        · exact le_rfl
        · linarith
      · rw [if_neg (hne k hk)]
        have := h1 k hk
        have := hn k0
        constructor <;> linarith
    · intro j hj k hk hjk
      simp only [offset]
      rcases List.mem_cons.1 hj with hj' | hj <;> rcases List.mem_cons.1 hk with hk' | hk
      · exact absurd (hj'.trans hk'.symm) hjk
      · rw [hj', if_pos rfl, if_neg (hne k hk)]
        left; have := (h1 k hk).1; linarith
      · rw [hk', if_pos rfl, if_neg (hne j hj)]
        right; have := (h1 j hj).1; linarith
      · rw [if_neg (hne j hj), if_neg (hne k hk)]
        rcases h2 j hj k hk hjk with h | h
        · left; linarith
        · right; linarith

theorem roulette_iff (prob : List F) : ∀ (ks : List Nat), ks.Nodup →
    (∀ k ∈ ks, k < prob.length) → ∀ r : F, 0 < r → r ≤ (ks.map fun i => prob.getD i 0).sum →
    ∃ k ∈ ks, roulette prob ks r = some (some k) ∧ offset prob ks k < r ∧ r ≤ offset prob ks k + prob.getD k 0 := by
  intro ks
  induction ks with
  | nil => intro _ _ r h1 h2; simp at h2; exact absurd h1 (not_lt.2 h2)
  | cons k0 ks ih =>
    intro hnd hlt r h1 h2
    obtain ⟨hnot, hnd'⟩ := List.nodup_cons.1 hnd
    have hk0 := hlt k0 (by simp)
    have hg : prob.getD k0 0 = prob[k0] := by
      rw [List.getD_eq_getElem?_getD, List.getElem?_eq_getElem hk0]; rfl
    rw [roulette, List.getElem?_eq_getElem hk0, Option.bind_some]
    by_cases hc : r ≤ prob[k0]
    · refine ⟨k0, by simp, by rw [if_pos hc], ?_, ?_⟩
      · rw [offset, if_pos rfl]; exact h1
      · rw [offset, if_pos rfl, hg]; linarith
    · rw [if_neg hc]
      rw [List.map_cons, List.sum_cons, hg] at h2
      obtain ⟨k, hk, e, h3, h4⟩ := ih hnd' (fun k hk => hlt k (by simp [hk])) (r - prob[k0])
        (by have := not_le.1 hc; linarith) (by linarith)
      have hne : k ≠ k0 := fun hc => hnot (hc ▸ hk)
      refine ⟨k, by simp [hk], e, ?_, ?_⟩
      · rw [offset, if_neg hne, hg]; linarith
      · rw [offset, if_neg hne, hg]; linarith

/-- **C101.** At a node whose outgoing edges carry the pheromones `ph` (none negative, not all zero) an ant with the
draw `r ∈ (0,1]` takes edge `k` exactly when `r` lies in `k`'s own interval; the intervals
are disjoint and that of `k` has length `ph k / Σ ph`, so with a uniform draw `k` is taken
with that probability. -/
theorem C101_proportional (toInt : F → Int) (ph : List F) (h0 : ∀ x ∈ ph, 0 ≤ x) (hpos : 0 < ph.sum) :
    ∃ a : Nat → F, Tiles a (fun k => ph.getD k 0) ph.sum ph.length ∧
      ∀ r, 0 < r → r ≤ 1 →
        (∃ k, k < ph.length ∧ nextEdge toInt ph r = some k) ∧
        ∀ k, k < ph.length → (nextEdge toInt ph r = some k ↔ Selects a (fun k => ph.getD k 0) ph.sum r k) := by
  have hn : 0 < ph.length := by
    rcases ph with _ | ⟨x, xs⟩
    · simp at hpos
    · simp
  have hl : (probAverage ph).length = ph.length := by simp [probAverage]
  have hget : ∀ k, (probAverage ph).getD k 0 = ph.getD k 0 / ph.sum := by
    intro k
    rw [probAverage, List.getD_eq_getElem?_getD, List.getD_eq_getElem?_getD, List.getElem?_map]
    cases ph[k]? <;> simp
  have h0' : ∀ x ∈ probAverage ph, 0 ≤ x := by
    intro x hx
    obtain ⟨y, hy, rfl⟩ := List.mem_map.1 hx
    exact div_nonneg (h0 y hy) hpos.le
  obtain ⟨I, e, hp, _⟩ := Sort.C02_sort_partial toInt (probAverage ph) (List.range ph.length) 0
    ((ph.length : Int) - 1) le_rfl (by rw [hl]; omega) (by rw [List.length_range]; omega)
  have hmem : ∀ k, k ∈ I ↔ k < ph.length := fun k => by rw [hp.mem_iff, List.mem_range]
  have hnd : I.Nodup := hp.nodup_iff.2 List.nodup_range
  have hsum : (I.map fun i => (probAverage ph).getD i 0).sum = 1 := by
    rw [(hp.map _).sum_eq]
    have : ((List.range ph.length).map fun i => (probAverage ph).getD i 0) = probAverage ph := by
      apply List.ext_getElem
      · simp [hl]
      · intro i h1 h2
        simp [List.getElem?_eq_getElem h2]
    rw [this, probAverage]
    have hd : ∀ l : List F, (l.map (· / ph.sum)).sum = l.sum / ph.sum := by
      intro l
      induction l with
      | nil => simp
      | cons x xs ih => rw [List.map_cons, List.sum_cons, ih, List.sum_cons, add_div]
    rw [hd, div_self hpos.ne']
  obtain ⟨f1, f2⟩ := offset_facts (probAverage ph) h0' I hnd
  have key : ∀ r, 0 < r → r ≤ 1 → ∃ k, k < ph.length ∧ nextEdge toInt ph r = some k ∧
      Selects (offset (probAverage ph) I) (fun k => ph.getD k 0) ph.sum r k := by
    intro r hr hr1
    obtain ⟨k, hk, e2, h3, h4⟩ := roulette_iff (probAverage ph) I hnd
      (fun k hk => by rw [hl]; exact (hmem k).1 hk) r hr (by rw [hsum]; exact hr1)
    refine ⟨k, (hmem k).1 hk, ?_, h3, by rw [hget] at h4; exact h4⟩
    rw [nextEdge, e, Option.bind_some, e2, Option.bind_some]
  refine ⟨offset (probAverage ph) I, ⟨?_, ?_⟩, ?_⟩
  · intro k hk
    have := f1 k ((hmem k).2 hk)
    rw [hsum, hget] at this
    exact this
  · intro j k hj hk hjk
    have := f2 j ((hmem j).2 hj) k ((hmem k).2 hk) hjk
    rw [hget, hget] at this
    exact this
  · intro r hr hr1
    obtain ⟨k, hk, e2, hs⟩ := key r hr hr1
    refine ⟨⟨k, hk, e2⟩, ?_⟩
    intro j hj
    constructor
    · intro hj2
      rw [e2] at hj2
      cases hj2
      exact hs
    · intro hs2
      by_cases hjk : j = k
      · rw [hjk]; exact e2
      · exfalso
        have := f2 j ((hmem j).2 hj) k ((hmem k).2 hk) hjk
        rw [hget, hget] at this
        obtain ⟨a1, a2⟩ := hs
        obtain ⟨b1, b2⟩ := hs2
        rcases this with h | h <;> linarith

example : ∃ k, k < 3 ∧ nextEdge (fun _ => 0) [(1 : ℚ), 0, 3] (1 / 2) = some k := by
  obtain ⟨a, _, h⟩ := C101_proportional (fun _ => 0) [(1 : ℚ), 0, 3] (by simp) (by norm_num)
  exact (h (1 / 2) (by norm_num) (by norm_num)).1

/-- **C101 (zero draw).** `r2` can return `0`; then the first edge in the order of `sort` is
taken even if it has no pheromone. -/
theorem C101_zero_draw_refuted : nextEdge (fun _ => 0) [(0 : ℚ), 1] 0 = some 0 := by
  decide +kernel

end

end LLab.Aco
