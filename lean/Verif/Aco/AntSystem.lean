import Mathlib.Algebra.BigOperators.Ring.Finset
import Mathlib.Algebra.BigOperators.Group.List.Basic
import Mathlib.Algebra.Order.Ring.Defs
import Mathlib.Data.List.Perm.Basic
import Mathlib.Tactic.Ring
import Mathlib.Tactic.Positivity
import Mathlib.Data.Rat.Defs

/-!
Property C178: the pheromone update without bounds: `update_aco_tracker_next_according_to_path_no_min_max` (`/repo/src/aco_iterate.c` 564-582),
`update_path_with_pheromone_no_min_max`, `update_pheromones_no_min_max` and `update_graph_pheromone_from_trail_no_min_max`
(`/repo/src/aco_process.c` 256-259, 322-334, 439-445).

Edges and nodes are numbers. Pheromones are elements of a commutative ring, without rounding. `none`: an index outside the outgoing
edges of a node.
-/

namespace LLab.Aco.AntSystem

/-! ### Model -/

/-- The graph: the outgoing edges of each node, the end of each edge, and the first node. -/
structure Graph where
  outs : Nat → List Nat
  target : Nat → Nat
  root : Nat

/-- What is updated: the pheromone and the flag of each edge. -/
structure St (K : Type) where
  ph : Nat → K
  flag : Nat → Bool

variable {K : Type} [CommRing K]

/-- One edge of a path (`/repo/src/aco_iterate.c` 573-577). -/
def visit (p d : K) (e : Nat) (s : St K) : St K :=
  ⟨Function.update s.ph e ((if s.flag e then s.ph e else s.ph e * p) + d), Function.update s.flag e true⟩

/-- `update_aco_tracker_next_according_to_path_no_min_max` (`/repo/src/aco_iterate.c` 564-582) from the node `v` with the rest of the path. -/
def walk (g : Graph) (p d : K) : List Nat → Nat → St K → Option (St K)
  | [], _, s => some s
  | i :: is, v, s => if (g.outs v).length = 0 then some s else ((g.outs v)[i]?).bind fun e => walk g p d is (g.target e) (visit p d e s)

/-- `update_graph_pheromone_from_trail_no_min_max` (`/repo/src/aco_process.c` 439-445): every ant has its trail and its pheromone, and starts at the
root (`/repo/src/aco_process.c` 256-259). -/
def deposit (g : Graph) (p : K) : List (List Nat × K) → St K → Option (St K)
  | [], s => some s
  | a :: as, s => (walk g p a.2 a.1 g.root s).bind (deposit g p as)

/-- The loop over all edges (`/repo/src/aco_process.c` 325-332). -/
def evaporate (p : K) : List Nat → St K → St K
  | [], s => s
  | e :: es, s => evaporate p es (if s.flag e then ⟨s.ph, Function.update s.flag e false⟩ else ⟨Function.update s.ph e (s.ph e * p), s.flag⟩)

/-- `update_pheromones_no_min_max` (`/repo/src/aco_process.c` 322-334) with the edges of the graph; the index of the iteration grows by one. -/
def update (g : Graph) (p : K) (edges : List Nat) (ants : List (List Nat × K)) (s : St K × Nat) : Option (St K × Nat) :=
  (deposit g p ants s.1).bind fun t => some (evaporate p edges t, s.2 + 1)

/-! ### Specification -/

/-- The path that starts at a node takes these edges, one after the other. It ends with its indices or at a node without outgoing edges. -/
inductive Takes (g : Graph) : Nat → List Nat → List Nat → Prop
  | stop (v) : Takes g v [] []
  | leaf (v i is) : g.outs v = [] → Takes g v (i :: is) []
  | step (v i is e es) : (g.outs v)[i]? = some e → Takes g (g.target e) is es → Takes g v (i :: is) (e :: es)

/-- The trail of every ant takes the edges listed for it. -/
def AllTake (g : Graph) (ants : List (List Nat × K)) (taken : List (List Nat)) : Prop :=
  List.Forall₂ (fun a es => Takes g g.root a.1 es) ants taken

/-- What the ants leave on an edge: each its pheromone, once for every time it passes. -/
def left (ants : List (List Nat × K)) (taken : List (List Nat)) (e : Nat) : K :=
  ((List.zip ants taken).map fun x => (x.2.count e : K) * x.1.2).sum

/-! ### Lemmas -/

/-- During the update every edge that was flagged was multiplied by `p` once. -/
theorem walk_spec (g : Graph) (p d : K) : ∀ (is : List Nat) (v : Nat) (es : List Nat) (s : St K), Takes g v is es → ∃ t, walk g p d is v s = some t ∧
    (∀ e, t.flag e = (s.flag e || decide (e ∈ es))) ∧
    (∀ e, (if t.flag e then t.ph e else t.ph e * p) = (if s.flag e then s.ph e else s.ph e * p) + (es.count e : K) * d) ∧
    ∀ e, t.flag e = false → t.ph e = s.ph e
  | [], v, es, s, h => by
    cases h
    exact ⟨s, rfl, by simp, by simp, fun _ _ => rfl⟩
  | i :: is, v, es, s, h => by
    cases h with
    | leaf _ _ _ h =>
      exact ⟨s, by rw [walk, h]; rfl, by simp, by simp, fun _ _ => rfl⟩
    | step _ _ _ e es he h =>
      obtain ⟨t, ht, h1, h2, h3⟩ := walk_spec g p d is (g.target e) es (visit p d e s) h
      refine ⟨t, ?_, fun x => ?_, fun x => ?_, fun x hx => ?_⟩
      · rw [walk, if_neg (by intro c; rw [List.length_eq_zero_iff] at c; rw [c] at he; cases he), he]
        exact ht
      · rw [h1 x]
        show (Function.update s.flag e true x || _) = _
        by_cases hx : x = e
        · subst hx; simp
        · rw [Function.update_of_ne hx]; simp [hx]
      · rw [h2 x]
        show (if Function.update s.flag e true x = true then Function.update s.ph e _ x else Function.update s.ph e _ x * p) + _ = _
        by_cases hx : x = e
        · subst hx
          rw [Function.update_self, Function.update_self, if_pos rfl, List.count_cons_self]
          push_cast
          ring
        · rw [Function.update_of_ne hx, Function.update_of_ne hx, List.count_cons_of_ne (Ne.symm hx)]
      · rw [h3 x hx]
        have hxe : x ≠ e := fun c => by
          subst c
          rw [h1 x] at hx
          simp [visit] at hx
        exact Function.update_of_ne hxe _ _

theorem deposit_spec (g : Graph) (p : K) : ∀ (ants : List (List Nat × K)) (taken : List (List Nat)) (s : St K), AllTake g ants taken →
    ∃ t, deposit g p ants s = some t ∧ (∀ e, t.flag e = (s.flag e || decide (e ∈ taken.flatten))) ∧
    (∀ e, (if t.flag e then t.ph e else t.ph e * p) = (if s.flag e then s.ph e else s.ph e * p) + left ants taken e) ∧
    ∀ e, t.flag e = false → t.ph e = s.ph e
  | [], _, s, h => by
    cases h
    exact ⟨s, rfl, by simp, by simp [left], fun _ _ => rfl⟩
  | a :: as, _, s, h => by
    cases h with
    | cons h hs =>
      rename_i es taken
      obtain ⟨t, e1, f1, p1, u1⟩ := walk_spec g p a.2 a.1 g.root es s h
      obtain ⟨r, e2, f2, p2, u2⟩ := deposit_spec g p as taken t hs
      refine ⟨r, by rw [deposit, e1]; exact e2, fun e => ?_, fun e => ?_, fun e he => ?_⟩
      · rw [f2, f1]
        simp [Bool.or_assoc]
      · rw [p2, p1]
        simp only [left, List.zip_cons_cons, List.map_cons, List.sum_cons]
        ring
      · rw [u2 e he]
        rw [f2] at he
        exact u1 e (by cases ht : t.flag e; · rfl
                       · rw [ht] at he; cases he)

theorem evaporate_spec (p : K) : ∀ (es : List Nat) (s : St K), es.Nodup →
    (∀ e ∈ es, (evaporate p es s).ph e = (if s.flag e then s.ph e else s.ph e * p) ∧ (evaporate p es s).flag e = false) ∧
    ∀ e, e ∉ es → (evaporate p es s).ph e = s.ph e ∧ (evaporate p es s).flag e = s.flag e
  | [], s, _ => ⟨fun e he => (by cases he), fun _ _ => ⟨rfl, rfl⟩⟩
  | x :: es, s, h => by
    obtain ⟨hx, hn⟩ := List.nodup_cons.mp h
    rw [evaporate]
    by_cases hf : s.flag x = true
    · rw [if_pos hf]
      obtain ⟨h1, h2⟩ := evaporate_spec p es ⟨s.ph, Function.update s.flag x false⟩ hn
      refine ⟨fun e he => ?_, fun e he => ?_⟩
      · rcases List.mem_cons.mp he with rfl | he
        · obtain ⟨a, b⟩ := h2 e hx
          rw [a, b, if_pos hf]
          exact ⟨rfl, Function.update_self _ _ _⟩
        · obtain ⟨a, b⟩ := h1 e he
          rw [a, b]
          have hne : e ≠ x := fun c => hx (c ▸ he)
          refine ⟨?_, rfl⟩
          show (if Function.update s.flag x false e = true then s.ph e else s.ph e * p) = _
          rw [Function.update_of_ne hne]
      · rw [List.mem_cons, not_or] at he
        obtain ⟨a, b⟩ := h2 e he.2
        rw [a, b]
        exact ⟨rfl, Function.update_of_ne he.1 _ _⟩
    · rw [if_neg hf]
      obtain ⟨h1, h2⟩ := evaporate_spec p es ⟨Function.update s.ph x (s.ph x * p), s.flag⟩ hn
      refine ⟨fun e he => ?_, fun e he => ?_⟩
      · rcases List.mem_cons.mp he with rfl | he
        · obtain ⟨a, b⟩ := h2 e hx
          rw [a, b, if_neg hf]
          exact ⟨Function.update_self _ _ _, by simpa using hf⟩
        · obtain ⟨a, b⟩ := h1 e he
          rw [a, b]
          have hne : e ≠ x := fun c => hx (c ▸ he)
          refine ⟨?_, rfl⟩
          show (if s.flag e = true then Function.update s.ph x _ e else Function.update s.ph x _ e * p) = _
          rw [Function.update_of_ne hne]
      · rw [List.mem_cons, not_or] at he
        obtain ⟨a, b⟩ := h2 e he.2
        rw [a, b]
        exact ⟨Function.update_of_ne he.1 _ _, rfl⟩

/-! ### Theorems -/

/-- After the update every edge has `p` times its pheromone and what all ants left on it, each counted once for every time it passed, and no
edge is flagged; so another update may follow. -/
theorem C178_update (g : Graph) (p : K) (edges : List Nat) (ants : List (List Nat × K)) (taken : List (List Nat)) (s : St K) (n : Nat)
    (hE : edges.Nodup) (ht : AllTake g ants taken) (hin : ∀ e ∈ taken.flatten, e ∈ edges) (hf : ∀ e, s.flag e = false) :
    ∃ t, update g p edges ants (s, n) = some (t, n + 1) ∧ (∀ e ∈ edges, t.ph e = p * s.ph e + left ants taken e) ∧
      (∀ e, e ∉ edges → t.ph e = s.ph e) ∧ ∀ e, t.flag e = false := by
  obtain ⟨r, e1, f1, p1, u1⟩ := deposit_spec g p ants taken s ht
  obtain ⟨h1, h2⟩ := evaporate_spec p edges r hE
  refine ⟨evaporate p edges r, by rw [update, e1]; rfl, fun e he => ?_, fun e he => ?_, fun e => ?_⟩
  · rw [(h1 e he).1, p1 e, hf e, if_neg (by decide), mul_comm]
  · have hfe : r.flag e = false := by
      rw [f1, hf]
      simpa using fun l hl hx => he (hin e (List.mem_flatten.mpr ⟨l, hl, hx⟩))
    rw [(h2 e he).1, u1 e hfe]
  · by_cases he : e ∈ edges
    · exact (h1 e he).2
    · rw [(h2 e he).2, f1, hf]
      simpa using fun l hl hx => he (hin e (List.mem_flatten.mpr ⟨l, hl, hx⟩))

/-- A pheromone per ant summed over edges is what the ant carries times the length of its way. -/
theorem sum_count (d : K) (es edges : List Nat) (hE : edges.Nodup) (hin : ∀ e ∈ es, e ∈ edges) :
    (edges.map fun e => (es.count e : K) * d).sum = (es.length : K) * d := by
  induction es with
  | nil => simp
  | cons x es ih =>
    have h1 : (edges.map fun e => ((x :: es).count e : K) * d).sum = (edges.map fun e => (es.count e : K) * d).sum + (edges.map fun e => if e = x then d else 0).sum := by
      rw [← List.sum_map_add]
      congr 1
      refine List.map_congr_left fun e _ => ?_
      by_cases he : e = x
      · subst he; rw [List.count_cons_self, if_pos rfl]; push_cast; ring
      · rw [List.count_cons_of_ne (Ne.symm he), if_neg he, add_zero]
    have h2 : ∀ l : List Nat, l.Nodup → x ∈ l → (l.map fun e => if e = x then d else 0).sum = d := by
      intro l
      induction l with
      | nil => intro _ h; cases h
      | cons y l ihl =>
        intro hn hm
        obtain ⟨hy, hn⟩ := List.nodup_cons.mp hn
        rw [List.map_cons, List.sum_cons]
        by_cases hyx : y = x
        · subst hyx
          rw [if_pos rfl, show (l.map fun e => if e = y then d else 0) = l.map fun _ => (0 : K) from
            List.map_congr_left fun e he => if_neg (fun c : e = y => hy (c ▸ he))]
          simp
        · rw [if_neg hyx, zero_add]
          exact ihl hn ((List.mem_cons.mp hm).resolve_left (Ne.symm hyx))
    rw [h1, ih fun e he => hin e (by simp [he]), h2 edges hE (hin x (by simp)), List.length_cons]
    push_cast
    ring

/-- All pheromone after the update is `p` times all pheromone before and, for each ant, what it carries times the length of its way. -/
theorem C178_total (g : Graph) (p : K) (edges : List Nat) (ants : List (List Nat × K)) (taken : List (List Nat)) (s t : St K) (n m : Nat)
    (hE : edges.Nodup) (ht : AllTake g ants taken) (hin : ∀ e ∈ taken.flatten, e ∈ edges) (hf : ∀ e, s.flag e = false)
    (hu : update g p edges ants (s, n) = some (t, m)) :
    (edges.map t.ph).sum = p * (edges.map s.ph).sum + ((List.zip ants taken).map fun x => (x.2.length : K) * x.1.2).sum := by
  obtain ⟨t', e, h1, _⟩ := C178_update g p edges ants taken s n hE ht hin hf
  rw [e] at hu
  cases hu
  rw [show edges.map t.ph = edges.map fun e => p * s.ph e + left ants taken e from List.map_congr_left h1, List.sum_map_add, List.sum_map_mul_left]
  congr 1
  clear e h1 ht
  unfold left
  induction ants generalizing taken with
  | nil => simp
  | cons a as ih =>
    cases taken with
    | nil => simp
    | cons es taken =>
      simp only [List.zip_cons_cons, List.map_cons, List.sum_cons]
      rw [List.sum_map_add, sum_count a.2 es edges hE (fun x hx => hin x (by simp [hx])), ih taken fun x hx => hin x (by
        rw [List.flatten_cons]; exact List.mem_append_right _ hx)]

/-- The order of the ants does not matter. -/
theorem C178_order (g : Graph) (p : K) (edges : List Nat) (as as' : List ((List Nat × K) × List Nat)) (hp : as.Perm as') (s : St K) (n : Nat)
    (hE : edges.Nodup) (ht : ∀ a ∈ as, Takes g g.root a.1.1 a.2) (hin : ∀ a ∈ as, ∀ e ∈ a.2, e ∈ edges) (hf : ∀ e, s.flag e = false) :
    ∃ t t', update g p edges (as.map Prod.fst) (s, n) = some (t, n + 1) ∧ update g p edges (as'.map Prod.fst) (s, n) = some (t', n + 1) ∧
      ∀ e, t.ph e = t'.ph e ∧ t.flag e = t'.flag e := by
  have all : ∀ l : List ((List Nat × K) × List Nat), (∀ a ∈ l, Takes g g.root a.1.1 a.2) → AllTake g (l.map Prod.fst) (l.map Prod.snd) := by
    intro l
    induction l with
    | nil => intro _; exact List.Forall₂.nil
    | cons a l ih => intro h; exact List.Forall₂.cons (h a (by simp)) (ih fun b hb => h b (by simp [hb]))
  have hmem : ∀ l : List ((List Nat × K) × List Nat), (∀ a ∈ l, ∀ e ∈ a.2, e ∈ edges) → ∀ e ∈ (l.map Prod.snd).flatten, e ∈ edges := by
    intro l h e he
    obtain ⟨es, hes, hx⟩ := List.mem_flatten.mp he
    obtain ⟨a, ha, rfl⟩ := List.mem_map.mp hes
    exact h a ha e hx
  have hzip : ∀ l : List ((List Nat × K) × List Nat), List.zip (l.map Prod.fst) (l.map Prod.snd) = l := by
    intro l
    induction l with
    | nil => rfl
    | cons a l ih => rw [List.map_cons, List.map_cons, List.zip_cons_cons, ih]
  obtain ⟨t, e1, a1, b1, c1⟩ := C178_update g p edges _ _ s n hE (all as ht) (hmem as hin) hf
  obtain ⟨t', e2, a2, b2, c2⟩ := C178_update g p edges _ _ s n hE (all as' fun a ha => ht a (hp.mem_iff.mpr ha))
    (hmem as' fun a ha => hin a (hp.mem_iff.mpr ha)) hf
  refine ⟨t, t', e1, e2, fun e => ⟨?_, by rw [c1, c2]⟩⟩
  by_cases he : e ∈ edges
  · rw [a1 e he, a2 e he, left, left, hzip, hzip, (hp.map _).sum_eq]
  · rw [b1 e he, b2 e he]

/-- The hypotheses are met by two nodes joined by two edges and a loop that is passed twice by one of two ants. -/
example : ∃ (g : Graph) (taken : List (List Nat)), AllTake g [([0, 0, 1], (2 : ℚ)), ([2], 3)] taken ∧ [0, 1, 2].Nodup ∧ (∀ e ∈ taken.flatten, e ∈ [0, 1, 2]) ∧
    left [([0, 0, 1], (2 : ℚ)), ([2], 3)] taken 0 = 4 :=
  ⟨⟨fun v => if v = 0 then [0, 1, 2] else [], fun e => if e = 0 then 0 else 1, 0⟩, [[0, 0, 1], [2]],
    List.Forall₂.cons (.step _ _ _ 0 _ rfl (.step _ _ _ 0 _ rfl (.step _ _ _ 1 _ rfl (.stop _)))) (List.Forall₂.cons (.step _ _ _ 2 _ rfl (.stop _)) List.Forall₂.nil),
    by decide, by decide, by simp [left]; norm_num⟩

end LLab.Aco.AntSystem
