import Mathlib.Data.List.Nodup
import Mathlib.Data.List.Flatten
import Mathlib.Data.List.Basic
import Mathlib.Logic.Function.Basic
import Mathlib.Tactic.Tauto

/-!
Property C170: the life of a search tree in memory (`/repo/src/mcts.c` 28-181 and the allocations of `visit_node`, 206-395): it is
built, grows in any number of simulations with any choices, and is freed.

A block is an array of numbers, a node, an edge or the tree. An array of pointers is a block of its own; its contents
are written in the block of its only owner. The numbers in nodes and edges and the lengths of arrays of numbers are left out: they are the
subject of C57, C80 and C138. The policy has at least one output and the reward network at least one layer, as in every model
that was built, so the arrays the code makes only then are always there. `realloc` always moves.
-/

namespace LLab.Search.Life

/-! ### Model -/

/-- `mcts_node` (`/repo/src/llab.h` 1091-1102): an array of pointers is its address and its contents; in `edges` `none` is null. -/
structure Nd where
  state : Nat
  hid : Nat × List Nat
  cel : Nat × List Nat
  edges : Nat × List (Option Nat)

/-- `mcts_edge` (`/repo/src/llab.h` 1104-1107). -/
structure Ed where
  inp : Nat
  out : Option Nat

/-- `mcts` (`/repo/src/llab.h` 1109-1117); in `edges` `none` is a cell that was not written. -/
structure Tr where
  root : Nat
  nodes : Nat × List Nat
  edges : Nat × List (Option Nat)

/-- A block. -/
inductive Blk where
  | raw
  | node (n : Nd)
  | edge (e : Ed)
  | tree (t : Tr)

/-- Memory: the live blocks by address; addresses from `next` on were never given out. -/
structure Heap where
  next : Nat
  blk : Nat → Option Blk

/-- `malloc`, `calloc`. -/
def Heap.alloc (h : Heap) : Heap := ⟨h.next + 1, Function.update h.blk h.next (some .raw)⟩

/-- A write of a whole block. -/
def Heap.put (h : Heap) (p : Nat) (b : Blk) : Heap := ⟨h.next, Function.update h.blk p (some b)⟩

/-- `free`; `none`: not a live block. -/
def Heap.free (h : Heap) (p : Nat) : Option Heap := (h.blk p).bind fun _ => some ⟨h.next, Function.update h.blk p none⟩

/-- A sequence of `free` calls. -/
def freeList : List Nat → Heap → Option Heap
  | [], h => some h
  | p :: ps, h => (h.free p).bind (freeList ps)

/-- The loop over the layers in `init_mcts_node` (`/repo/src/mcts.c` 48-51). -/
def pairs : Nat → Heap → Heap × List Nat × List Nat
  | 0, h => (h, [], [])
  | k + 1, h => let r := pairs k h.alloc.alloc
    (r.1, h.next :: r.2.1, (h.next + 1) :: r.2.2)

/-- `init_mcts_node` (`/repo/src/mcts.c` 28-67) with `A` edges and `L` layers; `sz` is the array of sizes, which it frees. -/
def initNode (st A L sz : Nat) (h : Heap) : Option (Heap × Nat) :=
  let p := h.next
  let hd := h.next + 1
  let cl := h.next + 2
  let r := pairs L h.alloc.alloc.alloc
  (r.1.free sz).bind fun h2 => some (h2.alloc.put p (.node ⟨st, (hd, r.2.1), (cl, r.2.2), (h2.next, List.replicate A none)⟩), p)

/-- The frees of `free_mcts_node` (`/repo/src/mcts.c` 70-78) in order; `state_with_actions` and `h_states_size` are null. -/
def own (p : Nat) (n : Nd) : List Nat := n.hid.2 ++ n.hid.1 :: (n.cel.2 ++ n.cel.1 :: n.state :: n.edges.1 :: [p])

/-- `free_mcts_node` (`/repo/src/mcts.c` 70-78). -/
def freeNode (p : Nat) (h : Heap) : Option Heap :=
  match h.blk p with
  | some (.node n) => freeList (own p n) h
  | _ => none

/-- The loops that make the edges of a node (`/repo/src/mcts.c` 159-162, 312-315) with `init_mcts_edge`
(`/repo/src/mcts.c` 120-126). -/
def mkEdges (p : Nat) : Nat → Heap → Heap × List Nat
  | 0, h => (h, [])
  | k + 1, h => let r := mkEdges p k (h.alloc.put h.next (.edge ⟨p, none⟩))
    (r.1, h.next :: r.2)

/-- Write the array `edges` of a node. -/
def setEdges (p : Nat) (l : List (Option Nat)) (h : Heap) : Option Heap :=
  match h.blk p with
  | some (.node n) => some (h.put p (.node { n with edges := (n.edges.1, l) }))
  | _ => none

/-- `init_mcts` (`/repo/src/mcts.c` 128-170) with the state `st`. -/
def initTree (st A L : Nat) (h : Heap) : Option (Heap × Nat) :=
  let a := h.next
  let sz := h.next + 1
  (initNode st A L sz h.alloc.alloc).bind fun r =>
    let na := r.1.next
    let ea := r.1.next + 1
    let s := mkEdges r.2 A r.1.alloc.alloc
    (setEdges r.2 (s.2.map some) s.1).bind fun h2 => some (h2.put a (.tree ⟨r.2, (na, [r.2]), (ea, s.2.map some)⟩), a)

/-- A new node behind the edge `e` of a node with `k` edges (`/repo/src/mcts.c` 276-316, 356): `none`: an array is overrun.
Cells of the arrays that are not written stay null in the node and unwritten in the tree. -/
def expand (A L a e k : Nat) (h : Heap) : Option Heap :=
  match h.blk a, h.blk e with
  | some (.tree t), some (.edge E) =>
    (initNode h.next A L (h.next + 1) h.alloc.alloc).bind fun r =>
    (r.1.free t.nodes.1).bind fun h1 =>
    (h1.alloc.free t.edges.1).bind fun h2 =>
    let s := mkEdges r.2 k h2.alloc
    if k ≤ A then
      (setEdges r.2 (s.2.map some ++ List.replicate (A - k) none) s.1).bind fun h3 =>
        some ((h3.put a (.tree ⟨t.root, (h1.next, t.nodes.2 ++ [r.2]), (h2.next, t.edges.2 ++ (s.2.map some ++ List.replicate (A - k) none))⟩)).put e (.edge { E with out := some r.2 }))
    else none
  | _, _ => none

/-- `visit_node` (`/repo/src/mcts.c` 206-395) from a node on, with the list of the choices until the maximum depth. `none`: a
choice that is no edge. -/
def walk (A L a : Nat) : List Nat → Nat → Heap → Option Heap
  | [], _, h => some h
  | i :: is, n, h =>
    match h.blk n with
    | some (.node N) => (N.edges.2[i]?.join).bind fun e =>
      match h.blk e with
      | some (.edge E) =>
        match E.out with
        | none => expand A L a e N.edges.2.length h
        | some c => walk A L a is c h
      | _ => none
    | _ => none

/-- One simulation: `visit_node` of the root. At the root two arrays are made for the choice and freed
(`/repo/src/mcts.c` 226-252). -/
def simulate (A L a : Nat) (is : List Nat) (h : Heap) : Option Heap :=
  match h.blk a with
  | some (.tree t) =>
    if is = [] then some h
    else (h.alloc.alloc.free h.next).bind fun h1 => (h1.free (h.next + 1)).bind fun h2 => walk A L a is t.root h2
  | _ => none

/-- The loop over the edges in `free_mcts` (`/repo/src/mcts.c` 174-176); a cell that was not written is no pointer. -/
def freeCells : List (Option Nat) → Heap → Option Heap
  | [], h => some h
  | c :: cs, h => c.bind fun p => (h.free p).bind (freeCells cs)

/-- The loop over the nodes (`/repo/src/mcts.c` 177-179). -/
def freeNodes : List Nat → Heap → Option Heap
  | [], h => some h
  | p :: ps, h => (freeNode p h).bind (freeNodes ps)

/-- `free_mcts` (`/repo/src/mcts.c` 172-183). -/
def freeTree (a : Nat) (h : Heap) : Option Heap :=
  match h.blk a with
  | some (.tree t) => (freeCells t.edges.2 h).bind fun h => (freeNodes t.nodes.2 h).bind fun h => freeList [t.edges.1, t.nodes.1, a] h
  | _ => none

/-- `mcts_node_add_edge` (`/repo/src/mcts.c` 95-118) on the array of a node that has one: a cell is added if the last one is used,
else the first free one is taken. -/
def addCell (e : Nat) : List (Option Nat) → List (Option Nat)
  | [] => []
  | none :: l => some e :: l
  | some x :: l => some x :: addCell e l

/-- `mcts_node_add_edge` (`/repo/src/mcts.c` 95-118). -/
def addEdge (p e : Nat) (h : Heap) : Option Heap :=
  match h.blk p with
  | some (.node n) =>
    match n.edges.2.getLast? with
    | none => none
    | some none => setEdges p (addCell e n.edges.2) h
    | some (some _) => (h.free n.edges.1).bind fun h1 => some (h1.alloc.put p (.node { n with edges := (h1.next, n.edges.2 ++ [some e]) }))
  | _ => none

/-- `node_is_full_of_edges` (`/repo/src/mcts.c` 86-93) on the array of the node. -/
def isFull : List (Option Nat) → Bool
  | [] => true
  | c :: cs => if c = none then false else isFull cs

/-! ### Specification -/

/-- Addresses from `next` on are free. -/
def Heap.Sane (h : Heap) : Prop := ∀ q, h.next ≤ q → h.blk q = none

/-- The choices name edges: each is below the number of actions. -/
def Choices (A : Nat) (is : List Nat) : Prop := ∀ i ∈ is, i < A

/-- The memories after the tree was built with the state `st` and any number of simulations with any choices. -/
inductive Grown (st A L : Nat) (h0 : Heap) (a : Nat) : Nat → Heap → Prop where
  | init {h : Heap} : initTree st A L h0 = some (h, a) → Grown st A L h0 a 0 h
  | step {n : Nat} {h h' : Heap} {is : List Nat} : Grown st A L h0 a n h → Choices A is → simulate A L a is h = some h' → Grown st A L h0 a (n + 1) h'

/-! ### Lemmas -/

/-- All blocks of the tree. -/
def all (a : Nat) (t : Tr) (ns : List (Nat × Nd)) (es : List Nat) : List Nat :=
  (es ++ ns.flatMap fun x => own x.1 x.2) ++ [t.edges.1, t.nodes.1, a]

/-- What holds of a tree between simulations. -/
structure Inv (A a : Nat) (base : Nat → Option Blk) (h : Heap) (t : Tr) (ns : List (Nat × Nd)) (es : List Nat) : Prop where
  sane : h.Sane
  tree : h.blk a = some (.tree t)
  nodes : t.nodes.2 = ns.map Prod.fst
  edges : t.edges.2 = es.map some
  root : t.root ∈ ns.map Prod.fst
  nd : ∀ x ∈ ns, h.blk x.1 = some (.node x.2) ∧ ∃ l : List Nat, x.2.edges.2 = l.map some ∧ l.length = A ∧ ∀ e ∈ l, e ∈ es
  ed : ∀ e ∈ es, ∃ E, h.blk e = some (.edge E) ∧ ∀ c, E.out = some c → c ∈ ns.map Prod.fst
  nodup : (all a t ns es).Nodup
  live : ∀ q ∈ all a t ns es, (h.blk q).isSome ∧ base q = none
  other : ∀ q, q ∉ all a t ns es → h.blk q = base q

theorem free_eq {h : Heap} {p : Nat} (hp : (h.blk p).isSome) : h.free p = some ⟨h.next, Function.update h.blk p none⟩ := by
  obtain ⟨b, hb⟩ := Option.isSome_iff_exists.mp hp
  simp [Heap.free, hb]

theorem freeList_eq : ∀ (l : List Nat) (h : Heap), l.Nodup → (∀ q ∈ l, (h.blk q).isSome) →
    ∃ h', freeList l h = some h' ∧ h'.next = h.next ∧ ∀ q, h'.blk q = if q ∈ l then none else h.blk q
  | [], h, _, _ => ⟨h, rfl, rfl, fun q => by simp⟩
  | p :: l, h, hn, hl => by
    obtain ⟨hp, hn⟩ := List.nodup_cons.mp hn
    have h1 := free_eq (hl p (by simp))
    obtain ⟨h', hf, hx, hb⟩ := freeList_eq l ⟨h.next, Function.update h.blk p none⟩ hn (by
      intro q hq
      have : q ≠ p := fun e => hp (e ▸ hq)
      rw [show (⟨h.next, Function.update h.blk p none⟩ : Heap).blk q = h.blk q from Function.update_of_ne this _ _]
      exact hl q (by simp [hq]))
    refine ⟨h', by rw [freeList, h1]; exact hf, hx, fun q => ?_⟩
    rw [hb]
    by_cases hq : q = p
    · subst hq; simp
    · simp [hq]

theorem freeCells_eq : ∀ (l : List Nat) (h : Heap), freeCells (l.map some) h = freeList l h
  | [], _ => rfl
  | p :: l, h => by
    simp only [List.map_cons, freeCells, freeList, Option.bind_some]
    cases h.free p with
    | none => rfl
    | some h => exact freeCells_eq l h

theorem freeNodes_eq : ∀ (l : List (Nat × Nd)) (h : Heap), (l.flatMap fun x => own x.1 x.2).Nodup → (∀ x ∈ l, h.blk x.1 = some (.node x.2)) →
    (∀ q ∈ l.flatMap fun x => own x.1 x.2, (h.blk q).isSome) →
    ∃ h', freeNodes (l.map Prod.fst) h = some h' ∧ h'.next = h.next ∧ ∀ q, h'.blk q = if q ∈ l.flatMap (fun x => own x.1 x.2) then none else h.blk q
  | [], h, _, _, _ => ⟨h, rfl, rfl, fun q => by simp⟩
  | x :: l, h, hn, hx, hl => by
    rw [List.flatMap_cons] at hn hl
    obtain ⟨hn1, hn2, hd⟩ := List.nodup_append.mp hn
    obtain ⟨h1, hf1, hx1, hb1⟩ := freeList_eq (own x.1 x.2) h hn1 fun q hq => hl q (List.mem_append_left _ hq)
    have hkeep : ∀ q ∈ l.flatMap (fun x => own x.1 x.2), h1.blk q = h.blk q := fun q hq => by
      rw [hb1, if_neg fun h => hd q h q hq rfl]
    obtain ⟨h', hf, hx', hb⟩ := freeNodes_eq l h1 hn2 (fun y hy => by
        rw [hkeep y.1 (List.mem_flatMap.mpr ⟨y, hy, by simp [own]⟩)]; exact hx y (by simp [hy]))
      fun q hq => by rw [hkeep q hq]; exact hl q (List.mem_append_right _ hq)
    refine ⟨h', ?_, hx'.trans hx1, fun q => ?_⟩
    · rw [List.map_cons, freeNodes, freeNode, hx x (by simp)]
      simp only [hf1, Option.bind_some]
      exact hf
    · rw [hb, hb1, List.flatMap_cons]
      simp only [List.mem_append]
      by_cases a1 : q ∈ own x.1 x.2 <;> by_cases a2 : q ∈ l.flatMap (fun x => own x.1 x.2) <;> simp only [a1, a2, if_true, if_false, or_true, or_false]

theorem Inv.free {A a : Nat} {base : Nat → Option Blk} {h : Heap} {t : Tr} {ns : List (Nat × Nd)} {es : List Nat} (I : Inv A a base h t ns es) :
    ∃ h', freeTree a h = some h' ∧ h'.next = h.next ∧ ∀ q, h'.blk q = base q := by
  obtain ⟨hn12, hn3, hd3⟩ := List.nodup_append.mp I.nodup
  obtain ⟨hn1, hn2, hd2⟩ := List.nodup_append.mp hn12
  have hlive : ∀ q, (q ∈ es ∨ q ∈ ns.flatMap fun x => own x.1 x.2) ∨ q ∈ [t.edges.1, t.nodes.1, a] → (h.blk q).isSome := fun q hq =>
    (I.live q (by rw [all, List.mem_append, List.mem_append]; exact hq)).1
  obtain ⟨h1, hf1, hx1, hb1⟩ := freeList_eq es h hn1 fun q hq => hlive q (.inl (.inl hq))
  have k1 : ∀ q ∈ ns.flatMap (fun x => own x.1 x.2), h1.blk q = h.blk q := fun q hq => by
    rw [hb1, if_neg fun h => hd2 q h q hq rfl]
  obtain ⟨h2, hf2, hx2, hb2⟩ := freeNodes_eq ns h1 hn2 (fun x hx => by
      rw [k1 x.1 (List.mem_flatMap.mpr ⟨x, hx, by simp [own]⟩)]; exact (I.nd x hx).1)
    fun q hq => by rw [k1 q hq]; exact hlive q (.inl (.inr hq))
  have k2 : ∀ q ∈ [t.edges.1, t.nodes.1, a], h2.blk q = h.blk q := fun q hq => by
    rw [hb2, if_neg fun h => hd3 q (List.mem_append_right _ h) q hq rfl, hb1, if_neg fun h => hd3 q (List.mem_append_left _ h) q hq rfl]
  obtain ⟨h3, hf3, hx3, hb3⟩ := freeList_eq [t.edges.1, t.nodes.1, a] h2 hn3 fun q hq => by rw [k2 q hq]; exact hlive q (.inr hq)
  refine ⟨h3, ?_, hx3.trans (hx2.trans hx1), fun q => ?_⟩
  · rw [freeTree, I.tree]
    simp only [I.edges, I.nodes, freeCells_eq, hf1, hf2, hf3, Option.bind_some]
  · rw [hb3, hb2, hb1]
    by_cases hq : q ∈ all a t ns es
    · rw [(I.live q hq).2]
      rw [all, List.mem_append, List.mem_append] at hq
      rcases hq with (hq | hq) | hq
      · rw [if_pos hq]; simp
      · rw [if_pos hq]; simp
      · rw [if_pos hq]
    · rw [← I.other q hq]
      rw [all, List.mem_append, List.mem_append] at hq
      rw [if_neg fun h => hq (.inr h), if_neg fun h => hq (.inl (.inr h)), if_neg fun h => hq (.inl (.inl h))]

theorem pairs_spec : ∀ (k : Nat) (h : Heap), (pairs k h).1.next = h.next + 2 * k ∧
    ((pairs k h).2.1 ++ (pairs k h).2.2).Nodup ∧ (∀ q, q ∈ (pairs k h).2.1 ++ (pairs k h).2.2 → h.next ≤ q ∧ q < h.next + 2 * k) ∧
    (∀ q, h.next ≤ q → q < h.next + 2 * k → q ∈ (pairs k h).2.1 ++ (pairs k h).2.2) ∧
    ∀ q, (pairs k h).1.blk q = if h.next ≤ q ∧ q < h.next + 2 * k then some .raw else h.blk q
  | 0, h => by
    refine ⟨rfl, List.nodup_nil, fun q hq => absurd hq (by simp [pairs]), fun q _ _ => by omega, fun q => ?_⟩
    rw [if_neg (by omega)]; rfl
  | k + 1, h => by
    obtain ⟨i1, i2, i3, i4, i5⟩ := pairs_spec k h.alloc.alloc
    have e : h.alloc.alloc.next = h.next + 2 := rfl
    rw [e] at i1 i3 i4 i5
    have hm : ∀ q, q ∈ (pairs (k + 1) h).2.1 ++ (pairs (k + 1) h).2.2 ↔ q = h.next ∨ q = h.next + 1 ∨ q ∈ (pairs k h.alloc.alloc).2.1 ++ (pairs k h.alloc.alloc).2.2 := by
      intro q
      simp only [pairs, List.mem_append, List.mem_cons]
      tauto
    refine ⟨by rw [show (pairs (k + 1) h).1 = (pairs k h.alloc.alloc).1 from rfl, i1]; omega, ?_, fun q hq => ?_, fun q h1 h2 => ?_, fun q => ?_⟩
    · show ((h.next :: (pairs k h.alloc.alloc).2.1) ++ ((h.next + 1) :: (pairs k h.alloc.alloc).2.2)).Nodup
      rw [List.cons_append, List.nodup_cons, List.nodup_middle, List.nodup_cons]
      refine ⟨fun hq => ?_, fun hq => ?_, i2⟩
      · rcases List.mem_append.mp hq with hq | hq
        · have := i3 _ (List.mem_append_left _ hq); omega
        · rcases List.mem_cons.mp hq with hq | hq
          · omega
          · have := i3 _ (List.mem_append_right _ hq); omega
      · have := i3 _ hq; omega
    · rcases (hm q).mp hq with rfl | rfl | hq
      · omega
      · omega
      · have := i3 q hq; omega
    · refine (hm q).mpr ?_
      by_cases h3 : q < h.next + 2
      · omega
      · exact .inr (.inr (i4 q (by omega) (by omega)))
    · rw [show (pairs (k + 1) h).1 = (pairs k h.alloc.alloc).1 from rfl, i5]
      by_cases h1 : h.next ≤ q ∧ q < h.next + 2 * (k + 1)
      · rw [if_pos h1]
        by_cases h2 : h.next + 2 ≤ q
        · rw [if_pos (by omega)]
        · rw [if_neg (by omega)]
          have : q = h.next + 1 ∨ q = h.next := by omega
          rcases this with rfl | rfl
          · simp [Heap.alloc]
          · simp [Heap.alloc]
      · rw [if_neg h1, if_neg (by omega)]
        have a1 : q ≠ h.next + 1 := by omega
        have a2 : q ≠ h.next := by omega
        simp [Heap.alloc, a1, a2]

theorem mkEdges_spec (p : Nat) : ∀ (k : Nat) (h : Heap), (mkEdges p k h).1.next = h.next + k ∧ (mkEdges p k h).2 = List.range' h.next k ∧
    ∀ q, (mkEdges p k h).1.blk q = if h.next ≤ q ∧ q < h.next + k then some (.edge ⟨p, none⟩) else h.blk q
  | 0, h => ⟨rfl, rfl, fun q => by rw [if_neg (by omega)]; rfl⟩
  | k + 1, h => by
    obtain ⟨i1, i2, i3⟩ := mkEdges_spec p k (h.alloc.put h.next (.edge ⟨p, none⟩))
    have e : (h.alloc.put h.next (.edge ⟨p, none⟩)).next = h.next + 1 := rfl
    rw [e] at i1 i2 i3
    refine ⟨by rw [show (mkEdges p (k + 1) h).1 = (mkEdges p k (h.alloc.put h.next (.edge ⟨p, none⟩))).1 from rfl, i1]; omega, ?_, fun q => ?_⟩
    · rw [show (mkEdges p (k + 1) h).2 = h.next :: (mkEdges p k (h.alloc.put h.next (.edge ⟨p, none⟩))).2 from rfl, i2]; rfl
    · rw [show (mkEdges p (k + 1) h).1 = (mkEdges p k (h.alloc.put h.next (.edge ⟨p, none⟩))).1 from rfl, i3]
      by_cases h1 : q = h.next
      · subst h1
        rw [if_neg (by omega), if_pos (by omega)]
        simp [Heap.put]
      · by_cases h2 : h.next ≤ q ∧ q < h.next + (k + 1)
        · rw [if_pos h2, if_pos (by omega)]
        · rw [if_neg h2, if_neg (by omega)]
          simp [Heap.put, Heap.alloc, h1]

/-- What `init_mcts_node` does: `p` is the new node. -/
theorem initNode_spec (st A L sz : Nat) (h : Heap) (hsz : sz < h.next) (hlive : (h.blk sz).isSome) (hst : st < h.next) :
    ∃ h' N, initNode st A L sz h = some (h', h.next) ∧ h'.next = h.next + (4 + 2 * L) ∧ N.edges.2 = List.replicate A none ∧ (own h.next N).Nodup ∧
      (∀ q, q ∈ own h.next N ↔ q = st ∨ (h.next ≤ q ∧ q < h.next + (4 + 2 * L))) ∧
      (∀ q, h'.blk q = if q = h.next then some (.node N) else if q = sz then none else if h.next ≤ q ∧ q < h.next + (4 + 2 * L) then some .raw else h.blk q) := by
  obtain ⟨i1, i2, i3, i4, i5⟩ := pairs_spec L h.alloc.alloc.alloc
  have e : h.alloc.alloc.alloc.next = h.next + 3 := rfl
  rw [e] at i1 i3 i4 i5
  have hs : ((pairs L h.alloc.alloc.alloc).1.blk sz).isSome := by
    rw [i5, if_neg (by omega)]
    have a1 : sz ≠ h.next + 1 + 1 := by omega
    have a2 : sz ≠ h.next + 1 := by omega
    have a3 : sz ≠ h.next := by omega
    simpa [Heap.alloc, a1, a2, a3] using hlive
  set r := pairs L h.alloc.alloc.alloc with hr
  refine ⟨(⟨r.1.next + 1, Function.update (Function.update (Function.update r.1.blk sz none) r.1.next (some .raw)) h.next
      (some (.node ⟨st, (h.next + 1, r.2.1), (h.next + 2, r.2.2), (r.1.next, List.replicate A none)⟩))⟩ : Heap), ⟨st, (h.next + 1, r.2.1), (h.next + 2, r.2.2), (r.1.next, List.replicate A none)⟩, ?_, ?_, rfl, ?_, ?_, ?_⟩
  · rw [initNode, ← hr]
    simp only [free_eq hs, Option.bind_some]
    rfl
  · show r.1.next + 1 = _
    rw [i1]; omega
  · obtain ⟨n1, n2, n3⟩ := List.nodup_append.mp i2
    have b1 : ∀ q ∈ r.2.1, h.next + 3 ≤ q ∧ q < h.next + 3 + 2 * L := fun q hq => i3 q (List.mem_append_left _ hq)
    have b2 : ∀ q ∈ r.2.2, h.next + 3 ≤ q ∧ q < h.next + 3 + 2 * L := fun q hq => i3 q (List.mem_append_right _ hq)
    simp only [own, List.nodup_append, List.nodup_cons, List.mem_append, List.mem_cons, List.not_mem_nil, or_false, not_false_eq_true, List.nodup_nil, and_true, i1]
    refine ⟨n1, ⟨?_, n2, ?_, ?_⟩, ?_⟩
    · rintro (hq | hq)
      · have := b2 _ hq; omega
      · omega
    · omega
    · intro x hx y hy
      have := b2 x hx
      omega
    · intro x hx y hy
      have := b1 x hx
      rcases hy with hy | hy | hy
      · omega
      · exact n3 x hx y hy
      · omega
  · intro q
    have : q ∈ r.2.1 ++ r.2.2 ↔ h.next + 3 ≤ q ∧ q < h.next + 3 + 2 * L := ⟨i3 q, fun h => i4 q h.1 h.2⟩
    simp only [List.mem_append] at this
    simp only [own, List.mem_append, List.mem_cons, List.not_mem_nil, or_false, i1]
    constructor
    · rintro (hq | hq | (hq | hq))
      · have := this.mp (.inl hq); omega
      · omega
      · have := this.mp (.inr hq); omega
      · omega
    · intro hq
      by_cases h1 : h.next + 3 ≤ q ∧ q < h.next + 3 + 2 * L
      · rcases this.mpr h1 with h | h <;> tauto
      · have : q = st ∨ q = h.next ∨ q = h.next + 1 ∨ q = h.next + 2 ∨ q = h.next + 3 + 2 * L := by omega
        tauto
  · intro q
    by_cases h1 : q = h.next
    · subst h1; simp
    · show Function.update _ _ _ q = _
      rw [if_neg h1, Function.update_of_ne h1, i1]
      by_cases h2 : q = sz
      · subst h2; rw [if_pos rfl, Function.update_of_ne (by omega), Function.update_self]
      · rw [if_neg h2]
        by_cases h3 : q = h.next + 3 + 2 * L
        · rw [h3, Function.update_self, if_pos (by omega)]
        · rw [Function.update_of_ne h3, Function.update_of_ne h2, i5]
          by_cases h4 : h.next + 3 ≤ q ∧ q < h.next + 3 + 2 * L
          · rw [if_pos h4, if_pos (by omega)]
          · rw [if_neg h4]
            by_cases h5 : q = h.next + 1 + 1
            · subst h5; rw [if_pos (by omega)]; simp [Heap.alloc]
            · by_cases h6 : q = h.next + 1
              · subst h6; rw [if_pos (by omega)]; simp [Heap.alloc]
              · rw [if_neg (by omega)]
                simp [Heap.alloc, h1, h5, h6]

/-- The memory after an expansion with `A` edges: `b` is the first new address, `c` the one after the node. -/
theorem expand_spec (A L a e : Nat) (h : Heap) (t : Tr) (E : Ed) (hs : h.Sane) (ht : h.blk a = some (.tree t)) (he : h.blk e = some (.edge E))
    (hn : (h.blk t.nodes.1).isSome) (hne : (h.blk t.edges.1).isSome) (hd : t.nodes.1 ≠ t.edges.1) :
    ∃ h' N, expand A L a e A h = some h' ∧ h'.next = h.next + 2 + (4 + 2 * L) + 2 + A ∧ (own (h.next + 2) N).Nodup ∧
      N.edges.2 = (List.range' (h.next + 2 + (4 + 2 * L) + 2) A).map some ∧
      (∀ q, q ∈ own (h.next + 2) N ↔ q = h.next ∨ (h.next + 2 ≤ q ∧ q < h.next + 2 + (4 + 2 * L))) ∧
      ∀ q, h'.blk q = if q = e then some (.edge { E with out := some (h.next + 2) })
        else if q = a then some (.tree ⟨t.root, (h.next + 2 + (4 + 2 * L), t.nodes.2 ++ [h.next + 2]), (h.next + 2 + (4 + 2 * L) + 1, t.edges.2 ++ (List.range' (h.next + 2 + (4 + 2 * L) + 2) A).map some)⟩)
        else if q = h.next + 2 then some (.node N)
        else if h.next + 2 + (4 + 2 * L) + 2 ≤ q ∧ q < h.next + 2 + (4 + 2 * L) + 2 + A then some (.edge ⟨h.next + 2, none⟩)
        else if q = t.edges.1 ∨ q = t.nodes.1 ∨ q = h.next + 1 then none
        else if h.next ≤ q ∧ q < h.next + 2 + (4 + 2 * L) + 2 then some .raw else h.blk q := by
  have below : ∀ q, (h.blk q).isSome → q < h.next := fun q hq => by
    by_contra hlt
    rw [hs q (by omega)] at hq
    exact absurd hq (by simp)
  have b1 := below _ hn
  have b2 := below _ hne
  have b3 := below a (by rw [ht]; rfl)
  have b4 := below e (by rw [he]; rfl)
  have hA : ∀ q, h.alloc.alloc.blk q = if q = h.next + 1 ∨ q = h.next then some .raw else h.blk q := by
    intro q
    by_cases h1 : q = h.next + 1
    · subst h1; simp [Heap.alloc]
    · by_cases h2 : q = h.next
      · subst h2; simp [Heap.alloc]
      · simp [Heap.alloc, h1, h2]
  obtain ⟨g, N, g1, g2, g3, g4, g5, g6⟩ := initNode_spec h.next A L (h.next + 1) h.alloc.alloc (show h.next + 1 < h.next + 2 by omega)
    (by rw [hA]; simp) (show h.next < h.next + 2 by omega)
  have e2 : h.alloc.alloc.next = h.next + 2 := rfl
  rw [e2] at g1 g2 g4 g5 g6
  have l1 : (g.blk t.nodes.1).isSome := by
    rw [g6, if_neg (by omega), if_neg (by omega), if_neg (by omega), hA, if_neg (by omega)]; exact hn
  have l2 : ((Heap.alloc ⟨g.next, Function.update g.blk t.nodes.1 none⟩).blk t.edges.1).isSome := by
    show (Function.update (Function.update g.blk t.nodes.1 none) g.next (some Blk.raw) t.edges.1).isSome
    rw [Function.update_of_ne (by omega), Function.update_of_ne (Ne.symm hd), g6, if_neg (by omega), if_neg (by omega), if_neg (by omega), hA, if_neg (by omega)]
    exact hne
  generalize hk1 : (Heap.alloc ⟨g.next, Function.update g.blk t.nodes.1 none⟩ : Heap) = k1 at l2
  have k1n : k1.next = h.next + 2 + (4 + 2 * L) + 1 := by rw [← hk1, ← g2]; rfl
  have k1b : ∀ q, k1.blk q = if q = h.next + 2 + (4 + 2 * L) then some .raw else if q = t.nodes.1 then none else g.blk q := by
    intro q
    rw [← hk1, ← g2]
    show Function.update (Function.update g.blk t.nodes.1 none) g.next (some Blk.raw) q = _
    rw [Function.update_apply, Function.update_apply]
  generalize hk2 : (Heap.alloc ⟨k1.next, Function.update k1.blk t.edges.1 none⟩ : Heap) = k2
  have k2n : k2.next = h.next + 2 + (4 + 2 * L) + 2 := by rw [← hk2]; show k1.next + 1 = _; rw [k1n]
  have k2b : ∀ q, k2.blk q = if q = h.next + 2 + (4 + 2 * L) + 1 then some .raw else if q = t.edges.1 then none else k1.blk q := by
    intro q
    rw [← hk2, ← k1n]
    show Function.update (Function.update k1.blk t.edges.1 none) k1.next (some Blk.raw) q = _
    rw [Function.update_apply, Function.update_apply]
  obtain ⟨m1, m2, m3⟩ := mkEdges_spec (h.next + 2) A k2
  rw [k2n] at m1 m2 m3
  have hp : (mkEdges (h.next + 2) A k2).1.blk (h.next + 2) = some (.node N) := by
    rw [m3, if_neg (by omega), k2b, if_neg (by omega), if_neg (by omega), k1b, if_neg (by omega), if_neg (by omega), g6, if_pos rfl]
  have hset := show setEdges (h.next + 2) ((mkEdges (h.next + 2) A k2).2.map some ++ List.replicate (A - A) none) (mkEdges (h.next + 2) A k2).1 = _ by
    rw [setEdges, hp]
  rw [Nat.sub_self, List.replicate_zero, List.append_nil, m2] at hset
  generalize hk3 : mkEdges (h.next + 2) A k2 = k3 at *
  refine ⟨((k3.1.put (h.next + 2) (.node { N with edges := (N.edges.1, (List.range' (h.next + 2 + (4 + 2 * L) + 2) A).map some) })).put a (.tree ⟨t.root, (h.next + 2 + (4 + 2 * L), t.nodes.2 ++ [h.next + 2]), (h.next + 2 + (4 + 2 * L) + 1, t.edges.2 ++ (List.range' (h.next + 2 + (4 + 2 * L) + 2) A).map some)⟩)).put e (.edge { E with out := some (h.next + 2) }),
    { N with edges := (N.edges.1, (List.range' (h.next + 2 + (4 + 2 * L) + 2) A).map some) }, ?_, m1, g4, rfl, g5, fun q => ?_⟩
  · rw [expand, ht, he]
    dsimp only
    rw [g1]
    simp only [Option.bind_some, free_eq l1, hk1]
    simp only [Option.bind_some, free_eq l2, hk2, hk3, Nat.le_refl, if_true, Nat.sub_self, List.replicate_zero, List.append_nil, m2, hset]
    simp only [g2, k1n]
  · show Function.update (Function.update (Function.update k3.1.blk (h.next + 2) _) a _) e _ q = _
    rw [Function.update_apply, Function.update_apply, Function.update_apply]
    by_cases c1 : q = e
    · rw [if_pos c1, if_pos c1]
    · rw [if_neg c1, if_neg c1]
      by_cases c2 : q = a
      · rw [if_pos c2, if_pos c2]
      · rw [if_neg c2, if_neg c2]
        by_cases c3 : q = h.next + 2
        · rw [if_pos c3, if_pos c3]
        · rw [if_neg c3, if_neg c3, m3, k2b, k1b, g6, hA]
          split_ifs <;> first | rfl | (exfalso; omega)

theorem Inv.below {A a : Nat} {base : Nat → Option Blk} {h : Heap} {t : Tr} {ns : List (Nat × Nd)} {es : List Nat} (I : Inv A a base h t ns es) :
    ∀ q, (h.blk q).isSome → q < h.next := fun q hq => by
  by_contra hlt
  rw [I.sane q (by omega)] at hq
  exact absurd hq (by simp)

theorem mem_all {a q : Nat} {t : Tr} {ns : List (Nat × Nd)} {es : List Nat} :
    q ∈ all a t ns es ↔ (q ∈ es ∨ ∃ x ∈ ns, q ∈ own x.1 x.2) ∨ q = t.edges.1 ∨ q = t.nodes.1 ∨ q = a := by
  simp only [all, List.mem_append, List.mem_flatMap, List.mem_cons, List.not_mem_nil, or_false]

theorem nodup_all {a : Nat} {t : Tr} {ns : List (Nat × Nd)} {es : List Nat} : (all a t ns es).Nodup ↔
    (es.Nodup ∧ (ns.flatMap fun x => own x.1 x.2).Nodup ∧ ∀ q ∈ es, ∀ x ∈ ns, q ∉ own x.1 x.2) ∧ (t.edges.1 ≠ t.nodes.1 ∧ t.edges.1 ≠ a ∧ t.nodes.1 ≠ a) ∧
      ∀ q, (q ∈ es ∨ ∃ x ∈ ns, q ∈ own x.1 x.2) → q ≠ t.edges.1 ∧ q ≠ t.nodes.1 ∧ q ≠ a := by
  rw [all, List.nodup_append, List.nodup_append]
  constructor
  · rintro ⟨⟨h1, h2, h3⟩, h4, h5⟩
    refine ⟨⟨h1, h2, fun q hq x hx hqx => h3 q hq q (List.mem_flatMap.mpr ⟨x, hx, hqx⟩) rfl⟩, ?_, fun q hq => ?_⟩
    · simp at h4; tauto
    · have hq' : q ∈ es ++ ns.flatMap fun x => own x.1 x.2 := by rw [List.mem_append, List.mem_flatMap]; exact hq
      exact ⟨h5 q hq' _ (by simp), h5 q hq' _ (by simp), h5 q hq' _ (by simp)⟩
  · rintro ⟨⟨h1, h2, h3⟩, h4, h5⟩
    refine ⟨⟨h1, h2, fun q hq y hy e => ?_⟩, by simp; tauto, fun q hq y hy e => ?_⟩
    · subst e
      obtain ⟨x, hx, hqx⟩ := List.mem_flatMap.mp hy
      exact h3 q hq x hx hqx
    · subst e
      rw [List.mem_append, List.mem_flatMap] at hq
      have := h5 q hq
      simp only [List.mem_cons, List.not_mem_nil, or_false] at hy
      tauto

theorem Inv.expand {A L a : Nat} {base : Nat → Option Blk} {h : Heap} {t : Tr} {ns : List (Nat × Nd)} {es : List Nat} (I : Inv A a base h t ns es)
    {e : Nat} {E : Ed} (hes : e ∈ es) (he : h.blk e = some (.edge E)) :
    ∃ h' t' ns' es', Life.expand A L a e A h = some h' ∧ Inv A a base h' t' ns' es' ∧ ns'.length = ns.length + 1 := by
  obtain ⟨⟨n1, n2, n3⟩, ⟨n4, n5, n6⟩, n7⟩ := nodup_all.mp I.nodup
  have lv : ∀ q, q ∈ all a t ns es → (h.blk q).isSome := fun q hq => (I.live q hq).1
  have lt : ∀ q, q ∈ all a t ns es → q < h.next := fun q hq => I.below q (lv q hq)
  have te : t.edges.1 ∈ all a t ns es := mem_all.mpr (.inr (.inl rfl))
  have tn : t.nodes.1 ∈ all a t ns es := mem_all.mpr (.inr (.inr (.inl rfl)))
  have ta : a ∈ all a t ns es := mem_all.mpr (.inr (.inr (.inr rfl)))
  obtain ⟨h', N, g1, g2, g3, g4, g5, g6⟩ := expand_spec A L a e h t E I.sane I.tree he (lv _ tn) (lv _ te) (Ne.symm n4)
  have b1 := lt _ te
  have b2 := lt _ tn
  have b3 := lt _ ta
  have hea : e ∈ all a t ns es := mem_all.mpr (.inl (.inl hes))
  have b4 := lt _ hea
  have hee := n7 e (.inl hes)
  have bes : ∀ q ∈ es, q < h.next := fun q hq => lt q (mem_all.mpr (.inl (.inl hq)))
  have bns : ∀ x ∈ ns, ∀ q ∈ own x.1 x.2, q < h.next := fun x hx q hq => lt q (mem_all.mpr (.inl (.inr ⟨x, hx, hq⟩)))
  have self : ∀ (p : Nat) (n : Nd), p ∈ own p n := fun p n => by simp [own]
  -- old blocks other than these
  have old : ∀ q, q < h.next → q ≠ e → q ≠ a → q ≠ t.edges.1 → q ≠ t.nodes.1 → h'.blk q = h.blk q := fun q c0 c1 c2 c3 c4 => by
    rw [g6, if_neg c1, if_neg c2, if_neg (by omega), if_neg (by omega), if_neg (by omega), if_neg (by omega)]
  have mr : ∀ q, q ∈ List.range' (h.next + 2 + (4 + 2 * L) + 2) A ↔ h.next + 2 + (4 + 2 * L) + 2 ≤ q ∧ q < h.next + 2 + (4 + 2 * L) + 2 + A := fun q => by
    rw [List.mem_range'_1]
  have hall : ∀ q, q ∈ all a ⟨t.root, (h.next + 2 + (4 + 2 * L), t.nodes.2 ++ [h.next + 2]), (h.next + 2 + (4 + 2 * L) + 1, t.edges.2 ++ (List.range' (h.next + 2 + (4 + 2 * L) + 2) A).map some)⟩
      (ns ++ [(h.next + 2, N)]) (es ++ List.range' (h.next + 2 + (4 + 2 * L) + 2) A) ↔
      (q ∈ all a t ns es ∧ q ≠ t.edges.1 ∧ q ≠ t.nodes.1) ∨ q = h.next ∨ (h.next + 2 ≤ q ∧ q < h.next + 2 + (4 + 2 * L) + 2 + A) := by
    intro q
    rw [mem_all, mem_all]
    have hx : (∃ x ∈ ns ++ [(h.next + 2, N)], q ∈ own x.1 x.2) ↔ (∃ x ∈ ns, q ∈ own x.1 x.2) ∨ (q = h.next ∨ (h.next + 2 ≤ q ∧ q < h.next + 2 + (4 + 2 * L))) := by
      rw [← g5]
      constructor
      · rintro ⟨x, hx, hq⟩
        rcases List.mem_append.mp hx with hx | hx
        · exact .inl ⟨x, hx, hq⟩
        · rw [List.mem_singleton] at hx; subst hx; exact .inr hq
      · rintro (⟨x, hx, hq⟩ | hq)
        · exact ⟨x, List.mem_append_left _ hx, hq⟩
        · exact ⟨_, List.mem_append_right _ (List.mem_singleton.mpr rfl), hq⟩
    rw [hx, List.mem_append, mr]
    dsimp only
    constructor
    · rintro (((hq | hq) | (hq | hq)) | hq | hq | hq)
      · have d := n7 q (.inl hq); exact .inl ⟨.inl (.inl hq), d.1, d.2.1⟩
      · right; right; omega
      · have d := n7 q (.inr hq); exact .inl ⟨.inl (.inr hq), d.1, d.2.1⟩
      · right; omega
      · right; right; omega
      · right; right; omega
      · subst hq; left; exact ⟨.inr (.inr (.inr rfl)), Ne.symm n5, Ne.symm n6⟩
    · rintro (⟨(hq | hq) | hq | hq | hq, hq1, hq2⟩ | hq | hq)
      · exact .inl (.inl (.inl hq))
      · exact .inl (.inr (.inl hq))
      · exact absurd hq hq1
      · exact absurd hq hq2
      · exact .inr (.inr (.inr hq))
      · exact .inl (.inr (.inr (.inl hq)))
      · by_cases c1 : q < h.next + 2 + (4 + 2 * L)
        · exact .inl (.inr (.inr (.inr ⟨hq.1, c1⟩)))
        · by_cases c2 : h.next + 2 + (4 + 2 * L) + 2 ≤ q
          · exact .inl (.inl (.inr ⟨c2, hq.2⟩))
          · have : q = h.next + 2 + (4 + 2 * L) + 1 ∨ q = h.next + 2 + (4 + 2 * L) := by omega
            exact .inr (this.imp id .inl)
  refine ⟨h', ⟨t.root, (h.next + 2 + (4 + 2 * L), t.nodes.2 ++ [h.next + 2]), (h.next + 2 + (4 + 2 * L) + 1, t.edges.2 ++ (List.range' (h.next + 2 + (4 + 2 * L) + 2) A).map some)⟩, ns ++ [(h.next + 2, N)], es ++ List.range' (h.next + 2 + (4 + 2 * L) + 2) A, g1,
    { sane := fun q hq => ?_, tree := ?_, nodes := ?_, edges := ?_, root := ?_, nd := fun x hx => ?_, ed := fun x hx => ?_, nodup := ?_, live := fun q hq => ?_, other := fun q hq => ?_ }, by simp⟩
  rotate_left
  · rw [g6, if_neg (fun c => hee.2.2 c.symm), if_pos rfl]
  · show t.nodes.2 ++ [h.next + 2] = _
    rw [I.nodes]; simp
  · show t.edges.2 ++ _ = _
    rw [I.edges]; simp
  · rw [List.map_append]; exact List.mem_append_left _ I.root
  · rcases List.mem_append.mp hx with hx | hx
    · have hq := self x.1 x.2
      have d := n7 x.1 (.inr ⟨x, hx, hq⟩)
      have de : x.1 ≠ e := fun c => n3 e hes x hx (c ▸ hq)
      rw [old x.1 (bns x hx _ hq) de d.2.2 d.1 d.2.1]
      obtain ⟨i1, l, i2, i3, i4⟩ := I.nd x hx
      exact ⟨i1, l, i2, i3, fun e he => List.mem_append_left _ (i4 e he)⟩
    · rw [List.mem_singleton] at hx
      subst hx
      refine ⟨?_, _, g4, List.length_range', fun e he => List.mem_append_right _ he⟩
      rw [g6, if_neg (by dsimp only; omega), if_neg (by dsimp only; omega), if_pos rfl]
  · rcases List.mem_append.mp hx with hx | hx
    · by_cases c : x = e
      · subst c
        refine ⟨_, by rw [g6, if_pos rfl], fun c hc => ?_⟩
        cases hc
        simp
      · have d := n7 x (.inl hx)
        rw [old x (bes x hx) c d.2.2 d.1 d.2.1]
        obtain ⟨E', i1, i2⟩ := I.ed x hx
        exact ⟨E', i1, fun c hc => by rw [List.map_append]; exact List.mem_append_left _ (i2 c hc)⟩
    · have r := (mr x).mp hx
      exact ⟨_, by rw [g6, if_neg (by omega), if_neg (by omega), if_neg (by omega), if_pos r], fun c hc => by cases hc⟩
  · rw [nodup_all]
    dsimp only
    refine ⟨⟨?_, ?_, ?_⟩, ⟨by omega, by omega, by omega⟩, ?_⟩
    · rw [List.nodup_append]
      refine ⟨n1, List.nodup_range', fun x hx y hy => ?_⟩
      have := bes x hx
      have := (mr y).mp hy
      omega
    · rw [List.flatMap_append, List.nodup_append]
      refine ⟨n2, by simpa using g3, fun x hx y hy => ?_⟩
      obtain ⟨z, hz, hxz⟩ := List.mem_flatMap.mp hx
      have := bns z hz x hxz
      have := (g5 y).mp (by simpa using hy)
      omega
    · intro q hq x hx hqx
      rcases List.mem_append.mp hq with hq | hq <;> rcases List.mem_append.mp hx with hx | hx
      · exact n3 q hq x hx hqx
      · rw [List.mem_singleton] at hx
        subst hx
        have := bes q hq
        have := (g5 q).mp hqx
        omega
      · have := bns x hx q hqx
        have := (mr q).mp hq
        omega
      · rw [List.mem_singleton] at hx
        subst hx
        have := (mr q).mp hq
        have := (g5 q).mp hqx
        omega
    · rintro q (hq | ⟨x, hx, hqx⟩)
      · rcases List.mem_append.mp hq with hq | hq
        · have := bes q hq
          have := n7 q (.inl hq)
          exact ⟨by omega, by omega, this.2.2⟩
        · have := (mr q).mp hq
          exact ⟨by omega, by omega, by omega⟩
      · rcases List.mem_append.mp hx with hx | hx
        · have := bns x hx q hqx
          have := n7 q (.inr ⟨x, hx, hqx⟩)
          exact ⟨by omega, by omega, this.2.2⟩
        · rw [List.mem_singleton] at hx
          subst hx
          have := (g5 q).mp hqx
          exact ⟨by omega, by omega, by omega⟩
  · rcases (hall q).mp hq with ⟨c1, c2, c3⟩ | c | c
    · refine ⟨?_, (I.live q c1).2⟩
      by_cases d1 : q = e
      · rw [g6, if_pos d1]; rfl
      · by_cases d2 : q = a
        · rw [g6, if_neg d1, if_pos d2]; rfl
        · rw [old q (lt q c1) d1 d2 c2 c3]; exact lv q c1
    · have hb : base q = none := by
        rw [← I.other q fun hm => by have := lt q hm; omega]
        exact I.sane q (by omega)
      refine ⟨?_, hb⟩
      rw [g6, if_neg (by omega), if_neg (by omega), if_neg (by omega), if_neg (by omega), if_neg (by omega), if_pos (by omega)]; rfl
    · have hb : base q = none := by
        rw [← I.other q fun hm => by have := lt q hm; omega]
        exact I.sane q (by omega)
      refine ⟨?_, hb⟩
      rw [g6, if_neg (by omega), if_neg (by omega)]
      split_ifs <;> first | rfl | (exfalso; omega)
  · have hq' : ¬ ((q ∈ all a t ns es ∧ q ≠ t.edges.1 ∧ q ≠ t.nodes.1) ∨ q = h.next ∨ (h.next + 2 ≤ q ∧ q < h.next + 2 + (4 + 2 * L) + 2 + A)) := fun c => hq ((hall q).mpr c)
    have hne1 : q ≠ e := fun c => hq' (.inl ⟨c ▸ hea, c ▸ hee.1, c ▸ hee.2.1⟩)
    have hne2 : q ≠ a := fun c => hq' (.inl ⟨c ▸ ta, fun d => n5 (d.symm.trans c), fun d => n6 (d.symm.trans c)⟩)
    by_cases d1 : q = t.edges.1
    · rw [g6, if_neg hne1, if_neg hne2, if_neg (by omega), if_neg (by omega), if_pos (.inl d1), d1]
      exact (I.live _ te).2.symm
    · by_cases d2 : q = t.nodes.1
      · rw [g6, if_neg hne1, if_neg hne2, if_neg (by omega), if_neg (by omega), if_pos (.inr (.inl d2)), d2]
        exact (I.live _ tn).2.symm
      · have hnot : q ∉ all a t ns es := fun c => hq' (.inl ⟨c, d1, d2⟩)
        rw [← I.other q hnot]
        by_cases d3 : q = h.next + 1
        · rw [g6, if_neg hne1, if_neg hne2, if_neg (by omega), if_neg (by omega), if_pos (.inr (.inr d3))]
          exact (I.sane q (by omega)).symm
        · rw [g6, if_neg hne1, if_neg hne2, if_neg (by omega), if_neg (by omega), if_neg (by omega), if_neg (by omega)]
  · rw [g2] at hq
    rw [g6, if_neg (by omega), if_neg (by omega), if_neg (by omega), if_neg (by omega)]
    split_ifs
    · rfl
    · exfalso; omega
    · exact I.sane q (by omega)

theorem Inv.walk {A L a : Nat} {base : Nat → Option Blk} : ∀ (is : List Nat) (n : Nat) {h : Heap} {t : Tr} {ns : List (Nat × Nd)} {es : List Nat}, Inv A a base h t ns es →
    n ∈ ns.map Prod.fst → Choices A is → ∃ h' t' ns' es', Life.walk A L a is n h = some h' ∧ Inv A a base h' t' ns' es'
  | [], _, h, t, ns, es, I, _, _ => ⟨h, t, ns, es, rfl, I⟩
  | i :: is, n, h, t, ns, es, I, hn, hc => by
    obtain ⟨x, hx, rfl⟩ := List.mem_map.mp hn
    obtain ⟨i1, l, i2, i3, i4⟩ := I.nd x hx
    have hi : i < l.length := by rw [i3]; exact hc i (by simp)
    have hmem : l[i] ∈ es := i4 _ (List.getElem_mem hi)
    obtain ⟨E, j1, j2⟩ := I.ed _ hmem
    have hget : x.2.edges.2[i]?.join = some l[i] := by rw [i2, List.getElem?_map, List.getElem?_eq_getElem hi]; rfl
    have hlen : x.2.edges.2.length = A := by rw [i2, List.length_map, i3]
    rw [Life.walk, i1]
    dsimp only
    rw [hget, Option.bind_some, j1]
    dsimp only
    cases ho : E.out with
    | none =>
      dsimp only
      rw [hlen]
      obtain ⟨h', t', ns', es', k1, k2, _⟩ := I.expand (L := L) hmem j1
      exact ⟨h', t', ns', es', k1, k2⟩
    | some c => exact Inv.walk is c I (j2 c ho) fun k hk => hc k (by simp [hk])

theorem Inv.same {A a : Nat} {base : Nat → Option Blk} {h h2 : Heap} {t : Tr} {ns : List (Nat × Nd)} {es : List Nat} (I : Inv A a base h t ns es)
    (hn : h.next ≤ h2.next) (hb : ∀ q, h2.blk q = h.blk q) : Inv A a base h2 t ns es where
  sane q hq := by rw [hb]; exact I.sane q (by omega)
  tree := by rw [hb]; exact I.tree
  nodes := I.nodes
  edges := I.edges
  root := I.root
  nd x hx := by rw [hb]; exact I.nd x hx
  ed e he := by rw [hb]; exact I.ed e he
  nodup := I.nodup
  live q hq := by rw [hb]; exact I.live q hq
  other q hq := by rw [hb]; exact I.other q hq

theorem Inv.simulate {A L a : Nat} {base : Nat → Option Blk} (is : List Nat) {h : Heap} {t : Tr} {ns : List (Nat × Nd)} {es : List Nat} (I : Inv A a base h t ns es)
    (hc : Choices A is) : ∃ h' t' ns' es', Life.simulate A L a is h = some h' ∧ Inv A a base h' t' ns' es' := by
  rw [Life.simulate, I.tree]
  dsimp only
  by_cases he : is = []
  · rw [if_pos he]; exact ⟨h, t, ns, es, rfl, I⟩
  · rw [if_neg he]
    have l1 : (h.alloc.alloc.blk h.next).isSome := by simp [Heap.alloc]
    have l2 : ((⟨h.alloc.alloc.next, Function.update h.alloc.alloc.blk h.next none⟩ : Heap).blk (h.next + 1)).isSome := by simp [Heap.alloc]
    rw [free_eq l1, Option.bind_some, free_eq l2, Option.bind_some]
    refine Inv.walk is t.root (I.same (show h.next ≤ h.next + 1 + 1 by omega) fun q => ?_) I.root hc
    show Function.update (Function.update (Function.update (Function.update h.blk h.next (some Blk.raw)) (h.next + 1) (some Blk.raw)) h.next none) (h.next + 1) none q = _
    simp only [Function.update_apply]
    by_cases c1 : q = h.next + 1
    · rw [if_pos c1, I.sane q (by omega)]
    · by_cases c2 : q = h.next
      · rw [if_neg c1, if_pos c2, I.sane q (by omega)]
      · simp only [c1, c2, if_false]

theorem init_inv (st A L : Nat) (h : Heap) (hs : h.Sane) (hst : (h.blk st).isSome) :
    ∃ h' t ns es, initTree st A L h = some (h', h.next) ∧ Inv A h.next (fun q => if q = st then none else h.blk q) h' t ns es := by
  have hlt : st < h.next := by
    by_contra hlt
    rw [hs st (by omega)] at hst
    exact absurd hst (by simp)
  have hA : ∀ q, h.alloc.alloc.blk q = if q = h.next + 1 ∨ q = h.next then some .raw else h.blk q := by
    intro q
    by_cases h1 : q = h.next + 1
    · subst h1; simp [Heap.alloc]
    · by_cases h2 : q = h.next
      · subst h2; simp [Heap.alloc]
      · simp [Heap.alloc, h1, h2]
  obtain ⟨g, N, g1, g2, g3, g4, g5, g6⟩ := initNode_spec st A L (h.next + 1) h.alloc.alloc (show h.next + 1 < h.next + 2 by omega)
    (by rw [hA]; simp) (show st < h.next + 2 by omega)
  have e2 : h.alloc.alloc.next = h.next + 2 := rfl
  rw [e2] at g1 g2 g4 g5 g6
  have gb : ∀ q, g.alloc.alloc.blk q = if q = h.next + 2 + (4 + 2 * L) + 1 ∨ q = h.next + 2 + (4 + 2 * L) then some .raw else g.blk q := by
    intro q
    rw [← g2]
    by_cases h1 : q = g.next + 1
    · subst h1; simp [Heap.alloc]
    · by_cases h2 : q = g.next
      · subst h2; simp [Heap.alloc]
      · simp [Heap.alloc, h1, h2]
  have gn : g.alloc.alloc.next = h.next + 2 + (4 + 2 * L) + 2 := by rw [← g2]; rfl
  obtain ⟨m1, m2, m3⟩ := mkEdges_spec (h.next + 2) A g.alloc.alloc
  rw [gn] at m1 m2 m3
  have hp : (mkEdges (h.next + 2) A g.alloc.alloc).1.blk (h.next + 2) = some (.node N) := by
    rw [m3, if_neg (by omega), gb, if_neg (by omega), g6, if_pos rfl]
  have hset := show setEdges (h.next + 2) ((mkEdges (h.next + 2) A g.alloc.alloc).2.map some) (mkEdges (h.next + 2) A g.alloc.alloc).1 = _ by
    rw [setEdges, hp]
  rw [m2] at hset
  generalize hk3 : mkEdges (h.next + 2) A g.alloc.alloc = k3 at *
  have mr : ∀ q, q ∈ List.range' (h.next + 2 + (4 + 2 * L) + 2) A ↔ h.next + 2 + (4 + 2 * L) + 2 ≤ q ∧ q < h.next + 2 + (4 + 2 * L) + 2 + A := fun q => by
    rw [List.mem_range'_1]
  obtain ⟨N', hN'⟩ : ∃ N' : Nd, N' = { N with edges := (N.edges.1, (List.range' (h.next + 2 + (4 + 2 * L) + 2) A).map some) } := ⟨_, rfl⟩
  obtain ⟨T, hT⟩ : ∃ T : Tr, T = ⟨h.next + 2, (h.next + 2 + (4 + 2 * L), [h.next + 2]), (h.next + 2 + (4 + 2 * L) + 1, (List.range' (h.next + 2 + (4 + 2 * L) + 2) A).map some)⟩ := ⟨_, rfl⟩
  have hown : own (h.next + 2) N' = own (h.next + 2) N := by rw [hN']; rfl
  have hblk : ∀ q, ((k3.1.put (h.next + 2) (.node N')).put h.next (.tree T)).blk q = if q = h.next then some (.tree T) else if q = h.next + 2 then some (.node N')
      else if h.next + 2 + (4 + 2 * L) + 2 ≤ q ∧ q < h.next + 2 + (4 + 2 * L) + 2 + A then some (.edge ⟨h.next + 2, none⟩)
      else if q = h.next + 1 then none else if h.next + 2 ≤ q ∧ q < h.next + 2 + (4 + 2 * L) + 2 then some .raw else h.blk q := by
    intro q
    show Function.update (Function.update k3.1.blk (h.next + 2) _) h.next _ q = _
    rw [Function.update_apply, Function.update_apply, m3, gb, g6, hA]
    split_ifs <;> first | rfl | (exfalso; omega)
  have hall : ∀ q, q ∈ all h.next T [(h.next + 2, N')] (List.range' (h.next + 2 + (4 + 2 * L) + 2) A) ↔
      q = st ∨ q = h.next ∨ (h.next + 2 ≤ q ∧ q < h.next + 2 + (4 + 2 * L) + 2 + A) := by
    intro q
    rw [mem_all, mr]
    simp only [List.mem_singleton, exists_eq_left, hown, g5, hT]
    omega
  refine ⟨(k3.1.put (h.next + 2) (.node N')).put h.next (.tree T), T, [(h.next + 2, N')], List.range' (h.next + 2 + (4 + 2 * L) + 2) A, ?_,
    { sane := fun q hq => ?_, tree := ?_, nodes := ?_, edges := ?_, root := ?_, nd := fun x hx => ?_, ed := fun x hx => ?_, nodup := ?_, live := fun q hq => ?_, other := fun q hq => ?_ }⟩
  · rw [initTree]
    dsimp only
    rw [g1]
    simp only [Option.bind_some, hk3, m2, hset, g2, hT, hN']
  · have hq : k3.1.next ≤ q := hq
    rw [m1] at hq
    rw [hblk, if_neg (by omega), if_neg (by omega), if_neg (by omega), if_neg (by omega), if_neg (by omega)]
    exact hs q (by omega)
  · rw [hblk, if_pos rfl]
  · rw [hT]; rfl
  · rw [hT]
  · rw [hT]; simp
  · rw [List.mem_singleton] at hx
    subst hx
    refine ⟨by rw [hblk, if_neg (by dsimp only; omega), if_pos rfl], List.range' (h.next + 2 + (4 + 2 * L) + 2) A, by rw [hN'], List.length_range', fun e he => he⟩
  · have r := (mr x).mp hx
    exact ⟨_, by rw [hblk, if_neg (by omega), if_neg (by omega), if_pos r], fun c hc => by cases hc⟩
  · rw [nodup_all]
    simp only [List.mem_singleton, forall_eq, exists_eq_left, hown, g5, hT, mr]
    refine ⟨⟨List.nodup_range', by simpa [hown] using g4, fun q hq => by omega⟩, by omega, fun q hq => by omega⟩
  · have hq := (hall q).mp hq
    refine ⟨?_, ?_⟩
    · rw [hblk]
      split_ifs <;> first | rfl | (exfalso; omega) | skip
      have : q = st := by omega
      rw [this]; exact hst
    · by_cases c : q = st
      · rw [if_pos c]
      · rw [if_neg c]; exact hs q (by omega)
  · have hq' : ¬ (q = st ∨ q = h.next ∨ (h.next + 2 ≤ q ∧ q < h.next + 2 + (4 + 2 * L) + 2 + A)) := fun c => hq ((hall q).mpr c)
    rw [if_neg fun c => hq' (.inl c), hblk, if_neg (by omega), if_neg (by omega), if_neg (by omega)]
    by_cases c : q = h.next + 1
    · rw [if_pos c, hs q (by omega)]
    · rw [if_neg c, if_neg (by omega)]

theorem Grown.inv {st A L a : Nat} {h0 : Heap} (hs : h0.Sane) (hst : (h0.blk st).isSome) : ∀ {n : Nat} {h : Heap}, Grown st A L h0 a n h →
    ∃ t ns es, Inv A a (fun q => if q = st then none else h0.blk q) h t ns es := by
  intro n h g
  induction g with
  | init hi =>
    obtain ⟨h', t, ns, es, e1, e2⟩ := init_inv st A L h0 hs hst
    rw [e1] at hi
    cases hi
    exact ⟨t, ns, es, e2⟩
  | @step n h h' is g hc hsim ih =>
    obtain ⟨t, ns, es, I⟩ := ih
    obtain ⟨h2, t', ns', es', e1, e2⟩ := I.simulate (L := L) is hc
    rw [e1] at hsim
    cases hsim
    exact ⟨t', ns', es', e2⟩

/-! ### Theorems -/

/-- The tree is built, and after any number of simulations any further one runs: with choices that name actions no array is
overrun and no freed block is used. -/
theorem C170_runs (st A L : Nat) (h0 : Heap) (hs : h0.Sane) (hst : (h0.blk st).isSome) :
    (∃ h a, initTree st A L h0 = some (h, a)) ∧
    ∀ (n a : Nat) (h : Heap), Grown st A L h0 a n h → ∀ is, Choices A is → ∃ h', simulate A L a is h = some h' := by
  refine ⟨?_, fun n a h g is hc => ?_⟩
  · obtain ⟨h', t, ns, es, e1, _⟩ := init_inv st A L h0 hs hst
    exact ⟨h', _, e1⟩
  · obtain ⟨t, ns, es, I⟩ := g.inv hs hst
    obtain ⟨h', _, _, _, e1, _⟩ := I.simulate (L := L) is hc
    exact ⟨h', e1⟩

/-- After any number of simulations freeing the tree succeeds and leaves the memory as it was before the tree was built, without the
given state: all that the search allocated is released, and only that. The state belongs to the tree: it is freed with it,
and freeing it again is undefined. -/
theorem C170_no_leak (st A L : Nat) (h0 : Heap) (hs : h0.Sane) (hst : (h0.blk st).isSome) (n a : Nat) (h : Heap) (g : Grown st A L h0 a n h) :
    ∃ h', freeTree a h = some h' ∧ (∀ q, h'.blk q = if q = st then none else h0.blk q) ∧ h'.free st = none := by
  obtain ⟨t, ns, es, I⟩ := g.inv hs hst
  obtain ⟨h', e1, _, e3⟩ := I.free
  exact ⟨h', e1, e3, by rw [Heap.free, e3, if_pos rfl]; rfl⟩

/-- The search changes no block that was there before, the state apart. -/
theorem C170_intact (st A L : Nat) (h0 : Heap) (hs : h0.Sane) (hst : (h0.blk st).isSome) (n a : Nat) (h : Heap) (g : Grown st A L h0 a n h)
    (q : Nat) (hq : q ≠ st) (hl : (h0.blk q).isSome) : h.blk q = h0.blk q := by
  obtain ⟨t, ns, es, I⟩ := g.inv hs hst
  rw [I.other q fun hm => ?_]
  · exact if_neg hq
  · have := (I.live q hm).2
    rw [if_neg hq] at this
    rw [this] at hl
    exact absurd hl (by simp)

/-- A node is full exactly if every cell of its array has an edge. -/
theorem C170_full (l : List (Option Nat)) : isFull l = true ↔ ∀ c ∈ l, c ≠ none := by
  induction l with
  | nil => simp [isFull]
  | cons c l ih =>
    rw [isFull]
    by_cases hc : c = none
    · simp [hc]
    · rw [if_neg hc, ih]; simp [hc]

/-- An added edge goes to the first free cell if the last cell is free; if the last one is used, it goes behind it, in a new
array, and the old one is freed. The other cells keep their edges. -/
theorem C170_add_partial (p e : Nat) (h : Heap) (n : Nd) (hs : h.Sane) (hn : h.blk p = some (.node n)) (harr : (h.blk n.edges.1).isSome) (hne : n.edges.1 ≠ p) :
    (n.edges.2.getLast? = some none → ∃ pre post h', n.edges.2 = pre ++ none :: post ∧ (∀ c ∈ pre, c ≠ none) ∧ addEdge p e h = some h' ∧
      h'.blk p = some (.node { n with edges := (n.edges.1, pre ++ some e :: post) }) ∧ ∀ q, q ≠ p → h'.blk q = h.blk q) ∧
    (∀ x, n.edges.2.getLast? = some (some x) → ∃ h', addEdge p e h = some h' ∧ h'.blk p = some (.node { n with edges := (h.next, n.edges.2 ++ [some e]) }) ∧
      h'.blk n.edges.1 = none ∧ ∀ q, q ≠ p → q ≠ n.edges.1 → q ≠ h.next → h'.blk q = h.blk q) := by
  have hadd : ∀ l : List (Option Nat), none ∈ l → ∃ pre post, l = pre ++ none :: post ∧ (∀ c ∈ pre, c ≠ none) ∧ addCell e l = pre ++ some e :: post := by
    intro l
    induction l with
    | nil => intro h; simp at h
    | cons c l ih =>
      intro hm
      cases c with
      | none => exact ⟨[], l, rfl, by simp, rfl⟩
      | some x =>
        obtain ⟨pre, post, e1, e2, e3⟩ := ih (by simpa using hm)
        refine ⟨some x :: pre, post, by rw [e1]; rfl, fun c hc => ?_, by rw [addCell, e3]; rfl⟩
        rcases List.mem_cons.mp hc with rfl | hc
        · simp
        · exact e2 c hc
  constructor
  · intro hl
    obtain ⟨pre, post, e1, e2, e3⟩ := hadd n.edges.2 (List.mem_of_getLast? hl)
    refine ⟨pre, post, h.put p (.node { n with edges := (n.edges.1, pre ++ some e :: post) }), e1, e2, ?_, Function.update_self .., fun q hq => Function.update_of_ne hq ..⟩
    rw [addEdge, hn]
    dsimp only
    rw [hl]
    dsimp only
    rw [setEdges, hn, e3]
  · intro x hl
    refine ⟨_, by rw [addEdge, hn]; dsimp only; rw [hl]; dsimp only; rw [free_eq harr]; rfl, Function.update_self .., ?_, fun q h1 h2 h3 => ?_⟩
    · show Function.update (Function.update (Function.update h.blk n.edges.1 none) h.next (some Blk.raw)) p _ n.edges.1 = none
      rw [Function.update_of_ne hne]
      have c : n.edges.1 ≠ h.next := fun c => by
        rw [hs _ (by omega)] at harr
        exact absurd harr (by simp)
      rw [Function.update_of_ne c, Function.update_self]
    · show Function.update (Function.update (Function.update h.blk n.edges.1 none) h.next (some Blk.raw)) p _ q = _
      rw [Function.update_of_ne h1, Function.update_of_ne h3, Function.update_of_ne h2]

/-- A memory with one array, the state. -/
def exHeap : Heap := ⟨1, fun q => if q = 0 then some .raw else none⟩

/-- The tree of `exHeap` with one action and one layer, and an edge added to its root. The root is block 3, the new edge block
12. -/
def exAdded : Option Heap := (initTree 0 1 1 exHeap).bind fun r => addEdge 3 r.1.next (r.1.alloc.put r.1.next (.edge ⟨3, none⟩))

/-- An edge that the user adds to a node of a tree should belong to the tree: it is not freed with it, and the search that takes it
overruns the array of the new node, whose edges are counted by those of its parent. -/
theorem C170_added_refuted : ∃ h e, exAdded = some h ∧ (∃ E, h.blk e = some (.edge E)) ∧ (∃ h', freeTree 1 h = some h' ∧ (h'.blk e).isSome) ∧
    (∀ i, i = 0 ∨ i = 1 → simulate 1 1 1 [i] h = none) := by
  refine ⟨_, 12, rfl, ⟨_, rfl⟩, ⟨_, rfl, rfl⟩, ?_⟩
  rintro i (rfl | rfl)
  · rfl
  · rfl

/-- The hypotheses are met: from `exHeap` a tree with two actions and one layer, two simulations; the second goes through the node
the first one made. -/
example : exHeap.Sane ∧ (exHeap.blk 0).isSome ∧ ∃ h, Grown 0 2 1 exHeap 1 2 h ∧ ∃ t, h.blk 1 = some (.tree t) ∧ t.nodes.2 = [3, 17, 31] ∧ t.edges.2.length = 6 := by
  refine ⟨fun q hq => ?_, rfl, ?_⟩
  · have : q ≠ 0 := by
      have : 1 ≤ q := hq
      omega
    simp [exHeap, this]
  · obtain ⟨h1, e1⟩ : ∃ h, initTree 0 2 1 exHeap = some (h, 1) := ⟨_, rfl⟩
    obtain ⟨h2, e2⟩ : ∃ h, simulate 2 1 1 [0] h1 = some h := by cases e1; exact ⟨_, rfl⟩
    obtain ⟨h3, e3⟩ : ∃ h, simulate 2 1 1 [0, 1] h2 = some h := by cases e1; cases e2; exact ⟨_, rfl⟩
    refine ⟨h3, .step (.step (.init e1) (by simp [Choices]) e2) (by simp [Choices]) e3, ?_⟩
    cases e1
    cases e2
    cases e3
    exact ⟨_, rfl, rfl, rfl⟩

/-- A free cell should be used before the array grows: with the last cell used and the first one free it grows. -/
theorem C170_slot_refuted : ∃ (h : Heap) (p e : Nat) (n : Nd) (h' : Heap) (n' : Nd), h.blk p = some (.node n) ∧ isFull n.edges.2 = false ∧ addEdge p e h = some h' ∧
    h'.blk p = some (.node n') ∧ n'.edges.2.length = n.edges.2.length + 1 ∧ isFull n'.edges.2 = false :=
  ⟨⟨2, fun q => if q = 0 then some (.node ⟨0, (0, []), (0, []), (1, [none, some 5])⟩) else if q = 1 then some .raw else none⟩, 0, 7, ⟨0, (0, []), (0, []), (1, [none, some 5])⟩, _,
    ⟨0, (0, []), (0, []), (2, [none, some 5, some 7])⟩, rfl, rfl, rfl, rfl, rfl, rfl⟩

end LLab.Search.Life
