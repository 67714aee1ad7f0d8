import Mathlib.Data.List.Nodup
import Mathlib.Data.List.Basic
import Mathlib.Data.List.Perm.Basic
import Mathlib.Logic.Function.Basic

/-!
Property C175: the life of a node of the graph of the ant colony in memory: `init_params`, `init_fcl_func`, `init_aco_node`,
`free_params`, `free_fcl_func`, `free_aco_node` and `add_aco_edge` (`/repo/src/aco_init.c` 28-49, 71-77, 92-180, 204-229).

The contents of the arrays of numbers, the pheromones and flags are left out. `realloc` always moves. An array of edges is its
address and the edges in it.
-/

namespace LLab.Aco.NodeLife

/-! ### Model -/

/-- Memory: which addresses are live blocks; those from `next` on were never given out. -/
structure Heap where
  next : Nat
  live : Nat → Bool

/-- `malloc`, `calloc`: the block is at the old `next`. -/
def Heap.alloc (h : Heap) : Heap := ⟨h.next + 1, Function.update h.live h.next true⟩

/-- `free`; `none`: not a live block. -/
def Heap.free (h : Heap) (p : Nat) : Option Heap := if h.live p then some ⟨h.next, Function.update h.live p false⟩ else none

/-- A sequence of `free` calls. -/
def freeList : List Nat → Heap → Option Heap
  | [], h => some h
  | p :: ps, h => (h.free p).bind (freeList ps)

/-- `params`: its block, its array, if any, and its size. -/
structure Par where
  adr : Nat
  arr : Option Nat
  size : Nat

/-- `init_params` (`/repo/src/aco_init.c` 28-49). -/
def initParams (size : Nat) (h : Heap) : Heap × Par :=
  if size = 1 then (h.alloc, ⟨h.next, none, size⟩) else (h.alloc.alloc, ⟨h.next, some (h.next + 1), size⟩)

/-- What `free_params` frees, in order (`/repo/src/aco_init.c` 147-152); nothing for null, and `free(NULL)` does nothing. -/
def parBlocks : Option Par → List Nat
  | none => []
  | some p => p.arr.toList ++ [p.adr]

/-- `fcl_func`: its block and its array. What `free_fcl_func` frees, in order (`/repo/src/aco_init.c` 157-162). -/
def fclBlocks : Option (Nat × Nat) → List Nat
  | none => []
  | some f => [f.2, f.1]

/-- `aco_node` (`/repo/src/llab.h`): the arrays of edges are null or an address with the edges in it. -/
structure Node where
  adr : Nat
  weights : Option Par
  biases : Option Par
  bestW : Option Par
  bestB : Option Par
  velocity : Option Par
  act : Option Nat
  fcl : Option (Nat × Nat)
  inputs : Option (Nat × List Nat)
  outputs : Option (Nat × List Nat)

/-- `init_aco_node` (`/repo/src/aco_init.c` 92-144). -/
def initNode (w b : Option Par) (a : Option Nat) (f : Option (Nat × Nat)) (h : Heap) : Heap × Node :=
  let adr := h.next
  let r : Heap × Option Par × Option Par := match w with
    | none => (h.alloc, none, none)
    | some W => let x := initParams W.size h.alloc
      let y := initParams W.size x.1
      (y.1, some x.2, some y.2)
  let s : Heap × Option Par × Option Par := match b with
    | none => (r.1, none, r.2.2)
    | some B => let x := initParams B.size r.1
      let y := initParams B.size x.1
      (y.1, some x.2, some y.2)
  (s.1, ⟨adr, w, b, r.2.1, s.2.1, s.2.2, a, f, none, none⟩)

/-- What `free_aco_node` frees, in order (`/repo/src/aco_init.c` 167-180). -/
def own (n : Node) : List Nat :=
  n.act.toList ++ (parBlocks n.weights ++ (parBlocks n.biases ++ (parBlocks n.bestW ++ (parBlocks n.bestB ++ (parBlocks n.velocity ++
    (fclBlocks n.fcl ++ ((n.inputs.map Prod.fst).toList ++ ((n.outputs.map Prod.fst).toList ++ [n.adr]))))))))

/-- `free_aco_node` (`/repo/src/aco_init.c` 167-180). -/
def freeNode (n : Node) (h : Heap) : Option Heap := freeList (own n) h

/-- One more edge in an array (`/repo/src/aco_init.c` 207-214, 219-226). -/
def append (arr : Option (Nat × List Nat)) (e : Nat) (h : Heap) : Option (Heap × Nat × List Nat) :=
  match arr with
  | none => some (h.alloc, h.next, [e])
  | some x => (h.alloc.free x.1).bind fun h' => some (h', h.next, x.2 ++ [e])

/-- The two ends of the edges: `input` and `output`. -/
abbrev Ends := Nat → Option Nat × Option Nat

/-- `add_aco_edge` (`/repo/src/aco_init.c` 204-229). -/
def addEdge (e : Nat) (isInput : Bool) (s : Heap × Node × Ends) : Option (Heap × Node × Ends) :=
  if isInput then
    (append s.2.1.inputs e s.1).bind fun r =>
      some (r.1, { s.2.1 with inputs := some r.2 }, Function.update s.2.2 e ((s.2.2 e).1, some s.2.1.adr))
  else
    (append s.2.1.outputs e s.1).bind fun r =>
      some (r.1, { s.2.1 with outputs := some r.2 }, Function.update s.2.2 e (some s.2.1.adr, (s.2.2 e).2))

/-- Any number of edges added. -/
def addEdges : List (Nat × Bool) → Heap × Node × Ends → Option (Heap × Node × Ends)
  | [], s => some s
  | e :: es, s => (addEdge e.1 e.2 s).bind (addEdges es)

/-! ### Specification -/

/-- Every live block was given out. -/
def Sane (h : Heap) : Prop := ∀ q, h.live q = true → q < h.next

/-- The blocks of parameters: themselves and their array, if any. -/
def parOwned : Option Par → List Nat
  | none => []
  | some p => p.adr :: p.arr.toList

/-- The blocks of a layer: itself and its array. -/
def fclOwned : Option (Nat × Nat) → List Nat
  | none => []
  | some f => [f.1, f.2]

/-- The blocks handed over to the node. -/
def given (w b : Option Par) (a : Option Nat) (f : Option (Nat × Nat)) : List Nat := a.toList ++ (parOwned w ++ (parOwned b ++ fclOwned f))

/-- They are live and distinct. -/
def Given (w b : Option Par) (a : Option Nat) (f : Option (Nat × Nat)) (h : Heap) : Prop :=
  (given w b a f).Nodup ∧ ∀ p ∈ given w b a f, h.live p = true

/-! ### Lemmas -/

theorem par_perm (p : Option Par) : (parOwned p).Perm (parBlocks p) := by
  cases p with
  | none => exact List.Perm.refl _
  | some p =>
    show (p.adr :: p.arr.toList).Perm (p.arr.toList ++ [p.adr])
    exact List.perm_append_comm (l₁ := [p.adr]) (l₂ := p.arr.toList)

theorem fcl_perm (f : Option (Nat × Nat)) : (fclOwned f).Perm (fclBlocks f) := by
  cases f with
  | none => exact List.Perm.refl _
  | some f => exact List.Perm.swap _ _ []

theorem par_count (p : Option Par) (z : Nat) : (parOwned p).count z = (parBlocks p).count z := (par_perm p).count_eq z

theorem fcl_count (f : Option (Nat × Nat)) (z : Nat) : (fclOwned f).count z = (fclBlocks f).count z := (fcl_perm f).count_eq z

/-- `h'` is `h` with the new blocks `l`. -/
structure Grow (h h' : Heap) (l : List Nat) : Prop where
  nodup : l.Nodup
  fresh : ∀ p ∈ l, h.next ≤ p ∧ p < h'.next
  le : h.next ≤ h'.next
  live : ∀ q, h'.live q = true ↔ h.live q = true ∨ q ∈ l

theorem Grow.trans {h h1 h2 : Heap} {l m : List Nat} (g : Grow h h1 l) (g' : Grow h1 h2 m) : Grow h h2 (l ++ m) where
  nodup := List.nodup_append.mpr ⟨g.nodup, g'.nodup, fun a ha b hb hab => by
    have := (g.fresh a ha).2
    have := (g'.fresh b hb).1
    omega⟩
  fresh p hp := by
    have h1' := g.le
    have h2' := g'.le
    rcases List.mem_append.mp hp with hp | hp
    · have := g.fresh p hp; omega
    · have := g'.fresh p hp; omega
  le := Nat.le_trans g.le g'.le
  live q := by rw [g'.live q, g.live q, List.mem_append, or_assoc]

theorem grow_alloc (h : Heap) : Grow h h.alloc [h.next] where
  nodup := by simp
  fresh p hp := by rw [List.mem_singleton] at hp; subst hp; exact ⟨Nat.le_refl _, Nat.lt_succ_self _⟩
  le := Nat.le_succ _
  live q := by
    show Function.update h.live h.next true q = true ↔ _
    by_cases hq : q = h.next
    · subst hq; simp
    · rw [Function.update_of_ne hq]; simp [hq]

theorem Grow.perm {h h' : Heap} {l m : List Nat} (g : Grow h h' l) (p : m.Perm l) : Grow h h' m where
  nodup := p.nodup_iff.mpr g.nodup
  fresh q hq := g.fresh q (p.mem_iff.mp hq)
  le := g.le
  live q := by rw [g.live q, p.mem_iff]

theorem grow_params (size : Nat) (h : Heap) : Grow h (initParams size h).1 (parBlocks (some (initParams size h).2)) := by
  rw [initParams]
  by_cases hs : size = 1
  · rw [if_pos hs]; exact grow_alloc h
  · rw [if_neg hs]
    exact ((grow_alloc h).trans (grow_alloc h.alloc)).perm (List.Perm.swap _ _ [])

theorem freeList_spec : ∀ (l : List Nat) (h : Heap), l.Nodup → (∀ p ∈ l, h.live p = true) →
    ∃ h', freeList l h = some h' ∧ h'.next = h.next ∧ ∀ q, h'.live q = true ↔ h.live q = true ∧ q ∉ l
  | [], h, _, _ => ⟨h, rfl, rfl, fun q => by simp⟩
  | p :: ps, h, hn, hl => by
    obtain ⟨hp, hn⟩ := List.nodup_cons.mp hn
    obtain ⟨h', e, hx, hq⟩ := freeList_spec ps ⟨h.next, Function.update h.live p false⟩ hn (fun q hq => by
      show Function.update h.live p false q = true
      have hqp : q ≠ p := fun c => hp (c ▸ hq)
      rw [Function.update_of_ne hqp]
      exact hl q (List.mem_cons_of_mem _ hq))
    refine ⟨h', by rw [freeList, Heap.free, if_pos (hl p (by simp)), Option.bind_some, e], hx, fun q => ?_⟩
    rw [hq q]
    show Function.update h.live p false q = true ∧ _ ↔ _
    by_cases hqp : q = p
    · subst hqp; simp
    · rw [Function.update_of_ne hqp]; simp [hqp]

/-- What holds of the node while edges are added: `K` are the blocks that were lost. -/
structure Inv (h0 : Heap) (G K : List Nat) (h : Heap) (n : Node) : Prop where
  nodup : (own n ++ K).Nodup
  live : ∀ q, h.live q = true ↔ h0.live q = true ∨ q ∈ own n ++ K
  old : ∀ q ∈ own n ++ K, q ∈ G ∨ h0.next ≤ q
  below : ∀ q ∈ own n ++ K, q < h.next
  le : h0.next ≤ h.next
  has : ∀ q ∈ G, q ∈ own n

theorem Inv.append {h0 h : Heap} {G K : List Nat} (hs : Sane h0) (n : Node) (pre : List Nat) (arr : Option (Nat × List Nat)) (e : Nat)
    (f : Option (Nat × List Nat) → Node) (hf : ∀ x, (own (f x)).Perm ((x.map Prod.fst).toList ++ pre)) (hn : f arr = n)
    (hG : ∀ q ∈ G, q ∈ pre) (i : Inv h0 G K h n) :
    ∃ h' p l, NodeLife.append arr e h = some (h', p, l) ∧ l = ((arr.map Prod.snd).getD []) ++ [e] ∧ Inv h0 G K h' (f (some (p, l))) := by
  subst hn
  have own1 : ∀ p l, (own (f (some (p, l))) ++ K).Perm (p :: (pre ++ K)) := fun p l => (hf _).append_right K
  have fresh : h.next ∉ own (f arr) ++ K := fun c => Nat.lt_irrefl _ (i.below _ c)
  have not0 : h0.live h.next ≠ true := fun c => by have := hs _ c; have := i.le; omega
  cases arr with
  | none =>
    have own0 : (own (f none) ++ K).Perm (pre ++ K) := (hf _).append_right K
    refine ⟨h.alloc, h.next, [e], rfl, rfl, ?_⟩
    exact {
      nodup := (own1 _ _).nodup_iff.mpr (List.nodup_cons.mpr ⟨fun c => fresh (own0.mem_iff.mpr c), own0.nodup_iff.mp i.nodup⟩)
      live := fun q => by
        rw [(grow_alloc h).live q, i.live q, own0.mem_iff, (own1 _ _).mem_iff, List.mem_singleton, List.mem_cons, or_assoc, or_comm (a := q ∈ _)]
      old := fun q hq => by
        rcases List.mem_cons.mp ((own1 _ _).mem_iff.mp hq) with rfl | hq
        · exact Or.inr i.le
        · exact i.old q (own0.mem_iff.mpr hq)
      below := fun q hq => by
        show q < h.next + 1
        rcases List.mem_cons.mp ((own1 _ _).mem_iff.mp hq) with rfl | hq
        · omega
        · have := i.below q (own0.mem_iff.mpr hq); omega
      le := Nat.le_succ_of_le i.le
      has := fun q hq => (hf _).mem_iff.mpr (List.mem_append_right _ (hG q hq)) }
  | some x =>
    have own0 : (own (f (some x)) ++ K).Perm (x.1 :: (pre ++ K)) := (hf _).append_right K
    obtain ⟨hx, hrest⟩ := List.nodup_cons.mp (own0.nodup_iff.mp i.nodup)
    have hxl : h.live x.1 = true := (i.live _).mpr (Or.inr (own0.mem_iff.mpr (by simp)))
    have hxn : x.1 ≠ h.next := fun c => fresh (c ▸ own0.mem_iff.mpr (by simp))
    have hx0 : h0.live x.1 ≠ true := fun c => by
      rcases i.old x.1 (own0.mem_iff.mpr (by simp)) with hg | hg
      · exact hx (List.mem_append_left _ (hG _ hg))
      · have := hs _ c; omega
    have hal : h.alloc.live x.1 = true := ((grow_alloc h).live _).mpr (Or.inl hxl)
    refine ⟨⟨h.alloc.next, Function.update h.alloc.live x.1 false⟩, h.next, x.2 ++ [e], by
      rw [NodeLife.append, Heap.free, if_pos hal, Option.bind_some], rfl, ?_⟩
    exact {
      nodup := (own1 _ _).nodup_iff.mpr (List.nodup_cons.mpr ⟨fun c => fresh (own0.mem_iff.mpr (List.mem_cons_of_mem _ c)), hrest⟩)
      live := fun q => by
        show Function.update h.alloc.live x.1 false q = true ↔ _
        rw [(own1 _ _).mem_iff]
        by_cases hq : q = x.1
        · subst hq
          rw [Function.update_self]
          constructor
          · intro c; cases c
          · rintro (c | c)
            · exact absurd c hx0
            · rcases List.mem_cons.mp c with c | c
              · exact absurd c hxn
              · exact absurd c hx
        · rw [Function.update_of_ne hq, (grow_alloc h).live q, i.live q, own0.mem_iff, List.mem_singleton, List.mem_cons, List.mem_cons, or_assoc]
          constructor
          · rintro (c | (c | c) | c)
            · exact Or.inl c
            · exact absurd c hq
            · exact Or.inr (Or.inr c)
            · exact Or.inr (Or.inl c)
          · rintro (c | c | c)
            · exact Or.inl c
            · exact Or.inr (Or.inr c)
            · exact Or.inr (Or.inl (Or.inr c))
      old := fun q hq => by
        rcases List.mem_cons.mp ((own1 _ _).mem_iff.mp hq) with rfl | hq
        · exact Or.inr i.le
        · exact i.old q (own0.mem_iff.mpr (List.mem_cons_of_mem _ hq))
      below := fun q hq => by
        show q < h.next + 1
        rcases List.mem_cons.mp ((own1 _ _).mem_iff.mp hq) with rfl | hq
        · omega
        · have := i.below q (own0.mem_iff.mpr (List.mem_cons_of_mem _ hq)); omega
      le := Nat.le_succ_of_le i.le
      has := fun q hq => (hf _).mem_iff.mpr (List.mem_append_right _ (hG q hq)) }

/-- The node without its arrays of edges, in the order of `own`. -/
def core (n : Node) : List Nat :=
  n.act.toList ++ (parBlocks n.weights ++ (parBlocks n.biases ++ (parBlocks n.bestW ++ (parBlocks n.bestB ++ (parBlocks n.velocity ++
    (fclBlocks n.fcl ++ [n.adr]))))))

theorem own_perm (n : Node) : (own n).Perm ((n.inputs.map Prod.fst).toList ++ ((n.outputs.map Prod.fst).toList ++ core n)) := by
  unfold own core
  generalize n.act.toList = A
  generalize parBlocks n.weights = B
  generalize parBlocks n.biases = C
  generalize parBlocks n.bestW = D
  generalize parBlocks n.bestB = E
  generalize parBlocks n.velocity = V
  generalize fclBlocks n.fcl = X
  generalize (n.inputs.map Prod.fst).toList = I
  generalize (n.outputs.map Prod.fst).toList = O
  refine List.perm_iff_count.mpr fun a => ?_
  simp only [List.count_append]
  omega

theorem given_core (n : Node) : ∀ q ∈ given n.weights n.biases n.act n.fcl, q ∈ core n := by
  intro q hq
  unfold given at hq
  unfold core
  simp only [List.mem_append, (par_perm _).mem_iff, (fcl_perm _).mem_iff] at hq ⊢
  rcases hq with h | h | h | h
  · exact Or.inl h
  · exact Or.inr (Or.inl h)
  · exact Or.inr (Or.inr (Or.inl h))
  · exact Or.inr (Or.inr (Or.inr (Or.inr (Or.inr (Or.inr (Or.inl h))))))

theorem addEdge_spec {h0 h : Heap} {G K : List Nat} (hs : Sane h0) (n : Node) (en : Ends) (e : Nat) (b : Bool) (hG : ∀ q ∈ G, q ∈ core n)
    (i : Inv h0 G K h n) : ∃ h' n' en', addEdge e b (h, n, en) = some (h', n', en') ∧ Inv h0 G K h' n' ∧ core n' = core n ∧ n'.adr = n.adr ∧
      (n'.inputs.map Prod.snd).getD [] = (n.inputs.map Prod.snd).getD [] ++ (if b then [e] else []) ∧
      (n'.outputs.map Prod.snd).getD [] = (n.outputs.map Prod.snd).getD [] ++ (if b then [] else [e]) ∧
      en' = Function.update en e (if b then ((en e).1, some n.adr) else (some n.adr, (en e).2)) := by
  cases b with
  | true =>
    obtain ⟨h', p, l, e1, rfl, i'⟩ := Inv.append hs n ((n.outputs.map Prod.fst).toList ++ core n) n.inputs e (fun x => { n with inputs := x })
      (fun x => own_perm { n with inputs := x }) rfl (fun q hq => List.mem_append_right _ (hG q hq)) i
    refine ⟨h', { n with inputs := some (p, (n.inputs.map Prod.snd).getD [] ++ [e]) }, Function.update en e ((en e).1, some n.adr), ?_, i', rfl, rfl, rfl, ?_, rfl⟩
    · rw [addEdge, if_pos rfl, e1]; rfl
    · simp
  | false =>
    obtain ⟨h', p, l, e1, rfl, i'⟩ := Inv.append hs n ((n.inputs.map Prod.fst).toList ++ core n) n.outputs e (fun x => { n with outputs := x })
      (fun x => (own_perm { n with outputs := x }).trans (by
        show (_ ++ (_ ++ core n)).Perm (_ ++ (_ ++ core n))
        rw [← List.append_assoc, ← List.append_assoc]
        exact List.perm_append_comm.append_right _)) rfl (fun q hq => List.mem_append_right _ (hG q hq)) i
    refine ⟨h', { n with outputs := some (p, (n.outputs.map Prod.snd).getD [] ++ [e]) }, Function.update en e (some n.adr, (en e).2), ?_, i', rfl, rfl, ?_, rfl, rfl⟩
    · rw [addEdge, if_neg (by decide), e1]; rfl
    · simp

theorem addEdges_spec {h0 : Heap} {G K : List Nat} (hs : Sane h0) : ∀ (es : List (Nat × Bool)) (h : Heap) (n : Node) (en : Ends),
    (∀ q ∈ G, q ∈ core n) → Inv h0 G K h n → ∃ h' n' en', addEdges es (h, n, en) = some (h', n', en') ∧ Inv h0 G K h' n' ∧ n'.adr = n.adr ∧
      (n'.inputs.map Prod.snd).getD [] = (n.inputs.map Prod.snd).getD [] ++ (es.filter fun e => e.2).map Prod.fst ∧
      (n'.outputs.map Prod.snd).getD [] = (n.outputs.map Prod.snd).getD [] ++ (es.filter fun e => !e.2).map Prod.fst ∧
      ∀ e, (en' e).1 = (if (e, false) ∈ es then some n.adr else (en e).1) ∧ (en' e).2 = (if (e, true) ∈ es then some n.adr else (en e).2)
  | [], h, n, en, _, i => ⟨h, n, en, rfl, i, rfl, by simp, by simp, fun e => by simp⟩
  | (e, b) :: es, h, n, en, hG, i => by
    obtain ⟨h1, n1, en1, e1, i1, c1, a1, in1, out1, ends1⟩ := addEdge_spec hs n en e b hG i
    obtain ⟨h2, n2, en2, e2, i2, a2, in2, out2, ends2⟩ := addEdges_spec hs es h1 n1 en1 (by rw [c1]; exact hG) i1
    refine ⟨h2, n2, en2, by rw [addEdges, e1, Option.bind_some, e2], i2, a2.trans a1, ?_, ?_, fun x => ?_⟩
    · rw [in2, in1]; cases b <;> simp
    · rw [out2, out1]; cases b <;> simp
    · obtain ⟨p, q⟩ := ends2 x
      rw [p, q, a1, ends1]
      by_cases hx : x = e
      · subst hx; cases b <;> simp
      · cases b <;> simp [hx]

/-- The blocks the node is born with. -/
theorem init_spec (w b : Option Par) (a : Option Nat) (f : Option (Nat × Nat)) (h0 : Heap) (hs : Sane h0) (hg : Given w b a f h0) :
    ∃ K, Inv h0 (given w b a f) K (initNode w b a f h0).1 (initNode w b a f h0).2 ∧ (∀ q ∈ K, h0.next ≤ q) ∧
      (w = none ∨ b = none → K = []) ∧ (∀ W B, w = some W → b = some B → K.length = if W.size = 1 then 1 else 2) := by
  have fin : ∀ (h1 : Heap) (l K : List Nat) (n : Node), Grow h0 h1 l → (own n ++ K).Perm (given w b a f ++ l) →
      (∀ q ∈ given w b a f, q ∈ own n) → Inv h0 (given w b a f) K h1 n := fun h1 l K n g p hh =>
    { nodup := p.nodup_iff.mpr (List.nodup_append.mpr ⟨hg.1, g.nodup, fun x hx y hy hxy => by
        have := hs x (hg.2 x hx)
        have := (g.fresh y hy).1
        omega⟩)
      live := fun q => by
        rw [g.live q, p.mem_iff, List.mem_append]
        constructor
        · rintro (c | c)
          · exact Or.inl c
          · exact Or.inr (Or.inr c)
        · rintro (c | c | c)
          · exact Or.inl c
          · exact Or.inl (hg.2 q c)
          · exact Or.inr c
      old := fun q hq => by
        rcases List.mem_append.mp (p.mem_iff.mp hq) with c | c
        · exact Or.inl c
        · exact Or.inr (g.fresh q c).1
      below := fun q hq => by
        rcases List.mem_append.mp (p.mem_iff.mp hq) with c | c
        · have := hs q (hg.2 q c); have := g.le; omega
        · exact (g.fresh q c).2
      le := g.le
      has := hh }
  have hh : ∀ n : Node, n.weights = w → n.biases = b → n.act = a → n.fcl = f → ∀ q ∈ given w b a f, q ∈ own n := by
    rintro n rfl rfl rfl rfl q hq
    exact (own_perm n).mem_iff.mpr (List.mem_append_right _ (List.mem_append_right _ (given_core n q hq)))
  have klen : ∀ (s : Nat) (h : Heap), (parBlocks (some (initParams s h).2)).length = if s = 1 then 1 else 2 := fun s h => by
    rw [initParams]
    by_cases hs : s = 1
    · rw [if_pos hs, if_pos hs]; rfl
    · rw [if_neg hs, if_neg hs]; rfl
  cases w with
  | none =>
    cases b with
    | none =>
      refine ⟨[], fin _ [h0.next] [] _ (grow_alloc h0) ?_ (hh _ rfl rfl rfl rfl), by simp, fun _ => rfl, fun W B c => by cases c⟩
      refine List.perm_iff_count.mpr fun z => ?_
      simp only [own, given, initNode, List.count_append, par_count, fcl_count, parBlocks, List.count_nil, Option.map_none, Option.toList_none]
      omega
    | some B =>
      refine ⟨[], fin _ _ [] _ ((grow_alloc h0).trans ((grow_params B.size h0.alloc).trans (grow_params B.size _))) ?_ (hh _ rfl rfl rfl rfl), by simp, fun _ => rfl, fun W B c => by cases c⟩
      refine List.perm_iff_count.mpr fun z => ?_
      simp only [own, given, initNode, List.count_append, par_count, fcl_count, List.count_nil, Option.map_none, Option.toList_none]
      simp only [show parBlocks none = [] from rfl, List.count_nil]
      omega
  | some W =>
    cases b with
    | none =>
      refine ⟨[], fin _ _ [] _ ((grow_alloc h0).trans ((grow_params W.size h0.alloc).trans (grow_params W.size _))) ?_ (hh _ rfl rfl rfl rfl), by simp, fun _ => rfl, fun W B _ c => by cases c⟩
      refine List.perm_iff_count.mpr fun z => ?_
      simp only [own, given, initNode, List.count_append, par_count, fcl_count, List.count_nil, Option.map_none, Option.toList_none]
      simp only [show parBlocks none = [] from rfl, List.count_nil]
      omega
    | some B =>
      have g1 := (grow_alloc h0).trans ((grow_params W.size h0.alloc).trans (grow_params W.size (initParams W.size h0.alloc).1))
      have g2 := g1.trans ((grow_params B.size _).trans (grow_params B.size _))
      refine ⟨parBlocks (some (initParams W.size (initParams W.size h0.alloc).1).2), fin _ _ _ _ g2 ?_ (hh _ rfl rfl rfl rfl),
        fun q hq => (g2.fresh q (by simp only [List.mem_append]; exact Or.inl (Or.inr (Or.inr hq)))).1, fun c => (by rcases c with c | c <;> cases c),
        fun W' B' c _ => (by cases c; exact klen _ _)⟩
      refine List.perm_iff_count.mpr fun z => ?_
      simp only [own, given, initNode, List.count_append, par_count, fcl_count, List.count_nil, Option.map_none, Option.toList_none]
      omega

/-! ### Theorems -/

/-- Adding edges, in any number and order, never fails: the arrays of the node list its incoming and outgoing edges in the order they
were added, and each of these edges ends or starts at the node while its other end stays. -/
theorem C175_edges (w b : Option Par) (a : Option Nat) (f : Option (Nat × Nat)) (h0 : Heap) (hs : Sane h0) (hg : Given w b a f h0)
    (es : List (Nat × Bool)) (en : Ends) : ∃ h n en', addEdges es ((initNode w b a f h0).1, (initNode w b a f h0).2, en) = some (h, n, en') ∧
      (n.inputs.map Prod.snd).getD [] = (es.filter fun e => e.2).map Prod.fst ∧
      (n.outputs.map Prod.snd).getD [] = (es.filter fun e => !e.2).map Prod.fst ∧
      ∀ e, (en' e).1 = (if (e, false) ∈ es then some n.adr else (en e).1) ∧ (en' e).2 = (if (e, true) ∈ es then some n.adr else (en e).2) := by
  obtain ⟨K, i, _⟩ := init_spec w b a f h0 hs hg
  obtain ⟨h, n, en', e1, _, e2, e3, e4, e5⟩ := addEdges_spec hs es _ _ en (given_core (initNode w b a f h0).2) i
  exact ⟨h, n, en', e1, e3, e4, fun e => by rw [e2]; exact e5 e⟩

/-- Freeing the node with any number of edges leaves the memory as it was before the node was made, without the blocks handed over to
it, if it has no weights or no biases. -/
theorem C175_no_leak_partial (w b : Option Par) (a : Option Nat) (f : Option (Nat × Nat)) (h0 : Heap) (hs : Sane h0)
    (hg : Given w b a f h0) (es : List (Nat × Bool)) (en : Ends) (hone : w = none ∨ b = none) :
    ∃ h n en' h', addEdges es ((initNode w b a f h0).1, (initNode w b a f h0).2, en) = some (h, n, en') ∧ freeNode n h = some h' ∧
      ∀ q, h'.live q = true ↔ h0.live q = true ∧ q ∉ given w b a f := by
  obtain ⟨K, i, _, hK, _⟩ := init_spec w b a f h0 hs hg
  have hK := hK hone
  subst hK
  obtain ⟨h, n, en', e1, i', _⟩ := addEdges_spec hs es _ _ en (given_core (initNode w b a f h0).2) i
  obtain ⟨h', e2, _, hq⟩ := freeList_spec (own n) h (List.nodup_append.mp i'.nodup).1 (fun p hp => (i'.live p).mpr (Or.inr (List.mem_append_left _ hp)))
  refine ⟨h, n, en', h', e1, e2, fun q => ?_⟩
  rw [hq q, i'.live q, List.append_nil]
  constructor
  · rintro ⟨c | c, d⟩
    · exact ⟨c, fun g => d (i'.has q g)⟩
    · exact absurd c d
  · rintro ⟨c, d⟩
    refine ⟨Or.inl c, fun g => ?_⟩
    rcases i'.old q (List.mem_append_left _ g) with g | g
    · exact d g
    · have := hs q c; omega

/-- A node with both weights and biases should be freed whole too: the velocity of its weights is lost, one block or two, whatever
edges it has. -/
theorem C175_leak_refuted (W B : Par) (a : Option Nat) (f : Option (Nat × Nat)) (h0 : Heap) (hs : Sane h0)
    (hg : Given (some W) (some B) a f h0) (es : List (Nat × Bool)) (en : Ends) :
    ∃ h n en' h', ∃ K : List Nat, addEdges es ((initNode (some W) (some B) a f h0).1, (initNode (some W) (some B) a f h0).2, en) = some (h, n, en') ∧
      freeNode n h = some h' ∧ K.length = (if W.size = 1 then 1 else 2) ∧ (∀ q ∈ K, h0.next ≤ q) ∧
      ∀ q, h'.live q = true ↔ (h0.live q = true ∧ q ∉ given (some W) (some B) a f) ∨ q ∈ K := by
  obtain ⟨K, i, hK, _, hlen⟩ := init_spec (some W) (some B) a f h0 hs hg
  obtain ⟨h, n, en', e1, i', _⟩ := addEdges_spec hs es _ _ en (given_core (initNode (some W) (some B) a f h0).2) i
  obtain ⟨n1, n2, n3⟩ := List.nodup_append.mp i'.nodup
  obtain ⟨h', e2, _, hq⟩ := freeList_spec (own n) h n1 (fun p hp => (i'.live p).mpr (Or.inr (List.mem_append_left _ hp)))
  refine ⟨h, n, en', h', K, e1, e2, hlen W B rfl rfl, hK, fun q => ?_⟩
  rw [hq q, i'.live q, List.mem_append]
  constructor
  · rintro ⟨c | c | c, d⟩
    · exact Or.inl ⟨c, fun g => d (i'.has q g)⟩
    · exact absurd c d
    · exact Or.inr c
  · rintro (⟨c, d⟩ | c)
    · refine ⟨Or.inl c, fun g => ?_⟩
      rcases i'.old q (List.mem_append_left _ g) with g | g
      · exact d g
      · have := hs q c; omega
    · exact ⟨Or.inr (Or.inr c), fun g => n3 q g q c rfl⟩

/-- The hypotheses are met by weights of five numbers made in an empty memory, with and without biases made after them. -/
example : Sane ⟨3, fun q => decide (q < 3)⟩ ∧ Given (some ⟨0, some 1, 5⟩) none none none ⟨3, fun q => decide (q < 3)⟩ ∧
    Given none none (some 1) (some (0, 2)) ⟨3, fun q => decide (q < 3)⟩ ∧ Given (some ⟨0, some 1, 5⟩) (some ⟨2, none, 1⟩) none none ⟨3, fun q => decide (q < 3)⟩ :=
  ⟨fun q hq => by simpa using hq, by simp [Given, given, parOwned, fclOwned], by simp [Given, given, parOwned, fclOwned], by simp [Given, given, parOwned, fclOwned]⟩

end LLab.Aco.NodeLife
