import Verif.Common.Mat
import Mathlib.Data.List.Nodup
import Mathlib.Data.List.Perm.Basic
import Mathlib.Tactic.Linarith

/-!
Genomes of the neuro-evolution code and their structural mutations
(`/repo/src/genome.h`, `/repo/src/neat_utils.c`, `/repo/src/mutations.c`).

A genome is its list of node numbers and its list of connections in the order they were
added. In the C code a connection is listed at both of its ends; those adjacency lists
are the sublists of the connections leaving and entering a node, in the same order
(`outs`, `ins`). Node values and flags used by feed-forward are not modelled.

The shared registry is the three arrays `matrix_connections`, `dict_connections` and
`matrix_nodes`; the two global counters are the lengths of the arrays, which are
reallocated to the counters' sizes at each change. Numbers start at 1. `none` is an
access outside an array. Shuffles, coins and random weights are parameters.
-/

namespace LLab.Neat

/-- Element number `k`, numbering from 1. -/
def at1 {β : Type} (l : List β) (k : Nat) : Option β := if k = 0 then none else l[k - 1]?

/-- `connection` (`/repo/src/genome.h` 38-43). -/
@[ext] structure Conn (α : Type) where
  inn : Nat
  src : Nat
  dst : Nat
  weight : α
  flag : Bool
deriving DecidableEq

/-- `genome` (`/repo/src/genome.h` 45-50). -/
@[ext] structure Genome (α : Type) where
  nIn : Nat
  nOut : Nat
  nodes : List Nat
  conns : List (Conn α)
deriving DecidableEq

/-- The registry shared by a population: `matrix_connections`, `dict_connections` and
`matrix_nodes` (`/repo/src/mutations.c` 27-37); a row `-1,-1` of `matrix_nodes` is
`none`. -/
@[ext] structure Registry where
  conns : List (Nat × Nat)
  dict : List Nat
  nodes : List (Option (Nat × Nat))
deriving DecidableEq

/-- `init_global_params` (`/repo/src/neat_utils.c` 828-842). -/
def initRegistry (i o : Nat) : Registry := ⟨[], [], List.replicate (i + o) none⟩

/-- `init_genome` (`/repo/src/neat_utils.c` 657-682). -/
def initGenome {α : Type} (i o : Nat) : Genome α := ⟨i, o, (List.range (i + o)).map (· + 1), []⟩

/-- `out_connections` of a node. -/
def outs {α : Type} (g : Genome α) (v : Nat) : List (Conn α) := g.conns.filter fun c => c.src = v

/-- `in_connections` of a node. -/
def ins {α : Type} (g : Genome α) (v : Nat) : List (Conn α) := g.conns.filter fun c => c.dst = v

/-- Keep the first connection of each number, skipping the numbers in `seen`. -/
def firsts {α : Type} : List Nat → List (Conn α) → List (Conn α)
  | _, [] => []
  | seen, c :: cs => if c.inn ∈ seen then firsts seen cs else c :: firsts (c.inn :: seen) cs

/-- `get_connections`, `get_numb_connections` (`/repo/src/neat_utils.c` 845-892). -/
def getConns {α : Type} (g : Genome α) : List (Conn α) := firsts [] (g.nodes.flatMap fun v => outs g v ++ ins g v)

/-! ### Changes of weights and flags -/

/-- Set the flag of connection number `k`. -/
def setFlag {α : Type} (k : Nat) (b : Bool) (g : Genome α) : Genome α :=
  { g with conns := g.conns.map fun c => if c.inn = k then { c with flag := b } else c }

/-- `connections_mutation` (`/repo/src/mutations.c` 39-54); `w` gives the new weight of
each connection. -/
def mutateWeights {α : Type} (w : Nat → α → α) (g : Genome α) : Genome α :=
  { g with conns := g.conns.map fun c => { c with weight := w c.inn c.weight } }

/-- `remove_random_connection` (`/repo/src/mutations.c` 420-446); `p` is the shuffled
list of connections. -/
def removeRandom {α : Type} (p : List (Conn α)) (g : Genome α) : Bool × Genome α :=
  match p.find? fun c => c.flag with
  | some c => (true, setFlag c.inn false g)
  | none => (false, g)

/-- `activate_random_connection` (`/repo/src/mutations.c` 448-474). -/
def activateRandom {α : Type} (p : List (Conn α)) (g : Genome α) : Bool × Genome α :=
  match p.find? fun c => !c.flag with
  | some c => (true, setFlag c.inn true g)
  | none => (false, g)

/-- `activate_connections` (`/repo/src/mutations.c` 476-503); `coin` tells for each
connection whether its draw is below the threshold. -/
def activateConns {α : Type} (coin : Nat → Bool) (g : Genome α) : Genome α :=
  { g with conns := g.conns.map fun c => if !c.flag ∧ coin c.inn then { c with flag := true } else c }

/-! ### Adding a connection -/

/-- Nodes a new connection may leave (`/repo/src/mutations.c` 260-280). -/
def sources {α : Type} (g : Genome α) : List Nat := g.nodes.filter fun v => v ≤ g.nIn ∨ g.nIn + g.nOut < v

/-- Nodes a new connection may enter (`/repo/src/mutations.c` 260-280). -/
def targets {α : Type} (g : Genome α) : List Nat := g.nodes.filter fun v => g.nIn < v

/-- What the search of `add_random_connection` ends with. -/
inductive Found
  | reactivate (inn : Nat)
  | create (s d : Nat)
  | full

/-- The inner loop over the second node (`/repo/src/mutations.c` 294-316); `none` when
every pair is connected. -/
def searchDst {α : Type} (cs : List (Conn α)) (s : Nat) : List Nat → Option Found
  | [] => none
  | d :: ds =>
    match cs.find? fun c => c.src = s ∧ c.dst = d with
    | some c => if c.flag then searchDst cs s ds else some (.reactivate c.inn)
    | none => some (.create s d)

/-- The loops over the two shuffled lists (`/repo/src/mutations.c` 292-319). -/
def searchPair {α : Type} (cs : List (Conn α)) (p2 : List Nat) : List Nat → Found
  | [] => .full
  | s :: ss =>
    match searchDst cs s p2 with
    | some f => f
    | none => searchPair cs p2 ss

/-- `add_random_connection` (`/repo/src/mutations.c` 251-418): `p1` and `p2` are the
shuffled lists and `w` the random weight. An empty list makes the code read an
uninitialised entry of it. -/
def addRandom {α : Type} (p1 p2 : List Nat) (w : α) (g : Genome α) (r : Registry) : Option (Bool × Genome α × Registry) :=
  if p1 = [] ∨ p2 = [] then none else
  match searchPair (getConns g) p2 p1 with
  | .full => some (false, g, r)
  | .reactivate k => some (true, setFlag k true g, r)
  | .create s d =>
    match r.conns.findIdx? fun p => decide (p = (s, d)) with
    | some z => some (true, { g with conns := g.conns ++ [⟨z + 1, s, d, w, true⟩] }, r)
    | none =>
      some (true, { g with conns := g.conns ++ [⟨r.conns.length + 1, s, d, w, true⟩] },
        { r with conns := r.conns ++ [(s, d)], dict := r.dict ++ [0] })

/-! ### Splitting a connection -/

/-- The search of `split_random_connection` (`/repo/src/mutations.c` 72-107): the first
active connection that was not split before, or was split into a node the genome lacks. -/
def splitScan {α : Type} (r : Registry) (nodes : List Nat) : List (Conn α) → Option (Option (Conn α))
  | [] => some none
  | c :: cs =>
    if c.flag then
      (at1 r.dict c.inn).bind fun N => if N ≠ 0 ∧ N ∈ nodes then splitScan r nodes cs else some (some c)
    else splitScan r nodes cs

/-- The registry after a connection is split for the first time
(`/repo/src/mutations.c` 126-184). -/
def newSplit {α : Type} (c : Conn α) (r : Registry) : Registry :=
  let n := r.nodes.length
  let m := r.conns.length
  { conns := r.conns ++ [(c.src, n + 1), (n + 1, c.dst)]
    dict := r.dict.set (c.inn - 1) (n + 1) ++ [0, 0]
    nodes := r.nodes ++ [some (m + 1, m + 2)] }

/-- `split_random_connection` (`/repo/src/mutations.c` 55-248); `p` is the shuffled list
of nodes. -/
def splitRandom {α : Type} [One α] (p : List Nat) (g : Genome α) (r : Registry) : Option (Bool × Genome α × Registry) :=
  (splitScan r g.nodes (p.flatMap (outs g))).bind fun found =>
    match found with
    | none => some (false, g, r)
    | some c =>
      (at1 r.dict c.inn).bind fun N0 =>
        let r' := if N0 = 0 then newSplit c r else r
        (at1 r'.dict c.inn).bind fun N =>
          (at1 r'.nodes N).bind fun row => row.bind fun ab =>
            some (true,
              { g with
                nodes := g.nodes ++ [N]
                conns := (setFlag c.inn false g).conns ++ [⟨ab.1, c.src, N, 1, true⟩, ⟨ab.2, N, c.dst, c.weight, true⟩] }, r')

/-! ### Crossover -/

/-- The gene of the first parent after the draw for a connection number in both parents
(`/repo/src/mutations.c` 735-749); `coin` tells whether the draw picks the second parent. -/
def inherit {α : Type} (coin : Nat → Bool) (cs2 : List (Conn α)) (c : Conn α) : Conn α :=
  match cs2.find? fun d => d.inn = c.inn with
  | some d => if coin c.inn then { c with weight := d.weight, flag := d.flag } else c
  | none => c

/-- `crossover` (`/repo/src/mutations.c` 505-761): nodes and connections of the second
parent only are appended, the latter in the order of `getConns`. -/
def crossover {α : Type} (coin : Nat → Bool) (g g2 : Genome α) : Genome α :=
  { g with
    nodes := g.nodes ++ g2.nodes.filter fun v => v ∉ g.nodes
    conns := g.conns.map (inherit coin (getConns g2)) ++ (getConns g2).filter fun d => d.inn ∉ g.conns.map Conn.inn }

theorem inherit_same {α : Type} (coin : Nat → Bool) (cs2 : List (Conn α)) (c : Conn α) :
    (inherit coin cs2 c).inn = c.inn ∧ (inherit coin cs2 c).src = c.src ∧ (inherit coin cs2 c).dst = c.dst := by
  unfold inherit
  split
  · split_ifs
    · exact ⟨rfl, rfl, rfl⟩
    · exact ⟨rfl, rfl, rfl⟩
  · exact ⟨rfl, rfl, rfl⟩

/-! ### Facts about `getConns` -/

theorem mem_firsts {α : Type} (l : List (Conn α)) (seen : List Nat) (c : Conn α) (h : c ∈ firsts seen l) : c ∈ l ∧ c.inn ∉ seen := by
  induction l generalizing seen with
  | nil => cases h
  | cons d ds ih =>
    unfold firsts at h
    split_ifs at h with hd
    · exact ⟨List.mem_cons_of_mem _ (ih seen h).1, (ih seen h).2⟩
    · rcases List.mem_cons.1 h with rfl | h
      · exact ⟨by simp, hd⟩
      · have := ih _ h
        exact ⟨List.mem_cons_of_mem _ this.1, fun hs => this.2 (List.mem_cons_of_mem _ hs)⟩

theorem firsts_complete {α : Type} (l : List (Conn α)) (seen : List Nat) (c : Conn α) (h : c ∈ l) (hs : c.inn ∉ seen) :
    ∃ d ∈ firsts seen l, d.inn = c.inn := by
  induction l generalizing seen with
  | nil => cases h
  | cons d ds ih =>
    unfold firsts
    split_ifs with hd
    · rcases List.mem_cons.1 h with rfl | h
      · exact absurd hd hs
      · exact ih seen h hs
    · by_cases he : d.inn = c.inn
      · exact ⟨d, by simp, he⟩
      · rcases List.mem_cons.1 h with rfl | h
        · exact absurd rfl he
        · obtain ⟨e, h1, h2⟩ := ih (d.inn :: seen) h (by
            intro hm
            rcases List.mem_cons.1 hm with hm | hm
            · exact he hm.symm
            · exact hs hm)
          exact ⟨e, List.mem_cons_of_mem _ h1, h2⟩

theorem firsts_nodup {α : Type} (l : List (Conn α)) (seen : List Nat) : ((firsts seen l).map Conn.inn).Nodup := by
  induction l generalizing seen with
  | nil => exact List.nodup_nil
  | cons d ds ih =>
    unfold firsts
    split_ifs with hd
    · exact ih seen
    · rw [List.map_cons, List.nodup_cons]
      refine ⟨fun h => ?_, ih _⟩
      obtain ⟨e, he, h2⟩ := List.mem_map.1 h
      exact (mem_firsts ds _ e he).2 (by rw [h2]; simp)

theorem getConns_nodup {α : Type} (g : Genome α) : ((getConns g).map Conn.inn).Nodup := firsts_nodup _ _

theorem mem_of_mem_getConns {α : Type} (g : Genome α) (c : Conn α) (h : c ∈ getConns g) : c ∈ g.conns := by
  have := (mem_firsts _ _ c h).1
  obtain ⟨v, _, hv⟩ := List.mem_flatMap.1 this
  rcases List.mem_append.1 hv with h | h
  · exact (List.mem_filter.1 h).1
  · exact (List.mem_filter.1 h).1

theorem inj_of_nodup {α : Type} (cs : List (Conn α)) (h : (cs.map Conn.inn).Nodup) (c d : Conn α) (hc : c ∈ cs) (hd : d ∈ cs)
    (e : c.inn = d.inn) : c = d := List.inj_on_of_nodup_map h hc hd e

theorem mem_getConns {α : Type} (g : Genome α) (hn : (g.conns.map Conn.inn).Nodup) (hs : ∀ c ∈ g.conns, c.src ∈ g.nodes) (c : Conn α) :
    c ∈ getConns g ↔ c ∈ g.conns := by
  refine ⟨mem_of_mem_getConns g c, fun h => ?_⟩
  have hm : c ∈ g.nodes.flatMap fun v => outs g v ++ ins g v := by
    refine List.mem_flatMap.2 ⟨c.src, hs c h, List.mem_append_left _ (List.mem_filter.2 ⟨h, by simp⟩)⟩
  obtain ⟨d, hd, he⟩ := firsts_complete _ [] c hm (by simp)
  have hd' := mem_of_mem_getConns g d hd
  rw [← inj_of_nodup g.conns hn d c hd' h he]
  exact hd

end LLab.Neat
