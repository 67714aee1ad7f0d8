import Verif.Aco.GraphProps

/-!
The bookkeeping of the ant colony search: collecting all nodes and edges
(`/repo/src/aco_iterate.c`), the pheromones, their bounds and the best trail
(`/repo/src/aco_process.c`). Properties C102-C106.

`aco_struct` stores `tau_max`, `tau_min`, `p` and `p_dec` as `float` and the rest as `double`; here all are elements
of one field.
-/

namespace LLab.Aco

variable {F : Type}

/-- State of `get_all_nodes_and_edges`: the two arrays and the flags of the nodes. -/
structure Found where
  nodes : List Nat
  edges : List Nat
  flag : Nat → Bool

/-- `get_all_nodes_and_edges` (`/repo/src/aco_iterate.c` 667-686). `fuel` bounds the depth of the
recursion; running out of it is `none`. -/
def collect (g : Graph F) : Nat → Nat → Found → Option Found
  | 0, _, _ => none
  | fuel + 1, n, s =>
    if s.flag n then some s
    else (g.outs n).foldlM (fun s e => collect g fuel (g.dst e) { s with edges := s.edges ++ [e] })
      { nodes := s.nodes ++ [n], edges := s.edges, flag := Function.update s.flag n true }

/-- `compute_all_nodes_edges` (`/repo/src/aco_iterate.c` 688-697): the two arrays. -/
def allNodesEdges (g : Graph F) (fuel : Nat) : Option (List Nat × List Nat) :=
  (collect g fuel 0 ⟨[], [], fun _ => false⟩).map fun s => (s.nodes, s.edges)

/-- `s->average = s->number_of_edges/s->number_of_nodes` (`/repo/src/aco_process.c` 125): a division of
two `int`. -/
def average (g : Graph F) (fuel : Nat) : Option Nat :=
  (allNodesEdges g fuel).map fun x => x.2.length / x.1.length

section

variable [Field F] [LinearOrder F]

/-- The two comparisons after a pheromone update on a trail (`/repo/src/aco_iterate.c` 509-512). -/
def clipHL (lo hi x : F) : F :=
  let y := if x > hi then hi else x
  if y < lo then lo else y

/-- The two comparisons after a pheromone update off the trail (`/repo/src/aco_process.c` 268-271). -/
def clipLH (lo hi x : F) : F :=
  let y := if x < lo then lo else x
  if y > hi then hi else y

/-- The pheromones and the flags of all edges (or of all nodes). -/
structure Scent (F : Type) where
  ph : Nat → F
  flag : Nat → Bool

/-- `update_aco_tracker_next_according_to_path` (`/repo/src/aco_iterate.c` 498-516) with
`slot e = e`, its `…_according_to_nodes` variant (519-537) with `slot e = dst e`. `none`: the trail
asks for an edge that does not exist. -/
def layTrail (g : Graph F) (slot : Nat → Nat) (p lo hi amount : F) : List Nat → Nat → Scent F → Option (Scent F)
  | [], _, s => some s
  | i :: is, n, s =>
    if g.outs n = [] then some s
    else ((g.outs n)[i]?).bind fun e =>
      layTrail g slot p lo hi amount is (g.dst e)
        { ph := Function.update s.ph (slot e) (clipHL lo hi (s.ph (slot e) * p + amount))
          flag := Function.update s.flag (slot e) true }

/-- The loop of `update_pheromones` (`/repo/src/aco_process.c` 265-276) and
`…_according_to_nodes` (283-294) over the array `xs` of all edges (all nodes). -/
def fade (p lo hi : F) (xs : List Nat) (s : Scent F) : Scent F :=
  xs.foldl (fun s e =>
    if s.flag e then { s with flag := Function.update s.flag e false }
    else { s with ph := Function.update s.ph e (clipLH lo hi (s.ph e * p)) }) s

/-- The loop of `update_pheromones_best` (`/repo/src/aco_process.c` 342-351) and
`…_according_to_nodes` (361-370): only the lower bound is applied. -/
def fadeBest (p lo : F) (xs : List Nat) (s : Scent F) : Scent F :=
  xs.foldl (fun s e =>
    if s.flag e then { s with flag := Function.update s.flag e false }
    else { s with ph := Function.update s.ph e (if s.ph e * p < lo then lo else s.ph e * p) }) s

/-- The ant with the most pheromone, the first of several
(`update_graph_pheromone_from_trail`, `/repo/src/aco_process.c` 399-407); `pheromones[0]` is read even if there
are no ants (`none`). -/
def bestAnt (phs : List F) : Option Nat := bestOf phs

/-- `update_pheromones` (`/repo/src/aco_process.c` 262-278, 398-409) and
`update_pheromones_according_to_nodes` (280-296, 411-422): `xs` is the array of all edges (nodes).
The iteration counter is not part of the result. -/
def updatePheromones (g : Graph F) (slot : Nat → Nat) (p lo hi : F) (xs : List Nat) (trails : List (List Nat))
    (phs : List F) (s : Scent F) : Option (Scent F) :=
  (bestAnt phs).bind fun k => (trails[k]?).bind fun tr => (phs[k]?).bind fun amount =>
    (layTrail g slot p lo hi amount tr 0 s).map (fade p lo hi xs)

/-- `update_pheromones_best` (`/repo/src/aco_process.c` 336-353) when the iteration is one of those at which the
best trail is used, and its `…_according_to_nodes` variant (355-372). -/
def updateBest (g : Graph F) (slot : Nat → Nat) (p lo hi : F) (xs : List Nat) (best : List Nat) (amount : F)
    (s : Scent F) : Option (Scent F) :=
  (layTrail g slot p lo hi amount best 0 s).map (fadeBest p lo xs)

/-- `update_aco_tracker_next_according_to_path_according_to_subnodes`
(`/repo/src/aco_iterate.c` 540-561): only the steps number `start ≤ j < stop` of the trail change a node. -/
def layTrailSub (g : Graph F) (p lo hi amount : F) (start stop : Nat) : List Nat → Nat → Nat → Scent F → Option (Scent F)
  | [], _, _, s => some s
  | i :: is, j, n, s =>
    if g.outs n = [] then some s
    else ((g.outs n)[i]?).bind fun e =>
      layTrailSub g p lo hi amount start stop is (j + 1) (g.dst e)
        (if start ≤ j ∧ j < stop then
          { ph := Function.update s.ph (g.dst e) (clipHL lo hi (s.ph (g.dst e) * p + amount))
            flag := Function.update s.flag (g.dst e) true }
        else s)

/-- `update_pheromones_according_to_subnodes` (`/repo/src/aco_process.c` 298-320, 424-437) with the percentages already
multiplied by the number of nodes: the nodes at positions `start ≤ i < stop` of the array of nodes evaporate. -/
def updateSubnodes (g : Graph F) (p lo hi : F) (start stop : Nat) (ns : List Nat) (trails : List (List Nat))
    (phs : List F) (s : Scent F) : Option (Scent F) :=
  (bestAnt phs).bind fun k => (trails[k]?).bind fun tr => (phs[k]?).bind fun amount =>
    if stop ≤ ns.length then
      (layTrailSub g p lo hi amount start stop tr 0 0 s).map (fade p lo hi ((ns.take stop).drop start))
    else none

/-- The best trail of `aco_struct`. -/
structure Best (F : Type) where
  amount : F
  trail : List Nat

/-- `update_best_trail` (`/repo/src/aco_process.c` 209-220). -/
def updateBestTrail (ants : List (F × List Nat)) (b : Best F) : Best F :=
  ants.foldl (fun b a => if a.1 > b.amount then ⟨a.1, a.2⟩ else b) b

/-- The bounds of `aco_struct`. -/
structure Taus (F : Type) where
  hi : F
  lo : F
deriving DecidableEq

/-- `update_taus` (`/repo/src/aco_process.c` 226-233). A division by zero is `none`. -/
def updateTaus (p pDec avg best : F) (first : Bool) (t : Taus F) : Option (Taus F) :=
  if 1 - p = 0 then none
  else if 1 / (1 - p) * best > t.hi ∨ first then
    let hi := 1 / (1 - p) * best
    if (avg - 1) * pDec = 0 then none
    else
      let lo := hi * (1 - pDec) / ((avg - 1) * pDec)
      some ⟨hi, if lo > hi then hi else lo⟩
  else some t

/-- `get_stagnation` (`/repo/src/aco_process.c` 587-599), before the division by the square
of the number of nodes. -/
def stagnation (lo hi : F) (xs : List Nat) (ph : Nat → F) : F :=
  xs.foldl (fun gamma e =>
    if hi - ph e < ph e - lo then gamma + (hi - ph e) else gamma + (ph e - lo)) 0

/-- `recompute_pheromones` (`/repo/src/aco_process.c` 629-638). -/
def recompute (lo hi delta : F) (xs : List Nat) (ph : Nat → F) : Nat → F :=
  xs.foldl (fun ph e => Function.update ph e (clipHL lo hi (ph e + delta * (hi - ph e)))) ph

/-- `recompute_pheromones_according_to_nodes` (`/repo/src/aco_process.c` 640-645): no bounds. -/
def recomputeNodes (hi delta : F) (xs : List Nat) (ph : Nat → F) : Nat → F :=
  xs.foldl (fun ph e => Function.update ph e (ph e + delta * (hi - ph e))) ph

end

end LLab.Aco
