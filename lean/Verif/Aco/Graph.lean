import Verif.Sort.Props
import Mathlib.Logic.Function.Basic
import Mathlib.Data.List.Basic
import Mathlib.Tactic.Ring
import Mathlib.Tactic.Linarith

/-!
The construction graph of the ant colony search (`/repo/src/aco_init.c`,
`/repo/src/aco_building.c`), the walks of the ants over it
(`/repo/src/aco_iterate.c`) and the networks they spell out. Property C99.

Nodes and edges are numbered in the order in which they are allocated; the fields of
all nodes (edges) are functions of that number. The pheromones, which the
construction does not look at, are a separate function in the definitions that need
them. Freeing memory is not modelled.
-/

namespace LLab.Aco

/-- What a node stands for (`node_state`, `/repo/src/aco_init.c` 232-241): the root,
a candidate value for one weight (`dimension3` of `dimension1 x dimension2`), an
activation function, a fully connected layer. -/
inductive Kind
  | root
  | weight (cell rows cols : Nat)
  | act (flag : Nat)
  | fcl (inp out : Nat)
deriving DecidableEq, Repr

/-- `operation_flag` (`/repo/src/llab.h` 247-253). -/
inductive Op
  | copy | execute | take | indexCopy
deriving DecidableEq, Repr

/-- All nodes and edges (`aco_node`, `aco_edge`, `/repo/src/llab.h` 961-990). -/
structure Graph (F : Type) where
  nodes : Nat
  kind : Nat → Kind
  /-- `weights->single_p` of a weight node -/
  value : Nat → F
  edges : Nat
  src : Nat → Nat
  dst : Nat → Nat
  op : Nat → Op
  outs : Nat → List Nat
  ins : Nat → List Nat

/-- `for(i = 0; i < n; i++) s = f(i, s);` -/
def iter {σ : Type} : Nat → (Nat → σ → σ) → σ → σ
  | 0, _, s => s
  | n + 1, f, s => f n (iter n f s)

variable {F : Type}

/-- `init_aco_node` (`/repo/src/aco_init.c` 92-145). -/
def newNode (g : Graph F) (k : Kind) (v : F) : Graph F :=
  { g with
    nodes := g.nodes + 1
    kind := Function.update g.kind g.nodes k
    value := Function.update g.value g.nodes v
    outs := Function.update g.outs g.nodes []
    ins := Function.update g.ins g.nodes [] }

/-- `init_aco_edge` followed by `add_aco_edge` at both ends
(`/repo/src/aco_init.c` 80-88, 204-230). -/
def connect (g : Graph F) (s d : Nat) (o : Op) : Graph F :=
  { g with
    edges := g.edges + 1
    src := Function.update g.src g.edges s
    dst := Function.update g.dst g.edges d
    op := Function.update g.op g.edges o
    outs := Function.update g.outs s (g.outs s ++ [g.edges])
    ins := Function.update g.ins d (g.ins d ++ [g.edges]) }

/-- The part of the arguments of `init_aco` that describes one layer, with the
numbers the random generator produces for the candidate values. -/
structure LayerSpec (F : Type) where
  inp : Nat
  out : Nat
  width : Nat
  acts : List Nat
  draw : Nat → F

/-- The activation nodes of a layer: six of them for `ALL_ACTIVATIONS` (`-1`), in the
order of the array of `aco_create_activations_node`
(`/repo/src/aco_building.c` 31-62, 297-305), otherwise the one asked for. The nodes are
numbered in the order of that array (`ELU` is allocated last but comes fourth). -/
def actFlags (a : Int) : List Nat := if a = -1 then [0, 1, 2, 6, 4, 5] else [a.toNat]

/-- Number of weights of the layer. -/
def LayerSpec.cells (l : LayerSpec F) : Nat := l.inp * l.out

/-- Initial value of candidate `i % width` for weight `i / width`: the first candidate is zero
(`/repo/src/aco_building.c` 257-258; the others come from `init_params`, `/repo/src/aco_init.c` 33). -/
def LayerSpec.val [Zero F] (l : LayerSpec F) (i : Nat) : F := if i % l.width = 0 then 0 else l.draw i

/-- `aco_build_layer_param_nodes_complete2` (`/repo/src/aco_building.c` 247-270): the
candidates for every weight, and the edges from every candidate of a weight to every
candidate of the next one. -/
def buildParams [Zero F] (l : LayerSpec F) (g : Graph F) : Graph F :=
  iter (l.width * (l.cells - 1))
    (fun i h => iter l.width
      (fun t h => connect h (g.nodes + i) (g.nodes + (i + (l.width - i % l.width) + t)) .indexCopy) h)
    (iter (l.width * l.cells) (fun i h => newNode h (.weight (i / l.width) l.inp l.out) (l.val i)) g)

/-- `aco_attach_fcl_to_params` (`/repo/src/aco_building.c` 111-122), called with the last
`width` of the nodes that start at `b`. -/
def attachFcl [Zero F] (l : LayerSpec F) (b : Nat) (g : Graph F) : Graph F :=
  iter l.width (fun i h => connect h (b + (l.width * (l.cells - 1) + i)) g.nodes .execute)
    (newNode g (.fcl l.inp l.out) 0)

/-- The activation nodes and their edges from the fully connected node `f`
(`aco_create_activations_node` and `aco_attach_activations_to_fcl`, or
`aco_create_activation_node` and `aco_add_output_nodes_to_node`,
`/repo/src/aco_building.c` 31-95, 297-324). -/
def attachActs [Zero F] (l : LayerSpec F) (f : Nat) (g : Graph F) : Graph F :=
  iter l.acts.length (fun a h => connect h f (g.nodes + a) .execute)
    (iter l.acts.length (fun a h => newNode h (.act (l.acts.getD a 0)) 0) g)

/-- `get_nodes_to_attach` (`/repo/src/aco_building.c` 288-307). A layer without candidates
or without weights makes it read before the start of an array: `none`. -/
def getNodes [Zero F] (l : LayerSpec F) (g : Graph F) : Option (Graph F) :=
  if l.width = 0 ∨ l.cells = 0 then none
  else
    let g1 := buildParams l g
    let g2 := attachFcl l g.nodes g1
    some (attachActs l g1.nodes g2)

/-- The destinations of the outgoing edges, with the operations of the edges. -/
def Graph.succ (g : Graph F) (n : Nat) : List (Op × Nat) := (g.outs n).map fun e => (g.op e, g.dst e)

/-- `node_state(n) == ACO_IS_FCL`. For the root `node_state` ends without a `return`, so
its value there is not defined: `junk` says whether it happens to be `ACO_IS_FCL`. -/
def isFcl (junk : Bool) : Kind → Bool
  | .root => junk
  | .fcl _ _ => true
  | _ => false

/-- The loop of `attach_params_to_root` (`/repo/src/aco_building.c` 367): follow the first
edges to a fully connected node whose first successor has no successors. `none`: a node
without edges is followed, or the loop does not end within `fuel` steps. -/
def lastFcl (junk : Bool) (g : Graph F) : Nat → Nat → Option Nat
  | 0, _ => none
  | fuel + 1, n =>
    match g.succ n with
    | [] => none
    | (_, d) :: _ =>
      if isFcl junk (g.kind n) ∧ g.succ d = [] then some n else lastFcl junk g fuel d

/-- `aco_add_output_nodes_to_node` (`/repo/src/aco_building.c` 317-324) with the `w`
nodes that start at `b`. -/
def addOutputs (w b : Nat) (n : Nat) (g : Graph F) : Graph F :=
  iter w (fun k h => connect h n (b + k) .copy) g

/-- `attach_params_to_root` (`/repo/src/aco_building.c` 356-373); `flag` of the root is 0
while the graph is built. -/
def attachToRoot (junk : Bool) (w b : Nat) (g : Graph F) : Option (Graph F) :=
  if g.succ 0 = [] then some (addOutputs w b 0 g)
  else (lastFcl junk g g.nodes 0).bind fun f =>
    some ((g.succ f).foldl (fun h e => addOutputs w b e.2 h) g)

/-- `attach_layer` (`/repo/src/aco_building.c` 389-393). -/
def attachLayer [Zero F] (junk : Bool) (l : LayerSpec F) (g : Graph F) : Option (Graph F) :=
  (getNodes l g).bind fun h => attachToRoot junk l.width g.nodes h

/-- The graph before the first layer: only the root. -/
def rootGraph [Zero F] : Graph F :=
  newNode ⟨0, fun _ => .root, fun _ => 0, 0, fun _ => 0, fun _ => 0, fun _ => .copy, fun _ => [], fun _ => []⟩
    .root 0

/-- The loop of `init_aco` that builds the graph (`/repo/src/aco_process.c` 98-101). -/
def buildAll [Zero F] (junk : Bool) : List (LayerSpec F) → Graph F → Option (Graph F)
  | [], g => some g
  | l :: ls, g => (attachLayer junk l g).bind fun h => buildAll junk ls h

/-- The layers `init_aco` builds from its arguments: layer `i` connects `sizes[i]` inputs
to `sizes[i+1]` outputs. -/
def specsOf (sizes widths : List Nat) (acts : List Int) (draw : Nat → Nat → F) : List (LayerSpec F) :=
  (List.range (sizes.length - 1)).map fun i =>
    ⟨sizes.getD i 0, sizes.getD (i + 1) 0, widths.getD i 0, actFlags (acts.getD i 0), draw i⟩

/-- `init_aco` (`/repo/src/aco_process.c` 53-101), the part that builds the graph: fewer than two
sizes or a depth under three end the program (`none`). -/
def initAco [Zero F] (junk : Bool) (sizes widths depths : List Nat) (acts : List Int) (draw : Nat → Nat → F) :
    Option (Graph F) :=
  if sizes.length < 2 ∨ ∃ d ∈ depths, d < 3 then none
  else buildAll junk (specsOf sizes widths acts draw) rootGraph

/-! ### Building a network along a trail -/

/-- A fully connected layer made by the tracker: position in the network, sizes, weights,
biases, activation. -/
structure Fcl (F : Type) where
  layer : Nat
  inp : Nat
  out : Nat
  weights : List F
  biases : List F
  act : Nat
deriving DecidableEq

/-- The parts of `aco_tracker` (`/repo/src/llab.h` 994-1006) in use when building a model;
`n_fcl` and `layers` are the length of `fcls`. `none` is `NULL`. -/
structure Tracker (F : Type) where
  node : Nat
  weights : Option (List F)
  biases : Option (List F)
  fcls : List (Fcl F)

/-- `SIGMOID` (`/repo/src/llab.h` 79), the activation a new layer gets. -/
def sigmoidFlag : Nat := 1

/-- `t->fcls[t->n_fcl-1]->activation_flag = flag`. -/
def setLastAct (flag : Nat) : List (Fcl F) → Option (List (Fcl F))
  | [] => none
  | [a] => some [{ a with act := flag }]
  | a :: b :: r => (setLastAct flag (b :: r)).map (a :: ·)

/-- `aco_tracker_build_model_complete2` (`/repo/src/aco_iterate.c` 184-235), after the step
over an edge with operation `o` to the node `t.node`; `keep` is the operation that stores one more weight
(`ACO_OPERATION_INDEX_COPY`). With `keep := ACO_OPERATION_TAKE` this is
`aco_tracker_build_model_complete` (132-183). `none`: a write through a `NULL` pointer or outside
the weights, or a layer without weights. -/
def buildStep [Zero F] (keep : Op) (g : Graph F) (o : Op) (t : Tracker F) : Option (Tracker F) :=
  match g.kind t.node with
  | .weight cell rows cols =>
    if o = .copy then
      if cell < rows * cols then
        some { t with
          weights := some ((List.replicate (rows * cols) 0).set cell (g.value t.node))
          biases := some (List.replicate cols 0) }
      else none
    else if o = keep then
      t.weights.bind fun w =>
        if cell < w.length then some { t with weights := some (w.set cell (g.value t.node)) } else none
    else some t
  | .act flag =>
    if o = .execute then (setLastAct flag t.fcls).map fun f => { t with fcls := f } else some t
  | .fcl inp out =>
    if o = .execute then
      t.weights.bind fun w => t.biases.bind fun b =>
        some { t with
          weights := none
          biases := none
          fcls := t.fcls ++ [⟨t.fcls.length, inp, out, w, b, sigmoidFlag⟩] }
    else some t
  | .root => some t

/-- `aco_tracker_next_by_index` (`/repo/src/aco_iterate.c` 483-495): step over outgoing
edge number `i`; returns the operation of the edge. -/
def stepTo (g : Graph F) (i : Nat) (t : Tracker F) : Option (Op × Tracker F) :=
  ((g.succ t.node)[i]?).map fun e => (e.1, { t with node := e.2 })

/-- The loop of `get_model_according_to_path` (`/repo/src/aco_process.c` 461-466). -/
def follow [Zero F] (keep : Op) (g : Graph F) : List Nat → Tracker F → Option (Tracker F)
  | [], t => some t
  | i :: is, t => (stepTo g i t).bind fun r => (buildStep keep g r.1 r.2).bind fun t' => follow keep g is t'

/-- The tracker at the root (`reset_aco_tracker`, `init_aco_tracker`). -/
def freshTracker : Tracker F := ⟨0, none, none, []⟩

/-- `get_model_according_to_path` (`/repo/src/aco_process.c` 457-468): the layers of the
network built along a trail. -/
def modelOfTrail [Zero F] (g : Graph F) (trail : List Nat) : Option (List (Fcl F)) :=
  (follow .indexCopy g trail freshTracker).map (·.fcls)

/-! ### Choosing a trail -/

/-- The roulette loop (`/repo/src/aco_iterate.c` 394-402): the first of `indices` at which the
remaining draw does not exceed the probability. `some none`: none of them. `none`: an
access outside `prob`. -/
def roulette [Sub F] [LE F] [DecidableRel (α := F) (· ≤ ·)] (prob : List F) : List Nat → F → Option (Option Nat)
  | [], _ => some none
  | k :: ks, r => (prob[k]?).bind fun p => if r ≤ p then some (some k) else roulette prob ks (r - p)

/-- `compute_prob_average_double` (`/repo/src/math_functions.c` 932-939). -/
def probAverage [Add F] [Zero F] [Div F] (ph : List F) : List F := ph.map (· / ph.sum)

/-- `aco_tracker_next_weithout_setting_flags` (`/repo/src/aco_iterate.c` 377-412) on the pheromones of
the outgoing edges, and `…_according_to_nodes` (414-457) on those of the successor
nodes: the number of the edge taken. `toInt` is the conversion `sort` applies to its
keys. No outgoing edge is the `-1` case of the caller. -/
def nextEdge [Field F] [LE F] [DecidableRel (α := F) (· ≤ ·)] (toInt : F → Int) (ph : List F) (r : F) :
    Option Nat :=
  let prob := probAverage ph
  (Sort.sortC toInt prob (List.range ph.length) 0 ((ph.length : Int) - 1)).bind fun I =>
    (roulette prob I r).bind fun o =>
      match o with
      | some k => some k
      | none => I[ph.length - 1]?

/-- `build_path_from_ant_index` (`/repo/src/aco_process.c` 506-522) and its variants
(524-584): walk until a node without outgoing edges; step number `j` of the walk takes edge
`choose j n` at node `n`. Not finished after `fuel` steps is `none`. -/
def antTrail (g : Graph F) (choose : Nat → Nat → Option Nat) : Nat → Nat → Nat → Option (List Nat)
  | 0, _, _ => none
  | fuel + 1, j, n =>
    if g.succ n = [] then some []
    else (choose j n).bind fun i => ((g.succ n)[i]?).bind fun e =>
      (antTrail g choose fuel (j + 1) e.2).map (i :: ·)

/-- The choice of `build_path_from_ant_index`: pheromones of the edges, draw `r j` at step
`j`. -/
def byEdges [Field F] [LE F] [DecidableRel (α := F) (· ≤ ·)] (toInt : F → Int) (g : Graph F) (ph : Nat → F)
    (r : Nat → F) (j n : Nat) : Option Nat :=
  nextEdge toInt ((g.outs n).map ph) (r j)

/-- The choice of `build_path_from_ant_index_according_to_nodes`: pheromones of the
successor nodes. -/
def byNodes [Field F] [LE F] [DecidableRel (α := F) (· ≤ ·)] (toInt : F → Int) (g : Graph F) (ph : Nat → F)
    (r : Nat → F) (j n : Nat) : Option Nat :=
  nextEdge toInt ((g.outs n).map fun e => ph (g.dst e)) (r j)

/-- `aco_tracker_best_next` (`/repo/src/aco_iterate.c` 583-600) and
`…_according_to_best` (459-480): the first edge with the largest pheromone. -/
def bestOf [LT F] [DecidableRel (α := F) (· < ·)] : List F → Option Nat
  | [] => none
  | x :: xs => some ((xs.foldl (fun (s : Nat × Nat × F) y => if s.2.2 < y then (s.1 + 1, s.1 + 1, y) else (s.1 + 1, s.2.1, s.2.2))
      (0, 0, x)).2.1)

/-- `get_best_model` (`/repo/src/aco_process.c` 489-504): the greedy walk over the edge pheromones;
the network is built with `aco_tracker_build_model_complete`. -/
def bestModel [Zero F] [LT F] [DecidableRel (α := F) (· < ·)] (g : Graph F) (ph : Nat → F) (fuel : Nat) :
    Option (List (Fcl F)) :=
  (antTrail g (fun _ n => bestOf ((g.outs n).map ph)) fuel 0 0).bind fun tr =>
    (follow .take g tr freshTracker).map (·.fcls)

end LLab.Aco
