import Mathlib.Algebra.BigOperators.Group.List.Basic
import Mathlib.Algebra.Ring.Defs
import Mathlib.Logic.Function.Basic
import Mathlib.Data.List.Nodup
import Mathlib.Tactic.Ring
import Mathlib.Tactic.Linarith

/-!
Evaluation of a genome (`/repo/src/feedforward.c`). Property C116.

A node is named by its innovation number minus one, so the inputs are `0 … nin-1` and the outputs `nin … nin+nout-1`. `feed_forward` works on a
copy of the genome: values and flags of the original do not change. `none` means that the recursion is deeper than `fuel`.
-/

namespace LLab.NeatFF

variable {α : Type} [CommRing α]

/-! ### Model -/

/-- `genome` (`/repo/src/genome.h` 29-50): `inC v` and `outC v` are the connections listed at node `v`, in any order, `on` their flags. -/
structure Net (α : Type) where
  nin : Nat
  nout : Nat
  nodes : List Nat
  src : Nat → Nat
  dst : Nat → Nat
  w : Nat → α
  on : Nat → Bool
  inC : Nat → List Nat
  outC : Nat → List Nat

/-- What the evaluation changes: connection flags, node flags, `actual_value`. -/
structure St (α : Type) where
  cf : Nat → Int
  nf : Nat → Int
  val : Nat → α

def St.setC (s : St α) (c : Nat) (f : Int) : St α := { s with cf := Function.update s.cf c f }
def St.setN (s : St α) (v : Nat) (f : Int) : St α := { s with nf := Function.update s.nf v f }
def St.setV (s : St α) (v : Nat) (a : α) : St α := { s with val := Function.update s.val v a }

/-- What node `v` sends along connection `c`, `/repo/src/feedforward.c` 413-416, 427-431. -/
def sent (sig : α → α) (g : Net α) (s : St α) (v c : Nat) : α :=
  if g.nin ≤ v then sig (s.val v) * g.w c else s.val v * g.w c

/-- `recursive_computation` (`/repo/src/feedforward.c` 367-438). The pointer `actual_value` is always that of the end of the connection `c`, so it is
not a parameter. -/
def visit (sig : α → α) (g : Net α) (arr : Nat → Int) : Nat → Nat → Option Nat → St α → Option (Int × St α)
  | 0, _, _, _ => none
  | fuel + 1, head, c, s =>
    let s := s.setN head (if head < g.nin ∨ c = none then 1 else 0)
    let rest (s : St α) : Option (Int × St α) :=
      ((g.inC head).foldlM (fun s i =>
        if s.cf i = -1 then
          (visit sig g arr fuel (g.src i) (some i) s).map fun r => if s.nf head = 0 then r.2.setN head r.1 else r.2
        else some s) s).bind fun s =>
      let s := match c with
        | some c => if s.nf head ≠ 0 then ((s.setC c (-2)).setN (g.dst c) 1).setV (g.dst c) (s.val (g.dst c) + sent sig g s head c) else s
        | none => s
      ((g.outC head).foldlM (fun s i =>
        if s.cf i = -1 then
          let s := s.setC i (-2)
          if s.nf head ≠ 0 then
            (visit sig g arr fuel (g.dst i) none (s.setV (g.dst i) (s.val (g.dst i) + sent sig g s head i))).map Prod.snd
          else some s
        else some s) s).map fun s => (s.nf head, s)
    match c with
    | some c =>
      if head < g.nin then some (1, (s.setC c (-2)).setV (g.dst c) (s.val (g.dst c) + s.val head * g.w c))
      else if arr head ≠ 0 then some (0, s)
      else rest s
    | none => rest s

/-- `ff` (`/repo/src/feed_structure.h` 30-34), from the output backwards. -/
structure Path where
  nodes : List Nat
  conns : List Nat
  flag : Int

def Path.last (p : Path) : Nat := p.nodes.getLastD 0
/-- `list_nodes[size-2]` -/
def Path.before (p : Path) : Nat := p.nodes.getD (p.nodes.length - 2) 0
/-- `list_connections[size-2]` -/
def Path.lastConn (p : Path) : Nat := p.conns.getD (p.nodes.length - 2) 0

/-- `ff_reconstruction` (`/repo/src/feedforward.c` 274-364): all paths that end in `head`. The shared buffer in which every level fills in its own node
is a list of paths to which every level prepends its node. -/
def paths (g : Net α) : Nat → (Nat → Bool) → Nat → Option (List Path)
  | 0, _, _ => none
  | fuel + 1, seen, head =>
    if head < g.nin then some [⟨[head], [], 0⟩]
    else if seen head then some [⟨[head], [], 1⟩]
    else if (g.inC head).all fun i => !g.on i then some [⟨[head], [], -1⟩]
    else (((g.inC head).filter g.on).mapM fun i =>
      (paths g fuel (Function.update seen head true) (g.src i)).map fun l => l.map fun p => ⟨head :: p.nodes, i :: p.conns, p.flag⟩).map List.flatten

/-- Does `q` pass from `p`'s last node to the one after it without ending there? `/repo/src/feedforward.c` 118-125 -/
def passes (p q : Path) : Bool :=
  (List.range (q.nodes.length - 1)).any fun k => decide (q.nodes.getD k 0 = p.before ∧ q.nodes.getD (k + 1) 0 = p.last ∧ k + 1 ≠ q.nodes.length - 1)

/-- `array` after the paths are known, `/repo/src/feedforward.c` 75-83. -/
def arrays (ps : List Path) : Nat → Int :=
  ps.foldl (fun a p => Function.update a p.last (if p.flag = 1 then 1 else p.flag + 1)) fun _ => 0

/-- The connection flags after `/repo/src/feedforward.c` 91-141. -/
def flags (g : Net α) (ps : List Path) : Nat → Int :=
  ps.zipIdx.foldl (fun f (p, k) =>
    if p.flag = 1 then if ps.zipIdx.any fun (q, l) => decide (l ≠ k) && passes p q then f else Function.update f p.lastConn (-2)
    else f)
    fun c => if ps.any fun p => decide (c ∈ p.conns) then -1 else if g.on c then 1 else 0

/-- The visits of `/repo/src/feedforward.c` 148-159 and 241-253. -/
def sweep (sig : α → α) (g : Net α) (fuel : Nat) (ps : List Path) (s : St α) : Option (St α) :=
  ((List.range g.nin).foldlM (fun s i => if arrays ps i ≠ 0 then (visit sig g (arrays ps) fuel i none s).map Prod.snd else some s) s).bind fun s =>
    ps.foldlM (fun s p => if p.flag = -1 then (visit sig g (arrays ps) fuel p.last none s).map Prod.snd else some s) s

/-- The inputs of `/repo/src/feedforward.c` 145-147 and 229-231. -/
def setInputs (g : Net α) (x : Nat → α) (s : St α) : St α := { s with val := fun v => if v < g.nin then x v else s.val v }

/-- The second evaluation, from the stored values (`/repo/src/feedforward.c` 161-255). -/
def second (sig : α → α) (g : Net α) (fuel : Nat) (x : Nat → α) (ps : List Path) (s : St α) : Option (St α) :=
  let stored (v : Nat) : α := s.val v
  let near (v : Nat) : Bool := ps.any fun p => decide (p.flag = 1 ∧ p.before = v)
  let s : St α := ⟨s.cf, fun v => if v ∈ g.nodes then 0 else s.nf v, fun v => if v ∈ g.nodes then 0 else s.val v⟩
  let r := ps.foldl (fun (r : St α × List (Nat × Nat)) p =>
    if p.flag = 1 ∧ (p.before, p.last) ∉ r.2 then
      ((r.1.setV p.before (sig (stored p.last) * g.w p.lastConn)).setN p.before 1, (p.before, p.last) :: r.2)
    else r) (s, [])
  let s := ps.foldl (fun (s : St α) p =>
    if p.flag = 1 then (p.conns.take (p.nodes.length - 2)).foldl (fun s c => s.setC c (-1)) s
    else
      let s := s.setN p.last 1
      if p.nodes.any near then s else p.conns.foldl (fun s c => s.setC c (-1)) s) r.1
  (ps.foldlM (fun s p => if p.flag = 1 then (visit sig g (arrays ps) fuel p.before none s).map Prod.snd else some s) (setInputs g x s)).bind fun s =>
    sweep sig g fuel ps s

/-- `feed_forward` (`/repo/src/feedforward.c` 49-270); `val` are the values and `nf` the (uninitialised) node flags the copied genome starts with. -/
def feedForward (sig : α → α) (g : Net α) (fuel : Nat) (val : Nat → α) (nf : Nat → Int) (x : Nat → α) : Option (List α) :=
  ((List.range g.nout).mapM fun i => paths g fuel (fun _ => false) (g.nin + i)).bind fun pss =>
    let ps := pss.flatten
    (sweep sig g fuel ps (setInputs g x ⟨flags g ps, nf, val⟩)).bind fun s =>
      (if ps.any fun p => decide (p.flag = 1) then second sig g fuel x ps s else some s).map fun s =>
        (List.range g.nout).map fun i => sig (s.val (g.nin + i) + 1)

/-! ### Specification -/

/-- `V` are the node sums of the network on the input `x`: every node adds up what its enabled connections bring, and all but the inputs send `sig` of
their sum. -/
def Sums (sig : α → α) (g : Net α) (x V : Nat → α) : Prop :=
  ∀ v, g.nin ≤ v → V v = ((g.inC v).map fun c => if g.on c then (if g.src c < g.nin then x (g.src c) else sig (V (g.src c))) * g.w c else 0).sum

/-- The connections are listed once at each of their ends, and enabled ones do not enter inputs. -/
structure Listed (g : Net α) : Prop where
  inN : ∀ v, (g.inC v).Nodup
  outN : ∀ v, (g.outC v).Nodup
  inD : ∀ v c, c ∈ g.inC v → g.dst c = v
  outS : ∀ v c, c ∈ g.outC v → g.src c = v
  inM : ∀ c, g.on c → c ∈ g.inC (g.dst c)
  outM : ∀ c, g.on c → c ∈ g.outC (g.src c)
  noIn : ∀ c, g.on c → g.nin ≤ g.dst c

/-- The enabled connections between nodes other than inputs form trees whose leaves are fed by inputs. -/
structure Trees (g : Net α) (rank : Nat → Nat) : Prop where
  up : ∀ c, g.on c → g.nin ≤ g.src c → rank (g.src c) < rank (g.dst c)
  one : ∀ c c', g.on c → g.on c' → g.nin ≤ g.src c → g.src c = g.src c' → c = c'
  fed : ∀ c, g.on c → g.nin ≤ g.src c → ∃ c', g.on c' ∧ g.dst c' = g.src c

end LLab.NeatFF
