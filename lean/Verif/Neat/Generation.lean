import Verif.Neat.Species
import Verif.Sort.Props
import Mathlib.Data.Rat.Floor

/-!
One generation of NEAT: `neat_generation_run` (`/repo/src/neat.c` 207-485) with the
fitness functions it calls (`/repo/src/fitness.c`) and the species
(`/repo/src/speciation.c`). Properties C90-C95.

Genomes are an arbitrary type. The distance between genomes, the mutations, the
crossover, `adjust_genome`, the coin flips and the shuffles are parameters (`World`)
acting on a state `σ`, which stands for the registry of innovation numbers and the
random number generator. Fitness values are rationals. The two buffers allocated by
`init` have a capacity: `none` is a write past the end of a buffer, a read outside an
array, or a loop that never ends.
-/

namespace LLab.Generation

open LLab.Species LLab.Sort

/-- The fields `fitness` and `specie_rip` of `genome` (`/repo/src/genome.h` 46-48) next to
the rest of it. -/
structure Ind (G : Type) where
  g : G
  fit : ℚ
  rip : Int
deriving DecidableEq

/-- `species` (`/repo/src/species.h` 31-38). -/
structure Spec (G : Type) where
  sp : Sp (Ind G)
  best : ℚ
  rip : Int
deriving DecidableEq

/-- What the generation calls: `compute_species_distance`, `shuffle_genome_set`, the
mutations of one child (`/repo/src/neat.c` 378-428; the flags say whether the species is
big and whether its representative's `specie_rip` is below the threshold), `crossover`,
`r2() < rate` and `adjust_genome`. -/
structure World (σ G : Type) where
  dist : G → G → ℚ
  shuffle : σ → List (Ind G) → σ × List (Ind G)
  mutate : σ → Bool → Bool → ℚ → G → σ × G
  cross : σ → G → G → σ × G
  coin : σ → ℚ → σ × Bool
  adjust : G → G

/-- The parameters of `init` that stay fixed (`/repo/src/neat.c` 4). -/
structure Params where
  threshold : ℚ
  generations : Nat
  survivors : ℚ
  children : Nat
  crossRate : ℚ
  saving : Nat
  limitSpecies : Int
  limitThreshold : Int
  sameLimit : Nat
  keepParents : Bool
  ageSig : ℚ

/-- The fields of `neat` that change (`/repo/src/neat.h`); `cap` is the number of cells of
`gg` and of `temp_gg2`, `saved` lists the genomes written to files with their file
numbers. -/
structure State (σ G : Type) where
  w : σ
  pop : List (Ind G)
  species : List (Spec G)
  cap : Nat
  maxPop : Nat
  newMaxPop : Nat
  last : ℚ
  counter : Nat
  rate : ℚ
  oldRate : ℚ
  k : Nat
  best : Option G
  saved : List (Nat × G)
  count : Nat

section
variable {σ G : Type}

/-! ### Fitness -/

/-- The search for the best genome (`/repo/src/neat.c` 212-222). -/
def bestOf : List (Ind G) → Option (Ind G)
  | [] => none
  | x :: xs => some (xs.foldl (fun b y => if b.fit < y.fit then y else b) x)

/-- The elements at the given positions. -/
def pick {β : Type} (l : List β) : List Nat → Option (List β)
  | [] => some []
  | i :: is => l[i]?.bind fun x => (pick l is).bind fun xs => some (x :: xs)

/-- `sort_genomes_by_fitness` (`/repo/src/fitness.c` 166-185). -/
def sortByFitness (l : List (Ind G)) : Option (List (Ind G)) :=
  (sortC truncRat (l.map Ind.fit) (List.range l.length) 0 ((l.length : Int) - 1)).bind fun is => pick l is.reverse

/-- `round_up` (`/repo/src/neat_utils.c` 29-33). -/
def roundUp (q : ℚ) : Int := if q ≠ (truncRat q : ℚ) then truncRat q + 1 else truncRat q

/-- `get_mean_specie_fitness_no_norm` (`/repo/src/fitness.c` 146-156). -/
def rawFitness (oldest : Int) (sig : ℚ) (s : Spec G) : ℚ :=
  if s.sp.members.length = 0 then 0
  else (s.sp.members.map Ind.fit).sum / s.sp.members.length * (1 + ((oldest - s.sp.age : Int) : ℚ) * sig)

/-- `get_mean_specie_fitness` (`/repo/src/fitness.c` 123-136). -/
def normFitness (oldest : Int) (sig worst best : ℚ) (s : Spec G) : ℚ :=
  if s.sp.members.length = 0 then 0
  else if best - worst = 0 then 0
  else ((s.sp.members.map Ind.fit).sum / s.sp.members.length * (1 + ((oldest - s.sp.age : Int) : ℚ) * sig) - worst) / (best - worst)

/-- `get_best_specie_fitness` (`/repo/src/fitness.c` 62-81). -/
def bestRaw (oldest : Int) (sig : ℚ) : List (Spec G) → ℚ
  | [] => 0
  | s :: ss => ss.foldl (fun b t => if b < rawFitness oldest sig t then rawFitness oldest sig t else b) (rawFitness oldest sig s)

/-- `get_worst_specie_fitness` (`/repo/src/fitness.c` 93-112). -/
def worstRaw (oldest : Int) (sig : ℚ) : List (Spec G) → ℚ
  | [] => 0
  | s :: ss => ss.foldl (fun b t => if rawFitness oldest sig t < b then rawFitness oldest sig t else b) (rawFitness oldest sig s)

/-- `get_mean_fitness` (`/repo/src/fitness.c` 39-50). -/
def meanFitness (oldest : Int) (sig worst best : ℚ) (ss : List (Spec G)) : ℚ :=
  if ss.length = 0 then 0 else (ss.map (normFitness oldest sig worst best)).sum / ss.length

/-- `get_oldest_age` (`/repo/src/speciation.c` 302-313). -/
def oldestAge (ss : List (Spec G)) : Int :=
  ss.foldl (fun m s => if 0 < s.sp.members.length ∧ m < s.sp.age then s.sp.age else m) (-1)

/-! ### Species -/

/-- A species opened by a genome (`/repo/src/speciation.c` 274-281). -/
def openSpec (x : Ind G) : Spec G := ⟨opened x, x.fit, 0⟩

/-- `create_species` for one genome (`/repo/src/speciation.c` 153-190). -/
def createOneF (dist : G → G → ℚ) (th : ℚ) (ss : List (Spec G)) (x : Ind G) : List (Spec G) :=
  if ss.any fun s => dist s.sp.rep.g x.g < th then ss else ss ++ [openSpec x]

/-- `create_species` (`/repo/src/speciation.c` 148-195). -/
def createF (dist : G → G → ℚ) (th : ℚ) (xs : List (Ind G)) : List (Spec G) := xs.foldl (createOneF dist th) []

/-- `put_genome_in_species` for one genome (`/repo/src/speciation.c` 236-284). -/
def putOneF (dist : G → G → ℚ) (th : ℚ) : List (Spec G) → Ind G → List (Spec G)
  | [], x => [openSpec x]
  | s :: ss, x => if dist s.sp.rep.g x.g < th then { s with sp := { s.sp with members := s.sp.members ++ [x] } } :: ss
    else s :: putOneF dist th ss x

/-- `put_genome_in_species` (`/repo/src/speciation.c` 224-291) after the shuffle. -/
def putF (dist : G → G → ℚ) (th : ℚ) (xs : List (Ind G)) (ss : List (Spec G)) : List (Spec G) :=
  xs.foldl (putOneF dist th) (ss.map fun s => { s with sp := { s.sp with age := s.sp.age + 1 } })

/-- `delete_species_without_population` (`/repo/src/speciation.c` 315-340). -/
def deleteF (ss : List (Spec G)) : List (Spec G) := ss.filter fun s => 0 < s.sp.members.length

/-- `update_best_specie_fitnesses` (`/repo/src/speciation.c` 293-300) and
`free_species_except_for_rapresentatives` (211-222). -/
def closeF (ss : List (Spec G)) : List (Spec G) :=
  ss.map fun s => { s with best := s.sp.members.foldl (fun b x => max b x.fit) s.best, sp := { s.sp with members := [] } }

/-! ### One species -/

/-- Storing one more genome in a buffer of `cap` cells. -/
def push {β : Type} (cap : Nat) (l : List β) (x : β) : Option (List β) := if l.length < cap then some (l ++ [x]) else none

/-- How the loops at `/repo/src/neat.c` 370-375 run through the survivors: `N` is the number
of children wanted, `r` the number of survivors and `n` the size of the species. The
fuel is `N`; with `r = 0` the outer loop never ends. -/
def childIdx (N r n : Nat) : Nat → Nat → Option (List Nat)
  | fuel, z =>
    if z < N then
      match fuel with
      | 0 => none
      | f + 1 => if r = 0 then none else (childIdx N r n f (z + r)).bind fun l => some (List.range (min (min n r) (N - z)) ++ l)
    else some []

/-- The share of a species (`/repo/src/neat.c` 319-333): the value of `nes->a` afterwards
and `nes->b`. -/
def share (a b : ℚ) : ℚ × ℚ :=
  if b = a then (a, 1)
  else
    let a' := if a = 0 then 1 / 1000 else a
    (a', if 20 < b / a' then 20 else if b / a' = 0 then 1 / 10000 else b / a')

/-- The number of children of a species (`/repo/src/neat.c` 367, 370). -/
def quota (P : Params) (b : ℚ) : Nat := ((P.children : Int) * roundUp (b * (5 / 2))).toNat

/-- The number of survivors of a species (`/repo/src/neat.c` 370). -/
def survivorsOf (P : Params) (n : Nat) : Nat := (roundUp (n * P.survivors)).toNat

/-- The inner loop at `/repo/src/neat.c` 371-432: copies of the survivors, mutated. -/
def breed (W : World σ G) (cap : Nat) (big young : Bool) (rate : ℚ) (sorted : List (Ind G)) : List Nat → σ × List (Ind G) → Option (σ × List (Ind G))
  | [], st => some st
  | i :: is, st => sorted[i]?.bind fun x =>
      (push cap st.2 { x with g := (W.mutate st.1 big young rate x.g).2 }).bind fun kids =>
        breed W cap big young rate sorted is ((W.mutate st.1 big young rate x.g).1, kids)

/-- What the loop over the species carries: the random state, `nes->a`, the new
population so far and `temp_gg2`. -/
structure Acc (σ G : Type) where
  w : σ
  a : ℚ
  kids : List (Ind G)
  elite : List (Ind G)

/-- The values computed before the loop over the species (`/repo/src/neat.c` 291-310). -/
structure Stats where
  oldest : Int
  avg : ℚ
  n : Nat
  best : ℚ
  worst : ℚ

/-- The counters of a species (`/repo/src/neat.c` 341-355); `top` is the fitness of the
first of its sorted genomes. -/
def countRip (W : World σ G) (P : Params) (n : Nat) (top : ℚ) (w : σ) (s : Spec G) : σ × Spec G :=
  let s1 := { s with rip := if top ≤ s.best then s.rip + 1 else 0 }
  if n < 10 ∧ P.limitSpecies - P.limitThreshold < s.sp.rep.rip then
    let c := W.coin w (1 / 5)
    (c.1, { s1 with rip := P.limitSpecies - P.limitThreshold,
                    sp := { s1.sp with rep := { s1.sp.rep with rip := if c.2 then s1.sp.rep.rip - 1 else s1.sp.rep.rip } } })
  else (w, s1)

/-- The body of the loop over the species (`/repo/src/neat.c` 315-439). The genomes of one
species are sorted, so that an empty species would read outside the array. -/
def speciesStep (W : World σ G) (P : Params) (cap : Nat) (rate : ℚ) (t : Stats) (s : Spec G) (acc : Acc σ G) : Option (Spec G × Acc σ G) :=
  let ab := share acc.a (normFitness t.oldest P.ageSig t.worst t.best s)
  (sortByFitness s.sp.members).bind fun sorted =>
    if s.sp.rep.rip < P.limitSpecies ∨ t.n < 10 then
      sorted[0]?.bind fun top =>
        let ws := countRip W P t.n top.fit acc.w s
        (if ab.1 ≤ ab.2 then push cap acc.elite top else some acc.elite).bind fun elite =>
          (childIdx (quota P ab.2) (survivorsOf P s.sp.members.length) s.sp.members.length (quota P ab.2) 0).bind fun is =>
            (breed W cap (t.avg ≤ s.sp.members.length) (ws.2.sp.rep.rip < P.limitSpecies - P.limitThreshold) rate sorted is
              (ws.1, acc.kids)).bind fun st => some (ws.2, ⟨st.1, ab.1, st.2, elite⟩)
    else some (s, { acc with a := ab.1 })

/-- The loop over the species (`/repo/src/neat.c` 315-439). -/
def speciesLoop (W : World σ G) (P : Params) (cap : Nat) (rate : ℚ) (t : Stats) : List (Spec G) → Acc σ G → Option (List (Spec G) × Acc σ G)
  | [], acc => some ([], acc)
  | s :: ss, acc => (speciesStep W P cap rate t s acc).bind fun x =>
      (speciesLoop W P cap rate t ss x.2).bind fun y => some (x.1 :: y.1, y.2)

/-! ### The generation -/

/-- Storing several genomes (`/repo/src/neat.c` 446-451). -/
def pushAll {β : Type} (cap : Nat) : List β → List β → Option (List β)
  | [], l => some l
  | x :: xs, l => (push cap l x).bind fun l' => pushAll cap xs l'

/-- The crossovers of neighbouring elite genomes (`/repo/src/neat.c` 461-467). -/
def crossAll (W : World σ G) (cap : Nat) (rate : ℚ) : List (Ind G) → σ × List (Ind G) → Option (σ × List (Ind G))
  | x :: y :: xs, st =>
    if (W.coin st.1 rate).2 then
      (push cap st.2 { x with g := (W.cross (W.coin st.1 rate).1 x.g y.g).2, fit := 0 }).bind fun kids =>
        crossAll W cap rate xs ((W.cross (W.coin st.1 rate).1 x.g y.g).1, kids)
    else crossAll W cap rate xs ((W.coin st.1 rate).1, st.2)
  | _, st => some st

/-- The counter of generations without improvement and the mutation rate
(`/repo/src/neat.c` 225-241). -/
def stagnation (P : Params) (top : ℚ) (s : State σ G) : State σ G :=
  let c := if top ≤ s.last then s.counter + 1 else 0
  let r := if top ≤ s.last then s.rate else s.oldRate
  { s with
    counter := if P.sameLimit ≤ c then 0 else c
    rate := if P.sameLimit ≤ c ∧ r < 97 / 100 then r + 3 / 100 else r
    last := if s.last < top then top else s.last }

/-- The removal of the weakest genomes (`/repo/src/neat.c` 257-267). -/
def weed (m : Nat) (pop : List (Ind G)) : Option (List (Ind G)) :=
  if m < pop.length then (sortByFitness pop).bind fun l => some (l.take m) else some pop

/-- The normalisation of the fitness values (`/repo/src/neat.c` 270-276); `worst` is the
fitness of the first genome. -/
def normalise (best worst : ℚ) (pop : List (Ind G)) : List (Ind G) :=
  pop.map fun x => { x with fit := (x.fit - worst) / (if best - worst = 0 then 1 / 10000 else best - worst) }

/-- The values computed before the loop over the species (`/repo/src/neat.c` 291-309). -/
def statsOf (P : Params) (ss : List (Spec G)) : Stats :=
  ⟨oldestAge ss, ((ss.map fun s => s.sp.members.length).sum : ℚ) / ss.length, ss.length, bestRaw (oldestAge ss) P.ageSig ss,
    worstRaw (oldestAge ss) P.ageSig ss⟩

/-- The final loop over the new population (`/repo/src/neat.c` 480-483). -/
def reset (W : World σ G) (l : List (Ind G)) : List (Ind G) := l.map fun x => { x with g := W.adjust x.g, fit := 0 }

/-- From the end of the loop over the species to the new population
(`/repo/src/neat.c` 446-483). -/
def renew (W : World σ G) (P : Params) (cap : Nat) (best : Ind G) (acc : Acc σ G) : Option (σ × List (Ind G)) :=
  (if P.keepParents then pushAll cap acc.elite acc.kids else some acc.kids).bind fun kids =>
    (if 1 < acc.elite.length then crossAll W cap P.crossRate (W.shuffle acc.w acc.elite).2 ((W.shuffle acc.w acc.elite).1, kids)
      else some (acc.w, kids)).bind fun st =>
        (push cap st.2 best).bind fun pop => some (st.1, reset W pop)

/-- The state with the new population and the species without genomes
(`/repo/src/neat.c` 442, 457, 476-484). -/
def advance (s : State σ G) (w : σ) (pop : List (Ind G)) (ss : List (Spec G)) : State σ G :=
  { s with w := w, pop := pop, species := closeF ss, best := none, count := s.count + pop.length }

/-- The generation after the best genome has been recorded (`/repo/src/neat.c` 256-484). -/
def evolve (W : World σ G) (P : Params) (first best : Ind G) (s : State σ G) : Option (State σ G) :=
  (weed s.newMaxPop s.pop).bind fun pop =>
    let sh := W.shuffle s.w (normalise best.fit first.fit pop)
    let ss := deleteF (putF W.dist P.threshold sh.2 s.species)
    let t := statsOf P ss
    if ss.length = 0 then none
    else (speciesLoop W P s.cap s.rate t ss ⟨sh.1, meanFitness t.oldest P.ageSig t.worst t.best ss, [], []⟩).bind fun y =>
      (renew W P s.cap best y.2).bind fun z => some (advance s z.1 z.2 y.1)

/-- `neat_generation_run` (`/repo/src/neat.c` 207-485). -/
def run (W : World σ G) (P : Params) (s : State σ G) : Option (State σ G) :=
  s.pop.head?.bind fun first => (bestOf s.pop).bind fun best =>
    let s1 := stagnation P best.fit s
    let s2 := { s1 with best := some best.g,
                        saved := if s.k % P.saving = 0 ∨ s.k = P.generations then s.saved ++ [(s.k + 1, best.g)] else s.saved }
    if s.k = P.generations then some s2 else evolve W P first best s2

/-- The end of `init` (`/repo/src/neat.c` 128-192), for the genomes `gs` it has made. -/
def start (W : World σ G) (P : Params) (w : σ) (maxPop : Nat) (rate : ℚ) (gs : List G) : State σ G where
  w := w
  pop := gs.map fun g => ⟨g, 0, 0⟩
  species := createF W.dist P.threshold (gs.map fun g => ⟨g, 0, 0⟩)
  cap := maxPop * 3 * 20 * P.children * 4
  maxPop := maxPop
  newMaxPop := maxPop
  last := -1
  counter := 0
  rate := rate
  oldRate := rate
  k := 0
  best := none
  saved := []
  count := gs.length

/-- The caller gives the genomes their fitness (`increment_fitness_of_genome_ith`,
`/repo/src/neat.c` 874-881): `f i` for genome number `i`. -/
def evaluate (f : Nat → ℚ) (s : State σ G) : State σ G := { s with pop := s.pop.mapIdx fun i x => { x with fit := f i } }

/-- `set_generation_iter` (`/repo/src/neat.c` 195-197). -/
def setIter (k : Nat) (s : State σ G) : State σ G := { s with k := k }

/-- `set_max_population` (`/repo/src/neat.c` 199-201). -/
def setMaxPop (m : Nat) (s : State σ G) : State σ G := { s with maxPop := m }

/-- What `init` checks of the parameters used here (`/repo/src/neat.c` 17-101). -/
structure Params.Valid (P : Params) : Prop where
  generations : 1 ≤ P.generations
  survivors : 0 < P.survivors ∧ P.survivors ≤ 1
  children : 1 ≤ P.children
  saving : 1 ≤ P.saving
  same : 1 ≤ P.sameLimit
  limits : 1 ≤ P.limitThreshold ∧ P.limitThreshold < P.limitSpecies

/-- Everything that can happen to a `neat` between calls. -/
inductive Step (W : World σ G) (P : Params) : State σ G → State σ G → Prop
  | evaluate (f : Nat → ℚ) (s : State σ G) : Step W P s (evaluate f s)
  | iter (k : Nat) (s : State σ G) : Step W P s (setIter k s)
  | maxPop (m : Nat) (s : State σ G) : Step W P s (setMaxPop m s)
  | run (s s' : State σ G) (h : run W P s = some s') : Step W P s s'

/-- The states a `neat` can reach: `init` requires `1 ≤ initial_population ≤
max_population` and a rate in `(0, 1]`. -/
inductive Reachable (W : World σ G) (P : Params) : State σ G → Prop
  | start (w : σ) (m : Nat) (rate : ℚ) (gs : List G) (h : 1 ≤ gs.length ∧ gs.length ≤ m) (hr : 0 < rate ∧ rate ≤ 1) :
      Reachable W P (start W P w m rate gs)
  | step (s t : State σ G) (h : Reachable W P s) (st : Step W P s t) : Reachable W P t

end

end LLab.Generation
