import Mathlib.Data.List.Nodup
import Mathlib.Data.List.Perm.Basic
import Mathlib.Data.List.Basic
import Mathlib.Logic.Function.Basic
import Mathlib.Tactic.Tauto

/-!
The life of a genome in memory: copying and freeing (`/repo/src/neat_utils.c` 717-810) and the switching on of a bias
(`/repo/src/mutations.c` 763-780). Property C165.

A genome is an array of pointers to nodes, a node has two arrays of pointers to connections, a connection points to its two
nodes: every connection is reached from both of its ends, and nodes and connections form a graph. The two arrays of a node are part
of its block here: they are allocated after it and freed with it. So are the arrays local to the functions.
-/

namespace LLab.Neat.Life

/-- A node (`/repo/src/genome.h` 30-36). In the arrays `none` is a pointer that was not written yet. `bias` is `bias_flag`,
`none` while it has not been written. `flag`, which feed-forward sets before it reads it, is left out. -/
structure Nd (F : Type) where
  inn : Nat
  actual : F
  stored : F
  ins : List (Option Nat)
  outs : List (Option Nat)
  bias : Option Bool

/-- A connection (`/repo/src/genome.h` 38-43); `src` is `in_node`, `dst` is `out_node`, `none`: not written yet. -/
structure Cn (F : Type) where
  inn : Nat
  flag : Bool
  weight : F
  src : Option Nat
  dst : Option Nat

/-- Memory: the live nodes and connections by address; addresses from `next` on were never given out. -/
structure Heap (F : Type) where
  next : Nat
  nd : Nat → Option (Nd F)
  cn : Nat → Option (Cn F)

variable {F : Type}

/-- The first loop of `copy_genome` (`/repo/src/neat_utils.c` 769-778): the nodes, with empty arrays of the same lengths.
`bias_flag` is not copied. -/
def cloneNodes : List Nat → Heap F → Option (Heap F × List Nat)
  | [], h => some (h, [])
  | p :: ps, h => (h.nd p).bind fun N =>
    (cloneNodes ps ⟨h.next + 1, Function.update h.nd h.next (some ⟨N.inn, N.actual, N.stored, List.replicate N.ins.length none, List.replicate N.outs.length none, none⟩), h.cn⟩).bind fun s =>
      some (s.1, h.next :: s.2)

/-- The inner loop over the incoming connections of one node (`/repo/src/neat_utils.c` 780-786): a new connection for each;
its `in_node` is not written. The result also has the pointers. -/
def cloneConns (q : Nat) : List (Option Nat) → Heap F → Option (Heap F × List (Option Nat))
  | [], h => some (h, [])
  | c :: cs, h => c.bind fun c => (h.cn c).bind fun C =>
    (cloneConns q cs ⟨h.next + 1, h.nd, Function.update h.cn h.next (some ⟨C.inn, C.flag, C.weight, none, some q⟩)⟩).bind fun s =>
      some (s.1, some h.next :: s.2)

/-- Write the array of incoming connections of node `q`. The code writes each cell in its round; nothing reads them before the
end of the loop. -/
def setIns (q : Nat) (l : List (Option Nat)) (h : Heap F) : Option (Heap F) :=
  (h.nd q).bind fun Q => some ⟨h.next, Function.update h.nd q (some { Q with ins := l }), h.cn⟩

/-- The same for the outgoing ones. -/
def setOuts (q : Nat) (l : List (Option Nat)) (h : Heap F) : Option (Heap F) :=
  (h.nd q).bind fun Q => some ⟨h.next, Function.update h.nd q (some { Q with outs := l }), h.cn⟩

/-- The second loop (`/repo/src/neat_utils.c` 779-788) over pairs of a node and its copy. -/
def cloneAllIns : List (Nat × Nat) → Heap F → Option (Heap F)
  | [], h => some h
  | x :: xs, h => (h.nd x.1).bind fun N => (cloneConns x.2 N.ins h).bind fun s => (setIns x.2 s.2 s.1).bind (cloneAllIns xs)

/-- The loop over `k` (`/repo/src/neat_utils.c` 792-793): the first of the new nodes with this number. -/
def findNode (h : Heap F) (inn : Nat) : List Nat → Option (Option Nat)
  | [] => some none
  | q :: qs => (h.nd q).bind fun Q => if inn = Q.inn then some (some q) else findNode h inn qs

/-- The loop over `z` (`/repo/src/neat_utils.c` 794-795): the first of its connections with this number. -/
def findConn (h : Heap F) (inn : Nat) : List (Option Nat) → Option (Option Nat)
  | [] => some none
  | e :: es => e.bind fun e => (h.cn e).bind fun E => if E.inn = inn then some (some e) else findConn h inn es

/-- The body of the third loop for one outgoing connection `c` (`/repo/src/neat_utils.c` 792-803): the copy is looked for at the
node at its other end, its `in_node` is written, and the pointer to it goes into the array. The inner `none`: not found,
the cell stays unwritten. -/
def link (qs : List Nat) (q : Nat) (c : Option Nat) (h : Heap F) : Option (Heap F × Option Nat) :=
  c.bind fun c => (h.cn c).bind fun C => C.dst.bind fun d => (h.nd d).bind fun D => (findNode h D.inn qs).bind fun
    | none => some (h, none)
    | some k => (h.nd k).bind fun K => (findConn h C.inn K.ins).bind fun
      | none => some (h, none)
      | some e => (h.cn e).bind fun E => some (⟨h.next, h.nd, Function.update h.cn e (some { E with src := some q })⟩, some e)

/-- The loop over the outgoing connections of one node (`/repo/src/neat_utils.c` 791-805). -/
def linkAll (qs : List Nat) (q : Nat) : List (Option Nat) → Heap F → Option (Heap F × List (Option Nat))
  | [], h => some (h, [])
  | c :: cs, h => (link qs q c h).bind fun s => (linkAll qs q cs s.1).bind fun t => some (t.1, s.2 :: t.2)

/-- The third loop (`/repo/src/neat_utils.c` 790-807). -/
def linkNodes (qs : List Nat) : List (Nat × Nat) → Heap F → Option (Heap F)
  | [], h => some h
  | x :: xs, h => (h.nd x.1).bind fun N => (linkAll qs x.2 N.outs h).bind fun s => (setOuts x.2 s.2 s.1).bind (linkNodes qs xs)

/-- `copy_genome` (`/repo/src/neat_utils.c` 755-810): from the array of nodes, the array of the new ones. The numbers of inputs and
outputs, the fitness and `specie_rip` are copied as they are and left out. -/
def copyGenome (ps : List Nat) (h : Heap F) : Option (Heap F × List Nat) :=
  (cloneNodes ps h).bind fun s => (cloneAllIns (ps.zip s.2) s.1).bind fun h2 => (linkNodes s.2 (ps.zip s.2) h2).bind fun h3 =>
    some (h3, s.2)

/-- One of the two inner loops of `free_genome` (`/repo/src/neat_utils.c` 722-736): the connections whose number was not met
before are noted. `none`: an invalid pointer, or a number outside `temp`. The state: numbers met, connections noted, last
first. -/
def gather (glob : Nat) (h : Heap F) : List (Option Nat) → List Nat × List Nat → Option (List Nat × List Nat)
  | [], s => some s
  | c :: cs, s => c.bind fun c => (h.cn c).bind fun C =>
    if C.inn = 0 ∨ glob < C.inn then none
    else gather glob h cs (if C.inn ∈ s.1 then s else (C.inn :: s.1, c :: s.2))

/-- The loop over the nodes (`/repo/src/neat_utils.c` 721-743): note the connections, free the node. -/
def freeNodes (glob : Nat) : List Nat → Heap F → List Nat × List Nat → Option (Heap F × List Nat)
  | [], h, s => some (h, s.2)
  | p :: ps, h, s => (h.nd p).bind fun N => (gather glob h N.outs s).bind fun s => (gather glob h N.ins s).bind fun s =>
    freeNodes glob ps ⟨h.next, Function.update h.nd p none, h.cn⟩ s

/-- The loop that frees the noted connections (`/repo/src/neat_utils.c` 745-747). `none`: a double free. -/
def freeConns : List Nat → Heap F → Option (Heap F)
  | [], h => some h
  | c :: cs, h => (h.cn c).bind fun _ => freeConns cs ⟨h.next, h.nd, Function.update h.cn c none⟩

/-- `free_genome(g, global_inn_numb_connections)` (`/repo/src/neat_utils.c` 717-753). The connections are freed in the order they were
noted. -/
def freeGenome (glob : Nat) (ps : List Nat) (h : Heap F) : Option (Heap F) :=
  (freeNodes glob ps h ([], [])).bind fun s => freeConns s.2.reverse s.1

/-- `activate_bias` (`/repo/src/mutations.c` 763-780) on the shuffled nodes: the first whose `bias_flag` is not set gets it.
`none`: a `bias_flag` that was never written is read. -/
def activateBias : List Nat → Heap F → Option (Heap F)
  | [], h => some h
  | p :: ps, h => (h.nd p).bind fun N => N.bias.bind fun b =>
    if b then activateBias ps h else some ⟨h.next, Function.update h.nd p (some { N with bias := some true }), h.cn⟩

/-! ### Specification -/

/-- A genome as a graph: its nodes and connections are names, here their addresses. -/
structure Graph (F : Type) where
  nodes : List Nat
  /-- the number and the two values of a node -/
  node : Nat → Nat × F × F
  ins : Nat → List Nat
  outs : Nat → List Nat
  /-- the number, flag and weight of a connection -/
  conn : Nat → Nat × Bool × F
  src : Nat → Nat
  dst : Nat → Nat

/-- All connections of the graph. -/
def Graph.conns (G : Graph F) : List Nat := G.nodes.flatMap G.ins

/-- A graph as the library builds them: nodes have different numbers, so have connections, and each connection is listed
exactly at the node it leaves and the node it enters. -/
structure Graph.Wf (G : Graph F) : Prop where
  nodup : G.nodes.Nodup
  numbers : ∀ p ∈ G.nodes, ∀ q ∈ G.nodes, (G.node p).1 = (G.node q).1 → p = q
  insNodup : ∀ p ∈ G.nodes, (G.ins p).Nodup
  outsNodup : ∀ p ∈ G.nodes, (G.outs p).Nodup
  inOk : ∀ p ∈ G.nodes, ∀ c ∈ G.ins p, G.dst c = p ∧ G.src c ∈ G.nodes ∧ c ∈ G.outs (G.src c)
  outOk : ∀ p ∈ G.nodes, ∀ c ∈ G.outs p, G.src c = p ∧ G.dst c ∈ G.nodes ∧ c ∈ G.ins (G.dst c)
  connNumbers : ∀ c ∈ G.conns, ∀ e ∈ G.conns, (G.conn c).1 = (G.conn e).1 → c = e

/-- The node as it lies in memory; `b` is its `bias_flag`. -/
def Graph.nd (G : Graph F) (p : Nat) (b : Option Bool) : Nd F :=
  ⟨(G.node p).1, (G.node p).2.1, (G.node p).2.2, (G.ins p).map some, (G.outs p).map some, b⟩

/-- The connection as it lies in memory. -/
def Graph.cn (G : Graph F) (c : Nat) : Cn F :=
  ⟨(G.conn c).1, (G.conn c).2.1, (G.conn c).2.2, some (G.src c), some (G.dst c)⟩

/-- The graph lies in this memory. -/
structure Holds (h : Heap F) (G : Graph F) : Prop where
  node : ∀ p ∈ G.nodes, p < h.next ∧ ∃ b, h.nd p = some (G.nd p b)
  conn : ∀ c ∈ G.conns, c < h.next ∧ h.cn c = some (G.cn c)

/-- `G'` is `G` with its nodes renamed by `f` and its connections by `g`. -/
structure Renamed (f g : Nat → Nat) (G G' : Graph F) : Prop where
  nodes : G'.nodes = G.nodes.map f
  node : ∀ p ∈ G.nodes, G'.node (f p) = G.node p ∧ G'.ins (f p) = (G.ins p).map g ∧ G'.outs (f p) = (G.outs p).map g
  conn : ∀ c ∈ G.conns, G'.conn (g c) = G.conn c ∧ G'.src (g c) = f (G.src c) ∧ G'.dst (g c) = f (G.dst c)
  nodeInj : ∀ p ∈ G.nodes, ∀ q ∈ G.nodes, f p = f q → p = q
  connInj : ∀ c ∈ G.conns, ∀ e ∈ G.conns, g c = g e → c = e

/-! ### Lemmas -/

theorem Graph.Wf.mem_outs {G : Graph F} (w : G.Wf) {p c : Nat} (hp : p ∈ G.nodes) (hc : c ∈ G.outs p) : c ∈ G.conns :=
  List.mem_flatMap.2 ⟨_, (w.outOk p hp c hc).2.1, (w.outOk p hp c hc).2.2⟩

theorem mem_conns {G : Graph F} {p c : Nat} (hp : p ∈ G.nodes) (hc : c ∈ G.ins p) : c ∈ G.conns :=
  List.mem_flatMap.2 ⟨p, hp, hc⟩

theorem Graph.Wf.connsNodup {G : Graph F} (w : G.Wf) : G.conns.Nodup := by
  refine List.nodup_flatMap.2 ⟨w.insNodup, ?_⟩
  refine List.Pairwise.imp_of_mem ?_ w.nodup
  intro p q hp hq hne c hc hc'
  exact hne ((w.inOk p hp c hc).1.symm.trans (w.inOk q hq c hc').1)

/-! #### Freeing -/

theorem gather_spec {h : Heap F} {G : Graph F} (w : G.Wf) (glob : Nat) (hcn : ∀ c ∈ G.conns, h.cn c = some (G.cn c))
    (hb : ∀ c ∈ G.conns, 0 < (G.conn c).1 ∧ (G.conn c).1 ≤ glob) : ∀ (cs : List Nat) (s : List Nat × List Nat), (∀ c ∈ cs, c ∈ G.conns) →
    s.1 = s.2.map (fun c => (G.conn c).1) → s.2.Nodup → (∀ c ∈ s.2, c ∈ G.conns) →
    ∃ s', gather glob h (cs.map some) s = some s' ∧ s'.1 = s'.2.map (fun c => (G.conn c).1) ∧ s'.2.Nodup ∧ (∀ c ∈ s'.2, c ∈ G.conns) ∧
      ∀ c, c ∈ s'.2 ↔ c ∈ s.2 ∨ c ∈ cs
  | [], s, _, h1, h2, h3 => ⟨s, rfl, h1, h2, h3, by simp⟩
  | c :: cs, s, hm, h1, h2, h3 => by
    have hc := hm c (by simp)
    have hbc := hb c hc
    have e : gather glob h ((c :: cs).map some) s = gather glob h (cs.map some) (if (G.conn c).1 ∈ s.1 then s else ((G.conn c).1 :: s.1, c :: s.2)) := by
      rw [List.map_cons, gather, Option.bind_some, hcn c hc, Option.bind_some]
      exact if_neg (fun hx : (G.conn c).1 = 0 ∨ glob < (G.conn c).1 => by omega)
    by_cases hin : (G.conn c).1 ∈ s.1
    · have hcs : c ∈ s.2 := by
        rw [h1] at hin
        obtain ⟨d, hd, hde⟩ := List.mem_map.1 hin
        rw [← w.connNumbers d (h3 d hd) c hc hde]
        exact hd
      rw [if_pos hin] at e
      obtain ⟨s', e', g1, g2, g3, g4⟩ := gather_spec w glob hcn hb cs s (fun d hd => hm d (by simp [hd])) h1 h2 h3
      refine ⟨s', e.trans e', g1, g2, g3, fun d => ?_⟩
      rw [g4 d, List.mem_cons]
      constructor
      · rintro (hd | hd)
        · exact Or.inl hd
        · exact Or.inr (Or.inr hd)
      · rintro (hd | rfl | hd)
        · exact Or.inl hd
        · exact Or.inl hcs
        · exact Or.inr hd
    · rw [if_neg hin] at e
      obtain ⟨s', e', g1, g2, g3, g4⟩ := gather_spec w glob hcn hb cs ((G.conn c).1 :: s.1, c :: s.2) (fun d hd => hm d (by simp [hd]))
        (by simp [h1]) (List.nodup_cons.2 ⟨fun hcs => hin (by rw [h1]; exact List.mem_map_of_mem hcs), h2⟩)
        (by intro d hd; rcases List.mem_cons.1 hd with rfl | hd; exacts [hc, h3 d hd])
      refine ⟨s', e.trans e', g1, g2, g3, fun d => ?_⟩
      rw [g4 d, List.mem_cons, List.mem_cons]
      tauto

theorem freeNodes_spec {G : Graph F} (w : G.Wf) (glob : Nat) (hb : ∀ c ∈ G.conns, 0 < (G.conn c).1 ∧ (G.conn c).1 ≤ glob) :
    ∀ (ps : List Nat) (h : Heap F) (s : List Nat × List Nat), ps.Nodup → (∀ p ∈ ps, p ∈ G.nodes) → (∀ p ∈ ps, ∃ b, h.nd p = some (G.nd p b)) →
    (∀ c ∈ G.conns, h.cn c = some (G.cn c)) → s.1 = s.2.map (fun c => (G.conn c).1) → s.2.Nodup → (∀ c ∈ s.2, c ∈ G.conns) →
    ∃ h' l, freeNodes glob ps h s = some (h', l) ∧ h'.next = h.next ∧ h'.cn = h.cn ∧ (∀ p ∈ ps, h'.nd p = none) ∧ (∀ a, a ∉ ps → h'.nd a = h.nd a) ∧
      l.Nodup ∧ (∀ c ∈ l, c ∈ G.conns) ∧ (∀ c ∈ s.2, c ∈ l) ∧ ∀ p ∈ ps, ∀ c ∈ G.ins p, c ∈ l
  | [], h, s, _, _, _, _, _, h2, h3 => ⟨h, s.2, rfl, rfl, rfl, by simp, fun _ _ => rfl, h2, h3, fun _ hc => hc, by simp⟩
  | p :: ps, h, s, nd, hm, hnd, hcn, h1, h2, h3 => by
    obtain ⟨hp, nd'⟩ := List.nodup_cons.1 nd
    have hpG := hm p (by simp)
    obtain ⟨b, hN⟩ := hnd p (by simp)
    obtain ⟨s1, e1, a1, a2, a3, a4⟩ := gather_spec w glob hcn hb (G.outs p) s (fun c hc => w.mem_outs hpG hc) h1 h2 h3
    obtain ⟨s2, e2, b1, b2, b3, b4⟩ := gather_spec w glob hcn hb (G.ins p) s1 (fun c hc => mem_conns hpG hc) a1 a2 a3
    obtain ⟨h', l, e3, c1, c2, c3, c4, c5, c6, c7, c8⟩ := freeNodes_spec w glob hb ps ⟨h.next, Function.update h.nd p none, h.cn⟩ s2 nd'
      (fun q hq => hm q (by simp [hq])) (fun q hq => by
        obtain ⟨b, hb⟩ := hnd q (by simp [hq])
        refine ⟨b, ?_⟩
        exact (Function.update_of_ne (fun he : q = p => hp (he ▸ hq)) _ _).trans hb) hcn b1 b2 b3
    refine ⟨h', l, ?_, c1, c2, ?_, ?_, c5, c6, ?_, ?_⟩
    · rw [freeNodes, hN, Option.bind_some]
      show (gather glob h ((G.outs p).map some) s).bind _ = _
      rw [e1, Option.bind_some]
      show (gather glob h ((G.ins p).map some) s1).bind _ = _
      rw [e2, Option.bind_some, e3]
    · intro q hq
      rcases List.mem_cons.1 hq with rfl | hq
      · rw [c4 q hp]
        exact Function.update_self _ _ _
      · exact c3 q hq
    · intro a ha
      rw [c4 a (fun h => ha (by simp [h]))]
      exact Function.update_of_ne (fun he => ha (by simp [he])) _ _
    · intro c hc
      exact c7 c ((b4 c).2 (Or.inl ((a4 c).2 (Or.inl hc))))
    · intro q hq c hc
      rcases List.mem_cons.1 hq with rfl | hq
      · exact c7 c ((b4 c).2 (Or.inr hc))
      · exact c8 q hq c hc

theorem freeConns_spec : ∀ (cs : List Nat) (h : Heap F), cs.Nodup → (∀ c ∈ cs, h.cn c ≠ none) →
    ∃ h', freeConns cs h = some h' ∧ h'.next = h.next ∧ h'.nd = h.nd ∧ (∀ c ∈ cs, h'.cn c = none) ∧ ∀ a, a ∉ cs → h'.cn a = h.cn a
  | [], h, _, _ => ⟨h, rfl, rfl, rfl, by simp, fun _ _ => rfl⟩
  | c :: cs, h, nd, hl => by
    obtain ⟨hc, nd'⟩ := List.nodup_cons.1 nd
    obtain ⟨C, hC⟩ := Option.ne_none_iff_exists'.1 (hl c (by simp))
    obtain ⟨h', e, h1, h2, h3, h4⟩ := freeConns_spec cs ⟨h.next, h.nd, Function.update h.cn c none⟩ nd' (by
      intro d hd
      have : d ≠ c := fun he => hc (he ▸ hd)
      show Function.update h.cn c none d ≠ none
      rw [Function.update_of_ne this]
      exact hl d (by simp [hd]))
    refine ⟨h', ?_, h1, h2, ?_, ?_⟩
    · rw [freeConns, hC, Option.bind_some, e]
    · intro d hd
      rcases List.mem_cons.1 hd with rfl | hd
      · rw [h4 d hc]
        exact Function.update_self _ _ _
      · exact h3 d hd
    · intro a ha
      rw [h4 a (fun h => ha (by simp [h]))]
      exact Function.update_of_ne (fun he => ha (by simp [he])) _ _

/-- **C165 (freeing).** Freeing a genome whose connection numbers lie between one and the given count releases each of its nodes and
connections exactly once, although each connection is reached from both ends, and nothing else. -/
theorem C165_free {h : Heap F} {G : Graph F} (w : G.Wf) (hh : Holds h G) (glob : Nat) (hb : ∀ c ∈ G.conns, 0 < (G.conn c).1 ∧ (G.conn c).1 ≤ glob) :
    ∃ h', freeGenome glob G.nodes h = some h' ∧ (∀ p ∈ G.nodes, h'.nd p = none) ∧ (∀ c ∈ G.conns, h'.cn c = none) ∧
      (∀ a, a ∉ G.nodes → h'.nd a = h.nd a) ∧ ∀ a, a ∉ G.conns → h'.cn a = h.cn a := by
  obtain ⟨h1, l, e1, _, c2, c3, c4, c5, c6, c7, c8⟩ := freeNodes_spec w glob hb G.nodes h ([], []) w.nodup (fun _ hp => hp) (fun p hp => (hh.node p hp).2)
    (fun c hc => (hh.conn c hc).2) rfl List.nodup_nil (by simp)
  have hall : ∀ c, c ∈ l ↔ c ∈ G.conns := by
    intro c
    refine ⟨c6 c, fun hc => ?_⟩
    obtain ⟨p, hp, hcp⟩ := List.mem_flatMap.1 hc
    exact c8 p hp c hcp
  obtain ⟨h2, e2, _, d2, d3, d4⟩ := freeConns_spec l.reverse h1 (List.nodup_reverse.2 c5) (by
    intro c hc
    rw [List.mem_reverse] at hc
    rw [c2, (hh.conn c (c6 c hc)).2]
    simp)
  refine ⟨h2, ?_, ?_, ?_, ?_, ?_⟩
  · rw [freeGenome, e1, Option.bind_some, e2]
  · intro p hp; rw [d2]; exact c3 p hp
  · intro c hc; exact d3 c (List.mem_reverse.2 ((hall c).2 hc))
  · intro a ha; rw [d2]; exact c4 a ha
  · intro a ha
    rw [d4 a (fun hc => ha ((hall a).1 (List.mem_reverse.1 hc))), c2]

/-- **C165 (refuted: any count).** If the first connection that leaves the first node has a number above the given count - that of
a younger population, say - freeing runs outside an array. -/
theorem C165_free_refuted {h : Heap F} {G : Graph F} (hh : Holds h G) (w : G.Wf) (glob p c : Nat) (ps cs : List Nat) (hp : G.nodes = p :: ps)
    (hc : G.outs p = c :: cs) (hb : glob < (G.conn c).1) : freeGenome glob G.nodes h = none := by
  have hpG : p ∈ G.nodes := by simp [hp]
  obtain ⟨b, hN⟩ := (hh.node p hpG).2
  have hC := (hh.conn c (w.mem_outs hpG (by simp [hc]))).2
  rw [hp, freeGenome, freeNodes, hN, Option.bind_some]
  have e : gather glob h (G.nd p b).outs ([], []) = none := by
    rw [Graph.nd]
    show gather glob h ((G.outs p).map some) ([], []) = none
    rw [hc, List.map_cons, gather, Option.bind_some, hC, Option.bind_some]
    exact if_pos (Or.inr hb)
  rw [e]
  rfl

/-! #### Copying -/

theorem range_map_idx {A : Type} {l : List Nat} (nd : l.Nodup) (k : Nat → A) : (List.range l.length).map k = l.map (fun c => k (l.idxOf c)) := by
  apply List.ext_getElem
  · simp
  · intro i h1 h2
    rw [List.getElem_map, List.getElem_map, List.getElem_range, nd.idxOf_getElem]

theorem zip_map_self (f : Nat → Nat) : ∀ l : List Nat, l.zip (l.map f) = l.map fun p => (p, f p)
  | [] => rfl
  | p :: l => by rw [List.map_cons, List.zip_cons_cons, zip_map_self f l, List.map_cons]

theorem idxOf_inj {l : List Nat} {a b : Nat} (ha : a ∈ l) (hb : b ∈ l) (h : l.idxOf a = l.idxOf b) : a = b := by
  have h1 : l[l.idxOf a]'(List.idxOf_lt_length_iff.2 ha) = a := List.getElem_idxOf _
  have h2 : l[l.idxOf b]'(List.idxOf_lt_length_iff.2 hb) = b := List.getElem_idxOf _
  rw [← h1, ← h2]
  congr 1

/-- A copied node before its connections are written. -/
def Graph.blank (G : Graph F) (p : Nat) : Nd F :=
  ⟨(G.node p).1, (G.node p).2.1, (G.node p).2.2, List.replicate (G.ins p).length none, List.replicate (G.outs p).length none, none⟩

theorem cloneNodes_spec (G : Graph F) : ∀ (ps : List Nat) (h : Heap F), (∀ p ∈ ps, p < h.next ∧ ∃ b, h.nd p = some (G.nd p b)) →
    ∃ h', cloneNodes ps h = some (h', (List.range ps.length).map (h.next + ·)) ∧ h'.next = h.next + ps.length ∧ h'.cn = h.cn ∧
      (∀ a < h.next, h'.nd a = h.nd a) ∧ ∀ i p, ps[i]? = some p → h'.nd (h.next + i) = some (G.blank p)
  | [], h, _ => ⟨h, rfl, rfl, rfl, fun _ _ => rfl, by simp⟩
  | p :: ps, h, hm => by
    obtain ⟨hp, b, hN⟩ := hm p (by simp)
    obtain ⟨h', e, h1, h2, h3, h4⟩ := cloneNodes_spec G ps ⟨h.next + 1, Function.update h.nd h.next (some (G.blank p)), h.cn⟩ (by
      intro q hq
      obtain ⟨hq1, b, hb⟩ := hm q (by simp [hq])
      refine ⟨Nat.lt_succ_of_lt hq1, b, ?_⟩
      exact (Function.update_of_ne (by omega) _ _).trans hb)
    refine ⟨h', ?_, ?_, h2, ?_, ?_⟩
    · rw [cloneNodes, hN, Option.bind_some]
      have hb : (⟨(G.nd p b).inn, (G.nd p b).actual, (G.nd p b).stored, List.replicate (G.nd p b).ins.length none, List.replicate (G.nd p b).outs.length none, none⟩ : Nd F) = G.blank p := by
        simp only [Graph.nd, Graph.blank, List.length_map]
      rw [hb, e, Option.bind_some, List.length_cons, List.range_succ_eq_map, List.map_cons, List.map_map]
      have : (List.range ps.length).map (fun x => h.next + 1 + x) = (List.range ps.length).map ((fun x => h.next + x) ∘ Nat.succ) := by
        refine List.map_congr_left (fun i _ => ?_)
        show h.next + 1 + i = h.next + (i + 1)
        omega
      rw [← this]
      rfl
    · rw [h1, List.length_cons]
      show h.next + 1 + ps.length = _
      omega
    · intro a ha
      rw [h3 a (Nat.lt_succ_of_lt ha)]
      exact Function.update_of_ne (by omega) _ _
    · intro i q hq
      cases i with
      | zero =>
        cases hq
        rw [Nat.add_zero, h3 h.next (Nat.lt_succ_self _)]
        exact Function.update_self _ _ _
      | succ i =>
        have := h4 i q hq
        have e : h.next + 1 + i = h.next + (i + 1) := by omega
        rw [← e]
        exact this

/-- A copied connection before its `in_node` is written. -/
def Graph.half (G : Graph F) (q c : Nat) : Cn F := ⟨(G.conn c).1, (G.conn c).2.1, (G.conn c).2.2, none, some q⟩

theorem cloneConns_spec (G : Graph F) (q : Nat) : ∀ (cs : List Nat) (h : Heap F), (∀ c ∈ cs, c < h.next ∧ h.cn c = some (G.cn c)) →
    ∃ h', cloneConns q (cs.map some) h = some (h', (List.range cs.length).map (fun j => some (h.next + j))) ∧ h'.next = h.next + cs.length ∧ h'.nd = h.nd ∧
      (∀ a < h.next, h'.cn a = h.cn a) ∧ ∀ i c, cs[i]? = some c → h'.cn (h.next + i) = some (G.half q c)
  | [], h, _ => ⟨h, rfl, rfl, rfl, fun _ _ => rfl, by simp⟩
  | c :: cs, h, hm => by
    obtain ⟨hc, hC⟩ := hm c (by simp)
    obtain ⟨h', e, h1, h2, h3, h4⟩ := cloneConns_spec G q cs ⟨h.next + 1, h.nd, Function.update h.cn h.next (some (G.half q c))⟩ (by
      intro d hd
      obtain ⟨hd1, hd2⟩ := hm d (by simp [hd])
      refine ⟨Nat.lt_succ_of_lt hd1, ?_⟩
      exact (Function.update_of_ne (by omega) _ _).trans hd2)
    refine ⟨h', ?_, ?_, h2, ?_, ?_⟩
    · rw [List.map_cons, cloneConns, Option.bind_some, hC, Option.bind_some]
      have hb : (⟨(G.cn c).inn, (G.cn c).flag, (G.cn c).weight, none, some q⟩ : Cn F) = G.half q c := rfl
      rw [hb, e, Option.bind_some, List.length_cons, List.range_succ_eq_map, List.map_cons, List.map_map]
      have : (List.range cs.length).map (fun x => some (h.next + 1 + x)) = (List.range cs.length).map ((fun x => some (h.next + x)) ∘ Nat.succ) := by
        refine List.map_congr_left (fun i _ => ?_)
        show some (h.next + 1 + i) = some (h.next + (i + 1))
        congr 1
        omega
      rw [← this]
      rfl
    · rw [h1, List.length_cons]
      show h.next + 1 + cs.length = _
      omega
    · intro a ha
      rw [h3 a (Nat.lt_succ_of_lt ha)]
      exact Function.update_of_ne (by omega) _ _
    · intro i q hq
      cases i with
      | zero =>
        cases hq
        rw [Nat.add_zero, h3 h.next (Nat.lt_succ_self _)]
        exact Function.update_self _ _ _
      | succ i =>
        have := h4 i q hq
        have e : h.next + 1 + i = h.next + (i + 1) := by omega
        rw [← e]
        exact this

/-- A copied node with its incoming connections written. -/
def Graph.wired (G : Graph F) (g : Nat → Nat) (p : Nat) : Nd F := { G.blank p with ins := (G.ins p).map (fun c => some (g c)) }

theorem cloneAllIns_spec {G : Graph F} (w : G.Wf) (f : Nat → Nat) (hf : ∀ p ∈ G.nodes, ∀ q ∈ G.nodes, f p = f q → p = q) (hsep : ∀ p ∈ G.nodes, ∀ q ∈ G.nodes, p ≠ f q) :
    ∀ (xs : List Nat) (h : Heap F), xs.Nodup → (∀ p ∈ xs, p ∈ G.nodes) → (∀ p ∈ xs, ∃ b, h.nd p = some (G.nd p b)) → (∀ p ∈ xs, h.nd (f p) = some (G.blank p)) →
    (∀ c ∈ G.conns, c < h.next ∧ h.cn c = some (G.cn c)) →
    ∃ h', cloneAllIns (xs.map fun p => (p, f p)) h = some h' ∧ h'.next = h.next + (xs.flatMap G.ins).length ∧ (∀ a < h.next, h'.cn a = h.cn a) ∧
      (∀ a, (∀ p ∈ xs, a ≠ f p) → h'.nd a = h.nd a) ∧
      (∀ p ∈ xs, h'.nd (f p) = some (G.wired (fun c => h.next + (xs.flatMap G.ins).idxOf c) p)) ∧
      ∀ c ∈ xs.flatMap G.ins, h'.cn (h.next + (xs.flatMap G.ins).idxOf c) = some (G.half (f (G.dst c)) c)
  | [], h, _, _, _, _, _ => ⟨h, rfl, rfl, fun _ _ => rfl, fun _ _ => rfl, by simp, by simp⟩
  | p :: xs, h, nd, hm, hnd, hbl, hcn => by
    obtain ⟨hp, nd'⟩ := List.nodup_cons.1 nd
    have hpG := hm p (by simp)
    obtain ⟨b, hN⟩ := hnd p (by simp)
    obtain ⟨h1, e1, a1, a2, a3, a4⟩ := cloneConns_spec G (f p) (G.ins p) h (fun c hc => hcn c (mem_conns hpG hc))
    rw [range_map_idx (w.insNodup p hpG)] at e1
    have hQ : h1.nd (f p) = some (G.blank p) := by rw [a2]; exact hbl p (by simp)
    have e2 : setIns (f p) ((G.ins p).map fun c => some (h.next + (G.ins p).idxOf c)) h1 =
        some ⟨h1.next, Function.update h1.nd (f p) (some (G.wired (fun c => h.next + (G.ins p).idxOf c) p)), h1.cn⟩ := by
      rw [setIns, hQ, Option.bind_some]
      rfl
    have hne : ∀ q ∈ xs, f q ≠ f p := fun q hq he => hp (hf q (hm q (by simp [hq])) p hpG he ▸ hq)
    obtain ⟨h2, e3, b1, b2, b3, b4, b5⟩ := cloneAllIns_spec w f hf hsep xs ⟨h1.next, Function.update h1.nd (f p) (some (G.wired (fun c => h.next + (G.ins p).idxOf c) p)), h1.cn⟩
      nd' (fun q hq => hm q (by simp [hq]))
      (fun q hq => by
        obtain ⟨b, hb⟩ := hnd q (by simp [hq])
        refine ⟨b, (Function.update_of_ne (hsep q (hm q (by simp [hq])) p hpG) _ _).trans ?_⟩
        rw [a2]; exact hb)
      (fun q hq => by
        refine (Function.update_of_ne (hne q hq) _ _).trans ?_
        rw [a2]; exact hbl q (by simp [hq]))
      (fun c hc => by
        obtain ⟨hc1, hc2⟩ := hcn c hc
        refine ⟨?_, (a3 c hc1).trans hc2⟩
        show c < h1.next
        omega)
    have hnot : ∀ c ∈ xs.flatMap G.ins, c ∉ G.ins p := by
      intro c hc hcp
      obtain ⟨q, hq, hcq⟩ := List.mem_flatMap.1 hc
      have : q = p := (w.inOk q (hm q (by simp [hq])) c hcq).1.symm.trans (w.inOk p hpG c hcp).1
      exact hp (this ▸ hq)
    have idx1 : ∀ c ∈ G.ins p, h.next + ((p :: xs).flatMap G.ins).idxOf c = h.next + (G.ins p).idxOf c := by
      intro c hc
      rw [List.flatMap_cons, List.idxOf_append_of_mem hc]
    have idx2 : ∀ c ∈ xs.flatMap G.ins, h.next + ((p :: xs).flatMap G.ins).idxOf c = h1.next + (xs.flatMap G.ins).idxOf c := by
      intro c hc
      rw [List.flatMap_cons, List.idxOf_append_of_notMem (hnot c hc), a1]
      omega
    refine ⟨h2, ?_, ?_, ?_, ?_, ?_, ?_⟩
    · rw [List.map_cons, cloneAllIns, hN, Option.bind_some]
      show (cloneConns (f p) ((G.ins p).map some) h).bind _ = _
      rw [e1, Option.bind_some]
      show (setIns (f p) _ h1).bind _ = _
      rw [e2, Option.bind_some, e3]
    · rw [b1, List.flatMap_cons, List.length_append]
      show h1.next + _ = _
      omega
    · intro a ha
      rw [b2 a (by show a < h1.next; omega)]
      exact a3 a ha
    · intro a ha
      rw [b3 a (fun q hq => ha q (by simp [hq]))]
      exact (Function.update_of_ne (ha p (by simp)) _ _).trans (by rw [a2])
    · intro q hq
      rcases List.mem_cons.1 hq with rfl | hq
      · rw [b3 (f q) (fun r hr => (hne r hr).symm)]
        refine (Function.update_self _ _ _).trans ?_
        rw [Graph.wired, Graph.wired]
        congr 2
        refine List.map_congr_left (fun c hc => ?_)
        rw [idx1 c hc]
      · rw [b4 q hq, Graph.wired, Graph.wired]
        congr 2
        refine List.map_congr_left (fun c hc => ?_)
        exact congrArg some (idx2 c (List.mem_flatMap.2 ⟨q, hq, hc⟩)).symm
    · intro c hc
      rw [List.flatMap_cons] at hc
      rcases List.mem_append.1 hc with hc | hc
      · rw [idx1 c hc]
        have hlt : (G.ins p).idxOf c < (G.ins p).length := List.idxOf_lt_length_iff.2 hc
        rw [b2 _ (by show _ < h1.next; omega), (w.inOk p hpG c hc).1]
        refine a4 _ c ?_
        rw [List.getElem?_eq_getElem hlt, List.getElem_idxOf]
      · rw [idx2 c hc]
        exact b5 c hc

/-- The state between the second loop and the end: the original, and the copy with its incoming connections. -/
structure Mid (base : Nat) (G : Graph F) (f g : Nat → Nat) (h : Heap F) : Prop where
  oldN : ∀ p ∈ G.nodes, p < base ∧ ∃ b, h.nd p = some (G.nd p b)
  oldC : ∀ c ∈ G.conns, c < base ∧ h.cn c = some (G.cn c)
  newN : ∀ p ∈ G.nodes, base ≤ f p ∧ ∃ o, h.nd (f p) = some { G.wired g p with outs := o }
  newC : ∀ c ∈ G.conns, base ≤ g c ∧ ∃ s, h.cn (g c) = some { G.half (f (G.dst c)) c with src := s }

theorem findNode_spec {base : Nat} {G : Graph F} {f g : Nat → Nat} {h : Heap F} (w : G.Wf) (M : Mid base G f g h) {d : Nat} (hdG : d ∈ G.nodes) : ∀ ps : List Nat, (∀ p ∈ ps, p ∈ G.nodes) → d ∈ ps →
    findNode h (G.node d).1 (ps.map f) = some (some (f d))
  | [], _, hd => by simp at hd
  | p :: ps, hm, hd => by
    obtain ⟨_, o, hN⟩ := M.newN p (hm p (by simp))
    rw [List.map_cons, findNode, hN, Option.bind_some]
    by_cases hdp : (G.node d).1 = (G.node p).1
    · have := w.numbers d hdG p (hm p (by simp)) hdp
      subst this
      exact if_pos hdp
    · refine (if_neg hdp).trans ?_
      refine findNode_spec w M hdG ps (fun q hq => hm q (by simp [hq])) ?_
      rcases List.mem_cons.1 hd with rfl | hd
      · exact absurd rfl hdp
      · exact hd

theorem findConn_spec {base : Nat} {G : Graph F} {f g : Nat → Nat} {h : Heap F} (w : G.Wf) (M : Mid base G f g h) {c : Nat} (hcG : c ∈ G.conns) : ∀ cs : List Nat, (∀ e ∈ cs, e ∈ G.conns) → c ∈ cs →
    findConn h (G.conn c).1 (cs.map fun e => some (g e)) = some (some (g c))
  | [], _, hd => by simp at hd
  | e :: cs, hm, hd => by
    obtain ⟨_, s, hE⟩ := M.newC e (hm e (by simp))
    rw [List.map_cons, findConn, Option.bind_some, hE, Option.bind_some]
    by_cases hce : (G.conn e).1 = (G.conn c).1
    · have := w.connNumbers e (hm e (by simp)) c hcG hce
      subst this
      exact if_pos hce
    · refine (if_neg hce).trans ?_
      refine findConn_spec w M hcG cs (fun q hq => hm q (by simp [hq])) ?_
      rcases List.mem_cons.1 hd with rfl | hd
      · exact absurd rfl hce
      · exact hd

theorem link_spec {base : Nat} {G : Graph F} {f g : Nat → Nat} {h : Heap F} (w : G.Wf) (M : Mid base G f g h) (hg : ∀ c ∈ G.conns, ∀ e ∈ G.conns, g c = g e → c = e)
    {p c : Nat} (hp : p ∈ G.nodes) (hc : c ∈ G.outs p) :
    ∃ h', link (G.nodes.map f) (f p) (some c) h = some (h', some (g c)) ∧ Mid base G f g h' ∧ h'.nd = h.nd ∧ h'.next = h.next ∧
      (∀ a, a ≠ g c → h'.cn a = h.cn a) ∧ h'.cn (g c) = some { G.half (f (G.dst c)) c with src := some (f p) } := by
  have hcG := w.mem_outs hp hc
  obtain ⟨-, hd, hcd⟩ := w.outOk p hp c hc
  obtain ⟨-, b, hD⟩ := M.oldN _ hd
  obtain ⟨-, o, hK⟩ := M.newN _ hd
  obtain ⟨hge, s, hE⟩ := M.newC c hcG
  have e1 := findNode_spec w M hd G.nodes (fun _ h => h) hd
  have e2 := findConn_spec w M hcG (G.ins (G.dst c)) (fun e he => mem_conns hd he) hcd
  refine ⟨⟨h.next, h.nd, Function.update h.cn (g c) (some { G.half (f (G.dst c)) c with src := some (f p) })⟩, ?_, ⟨M.oldN, ?_, M.newN, ?_⟩, rfl, rfl, ?_, Function.update_self _ _ _⟩
  · rw [link, Option.bind_some, (M.oldC c hcG).2, Option.bind_some]
    show (some (G.dst c)).bind _ = _
    rw [Option.bind_some, hD, Option.bind_some]
    show (findNode h (G.node (G.dst c)).1 (G.nodes.map f)).bind _ = _
    rw [e1, Option.bind_some]
    show (h.nd (f (G.dst c))).bind _ = _
    rw [hK, Option.bind_some]
    show (findConn h (G.conn c).1 ((G.ins (G.dst c)).map fun e => some (g e))).bind _ = _
    rw [e2, Option.bind_some]
    show (h.cn (g c)).bind _ = _
    rw [hE, Option.bind_some]
  · intro e he
    obtain ⟨h1, h2⟩ := M.oldC e he
    exact ⟨h1, (Function.update_of_ne (by omega) _ _).trans h2⟩
  · intro e he
    obtain ⟨h1, s, h2⟩ := M.newC e he
    refine ⟨h1, ?_⟩
    by_cases hec : e = c
    · subst hec
      exact ⟨_, Function.update_self _ _ _⟩
    · exact ⟨s, (Function.update_of_ne (fun hh => hec (hg e he c hcG hh)) _ _).trans h2⟩
  · intro a ha
    exact Function.update_of_ne ha _ _

theorem linkAll_spec {base : Nat} {G : Graph F} {f g : Nat → Nat} (w : G.Wf) (hg : ∀ c ∈ G.conns, ∀ e ∈ G.conns, g c = g e → c = e) {p : Nat} (hp : p ∈ G.nodes) :
    ∀ (cs : List Nat) (h : Heap F), Mid base G f g h → (∀ c ∈ cs, c ∈ G.outs p) → cs.Nodup →
    ∃ h', linkAll (G.nodes.map f) (f p) (cs.map some) h = some (h', cs.map fun c => some (g c)) ∧ Mid base G f g h' ∧ h'.nd = h.nd ∧ h'.next = h.next ∧
      (∀ a, (∀ c ∈ cs, a ≠ g c) → h'.cn a = h.cn a) ∧ ∀ c ∈ cs, h'.cn (g c) = some { G.half (f (G.dst c)) c with src := some (f p) }
  | [], h, M, _, _ => ⟨h, rfl, M, rfl, rfl, fun _ _ => rfl, by simp⟩
  | c :: cs, h, M, hm, nd => by
    obtain ⟨hcc, nd'⟩ := List.nodup_cons.1 nd
    obtain ⟨h1, e1, M1, a1, a2, a3, a4⟩ := link_spec w M hg hp (hm c (by simp))
    obtain ⟨h2, e2, M2, b1, b2, b3, b4⟩ := linkAll_spec w hg hp cs h1 M1 (fun d hd => hm d (by simp [hd])) nd'
    refine ⟨h2, ?_, M2, b1.trans a1, b2.trans a2, ?_, ?_⟩
    · rw [List.map_cons, linkAll, e1, Option.bind_some, e2, Option.bind_some, List.map_cons]
    · intro a ha
      rw [b3 a (fun d hd => ha d (by simp [hd])), a3 a (ha c (by simp))]
    · intro d hd
      rcases List.mem_cons.1 hd with rfl | hd
      · rw [b3 (g d) (fun e he hh => hcc (hg d (w.mem_outs hp (hm d (by simp))) e (w.mem_outs hp (hm e (by simp [he]))) hh ▸ he))]
        exact a4
      · exact b4 d hd

theorem linkNodes_spec {base : Nat} {G : Graph F} {f g : Nat → Nat} (w : G.Wf) (hf : ∀ p ∈ G.nodes, ∀ q ∈ G.nodes, f p = f q → p = q) (hg : ∀ c ∈ G.conns, ∀ e ∈ G.conns, g c = g e → c = e) :
    ∀ (xs : List Nat) (h : Heap F), Mid base G f g h → (∀ p ∈ xs, p ∈ G.nodes) → xs.Nodup →
    ∃ h', linkNodes (G.nodes.map f) (xs.map fun p => (p, f p)) h = some h' ∧ Mid base G f g h' ∧ h'.next = h.next ∧
      (∀ a, (∀ p ∈ xs, a ≠ f p) → h'.nd a = h.nd a) ∧ (∀ a, (∀ p ∈ xs, ∀ c ∈ G.outs p, a ≠ g c) → h'.cn a = h.cn a) ∧
      (∀ p ∈ xs, h'.nd (f p) = some { G.wired g p with outs := (G.outs p).map fun c => some (g c) }) ∧
      ∀ p ∈ xs, ∀ c ∈ G.outs p, h'.cn (g c) = some { G.half (f (G.dst c)) c with src := some (f p) }
  | [], h, M, _, _ => ⟨h, rfl, M, rfl, fun _ _ => rfl, fun _ _ => rfl, by simp, by simp⟩
  | p :: xs, h, M, hm, nd => by
    obtain ⟨hpx, nd'⟩ := List.nodup_cons.1 nd
    have hp := hm p (by simp)
    obtain ⟨-, b, hN⟩ := M.oldN p hp
    obtain ⟨h1, e1, M1, a1, a2, a3, a4⟩ := linkAll_spec w hg hp (G.outs p) h M (fun _ hc => hc) (w.outsNodup p hp)
    obtain ⟨hfp, o, hQ⟩ := M1.newN p hp
    have e2 : setOuts (f p) ((G.outs p).map fun c => some (g c)) h1 =
        some ⟨h1.next, Function.update h1.nd (f p) (some { G.wired g p with outs := (G.outs p).map fun c => some (g c) }), h1.cn⟩ := by
      rw [setOuts, hQ, Option.bind_some]
    have M2 : Mid base G f g (⟨h1.next, Function.update h1.nd (f p) (some { G.wired g p with outs := (G.outs p).map fun c => some (g c) }), h1.cn⟩ : Heap F) := by
      refine ⟨?_, M1.oldC, ?_, M1.newC⟩
      · intro q hq
        obtain ⟨h2, b, h3⟩ := M1.oldN q hq
        exact ⟨h2, b, (Function.update_of_ne (by omega) _ _).trans h3⟩
      · intro q hq
        obtain ⟨h2, o, h3⟩ := M1.newN q hq
        refine ⟨h2, ?_⟩
        by_cases hqp : q = p
        · subst hqp
          exact ⟨_, Function.update_self _ _ _⟩
        · exact ⟨o, (Function.update_of_ne (fun hh => hqp (hf q hq p hp hh)) _ _).trans h3⟩
    obtain ⟨h3, e3, M3, b1, b2, b3, b4, b5⟩ := linkNodes_spec w hf hg xs _ M2 (fun q hq => hm q (by simp [hq])) nd'
    refine ⟨h3, ?_, M3, b1.trans a2, ?_, ?_, ?_, ?_⟩
    · rw [List.map_cons, linkNodes, hN, Option.bind_some]
      show (linkAll (G.nodes.map f) (f p) ((G.outs p).map some) h).bind _ = _
      rw [e1, Option.bind_some]
      show (setOuts (f p) _ h1).bind _ = _
      rw [e2, Option.bind_some, e3]
    · intro a ha
      rw [b2 a (fun q hq => ha q (by simp [hq]))]
      exact (Function.update_of_ne (ha p (by simp)) _ _).trans (by rw [a1])
    · intro a ha
      rw [b3 a (fun q hq => ha q (by simp [hq]))]
      exact a3 a (ha p (by simp))
    · intro q hq
      rcases List.mem_cons.1 hq with rfl | hq
      · rw [b2 (f q) (fun r hr hh => hpx (hf q hp r (hm r (by simp [hr])) hh ▸ hr))]
        exact Function.update_self _ _ _
      · exact b4 q hq
    · intro q hq c hc
      rcases List.mem_cons.1 hq with rfl | hq
      · rw [b3 (g c) (fun r hr e he hh => ?_)]
        · exact a4 c hc
        · have hr' := hm r (by simp [hr])
          have hce := hg c (w.mem_outs hp hc) e (w.mem_outs hr' he) hh
          subst hce
          have : q = r := (w.outOk q hp c hc).1.symm.trans (w.outOk r hr' c he).1
          exact hpx (this ▸ hr)
      · exact b5 q hq c hc

theorem renamed_exists (G : Graph F) (f g : Nat → Nat) (hf : ∀ p ∈ G.nodes, ∀ q ∈ G.nodes, f p = f q → p = q) (hg : ∀ c ∈ G.conns, ∀ e ∈ G.conns, g c = g e → c = e) :
    ∃ G', Renamed f g G G' := by
  classical
  have inv : ∀ (l : List Nat) (k : Nat → Nat), (∀ p ∈ l, ∀ q ∈ l, k p = k q → p = q) → ∃ k' : Nat → Nat, ∀ p ∈ l, k' (k p) = p := by
    intro l k hk
    refine ⟨fun a => if h : ∃ p ∈ l, k p = a then h.choose else 0, fun p hp => ?_⟩
    have hex : ∃ q ∈ l, k q = k p := ⟨p, hp, rfl⟩
    show (if h : ∃ q ∈ l, k q = k p then h.choose else 0) = p
    rw [dif_pos hex]
    exact hk _ hex.choose_spec.1 p hp hex.choose_spec.2
  obtain ⟨f', hf'⟩ := inv G.nodes f hf
  obtain ⟨g', hg'⟩ := inv G.conns g hg
  refine ⟨⟨G.nodes.map f, fun a => G.node (f' a), fun a => (G.ins (f' a)).map g, fun a => (G.outs (f' a)).map g, fun e => G.conn (g' e), fun e => f (G.src (g' e)), fun e => f (G.dst (g' e))⟩,
    rfl, ?_, ?_, hf, hg⟩
  · intro p hp
    exact ⟨congrArg G.node (hf' p hp), congrArg (fun a => (G.ins a).map g) (hf' p hp), congrArg (fun a => (G.outs a).map g) (hf' p hp)⟩
  · intro c hc
    exact ⟨congrArg G.conn (hg' c hc), congrArg (fun a => f (G.src a)) (hg' c hc), congrArg (fun a => f (G.dst a)) (hg' c hc)⟩

theorem Renamed.mem_conns {f g : Nat → Nat} {G G' : Graph F} (r : Renamed f g G G') {e : Nat} (he : e ∈ G'.conns) : ∃ c ∈ G.conns, g c = e := by
  obtain ⟨q, hq, heq⟩ := List.mem_flatMap.1 he
  rw [r.nodes] at hq
  obtain ⟨p, hp, rfl⟩ := List.mem_map.1 hq
  rw [(r.node p hp).2.1] at heq
  obtain ⟨c, hc, rfl⟩ := List.mem_map.1 heq
  exact ⟨c, Life.mem_conns hp hc, rfl⟩

theorem Renamed.wf {f g : Nat → Nat} {G G' : Graph F} (r : Renamed f g G G') (w : G.Wf) : G'.Wf := by
  have nodeOf : ∀ q ∈ G'.nodes, ∃ p ∈ G.nodes, f p = q := by
    intro q hq
    rw [r.nodes] at hq
    exact List.mem_map.1 hq
  refine ⟨?_, ?_, ?_, ?_, ?_, ?_, ?_⟩
  · rw [r.nodes]
    exact (List.nodup_map_iff_inj_on w.nodup).2 r.nodeInj
  · intro q1 h1 q2 h2 he
    obtain ⟨p1, hp1, rfl⟩ := nodeOf q1 h1
    obtain ⟨p2, hp2, rfl⟩ := nodeOf q2 h2
    rw [(r.node p1 hp1).1, (r.node p2 hp2).1] at he
    rw [w.numbers p1 hp1 p2 hp2 he]
  · intro q hq
    obtain ⟨p, hp, rfl⟩ := nodeOf q hq
    rw [(r.node p hp).2.1]
    exact (List.nodup_map_iff_inj_on (w.insNodup p hp)).2 (fun c hc e he => r.connInj c (Life.mem_conns hp hc) e (Life.mem_conns hp he))
  · intro q hq
    obtain ⟨p, hp, rfl⟩ := nodeOf q hq
    rw [(r.node p hp).2.2]
    exact (List.nodup_map_iff_inj_on (w.outsNodup p hp)).2 (fun c hc e he => r.connInj c (w.mem_outs hp hc) e (w.mem_outs hp he))
  · intro q hq c' hc'
    obtain ⟨p, hp, rfl⟩ := nodeOf q hq
    rw [(r.node p hp).2.1] at hc'
    obtain ⟨c, hc, rfl⟩ := List.mem_map.1 hc'
    obtain ⟨h1, h2, h3⟩ := w.inOk p hp c hc
    obtain ⟨-, k2, k3⟩ := r.conn c (Life.mem_conns hp hc)
    rw [k2, k3, h1, r.nodes, (r.node _ h2).2.2]
    exact ⟨rfl, List.mem_map_of_mem h2, List.mem_map_of_mem h3⟩
  · intro q hq c' hc'
    obtain ⟨p, hp, rfl⟩ := nodeOf q hq
    rw [(r.node p hp).2.2] at hc'
    obtain ⟨c, hc, rfl⟩ := List.mem_map.1 hc'
    obtain ⟨h1, h2, h3⟩ := w.outOk p hp c hc
    obtain ⟨-, k2, k3⟩ := r.conn c (w.mem_outs hp hc)
    rw [k2, k3, h1, r.nodes, (r.node _ h2).2.1]
    exact ⟨rfl, List.mem_map_of_mem h2, List.mem_map_of_mem h3⟩
  · intro e1 h1 e2 h2 he
    obtain ⟨c1, hc1, rfl⟩ := r.mem_conns h1
    obtain ⟨c2, hc2, rfl⟩ := r.mem_conns h2
    rw [(r.conn c1 hc1).1, (r.conn c2 hc2).1] at he
    rw [w.connNumbers c1 hc1 c2 hc2 he]

/-- **C165 (copying).** Copying a genome gives the same graph on new nodes and new connections: numbers, values, weights, flags and the
order in every array are the same, and each pointer goes to the copy of what the original's goes to. The original and everything
else in memory stay as they are. The `bias_flag` of the new nodes is not written, see `C165_bias_refuted`. -/
theorem C165_copy_partial {h : Heap F} {G : Graph F} (w : G.Wf) (hh : Holds h G) :
    ∃ h' G' f g, copyGenome G.nodes h = some (h', G'.nodes) ∧ Holds h' G' ∧ G'.Wf ∧ Renamed f g G G' ∧ Holds h' G ∧
      (∀ q ∈ G'.nodes, h.next ≤ q ∧ h'.nd q = some (G'.nd q none)) ∧ (∀ e ∈ G'.conns, h.next ≤ e) ∧
      ∀ a < h.next, h'.nd a = h.nd a ∧ h'.cn a = h.cn a := by
  obtain ⟨h1, e1, a1, a2, a3, a4⟩ := cloneNodes_spec G G.nodes h hh.node
  rw [range_map_idx w.nodup] at e1
  have hf : ∀ p ∈ G.nodes, ∀ q ∈ G.nodes, h.next + G.nodes.idxOf p = h.next + G.nodes.idxOf q → p = q :=
    fun p hp q hq he => idxOf_inj hp hq (by omega)
  have hg : ∀ c ∈ G.conns, ∀ e ∈ G.conns, h1.next + G.conns.idxOf c = h1.next + G.conns.idxOf e → c = e :=
    fun p hp q hq he => idxOf_inj hp hq (by omega)
  have hflt : ∀ p ∈ G.nodes, h.next + G.nodes.idxOf p < h1.next := by
    intro p hp
    have := List.idxOf_lt_length_iff.2 hp
    omega
  obtain ⟨h2, e2, b1, b2, b3, b4, b5⟩ := cloneAllIns_spec w (fun p => h.next + G.nodes.idxOf p) hf
    (fun p hp q hq => by have := (hh.node p hp).1; omega) G.nodes h1 w.nodup (fun _ hp => hp)
    (fun p hp => by
      obtain ⟨hl, b, hb⟩ := hh.node p hp
      exact ⟨b, (a3 p hl).trans hb⟩)
    (fun p hp => a4 _ p (by rw [List.getElem?_eq_getElem (List.idxOf_lt_length_iff.2 hp), List.getElem_idxOf]))
    (fun c hc => by
      obtain ⟨hl, hb⟩ := hh.conn c hc
      exact ⟨by omega, by rw [a2]; exact hb⟩)
  have M : Mid h.next G (fun p => h.next + G.nodes.idxOf p) (fun c => h1.next + G.conns.idxOf c) h2 := by
    refine ⟨?_, ?_, ?_, ?_⟩
    · intro p hp
      obtain ⟨hl, b, hb⟩ := hh.node p hp
      refine ⟨hl, b, ?_⟩
      rw [b3 p (fun q _ => by omega), a3 p hl]
      exact hb
    · intro c hc
      obtain ⟨hl, hb⟩ := hh.conn c hc
      refine ⟨hl, ?_⟩
      rw [b2 c (by omega), a2]
      exact hb
    · intro p hp
      exact ⟨by omega, _, b4 p hp⟩
    · intro c hc
      exact ⟨by omega, _, b5 c hc⟩
  obtain ⟨h3, e3, M3, c1, c2, c3, c4, c5⟩ := linkNodes_spec w hf hg G.nodes h2 M (fun _ hp => hp) w.nodup
  obtain ⟨G', r⟩ := renamed_exists G (fun p => h.next + G.nodes.idxOf p) (fun c => h1.next + G.conns.idxOf c) hf hg
  have hlen : h3.next = h1.next + G.conns.length := c1.trans b1
  have hG'n : ∀ q ∈ G'.nodes, ∃ p ∈ G.nodes, h.next + G.nodes.idxOf p = q := by
    intro q hq
    rw [r.nodes] at hq
    exact List.mem_map.1 hq
  have hnd : ∀ q ∈ G'.nodes, h3.nd q = some (G'.nd q none) := by
    intro q hq
    obtain ⟨p, hp, rfl⟩ := hG'n q hq
    obtain ⟨r1, r2, r3⟩ := r.node p hp
    rw [c4 p hp, Graph.nd, r1, r2, r3, List.map_map, List.map_map]
    rfl
  refine ⟨h3, G', _, _, ?_, ⟨?_, ?_⟩, r.wf w, r, ⟨?_, ?_⟩, ?_, ?_, ?_⟩
  · rw [copyGenome, e1, Option.bind_some]
    simp only
    rw [zip_map_self, e2, Option.bind_some, e3, Option.bind_some, r.nodes]
  · intro q hq
    refine ⟨?_, none, hnd q hq⟩
    obtain ⟨p, hp, rfl⟩ := hG'n q hq
    have := hflt p hp
    omega
  · intro e he
    obtain ⟨c, hc, rfl⟩ := r.mem_conns he
    obtain ⟨p, hp, hcp⟩ := List.mem_flatMap.1 hc
    obtain ⟨i1, i2, i3⟩ := w.inOk p hp c hcp
    obtain ⟨r1, r2, r3⟩ := r.conn c hc
    have := List.idxOf_lt_length_iff.2 hc
    refine ⟨by omega, ?_⟩
    rw [c5 _ i2 c i3, Graph.cn, r1, r2, r3]
    rfl
  · intro p hp
    obtain ⟨hl, hb⟩ := M3.oldN p hp
    exact ⟨by omega, hb⟩
  · intro c hc
    obtain ⟨hl, hb⟩ := M3.oldC c hc
    exact ⟨by omega, hb⟩
  · intro q hq
    refine ⟨?_, hnd q hq⟩
    obtain ⟨p, hp, rfl⟩ := hG'n q hq
    omega
  · intro e he
    obtain ⟨c, hc, rfl⟩ := r.mem_conns he
    omega
  · intro a ha
    refine ⟨?_, ?_⟩
    · rw [c2 a (fun p _ => by omega), b3 a (fun p _ => by omega), a3 a ha]
    · rw [c3 a (fun p _ c _ => by omega), b2 a (by omega), a2]

/-- **C165 (a copy is independent).** After copying, either of the two genomes can be freed; the other is then still there, unchanged, and
can be freed too. -/
theorem C165_independent {h : Heap F} {G : Graph F} (w : G.Wf) (hh : Holds h G) (glob : Nat) (hb : ∀ c ∈ G.conns, 0 < (G.conn c).1 ∧ (G.conn c).1 ≤ glob) :
    ∃ (h1 : Heap F) (G' : Graph F), copyGenome G.nodes h = some (h1, G'.nodes) ∧ Holds h1 G' ∧
      (∃ h2 h3, freeGenome glob G.nodes h1 = some h2 ∧ (∀ q ∈ G'.nodes, h2.nd q = h1.nd q) ∧ (∀ e ∈ G'.conns, h2.cn e = h1.cn e) ∧ freeGenome glob G'.nodes h2 = some h3) ∧
      ∃ h2 h3, freeGenome glob G'.nodes h1 = some h2 ∧ (∀ p ∈ G.nodes, h2.nd p = h.nd p) ∧ (∀ c ∈ G.conns, h2.cn c = h.cn c) ∧ freeGenome glob G.nodes h2 = some h3 := by
  obtain ⟨h1, G', f, g, e, hh', w', r, hG, hn, hc, fr⟩ := C165_copy_partial w hh
  have hb' : ∀ e ∈ G'.conns, 0 < (G'.conn e).1 ∧ (G'.conn e).1 ≤ glob := by
    intro e he
    obtain ⟨c, hc, rfl⟩ := r.mem_conns he
    rw [(r.conn c hc).1]
    exact hb c hc
  have keep : ∀ A B : Graph F, A.Wf → Holds h1 A → B.Wf → Holds h1 B → (∀ c ∈ A.conns, 0 < (A.conn c).1 ∧ (A.conn c).1 ≤ glob) →
      (∀ c ∈ B.conns, 0 < (B.conn c).1 ∧ (B.conn c).1 ≤ glob) → (∀ q ∈ B.nodes, q ∉ A.nodes) → (∀ q ∈ B.conns, q ∉ A.conns) →
      ∃ h2 h3, freeGenome glob A.nodes h1 = some h2 ∧ (∀ q ∈ B.nodes, h2.nd q = h1.nd q) ∧ (∀ e ∈ B.conns, h2.cn e = h1.cn e) ∧ freeGenome glob B.nodes h2 = some h3 := by
    intro A B wA hA wB hB bA bB d1 d2
    obtain ⟨h2, e2, -, -, g1, g2⟩ := C165_free wA hA glob bA
    have hB2 : Holds (⟨h1.next, h2.nd, h2.cn⟩ : Heap F) B :=
      ⟨fun p hp => ⟨(hB.node p hp).1, by obtain ⟨b, hb⟩ := (hB.node p hp).2; exact ⟨b, (g1 p (d1 p hp)).trans hb⟩⟩,
        fun c hc => ⟨(hB.conn c hc).1, (g2 c (d2 c hc)).trans (hB.conn c hc).2⟩⟩
    obtain ⟨h1', l, e1', n1, c2, c3, c4, c5, c6, c7, c8⟩ := freeNodes_spec wB glob bB B.nodes h2 ([], []) wB.nodup (fun _ hp => hp) (fun p hp => (hB2.node p hp).2)
      (fun c hc => (hB2.conn c hc).2) rfl List.nodup_nil (by simp)
    obtain ⟨h3, e3, -⟩ := freeConns_spec l.reverse h1' (List.nodup_reverse.2 c5) (by
      intro c hc
      rw [List.mem_reverse] at hc
      rw [c2]
      have := (hB2.conn c (c6 c hc)).2
      show h2.cn c ≠ none
      rw [show h2.cn c = some (B.cn c) from this]
      simp)
    exact ⟨h2, h3, e2, fun q hq => g1 q (d1 q hq), fun q hq => g2 q (d2 q hq), by rw [freeGenome, e1', Option.bind_some, e3]⟩
  refine ⟨h1, G', e, hh', ?_, ?_⟩
  · exact keep G G' w hG w' hh' hb hb' (fun q hq hq' => by have := (hn q hq).1; have := (hh.node q hq').1; omega)
      (fun q hq hq' => by have := hc q hq; have := (hh.conn q hq').1; omega)
  · obtain ⟨h2, h3, k1, k2, k3, k4⟩ := keep G' G w' hh' w hG hb' hb (fun q hq hq' => by have := (hn q hq').1; have := (hh.node q hq).1; omega)
      (fun q hq hq' => by have := hc q hq'; have := (hh.conn q hq).1; omega)
    exact ⟨h2, h3, k1, fun p hp => (k2 p hp).trans (fr p (hh.node p hp).1).1, fun c hc => (k3 c hc).trans (fr c (hh.conn c hc).1).2, k4⟩

/-- **C165 (refuted: a bias of a copy).** Switching on a bias in a copied genome reads memory that was never written, whatever the
original holds and in whatever order the nodes are tried: `copy_genome` does not copy `bias_flag`. -/
theorem C165_bias_refuted {h : Heap F} {G : Graph F} (w : G.Wf) (hh : Holds h G) :
    ∃ h' qs, copyGenome G.nodes h = some (h', qs) ∧ qs.length = G.nodes.length ∧ ∀ sh : List Nat, sh.Perm qs → sh ≠ [] → activateBias sh h' = none := by
  obtain ⟨h1, G', f, g, e, hh', w', r, hG, hn, hc, fr⟩ := C165_copy_partial w hh
  refine ⟨h1, G'.nodes, e, by rw [r.nodes, List.length_map], ?_⟩
  intro sh hp hne
  cases sh with
  | nil => exact absurd rfl hne
  | cons q sh =>
    rw [activateBias, (hn q (hp.mem_iff.1 (by simp))).2]
    rfl

/-! ### A genome that meets the hypotheses -/

/-- Three nodes, numbers 1 to 3, at addresses 0 to 2, and two connections into the third, at addresses 3 and 4. -/
def sample : Graph Rat :=
  ⟨[0, 1, 2], fun p => (p + 1, 0, 0), fun p => if p = 2 then [3, 4] else [], fun p => if p = 0 then [3] else if p = 1 then [4] else [],
    fun c => (c - 2, true, 1), fun c => if c = 3 then 0 else 1, fun _ => 2⟩

/-- The memory it lies in. -/
def sampleHeap : Heap Rat := ⟨5, fun a => if a < 3 then some (sample.nd a none) else none, fun a => if a = 3 ∨ a = 4 then some (sample.cn a) else none⟩

example : sample.Wf ∧ Holds sampleHeap sample ∧ ∀ c ∈ sample.conns, 0 < (sample.conn c).1 ∧ (sample.conn c).1 ≤ 2 := by
  refine ⟨⟨?_, ?_, ?_, ?_, ?_, ?_, ?_⟩, ⟨?_, ?_⟩, ?_⟩
  · decide
  · decide
  · decide
  · decide
  · decide
  · decide
  · decide
  · intro p hp
    have : p = 0 ∨ p = 1 ∨ p = 2 := by simpa [sample] using hp
    rcases this with rfl | rfl | rfl <;> exact ⟨by decide, none, rfl⟩
  · intro c hc
    have : c = 3 ∨ c = 4 := by simpa [sample, Graph.conns] using hc
    rcases this with rfl | rfl <;> exact ⟨by decide, rfl⟩
  · decide

end LLab.Neat.Life
