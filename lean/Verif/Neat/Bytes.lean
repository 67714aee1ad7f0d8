import Verif.Neat.History

/-!
Genomes as arrays (`/repo/src/neat_utils.c`): `get_genome_array` (179-248),
`get_genome_array_size` (251-257), `init_genome_from_array` (259-364). Property C54.

The array is a list of 4-byte cells, each an `int` or a `float`; `convert_data` is the
identity (it is on a little-endian machine). Reading a cell as the other kind is `none`,
and so are writing outside an allocated list, following an endpoint that was not found,
and a connection list with entries never written.
-/

namespace LLab.Neat

/-- Four bytes. -/
inductive Cell (α : Type)
  | int (n : Nat)
  | flt (x : α)
deriving DecidableEq

/-- One connection in the array (`/repo/src/neat_utils.c` 222-243). -/
def connCells {α : Type} (c : Conn α) : List (Cell α) :=
  [.int c.inn, .int c.src, .int c.dst, .flt c.weight, .int (if c.flag then 1 else 0)]

/-- One node in the array (`/repo/src/neat_utils.c` 201-214). -/
def nodeCells {α : Type} (g : Genome α) (v : Nat) : List (Cell α) := [.int (ins g v).length, .int (outs g v).length, .int v]

/-- `get_genome_array` (`/repo/src/neat_utils.c` 179-248); `fitness` is the genome's
fitness. -/
def toArray {α : Type} (g : Genome α) (fitness : α) : List (Cell α) :=
  [.int g.nIn, .int g.nOut, .int g.nodes.length, .flt fitness] ++ (g.nodes.flatMap (nodeCells g) ++
    (.int (getConns g).length :: (getConns g).flatMap connCells))

/-- `get_genome_array_size` (`/repo/src/neat_utils.c` 251-257), with `sizeof(int)` and
`sizeof(float)` 4. -/
def arraySize {α : Type} (g : Genome α) : Nat :=
  4 * 3 + 4 * 3 * g.nodes.length + 4 + 4 * 4 * (getConns g).length + 4 + 4 * (getConns g).length

/-- The loop reading the nodes (`/repo/src/neat_utils.c` 284-300): sizes of the two
lists, and the number. -/
def readNodes {α : Type} : Nat → List (Cell α) → Option (List (Nat × Nat × Nat) × List (Cell α))
  | 0, l => some ([], l)
  | n + 1, .int a :: .int b :: .int v :: l => (readNodes n l).bind fun r => some ((a, b, v) :: r.1, r.2)
  | _ + 1, _ => none

/-- The loop reading the connections (`/repo/src/neat_utils.c` 306-334) into the array of
`global_inn_numb_connections` pointers. -/
def readConns {α : Type} (nodes : List Nat) : Nat → List (Cell α) → List (Option (Conn α)) → Option (List (Option (Conn α)))
  | 0, _, slots => some slots
  | n + 1, .int k :: .int s :: .int d :: .flt w :: .int f :: l, slots =>
    if k = 0 ∨ slots.length < k ∨ s ∉ nodes ∨ d ∉ nodes then none
    else readConns nodes n l (slots.set (k - 1) (some ⟨k, s, d, w, decide (f ≠ 0)⟩))
  | _ + 1, _, _ => none

/-- `init_genome_from_array` (`/repo/src/neat_utils.c` 259-364): the genome and its
fitness. -/
def fromArray {α : Type} (G : Nat) (l : List (Cell α)) : Option (Genome α × α) :=
  match l with
  | .int i :: .int o :: .int n :: .flt fit :: l =>
    (readNodes n l).bind fun r =>
      match r.2 with
      | .int m :: l =>
        (readConns (r.1.map fun x => x.2.2) m l (List.replicate G none)).bind fun slots =>
          let conns := slots.filterMap id
          if ∀ x ∈ r.1, (conns.filter fun c => c.dst = x.2.2).length = x.1 ∧ (conns.filter fun c => c.src = x.2.2).length = x.2.1 then
            some (⟨i, o, r.1.map fun x => x.2.2, conns⟩, fit)
          else none
      | _ => none
  | _ => none

/-! ### Proofs -/

theorem readNodes_cells {α : Type} (g : Genome α) (vs : List Nat) (l : List (Cell α)) :
    readNodes vs.length (vs.flatMap (nodeCells g) ++ l) = some (vs.map fun v => ((ins g v).length, (outs g v).length, v), l) := by
  induction vs with
  | nil => rfl
  | cons v vs ih =>
    rw [List.flatMap_cons, List.append_assoc]
    show (readNodes vs.length (vs.flatMap (nodeCells g) ++ l)).bind _ = _
    rw [ih]
    rfl

theorem filterMap_set {β : Type} (l : List (Option β)) (k : Nat) (x : β) (h : l[k]? = some none) :
    ((l.set k (some x)).filterMap id).Perm (x :: l.filterMap id) := by
  induction l generalizing k with
  | nil => simp at h
  | cons a l ih =>
    cases k with
    | zero =>
      simp only [List.getElem?_cons_zero, Option.some.injEq] at h
      subst h
      exact List.Perm.refl _
    | succ k =>
      rw [List.getElem?_cons_succ] at h
      rw [List.set_cons_succ]
      have := ih k h
      cases a with
      | none => exact this
      | some a => exact (List.Perm.cons a this).trans (List.Perm.swap _ _ _)

theorem readConns_cells {α : Type} (nodes : List Nat) (cs : List (Conn α)) (slots : List (Option (Conn α)))
    (hn : (cs.map Conn.inn).Nodup) (hk : ∀ c ∈ cs, 1 ≤ c.inn ∧ c.inn ≤ slots.length ∧ c.src ∈ nodes ∧ c.dst ∈ nodes)
    (hs : ∀ c ∈ cs, slots[c.inn - 1]? = some none) :
    ∃ out, readConns nodes cs.length (cs.flatMap connCells) slots = some out ∧ (out.filterMap id).Perm (cs ++ slots.filterMap id) := by
  induction cs generalizing slots with
  | nil => exact ⟨slots, rfl, List.Perm.refl _⟩
  | cons c cs ih =>
    obtain ⟨h1, h2, h3, h4⟩ := hk c (by simp)
    rw [List.map_cons, List.nodup_cons] at hn
    have hflag : decide ((if c.flag then 1 else 0) ≠ 0) = c.flag := by cases c.flag <;> rfl
    have hc : (⟨c.inn, c.src, c.dst, c.weight, decide ((if c.flag then 1 else 0) ≠ 0)⟩ : Conn α) = c := Conn.ext rfl rfl rfl rfl hflag
    obtain ⟨out, e, hp⟩ := ih (slots.set (c.inn - 1) (some c)) hn.2
      (fun x hx => by
        rw [List.length_set]
        exact hk x (by simp [hx]))
      (fun x hx => by
        have hne : x.inn ≠ c.inn := fun he => hn.1 (List.mem_map.2 ⟨x, hx, he⟩)
        have hx1 := (hk x (by simp [hx])).1
        rw [List.getElem?_set_ne (by omega)]
        exact hs x (by simp [hx]))
    refine ⟨out, ?_, hp.trans ?_⟩
    · show (if c.inn = 0 ∨ slots.length < c.inn ∨ c.src ∉ nodes ∨ c.dst ∉ nodes then none
        else readConns nodes cs.length (cs.flatMap connCells)
          (slots.set (c.inn - 1) (some ⟨c.inn, c.src, c.dst, c.weight, decide ((if c.flag then 1 else 0) ≠ 0)⟩))) = some out
      rw [if_neg (by
        rintro (h | h | h | h)
        · omega
        · omega
        · exact h h3
        · exact h h4), hc]
      exact e
    · refine (List.Perm.append_left _ (filterMap_set slots (c.inn - 1) c (hs c (by simp)))).trans ?_
      exact List.perm_middle

/-- **C54.** For every genome whose connections have distinct numbers between 1 and the
global counter and join nodes of the genome, the array has the advertised size, and
rebuilding from it gives a genome with the same inputs, outputs, nodes, connections and
fitness. -/
theorem C54_roundtrip {α : Type} (g : Genome α) (fitness : α) (G : Nat) (hn : (g.conns.map Conn.inn).Nodup)
    (hc : ∀ c ∈ g.conns, 1 ≤ c.inn ∧ c.inn ≤ G ∧ c.src ∈ g.nodes ∧ c.dst ∈ g.nodes) :
    4 * (toArray g fitness).length = arraySize g ∧
      ∃ g', fromArray G (toArray g fitness) = some (g', fitness) ∧ g'.nIn = g.nIn ∧ g'.nOut = g.nOut ∧ g'.nodes = g.nodes ∧
        g'.conns.Perm g.conns := by
  have hm := mem_getConns g hn fun c hc' => (hc c hc').2.2.1
  have hperm : (getConns g).Perm g.conns := by
    refine (List.perm_ext_iff_of_nodup (List.Nodup.of_map _ (getConns_nodup g)) (List.Nodup.of_map _ hn)).2 hm
  constructor
  · have h1 : ∀ vs : List Nat, (vs.flatMap (nodeCells g)).length = 3 * vs.length := fun vs => by
      induction vs with
      | nil => rfl
      | cons v vs ih =>
        rw [List.flatMap_cons, List.length_append, ih, List.length_cons]
        simp only [nodeCells, List.length_cons, List.length_nil]
        omega
    have h2 : ∀ cs : List (Conn α), (cs.flatMap connCells).length = 5 * cs.length := fun cs => by
      induction cs with
      | nil => rfl
      | cons v vs ih =>
        rw [List.flatMap_cons, List.length_append, ih, List.length_cons]
        simp only [connCells, List.length_cons, List.length_nil]
        omega
    unfold toArray arraySize
    rw [List.length_append, List.length_append, h1]
    simp only [List.length_cons, List.length_nil, h2]
    omega
  · obtain ⟨out, e, hp⟩ := readConns_cells g.nodes (getConns g) (List.replicate G none) (getConns_nodup g)
      (fun c h => by
        have := hc c ((hm c).1 h)
        rw [List.length_replicate]
        exact this)
      (fun c h => by
        have := hc c ((hm c).1 h)
        rw [List.getElem?_replicate, if_pos (by omega)])
    have hempty : (List.replicate G (none : Option (Conn α))).filterMap id = [] := by
      rw [List.filterMap_eq_nil_iff]
      intro a ha
      rw [List.eq_of_mem_replicate ha]
      rfl
    rw [hempty, List.append_nil] at hp
    have hp' := hp.trans hperm
    refine ⟨⟨g.nIn, g.nOut, g.nodes, out.filterMap id⟩, ?_, rfl, rfl, rfl, hp'⟩
    show (readNodes g.nodes.length (g.nodes.flatMap (nodeCells g) ++ (.int (getConns g).length :: (getConns g).flatMap connCells))).bind _ = _
    rw [readNodes_cells, Option.bind_some]
    dsimp only
    have hnodes : (g.nodes.map fun v => ((ins g v).length, (outs g v).length, v)).map (fun x => x.2.2) = g.nodes := by
      rw [List.map_map]
      exact List.map_id _
    rw [hnodes, e, Option.bind_some, if_pos]
    intro x hx
    obtain ⟨v, _, rfl⟩ := List.mem_map.1 hx
    exact ⟨(hp'.filter _).length_eq, (hp'.filter _).length_eq⟩

/-- **C54.** In particular for every genome of a population reached by any history, with
the population's counter. -/
theorem C54_reachable {α : Type} [One α] (i o n : Nat) (s : Pop α) (h : Reachable i o n s) (g : Genome α) (hg : g ∈ s.genomes) (fitness : α) :
    ∃ g', fromArray s.reg.conns.length (toArray g fitness) = some (g', fitness) ∧ g'.nIn = g.nIn ∧ g'.nOut = g.nOut ∧
      g'.nodes = g.nodes ∧ g'.conns.Perm g.conns := by
  obtain ⟨_, hall⟩ := h.ok
  have hG := hall g hg
  refine (C54_roundtrip g fitness s.reg.conns.length hG.inns fun c hc => ?_).2
  obtain ⟨h1, h2, h3⟩ := hG.conns c hc
  have := at1_bounds h1
  exact ⟨this.1, this.2, h2, h3⟩

/-- A genome with three connections, one inactive. -/
example : fromArray 4 (toArray (⟨1, 1, [1, 2, 3], [⟨1, 1, 2, (7 : ℤ), false⟩, ⟨4, 3, 2, 7, true⟩, ⟨2, 1, 3, 1, true⟩]⟩) 5) =
    some (⟨1, 1, [1, 2, 3], [⟨1, 1, 2, 7, false⟩, ⟨2, 1, 3, 1, true⟩, ⟨4, 3, 2, 7, true⟩]⟩, 5) := by decide

end LLab.Neat
