import Verif.Neat.Bytes

/-!
Property C176: genomes in files: `save_genome`, `save_genome_complete`, `load_genome`, `get_global_innovation_number_connections_from_genome`,
`get_global_innovation_number_nodes_from_genome` and `load_genome_complete` (`/repo/src/neat_utils.c` 36-177, 364-599).

A file is a list of 4-byte cells as the arrays of `Verif.Neat.Bytes`, whose functions write and read the same cells in the same order;
the file can be opened. `fread` past the end leaves variables that were never written, which is `none`; so is reading a cell as the other
kind.
-/

namespace LLab.Neat.GenomeFile

/-! ### Model -/

/-- What a loaded genome holds: the genome, its fitness and its fields `global_inn_numb_connections` and `global_inn_numb_nodes`, if they
were written. -/
structure Loaded (α : Type) where
  genome : Genome α
  fitness : α
  counters : Option (Nat × Nat)

/-- `save_genome` (`/repo/src/neat_utils.c` 36-102): the cells written. -/
def save {α : Type} (g : Genome α) (fitness : α) : List (Cell α) := toArray g fitness

/-- `save_genome_complete` (`/repo/src/neat_utils.c` 104-177): the two counters first. -/
def saveComplete {α : Type} (g : Genome α) (fitness : α) (conns nodes : Nat) : List (Cell α) := .int conns :: .int nodes :: toArray g fitness

/-- `load_genome` (`/repo/src/neat_utils.c` 364-473). -/
def load {α : Type} (conns : Nat) (file : List (Cell α)) : Option (Loaded α) :=
  (fromArray conns file).bind fun r => some ⟨r.1, r.2, none⟩

/-- `load_genome_complete` (`/repo/src/neat_utils.c` 482-599). -/
def loadComplete {α : Type} : List (Cell α) → Option (Loaded α)
  | .int conns :: .int nodes :: file => (fromArray conns file).bind fun r => some ⟨r.1, r.2, some (conns, nodes)⟩
  | _ => none

/-! ### Specification -/

/-- The same genome, whose connections may be listed in another order. -/
def Same {α : Type} (g g' : Genome α) : Prop := g'.nIn = g.nIn ∧ g'.nOut = g.nOut ∧ g'.nodes = g.nodes ∧ g'.conns.Perm g.conns

/-! ### Lemmas -/

theorem readNodes_drop {α : Type} : ∀ (n : Nat) (l : List (Cell α)) (r : List (Nat × Nat × Nat) × List (Cell α)),
    readNodes n l = some r → r.2 = l.drop (3 * n) ∧ 3 * n ≤ l.length
  | 0, l, r, h => by cases h; exact ⟨rfl, Nat.zero_le _⟩
  | n + 1, l, r, h => by
    match l, h with
    | .int a :: .int b :: .int v :: l, h =>
      obtain ⟨s, hs, h⟩ := Option.bind_eq_some_iff.mp h
      cases h
      obtain ⟨h1, h2⟩ := readNodes_drop n l s hs
      refine ⟨?_, by simp only [List.length_cons]; omega⟩
      rw [show 3 * (n + 1) = 3 * n + 1 + 1 + 1 by omega, List.drop_succ_cons, List.drop_succ_cons, List.drop_succ_cons]
      exact h1

theorem readConns_length {α : Type} (nodes : List Nat) : ∀ (n : Nat) (l : List (Cell α)) (s s' : List (Option (Conn α))),
    readConns nodes n l s = some s' → 5 * n ≤ l.length
  | 0, _, _, _, _ => Nat.zero_le _
  | n + 1, l, s, s', h => by
    match l, h with
    | .int k :: .int a :: .int d :: .flt w :: .int f :: l, h =>
      rw [readConns] at h
      split at h
      · cases h
      · have := readConns_length nodes n l _ s' h
        simp only [List.length_cons]
        omega

theorem readConns_outside {α : Type} (nodes : List Nat) : ∀ (cs : List (Conn α)) (s : List (Option (Conn α))),
    (∃ c ∈ cs, s.length < c.inn) → readConns nodes cs.length (cs.flatMap connCells) s = none
  | [], _, h => by simp at h
  | c :: cs, s, h => by
    show (if c.inn = 0 ∨ s.length < c.inn ∨ c.src ∉ nodes ∨ c.dst ∉ nodes then none
      else readConns nodes cs.length (cs.flatMap connCells) (s.set (c.inn - 1) (some ⟨c.inn, c.src, c.dst, c.weight, decide ((if c.flag then 1 else 0) ≠ 0)⟩))) = none
    by_cases hc : c.inn = 0 ∨ s.length < c.inn ∨ c.src ∉ nodes ∨ c.dst ∉ nodes
    · rw [if_pos hc]
    · rw [if_neg hc]
      refine readConns_outside nodes cs _ ?_
      obtain ⟨x, hx, h1⟩ := h
      rcases List.mem_cons.mp hx with rfl | hx
      · exact absurd (Or.inr (Or.inl h1)) hc
      · exact ⟨x, hx, by rw [List.length_set]; exact h1⟩

theorem nodeCells_length {α : Type} (g : Genome α) : ∀ vs : List Nat, (vs.flatMap (nodeCells g)).length = 3 * vs.length
  | [] => rfl
  | v :: vs => by
    rw [List.flatMap_cons, List.length_append, nodeCells_length g vs, List.length_cons]
    simp only [nodeCells, List.length_cons, List.length_nil]
    omega

theorem connCells_length {α : Type} : ∀ cs : List (Conn α), (cs.flatMap connCells).length = 5 * cs.length
  | [] => rfl
  | c :: cs => by
    rw [List.flatMap_cons, List.length_append, connCells_length cs, List.length_cons]
    simp only [connCells, List.length_cons, List.length_nil]
    omega

/-- A cut array is never read to its end. -/
theorem fromArray_cut {α : Type} (g : Genome α) (fitness : α) (G k : Nat) (hk : k < (toArray g fitness).length) :
    fromArray G ((toArray g fitness).take k) = none := by
  have hlen : (toArray g fitness).length = 4 + (3 * g.nodes.length + (1 + 5 * (getConns g).length)) := by
    unfold toArray
    rw [List.length_append, List.length_append, nodeCells_length]
    simp only [List.length_cons, List.length_nil, connCells_length]
    omega
  rw [hlen] at hk
  match k with
  | 0 => rfl
  | 1 => rfl
  | 2 => rfl
  | 3 => rfl
  | k + 4 =>
    have ht : (toArray g fitness).take (k + 4) = .int g.nIn :: .int g.nOut :: .int g.nodes.length :: .flt fitness ::
      ((g.nodes.flatMap (nodeCells g) ++ (.int (getConns g).length :: (getConns g).flatMap connCells)).take k) := rfl
    rw [ht]
    show (readNodes g.nodes.length _).bind _ = none
    cases hr : readNodes g.nodes.length ((g.nodes.flatMap (nodeCells g) ++ (.int (getConns g).length :: (getConns g).flatMap connCells)).take k) with
    | none => rfl
    | some r =>
      obtain ⟨h1, h2⟩ := readNodes_drop _ _ _ hr
      rw [List.drop_take, List.drop_append_of_le_length (by rw [nodeCells_length]), List.drop_of_length_le (by rw [nodeCells_length]), List.nil_append] at h1
      rw [Option.bind_some, h1]
      match hq : k - 3 * g.nodes.length with
      | 0 => rfl
      | q + 1 =>
        rw [List.take_succ_cons]
        show (readConns _ (getConns g).length _ _).bind _ = none
        cases hc : readConns (r.1.map fun x => x.2.2) (getConns g).length (((getConns g).flatMap connCells).take q) (List.replicate G none) with
        | none => rfl
        | some s =>
          have := readConns_length _ _ _ _ _ hc
          rw [List.length_take, connCells_length] at this
          omega

/-! ### Theorems -/

/-- A genome whose connections have distinct numbers within the counter and join its nodes is loaded from its file as it was, with its
fitness; from a complete file also with the counters, which the loader does not need to be told. -/
theorem C176_roundtrip_partial {α : Type} (g : Genome α) (fitness : α) (G H : Nat) (hn : (g.conns.map Conn.inn).Nodup)
    (hc : ∀ c ∈ g.conns, 1 ≤ c.inn ∧ c.inn ≤ G ∧ c.src ∈ g.nodes ∧ c.dst ∈ g.nodes) : ∃ g', Same g g' ∧
      load G (save g fitness) = some ⟨g', fitness, none⟩ ∧ loadComplete (saveComplete g fitness G H) = some ⟨g', fitness, some (G, H)⟩ := by
  obtain ⟨_, g', e, h1, h2, h3, h4⟩ := C54_roundtrip g fitness G hn hc
  exact ⟨g', ⟨h1, h2, h3, h4⟩, by rw [load, save, e]; rfl, by rw [saveComplete, loadComplete, e]; rfl⟩

/-- In particular each genome of a population reached by any history, with its counter. -/
theorem C176_reachable {α : Type} [One α] (i o n : Nat) (s : Pop α) (h : Reachable i o n s) (g : Genome α) (hg : g ∈ s.genomes) (fitness : α)
    (H : Nat) : ∃ g', Same g g' ∧ load s.reg.conns.length (save g fitness) = some ⟨g', fitness, none⟩ ∧
      loadComplete (saveComplete g fitness s.reg.conns.length H) = some ⟨g', fitness, some (s.reg.conns.length, H)⟩ := by
  obtain ⟨g', e, h1, h2, h3, h4⟩ := C54_reachable i o n s h g hg fitness
  exact ⟨g', ⟨h1, h2, h3, h4⟩, by rw [load, save, e]; rfl, by rw [saveComplete, loadComplete, e]; rfl⟩

/-- A counter that is too small should be noticed: the loader writes outside its array. -/
theorem C176_counter_refuted {α : Type} (g : Genome α) (fitness : α) (G : Nat) (c : Conn α) (hc : c ∈ getConns g) (hG : G < c.inn) :
    load G (save g fitness) = none := by
  rw [load, save]
  have : fromArray G (toArray g fitness) = none := by
    show (readNodes g.nodes.length (g.nodes.flatMap (nodeCells g) ++ (.int (getConns g).length :: (getConns g).flatMap connCells))).bind _ = _
    rw [readNodes_cells, Option.bind_some]
    dsimp only
    rw [readConns_outside _ _ _ ⟨c, hc, by rw [List.length_replicate]; exact hG⟩]
    rfl
  rw [this]
  rfl

/-- A file of the one kind should be noticed by the loader of the other: both read it as if it were theirs. -/
theorem C176_kinds_refuted {α : Type} (g : Genome α) (fitness : α) (G H K : Nat) :
    loadComplete (save g fitness) = none ∧ load K (saveComplete g fitness G H) = none := ⟨rfl, rfl⟩

/-- A file that was cut at any point should be noticed: both loaders go on with what was never read. -/
theorem C176_cut_refuted {α : Type} (g : Genome α) (fitness : α) (G H K : Nat) :
    (∀ k, k < (save g fitness).length → load K ((save g fitness).take k) = none) ∧
    (∀ k, k < (saveComplete g fitness G H).length → loadComplete ((saveComplete g fitness G H).take k) = none) := by
  constructor
  · intro k hk
    rw [load, save, fromArray_cut g fitness K k hk]; rfl
  · intro k hk
    match k with
    | 0 => rfl
    | 1 => rfl
    | k + 2 =>
      rw [saveComplete, List.take_succ_cons, List.take_succ_cons, loadComplete, fromArray_cut g fitness G k (by
        rw [saveComplete] at hk; simp only [List.length_cons] at hk; omega)]
      rfl

/-- The hypotheses are met by a genome with three connections, one inactive. -/
example : ∃ g : Genome ℤ, (g.conns.map Conn.inn).Nodup ∧ (∀ c ∈ g.conns, 1 ≤ c.inn ∧ c.inn ≤ 4 ∧ c.src ∈ g.nodes ∧ c.dst ∈ g.nodes) ∧
    ∃ c ∈ getConns g, 3 < c.inn :=
  ⟨⟨1, 1, [1, 2, 3], [⟨1, 1, 2, 7, false⟩, ⟨4, 3, 2, 7, true⟩, ⟨2, 1, 3, 1, true⟩]⟩, by decide, by decide, ⟨4, 3, 2, 7, true⟩, by decide, by decide⟩

end LLab.Neat.GenomeFile
