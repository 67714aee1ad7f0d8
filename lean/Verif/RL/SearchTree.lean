import Verif.RL.Mcts
import Mathlib.Algebra.BigOperators.Fin
import Mathlib.Logic.Function.Basic

/-!
Property C138: the growth of the search tree of `/repo/src/mcts.c` over any number of simulations.

The networks are parameters and so is the choice of the edge in every node (the choices of the code
are the subject of C57 and C80); nodes are numbered in the order they are allocated, which is their
place in the array `nodes` of the tree. Real arithmetic.
-/

namespace LLab.Search

open Finset

variable {S H : Type}

/-! ### Model -/

/-- What the search takes from the model (`efficientzeromodel`) and its own constants: number of
actions, `lstm_window`, `gamma_reward`, `maximum_depth`, the dynamics (state after an action), the
policy, the value and the reward networks; `rew s h` is the predicted value prefix and the state of
the recurrent cells afterwards, `zero` their initial state. -/
structure Params (S H : Type) where
  nAct : Nat
  window : Nat
  gamma : ℝ
  maxDepth : Nat
  dyn : S → Nat → S
  policy : S → Nat → ℝ
  value : S → ℝ
  rew : S → H → ℝ × H
  zero : H

/-- `mcts_node` (`/repo/src/llab.h`), with the output node and the prior of each of its edges. -/
structure Node (S H : Type) where
  state : S
  hidden : H
  reward : ℝ
  pre : ℝ
  q : ℝ
  v : ℝ
  visits : Nat
  depth : Nat
  kids : Nat → Option Nat
  prior : Nat → ℝ

/-- `mcts`: `size` is `n_nodes`, `edges` the registered edges (node and number in it). -/
structure Tree (S H : Type) where
  size : Nat
  node : Nat → Node S H
  edges : List (Nat × Nat)
  qMin : ℝ
  qMax : ℝ
  qDiff : ℝ
  returned : Nat

/-- `init_mcts` (`/repo/src/mcts.c` 128-170): the root with its edges. -/
noncomputable def init (P : Params S H) (s : S) : Tree S H :=
  { size := 1,
    node := fun _ => { state := s, hidden := P.zero, reward := 0, pre := 0, q := 0, v := 0, visits := 0, depth := 0, kids := fun _ => none, prior := P.policy s },
    edges := (List.range P.nAct).map fun i => (0, i), qMin := 1000000000, qMax := -1000000000, qDiff := 1000000000, returned := 0 }

/-- The comparison of a value with the bounds (`/repo/src/mcts.c` 213-216, 350-353, 388-391). -/
noncomputable def Tree.note (t : Tree S H) (q : ℝ) : Tree S H :=
  { t with qMin := if q < t.qMin then q else t.qMin, qMax := if q > t.qMax then q else t.qMax }

/-- The end of a simulation at the maximum depth (`/repo/src/mcts.c` 208-221). -/
noncomputable def leaf (t : Tree S H) (id : Nat) : Tree S H × ℝ :=
  let n := t.node id
  let q := (n.q * n.visits + n.reward + n.v) / (n.visits + 1)
  (Tree.note { t with node := Function.update t.node id { n with q := q, visits := n.visits + 1 }, returned := id } q, n.pre)

/-- A new node behind edge `i` of node `id` at depth `d` (`/repo/src/mcts.c` 279-363). The cells
keep their state unless the new depth is a multiple of the window
(`/repo/src/efficientzeromodel.c` 313-334). -/
noncomputable def expand (P : Params S H) (t : Tree S H) (id i d : Nat) : Tree S H × ℝ :=
  let n := t.node id
  let s := P.dyn n.state i
  let r := P.rew s n.hidden
  let reward := if d % P.window ≠ 0 then r.1 - n.pre else r.1
  let v := P.gamma * P.value s
  let new : Node S H :=
    { state := s, hidden := if (d + 1) % P.window ≠ 0 then r.2 else P.zero, reward := reward, pre := r.1, q := reward + v, v := v, visits := 1, depth := d + 1, kids := fun _ => none, prior := P.policy s }
  (Tree.note { t with
      size := t.size + 1,
      node := Function.update (Function.update t.node id { n with kids := Function.update n.kids i (some t.size) }) t.size new,
      edges := t.edges ++ (List.range P.nAct).map (fun j => (t.size, j)), returned := t.size } new.q, v)

/-- The back-up in node `id` after a visit of its child `c` (`/repo/src/mcts.c` 372-392). -/
noncomputable def backup (P : Params S H) (t : Tree S H) (id c : Nat) (vNext : ℝ) : Tree S H × ℝ :=
  let n := t.node id
  let ch := t.node c
  let r := t.node t.returned
  let far := ch.depth % P.window = 0 ∨ r.depth % P.window ≤ ch.depth % P.window ∨ P.window < r.depth - ch.depth
  let _ := Classical.propDecidable far
  let v := if far then vNext else vNext * P.gamma
  let q := if far then (ch.visits * ch.q + (r.pre + v)) / (ch.visits + 1) else (ch.visits * n.q + (r.pre - ch.pre + v)) / (ch.visits + 1)
  (Tree.note { t with node := Function.update (Function.update t.node id { n with q := q }) c { ch with visits := ch.visits + 1 } } ch.q, v)

/-- `visit_node` (`/repo/src/mcts.c` 206-395) with `k` levels left, that is at depth
`maximum_depth - k`; `sel` is the choice of the edge and may depend on everything. An edge that
does not exist is undefined. -/
noncomputable def visit (P : Params S H) (sel : Tree S H → Nat → Nat → Option Nat) : Nat → Tree S H → Nat → Option (Tree S H × ℝ)
  | 0, t, id => some (leaf t id)
  | k + 1, t, id => (sel t id (P.maxDepth - (k + 1))).bind fun i =>
    if i < P.nAct then
      match (t.node id).kids i with
      | none => some (expand P t id i (P.maxDepth - (k + 1)))
      | some c => (visit P sel k t c).bind fun r => if c = r.1.returned then some r else some (backup P r.1 id c r.2)
    else none

/-- `mul_array_values_by_indices` (`/repo/src/math_functions.c` 1286-1293). -/
noncomputable def byIndices (a : Nat → ℝ) (offset : ℝ) (n : Nat) : ℝ := ∑ i ∈ range n, ((i : ℝ) * a i + offset)

/-! ### Specification -/

/-- The trees after `n` simulations from the root, with any choices in any of them. -/
inductive Sims (P : Params S H) (s : S) : Nat → Tree S H → Prop where
  | init : Sims P s 0 (init P s)
  | step {n : Nat} {t t' : Tree S H} {sel : Tree S H → Nat → Nat → Option Nat} {v : ℝ} :
      Sims P s n t → visit P sel P.maxDepth t 0 = some (t', v) → Sims P s (n + 1) t'

/-- The visits of the node behind an edge; 0 when there is none. -/
def seen (t : Tree S H) : Option Nat → Nat
  | none => 0
  | some c => (t.node c).visits

/-- The visits of all children of a node. -/
def below (P : Params S H) (t : Tree S H) (x : Nat) : Nat := ∑ i ∈ range P.nAct, seen t ((t.node x).kids i)

/-- The nodes form a tree: children are nodes one level deeper, no deeper than allowed, and every
node but the root is the child of exactly one edge. -/
structure IsTree (P : Params S H) (t : Tree S H) : Prop where
  pos : 0 < t.size
  root : (t.node 0).depth = 0
  child : ∀ x i c, x < t.size → i < P.nAct → (t.node x).kids i = some c → x < c ∧ c < t.size ∧ (t.node c).depth = (t.node x).depth + 1
  bound : ∀ x, x < t.size → (t.node x).depth ≤ P.maxDepth
  parent : ∀ c, 0 < c → c < t.size → ∃ x i, x < t.size ∧ i < P.nAct ∧ (t.node x).kids i = some c
  once : ∀ x i y j c, x < t.size → y < t.size → i < P.nAct → j < P.nAct → (t.node x).kids i = some c → (t.node y).kids j = some c → x = y ∧ i = j

/-! ### Proof -/

theorem note_eq (t : Tree S H) (q : ℝ) : (t.note q).size = t.size ∧ (t.note q).node = t.node ∧ (t.note q).edges = t.edges ∧
    (t.note q).returned = t.returned ∧ (t.note q).qDiff = t.qDiff := ⟨rfl, rfl, rfl, rfl, rfl⟩

theorem note_min (t : Tree S H) (q : ℝ) : (t.note q).qMin ≤ q ∧ (t.note q).qMin ≤ t.qMin ∧ q ≤ (t.note q).qMax ∧ t.qMax ≤ (t.note q).qMax := by
  unfold Tree.note
  dsimp only
  refine ⟨?_, ?_, ?_, ?_⟩ <;> split <;> linarith

/-- Same nodes, edges and depths. -/
structure Same (t t' : Tree S H) : Prop where
  size : t'.size = t.size
  kids : ∀ x, (t'.node x).kids = (t.node x).kids
  depth : ∀ x, (t'.node x).depth = (t.node x).depth

theorem IsTree.same {P : Params S H} {t t' : Tree S H} (h : IsTree P t) (hs : Same t t') : IsTree P t' := by
  obtain ⟨a, b, c, d, e, f⟩ := h
  obtain ⟨s1, s2, s3⟩ := hs
  constructor
  · rw [s1]; exact a
  · rw [s3]; exact b
  · intro x i y h1 h2 h3
    rw [s1] at h1; rw [s2] at h3
    rw [s1, s3, s3]
    exact c x i y h1 h2 h3
  · intro x h1
    rw [s1] at h1
    rw [s3]
    exact d x h1
  · intro y h1 h2
    rw [s1] at h2
    obtain ⟨x, i, h3, h4, h5⟩ := e y h1 h2
    exact ⟨x, i, by rw [s1]; exact h3, h4, by rw [s2]; exact h5⟩
  · intro x i y j z h1 h2 h3 h4 h5 h6
    rw [s1] at h1 h2
    rw [s2] at h5 h6
    exact f x i y j z h1 h2 h3 h4 h5 h6

/-- The nodes of the tree after an expansion. -/
theorem expand_node (P : Params S H) (t : Tree S H) (id i d : Nat) :
    ((expand P t id i d).1.node t.size).kids = (fun _ => none) ∧ ((expand P t id i d).1.node t.size).depth = d + 1 ∧
    ((expand P t id i d).1.node t.size).visits = 1 ∧
    (∀ x, x < t.size → ((expand P t id i d).1.node x).depth = (t.node x).depth ∧ ((expand P t id i d).1.node x).visits = (t.node x).visits ∧
      ((expand P t id i d).1.node x).q = (t.node x).q ∧ ((expand P t id i d).1.node x).pre = (t.node x).pre ∧
      ((expand P t id i d).1.node x).reward = (t.node x).reward ∧
      ((expand P t id i d).1.node x).kids = if x = id then Function.update (t.node id).kids i (some t.size) else (t.node x).kids) := by
  unfold expand
  dsimp only [Tree.note]
  rw [Function.update_self]
  refine ⟨rfl, rfl, rfl, fun x hx => ?_⟩
  rw [Function.update_of_ne (Nat.ne_of_lt hx)]
  by_cases h : x = id
  · subst h
    rw [Function.update_self, if_pos rfl]
    exact ⟨rfl, rfl, rfl, rfl, rfl, rfl⟩
  · rw [Function.update_of_ne h, if_neg h]
    exact ⟨rfl, rfl, rfl, rfl, rfl, rfl⟩

theorem expand_tree (P : Params S H) (t : Tree S H) (id i : Nat) (h : IsTree P t) (hid : id < t.size) (hi : i < P.nAct)
    (hd : (t.node id).depth < P.maxDepth) (hk : (t.node id).kids i = none) : IsTree P (expand P t id i (t.node id).depth).1 := by
  obtain ⟨a, b, c, d, e, f⟩ := h
  obtain ⟨n1, n2, _, n3⟩ := expand_node P t id i (t.node id).depth
  have sz : (expand P t id i (t.node id).depth).1.size = t.size + 1 := rfl
  generalize (expand P t id i (t.node id).depth).1 = t' at *
  have kid : ∀ x j y, x < t.size → (t'.node x).kids j = some y → (x = id ∧ j = i ∧ y = t.size) ∨ ((t.node x).kids j = some y ∧ ¬(x = id ∧ j = i)) := by
    intro x j y hx h
    rw [(n3 x hx).2.2.2.2.2] at h
    by_cases h1 : x = id
    · rw [if_pos h1] at h
      by_cases h2 : j = i
      · rw [h2, Function.update_self] at h
        cases h
        exact Or.inl ⟨h1, h2, rfl⟩
      · rw [Function.update_of_ne h2] at h
        exact Or.inr ⟨h1 ▸ h, fun h => h2 h.2⟩
    · rw [if_neg h1] at h
      exact Or.inr ⟨h, fun h => h1 h.1⟩
  have old : ∀ x j y, x < t.size → ¬(x = id ∧ j = i) → (t.node x).kids j = some y → (t'.node x).kids j = some y := by
    intro x j y hx hne h
    rw [(n3 x hx).2.2.2.2.2]
    by_cases h1 : x = id
    · rw [if_pos h1, Function.update_of_ne (fun h2 => hne ⟨h1, h2⟩), ← h1]; exact h
    · rw [if_neg h1]; exact h
  have fresh : ∀ j, (t'.node t.size).kids j = none := fun j => by rw [n1]
  constructor
  · omega
  · rw [(n3 0 a).1]; exact b
  · intro x j y hx hj h
    rw [sz] at hx ⊢
    rcases Nat.lt_succ_iff_lt_or_eq.1 hx with hx | rfl
    · rcases kid x j y hx h with ⟨rfl, rfl, rfl⟩ | ⟨h, _⟩
      · exact ⟨hid, by omega, by rw [n2, (n3 x hx).1]⟩
      · obtain ⟨c1, c2, c3⟩ := c x j y hx hj h
        exact ⟨c1, by omega, by rw [(n3 y c2).1, (n3 x hx).1]; exact c3⟩
    · rw [fresh] at h; cases h
  · intro x hx
    rw [sz] at hx
    rcases Nat.lt_succ_iff_lt_or_eq.1 hx with hx | rfl
    · rw [(n3 x hx).1]; exact d x hx
    · rw [n2]; exact hd
  · intro y hy hy'
    rw [sz] at hy'
    rcases Nat.lt_succ_iff_lt_or_eq.1 hy' with hy' | rfl
    · obtain ⟨x, j, h1, h2, h3⟩ := e y hy hy'
      refine ⟨x, j, by omega, h2, old x j y h1 (fun hc => ?_) h3⟩
      obtain ⟨rfl, rfl⟩ := hc
      rw [hk] at h3; cases h3
    · refine ⟨id, i, by omega, hi, ?_⟩
      rw [(n3 id hid).2.2.2.2.2, if_pos rfl, Function.update_self]
  · intro x j y l z hx hy hj hl h1 h2
    rw [sz] at hx hy
    rcases Nat.lt_succ_iff_lt_or_eq.1 hx with hx | rfl
    · rcases Nat.lt_succ_iff_lt_or_eq.1 hy with hy | rfl
      · rcases kid x j z hx h1 with ⟨rfl, rfl, rfl⟩ | ⟨h1, h1'⟩
        · rcases kid y l _ hy h2 with ⟨rfl, rfl, _⟩ | ⟨h2, _⟩
          · exact ⟨rfl, rfl⟩
          · have := (c y l _ hy hl h2).2.1
            omega
        · rcases kid y l z hy h2 with ⟨rfl, rfl, rfl⟩ | ⟨h2, _⟩
          · have := (c x j _ hx hj h1).2.1
            omega
          · exact f x j y l z hx hy hj hl h1 h2
      · rw [fresh] at h2; cases h2
    · rw [fresh] at h1; cases h1

/-- A change of the visits of one node, seen from the edges. -/
theorem below_bump (P : Params S H) (t t' : Tree S H) (c : Nat) (ht : IsTree P t) (hk : ∀ x, (t'.node x).kids = (t.node x).kids)
    (hv : ∀ x, x < t.size → (t'.node x).visits = (t.node x).visits + if x = c then 1 else 0) :
    (∀ x i, x < t.size → i < P.nAct → (t.node x).kids i = some c → below P t' x = below P t x + 1) ∧
    ∀ x, x < t.size → (∀ i, i < P.nAct → (t.node x).kids i ≠ some c) → below P t' x = below P t x := by
  have se : ∀ x i, x < t.size → i < P.nAct → seen t' ((t'.node x).kids i) = seen t ((t.node x).kids i) + if (t.node x).kids i = some c then 1 else 0 := by
    intro x i hx hi
    rw [hk x]
    cases h : (t.node x).kids i with
    | none => simp [seen]
    | some y =>
      have hy := (ht.child x i y hx hi h).2.1
      simp only [seen, hv y hy, Option.some.injEq]
  refine ⟨fun x i hx hi h => ?_, fun x hx h => ?_⟩
  · unfold below
    rw [Finset.sum_congr rfl fun j hj => se x j hx (Finset.mem_range.1 hj), Finset.sum_add_distrib]
    congr 1
    rw [Finset.sum_eq_single i]
    · rw [if_pos h]
    · intro j hj hne
      rw [if_neg]
      intro h'
      exact hne (ht.once x j x i c hx hx (Finset.mem_range.1 hj) hi h' h).2
    · intro hn
      exact absurd (Finset.mem_range.2 hi) hn
  · unfold below
    refine Finset.sum_congr rfl fun j hj => ?_
    rw [se x j hx (Finset.mem_range.1 hj), if_neg (h j (Finset.mem_range.1 hj)), Nat.add_zero]

/-- A value between the bounds of the tree. -/
def Within (t : Tree S H) (x : Nat) : Prop := t.qMin ≤ (t.node x).q ∧ (t.node x).q ≤ t.qMax

/-- The prefix of a node is its reward and the prefix of its parent, unless a window begins there. -/
def Prefix (P : Params S H) (t : Tree S H) : Prop :=
  ∀ x i c, x < t.size → i < P.nAct → (t.node x).kids i = some c →
    (t.node c).pre = (t.node c).reward + if (t.node x).depth % P.window = 0 then 0 else (t.node x).pre

/-- The registered edges. -/
def Registered (P : Params S H) (t : Tree S H) : Prop := t.edges.Nodup ∧ ∀ x i, (x, i) ∈ t.edges ↔ x < t.size ∧ i < P.nAct

/-- The difference between the visits of the nodes and of their children is kept, but for `id` and
the nodes at the maximum depth. -/
def Kept (P : Params S H) (t t' : Tree S H) (id : Nat) : Prop :=
  ∀ x, x < t.size → x ≠ id → (t.node x).depth < P.maxDepth → (t'.node x).visits + below P t x = (t.node x).visits + below P t' x

/-- What a visit does. -/
structure Did (P : Params S H) (t t' : Tree S H) (id k : Nat) : Prop where
  tree : IsTree P t'
  grow : t.size ≤ t'.size ∧ t'.size ≤ t.size + 1
  ret : k = 0 → t'.returned = id
  ret' : 0 < k → id < t'.returned
  stay : 0 < k → ∀ x, x ≤ id → (t'.node x).visits = (t.node x).visits
  kids : ∀ x i c, x < t.size → i < P.nAct → (t.node x).kids i = some c → (t'.node x).kids i = some c
  depth : ∀ x, x < t.size → (t'.node x).depth = (t.node x).depth
  mono : ∀ x, x < t.size → (t.node x).visits ≤ (t'.node x).visits
  bump : k = 0 → Same t t' ∧ ∀ x, (t'.node x).visits = (t.node x).visits + if x = id then 1 else 0
  more : 0 < k → below P t' id = below P t id + 1
  kept : 0 < k → Kept P t t' id
  fresh : t.size < t'.size → (t'.node t.size).visits = 1 ∧ below P t' t.size = 0
  within : (∀ x, 0 < x → x < t.size → Within t x) → ∀ x, 0 < x → x < t'.size → (x = id → k = 0) → Within t' x
  pref : Prefix P t → Prefix P t'
  reg : Registered P t → Registered P t'
  diff : t'.qDiff = t.qDiff

theorem leaf_did (P : Params S H) (t : Tree S H) (id : Nat) (ht : IsTree P t) (hid : id < t.size) : Did P t (leaf t id).1 id 0 := by
  have hn : ∀ x, (((leaf t id).1.node x).kids = (t.node x).kids ∧ ((leaf t id).1.node x).depth = (t.node x).depth ∧
      ((leaf t id).1.node x).visits = (t.node x).visits + (if x = id then 1 else 0) ∧ ((leaf t id).1.node x).pre = (t.node x).pre ∧
      ((leaf t id).1.node x).reward = (t.node x).reward) ∧ (x ≠ id → ((leaf t id).1.node x).q = (t.node x).q) := by
    intro x
    unfold leaf
    dsimp only [Tree.note]
    by_cases h : x = id
    · subst h
      rw [Function.update_self, if_pos rfl]
      exact ⟨⟨rfl, rfl, rfl, rfl, rfl⟩, fun h => absurd rfl h⟩
    · rw [Function.update_of_ne h, if_neg h]
      exact ⟨⟨rfl, rfl, rfl, rfl, rfl⟩, fun _ => rfl⟩
  have hs : Same t (leaf t id).1 := ⟨rfl, fun x => (hn x).1.1, fun x => (hn x).1.2.1⟩
  refine ⟨ht.same hs, ⟨Nat.le_refl _, Nat.le_succ _⟩, fun _ => rfl, fun h => absurd h (Nat.lt_irrefl 0), fun h => absurd h (Nat.lt_irrefl 0),
    fun x i c _ _ h => by rw [(hn x).1.1]; exact h, fun x _ => (hn x).1.2.1, fun x _ => by rw [(hn x).1.2.2.1]; exact Nat.le_add_right _ _, fun _ => ⟨hs, fun x => (hn x).1.2.2.1⟩,
    fun h => absurd h (Nat.lt_irrefl 0), fun h => absurd h (Nat.lt_irrefl 0), fun h => absurd h (Nat.lt_irrefl _), ?_, ?_, fun h => h, rfl⟩
  · intro hw x h0 hx _
    have m := note_min { t with node := Function.update t.node id { t.node id with q := ((t.node id).q * (t.node id).visits + (t.node id).reward + (t.node id).v) / ((t.node id).visits + 1), visits := (t.node id).visits + 1 }, returned := id } (((t.node id).q * (t.node id).visits + (t.node id).reward + (t.node id).v) / ((t.node id).visits + 1))
    by_cases h : x = id
    · subst h
      refine ⟨?_, ?_⟩
      · show _ ≤ ((Function.update t.node x _) x).q
        rw [Function.update_self]
        exact m.1
      · show ((Function.update t.node x _) x).q ≤ _
        rw [Function.update_self]
        exact m.2.2.1
    · obtain ⟨w1, w2⟩ := hw x h0 hx
      unfold Within
      rw [(hn x).2 h]
      exact ⟨m.2.1.trans w1, w2.trans m.2.2.2⟩
  · intro hp x i c hx hi hk
    rw [(hn x).1.1] at hk
    rw [(hn c).1.2.2.2.1, (hn c).1.2.2.2.2, (hn x).1.2.1, (hn x).1.2.2.2.1]
    exact hp x i c hx hi hk

theorem expand_did (P : Params S H) (t : Tree S H) (id i k : Nat) (ht : IsTree P t) (hid : id < t.size) (hi : i < P.nAct)
    (hd : (t.node id).depth < P.maxDepth) (hk : (t.node id).kids i = none) : Did P t (expand P t id i (t.node id).depth).1 id (k + 1) := by
  obtain ⟨n1, n2, n4, n3⟩ := expand_node P t id i (t.node id).depth
  have tr := expand_tree P t id i ht hid hi hd hk
  have sz : (expand P t id i (t.node id).depth).1.size = t.size + 1 := rfl
  have rt : (expand P t id i (t.node id).depth).1.returned = t.size := rfl
  have ed : (expand P t id i (t.node id).depth).1.edges = t.edges ++ (List.range P.nAct).map (fun j => (t.size, j)) := rfl
  have df : (expand P t id i (t.node id).depth).1.qDiff = t.qDiff := rfl
  have mn := note_min { t with size := t.size + 1, node := (expand P t id i (t.node id).depth).1.node, edges := t.edges ++ (List.range P.nAct).map (fun j => (t.size, j)), returned := t.size } ((expand P t id i (t.node id).depth).1.node t.size).q
  have hq : ((expand P t id i (t.node id).depth).1.node t.size).pre = ((expand P t id i (t.node id).depth).1.node t.size).reward +
      if (t.node id).depth % P.window = 0 then 0 else (t.node id).pre := by
    unfold expand
    dsimp only [Tree.note]
    rw [Function.update_self]
    dsimp only
    by_cases h : (t.node id).depth % P.window = 0
    · rw [if_neg (not_not.2 h), if_pos h, add_zero]
    · rw [if_pos h, if_neg h, sub_add_cancel]
  have hmin : (expand P t id i (t.node id).depth).1.qMin ≤ ((expand P t id i (t.node id).depth).1.node t.size).q ∧
      (expand P t id i (t.node id).depth).1.qMin ≤ t.qMin ∧
      ((expand P t id i (t.node id).depth).1.node t.size).q ≤ (expand P t id i (t.node id).depth).1.qMax ∧
      t.qMax ≤ (expand P t id i (t.node id).depth).1.qMax := by
    have e1 : (expand P t id i (t.node id).depth).1 = Tree.note { t with size := t.size + 1, node := (expand P t id i (t.node id).depth).1.node, edges := t.edges ++ (List.range P.nAct).map (fun j => (t.size, j)), returned := t.size } ((expand P t id i (t.node id).depth).1.node t.size).q := by
      unfold expand
      dsimp only [Tree.note]
      rw [Function.update_self]
    exact ⟨e1 ▸ mn.1, by rw [e1]; exact mn.2.1, by
      have := mn.2.2.1
      rw [← e1] at this; exact this, by rw [e1]; exact mn.2.2.2⟩
  clear mn
  generalize (expand P t id i (t.node id).depth).1 = t' at *
  have kidsid : ∀ x, x < t.size → (t'.node x).kids = if x = id then Function.update (t.node id).kids i (some t.size) else (t.node x).kids :=
    fun x hx => (n3 x hx).2.2.2.2.2
  have seenEq : ∀ x j, x < t.size → j < P.nAct → seen t' ((t.node x).kids j) = seen t ((t.node x).kids j) := by
    intro x j hx hj
    cases h : (t.node x).kids j with
    | none => rfl
    | some y => exact (n3 y (ht.child x j y hx hj h).2.1).2.1
  have belowOther : ∀ x, x < t.size → x ≠ id → below P t' x = below P t x := by
    intro x hx hne
    unfold below
    refine Finset.sum_congr rfl fun j hj => ?_
    rw [kidsid x hx, if_neg hne]
    exact seenEq x j hx (Finset.mem_range.1 hj)
  refine ⟨tr, ⟨by omega, by omega⟩, fun h => absurd h (Nat.succ_ne_zero k), fun _ => by omega, fun _ x hx => (n3 x (by omega)).2.1, ?_,
    fun x hx => (n3 x hx).1, fun x hx => le_of_eq (n3 x hx).2.1.symm, fun h => absurd h (Nat.succ_ne_zero k), fun _ => ?_, fun _ x hx hne _ => ?_, fun _ => ⟨n4, ?_⟩, ?_, ?_, ?_, df⟩
  · intro x j c hx _ h
    rw [kidsid x hx]
    by_cases hx' : x = id
    · subst hx'
      rw [if_pos rfl]
      rw [Function.update_of_ne]
      · exact h
      · rintro rfl
        rw [hk] at h; cases h
    · rw [if_neg hx']; exact h
  · have e : ∀ j ∈ range P.nAct, seen t' ((t'.node id).kids j) = seen t ((t.node id).kids j) + if j = i then 1 else 0 := by
      intro j hj
      rw [kidsid id hid, if_pos rfl]
      by_cases h : j = i
      · subst h
        rw [Function.update_self, hk, if_pos rfl]
        exact n4
      · rw [Function.update_of_ne h, if_neg h, Nat.add_zero]
        exact seenEq id j hid (Finset.mem_range.1 hj)
    unfold below
    rw [Finset.sum_congr rfl e, Finset.sum_add_distrib]
    congr 1
    rw [Finset.sum_ite_eq', if_pos (Finset.mem_range.2 hi)]
  · rw [(n3 x hx).2.1, belowOther x hx hne]
  · unfold below
    refine Finset.sum_eq_zero fun j _ => ?_
    rw [n1]
    rfl
  · intro hw x h0 hx hne
    rw [sz] at hx
    rcases Nat.lt_succ_iff_lt_or_eq.1 hx with hx | rfl
    · obtain ⟨w1, w2⟩ := hw x h0 hx
      unfold Within
      rw [(n3 x hx).2.2.1]
      exact ⟨hmin.2.1.trans w1, w2.trans hmin.2.2.2⟩
    · exact ⟨hmin.1, hmin.2.2.1⟩
  · intro hp x j c hx hj h
    rw [sz] at hx
    rcases Nat.lt_succ_iff_lt_or_eq.1 hx with hx | rfl
    · rw [kidsid x hx] at h
      rw [(n3 x hx).1, (n3 x hx).2.2.2.1]
      have go : (t.node x).kids j = some c → (t'.node c).pre = (t'.node c).reward + if (t.node x).depth % P.window = 0 then 0 else (t.node x).pre := by
        intro h
        have hc := (ht.child x j c hx hj h).2.1
        rw [(n3 c hc).2.2.2.1, (n3 c hc).2.2.2.2.1]
        exact hp x j c hx hj h
      by_cases hx' : x = id
      · subst hx'
        rw [if_pos rfl] at h
        by_cases hj' : j = i
        · subst hj'
          rw [Function.update_self] at h
          cases h
          exact hq
        · rw [Function.update_of_ne hj'] at h
          exact go h
      · rw [if_neg hx'] at h
        exact go h
    · rw [n1] at h; cases h
  · intro hr
    obtain ⟨r1, r2⟩ := hr
    refine ⟨?_, fun x j => ?_⟩
    · rw [ed, List.nodup_append]
      refine ⟨r1, List.nodup_range.map fun a b h => (Prod.mk.inj h).2, ?_⟩
      rintro ⟨x, j⟩ h1 ⟨y, l⟩ h2 e
      cases e
      have := ((r2 x j).1 h1).1
      obtain ⟨l, _, e⟩ := List.mem_map.1 h2
      cases e
      omega
    · rw [ed, List.mem_append, r2, sz]
      constructor
      · rintro (h | h)
        · exact ⟨by omega, h.2⟩
        · obtain ⟨l, hl, e⟩ := List.mem_map.1 h
          cases e
          exact ⟨by omega, List.mem_range.1 hl⟩
      · rintro ⟨h1, h2⟩
        rcases Nat.lt_succ_iff_lt_or_eq.1 h1 with h1 | rfl
        · exact Or.inl ⟨h1, h2⟩
        · exact Or.inr (List.mem_map.2 ⟨j, List.mem_range.2 h2, rfl⟩)

/-- The nodes of the tree after a back-up. -/
theorem backup_node (P : Params S H) (t : Tree S H) (id c : Nat) (v : ℝ) (hne : id ≠ c) (x : Nat) :
    ((backup P t id c v).1.node x).kids = (t.node x).kids ∧ ((backup P t id c v).1.node x).depth = (t.node x).depth ∧
    ((backup P t id c v).1.node x).visits = (t.node x).visits + (if x = c then 1 else 0) ∧ ((backup P t id c v).1.node x).pre = (t.node x).pre ∧
    ((backup P t id c v).1.node x).reward = (t.node x).reward ∧ (x ≠ id → ((backup P t id c v).1.node x).q = (t.node x).q) := by
  unfold backup
  dsimp only [Tree.note]
  by_cases h : x = c
  · subst h
    rw [Function.update_self, if_pos rfl]
    exact ⟨rfl, rfl, rfl, rfl, rfl, fun _ => rfl⟩
  · rw [Function.update_of_ne h, if_neg h]
    by_cases h' : x = id
    · subst h'
      rw [Function.update_self]
      exact ⟨rfl, rfl, rfl, rfl, rfl, fun h => absurd rfl h⟩
    · rw [Function.update_of_ne h']
      exact ⟨rfl, rfl, rfl, rfl, rfl, fun _ => rfl⟩

theorem through_did (P : Params S H) (t t' : Tree S H) (id i c : Nat) (ht : IsTree P t) (hid : id < t.size) (hi : i < P.nAct)
    (hk : (t.node id).kids i = some c) (hd : (t.node c).depth = P.maxDepth) (h : Did P t t' c 0) : Did P t t' id 1 := by
  obtain ⟨hlt, hc, hcd⟩ := ht.child id i c hid hi hk
  obtain ⟨hs, hv⟩ := h.bump rfl
  obtain ⟨b1, b2⟩ := below_bump P t t' c ht hs.kids fun x _ => hv x
  refine ⟨h.tree, h.grow, fun h => absurd h Nat.one_ne_zero, fun _ => by rw [h.ret rfl]; exact hlt, fun _ x hx => ?_, h.kids, h.depth, h.mono,
    fun h => absurd h Nat.one_ne_zero, fun _ => b1 id i hid hi hk, fun _ x hx hne hxd => ?_, h.fresh, fun hw x h0 hx _ => h.within hw x h0 hx fun _ => rfl,
    h.pref, h.reg, h.diff⟩
  · rw [hv, if_neg (by omega), Nat.add_zero]
  · have hxc : x ≠ c := by
      rintro rfl
      omega
    rw [hv, if_neg hxc, Nat.add_zero, b2 x hx]
    intro j hj h'
    exact hne (ht.once x j id i c hx hid hj hi h' hk).1

theorem backup_did (P : Params S H) (t t1 : Tree S H) (id i c k : Nat) (v : ℝ) (ht : IsTree P t) (hid : id < t.size) (hi : i < P.nAct)
    (hk : (t.node id).kids i = some c) (hd : (t.node c).depth < P.maxDepth) (h : Did P t t1 c (k + 1)) :
    Did P t (backup P t1 id c v).1 id (k + 2) := by
  obtain ⟨hlt, hc, hcd⟩ := ht.child id i c hid hi hk
  have hne : id ≠ c := by omega
  have hn := backup_node P t1 id c v hne
  have mn := note_min { t1 with node := (backup P t1 id c v).1.node } (t1.node c).q
  have e1 : (backup P t1 id c v).1 = Tree.note { t1 with node := (backup P t1 id c v).1.node } (t1.node c).q := rfl
  rw [← e1] at mn
  have sz : (backup P t1 id c v).1.size = t1.size := rfl
  have rt : (backup P t1 id c v).1.returned = t1.returned := rfl
  have ed : (backup P t1 id c v).1.edges = t1.edges := rfl
  have df : (backup P t1 id c v).1.qDiff = t1.qDiff := rfl
  clear e1
  generalize (backup P t1 id c v).1 = t2 at *
  have hs : Same t1 t2 := ⟨sz, fun x => (hn x).1, fun x => (hn x).2.1⟩
  obtain ⟨b1, b2⟩ := below_bump P t1 t2 c h.tree hs.kids fun x _ => (hn x).2.2.1
  have hk1 := h.kids id i c hid hi hk
  have hg := h.grow
  have hid1 : id < t1.size := by omega
  have hc1 : c < t1.size := by omega
  have other : ∀ x, x < t1.size → x ≠ id → below P t2 x = below P t1 x := by
    intro x hx hne
    refine b2 x hx fun j hj h' => ?_
    exact hne (h.tree.once x j id i c hx hid1 hj hi h' hk1).1
  have stay := h.stay (Nat.succ_pos k)
  have kept := h.kept (Nat.succ_pos k)
  have more := h.more (Nat.succ_pos k)
  refine ⟨h.tree.same hs, by omega, fun h => absurd h (by omega), fun _ => ?_, fun _ x hx => ?_, ?_, ?_, ?_, fun h => absurd h (by omega), fun _ => ?_,
    fun _ x hx hx' hxd => ?_, fun hf => ?_, fun hw x h0 hx hx' => ?_, fun hp => ?_, fun hr => ?_, df.trans h.diff⟩
  · rw [rt]
    have := h.ret' (Nat.succ_pos k)
    omega
  · rw [(hn x).2.2.1, if_neg (by omega), Nat.add_zero]
    exact stay x (by omega)
  · intro x j y hx hj h'
    rw [(hn x).1]
    exact h.kids x j y hx hj h'
  · intro x hx
    rw [(hn x).2.1]
    exact h.depth x hx
  · intro x hx
    rw [(hn x).2.2.1]
    exact (h.mono x hx).trans (Nat.le_add_right _ _)
  · have e1 := b1 id i hid1 hi hk1
    have e2 := kept id hid hne (by omega)
    have e3 := stay id (by omega)
    omega
  · have e1 := other x (by omega) hx'
    by_cases hxc : x = c
    · subst hxc
      have e2 := (hn x).2.2.1
      rw [if_pos rfl] at e2
      have e3 := stay x (Nat.le_refl x)
      omega
    · have e2 := (hn x).2.2.1
      rw [if_neg hxc] at e2
      have e3 := kept x hx hxc hxd
      omega
  · rw [sz] at hf
    obtain ⟨f1, f2⟩ := h.fresh hf
    refine ⟨?_, ?_⟩
    · rw [(hn _).2.2.1, if_neg (by omega)]
      exact f1
    · rw [other _ hf (by omega)]
      exact f2
  · have hxid : x ≠ id := fun h => absurd (hx' h) (by omega)
    rw [sz] at hx
    unfold Within
    rw [(hn x).2.2.2.2.2 hxid]
    by_cases hxc : x = c
    · subst hxc
      exact ⟨mn.1, mn.2.2.1⟩
    · obtain ⟨w1, w2⟩ := h.within hw x h0 hx fun h => absurd h hxc
      exact ⟨mn.2.1.trans w1, w2.trans mn.2.2.2⟩
  · intro x j y hx hj h'
    rw [(hn x).1] at h'
    rw [(hn y).2.2.2.1, (hn y).2.2.2.2.1, (hn x).2.1, (hn x).2.2.2.1]
    exact h.pref hp x j y (sz ▸ hx) hj h'
  · have := h.reg hr
    unfold Registered
    rw [ed, sz]
    exact this

/-- Every visit of a node with `k` levels left. -/
theorem visit_did (P : Params S H) (sel : Tree S H → Nat → Nat → Option Nat) : ∀ (k : Nat) (t : Tree S H) (id : Nat) (t' : Tree S H) (v : ℝ),
    IsTree P t → id < t.size → (t.node id).depth + k = P.maxDepth → visit P sel k t id = some (t', v) → Did P t t' id k := by
  intro k
  induction k with
  | zero =>
    intro t id t' v ht hid hd h
    have e : leaf t id = (t', v) := Option.some.inj h
    have := leaf_did P t id ht hid
    rw [e] at this
    exact this
  | succ k ih =>
    intro t id t' v ht hid hd h
    have hdp : P.maxDepth - (k + 1) = (t.node id).depth := by omega
    rw [visit.eq_2, hdp] at h
    obtain ⟨i, _, h⟩ := Option.bind_eq_some_iff.1 h
    by_cases hi : i < P.nAct
    · rw [if_pos hi] at h
      cases hk : (t.node id).kids i with
      | none =>
        rw [hk] at h
        have e : expand P t id i (t.node id).depth = (t', v) := Option.some.inj h
        have := expand_did P t id i k ht hid hi (by omega) hk
        rw [e] at this
        exact this
      | some c =>
        rw [hk] at h
        obtain ⟨⟨t1, v1⟩, h1, h⟩ := Option.bind_eq_some_iff.1 h
        obtain ⟨hlt, hc, hcd⟩ := ht.child id i c hid hi hk
        have did := ih t c t1 v1 ht hc (by omega) h1
        dsimp only at h
        by_cases hr : c = t1.returned
        · rw [if_pos hr] at h
          cases h
          cases k with
          | zero => exact through_did P t t' id i c ht hid hi hk (by omega) did
          | succ k =>
            have := did.ret' (Nat.succ_pos k)
            omega
        · rw [if_neg hr] at h
          have e : backup P t1 id c v1 = (t', v) := Option.some.inj h
          cases k with
          | zero => exact absurd (did.ret rfl).symm hr
          | succ k =>
            have := backup_did P t t1 id i c k v1 ht hid hi hk (by omega) did
            rw [e] at this
            exact this
    · rw [if_neg hi] at h
      cases h

/-- Every visit ends when the choices are edges. -/
theorem visit_total (P : Params S H) (sel : Tree S H → Nat → Nat → Option Nat) (hsel : ∀ t id d, ∃ i, i < P.nAct ∧ sel t id d = some i) :
    ∀ (k : Nat) (t : Tree S H) (id : Nat), ∃ r, visit P sel k t id = some r := by
  intro k
  induction k with
  | zero => exact fun t id => ⟨_, rfl⟩
  | succ k ih =>
    intro t id
    obtain ⟨i, hi, hs⟩ := hsel t id (P.maxDepth - (k + 1))
    rw [visit.eq_2, hs]
    show ∃ r, (if i < P.nAct then _ else none) = some r
    rw [if_pos hi]
    cases hk : (t.node id).kids i with
    | none => exact ⟨_, rfl⟩
    | some c =>
      obtain ⟨r, hr⟩ := ih t c
      dsimp only
      rw [hr]
      show ∃ r', (if c = r.1.returned then some r else _) = some r'
      by_cases h : c = r.1.returned
      · exact ⟨_, if_pos h⟩
      · exact ⟨_, if_neg h⟩

/-- What holds after every number of simulations. -/
structure Inv (P : Params S H) (n : Nat) (t : Tree S H) : Prop where
  tree : IsTree P t
  size : t.size ≤ n + 1
  root : (t.node 0).visits = 0
  sum : below P t 0 = n
  each : ∀ x, 0 < x → x < t.size → (t.node x).depth < P.maxDepth → (t.node x).visits = 1 + below P t x
  seen : ∀ x, 0 < x → x < t.size → 1 ≤ (t.node x).visits
  within : ∀ x, 0 < x → x < t.size → Within t x
  pref : Prefix P t
  reg : Registered P t
  diff : t.qDiff = 1000000000

theorem Sims.inv {P : Params S H} {s : S} (hd : 0 < P.maxDepth) : ∀ {n : Nat} {t : Tree S H}, Sims P s n t → Inv P n t := by
  intro n t h
  induction h with
  | init =>
    have hs : (Search.init P s).size = 1 := rfl
    refine ⟨⟨Nat.one_pos, rfl, (fun x i c _ _ h => by cases h), fun x _ => Nat.zero_le _, (fun c h0 h1 => by omega), (fun x i y j c _ _ _ _ h => by cases h)⟩, Nat.le_refl _, rfl,
      Finset.sum_eq_zero fun i _ => rfl, (fun x h0 h1 => by omega), (fun x h0 h1 => by omega), (fun x h0 h1 => by omega), (fun x i c _ _ h => by cases h), ⟨?_, ?_⟩, rfl⟩
    · exact List.nodup_range.map fun a b h => (Prod.mk.inj h).2
    · intro x i
      show (x, i) ∈ (List.range P.nAct).map (fun i => (0, i)) ↔ x < 1 ∧ i < P.nAct
      rw [List.mem_map]
      constructor
      · rintro ⟨j, hj, e⟩
        cases e
        exact ⟨Nat.one_pos, List.mem_range.1 hj⟩
      · rintro ⟨h1, h2⟩
        obtain rfl : x = 0 := by omega
        exact ⟨i, List.mem_range.2 h2, rfl⟩
  | @step n t t' sel v hs hv ih =>
    have did := visit_did P sel P.maxDepth t 0 t' v ih.tree ih.tree.pos (by rw [ih.tree.root, Nat.zero_add]) hv
    have hg := did.grow
    have cases' : ∀ x, x < t'.size → x < t.size ∨ (x = t.size ∧ t.size < t'.size) := fun x hx => by omega
    refine ⟨did.tree, by have := ih.size; omega, ?_, ?_, ?_, ?_, ?_, did.pref ih.pref, did.reg ih.reg, did.diff.trans ih.diff⟩
    · rw [did.stay hd 0 (Nat.le_refl 0)]
      exact ih.root
    · rw [did.more hd, ih.sum]
    · intro x h0 hx hxd
      rcases cases' x hx with h | ⟨rfl, h⟩
      · rw [did.depth x h] at hxd
        have e1 := did.kept hd x h (by omega) hxd
        have e2 := ih.each x h0 h hxd
        omega
      · obtain ⟨e1, e2⟩ := did.fresh h
        omega
    · intro x h0 hx
      rcases cases' x hx with h | ⟨rfl, h⟩
      · exact (ih.seen x h0 h).trans (did.mono x h)
      · exact le_of_eq (did.fresh h).1.symm
    · intro x h0 hx
      exact did.within ih.within x h0 hx fun h => absurd h (by omega)

/-! ### Properties -/

/-- **C138, the counts of the search.** After any number `n` of simulations, whatever the networks
predict and whatever edges were chosen: the nodes form a tree no deeper than the maximum depth with
at most `n + 1` nodes, every edge is registered exactly once, the visits of the children of the root
sum to `n`, and every other node above the maximum depth was visited once more than its children
together. -/
theorem C138_counts (P : Params S H) (s : S) (hd : 0 < P.maxDepth) (n : Nat) (t : Tree S H) (h : Sims P s n t) :
    IsTree P t ∧ t.size ≤ n + 1 ∧ t.edges.Nodup ∧ (∀ x i, (x, i) ∈ t.edges ↔ x < t.size ∧ i < P.nAct) ∧
      ∑ i ∈ range P.nAct, seen t ((t.node 0).kids i) = n ∧
      (∀ x, 0 < x → x < t.size → 1 ≤ (t.node x).visits) ∧
      ∀ x, 0 < x → x < t.size → (t.node x).depth < P.maxDepth → (t.node x).visits = 1 + ∑ i ∈ range P.nAct, seen t ((t.node x).kids i) :=
  let inv := h.inv hd
  ⟨inv.tree, inv.size, inv.reg.1, inv.reg.2, inv.sum, inv.seen, inv.each⟩

/-- **C138, the bounds.** After any number of simulations the recorded minimum and maximum enclose
the value of every node but the root. -/
theorem C138_bounds (P : Params S H) (s : S) (hd : 0 < P.maxDepth) (n : Nat) (t : Tree S H) (h : Sims P s n t) (x : Nat) (h0 : 0 < x) (hx : x < t.size) :
    t.qMin ≤ (t.node x).q ∧ (t.node x).q ≤ t.qMax := (h.inv hd).within x h0 hx

/-- A path in the tree: each node is a child of the one before. -/
inductive Path (P : Params S H) (t : Tree S H) : Nat → List Nat → Prop where
  | nil (x : Nat) : x < t.size → Path P t x []
  | cons {x i c : Nat} {l : List Nat} : x < t.size → i < P.nAct → (t.node x).kids i = some c → Path P t c l → Path P t x (c :: l)

/-- **C138, the rewards.** Along every path that starts where a window begins and does not reach
the beginning of the next one before its last node, the rewards of the nodes after the first sum to
the predicted prefix of the last. -/
theorem C138_rewards (P : Params S H) (s : S) (hd : 0 < P.maxDepth) (n : Nat) (t : Tree S H) (h : Sims P s n t) (x c : Nat) (l : List Nat)
    (hx : (t.node x).depth % P.window = 0) (hp : Path P t x (l ++ [c])) (hl : ∀ y ∈ l, (t.node y).depth % P.window ≠ 0) :
    ((l ++ [c]).map fun y => (t.node y).reward).sum = (t.node c).pre := by
  have hpre := (h.inv hd).pref
  have go : ∀ (l : List Nat) (x : Nat), Path P t x (l ++ [c]) → (∀ y ∈ l, (t.node y).depth % P.window ≠ 0) →
      (if (t.node x).depth % P.window = 0 then 0 else (t.node x).pre) + ((l ++ [c]).map fun y => (t.node y).reward).sum = (t.node c).pre := by
    intro l
    induction l with
    | nil =>
      intro x hp _
      cases hp with
      | cons hx hi hk _ =>
        rw [hpre x _ c hx hi hk]
        simp only [List.nil_append, List.map_cons, List.map_nil, List.sum_cons, List.sum_nil, add_zero]
        exact add_comm _ _
    | cons y l ih =>
      intro x hp hl
      cases hp with
      | cons hx hi hk hp' =>
        have e := ih y hp' fun z hz => hl z (List.mem_cons_of_mem _ hz)
        rw [if_neg (hl y List.mem_cons_self)] at e
        have e2 := hpre x _ y hx hi hk
        rw [List.cons_append, List.map_cons, List.sum_cons, ← e, e2]
        ring
  have := go l x hp hl
  rw [if_pos hx, zero_add] at this
  exact this

/-- **C138, a simulation ends.** Whatever tree has been built, a simulation whose choices are
existing edges ends in a tree. -/
theorem C138_total (P : Params S H) (s : S) (sel : Tree S H → Nat → Nat → Option Nat) (hsel : ∀ t id d, ∃ i, i < P.nAct ∧ sel t id d = some i)
    (n : Nat) : ∃ t, Sims P s n t := by
  induction n with
  | zero => exact ⟨_, Sims.init⟩
  | succ n ih =>
    obtain ⟨t, ht⟩ := ih
    obtain ⟨⟨t', v⟩, h⟩ := visit_total P sel hsel P.maxDepth t 0
    exact ⟨t', ht.step h⟩

/-- The edges of the root as `get_mcts_probability` and `get_mcts_v` read them. -/
noncomputable def rootEdges (P : Params S H) (t : Tree S H) : List LLab.Mcts.Edge :=
  (List.range P.nAct).map fun i => ⟨(t.node 0).prior i, ((t.node 0).kids i).map fun c => ((t.node c).visits, (t.node c).q)⟩

theorem rootEdges_child (P : Params S H) (s : S) (hd : 0 < P.maxDepth) (n : Nat) (t : Tree S H) (h : Sims P s n t) (hn : 0 < n) :
    (∀ e ∈ rootEdges P t, ∀ c ∈ e.child, 1 ≤ c.1) ∧ (∃ e ∈ rootEdges P t, e.child.isSome) ∧
    ∀ e ∈ rootEdges P t, ∀ c ∈ e.child, t.qMin ≤ c.2 ∧ c.2 ≤ t.qMax := by
  have inv := h.inv hd
  have node : ∀ e ∈ rootEdges P t, ∀ c ∈ e.child, ∃ x, 0 < x ∧ x < t.size ∧ c = ((t.node x).visits, (t.node x).q) := by
    intro e he c hc
    obtain ⟨i, hi, rfl⟩ := List.mem_map.1 he
    obtain ⟨x, hx, rfl⟩ := Option.map_eq_some_iff.1 hc
    obtain ⟨h1, h2, _⟩ := inv.tree.child 0 i x inv.tree.pos (List.mem_range.1 hi) hx
    exact ⟨x, h1, h2, rfl⟩
  refine ⟨fun e he c hc => ?_, ?_, fun e he c hc => ?_⟩
  · obtain ⟨x, h0, hx, rfl⟩ := node e he c hc
    exact inv.seen x h0 hx
  · by_contra hno
    push Not at hno
    have : below P t 0 = 0 := by
      refine Finset.sum_eq_zero fun i hi => ?_
      have := hno _ (List.mem_map.2 ⟨i, List.mem_range.2 (Finset.mem_range.1 hi), rfl⟩)
      cases hk : (t.node 0).kids i with
      | none => rfl
      | some c =>
        rw [hk] at this
        exact absurd rfl this
    have := inv.sum
    omega
  · obtain ⟨x, h0, hx, rfl⟩ := node e he c hc
    exact inv.within x h0 hx

theorem list_sum (f : Nat → ℝ) (n : Nat) : ((List.range n).map f).sum = ∑ i ∈ range n, f i := by
  induction n with
  | zero => rfl
  | succ n ih => rw [List.range_succ, List.map_append, List.sum_append, ih, Finset.sum_range_succ, List.map_singleton, List.sum_singleton]

/-- **C138, the policy of the search.** With temperature 1, `get_mcts_probability` after `n ≥ 1`
simulations returns for each action the fraction of the simulations that began with it. -/
theorem C138_policy (P : Params S H) (s : S) (hd : 0 < P.maxDepth) (n : Nat) (t : Tree S H) (h : Sims P s n t) (hn : 0 < n) :
    ∃ es, LLab.Mcts.probability 1 (rootEdges P t) = some (es, (List.range P.nAct).map fun i => (seen t ((t.node 0).kids i) : ℝ) / n) := by
  obtain ⟨h1, h2, _⟩ := rootEdges_child P s hd n t h hn
  obtain ⟨es, p, e, hl, u1, u2, u3, hw⟩ := LLab.Mcts.C57_probability_partial 1 one_pos (rootEdges P t) h1 h2
  refine ⟨es, ?_⟩
  rw [e]
  have wt : ∀ i, LLab.Mcts.weight 1 ⟨(t.node 0).prior i, ((t.node 0).kids i).map fun c => ((t.node c).visits, (t.node c).q)⟩ = (seen t ((t.node 0).kids i) : ℝ) := by
    intro i
    unfold LLab.Mcts.weight
    cases (t.node 0).kids i with
    | none => exact Nat.cast_zero.symm
    | some c =>
      show ((⌊((t.node c).visits : ℝ) ^ ((1 : ℝ) / 1)⌋₊ : ℕ) : ℝ) = ((t.node c).visits : ℝ)
      rw [div_one, Real.rpow_one, Nat.floor_natCast]
  have sum : ((rootEdges P t).map (LLab.Mcts.weight 1)).sum = (n : ℝ) := by
    unfold rootEdges
    rw [List.map_map, ← (h.inv hd).sum]
    unfold below
    rw [Nat.cast_sum, list_sum]
    exact Finset.sum_congr rfl fun i _ => wt i
  rw [sum] at hw
  have : p = (rootEdges P t).map fun e => LLab.Mcts.weight 1 e / (n : ℝ) := by
    clear e hl u1 u2 u3
    generalize rootEdges P t = l at hw
    induction hw with
    | nil => rfl
    | cons h _ ih => rw [List.map_cons, ← ih, ← h]
  rw [this]
  unfold rootEdges
  rw [List.map_map]
  congr 2
  refine List.map_congr_left fun i _ => ?_
  show LLab.Mcts.weight 1 _ / (n : ℝ) = _
  rw [wt]

/-- **C138, the value of the search.** After `n ≥ 1` simulations that recorded two different values
`get_mcts_v` is between 0 and 1, for every positive temperature. -/
theorem C138_value (P : Params S H) (s : S) (hd : 0 < P.maxDepth) (n : Nat) (t : Tree S H) (h : Sims P s n t) (hn : 0 < n) (hq : t.qMin < t.qMax)
    (temp : ℝ) (ht : 0 < temp) :
    ∃ es p v, LLab.Mcts.probability temp (rootEdges P t) = some (es, p) ∧ LLab.Mcts.searchValue t.qMin t.qMax es p = some v ∧ 0 ≤ v ∧ v ≤ 1 := by
  obtain ⟨h1, h2, h3⟩ := rootEdges_child P s hd n t h hn
  obtain ⟨es, p, v, a, b, c, d, _⟩ := LLab.Mcts.C57_value temp ht (rootEdges P t) h1 h2 t.qMin t.qMax hq h3
  exact ⟨es, p, v, a, b, c, d⟩

/-- **C138, the value of one simulation is refuted.** After the first simulation, whatever the
networks predict (as long as it is between the initial bounds), the recorded minimum and maximum are
equal, so the normalisation of every value divides by zero. -/
theorem C138_single_refuted (P : Params S H) (s : S) (hd : 0 < P.maxDepth) (t : Tree S H) (h : Sims P s 1 t)
    (hb : ∀ x, 0 < x → x < t.size → -1000000000 < (t.node x).q ∧ (t.node x).q < 1000000000) : t.qMax - t.qMin = 0 := by
  cases h with
  | @step n t0 _ sel v h0 hv =>
    cases h0
    obtain ⟨k, hk⟩ : ∃ k, P.maxDepth = k + 1 := ⟨P.maxDepth - 1, by omega⟩
    rw [hk, visit.eq_2] at hv
    obtain ⟨i, _, hv⟩ := Option.bind_eq_some_iff.1 hv
    by_cases hi : i < P.nAct
    · rw [if_pos hi] at hv
      have e : expand P (init P s) 0 i (P.maxDepth - (k + 1)) = (t, v) := Option.some.inj hv
      have e1 : t = (expand P (init P s) 0 i (P.maxDepth - (k + 1))).1 := by rw [e]
      have hsz : t.size = 2 := by rw [e1]; rfl
      obtain ⟨b1, b2⟩ := hb 1 Nat.one_pos (by omega)
      have q1 : t.qMin = if (t.node 1).q < 1000000000 then (t.node 1).q else 1000000000 := by rw [e1]; rfl
      have q2 : t.qMax = if (t.node 1).q > -1000000000 then (t.node 1).q else -1000000000 := by rw [e1]; rfl
      rw [q1, q2, if_pos b2, if_pos b1, sub_self]
    · rw [if_neg hi] at hv
      cases hv

/-- **C138, the difference of the bounds is refuted.** The recorded difference is never the
difference of the recorded bounds unless that is its initial value: it never changes. -/
theorem C138_difference_refuted (P : Params S H) (s : S) (hd : 0 < P.maxDepth) (n : Nat) (t : Tree S H) (h : Sims P s n t) : t.qDiff = 1000000000 :=
  (h.inv hd).diff

/-- **C138, the values of the nodes are refuted.** When a simulation passes through a child `c` of
the root and grows the tree there, `c` counts one more visit but its value stays as it was, whatever
the new node is worth: its value is not the mean over its visits. -/
theorem C138_mean_refuted (P : Params S H) (sel : Tree S H → Nat → Nat → Option Nat) (k : Nat) (t t' : Tree S H) (v : ℝ) (i j c : Nat) (ht : IsTree P t)
    (hi : i < P.nAct) (hj : j < P.nAct) (hk : (t.node 0).kids i = some c) (hk' : (t.node c).kids j = none) (hm : P.maxDepth = k + 2)
    (hs : sel t 0 0 = some i) (hs' : sel t c 1 = some j) (h : visit P sel P.maxDepth t 0 = some (t', v)) :
    (t'.node c).visits = (t.node c).visits + 1 ∧ (t'.node c).q = (t.node c).q := by
  obtain ⟨hlt, hc, hcd⟩ := ht.child 0 i c ht.pos hi hk
  rw [hm, visit.eq_2, hm, Nat.sub_self, hs] at h
  change (if i < P.nAct then _ else none) = _ at h
  rw [if_pos hi, hk] at h
  dsimp only at h
  rw [visit.eq_2, hm] at h
  have e : k + 2 - (k + 1) = 1 := by omega
  rw [e, hs'] at h
  change Option.bind (if j < P.nAct then _ else none) _ = _ at h
  rw [if_pos hj, hk'] at h
  change (if c = t.size then _ else _) = _ at h
  rw [if_neg (by omega)] at h
  have e1 : t' = (backup P (expand P t c j 1).1 0 c (expand P t c j 1).2).1 := (congrArg Prod.fst (Option.some.inj h)).symm
  obtain ⟨_, _, b, _, _, q⟩ := backup_node P (expand P t c j 1).1 0 c (expand P t c j 1).2 (by omega) c
  obtain ⟨_, _, _, n3⟩ := expand_node P t c j 1
  rw [e1, b, if_pos rfl, q (by omega), (n3 c hc).2.1, (n3 c hc).2.2.1]
  exact ⟨rfl, rfl⟩

/-- **C138, the support of the distributions is refuted.** The number read from a distribution over
`n` values shifted by an offset is not its mean: it is off by `n - 1` times the offset. -/
theorem C138_support_refuted (a : Nat → ℝ) (offset : ℝ) (n : Nat) (ha : ∑ i ∈ range n, a i = 1) :
    byIndices a offset n = ∑ i ∈ range n, ((i : ℝ) + offset) * a i + ((n : ℝ) - 1) * offset := by
  have e : ∑ i ∈ range n, ((i : ℝ) + offset) * a i = ∑ i ∈ range n, (i : ℝ) * a i + offset := by
    rw [Finset.sum_congr rfl fun (i : Nat) _ => add_mul (i : ℝ) offset (a i), Finset.sum_add_distrib, ← Finset.mul_sum, ha, mul_one]
  unfold byIndices
  rw [e, Finset.sum_add_distrib, Finset.sum_const, Finset.card_range, nsmul_eq_mul]
  ring

/-! ### The hypotheses hold somewhere -/

/-- Two actions, depth two; states count the actions taken and the value is that count. -/
def exP : Params Nat Unit :=
  { nAct := 2, window := 2, gamma := 1, maxDepth := 2, dyn := fun s i => s + i + 1, policy := fun _ _ => 1, value := fun s => s, rew := fun s _ => (s, ()), zero := () }

example : ∃ t, Sims exP 0 7 t := C138_total exP 0 (fun _ _ _ => some 1) (fun _ _ _ => ⟨1, by decide, rfl⟩) 7

/-- After the first simulation along edge 0 a second one can pass through the new node and grow there. -/
example : IsTree exP (expand exP (init exP 0) 0 0 0).1 ∧ ((expand exP (init exP 0) 0 0 0).1.node 0).kids 0 = some 1 ∧
    ((expand exP (init exP 0) 0 0 0).1.node 1).kids 1 = none ∧ Sims exP 0 1 (expand exP (init exP 0) 0 0 0).1 := by
  have h : Sims exP 0 1 (expand exP (init exP 0) 0 0 0).1 := Sims.init.step (sel := fun _ _ _ => some 0) (v := (expand exP (init exP 0) 0 0 0).2) rfl
  exact ⟨(h.inv (by decide)).tree, rfl, rfl, h⟩

/-- The second simulation of that example, along the edges 0 and 1. -/
noncomputable def exT : Tree Nat Unit := (backup exP (expand exP (expand exP (init exP 0) 0 0 0).1 1 1 1).1 0 1 (expand exP (expand exP (init exP 0) 0 0 0).1 1 1 1).2).1

theorem exT_sims : Sims exP 0 2 exT :=
  (Sims.init.step (sel := fun _ _ _ => some 0) (v := (expand exP (init exP 0) 0 0 0).2) rfl).step
    (sel := fun _ _ d => some d) (v := (backup exP (expand exP (expand exP (init exP 0) 0 0 0).1 1 1 1).1 0 1 (expand exP (expand exP (init exP 0) 0 0 0).1 1 1 1).2).2) rfl

/-- It recorded two values, and its path of two nodes stays in the first window. -/
example : exT.qMin < exT.qMax ∧ Path exP exT 0 ([1] ++ [2]) ∧ (exT.node 0).depth % 2 = 0 ∧ (exT.node 1).depth % 2 ≠ 0 := by
  have q1 : (exT.node 1).q = 2 := by
    simp [exT, backup, expand, Tree.note, init, exP, Function.update]
    norm_num
  have q2 : (exT.node 2).q = 5 := by
    simp [exT, backup, expand, Tree.note, init, exP, Function.update]
    norm_num
  have b1 := C138_bounds exP 0 (by decide) 2 exT exT_sims 1 (by decide) (by decide)
  have b2 := C138_bounds exP 0 (by decide) 2 exT exT_sims 2 (by decide) (by decide)
  refine ⟨by linarith, ?_, rfl, by decide⟩
  exact Path.cons (i := 0) (by decide) (by decide) rfl (Path.cons (i := 1) (by decide) (by decide) rfl (Path.nil 2 (by decide)))

end LLab.Search
