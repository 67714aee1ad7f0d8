import Verif.Aco.Colony
import Verif.Aco.Trails

/-!
Properties C102 (every node and edge is collected once), C103 (one pheromone update), C104 (the best
trail), C105 (the pheromone bounds) and C106 (stagnation).
-/

namespace LLab.Aco

variable {F : Type}

/-! ### The shape of the graph -/

section

variable [Zero F]

/-- Every edge leads to a node with a larger number. -/
theorem layout_forward {g : Graph F} (ls : List (LayerSpec F)) : ∀ (ps : Nat → Prop) (b : Nat),
    (∀ l ∈ ls, l.Ok) → (∀ p, ps p → p < b) → Layout g ps b ls →
    ∀ n, (ps n ∨ (b ≤ n ∧ n < endOf b ls)) → ∀ x ∈ g.succ n, n < x.2 := by
  induction ls with
  | nil =>
    intro ps b _ hp h n hn x hx
    rcases hn with hn | ⟨h1, h2⟩
    · rw [h n hn] at hx; simp at hx
    · simp only [endOf] at h2; omega
  | cons l ls ih =>
    intro ps b hok hp ⟨h1, h2, h3⟩ n hn x hx
    obtain ⟨hi, ho, hw, ha⟩ := id (hok l (by simp))
    have hN : 0 < l.cells := Nat.mul_pos hi ho
    have hsz : l.size = l.cells * l.width + 1 + l.acts.length := rfl
    by_cases hps : ps n
    · rw [h1 n hps] at hx
      obtain ⟨k, hk, rfl⟩ := List.mem_map.1 hx
      have := hp n hps
      simp only; omega
    · obtain ⟨h4, h5⟩ := hn.resolve_left hps
      rcases Nat.lt_or_ge n (b + l.cells * l.width) with hc | hc
      · have hcell : n = b + ((n - b) / l.width * l.width + (n - b) % l.width) := by
          have := Nat.div_add_mod (n - b) l.width
          rw [Nat.mul_comm] at this
          omega
        have hk := Nat.mod_lt (n - b) hw
        have hcl : (n - b) / l.width < l.cells := by
          rw [Nat.div_lt_iff_lt_mul hw]; omega
        generalize (n - b) / l.width = c at hcell hcl
        generalize (n - b) % l.width = k at hcell hk
        subst hcell
        rcases Nat.lt_or_ge (c + 1) l.cells with hc1 | hc1
        · rw [h2.next c k hc1 hk] at hx
          obtain ⟨j, hj, rfl⟩ := List.mem_map.1 hx
          have := Nat.add_mul c 1 l.width
          simp only; omega
        · rw [h2.last c k (by omega) hk] at hx
          rw [List.mem_singleton.1 hx]
          simp only; omega
      · rcases Nat.eq_or_lt_of_le hc with hc | hc
        · subst hc
          rw [h2.fclNext] at hx
          obtain ⟨j, hj, rfl⟩ := List.mem_map.1 hx
          simp only; omega
        · apply ih (actsOf b l) (b + l.size) (fun m hm => hok m (by simp [hm]))
            (fun p hp => actsOf_lt hp) h3 n _ x hx
          rcases Nat.lt_or_ge n (b + l.size) with h6 | h6
          · left
            exact ⟨n - (b + l.cells * l.width + 1), by omega, by omega⟩
          · exact Or.inr ⟨h6, h5⟩


/-- Every node of the layers is entered from a node with a smaller number. -/
theorem layout_pred {g : Graph F} (ls : List (LayerSpec F)) : ∀ (ps : Nat → Prop) (b : Nat),
    (∀ l ∈ ls, l.Ok) → (∀ p, ps p → p < b) → (∃ p, ps p) → Layout g ps b ls →
    ∀ n, b ≤ n → n < endOf b ls → ∃ m o, m < n ∧ (o, n) ∈ g.succ m := by
  induction ls with
  | nil =>
    intro ps b _ hp _ h n h1 h2
    simp only [endOf] at h2; omega
  | cons l ls ih =>
    intro ps b hok hp hne ⟨h1, h2, h3⟩ n h4 h5
    obtain ⟨hi, ho, hw, ha⟩ := id (hok l (by simp))
    have hA : 0 < l.acts.length := List.length_pos_iff.2 ha
    have hN : 0 < l.cells := Nat.mul_pos hi ho
    have hsz : l.size = l.cells * l.width + 1 + l.acts.length := rfl
    rcases Nat.lt_or_ge n (b + l.cells * l.width) with hc | hc
    · have hcell : n = b + ((n - b) / l.width * l.width + (n - b) % l.width) := by
        have := Nat.div_add_mod (n - b) l.width
        rw [Nat.mul_comm] at this
        omega
      have hk := Nat.mod_lt (n - b) hw
      have hcl : (n - b) / l.width < l.cells := by
        rw [Nat.div_lt_iff_lt_mul hw]; omega
      generalize (n - b) / l.width = c at hcell hcl
      generalize (n - b) % l.width = k at hcell hk
      cases c with
      | zero =>
        obtain ⟨p, hpp⟩ := hne
        refine ⟨p, .copy, by have := hp p hpp; omega, ?_⟩
        rw [h1 p hpp]
        exact List.mem_map.2 ⟨k, List.mem_range.2 hk, by rw [hcell]; simp⟩
      | succ c =>
        have := Nat.add_mul c 1 l.width
        refine ⟨b + (c * l.width + 0), .indexCopy, by omega, ?_⟩
        rw [h2.next c 0 hcl hw]
        exact List.mem_map.2 ⟨k, List.mem_range.2 hk, by rw [hcell]⟩
    · rcases Nat.eq_or_lt_of_le hc with hc | hc
      · have hlt : (l.cells - 1) * l.width + 0 < l.cells * l.width := cell_lt (by omega) hw
        refine ⟨b + ((l.cells - 1) * l.width + 0), .execute, by omega, ?_⟩
        rw [h2.last (l.cells - 1) 0 (by omega) hw, ← hc]
        simp
      · rcases Nat.lt_or_ge n (b + l.size) with h6 | h6
        · refine ⟨b + l.cells * l.width, .execute, by omega, ?_⟩
          rw [h2.fclNext]
          exact List.mem_map.2 ⟨n - (b + l.cells * l.width + 1), List.mem_range.2 (by omega), by
            rw [show b + l.cells * l.width + 1 + (n - (b + l.cells * l.width + 1)) = n by omega]⟩
        · exact ih (actsOf b l) (b + l.size) (fun m hm => hok m (by simp [hm])) (fun p hp => actsOf_lt hp)
            ⟨_, 0, hA, rfl⟩ h3 n h6 h5

theorem Built.forward {g : Graph F} {ls : List (LayerSpec F)} (b : Built g ls) (hok : ∀ l ∈ ls, l.Ok) :
    ∀ n, ∀ e ∈ g.outs n, n < g.dst e ∧ g.dst e < g.nodes := by
  intro n e he
  have hn : n < g.nodes := by
    by_contra hc
    rw [b.wf.outs_nil n (by omega)] at he
    simp at he
  refine ⟨?_, b.wf.dst_lt e (b.wf.outs_lt n e he)⟩
  refine layout_forward ls _ 1 hok (by intro p hp; omega) b.layout n ?_ (g.op e, g.dst e) ?_
  · rw [b.nodes] at hn
    rcases Nat.eq_zero_or_pos n with h | h
    · exact Or.inl h
    · exact Or.inr ⟨h, hn⟩
  · exact List.mem_map.2 ⟨e, he, rfl⟩

theorem Built.pred {g : Graph F} {ls : List (LayerSpec F)} (b : Built g ls) (hok : ∀ l ∈ ls, l.Ok) :
    ∀ n, 0 < n → n < g.nodes → ∃ m, m < n ∧ ∃ e ∈ g.outs m, g.dst e = n := by
  intro n h0 hn
  obtain ⟨m, o, h1, h2⟩ := layout_pred ls (· = 0) 1 hok (by intro p hp; omega) ⟨0, rfl⟩ b.layout n h0 (by
    rw [← b.nodes]; exact hn)
  obtain ⟨e, he, h3⟩ := List.mem_map.1 h2
  exact ⟨m, h1, e, he, (Prod.mk.inj h3).2⟩

/-! ### C102 -/

omit [Zero F] in
theorem collect_spec {g : Graph F} (hf : ∀ n, ∀ e ∈ g.outs n, n < g.dst e ∧ g.dst e < g.nodes) :
    ∀ (fuel n : Nat) (s : Found), n < g.nodes → g.nodes < fuel + n → s.nodes.Nodup →
    (∀ m, s.flag m = true ↔ m ∈ s.nodes) →
    ∃ new s', collect g fuel n s = some s' ∧ s'.nodes = s.nodes ++ new ∧ (s.nodes ++ new).Nodup ∧
      (∀ m, s'.flag m = true ↔ m ∈ s'.nodes) ∧ s'.edges.Perm (s.edges ++ new.flatMap g.outs) ∧
      n ∈ s'.nodes ∧ (∀ m ∈ new, m < g.nodes ∧ ∀ e ∈ g.outs m, g.dst e ∈ s'.nodes) := by
  intro fuel
  induction fuel with
  | zero => intro n s h1 h2; omega
  | succ fuel ih =>
    intro n s h1 h2 hnd hfl
    rw [collect]
    by_cases hc : s.flag n = true
    · rw [if_pos hc]
      exact ⟨[], s, rfl, by simp, by simpa using hnd, hfl, by simp, (hfl n).1 hc, by simp⟩
    · rw [if_neg hc]
      have key : ∀ (es : List Nat), (∀ e ∈ es, n < g.dst e ∧ g.dst e < g.nodes) → ∀ s : Found, s.nodes.Nodup →
          (∀ m, s.flag m = true ↔ m ∈ s.nodes) →
          ∃ new s', es.foldlM (fun s e => collect g fuel (g.dst e) { s with edges := s.edges ++ [e] }) s = some s' ∧
            s'.nodes = s.nodes ++ new ∧ (s.nodes ++ new).Nodup ∧
            (∀ m, s'.flag m = true ↔ m ∈ s'.nodes) ∧ s'.edges.Perm (s.edges ++ es ++ new.flatMap g.outs) ∧
            (∀ e ∈ es, g.dst e ∈ s'.nodes) ∧ (∀ m ∈ new, m < g.nodes ∧ ∀ e ∈ g.outs m, g.dst e ∈ s'.nodes) := by
        intro es
        induction es with
        | nil =>
          intro _ s hnd hfl
          exact ⟨[], s, rfl, by simp, by simpa using hnd, hfl, by simp, by simp, by simp⟩
        | cons e es ihe =>
          intro he s hnd hfl
          obtain ⟨h3, h4⟩ := he e (by simp)
          obtain ⟨new1, s1, e1, a1, b1, c1, d1, f1, k1⟩ := ih (g.dst e) { s with edges := s.edges ++ [e] } h4
            (by omega) hnd hfl
          obtain ⟨new2, s2, e2, a2, b2, c2, d2, f2, k2⟩ := ihe (fun e' he' => he e' (by simp [he'])) s1
            (by rw [a1]; exact b1) c1
          refine ⟨new1 ++ new2, s2, ?_, ?_, ?_, c2, ?_, ?_, ?_⟩
          · rw [List.foldlM_cons, e1]
            exact e2
          · rw [a2, a1, List.append_assoc]
          · rw [a1] at b2; simpa [List.append_assoc] using b2
          · refine d2.trans ?_
            have := (d1.append_right es).append_right (new2.flatMap g.outs)
            refine this.trans ?_
            rw [List.flatMap_append]
            simp only [List.append_assoc, List.cons_append, List.nil_append]
            apply List.Perm.append_left
            apply List.Perm.cons
            rw [← List.append_assoc, ← List.append_assoc]
            exact List.perm_append_comm.append_right _
          · intro e' he'
            rcases List.mem_cons.1 he' with rfl | he'
            · rw [a2]; exact List.mem_append_left _ f1
            · exact f2 e' he'
          · intro m hm
            rcases List.mem_append.1 hm with hm | hm
            · exact ⟨(k1 m hm).1, fun e' he' => by rw [a2]; exact List.mem_append_left _ ((k1 m hm).2 e' he')⟩
            · exact k2 m hm
      have hn : n ∉ s.nodes := fun h => hc ((hfl n).2 h)
      obtain ⟨new, s', e1, a1, b1, c1, d1, f1, k1⟩ := key (g.outs n) (hf n)
        { nodes := s.nodes ++ [n], edges := s.edges, flag := Function.update s.flag n true }
        (List.Nodup.append hnd (by simp) (by simpa using hn)) (by
          intro m
          by_cases hm : m = n
          · rw [hm]; simp
          · simp [hm, hfl m])
      refine ⟨n :: new, s', e1, ?_, ?_, c1, ?_, ?_, ?_⟩
      · rw [a1]; simp
      · simpa using b1
      · refine d1.trans ?_
        simp [List.append_assoc]
      · rw [a1]; simp
      · intro m hm
        rcases List.mem_cons.1 hm with rfl | hm
        · exact ⟨h1, f1⟩
        · exact k1 m hm

theorem collect_all {g : Graph F} {ls : List (LayerSpec F)} (b : Built g ls) (hok : ∀ l ∈ ls, l.Ok) :
    ∃ ns es, allNodesEdges g (g.nodes + 1) = some (ns, es) ∧ ns.Perm (List.range g.nodes) ∧
      es.Perm (List.range g.edges) := by
  have hpos : 0 < g.nodes := by rw [b.nodes]; have := le_endOf ls 1; omega
  obtain ⟨ns, s, e1, a1, b1, c1, d1, f1, k1⟩ := collect_spec (b.forward hok) (g.nodes + 1) 0 ⟨[], [], fun _ => false⟩
    hpos (by omega) (by simp) (by simp)
  simp only [List.nil_append] at a1 b1 d1
  have hmem : ∀ n, n < g.nodes → n ∈ ns := by
    intro n
    induction n using Nat.strong_induction_on with
    | _ n ih =>
      intro hn
      rcases Nat.eq_zero_or_pos n with h | h
      · rw [h, ← a1]; exact f1
      · obtain ⟨m, hm, e, he, hd⟩ := b.pred hok n h hn
        have := (k1 m (ih m hm (by omega))).2 e he
        rw [hd, a1] at this
        exact this
  have hns : ns.Perm (List.range g.nodes) := by
    rw [List.perm_ext_iff_of_nodup b1 List.nodup_range]
    intro n
    rw [List.mem_range]
    exact ⟨fun h => (k1 n h).1, hmem n⟩
  refine ⟨ns, s.edges, by rw [allNodesEdges, e1, Option.map_some, a1], hns, ?_⟩
  refine d1.trans ?_
  rw [List.perm_ext_iff_of_nodup _ List.nodup_range]
  · intro e
    rw [List.mem_flatMap, List.mem_range]
    constructor
    · rintro ⟨n, _, he⟩; exact b.wf.outs_lt n e he
    · intro he; exact ⟨g.src e, hmem _ (b.wf.src_lt e he), b.wf.src_outs e he⟩
  · rw [List.nodup_flatMap]
    refine ⟨fun n _ => b.wf.outs_nodup n, ?_⟩
    refine List.Nodup.pairwise_of_forall_ne b1 ?_
    intro m _ n _ hmn e h1 h2
    exact hmn ((b.wf.outs_src m e h1).symm.trans (b.wf.outs_src n e h2))

/-- **C102.** The arrays of all nodes and all edges that `init_aco` computes hold every node and
every edge of the graph exactly once. -/
theorem C102_collected (junk : Bool) (sizes widths depths : List Nat) (acts : List Int) (draw : Nat → Nat → F)
    (hs : 2 ≤ sizes.length) (hd : ∀ d ∈ depths, 3 ≤ d) (hp : ∀ n ∈ sizes, 0 < n)
    (hw : ∀ i, i + 1 < sizes.length → 0 < widths.getD i 0) :
    ∃ g ns es, initAco junk sizes widths depths acts draw = some g ∧
      allNodesEdges g (g.nodes + 1) = some (ns, es) ∧ ns.Perm (List.range g.nodes) ∧ es.Perm (List.range g.edges) := by
  obtain ⟨g, e, b, hok⟩ := C99_graph junk sizes widths depths acts draw hs hd hp hw
  obtain ⟨ns, es, h⟩ := collect_all b hok
  exact ⟨g, ns, es, e, h⟩

end

/-- In the graph of `demoAco` the order is that of a depth-first walk. -/
example : demoAco.bind (fun g => allNodesEdges g (g.nodes + 1)) =
    some ([0, 1, 3, 5, 6, 4, 2], [7, 0, 4, 6, 1, 5, 8, 2, 3]) := by
  decide +kernel


/-! ### C103 -/

section

variable [Field F] [LinearOrder F] [IsStrictOrderedRing F]

/-- The edges a walk from `n` takes. -/
def edgesOn (g : Graph F) : Nat → List Nat → List Nat
  | _, [] => []
  | n, i :: is =>
    match (g.outs n)[i]? with
    | some e => e :: edgesOn g (g.dst e) is
    | none => []

/-- All the edges a walk from `n` asks for exist. -/
def Walks (g : Graph F) : Nat → List Nat → Prop
  | _, [] => True
  | n, i :: is => ∃ e, (g.outs n)[i]? = some e ∧ Walks g (g.dst e) is

/-- The spec of a bounded pheromone. -/
def within (lo hi x : F) : F := max lo (min hi x)

omit [Field F] [LinearOrder F] [IsStrictOrderedRing F] in
/-- The trail of an ant is a walk. -/
theorem walks_of_trail (g : Graph F) (choose : Nat → Nat → Option Nat) : ∀ (fuel j n : Nat) (tr : List Nat),
    antTrail g choose fuel j n = some tr → Walks g n tr := by
  intro fuel
  induction fuel with
  | zero => intro j n tr h; simp [antTrail] at h
  | succ fuel ih =>
    intro j n tr h
    rw [antTrail] at h
    by_cases hn : g.succ n = []
    · rw [if_pos hn] at h
      cases h
      trivial
    · rw [if_neg hn] at h
      obtain ⟨i, e1, h⟩ := Option.bind_eq_some_iff.1 h
      obtain ⟨x, e2, h⟩ := Option.bind_eq_some_iff.1 h
      obtain ⟨tr', h3, rfl⟩ := Option.map_eq_some_iff.1 h
      rw [Graph.succ, List.getElem?_map] at e2
      obtain ⟨e, he, rfl⟩ := Option.map_eq_some_iff.1 e2
      exact ⟨e, he, ih _ _ _ h3⟩

omit [Field F] [IsStrictOrderedRing F] in
theorem clipHL_eq (lo hi x : F) : clipHL lo hi x = within lo hi x := by
  unfold clipHL within
  dsimp only
  by_cases h1 : x > hi
  · rw [if_pos h1, min_eq_left h1.le]
    split_ifs with h2
    · rw [max_eq_left h2.le]
    · rw [max_eq_right (not_lt.1 h2)]
  · rw [if_neg h1, min_eq_right (not_lt.1 h1)]
    split_ifs with h2
    · rw [max_eq_left h2.le]
    · rw [max_eq_right (not_lt.1 h2)]

omit [Field F] [IsStrictOrderedRing F] in
theorem clipLH_eq (lo hi x : F) (h : lo ≤ hi) : clipLH lo hi x = within lo hi x := by
  unfold clipLH within
  dsimp only
  by_cases h1 : x < lo
  · rw [if_pos h1, if_neg (not_lt.2 h), max_eq_left ((min_le_right _ _).trans h1.le)]
  · rw [if_neg h1]
    split_ifs with h2
    · rw [min_eq_left h2.le, max_eq_right h]
    · rw [min_eq_right (not_lt.1 h2), max_eq_right (not_lt.1 h1)]

omit [Field F] [LinearOrder F] [IsStrictOrderedRing F] in
theorem edgesOn_gt {g : Graph F} (hf : ∀ n, ∀ e ∈ g.outs n, n < g.dst e) : ∀ (tr : List Nat) (n : Nat),
    (∀ d ∈ (edgesOn g n tr).map g.dst, n < d) ∧ ((edgesOn g n tr).map g.dst).Nodup := by
  intro tr
  induction tr with
  | nil => intro n; simp [edgesOn]
  | cons i is ih =>
    intro n
    rw [edgesOn]
    cases h : (g.outs n)[i]? with
    | none => simp
    | some e =>
      obtain ⟨h1, h2⟩ := ih (g.dst e)
      have hlt := hf n e (List.mem_of_getElem? h)
      simp only [List.map_cons, List.nodup_cons]
      refine ⟨?_, ?_, h2⟩
      · intro d hd
        rcases List.mem_cons.1 hd with rfl | hd
        · exact hlt
        · exact hlt.trans (h1 d hd)
      · intro hc
        exact lt_irrefl _ (h1 _ hc)

omit [IsStrictOrderedRing F] in
theorem layTrail_spec (g : Graph F) (slot : Nat → Nat) (p lo hi amount : F) : ∀ (tr : List Nat) (n : Nat) (s : Scent F),
    Walks g n tr → ((edgesOn g n tr).map slot).Nodup →
    ∃ s', layTrail g slot p lo hi amount tr n s = some s' ∧
      (∀ x, s'.ph x = if x ∈ (edgesOn g n tr).map slot then within lo hi (s.ph x * p + amount) else s.ph x) ∧
      ∀ x, s'.flag x = (s.flag x || decide (x ∈ (edgesOn g n tr).map slot)) := by
  intro tr
  induction tr with
  | nil => intro n s _ _; exact ⟨s, rfl, by simp [edgesOn], by simp [edgesOn]⟩
  | cons i is ih =>
    rintro n s ⟨e, he, hw⟩ hnd
    have hne : g.outs n ≠ [] := by intro hc; rw [hc] at he; simp at he
    simp only [edgesOn, he, List.map_cons, List.nodup_cons] at hnd ⊢
    obtain ⟨s', e1, h1, h2⟩ := ih (g.dst e) { ph := Function.update s.ph (slot e) (clipHL lo hi (s.ph (slot e) * p + amount))
                                              flag := Function.update s.flag (slot e) true } hw hnd.2
    refine ⟨s', ?_, ?_, ?_⟩
    · rw [layTrail, if_neg hne, he, Option.bind_some]; exact e1
    · intro x
      rw [h1 x]
      by_cases hx : x = slot e
      · rw [hx, if_neg hnd.1, if_pos (by simp)]
        simp only [Function.update_self]
        exact clipHL_eq lo hi _
      · simp only [Function.update_of_ne hx, List.mem_cons, hx, false_or]
    · intro x
      rw [h2 x]
      by_cases hx : x = slot e
      · rw [hx]; simp
      · simp [hx]

omit [IsStrictOrderedRing F] in
theorem fade_spec (p lo hi : F) (h : lo ≤ hi) : ∀ (xs : List Nat) (s : Scent F), xs.Nodup →
    (∀ x ∈ xs, (fade p lo hi xs s).ph x = (if s.flag x then s.ph x else within lo hi (s.ph x * p)) ∧
      (fade p lo hi xs s).flag x = false) ∧
    ∀ x, x ∉ xs → (fade p lo hi xs s).ph x = s.ph x ∧ (fade p lo hi xs s).flag x = s.flag x := by
  intro xs
  induction xs with
  | nil => intro s _; exact ⟨by simp, fun x _ => ⟨rfl, rfl⟩⟩
  | cons y ys ih =>
    intro s hnd
    obtain ⟨hy, hys⟩ := List.nodup_cons.1 hnd
    have e : fade p lo hi (y :: ys) s = fade p lo hi ys
        (if s.flag y then { s with flag := Function.update s.flag y false }
          else { s with ph := Function.update s.ph y (clipLH lo hi (s.ph y * p)) }) := rfl
    rw [e]
    by_cases hf : s.flag y = true
    · rw [if_pos hf]
      obtain ⟨h1, h2⟩ := ih { s with flag := Function.update s.flag y false } hys
      constructor
      · intro x hx
        by_cases hxy : x = y
        · subst hxy
          obtain ⟨h3, h4⟩ := h2 x hy
          rw [h3, h4, if_pos hf]
          simp
        · have hx' : x ∈ ys := by simpa [hxy] using hx
          obtain ⟨h3, h4⟩ := h1 x hx'
          rw [h3, h4]
          simp [Function.update_of_ne hxy]
      · intro x hx
        simp only [List.mem_cons, not_or] at hx
        obtain ⟨h3, h4⟩ := h2 x hx.2
        rw [h3, h4]
        simp [Function.update_of_ne hx.1]
    · rw [if_neg hf]
      obtain ⟨h1, h2⟩ := ih { s with ph := Function.update s.ph y (clipLH lo hi (s.ph y * p)) } hys
      constructor
      · intro x hx
        by_cases hxy : x = y
        · subst hxy
          obtain ⟨h3, h4⟩ := h2 x hy
          rw [h3, h4, if_neg hf]
          simp only [Function.update_self, clipLH_eq lo hi _ h, true_and]
          simpa using hf
        · have hx' : x ∈ ys := by simpa [hxy] using hx
          obtain ⟨h3, h4⟩ := h1 x hx'
          rw [h3, h4]
          simp [Function.update_of_ne hxy]
      · intro x hx
        simp only [List.mem_cons, not_or] at hx
        obtain ⟨h3, h4⟩ := h2 x hx.2
        rw [h3, h4]
        simp [Function.update_of_ne hx.1]

omit [IsStrictOrderedRing F] in
/-- The general update: `slot` numbers distinct along the walk. -/
theorem update_spec (g : Graph F) (slot : Nat → Nat) (p lo hi : F) (h : lo ≤ hi) (xs : List Nat) (N : Nat)
    (hxs : xs.Perm (List.range N)) (trails : List (List Nat)) (phs : List F) (hl : trails.length = phs.length)
    (hne : phs ≠ []) (hw : ∀ tr ∈ trails, Walks g 0 tr) (hnd : ∀ tr, ((edgesOn g 0 tr).map slot).Nodup)
    (s : Scent F) (hfl : ∀ x, s.flag x = false)
    (hN : ∀ tr ∈ trails, ∀ x ∈ (edgesOn g 0 tr).map slot, x < N) :
    ∃ (k : Nat) (tr : List Nat) (amount : F) (s' : Scent F), trails[k]? = some tr ∧ phs[k]? = some amount ∧ (∀ a ∈ phs, a ≤ amount) ∧
      (∀ j a, j < k → phs[j]? = some a → a < amount) ∧
      updatePheromones g slot p lo hi xs trails phs s = some s' ∧
      (∀ x, x < N → s'.ph x = if x ∈ (edgesOn g 0 tr).map slot then within lo hi (s.ph x * p + amount)
        else within lo hi (s.ph x * p)) ∧ ∀ x, s'.flag x = false := by
  obtain ⟨k, amount, e1, e2, h1, h2⟩ := bestOf_spec phs hne
  have hk : k < trails.length := by rw [hl]; exact (List.getElem?_eq_some_iff.1 e2).1
  have e3 : trails[k]? = some trails[k] := List.getElem?_eq_getElem hk
  have htr : trails[k] ∈ trails := List.getElem_mem hk
  obtain ⟨s1, e4, h3, h4⟩ := layTrail_spec g slot p lo hi amount trails[k] 0 s (hw _ htr) (hnd _)
  obtain ⟨h5, h6⟩ := fade_spec p lo hi h xs s1 (hxs.nodup_iff.2 List.nodup_range)
  refine ⟨k, trails[k], amount, fade p lo hi xs s1, e3, e2, h1, h2, ?_, ?_, ?_⟩
  · rw [updatePheromones, bestAnt, e1, Option.bind_some, e3, Option.bind_some, e2, Option.bind_some, e4,
      Option.map_some]
  · intro x hx
    rw [(h5 x (hxs.mem_iff.2 (List.mem_range.2 hx))).1, h4 x, h3 x, hfl x]
    by_cases hc : x ∈ (edgesOn g 0 trails[k]).map slot
    · simp [hc]
    · simp [hc]
  · intro x
    by_cases hx : x ∈ xs
    · exact (h5 x hx).2
    · rw [(h6 x hx).2, h4 x, hfl x]
      have : x ∉ (edgesOn g 0 trails[k]).map slot := by
        intro hc
        exact hx (hxs.mem_iff.2 (List.mem_range.2 (hN _ htr x hc)))
      simp [this]

omit [Field F] [LinearOrder F] [IsStrictOrderedRing F] in
theorem edgesOn_lt {g : Graph F} (hw : WF g) : ∀ (tr : List Nat) (n : Nat), ∀ e ∈ edgesOn g n tr, e < g.edges := by
  intro tr
  induction tr with
  | nil => intro n e he; simp [edgesOn] at he
  | cons i is ih =>
    intro n e he
    rw [edgesOn] at he
    cases h : (g.outs n)[i]? with
    | none => rw [h] at he; simp at he
    | some e' =>
      rw [h] at he
      rcases List.mem_cons.1 he with rfl | he
      · exact hw.outs_lt n e (List.mem_of_getElem? h)
      · exact ih _ e he

omit [IsStrictOrderedRing F] in
/-- **C103 (edges).** One call of `update_pheromones` on the graph of `init_aco`: with the trails of the ants
and the pheromones they were given, the first ant with the most pheromone lays its amount on every edge of its trail, every
pheromone evaporates by the factor `p`, all end within the bounds, and all flags are cleared again. -/
theorem C103_update (junk : Bool) (sizes widths depths : List Nat) (acts : List Int) (draw : Nat → Nat → F)
    (hs : 2 ≤ sizes.length) (hd : ∀ d ∈ depths, 3 ≤ d) (hp : ∀ n ∈ sizes, 0 < n)
    (hw : ∀ i, i + 1 < sizes.length → 0 < widths.getD i 0) :
    ∃ g ns es, initAco junk sizes widths depths acts draw = some g ∧ allNodesEdges g (g.nodes + 1) = some (ns, es) ∧
      ∀ (p lo hi : F) (trails : List (List Nat)) (phs : List F) (s : Scent F), lo ≤ hi →
        trails.length = phs.length → phs ≠ [] → (∀ tr ∈ trails, Walks g 0 tr) → (∀ x, s.flag x = false) →
        ∃ (k : Nat) (tr : List Nat) (amount : F) (s' : Scent F), trails[k]? = some tr ∧ phs[k]? = some amount ∧ (∀ a ∈ phs, a ≤ amount) ∧
          (∀ j a, j < k → phs[j]? = some a → a < amount) ∧
          updatePheromones g id p lo hi es trails phs s = some s' ∧
          (∀ e, e < g.edges → s'.ph e = if e ∈ edgesOn g 0 tr then within lo hi (s.ph e * p + amount)
            else within lo hi (s.ph e * p)) ∧ ∀ x, s'.flag x = false := by
  obtain ⟨g, e, b, hok⟩ := C99_graph junk sizes widths depths acts draw hs hd hp hw
  obtain ⟨ns, es, e2, _, hes⟩ := collect_all b hok
  refine ⟨g, ns, es, e, e2, ?_⟩
  intro p lo hi trails phs s h hl hne hwk hfl
  have := update_spec g id p lo hi h es g.edges hes trails phs hl hne hwk (by
    intro tr
    rw [List.map_id]
    exact (edgesOn_gt (fun n e he => (b.forward hok n e he).1) tr 0).2.of_map) s hfl (by
    intro tr _ x hx
    rw [List.map_id] at hx
    exact edgesOn_lt b.wf tr 0 x hx)
  simpa only [List.map_id] using this

omit [IsStrictOrderedRing F] in
/-- **C103 (nodes).** The same for `update_pheromones_according_to_nodes`: the nodes reached by the trail get
the amount (the root is not reached, it only evaporates). -/
theorem C103_update_nodes (junk : Bool) (sizes widths depths : List Nat) (acts : List Int) (draw : Nat → Nat → F)
    (hs : 2 ≤ sizes.length) (hd : ∀ d ∈ depths, 3 ≤ d) (hp : ∀ n ∈ sizes, 0 < n)
    (hw : ∀ i, i + 1 < sizes.length → 0 < widths.getD i 0) :
    ∃ g ns es, initAco junk sizes widths depths acts draw = some g ∧ allNodesEdges g (g.nodes + 1) = some (ns, es) ∧
      ∀ (p lo hi : F) (trails : List (List Nat)) (phs : List F) (s : Scent F), lo ≤ hi →
        trails.length = phs.length → phs ≠ [] → (∀ tr ∈ trails, Walks g 0 tr) → (∀ x, s.flag x = false) →
        ∃ (k : Nat) (tr : List Nat) (amount : F) (s' : Scent F), trails[k]? = some tr ∧ phs[k]? = some amount ∧ (∀ a ∈ phs, a ≤ amount) ∧
          (∀ j a, j < k → phs[j]? = some a → a < amount) ∧
          updatePheromones g g.dst p lo hi ns trails phs s = some s' ∧
          (∀ n, n < g.nodes → s'.ph n = if n ∈ (edgesOn g 0 tr).map g.dst then within lo hi (s.ph n * p + amount)
            else within lo hi (s.ph n * p)) ∧ ∀ x, s'.flag x = false := by
  obtain ⟨g, e, b, hok⟩ := C99_graph junk sizes widths depths acts draw hs hd hp hw
  obtain ⟨ns, es, e2, hns, _⟩ := collect_all b hok
  refine ⟨g, ns, es, e, e2, ?_⟩
  intro p lo hi trails phs s h hl hne hwk hfl
  exact update_spec g g.dst p lo hi h ns g.nodes hns trails phs hl hne hwk
    (fun tr => (edgesOn_gt (fun n e he => (b.forward hok n e he).1) tr 0).2) s hfl (by
    intro tr _ x hx
    obtain ⟨e, he, rfl⟩ := List.mem_map.1 hx
    exact b.wf.dst_lt e (edgesOn_lt b.wf tr 0 e he))

/-- A run of the colony with fixed bounds: each step the ants report trails and amounts. -/
inductive Run (g : Graph F) (slot : Nat → Nat) (p lo hi : F) (xs : List Nat) : Scent F → Scent F → Prop
  | start (s : Scent F) : Run g slot p lo hi xs s s
  | step (s s1 s2 : Scent F) (trails : List (List Nat)) (phs : List F) : Run g slot p lo hi xs s s1 →
      updatePheromones g slot p lo hi xs trails phs s1 = some s2 → Run g slot p lo hi xs s s2

omit [IsStrictOrderedRing F] in
theorem layTrail_bounds (g : Graph F) (slot : Nat → Nat) (p lo hi amount : F) (h : lo ≤ hi) :
    ∀ (tr : List Nat) (n : Nat) (s s' : Scent F), layTrail g slot p lo hi amount tr n s = some s' →
    ∀ x, (lo ≤ s.ph x ∧ s.ph x ≤ hi) → lo ≤ s'.ph x ∧ s'.ph x ≤ hi := by
  intro tr
  induction tr with
  | nil => intro n s s' e x hx; cases e; exact hx
  | cons i is ih =>
    intro n s s' e x hx
    rw [layTrail] at e
    by_cases hc : g.outs n = []
    · rw [if_pos hc] at e; cases e; exact hx
    · rw [if_neg hc] at e
      obtain ⟨ed, e1, e⟩ := Option.bind_eq_some_iff.1 e
      apply ih _ _ _ e x
      by_cases hxe : x = slot ed
      · rw [hxe]
        simp only [Function.update_self, clipHL_eq, within]
        exact ⟨le_max_left _ _, max_le h (min_le_left _ _)⟩
      · simp only [Function.update_of_ne hxe]; exact hx

omit [IsStrictOrderedRing F] in
/-- **C103 (bounds).** Over any number of updates the pheromones stay within bounds that do not
change. (`init_aco` starts with all pheromones at `tau_max`.) -/
theorem C103_bounds (g : Graph F) (slot : Nat → Nat) (p lo hi : F) (xs : List Nat) (hxs : xs.Nodup) (h : lo ≤ hi)
    (s s' : Scent F) (hr : Run g slot p lo hi xs s s') (h0 : ∀ x, lo ≤ s.ph x ∧ s.ph x ≤ hi) :
    ∀ x, lo ≤ s'.ph x ∧ s'.ph x ≤ hi := by
  induction hr with
  | start => exact h0
  | step s1 s2 trails phs _ e ih =>
    intro x
    rw [updatePheromones] at e
    obtain ⟨k, _, e⟩ := Option.bind_eq_some_iff.1 e
    obtain ⟨tr, _, e⟩ := Option.bind_eq_some_iff.1 e
    obtain ⟨amount, _, e⟩ := Option.bind_eq_some_iff.1 e
    obtain ⟨s3, e1, e⟩ := Option.map_eq_some_iff.1 e
    subst e
    have hb := layTrail_bounds g slot p lo hi amount h tr 0 s1 s3 e1 x (ih x)
    obtain ⟨h1, h2⟩ := fade_spec p lo hi h xs s3 hxs
    by_cases hx : x ∈ xs
    · rw [(h1 x hx).1]
      split_ifs
      · exact hb
      · exact ⟨le_max_left _ _, max_le h (min_le_left _ _)⟩
    · rw [(h2 x hx).1]; exact hb

/-- **C103 (best trail).** The update with the best trail applies no upper bound off the trail; as long as
`0 ≤ tau_min`, `p ≤ 1` and the pheromones are within the bounds they stay there all the same. -/
theorem C103_best_bounds (g : Graph F) (slot : Nat → Nat) (p lo hi amount : F) (xs best : List Nat) (h : lo ≤ hi)
    (hlo : 0 ≤ lo) (hp1 : p ≤ 1) (s s' : Scent F) (h0 : ∀ x, lo ≤ s.ph x ∧ s.ph x ≤ hi)
    (e : updateBest g slot p lo hi xs best amount s = some s') : ∀ x, lo ≤ s'.ph x ∧ s'.ph x ≤ hi := by
  rw [updateBest] at e
  obtain ⟨s1, e1, e⟩ := Option.map_eq_some_iff.1 e
  have hb : ∀ x, lo ≤ s1.ph x ∧ s1.ph x ≤ hi := fun x => layTrail_bounds g slot p lo hi amount h best 0 s s1 e1 x (h0 x)
  subst e
  clear e1 e
  induction xs generalizing s1 with
  | nil => exact hb
  | cons y ys ih =>
    apply ih
    intro x
    dsimp only
    by_cases hf : s1.flag y = true
    · rw [if_pos hf]; exact hb x
    · rw [if_neg hf]
      dsimp only
      by_cases hx : x = y
      · subst hx
        rw [Function.update_self]
        split_ifs with hc
        · exact ⟨le_rfl, h⟩
        · refine ⟨not_lt.1 hc, ?_⟩
          obtain ⟨h1, h2⟩ := hb x
          have : s1.ph x * p ≤ s1.ph x * 1 := mul_le_mul_of_nonneg_left hp1 (hlo.trans h1)
          linarith
      · rw [Function.update_of_ne hx]; exact hb x

omit [IsStrictOrderedRing F] in
/-- **C107 (partial).** With the percentages 0 and 1 the update of part of the nodes is the update of all nodes.
Missing: every other range, see `C107_subnodes_refuted`. -/
theorem C107_subnodes_partial (junk : Bool) (sizes widths depths : List Nat) (acts : List Int) (draw : Nat → Nat → F)
    (hs : 2 ≤ sizes.length) (hd : ∀ d ∈ depths, 3 ≤ d) (hp : ∀ n ∈ sizes, 0 < n)
    (hw : ∀ i, i + 1 < sizes.length → 0 < widths.getD i 0) :
    ∃ g ns es, initAco junk sizes widths depths acts draw = some g ∧ allNodesEdges g (g.nodes + 1) = some (ns, es) ∧
      ∀ (p lo hi : F) (trails : List (List Nat)) (phs : List F) (s : Scent F),
        updateSubnodes g p lo hi 0 ns.length ns trails phs s = updatePheromones g g.dst p lo hi ns trails phs s := by
  obtain ⟨g, e, b, hok⟩ := C99_graph junk sizes widths depths acts draw hs hd hp hw
  obtain ⟨ns, es, e2, hns, _⟩ := collect_all b hok
  refine ⟨g, ns, es, e, e2, ?_⟩
  intro p lo hi trails phs s
  have hl : ns.length = g.nodes := by rw [hns.length_eq, List.length_range]
  have key : ∀ (amount : F) (tr : List Nat) (j n : Nat) (s : Scent F), j ≤ n → n < g.nodes →
      layTrailSub g p lo hi amount 0 ns.length tr j n s = layTrail g g.dst p lo hi amount tr n s := by
    intro amount tr
    induction tr with
    | nil => intro j n s _ _; rfl
    | cons i is ih =>
      intro j n s hj hn
      rw [layTrailSub, layTrail]
      by_cases hc : g.outs n = []
      · rw [if_pos hc, if_pos hc]
      · rw [if_neg hc, if_neg hc]
        cases he : (g.outs n)[i]? with
        | none => rfl
        | some ed =>
          obtain ⟨h1, h2⟩ := b.forward hok n ed (List.mem_of_getElem? he)
          rw [Option.bind_some, Option.bind_some, if_pos ⟨Nat.zero_le _, by omega⟩]
          exact ih _ _ _ (by omega) h2
  rw [updateSubnodes, updatePheromones]
  have hpos : 0 < g.nodes := by rw [b.nodes]; have := le_endOf (specsOf sizes widths acts draw) 1; omega
  simp only [le_refl, if_true, List.take_length, List.drop_zero, key _ _ 0 0 s le_rfl hpos]

end

/-- The second of two ants has more pheromone; its trail goes over edge 8, then 3, 5 and 6. -/
example : demoAco.bind (fun g => (allNodesEdges g 20).bind fun x =>
    (updatePheromones g id (1 / 2) (1 / 10) 3 x.2 [[0, 0, 0, 0], [1, 1, 0, 0]] [1, 2] ⟨fun _ => 3, fun _ => false⟩).map
      fun s => (List.range 9).map fun e => (s.ph e, s.flag e)) =
    some [(3 / 2, false), (3 / 2, false), (3 / 2, false), (3, false), (3 / 2, false), (3, false), (3, false),
      (3 / 2, false), (3, false)] := by
  decide +kernel

/-- **C107 (refuted).** The range counts steps of the trail in one place and positions in the array of nodes in
the other. With the first four of seven nodes the trail `[1, 1, 0, 0]` raises node 2, which is not among the first four, and
leaves its flag set; the next update of all nodes along another trail then lets every other node off
that trail evaporate (from 3 to 3/4), but not node 2. -/
theorem C107_subnodes_refuted :
    demoAco.bind (fun g => (allNodesEdges g 20).bind fun x =>
      (updateSubnodes g (1 / 2) (1 / 10) 5 0 4 x.1 [[1, 1, 0, 0]] [1] ⟨fun _ => 3, fun _ => false⟩).bind fun s =>
        (updatePheromones g g.dst (1 / 2) (1 / 10) 5 x.1 [[0, 0, 0, 0]] [1] s).map fun s' =>
          ((x.1.take 4).contains 2, s.ph 2, s.flag 2, s'.ph 2, (edgesOn g 0 [0, 0, 0, 0]).map g.dst)) =
    some (false, (5 / 2 : ℚ), true, 5 / 2, [1, 3, 5, 6]) := by
  decide +kernel

/-! ### C104 -/

section

variable [LinearOrder F]

/-- A run of `update_best_trail` calls with what the ants reported before each of them. -/
def bestAfter [Field F] (rounds : List (List (F × List Nat))) : Best F :=
  rounds.foldl (fun b ants => updateBestTrail ants b) ⟨0, []⟩

theorem updateBestTrail_spec [Field F] (ants : List (F × List Nat)) : ∀ b : Best F,
    (∀ a ∈ ants, a.1 ≤ (updateBestTrail ants b).amount) ∧ b.amount ≤ (updateBestTrail ants b).amount ∧
    (updateBestTrail ants b = b ∨ ∃ a ∈ ants, b.amount < a.1 ∧ updateBestTrail ants b = ⟨a.1, a.2⟩) := by
  induction ants with
  | nil => intro b; exact ⟨by simp, le_rfl, Or.inl rfl⟩
  | cons a as ih =>
    intro b
    have e : updateBestTrail (a :: as) b = updateBestTrail as (if a.1 > b.amount then ⟨a.1, a.2⟩ else b) := rfl
    rw [e]
    by_cases hc : a.1 > b.amount
    · rw [if_pos hc]
      obtain ⟨h1, h2, h3⟩ := ih ⟨a.1, a.2⟩
      refine ⟨?_, hc.le.trans h2, Or.inr ?_⟩
      · intro x hx
        rcases List.mem_cons.1 hx with rfl | hx
        · exact h2
        · exact h1 x hx
      · rcases h3 with h3 | ⟨x, hx, h4, h5⟩
        · exact ⟨a, by simp, hc, h3⟩
        · exact ⟨x, by simp [hx], hc.trans h4, h5⟩
    · rw [if_neg hc]
      obtain ⟨h1, h2, h3⟩ := ih b
      refine ⟨?_, h2, ?_⟩
      · intro x hx
        rcases List.mem_cons.1 hx with rfl | hx
        · exact (not_lt.1 hc).trans h2
        · exact h1 x hx
      · rcases h3 with h3 | ⟨x, hx, h4, h5⟩
        · exact Or.inl h3
        · exact Or.inr ⟨x, by simp [hx], h4, h5⟩

/-- **C104.** After any number of rounds the best trail is one an ant really reported, together with its amount, and no ant ever
reported more; if no ant ever reported more than zero there is no best trail. -/
theorem C104_best_trail [Field F] (rounds : List (List (F × List Nat))) :
    (∀ ants ∈ rounds, ∀ a ∈ ants, a.1 ≤ (bestAfter rounds).amount) ∧
    ((∃ ants ∈ rounds, ((bestAfter rounds).amount, (bestAfter rounds).trail) ∈ ants ∧ 0 < (bestAfter rounds).amount) ∨
      (bestAfter rounds = ⟨0, []⟩ ∧ ∀ ants ∈ rounds, ∀ a ∈ ants, a.1 ≤ 0)) := by
  have key : ∀ (rs : List (List (F × List Nat))) (b : Best F) (done : List (List (F × List Nat))),
      (∀ ants ∈ done, ∀ a ∈ ants, a.1 ≤ b.amount) →
      ((∃ ants ∈ done, (b.amount, b.trail) ∈ ants ∧ 0 < b.amount) ∨ b = ⟨0, []⟩) →
      ∀ b', b' = rs.foldl (fun b ants => updateBestTrail ants b) b →
      (∀ ants ∈ done ++ rs, ∀ a ∈ ants, a.1 ≤ b'.amount) ∧
      ((∃ ants ∈ done ++ rs, (b'.amount, b'.trail) ∈ ants ∧ 0 < b'.amount) ∨ b' = ⟨0, []⟩) := by
    intro rs
    induction rs with
    | nil => rintro b done h1 h2 b' rfl; rw [List.append_nil]; exact ⟨h1, h2⟩
    | cons r rs ih =>
      rintro b done h1 h2 b' rfl
      rw [List.foldl_cons, show done ++ r :: rs = (done ++ [r]) ++ rs by simp]
      obtain ⟨h3, h4, h5⟩ := updateBestTrail_spec r b
      apply ih _ (done ++ [r]) _ _ _ rfl
      · intro ants ha a haa
        rcases List.mem_append.1 ha with ha | ha
        · exact (h1 ants ha a haa).trans h4
        · rw [List.mem_singleton.1 ha] at haa
          exact h3 a haa
      · rcases h5 with h5 | ⟨a, ha, h6, h7⟩
        · rw [h5]
          rcases h2 with ⟨ants, ha, h6⟩ | h2
          · exact Or.inl ⟨ants, by simp [ha], h6⟩
          · exact Or.inr h2
        · rw [h7]
          refine Or.inl ⟨r, by simp, ha, ?_⟩
          simp only
          rcases h2 with ⟨_, _, _, h8⟩ | h2
          · exact h8.trans h6
          · rw [h2] at h6; exact h6
  obtain ⟨h1, h2⟩ := key rounds ⟨0, []⟩ [] (by simp) (Or.inr rfl) _ rfl
  rw [List.nil_append] at h1 h2
  refine ⟨h1, h2.imp id ?_⟩
  intro h
  refine ⟨h, fun ants ha a haa => ?_⟩
  have := h1 ants ha a haa
  rw [h] at this
  exact this

example : bestAfter [[((1 : ℚ), [0]), (3, [1]), (3, [2])], [(2, [3])]] = ⟨3, [1]⟩ := by
  simp [bestAfter, updateBestTrail]
  norm_num

end

/-! ### C105 -/

section

variable [Field F] [LinearOrder F] [IsStrictOrderedRing F]

/-- **C105 (partial).** If evaporation is strict, `p_dec` is a probability strictly between zero and one and the graph has
at least twice as many edges as nodes, `update_taus` keeps `0 ≤ tau_min ≤ tau_max` over every history of best
amounts, and afterwards `tau_max` is at least `best / (1 - p)`. Missing: graphs with fewer edges. -/
theorem C105_taus_partial (p pDec : F) (avg : Nat) (hp : p < 1) (hd0 : 0 < pDec) (hd : pDec ≤ 1) (ha : 2 ≤ avg)
    (best : F) (hb : 0 ≤ best) (first : Bool) (t : Taus F) (h0 : 0 ≤ t.lo) (h1 : t.lo ≤ t.hi) :
    ∃ t', updateTaus p pDec avg best first t = some t' ∧ 0 ≤ t'.lo ∧ t'.lo ≤ t'.hi ∧ best / (1 - p) ≤ t'.hi ∧
      (first = true ∨ t.hi < best / (1 - p) → t'.hi = best / (1 - p) ∧
        t'.lo = min (t'.hi * (1 - pDec) / ((avg - 1) * pDec)) t'.hi) := by
  have h1p : 0 < 1 - p := by linarith
  have ha' : (2 : F) ≤ (avg : F) := by exact_mod_cast ha
  have hden : 0 < ((avg : F) - 1) * pDec := mul_pos (by linarith) hd0
  have hbest : 1 / (1 - p) * best = best / (1 - p) := by ring
  rw [updateTaus, if_neg h1p.ne', hbest]
  have hhi : 0 ≤ best / (1 - p) := div_nonneg hb h1p.le
  by_cases hc : best / (1 - p) > t.hi ∨ first = true
  · rw [if_pos hc]
    dsimp only
    rw [if_neg hden.ne']
    have hlo : 0 ≤ best / (1 - p) * (1 - pDec) / (((avg : F) - 1) * pDec) :=
      div_nonneg (mul_nonneg hhi (by linarith)) hden.le
    refine ⟨_, rfl, ?_, ?_, le_rfl, ?_⟩
    · dsimp only; split_ifs
      · exact hhi
      · exact hlo
    · dsimp only; split_ifs with h2
      · exact le_rfl
      · exact not_lt.1 h2
    · intro _
      refine ⟨rfl, ?_⟩
      dsimp only
      split_ifs with h2
      · rw [min_eq_right h2.le]
      · rw [min_eq_left (not_lt.1 h2)]
  · rw [if_neg hc]
    simp only [not_or, not_lt, Bool.not_eq_true] at hc
    refine ⟨t, rfl, h0, h1, hc.1, ?_⟩
    rintro (h2 | h2)
    · rw [hc.2] at h2; simp at h2
    · exact absurd h2 (not_lt.2 hc.1)

example : updateTaus (1 / 2 : ℚ) (1 / 10) 4 3 false ⟨5, 0⟩ = some ⟨6, 6⟩ ∧
    updateTaus (1 / 2 : ℚ) (1 / 2) 4 3 true ⟨50, 0⟩ = some ⟨6, 2⟩ := by decide +kernel

end

/-- **C105 (refuted).** The average number of edges per node is an integer division: for a graph of `init_aco` with two
candidates per weight it is one, and the first `update_taus` divides by zero; so does `p = 1`, which `init_aco` accepts. -/
theorem C105_taus_refuted :
    demoAco.bind (fun g => average g 20) = some 1 ∧
    (∀ p pDec best : ℚ, updateTaus p pDec 1 best true ⟨10, 0⟩ = none) ∧
    ∀ pDec avg best : ℚ, ∀ t, updateTaus 1 pDec avg best true t = none := by
  refine ⟨by decide +kernel, ?_, ?_⟩
  · intro p pDec best
    by_cases h : 1 - p = 0 <;> simp [updateTaus, h]
  · intro pDec avg best t
    simp [updateTaus]

/-- **C105 (refuted, one candidate).** With a single candidate per weight there are not more edges than nodes; the average is zero
and the lower bound becomes negative. -/
theorem C105_negative_refuted :
    (initAco false [1, 2] [1, 1] [3, 3] [1, 1] (fun _ _ => (1 : ℚ))).bind (fun g => average g 20) = some 0 ∧
    updateTaus (1 / 2 : ℚ) (1 / 2) 0 3 true ⟨10, 0⟩ = some ⟨6, -6⟩ := by
  decide +kernel

/-! ### C106 -/

section

variable [Field F] [LinearOrder F] [IsStrictOrderedRing F]

/-- **C106 (partial).** With all pheromones within the bounds the stagnation measure is not negative, and it is
zero exactly when every pheromone is at one of the bounds. Missing: pheromones above a `tau_max` that has been lowered. -/
theorem C106_stagnation_partial (lo hi : F) (xs : List Nat) (ph : Nat → F) (h : ∀ x ∈ xs, lo ≤ ph x ∧ ph x ≤ hi) :
    stagnation lo hi xs ph = (xs.map fun x => min (hi - ph x) (ph x - lo)).sum ∧
    0 ≤ stagnation lo hi xs ph ∧ (stagnation lo hi xs ph = 0 ↔ ∀ x ∈ xs, ph x = lo ∨ ph x = hi) := by
  have key : ∀ (xs : List Nat) (a : F), xs.foldl (fun gamma e =>
      if hi - ph e < ph e - lo then gamma + (hi - ph e) else gamma + (ph e - lo)) a =
      a + (xs.map fun x => min (hi - ph x) (ph x - lo)).sum := by
    intro xs
    induction xs with
    | nil => intro a; simp
    | cons x xs ih =>
      intro a
      rw [List.foldl_cons, ih, List.map_cons, List.sum_cons]
      split_ifs with hc
      · rw [min_eq_left hc.le]; ring
      · rw [min_eq_right (not_lt.1 hc)]; ring
  have e : stagnation lo hi xs ph = (xs.map fun x => min (hi - ph x) (ph x - lo)).sum := by
    rw [stagnation, key, zero_add]
  have hnn : ∀ x ∈ xs, 0 ≤ min (hi - ph x) (ph x - lo) := fun x hx =>
    le_min (by linarith [(h x hx).2]) (by linarith [(h x hx).1])
  refine ⟨e, ?_, ?_⟩
  · rw [e]
    apply List.sum_nonneg
    intro y hy
    obtain ⟨x, hx, rfl⟩ := List.mem_map.1 hy
    exact hnn x hx
  · rw [e]
    clear e key
    induction xs with
    | nil => simp
    | cons x xs ih =>
      rw [List.map_cons, List.sum_cons]
      have h1 := hnn x (by simp)
      have h2 : 0 ≤ (xs.map fun x => min (hi - ph x) (ph x - lo)).sum := by
        apply List.sum_nonneg
        intro y hy
        obtain ⟨z, hz, rfl⟩ := List.mem_map.1 hy
        exact hnn z (by simp [hz])
      have ih' := ih (fun y hy => h y (by simp [hy])) (fun y hy => hnn y (by simp [hy]))
      constructor
      · intro h3
        have h4 : min (hi - ph x) (ph x - lo) = 0 := by linarith
        have h5 := ih'.1 (by linarith)
        intro y hy
        rcases List.mem_cons.1 hy with rfl | hy
        · rcases min_choice (hi - ph y) (ph y - lo) with h6 | h6 <;> rw [h6] at h4
          · right; linarith
          · left; linarith
        · exact h5 y hy
      · intro h3
        rw [ih'.2 (fun y hy => h3 y (by simp [hy])), add_zero]
        obtain ⟨h6, h7⟩ := h x (by simp)
        rcases h3 x (by simp) with h4 | h4
        · rw [h4, sub_self, min_eq_right (by linarith)]
        · rw [h4, sub_self, min_eq_left (by linarith)]

omit [IsStrictOrderedRing F] in
theorem recompute_spec (lo hi delta : F) : ∀ (xs : List Nat) (ph : Nat → F), xs.Nodup →
    ∀ x, recompute lo hi delta xs ph x =
      if x ∈ xs then within lo hi (ph x + delta * (hi - ph x)) else ph x := by
  intro xs
  induction xs with
  | nil => intro ph _ x; simp [recompute]
  | cons y ys ih =>
    intro ph hnd x
    obtain ⟨hy, hys⟩ := List.nodup_cons.1 hnd
    have e : recompute lo hi delta (y :: ys) ph = recompute lo hi delta ys
      (Function.update ph y (clipHL lo hi (ph y + delta * (hi - ph y)))) := rfl
    rw [e, ih _ hys x]
    by_cases hx : x = y
    · subst hx
      rw [if_neg hy, if_pos (by simp), Function.update_self, clipHL_eq]
    · rw [Function.update_of_ne hx]
      simp [hx]

/-- **C106 (restart).** `recompute_pheromones` moves every pheromone the fraction `delta` of the way to `tau_max`; pheromones within the
bounds stay there, and a zero stagnation is left for `0 < delta < 1` and different bounds if some pheromone is at `tau_min`. -/
theorem C106_recompute (lo hi delta : F) (h0 : 0 ≤ delta) (h1 : delta ≤ 1) (xs : List Nat) (hx : xs.Nodup)
    (ph : Nat → F) (h : ∀ x ∈ xs, lo ≤ ph x ∧ ph x ≤ hi) :
    (∀ x ∈ xs, recompute lo hi delta xs ph x = (1 - delta) * ph x + delta * hi ∧
      lo ≤ recompute lo hi delta xs ph x ∧ recompute lo hi delta xs ph x ≤ hi) ∧
    (∀ x, x ∉ xs → recompute lo hi delta xs ph x = ph x) ∧
    (0 < delta → delta < 1 → lo < hi → (∃ x ∈ xs, ph x = lo) → 0 < stagnation lo hi xs (recompute lo hi delta xs ph)) := by
  have hb : ∀ x ∈ xs, recompute lo hi delta xs ph x = (1 - delta) * ph x + delta * hi ∧
      lo ≤ recompute lo hi delta xs ph x ∧ recompute lo hi delta xs ph x ≤ hi := by
    intro x hxx
    obtain ⟨h2, h3⟩ := h x hxx
    have e1 : ph x ≤ ph x + delta * (hi - ph x) := by
      have := mul_nonneg h0 (sub_nonneg.2 h3); linarith
    have e2 : ph x + delta * (hi - ph x) ≤ hi := by
      have := mul_le_mul_of_nonneg_right h1 (sub_nonneg.2 h3); linarith
    rw [recompute_spec lo hi delta xs ph hx x, if_pos hxx, within, min_eq_right e2, max_eq_right (h2.trans e1)]
    exact ⟨by ring, h2.trans e1, e2⟩
  refine ⟨hb, ?_, ?_⟩
  · intro x hxx
    rw [recompute_spec lo hi delta xs ph hx x, if_neg hxx]
  · rintro hd0 hd1 hlt ⟨x, hxx, hlo⟩
    obtain ⟨_, h2, h3⟩ := C106_stagnation_partial lo hi xs (recompute lo hi delta xs ph) (fun y hy => (hb y hy).2)
    refine lt_of_le_of_ne h2 (fun hc => ?_)
    have e := (hb x hxx).1
    rw [hlo] at e
    have p1 : 0 < delta * (hi - lo) := mul_pos hd0 (by linarith)
    have p2 : 0 < (1 - delta) * (hi - lo) := mul_pos (by linarith) (by linarith)
    rcases h3.1 hc.symm x hxx with h4 | h4 <;> rw [e] at h4 <;> nlinarith

example : stagnation (0 : ℚ) 4 [0, 1] (fun _ => 0) = 0 ∧
    stagnation (0 : ℚ) 4 [0, 1] (recompute 0 4 (1 / 4) [0, 1] (fun _ => 0)) = 2 := by decide +kernel

end

/-- **C106 (refuted after new bounds).** `init_aco` sets every pheromone to `tau_max`; the `update_taus` of iteration one lowers
`tau_max` below them without touching them, and the stagnation measure is then negative. -/
theorem C106_negative_refuted :
    updateTaus (1 / 2 : ℚ) (1 / 2) 4 3 true ⟨50, 0⟩ = some ⟨6, 2⟩ ∧
    stagnation (2 : ℚ) 6 [0] (fun _ => 50) = -44 := by decide +kernel

end LLab.Aco
