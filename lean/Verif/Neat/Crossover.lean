import Verif.Neat.History

/-!
The child of a crossover. Property C48.
-/

namespace LLab.Neat

/-- **C48.** For two genomes of a population reached by any history, and any draws, the
child of `crossover` has exactly the nodes and the connection numbers that occur in a
parent, each once. Every connection of the child, with its endpoints, weight and flag,
is a connection of a parent: the second parent's when only it has that number or the
draw picks it, the first parent's otherwise. -/
theorem C48_child {α : Type} [One α] (i o n : Nat) (s : Pop α) (h : Reachable i o n s) (g g2 : Genome α) (hg : g ∈ s.genomes)
    (hg2 : g2 ∈ s.genomes) (coin : Nat → Bool) :
    (∀ v, v ∈ (crossover coin g g2).nodes ↔ v ∈ g.nodes ∨ v ∈ g2.nodes) ∧
      (∀ k, k ∈ (crossover coin g g2).conns.map Conn.inn ↔ k ∈ g.conns.map Conn.inn ∨ k ∈ g2.conns.map Conn.inn) ∧
      (crossover coin g g2).nodes.Nodup ∧ ((crossover coin g g2).conns.map Conn.inn).Nodup ∧
      ∀ c, c ∈ (crossover coin g g2).conns ↔
        (c ∈ g.conns ∧ (c.inn ∈ g2.conns.map Conn.inn → coin c.inn = false)) ∨
          (c ∈ g2.conns ∧ (c.inn ∈ g.conns.map Conn.inn → coin c.inn = true)) := by
  obtain ⟨hr, hall⟩ := h.ok
  have h1 := hall g hg
  have h2 := hall g2 hg2
  have hch := crossover_ok h1 h2 coin
  have hm : ∀ c, c ∈ getConns g2 ↔ c ∈ g2.conns := mem_getConns g2 h2.inns fun c hc => (h2.conns c hc).2.1
  have hgenes : ∀ c, c ∈ (crossover coin g g2).conns ↔
        (c ∈ g.conns ∧ (c.inn ∈ g2.conns.map Conn.inn → coin c.inn = false)) ∨
          (c ∈ g2.conns ∧ (c.inn ∈ g.conns.map Conn.inn → coin c.inn = true)) := by
    -- the gene inherited for a connection of the first parent
    have hinh : ∀ x ∈ g.conns, (inherit coin (getConns g2) x = x ∧ (x.inn ∈ g2.conns.map Conn.inn → coin x.inn = false)) ∨
        (inherit coin (getConns g2) x ∈ g2.conns ∧ coin x.inn = true) := by
      intro x hx
      unfold inherit
      split
      · next d hd =>
        have hdm := (hm d).1 (List.mem_of_find?_eq_some hd)
        have hde : d.inn = x.inn := by simpa using List.find?_some hd
        by_cases hc : coin x.inn = true
        · right
          rw [if_pos hc]
          refine ⟨?_, hc⟩
          have e := (h2.conns d hdm).1
          rw [hde, (h1.conns x hx).1] at e
          have e := Option.some.inj e
          have : ({ x with weight := d.weight, flag := d.flag } : Conn α) = d :=
            Conn.ext hde.symm (congrArg Prod.fst e) (congrArg Prod.snd e) rfl rfl
          rw [this]
          exact hdm
        · left
          rw [if_neg hc]
          exact ⟨rfl, fun _ => by simpa using hc⟩
      · next hd =>
        left
        refine ⟨rfl, fun hin => ?_⟩
        obtain ⟨d, hdm, hde⟩ := List.mem_map.1 hin
        have := List.find?_eq_none.1 hd d ((hm d).2 hdm)
        simp [hde] at this
    intro c
    constructor
    · intro hc
      rcases List.mem_append.1 hc with hc | hc
      · obtain ⟨x, hx, rfl⟩ := List.mem_map.1 hc
        rcases hinh x hx with ⟨e, hcoin⟩ | ⟨e, hcoin⟩
        · left
          rw [e]
          exact ⟨hx, hcoin⟩
        · right
          refine ⟨e, fun _ => ?_⟩
          rw [(inherit_same coin _ x).1]
          exact hcoin
      · obtain ⟨hc1, hc2⟩ := List.mem_filter.1 hc
        right
        refine ⟨(hm c).1 hc1, fun hin => ?_⟩
        simp only [decide_not, Bool.not_eq_eq_eq_not, Bool.not_true, decide_eq_false_iff_not] at hc2
        exact absurd hin hc2
    · rintro (⟨hc, hcoin⟩ | ⟨hc, hcoin⟩)
      · refine List.mem_append_left _ (List.mem_map.2 ⟨c, hc, ?_⟩)
        rcases hinh c hc with ⟨e, _⟩ | ⟨e, ht⟩
        · exact e
        · exfalso
          have hin : c.inn ∈ g2.conns.map Conn.inn := by
            have := List.mem_map_of_mem (f := Conn.inn) e
            rw [(inherit_same coin _ c).1] at this
            exact this
          rw [hcoin hin] at ht
          cases ht
      · by_cases hin : c.inn ∈ g.conns.map Conn.inn
        · obtain ⟨x, hx, hxe⟩ := List.mem_map.1 hin
          refine List.mem_append_left _ (List.mem_map.2 ⟨x, hx, ?_⟩)
          have hcx : coin x.inn = true := by rw [hxe]; exact hcoin hin
          rcases hinh x hx with ⟨_, hf⟩ | ⟨e, _⟩
          · exfalso
            rw [hf (by rw [hxe]; exact List.mem_map.2 ⟨c, hc, rfl⟩)] at hcx
            cases hcx
          · exact inj_of_nodup g2.conns h2.inns _ c e hc (by rw [(inherit_same coin _ x).1, hxe])
        · exact List.mem_append_right _ (List.mem_filter.2 ⟨(hm c).2 hc, by simpa using hin⟩)
  refine ⟨fun v => ?_, fun k => ?_, hch.nodes, hch.inns, hgenes⟩
  · simp only [crossover, List.mem_append, List.mem_filter]
    by_cases hv : v ∈ g.nodes
    · simp [hv]
    · simp [hv]
  · constructor
    · intro hk
      obtain ⟨c, hc, rfl⟩ := List.mem_map.1 hk
      rcases (hgenes c).1 hc with ⟨hc, _⟩ | ⟨hc, _⟩
      · exact Or.inl (List.mem_map.2 ⟨c, hc, rfl⟩)
      · exact Or.inr (List.mem_map.2 ⟨c, hc, rfl⟩)
    · intro hk
      by_cases hkg : k ∈ g.conns.map Conn.inn
      · obtain ⟨x, hx, rfl⟩ := List.mem_map.1 hkg
        refine List.mem_map.2 ⟨_, List.mem_append_left _ (List.mem_map.2 ⟨x, hx, rfl⟩), (inherit_same coin _ x).1⟩
      · rcases hk with hk | hk
        · exact absurd hk hkg
        · obtain ⟨c, hc, rfl⟩ := List.mem_map.1 hk
          exact List.mem_map.2 ⟨c, (hgenes c).2 (Or.inr ⟨hc, fun h => absurd h hkg⟩), rfl⟩

/-- One gene in common, one only in the second parent. -/
example : (crossover (fun _ => true) (⟨1, 1, [1, 2], [⟨1, 1, 2, (7 : ℤ), false⟩]⟩)
    ⟨1, 1, [1, 2, 3], [⟨1, 1, 2, 9, true⟩, ⟨2, 1, 3, 1, true⟩, ⟨3, 3, 2, 7, true⟩]⟩).conns =
    [⟨1, 1, 2, 9, true⟩, ⟨2, 1, 3, 1, true⟩, ⟨3, 3, 2, 7, true⟩] := by decide

end LLab.Neat
