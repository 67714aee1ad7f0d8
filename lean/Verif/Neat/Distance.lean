import Verif.Neat.Genome
import Mathlib.Algebra.Order.Field.Basic
import Mathlib.Algebra.Order.Field.Rat
import Mathlib.Tactic.Ring
import Mathlib.Tactic.Positivity

/-!
`compute_species_distance` (`/repo/src/speciation.c` 27-145). Property C50.
Weights are in an ordered field; rounding is not modelled.
-/

namespace LLab.Neat

/-- The counters of the loop. -/
structure Tally (α : Type) where
  excess : α
  disjoint : α
  matching : α
  m : α

section
variable {α : Type} [Field α] [LinearOrder α]

/-- The weight used: zero for an inactive connection (`/repo/src/speciation.c` 72-80). -/
def eff (c : Conn α) : α := if c.flag then c.weight else 0

/-- `temp = -temp` if negative (`/repo/src/speciation.c` 82-84). -/
def absd (t : α) : α := if t < 0 then -t else t

omit [Field α] [LinearOrder α] in
/-- The largest number in a list of connections (`/repo/src/speciation.c` 50-60). -/
def maxInn (cs : List (Conn α)) : Nat := cs.foldl (fun k c => if c.inn > k then c.inn else k) 0

/-- One iteration over the connections of `outer` (`/repo/src/speciation.c` 62-124). -/
def tallyOne (sub : α → α → α) (inner : List (Conn α)) (maxInner : Nat) (a : Tally α) (c : Conn α) : Tally α :=
  match inner.find? fun d => d.inn = c.inn with
  | none => if c.inn > maxInner then { a with excess := a.excess + 1 } else { a with disjoint := a.disjoint + 1 }
  | some d => { a with matching := a.matching + 1, m := a.m + absd (sub (eff c) (eff d)) }

/-- The loop. -/
def tally (sub : α → α → α) (outer inner : List (Conn α)) (maxInner : Nat) : Tally α :=
  outer.foldl (tallyOne sub inner maxInner) ⟨0, 0, 0, 0⟩

/-- The divisor (`/repo/src/speciation.c` 41-47). -/
def divisor (g1 : Genome α) (n1 n2 : Nat) : Nat :=
  let k := if n1 > n2 then n1 else n2
  if k < 20 + g1.nIn * g1.nOut then 1 else k

/-- `compute_species_distance` (`/repo/src/speciation.c` 27-145), with `0.4` as `2/5`. -/
def distance (g1 g2 : Genome α) : α :=
  let c1 := getConns g1
  let c2 := getConns g2
  let k := divisor g1 c1.length c2.length
  let t := if maxInn c2 > maxInn c1 then tally (fun x y => x - y) c2 c1 (maxInn c1)
    else tally (fun x y => y - x) c1 c2 (maxInn c2)
  let m := if t.matching ≠ 0 then t.m / t.matching else t.m
  t.excess / k + t.disjoint / k + m * (2 / 5)

/-! ### Identical genomes -/

theorem tally_self [IsStrictOrderedRing α] (l inner : List (Conn α)) (hn : (inner.map Conn.inn).Nodup) (hl : ∀ c ∈ l, c ∈ inner)
    (k : Nat) (sub : α → α → α) (hsub : ∀ x, sub x x = 0) (a : Tally α) (h1 : a.excess = 0) (h2 : a.disjoint = 0) (h3 : a.m = 0) :
    (l.foldl (tallyOne sub inner k) a).excess = 0 ∧ (l.foldl (tallyOne sub inner k) a).disjoint = 0 ∧
      (l.foldl (tallyOne sub inner k) a).m = 0 := by
  induction l generalizing a with
  | nil => exact ⟨h1, h2, h3⟩
  | cons c l ih =>
    rw [List.foldl_cons]
    have hc := hl c (by simp)
    have hfind : inner.find? (fun d => decide (d.inn = c.inn)) = some c := by
      cases hf : inner.find? fun d => decide (d.inn = c.inn) with
      | none =>
        have := List.find?_eq_none.1 hf c hc
        simp at this
      | some d =>
        have he : d.inn = c.inn := by simpa using List.find?_some hf
        rw [inj_of_nodup inner hn d c (List.mem_of_find?_eq_some hf) hc he]
    have hstep : tallyOne sub inner k a c = { a with matching := a.matching + 1, m := a.m + absd (sub (eff c) (eff c)) } := by
      unfold tallyOne
      rw [hfind]
    rw [hstep]
    refine ih (fun x hx => hl x (by simp [hx])) _ h1 h2 ?_
    rw [h3, hsub]
    simp [absd]

/-- **C50 (partial).** The distance of a genome from itself is zero. -/
theorem C50_self_partial [IsStrictOrderedRing α] (g : Genome α) : distance g g = 0 := by
  unfold distance
  dsimp only
  rw [if_neg (lt_irrefl _)]
  obtain ⟨h1, h2, h3⟩ := tally_self (getConns g) (getConns g) (getConns_nodup g) (fun c hc => hc) (maxInn (getConns g))
    (fun x y : α => y - x) (fun x => sub_self x) ⟨0, 0, 0, 0⟩ rfl rfl rfl
  unfold tally
  rw [h1, h2, h3]
  simp

/-! ### Symmetry -/

theorem absd_sub_comm [IsStrictOrderedRing α] (x y : α) : absd (x - y) = absd (y - x) := by
  unfold absd
  rcases lt_trichotomy x y with h | h | h
  · rw [if_pos (sub_neg.2 h), if_neg (not_lt.2 (sub_nonneg.2 h.le)), neg_sub]
  · rw [h]
  · rw [if_neg (not_lt.2 (sub_nonneg.2 h.le)), if_pos (sub_neg.2 h), neg_sub]

theorem tally_comm [IsStrictOrderedRing α] (outer inner : List (Conn α)) (k : Nat) :
    tally (fun x y : α => x - y) outer inner k = tally (fun x y => y - x) outer inner k := by
  unfold tally
  congr 1
  funext a c
  unfold tallyOne
  split
  · rfl
  · rw [absd_sub_comm]

/-- **C50 (partial: different highest innovation numbers).** For two genomes of the same
shape whose highest innovation numbers differ, the distance is symmetric. -/
theorem C50_symmetric_partial [IsStrictOrderedRing α] (g h : Genome α) (hio : g.nIn * g.nOut = h.nIn * h.nOut)
    (hmax : maxInn (getConns g) ≠ maxInn (getConns h)) : distance g h = distance h g := by
  have hdiv : divisor g (getConns g).length (getConns h).length = divisor h (getConns h).length (getConns g).length := by
    unfold divisor
    dsimp only
    rw [hio]
    have : (if (getConns g).length > (getConns h).length then (getConns g).length else (getConns h).length) =
        if (getConns h).length > (getConns g).length then (getConns h).length else (getConns g).length := by
      split_ifs <;> omega
    rw [this]
  unfold distance
  dsimp only
  rw [hdiv]
  rcases lt_or_gt_of_ne hmax with hlt | hlt
  · rw [if_pos hlt, if_neg (not_lt.2 hlt.le), tally_comm]
  · rw [if_neg (not_lt.2 hlt.le), if_pos hlt, tally_comm]

/-! ### Non-matching genes -/

theorem tally_count [IsStrictOrderedRing α] (sub : α → α → α) (outer inner : List (Conn α)) (k : Nat) (a : Tally α) (hm : 0 ≤ a.m) (hg : 0 ≤ a.matching) :
    (outer.foldl (tallyOne sub inner k) a).excess + (outer.foldl (tallyOne sub inner k) a).disjoint =
        a.excess + a.disjoint + (outer.countP fun c => c.inn ∉ inner.map Conn.inn) ∧
      0 ≤ (outer.foldl (tallyOne sub inner k) a).m ∧ 0 ≤ (outer.foldl (tallyOne sub inner k) a).matching := by
  induction outer generalizing a with
  | nil => exact ⟨by simp, hm, hg⟩
  | cons c outer ih =>
    rw [List.foldl_cons, List.countP_cons]
    have habs : ∀ t : α, 0 ≤ absd t := fun t => by
      unfold absd
      split_ifs with h
      · exact neg_nonneg.2 h.le
      · exact not_lt.1 h
    cases hf : inner.find? fun d => decide (d.inn = c.inn) with
    | none =>
      have hno : c.inn ∉ inner.map Conn.inn := fun hin => by
        obtain ⟨d, hd, he⟩ := List.mem_map.1 hin
        have := List.find?_eq_none.1 hf d hd
        simp [he] at this
      rw [if_pos (by simpa using hno)]
      by_cases hk : c.inn > k
      · have hstep : tallyOne sub inner k a c = { a with excess := a.excess + 1 } := by
          unfold tallyOne
          rw [hf]
          dsimp only
          rw [if_pos hk]
        rw [hstep]
        obtain ⟨h1, h2, h3⟩ := ih { a with excess := a.excess + 1 } hm hg
        exact ⟨by rw [h1]; push_cast; ring, h2, h3⟩
      · have hstep : tallyOne sub inner k a c = { a with disjoint := a.disjoint + 1 } := by
          unfold tallyOne
          rw [hf]
          dsimp only
          rw [if_neg hk]
        rw [hstep]
        obtain ⟨h1, h2, h3⟩ := ih { a with disjoint := a.disjoint + 1 } hm hg
        exact ⟨by rw [h1]; push_cast; ring, h2, h3⟩
    | some d =>
      have hin : c.inn ∈ inner.map Conn.inn := by
        have he : d.inn = c.inn := by simpa using List.find?_some hf
        exact List.mem_map.2 ⟨d, List.mem_of_find?_eq_some hf, he⟩
      rw [if_neg (by simpa using hin)]
      have hstep : tallyOne sub inner k a c = { a with matching := a.matching + 1, m := a.m + absd (sub (eff c) (eff d)) } := by
        unfold tallyOne
        rw [hf]
      rw [hstep]
      obtain ⟨h1, h2, h3⟩ := ih { a with matching := a.matching + 1, m := a.m + absd (sub (eff c) (eff d)) }
        (add_nonneg hm (habs _)) (add_nonneg hg zero_le_one)
      exact ⟨by rw [h1]; push_cast; ring, h2, h3⟩

/-- **C50 (partial: one genome's genes).** The distance is at least the number of genes
that only the second genome has, over the divisor, when the second genome has the higher
innovation number, and at least that of the first genome otherwise. -/
theorem C50_nonmatching_partial [IsStrictOrderedRing α] (g h : Genome α) :
    (maxInn (getConns g) < maxInn (getConns h) →
      ((getConns h).countP (fun c => c.inn ∉ (getConns g).map Conn.inn) : α) / divisor g (getConns g).length (getConns h).length ≤ distance g h) ∧
    (maxInn (getConns h) ≤ maxInn (getConns g) →
      ((getConns g).countP (fun c => c.inn ∉ (getConns h).map Conn.inn) : α) / divisor g (getConns g).length (getConns h).length ≤ distance g h) := by
  have key : ∀ t : Tally α, ∀ n k : α, t.excess + t.disjoint = n → 0 ≤ t.m → 0 ≤ t.matching →
      n / k ≤ t.excess / k + t.disjoint / k + (if t.matching ≠ 0 then t.m / t.matching else t.m) * (2 / 5) := by
    intro t n k h1 h2 h3
    rw [← add_div, h1]
    have : 0 ≤ (if t.matching ≠ 0 then t.m / t.matching else t.m) := by
      split_ifs
      · exact div_nonneg h2 h3
      · exact h2
    have : 0 ≤ (if t.matching ≠ 0 then t.m / t.matching else t.m) * (2 / 5) := mul_nonneg this (by positivity)
    linarith
  constructor
  · intro hlt
    unfold distance
    dsimp only
    rw [if_pos hlt]
    obtain ⟨h1, h2, h3⟩ := tally_count (fun x y : α => x - y) (getConns h) (getConns g) (maxInn (getConns g)) ⟨0, 0, 0, 0⟩ (le_refl _) (le_refl _)
    exact key _ _ _ (by unfold tally; rw [h1]; simp) h2 h3
  · intro hle
    unfold distance
    dsimp only
    rw [if_neg (not_lt.2 hle)]
    obtain ⟨h1, h2, h3⟩ := tally_count (fun x y : α => y - x) (getConns g) (getConns h) (maxInn (getConns h)) ⟨0, 0, 0, 0⟩ (le_refl _) (le_refl _)
    exact key _ _ _ (by unfold tally; rw [h1]; simp) h2 h3

/-! ### The value -/

/-- The pairs of genes of the same innovation number. -/
def sameGene (outer inner : List (Conn α)) : List (Conn α × Conn α) :=
  outer.flatMap fun c => (inner.filter fun d => d.inn = c.inn).map fun d => (c, d)

/-- How far apart the weights of two genes are; a disabled gene weighs nothing. -/
def apart (p : Conn α × Conn α) : α :=
  |(if p.1.flag then p.1.weight else 0) - (if p.2.flag then p.2.weight else 0)|

omit [Field α] [LinearOrder α] in
theorem filter_eq_find (inner : List (Conn α)) (hn : (inner.map Conn.inn).Nodup) (n : Nat) :
    (inner.filter fun d => decide (d.inn = n)) = (inner.find? fun d => decide (d.inn = n)).toList := by
  induction inner with
  | nil => rfl
  | cons d l ih =>
    rw [List.map_cons, List.nodup_cons] at hn
    by_cases h : d.inn = n
    · rw [List.filter_cons_of_pos (by simpa using h), List.find?_cons_of_pos (by simpa using h)]
      have : (l.filter fun d => decide (d.inn = n)) = [] := by
        rw [List.filter_eq_nil_iff]
        intro e he
        have : e.inn ≠ n := fun e' => hn.1 (List.mem_map.2 ⟨e, he, by rw [e', h]⟩)
        simpa using this
      rw [this]
      rfl
    · rw [List.filter_cons_of_neg (by simpa using h), List.find?_cons_of_neg (by simpa using h), ih hn.2]

theorem absd_eq [IsStrictOrderedRing α] (x y : α) : absd (x - y) = |x - y| := by
  unfold absd
  split_ifs with h
  · rw [abs_of_neg h]
  · rw [abs_of_nonneg (not_lt.1 h)]

theorem tally_matched [IsStrictOrderedRing α] (outer inner : List (Conn α)) (hn : (inner.map Conn.inn).Nodup) (k : Nat) (a : Tally α) :
    (outer.foldl (tallyOne (fun x y : α => x - y) inner k) a).matching = a.matching + (sameGene outer inner).length ∧
      (outer.foldl (tallyOne (fun x y : α => x - y) inner k) a).m = a.m + ((sameGene outer inner).map apart).sum := by
  induction outer generalizing a with
  | nil => simp [sameGene]
  | cons c outer ih =>
    have hs : sameGene (c :: outer) inner =
        ((inner.find? fun d => decide (d.inn = c.inn)).toList.map fun d => (c, d)) ++ sameGene outer inner := by
      unfold sameGene
      rw [List.flatMap_cons, filter_eq_find inner hn]
    rw [List.foldl_cons, hs]
    cases hf : inner.find? fun d => decide (d.inn = c.inn) with
    | none =>
      have hstep : (tallyOne (fun x y : α => x - y) inner k a c).matching = a.matching ∧
          (tallyOne (fun x y : α => x - y) inner k a c).m = a.m := by
        unfold tallyOne
        rw [hf]
        dsimp only
        split_ifs <;> exact ⟨rfl, rfl⟩
      obtain ⟨h1, h2⟩ := ih (tallyOne (fun x y : α => x - y) inner k a c)
      rw [h1, h2, hstep.1, hstep.2]
      simp
    | some d =>
      have hstep : tallyOne (fun x y : α => x - y) inner k a c =
          { a with matching := a.matching + 1, m := a.m + absd (eff c - eff d) } := by
        unfold tallyOne
        rw [hf]
      rw [hstep]
      obtain ⟨h1, h2⟩ := ih { a with matching := a.matching + 1, m := a.m + absd (eff c - eff d) }
      rw [h1, h2, absd_eq]
      simp only [Option.toList_some, List.map_cons, List.map_nil, List.cons_append, List.nil_append, List.length_cons,
        List.sum_cons, apart, eff]
      refine ⟨by push_cast; ring, by ring⟩

/-- **C50 (partial: what the distance is).** Take as `o` the genome with the higher highest
innovation number, the first one in case of a tie, and as `i` the other one. The distance
is the number of genes `o` has and `i` lacks, over the size of the larger genome (or one for
small genomes), plus two fifths of the average distance between the weights of the genes
they share, disabled genes weighing nothing. The genes `i` has and `o` lacks do not enter. -/
theorem C50_value_partial [IsStrictOrderedRing α] (g h o i : Genome α)
    (hoi : (maxInn (getConns g) < maxInn (getConns h) ∧ o = h ∧ i = g) ∨ (maxInn (getConns h) ≤ maxInn (getConns g) ∧ o = g ∧ i = h)) :
    distance g h =
      ((getConns o).countP (fun c => c.inn ∉ (getConns i).map Conn.inn) : α) /
          (if max (getConns g).length (getConns h).length < 20 + g.nIn * g.nOut then 1
            else max (getConns g).length (getConns h).length : ℕ) +
        2 / 5 * (((sameGene (getConns o) (getConns i)).map apart).sum / (sameGene (getConns o) (getConns i)).length) := by
  have hdiv : divisor g (getConns g).length (getConns h).length =
      if max (getConns g).length (getConns h).length < 20 + g.nIn * g.nOut then 1
        else max (getConns g).length (getConns h).length := by
    unfold divisor
    dsimp only
    have : (if (getConns g).length > (getConns h).length then (getConns g).length else (getConns h).length) =
        max (getConns g).length (getConns h).length := by
      rw [Nat.max_def]
      split_ifs <;> omega
    rw [this]
  have key : ∀ k : α, ∀ n : Nat, ∀ t : Tally α, t = tally (fun x y : α => x - y) (getConns o) (getConns i) n →
      t.excess / k + t.disjoint / k + (if t.matching ≠ 0 then t.m / t.matching else t.m) * (2 / 5) =
      ((getConns o).countP (fun c => c.inn ∉ (getConns i).map Conn.inn) : α) / k +
        2 / 5 * (((sameGene (getConns o) (getConns i)).map apart).sum / (sameGene (getConns o) (getConns i)).length) := by
    intro k n t ht
    obtain ⟨h1, _, _⟩ := tally_count (fun x y : α => x - y) (getConns o) (getConns i) n ⟨0, 0, 0, 0⟩ (le_refl _) (le_refl _)
    obtain ⟨h2, h3⟩ := tally_matched (getConns o) (getConns i) (getConns_nodup i) n ⟨0, 0, 0, 0⟩
    unfold tally at ht
    rw [← ht] at h1 h2 h3
    rw [← add_div, h1, h2, h3]
    simp only [zero_add]
    congr 1
    split_ifs with hz
    · ring
    · have hz' : (sameGene (getConns o) (getConns i)).length = 0 := by
        rw [not_not] at hz
        exact_mod_cast hz
      rw [List.length_eq_zero_iff] at hz'
      rw [hz']
      simp
  unfold distance
  dsimp only
  rw [hdiv]
  rcases hoi with ⟨hlt, rfl, rfl⟩ | ⟨hle, rfl, rfl⟩
  · rw [if_pos hlt]
    exact key _ _ _ rfl
  · rw [if_neg (not_lt.2 hle), ← tally_comm]
    exact key _ _ _ rfl

end

/-- Two genomes, the second with one connection more. -/
def short : Genome ℚ := ⟨2, 1, [1, 2, 3, 4], [⟨1, 1, 3, 1, true⟩, ⟨3, 1, 4, 1, true⟩]⟩

/-- See `short`. -/
def long : Genome ℚ := ⟨2, 1, [1, 2, 3, 4], [⟨1, 1, 3, 1, true⟩, ⟨2, 2, 3, 1, true⟩, ⟨3, 1, 4, 1, true⟩]⟩

/-- **C50 is refuted.** The distance of two different genomes is zero in one order and one
in the other: the genes the genome with the lower (or, in the first place, equal)
highest number lacks are not counted. -/
theorem C50_refuted : short ≠ long ∧ distance short long = 0 ∧ distance long short = 1 := by
  refine ⟨by decide, by decide +kernel, by decide +kernel⟩

/-- A disabled gene shared by both. -/
def off : Genome ℚ := ⟨2, 1, [1, 2, 3, 4], [⟨1, 1, 3, 5, false⟩, ⟨3, 1, 4, 3, true⟩]⟩

example : maxInn (getConns off) ≤ maxInn (getConns long) ∧ distance long off = 1 + 2 / 5 * ((1 + 2) / 2) := by
  refine ⟨by decide, by decide +kernel⟩

example : maxInn (getConns short) ≠ maxInn (getConns { long with conns := long.conns ++ [⟨4, 4, 3, 2, true⟩] }) := by decide

end LLab.Neat
