import Verif.Replay.RewardSample
import Mathlib.Analysis.SpecialFunctions.Exp
import Mathlib.Analysis.SpecialFunctions.Pow.Real
import Mathlib.Tactic.NormNum
import Mathlib.Tactic.IntervalCases

/-! Properties C12, C13, C14, C59 and C60: cumulative tree, sampling, reward
classes, exploration probability. -/

open scoped Classical

namespace LLab.Replay

section

variable {F : Type} [Field F] [LinearOrder F]

/-! ### C12 -/

/-- A history of weight changes `(index, amount)` applied to the cumulative array
(`/repo/src/utils.c` 1366-1384, called with `started_index = 1`). -/
def cumRun : Arr F → List (Nat × F) → Option (Arr F)
  | a, [] => some a
  | a, (i, d) :: rest => do
    let a' ← cumUp (i + 1) a i true d
    cumRun a' rest

/-- Weight accumulated on node `q` by a history. -/
def weightOf (h : List (Nat × F)) (q : Nat) : F := (h.map fun e => if e.1 = q then e.2 else 0).sum

theorem cumRun_aux (n : Nat) : ∀ (h : List (Nat × F)) (a : Arr F), a.len = n →
    (∀ e ∈ h, e.1 < n) →
    ∃ a', cumRun a h = some a' ∧ a'.len = n ∧
      ∀ p, a'.get p = a.get p + sumBelow (weightOf h) n p := by
  intro h
  induction h with
  | nil => intro a hl _; exact ⟨a, rfl, hl, by intro p; simp [weightOf, sumBelow]⟩
  | cons e es ih =>
    intro a hl hn
    obtain ⟨i, d⟩ := e
    have hi : i < n := hn (i, d) (by simp)
    obtain ⟨a1, e1, l1, g1⟩ := cumUp_spec a i d (by omega)
    obtain ⟨a2, e2, l2, g2⟩ := ih a1 (by omega) (fun e he => hn e (by simp [he]))
    refine ⟨a2, by simp [cumRun, e1, e2], l2, ?_⟩
    intro p
    rw [g2 p, g1 p, add_assoc]
    congr 1
    unfold sumBelow
    have : ∀ q ∈ Finset.range n, (if Below p q then weightOf ((i, d) :: es) q else 0) =
        (if q = i then (if Below p i then d else 0) else 0) +
          (if Below p q then weightOf es q else 0) := by
      intro q _
      by_cases hq : q = i
      · subst hq
        by_cases hb : Below p q <;> simp [hb, weightOf]
      · have : ¬ i = q := fun e => hq e.symm
        by_cases hb : Below p q <;> simp [hb, hq, this, weightOf]
    rw [Finset.sum_congr rfl this, Finset.sum_add_distrib,
      Finset.sum_ite_eq' (Finset.range n) i (fun _ => if Below p i then d else 0),
      if_pos (Finset.mem_range.2 hi)]

/-- **C12.** Starting from a zeroed tree of `n` nodes, after any history of
weight changes inside the tree, the value at every node is the sum of the
weights strictly below it; and the root's value plus its own weight is the total
mass. -/
theorem C12_cumulative_tree (n : Nat) (h : List (Nat × F)) (hn : ∀ e ∈ h, e.1 < n) :
    ∃ a : Arr F, cumRun ⟨n, fun _ => 0⟩ h = some a ∧
      (∀ p, p < n → a.get p =
        ∑ q ∈ Finset.range n, if Below p q then weightOf h q else 0) ∧
      (0 < n → weightOf h 0 + a.get 0 = ∑ q ∈ Finset.range n, weightOf h q) := by
  obtain ⟨a, e, _, g⟩ := cumRun_aux n h ⟨n, fun _ => 0⟩ rfl hn
  refine ⟨a, e, fun p _ => by rw [g p]; simp [sumBelow], fun h0 => ?_⟩
  rw [g 0, zero_add, ← sumSub_root, sumSub_eq _ h0]

example : ∀ e ∈ [((3 : Nat), (5 : ℚ)), (1, 2), (3, -1), (4, 7)], e.1 < 5 := by decide

/-- The weight part of `add_buffer_state(r, index)` (`/repo/src/rainbow.c`
1300-1302): `ranked_values[index] = w`, total, cumulative tree. -/
structure Ranked (F : Type) where
  ranked : Arr F
  cum : Arr F
  sum : F

/-- `/repo/src/rainbow.c` 1300-1302; `w = pow(1/(index+1), alpha)`. -/
def Ranked.add (s : Ranked F) (index : Nat) (w : F) : Option (Ranked F) := do
  let ranked ← s.ranked.write index w
  let cum ← cumUp (index + 1) s.cum index true w
  some ⟨ranked, cum, s.sum + w⟩

/-- Insertions of the first experiences, `index = k, k+1, …`. -/
def Ranked.addAll (w : Nat → F) : Ranked F → Nat → Nat → Option (Ranked F)
  | s, _, 0 => some s
  | s, k, m + 1 => do
    let s' ← s.add k (w k)
    Ranked.addAll w s' (k + 1) m

/-- Weights of the first `m` ranks. -/
def firstW (w : Nat → F) (m q : Nat) : F := if q < m then w q else 0

theorem addAll_aux (w : Nat → F) (cap : Nat) : ∀ (m k : Nat) (s : Ranked F), k + m ≤ cap →
    s.ranked.len = cap → s.cum.len = cap → (∀ q, q < cap → s.ranked.get q = firstW w k q) →
    (∀ p, p < cap → s.cum.get p = sumBelow (firstW w k) cap p) →
    s.sum = ∑ q ∈ Finset.range cap, firstW w k q →
    ∃ s', s.addAll w k m = some s' ∧ s'.ranked.len = cap ∧ s'.cum.len = cap ∧
      (∀ q, q < cap → s'.ranked.get q = firstW w (k + m) q) ∧
      (∀ p, p < cap → s'.cum.get p = sumBelow (firstW w (k + m)) cap p) ∧
      s'.sum = ∑ q ∈ Finset.range cap, firstW w (k + m) q := by
  intro m
  induction m with
  | zero => intro k s _ h1 h2 h3 h4 h5; exact ⟨s, rfl, h1, h2, h3, h4, h5⟩
  | succ m ih =>
    intro k s hk h1 h2 h3 h4 h5
    have hkc : k < cap := by omega
    obtain ⟨a, e, l, g⟩ := cumUp_spec s.cum k (w k) (by omega)
    have hup : firstW w (k + 1) = Function.update (firstW w k) k (w k) := by
      funext q
      by_cases hq : q = k
      · subst hq; simp [firstW]
      · simp only [firstW, Function.update_apply, hq, if_false]
        by_cases h : q < k
        · simp [h, show q < k + 1 by omega]
        · simp [h, show ¬ q < k + 1 by omega]
    have hz : firstW w k k = 0 := by simp [firstW]
    obtain ⟨s2, e2, r⟩ := ih (k + 1) ⟨⟨s.ranked.len, Function.update s.ranked.get k (w k)⟩, a,
      s.sum + w k⟩ (by omega) h1 (by simpa [l] using h2) (by
        intro q hq
        by_cases hqk : q = k
        · subst hqk; simp [firstW]
        · simp [hup, hqk, h3 q hq]) (by
        intro p hp
        rw [g p, h4 p hp, hup, sumBelow_update _ hkc, hz, sub_zero]) (by
        rw [hup]
        have := sum_update_range (fun x : F => x) (firstW w k) hkc (w k)
        rw [this, h5, hz, sub_zero])
    refine ⟨s2, ?_, ?_⟩
    · simp [Ranked.addAll, Ranked.add, Arr.write_eq (a := s.ranked) (w k) (by omega : k < s.ranked.len),
        e, e2]
    · rw [show k + (m + 1) = k + 1 + m by omega]
      exact r

/-- **C12**, as used by rank-based sampling: after `m ≤ cap` insertions the total
is the sum of the first `m` rank weights and every cumulative value is exact. -/
theorem C12_ranked_insertions (w : Nat → F) (cap m : Nat) (hm : m ≤ cap) :
    ∃ s : Ranked F, Ranked.addAll w ⟨⟨cap, fun _ => 0⟩, ⟨cap, fun _ => 0⟩, 0⟩ 0 m = some s ∧
      s.sum = ∑ q ∈ Finset.range m, w q ∧
      (∀ q, q < m → s.ranked.get q = w q) ∧
      (∀ p, p < cap → s.cum.get p = ∑ q ∈ Finset.range m, if Below p q then w q else 0) := by
  obtain ⟨s, e, _, _, h3, h4, h5⟩ := addAll_aux w cap m 0 ⟨⟨cap, fun _ => 0⟩, ⟨cap, fun _ => 0⟩, 0⟩
    (by omega) rfl rfl (by intro q _; simp [firstW]) (by intro p _; simp [sumBelow, firstW])
    (by simp [firstW])
  rw [Nat.zero_add] at h3 h4 h5
  have hsub : Finset.range m ⊆ Finset.range cap := by
    intro x hx; rw [Finset.mem_range] at hx ⊢; omega
  refine ⟨s, e, ?_, ?_, ?_⟩
  · rw [h5]
    symm
    rw [← Finset.sum_subset hsub (f := firstW w m)]
    · apply Finset.sum_congr rfl
      intro q hq; simp [firstW, Finset.mem_range.1 hq]
    · intro q _ hq
      rw [Finset.mem_range] at hq
      simp [firstW, hq]
  · intro q hq; rw [h3 q (by omega)]; simp [firstW, hq]
  · intro p hp
    rw [h4 p hp]
    unfold sumBelow
    symm
    rw [← Finset.sum_subset hsub (f := fun q => if Below p q then firstW w m q else 0)]
    · apply Finset.sum_congr rfl
      intro q hq; simp [firstW, Finset.mem_range.1 hq]
    · intro q _ hq
      rw [Finset.mem_range] at hq
      simp [firstW, hq]

end

/-! ### C13, C59 -/

section

variable {F : Type} [Field F] [LinearOrder F] [IsStrictOrderedRing F]

/-- **C13 (ranked sampler).** For a non-empty buffer, for every draw, every
weights, every total and every list of already chosen positions,
`weighted_random_sample` returns a position inside the buffer, without any
out-of-bounds access. -/
theorem C13_ranked_in_range (cum cur : Arr F) (size : Nat) (hsize : 0 < size)
    (hcum : size ≤ cum.len) (hcur : size ≤ cur.len) (sum : F) (taken : List Nat)
    (ht : ∀ t ∈ taken, t < size) (r : F) :
    ∃ k, weightedSample cum cur size sum taken size 0 r = some k ∧ k < size :=
  weightedSample_lt cum cur size sum taken hcum hcur ht size 0 r hsize (by omega)

example : ∃ k, weightedSample (Arr.ofList [5, 0, 0]) (Arr.ofList [(1 : ℚ), 2, 3]) 3 6 [1] 3 0 (9 / 10)
    = some k ∧ k < 3 :=
  C13_ranked_in_range _ _ 3 (by decide) (by decide) (by decide) 6 [1] (by decide) _

/-- A draw selects position `k` of a weighted choice without replacement. -/
def Selects (a : Nat → F) (weight : Nat → F) (total r : F) (k : Nat) : Prop :=
  a k < r ∧ r ≤ a k + weight k / total

/-- The intervals `(a k, a k + weight k / total]` lie in `[0,1]` and are pairwise
disjoint, so with a uniform draw position `k` has probability
`weight k / total`. -/
def Tiles (a : Nat → F) (weight : Nat → F) (total : F) (size : Nat) : Prop :=
  (∀ k, k < size → 0 ≤ a k ∧ a k + weight k / total ≤ 1) ∧
  (∀ j k, j < size → k < size → j ≠ k →
    a j + weight j / total ≤ a k ∨ a k + weight k / total ≤ a j)

/-- **C59.** With exact cumulative sums and `sum` the total weight of the
positions not yet chosen, `weighted_random_sample` on a draw `r ∈ (0, 1]` returns
a position that was not chosen before, and it returns `k` exactly when `r` lies
in `k`'s own interval of length `weight k / sum`; the intervals are disjoint. -/
theorem C59_proportional (cum cur : Arr F) (size : Nat) (hsize : 0 < size)
    (hcum : size ≤ cum.len) (hcur : size ≤ cur.len) (taken : List Nat)
    (ht : ∀ t ∈ taken, t < size) (hw : ∀ q, q < size → 0 ≤ cur.get q)
    (hinv : ∀ p, p < size → cum.get p =
      ∑ q ∈ Finset.range size, if Below p q then cur.get q else 0)
    (sum : F) (hpos : 0 < sum)
    (hsum : sum = ∑ q ∈ Finset.range size, if q ∈ taken then 0 else cur.get q) :
    ∃ a : Nat → F, Tiles a (fun q => if q ∈ taken then 0 else cur.get q) sum size ∧
      ∀ r, 0 < r → r ≤ 1 →
        (∃ k, k < size ∧ k ∉ taken ∧ weightedSample cum cur size sum taken size 0 r = some k) ∧
        ∀ k, k < size → (weightedSample cum cur size sum taken size 0 r = some k ↔
          Selects a (fun q => if q ∈ taken then 0 else cur.get q) sum r k) := by
  obtain ⟨a, ha, hd, hs⟩ := weightedSample_intervals cum cur size sum taken hcum hcur ht hw hpos
    hinv size 0 hsize (by omega)
  have hroot : ∀ k, InSub 0 k := by
    intro k
    by_cases h : k = 0
    · exact Or.inl h
    · exact Or.inr (below_root (by omega))
  have htot : sumSub (remaining cur.get taken) size 0 / sum = 1 := by
    rw [sumSub_root]
    have : ∑ q ∈ Finset.range size, remaining cur.get taken q = sum := by
      rw [hsum]; rfl
    rw [this]; exact div_self hpos.ne'
  rw [htot] at ha hs
  refine ⟨a, ⟨fun k hk => ha k (hroot k) hk, fun j k hj hk hjk =>
    hd j k (hroot j) (hroot k) hj hk hjk⟩, ?_⟩
  intro r h0 h1
  obtain ⟨k, e, _, hks, hk1, hk2⟩ := hs r h0 h1
  refine ⟨⟨k, hks, ?_, e⟩, ?_⟩
  · intro hT
    simp [remaining, hT] at hk2
    exact absurd hk1 (not_lt.2 hk2)
  · intro j hj
    constructor
    · intro hej
      rw [e] at hej
      obtain rfl : k = j := by simpa using hej
      exact ⟨hk1, hk2⟩
    · rintro ⟨h3, h4⟩
      by_cases hkj : k = j
      · rw [← hkj]; exact e
      · have h4' : r ≤ a j + remaining cur.get taken j / sum := h4
        rcases hd k j (hroot k) (hroot j) hks hj hkj with h | h
        · exact absurd (lt_of_le_of_lt (hk2.trans h) h3) (lt_irrefl _)
        · exact absurd (lt_of_le_of_lt (h4'.trans h) hk1) (lt_irrefl _)

/-- **C59 (boundary refuted).** At the draw `r = 0`, which `r2()` can produce, the
ranked sampler can return a position that was already chosen although another
one is free: seven equal weights, all chosen but position 2. -/
theorem C59_zero_draw_refuted :
    ∃ (cum cur : Arr ℚ) (taken : List Nat) (sum : ℚ),
      (∀ p, p < 7 → cum.get p = ∑ q ∈ Finset.range 7, if Below p q then cur.get q else 0) ∧
      sum = (∑ q ∈ Finset.range 7, if q ∈ taken then 0 else cur.get q) ∧ 2 ∉ taken ∧
      ∃ k ∈ taken, weightedSample cum cur 7 sum taken 7 0 0 = some k := by
  have hcum : ∀ p, p < 7 → (Arr.ofList [(6 : ℚ), 2, 2, 0, 0, 0, 0]).get p =
      ∑ q ∈ Finset.range 7, if Below p q then (Arr.ofList [(1 : ℚ), 1, 1, 1, 1, 1, 1]).get q else 0 := by
    intro p hp
    have hb : ∀ q, (if Below p q then (Arr.ofList [(1 : ℚ), 1, 1, 1, 1, 1, 1]).get q else 0) =
        if valueIsChild q p = true then (Arr.ofList [(1 : ℚ), 1, 1, 1, 1, 1, 1]).get q else 0 := by
      intro q
      exact if_congr (valueIsChild_iff q p).symm rfl rfl
    simp only [hb]
    interval_cases p <;> decide +kernel
  refine ⟨Arr.ofList [6, 2, 2, 0, 0, 0, 0], Arr.ofList [1, 1, 1, 1, 1, 1, 1], [0, 1, 3, 4, 5, 6], 1,
    hcum, ?_, by decide, 3, by decide, ?_⟩
  · simp [Finset.sum_range_succ, Arr.ofList]
  · simp [weightedSample, insideBuffer, Arr.ofList, Arr.read, subtractedValue, valueIsChild, climb,
      parentIdx, firstFree]
    norm_num

/-- **C59, reward classes.** The same for `weighted_random_sample_rewards`: the
class weights are `pw c` on members (counter `c > 0`) and 0 elsewhere. In
particular the returned position is in range, a member of the class and was not
chosen before. -/
theorem C59_rewards_proportional (pw : Int → F) (hpw : ∀ c : Int, 0 < c → 0 ≤ pw c)
    (cum : Arr F) (cur : Arr Int) (size : Nat) (hsize : 0 < size)
    (hcum : size ≤ cum.len) (hcur : size ≤ cur.len) (taken : List Nat)
    (ht : ∀ t ∈ taken, t < size)
    (hinv : ∀ p, p < size → cum.get p =
      ∑ q ∈ Finset.range size, if Below p q then (if cur.get q > 0 then pw (cur.get q) else 0) else 0)
    (sum : F) (hpos : 0 < sum)
    (hsum : sum = ∑ q ∈ Finset.range size,
      if q ∈ taken then 0 else if cur.get q > 0 then pw (cur.get q) else 0) :
    ∃ a : Nat → F,
      Tiles a (fun q => if q ∈ taken then 0 else if cur.get q > 0 then pw (cur.get q) else 0) sum size ∧
      ∀ r, 0 < r → r ≤ 1 →
        (∃ k, k < size ∧ k ∉ taken ∧ 0 < cur.get k ∧
          weightedSampleRewards pw cum cur size sum taken size 0 r = some k) ∧
        ∀ k, k < size → (weightedSampleRewards pw cum cur size sum taken size 0 r = some k ↔
          Selects a (fun q => if q ∈ taken then 0 else if cur.get q > 0 then pw (cur.get q) else 0)
            sum r k) := by
  obtain ⟨a, ha, hd, hs⟩ := weightedSampleRewards_intervals pw hpw cum cur size sum taken hcum hcur
    ht hpos hinv size 0 hsize (by omega)
  have hroot : ∀ k, InSub 0 k := by
    intro k
    by_cases h : k = 0
    · exact Or.inl h
    · exact Or.inr (below_root (by omega))
  have htot : sumSub (remaining (fun q => wt pw (cur.get q)) taken) size 0 / sum = 1 := by
    rw [sumSub_root]
    have : ∑ q ∈ Finset.range size, remaining (fun q => wt pw (cur.get q)) taken q = sum := by
      rw [hsum]; rfl
    rw [this]; exact div_self hpos.ne'
  rw [htot] at ha hs
  refine ⟨a, ⟨fun k hk => ha k (hroot k) hk, fun j k hj hk hjk =>
    hd j k (hroot j) (hroot k) hj hk hjk⟩, ?_⟩
  intro r h0 h1
  obtain ⟨k, e, _, hks, hk1, hk2⟩ := hs r h0 h1
  refine ⟨⟨k, hks, ?_, ?_, e⟩, ?_⟩
  · intro hT
    simp [remaining, hT] at hk2
    exact absurd hk1 (not_lt.2 hk2)
  · by_contra hc
    have : remaining (fun q => wt pw (cur.get q)) taken k = 0 := by
      unfold remaining wt
      simp [hc]
    rw [this, zero_div, add_zero] at hk2
    exact absurd hk1 (not_lt.2 hk2)
  · intro j hj
    constructor
    · intro hej
      rw [e] at hej
      obtain rfl : k = j := by simpa using hej
      exact ⟨hk1, hk2⟩
    · rintro ⟨h3, h4⟩
      by_cases hkj : k = j
      · rw [← hkj]; exact e
      · have h4' : r ≤ a j + remaining (fun q => wt pw (cur.get q)) taken j / sum := h4
        rcases hd k j (hroot k) (hroot j) hks hj hkj with h | h
        · exact absurd (lt_of_le_of_lt (hk2.trans h) h3) (lt_irrefl _)
        · exact absurd (lt_of_le_of_lt (h4'.trans h) hk1) (lt_irrefl _)

/-- **C13 (reward sampler, refuted).** When every member of a class has been
chosen, `weighted_random_sample_rewards` returns `size`, one past the end of the
buffer. -/
theorem C13_rewards_refuted :
    ∃ (cum : Arr ℚ) (cur : Arr Int) (taken : List Nat), cum.len = 2 ∧ cur.len = 2 ∧
      (∀ t ∈ taken, t < 2) ∧
      weightedSampleRewards (fun _ => 1) cum cur 2 1 taken 2 0 (1 / 2) = some 2 := by
  refine ⟨Arr.ofList [0, 0], Arr.ofList [1, 0], [0], rfl, rfl, by decide, ?_⟩
  simp [weightedSampleRewards, insideBuffer, Arr.ofList, Arr.read]

end

/-! ### C60 -/

/-- **C60.** For reward-class sampling: after any legal history of insertions and
uses, the counters, subtree sums, totals and member counts of the positive,
negative and neutral classes describe exactly the stored experiences. -/
theorem C60_reward_classes {F : Type} [Field F] [LinearOrder F] (pw : Int → F) (hpw : pw 1 = 1)
    (cap : Nat) (hc : 0 < cap) (ops : List (ROp F)) (hl : RLegal cap 0 ops) :
    ∃ b : RBuf F, (RBuf.init cap).run pw ops = some b ∧
      let slots := absRun cap 0 (fun _ => none) ops
      ClsOk pw cap b.pos (classCount (fun r => r > 0) slots) ∧
      ClsOk pw cap b.neg (classCount (fun r => r < 0) slots) ∧
      ClsOk pw cap b.neu (classCount (fun r => r = 0) slots) := by
  obtain ⟨b, k, e, i⟩ := RInv.run hc hpw ops 0 _ _ (RInv.init pw cap) hl
  exact ⟨b, e, i.pos, i.neg, i.neu⟩

/-- The real weight function `pow(1/c, alpha)` meets the hypotheses of C59 and C60. -/
example (alpha : ℝ) : (fun c : Int => ((1 : ℝ) / c) ^ alpha) 1 = 1 ∧
    ∀ c : Int, 0 < c → 0 ≤ (fun c : Int => ((1 : ℝ) / c) ^ alpha) c := by
  refine ⟨by simp, fun c hc => ?_⟩
  have : (0 : ℝ) < c := by exact_mod_cast hc
  positivity

example : RLegal 2 0 [ROp.add (3 : ℚ), .add (-1), .used 0, .add 0, .used 1, .used 0] := by
  simp [RLegal]

/-! ### C14 -/

/-- `update_exploration_probability` (`/repo/src/rainbow.c` 1232-1239), over the
reals. -/
noncomputable def updateEpsilon (decay mn mx eps : ℝ) : ℝ :=
  let e := eps * Real.exp (-decay)
  let e := if e < mn then mn else e
  if e > mx then mx else e

/-- `n` updates. -/
noncomputable def epsilonAfter (decay mn mx : ℝ) : Nat → ℝ → ℝ
  | 0, e => e
  | n + 1, e => epsilonAfter decay mn mx n (updateEpsilon decay mn mx e)

/-- **C14.** From a start between the bounds, with non-negative bounds and decay,
after any number of updates the exploration probability is between the bounds,
and one more update never increases it. -/
theorem C14_epsilon (decay mn mx eps : ℝ) (hd : 0 ≤ decay) (h0 : 0 ≤ mn) (hmin : mn ≤ eps)
    (hmax : eps ≤ mx) (n : Nat) :
    mn ≤ epsilonAfter decay mn mx n eps ∧ epsilonAfter decay mn mx n eps ≤ mx ∧
      epsilonAfter decay mn mx (n + 1) eps ≤ epsilonAfter decay mn mx n eps := by
  have hstep : ∀ e, mn ≤ e → e ≤ mx → mn ≤ updateEpsilon decay mn mx e ∧
      updateEpsilon decay mn mx e ≤ e := by
    intro e h1 h2
    have hexp : Real.exp (-decay) ≤ 1 := by
      rw [← Real.exp_zero]; exact Real.exp_le_exp.2 (by linarith)
    have hle : e * Real.exp (-decay) ≤ e := by
      calc e * Real.exp (-decay) ≤ e * 1 := mul_le_mul_of_nonneg_left hexp (by linarith)
        _ = e := mul_one e
    simp only [updateEpsilon]
    split_ifs with ha hb hb <;> constructor <;> linarith
  induction n generalizing eps with
  | zero =>
    refine ⟨hmin, hmax, ?_⟩
    exact (hstep eps hmin hmax).2
  | succ n ih =>
    have h := hstep eps hmin hmax
    exact ih _ h.1 (h.2.trans hmax)

/-- The epsilon reaches its minimum when the decay is positive: after enough
updates it is exactly the minimum. -/
theorem C14_reaches_minimum (decay mn mx eps : ℝ) (hd : 0 < decay) (h0 : 0 < mn) (hmin : mn ≤ eps)
    (hmax : eps ≤ mx) : ∃ n, epsilonAfter decay mn mx n eps = mn := by
  -- as long as the minimum is not reached the value is `eps * exp (-decay) ^ n`
  have key : ∀ n e, mn ≤ e → e ≤ mx → (∀ m ≤ n, epsilonAfter decay mn mx m e ≠ mn) →
      epsilonAfter decay mn mx n e = e * Real.exp (-decay) ^ n := by
    intro n
    induction n with
    | zero => intro e _ _ _; simp [epsilonAfter]
    | succ n ih =>
      intro e h1 h2 hne
      have hexp : Real.exp (-decay) ≤ 1 := by
        rw [← Real.exp_zero]; exact Real.exp_le_exp.2 (by linarith)
      have hle : e * Real.exp (-decay) ≤ e := by
        calc e * Real.exp (-decay) ≤ e * 1 := mul_le_mul_of_nonneg_left hexp (by linarith)
          _ = e := mul_one e
      have h3 : ¬ e * Real.exp (-decay) < mn := by
        intro hlt
        apply hne 1 (by omega)
        simp [epsilonAfter, updateEpsilon, hlt, not_lt.2 (h1.trans h2)]
      have h4 : ¬ e * Real.exp (-decay) > mx := not_lt.2 (hle.trans h2)
      have h5 : updateEpsilon decay mn mx e = e * Real.exp (-decay) := by
        simp [updateEpsilon, h3, not_lt.1 h4]
      rw [epsilonAfter, h5, ih _ (not_lt.1 h3) (hle.trans h2) ?_, pow_succ]
      · ring
      · intro m hm
        have := hne (m + 1) (by omega)
        rwa [epsilonAfter, h5] at this
  by_contra hcon
  push Not at hcon
  have hlt1 : Real.exp (-decay) < 1 := by
    rw [← Real.exp_zero]; exact Real.exp_lt_exp.2 (by linarith)
  have heps : 0 < eps := lt_of_lt_of_le h0 hmin
  obtain ⟨n, hn⟩ := exists_pow_lt_of_lt_one (div_pos h0 heps) hlt1
  have h1 := key n eps hmin hmax (fun m _ => hcon m)
  have h2 := (C14_epsilon decay mn mx eps hd.le h0.le hmin hmax n).1
  rw [h1] at h2
  have h3 : eps * Real.exp (-decay) ^ n < mn := by
    calc eps * Real.exp (-decay) ^ n < eps * (mn / eps) := mul_lt_mul_of_pos_left hn heps
      _ = mn := by field_simp
  linarith

example : (0 : ℝ) ≤ 0.001 ∧ (0 : ℝ) ≤ 0.01 ∧ (0.01 : ℝ) ≤ 1 ∧ (1 : ℝ) ≤ 1 := by norm_num

end LLab.Replay
