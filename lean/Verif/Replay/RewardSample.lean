import Verif.Replay.RewardClasses

/-! The reward-class sampler selects by disjoint intervals proportional to the
remaining class weights. -/

open scoped Classical

namespace LLab.Replay

variable {F : Type} [Field F] [LinearOrder F] [IsStrictOrderedRing F]

theorem subtractedValueRewards_spec (pw : Int → F) (index : Nat) (cur : Arr Int) (n : Nat)
    (hn : n ≤ cur.len) :
    ∀ (ts seen : List Nat) (ret : F), (∀ t ∈ ts, t < n) →
      subtractedValueRewards pw index cur seen ts ret =
        some (ret + ∑ q ∈ Finset.range n,
          if Below index q ∧ q ∈ ts ∧ q ∉ seen then wt pw (cur.get q) else 0) := by
  intro ts
  induction ts with
  | nil => intro seen ret _; simp [subtractedValueRewards]
  | cons t ts ih =>
    intro seen ret ht
    have htn : t < n := ht t (by simp)
    have hcond : (insideBuffer seen t = false ∧ cur.get t > 0 ∧ valueIsChild t index = true) ↔
        (t ∉ seen ∧ cur.get t > 0 ∧ Below index t) := by
      rw [insideBuffer_false, valueIsChild_iff]
    have hsplit : (∑ q ∈ Finset.range n,
          if Below index q ∧ q ∈ t :: ts ∧ q ∉ seen then wt pw (cur.get q) else 0) =
        (if t ∉ seen ∧ cur.get t > 0 ∧ Below index t then pw (cur.get t) else 0) +
        ∑ q ∈ Finset.range n,
          if Below index q ∧ q ∈ ts ∧ q ∉ seen ++ [t] then wt pw (cur.get q) else 0 := by
      have h1 : ∀ q ∈ Finset.range n,
          (if Below index q ∧ q ∈ t :: ts ∧ q ∉ seen then wt pw (cur.get q) else 0) =
          (if q = t then (if t ∉ seen ∧ cur.get t > 0 ∧ Below index t then pw (cur.get t) else 0)
            else 0) +
          (if Below index q ∧ q ∈ ts ∧ q ∉ seen ++ [t] then wt pw (cur.get q) else 0) := by
        intro q _
        by_cases hq : q = t
        · subst hq
          by_cases hs : q ∈ seen <;> by_cases hb : Below index q <;> by_cases hp : cur.get q > 0 <;>
            simp [hs, hb, hp, wt]
        · simp [hq]
      rw [Finset.sum_congr rfl h1, Finset.sum_add_distrib]
      congr 1
      rw [Finset.sum_ite_eq' (Finset.range n) t
        (fun _ => if t ∉ seen ∧ cur.get t > 0 ∧ Below index t then pw (cur.get t) else 0),
        if_pos (Finset.mem_range.2 htn)]
    have hread : cur.read t = some (cur.get t) := Arr.read_eq (by omega)
    rw [hsplit, subtractedValueRewards]
    simp only [hread, Option.bind_eq_bind, Option.bind_some]
    rw [ih (seen ++ [t]) _ (fun x hx => ht x (by simp [hx]))]
    by_cases hc : t ∉ seen ∧ cur.get t > 0 ∧ Below index t
    · rw [if_pos (hcond.2 hc), if_pos hc, add_assoc]
    · rw [if_neg (fun h => hc (hcond.1 h)), if_neg hc, zero_add]

/-- One unfolding of the reward sampler when all accesses are in bounds. -/
theorem weightedSampleRewards_succ (pw : Int → F) (cum : Arr F) (cur : Arr Int) (size : Nat) (sum : F)
    (taken : List Nat) (hcum : size ≤ cum.len) (hcur : size ≤ cur.len) (ht : ∀ t ∈ taken, t < size)
    (fuel index : Nat) (r : F) (hi : index < size) :
    weightedSampleRewards pw cum cur size sum taken (fuel + 1) index r =
      (let w := remaining (fun q => wt pw (cur.get q)) taken
      let v := w index / sum
      if (cur.get index > 0 ∧ index ∉ taken) ∧ r ≤ v then some index
      else if size ≤ index * 2 + 1 then some (if cur.get index > 0 then index else size)
      else if size ≤ index * 2 + 2 then
        some (if cur.get (index * 2 + 1) > 0 then index * 2 + 1 else size)
      else
        let mass := (w (index * 2 + 1) + cum.get (index * 2 + 1) -
          ∑ q ∈ Finset.range size,
            if Below (index * 2 + 1) q ∧ q ∈ taken then wt pw (cur.get q) else 0) / sum
        let goL := weightedSampleRewards pw cum cur size sum taken fuel (index * 2 + 1) (r - v)
        let goR := weightedSampleRewards pw cum cur size sum taken fuel (index * 2 + 2) (r - v - mass)
        if r - v ≤ mass then
          goL.bind fun a => (if a = size then goR else some a).bind fun a =>
            some (if cur.get index > 0 ∧ a = size then index else a)
        else
          goR.bind fun a => (if a = size then goL else some a).bind fun a =>
            some (if cur.get index > 0 ∧ a = size then index else a)) := by
  have hread : cur.read index = some (cur.get index) := Arr.read_eq (by omega)
  have hv : (if cur.get index > 0 ∧ index ∉ taken then pw (cur.get index) / sum else 0) =
      remaining (fun q => wt pw (cur.get q)) taken index / sum := by
    by_cases h1 : cur.get index > 0 <;> by_cases h2 : index ∈ taken <;>
      simp [h1, h2, remaining, wt]
  have hfree : ((decide (cur.get index > 0) && !(insideBuffer taken index)) = true) ↔
      (cur.get index > 0 ∧ index ∉ taken) := by
    rw [Bool.and_eq_true, decide_eq_true_eq, Bool.not_eq_true', insideBuffer_false]
  rw [weightedSampleRewards, if_neg (by omega)]
  simp only [hread, Option.bind_eq_bind, Option.bind_some, hfree, hv, ge_iff_le]
  by_cases hc : (cur.get index > 0 ∧ index ∉ taken) ∧
      r ≤ remaining (fun q => wt pw (cur.get q)) taken index / sum
  · rw [if_pos hc, if_pos hc]
  · rw [if_neg hc, if_neg hc]
    by_cases hL : size ≤ index * 2 + 1
    · rw [if_pos hL, if_pos hL]
    · rw [if_neg hL, if_neg hL]
      have hrl : cur.read (index * 2 + 1) = some (cur.get (index * 2 + 1)) :=
        Arr.read_eq (by omega)
      simp only [hrl, Option.bind_some]
      by_cases hR : size ≤ index * 2 + 2
      · rw [if_pos hR, if_pos hR]
      · rw [if_neg hR, if_neg hR]
        have hcl : cum.read (index * 2 + 1) = some (cum.get (index * 2 + 1)) :=
          Arr.read_eq (by omega)
        have hsub := subtractedValueRewards_spec pw (index * 2 + 1) cur size hcur taken [] 0 ht
        simp only [List.not_mem_nil, not_false_eq_true, and_true, zero_add] at hsub
        have hvl : (if cur.get (index * 2 + 1) > 0 ∧ insideBuffer taken (index * 2 + 1) = false
            then pw (cur.get (index * 2 + 1)) else 0) =
            remaining (fun q => wt pw (cur.get q)) taken (index * 2 + 1) := by
          simp only [insideBuffer_false]
          by_cases h1 : cur.get (index * 2 + 1) > 0 <;> by_cases h2 : index * 2 + 1 ∈ taken <;>
            simp [h1, h2, remaining, wt]
        simp only [hsub, hcl, hvl, Option.bind_some]
        split_ifs
        · congr 1; funext a; split_ifs <;> simp_all
        · congr 1; funext a; split_ifs <;> simp_all

/-- Interval description of the reward sampler, as for `weightedSample`. -/
theorem weightedSampleRewards_intervals (pw : Int → F) (hpw : ∀ c : Int, 0 < c → 0 ≤ pw c)
    (cum : Arr F) (cur : Arr Int) (size : Nat)
    (sum : F) (taken : List Nat) (hcum : size ≤ cum.len) (hcur : size ≤ cur.len)
    (ht : ∀ t ∈ taken, t < size) (hsum : 0 < sum)
    (hinv : ∀ p, p < size → cum.get p = sumBelow (fun q => wt pw (cur.get q)) size p) :
    ∀ (fuel index : Nat), index < size → size - index < fuel + 1 →
      ∃ a : Nat → F,
        (∀ k, InSub index k → k < size → 0 ≤ a k ∧
          a k + remaining (fun q => wt pw (cur.get q)) taken k / sum ≤
            sumSub (remaining (fun q => wt pw (cur.get q)) taken) size index / sum) ∧
        (∀ j k, InSub index j → InSub index k → j < size → k < size → j ≠ k →
          a j + remaining (fun q => wt pw (cur.get q)) taken j / sum ≤ a k ∨
          a k + remaining (fun q => wt pw (cur.get q)) taken k / sum ≤ a j) ∧
        (∀ r, 0 < r →
          r ≤ sumSub (remaining (fun q => wt pw (cur.get q)) taken) size index / sum →
          ∃ k, weightedSampleRewards pw cum cur size sum taken fuel index r = some k ∧
            InSub index k ∧ k < size ∧ a k < r ∧
            r ≤ a k + remaining (fun q => wt pw (cur.get q)) taken k / sum) := by
  have hrem : ∀ q, 0 ≤ remaining (fun q => wt pw (cur.get q)) taken q := by
    intro q
    unfold remaining
    by_cases h1 : q ∈ taken
    · simp [h1]
    · by_cases h2 : cur.get q > 0
      · simpa [h1, h2, wt] using hpw _ h2
      · simp [h1, h2, wt]
  have hsub0 : ∀ p, 0 ≤ sumSub (remaining (fun q => wt pw (cur.get q)) taken) size p :=
    fun p => sumSub_nonneg hrem size p
  intro fuel
  induction fuel with
  | zero => intro index hi hf; omega
  | succ fuel ih =>
    intro index hi hf
    have hstep := weightedSampleRewards_succ pw cum cur size sum taken hcum hcur ht fuel index
    set w := remaining (fun q => wt pw (cur.get q)) taken with hwdef
    have hT := sumSub_eq w hi
    have hB := sumBelow_eq w size index
    have hv0 : 0 ≤ w index / sum := div_nonneg (hrem index) hsum.le
    have hposw : ∀ q, 0 < w q → cur.get q > 0 ∧ q ∉ taken := by
      intro q hq
      constructor
      · by_contra hc
        simp [hwdef, remaining, wt, hc] at hq
      · intro h
        simp [hwdef, remaining, h] at hq
    have hposd : ∀ q, 0 < w q / sum → 0 < w q := by
      intro q hq
      by_contra hc
      have h1 : w q = 0 := le_antisymm (not_lt.1 hc) (hrem q)
      rw [h1, zero_div] at hq
      exact lt_irrefl _ hq
    have hfirst : ∀ r : F, 0 < r → r ≤ w index / sum →
        ((cur.get index > 0 ∧ index ∉ taken) ∧ r ≤ w index / sum) := by
      intro r h0 hr
      exact ⟨hposw _ (hposd _ (lt_of_lt_of_le h0 hr)), hr⟩
    by_cases hL : size ≤ index * 2 + 1
    · -- leaf
      have e1 : sumBelow w size index = 0 := by
        rw [hB, sumSub_zero w (by omega), sumSub_zero w (by omega), add_zero]
      have honly : ∀ k, InSub index k → k < size → k = index := by
        intro k hk hks
        rcases hk with h | h
        · exact h
        · rcases below_iff_children.1 h with h | h <;> have := inSub_le h <;> omega
      refine ⟨fun _ => 0, ?_, ?_, ?_⟩
      · intro k hk hks
        rw [honly k hk hks, hT, e1, add_zero, zero_add]
        exact ⟨le_rfl, le_rfl⟩
      · intro j k hj hk hjs hks hne
        exact absurd ((honly j hj hjs).trans (honly k hk hks).symm) hne
      · intro r h0 hr
        rw [hT, e1, add_zero] at hr
        refine ⟨index, ?_, Or.inl rfl, hi, h0, by rw [zero_add]; exact hr⟩
        rw [hstep r hi]
        exact if_pos (hfirst r h0 hr)
    · by_cases hR : size ≤ index * 2 + 2
      · -- only a left child, itself a leaf
        have hl : index * 2 + 1 < size := by omega
        have e2 : sumSub w size (2 * index + 1) = w (2 * index + 1) := by
          rw [sumSub_eq w (by omega), sumBelow_eq, sumSub_zero w (by omega),
            sumSub_zero w (by omega), add_zero, add_zero]
        have e1 : sumBelow w size index = w (index * 2 + 1) := by
          rw [hB, sumSub_zero w (by omega : size ≤ 2 * index + 2), add_zero, e2, Nat.mul_comm]
        have honly : ∀ k, InSub index k → k < size → k = index ∨ k = index * 2 + 1 := by
          intro k hk hks
          rcases hk with h | h
          · exact Or.inl h
          · rcases below_iff_children.1 h with h | h
            · rcases h with h | h
              · exact Or.inr (by omega)
              · rcases below_iff_children.1 h with h | h <;> have := inSub_le h <;> omega
            · have := inSub_le h; omega
        have hwl : 0 ≤ w (index * 2 + 1) / sum := div_nonneg (hrem _) hsum.le
        have hne : index * 2 + 1 ≠ index := by omega
        refine ⟨fun k => if k = index then 0 else w index / sum, ?_, ?_, ?_⟩
        · intro k hk hks
          rw [hT, e1, add_div]
          rcases honly k hk hks with h | h
          · subst h
            simp [hwl]
          · subst h
            simp only [hne, if_false]
            exact ⟨hv0, le_rfl⟩
        · intro j k hj hk hjs hks hjk
          rcases honly j hj hjs with h | h <;> rcases honly k hk hks with h' | h'
          · omega
          · subst h; subst h'
            left; simp [hne]
          · subst h; subst h'
            right; simp [hne]
          · omega
        · intro r h0 hr
          rw [hT, e1, add_div] at hr
          by_cases hc : r ≤ w index / sum
          · refine ⟨index, ?_, Or.inl rfl, hi, by simpa using h0, by simpa using hc⟩
            rw [hstep r hi]
            exact if_pos (hfirst r h0 hc)
          · have hc' := not_le.1 hc
            have hwlp : 0 < w (index * 2 + 1) / sum := by linarith
            have hpl := hposw _ (hposd _ hwlp)
            refine ⟨index * 2 + 1, ?_, Or.inr (by rw [Nat.mul_comm]; exact .left _), hl, ?_, ?_⟩
            · rw [hstep r hi]
              dsimp only
              rw [if_neg (fun h => hc h.2), if_neg hL, if_pos hR, if_pos hpl.1]
            · simpa [hne] using hc'
            · simpa [hne] using hr
      · -- two children
        have hl : index * 2 + 1 < size := by omega
        have hr' : index * 2 + 2 < size := by omega
        obtain ⟨aL, bL, dL, sL⟩ := ih (index * 2 + 1) hl (by omega)
        obtain ⟨aR, bR, dR, sR⟩ := ih (index * 2 + 2) hr' (by omega)
        have hmass : w (index * 2 + 1) + cum.get (index * 2 + 1) -
            (∑ q ∈ Finset.range size, if Below (index * 2 + 1) q ∧ q ∈ taken then
              wt pw (cur.get q) else 0) = sumSub w size (index * 2 + 1) := by
          rw [hinv _ hl, sumSub_eq w hl, hwdef, remaining_sum]
          ring
        set mL := sumSub w size (index * 2 + 1) / sum with hmL
        set mR := sumSub w size (index * 2 + 2) / sum with hmR
        have htot : sumSub w size index / sum = w index / sum + (mL + mR) := by
          rw [hT, hB, add_div, add_div, hmL, hmR, Nat.mul_comm 2 index]
        have hmL0 : 0 ≤ mL := div_nonneg (hsub0 _) hsum.le
        have hmR0 : 0 ≤ mR := div_nonneg (hsub0 _) hsum.le
        have hcases : ∀ k, InSub index k → k = index ∨ InSub (index * 2 + 1) k ∨
            InSub (index * 2 + 2) k := by
          intro k hk
          rcases hk with h | h
          · exact Or.inl h
          · rw [Nat.mul_comm]; exact Or.inr (below_iff_children.1 h)
        have hnL : ¬ InSub (index * 2 + 1) index := fun h => by have := inSub_le h; omega
        have hnR : ¬ InSub (index * 2 + 2) index := fun h => by have := inSub_le h; omega
        have hdisj : ∀ k, InSub (index * 2 + 1) k → InSub (index * 2 + 2) k → False := by
          intro k h1 h2
          rw [Nat.mul_comm] at h1 h2
          exact children_disjoint index k h1 h2
        rw [htot]
        refine ⟨fun k => if k = index then 0 else if InSub (index * 2 + 1) k then
          w index / sum + aL k else w index / sum + mL + aR k, ?_, ?_, ?_⟩
        · intro k hk hks
          rcases hcases k hk with h | h | h
          · subst h
            simp only [if_true, zero_add]
            exact ⟨le_rfl, by linarith⟩
          · have hki : k ≠ index := fun e => hnL (e ▸ h)
            simp only [hki, h, if_true, if_false]
            have := bL k h hks
            exact ⟨by linarith [this.1], by linarith [this.2]⟩
          · have hki : k ≠ index := fun e => hnR (e ▸ h)
            have hkl : ¬ InSub (index * 2 + 1) k := fun h' => hdisj k h' h
            simp only [hki, hkl, if_false]
            have := bR k h hks
            exact ⟨by linarith [this.1], by linarith [this.2]⟩
        · intro j k hj hk hjs hks hjk
          rcases hcases j hj with h | h | h <;> rcases hcases k hk with h' | h' | h'
          · omega
          · subst h
            have hki : k ≠ j := fun e => hjk e.symm
            simp only [if_true, hki, if_false, h', zero_add]
            left; linarith [(bL k h' hks).1]
          · subst h
            have hki : k ≠ j := fun e => hjk e.symm
            have hkl : ¬ InSub (j * 2 + 1) k := fun h'' => hdisj k h'' h'
            simp only [if_true, hki, if_false, hkl, zero_add]
            left; linarith [(bR k h' hks).1]
          · subst h'
            simp only [if_true, hjk, if_false, h, zero_add]
            right; linarith [(bL j h hjs).1]
          · have hji : j ≠ index := fun e => hnL (e ▸ h)
            have hki : k ≠ index := fun e => hnL (e ▸ h')
            simp only [hji, hki, if_false, h, h', if_true]
            rcases dL j k h h' hjs hks hjk with x | x
            · left; linarith
            · right; linarith
          · have hji : j ≠ index := fun e => hnL (e ▸ h)
            have hki : k ≠ index := fun e => hnR (e ▸ h')
            have hkl : ¬ InSub (index * 2 + 1) k := fun h'' => hdisj k h'' h'
            simp only [hji, hki, if_false, h, hkl, if_true]
            left; linarith [(bL j h hjs).2, (bR k h' hks).1]
          · subst h'
            have hkl : ¬ InSub (k * 2 + 1) j := fun h'' => hdisj j h'' h
            simp only [if_true, hjk, if_false, hkl, zero_add]
            right; linarith [(bR j h hjs).1]
          · have hji : j ≠ index := fun e => hnR (e ▸ h)
            have hki : k ≠ index := fun e => hnL (e ▸ h')
            have hkl : ¬ InSub (index * 2 + 1) j := fun h'' => hdisj j h'' h
            simp only [hji, hki, if_false, h', hkl, if_true]
            right; linarith [(bL k h' hks).2, (bR j h hjs).1]
          · have hji : j ≠ index := fun e => hnR (e ▸ h)
            have hki : k ≠ index := fun e => hnR (e ▸ h')
            have hjl : ¬ InSub (index * 2 + 1) j := fun h'' => hdisj j h'' h
            have hkl : ¬ InSub (index * 2 + 1) k := fun h'' => hdisj k h'' h'
            simp only [hji, hki, if_false, hjl, hkl]
            rcases dR j k h h' hjs hks hjk with x | x
            · left; linarith
            · right; linarith
        · intro r h0 hr
          by_cases hc : r ≤ w index / sum
          · refine ⟨index, ?_, Or.inl rfl, hi, by simpa using h0, by simpa using hc⟩
            rw [hstep r hi]
            exact if_pos (hfirst r h0 hc)
          · have hc' := not_le.1 hc
            have hs2 : weightedSampleRewards pw cum cur size sum taken (fuel + 1) index r =
                if r - w index / sum ≤ mL then
                  (weightedSampleRewards pw cum cur size sum taken fuel (index * 2 + 1)
                    (r - w index / sum)).bind fun a => (if a = size then
                      weightedSampleRewards pw cum cur size sum taken fuel (index * 2 + 2)
                        (r - w index / sum - mL) else some a).bind fun a =>
                    some (if cur.get index > 0 ∧ a = size then index else a)
                else (weightedSampleRewards pw cum cur size sum taken fuel (index * 2 + 2)
                    (r - w index / sum - mL)).bind fun a => (if a = size then
                      weightedSampleRewards pw cum cur size sum taken fuel (index * 2 + 1)
                        (r - w index / sum) else some a).bind fun a =>
                    some (if cur.get index > 0 ∧ a = size then index else a) := by
              rw [hstep r hi]
              dsimp only
              rw [if_neg (fun h => hc h.2), if_neg hL, if_neg hR, hmass]
            rw [hs2]
            by_cases hg : r - w index / sum ≤ mL
            · rw [if_pos hg]
              obtain ⟨k, e, h1, h2, h3, h4⟩ := sL (r - w index / sum) (by linarith) hg
              have hki : k ≠ index := fun e => hnL (e ▸ h1)
              have hks : k ≠ size := by omega
              refine ⟨k, by simp [e, hks], Or.inr (by
                rw [below_iff_children, Nat.mul_comm 2]; exact Or.inl h1), h2, ?_, ?_⟩
              · simp only [hki, h1, if_true, if_false]; linarith
              · simp only [hki, h1, if_true, if_false]; linarith
            · rw [if_neg hg]
              obtain ⟨k, e, h1, h2, h3, h4⟩ := sR (r - w index / sum - mL)
                (by linarith [not_le.1 hg]) (by linarith)
              have hki : k ≠ index := fun e => hnR (e ▸ h1)
              have hkl : ¬ InSub (index * 2 + 1) k := fun h'' => hdisj k h'' h1
              have hks : k ≠ size := by omega
              refine ⟨k, by simp [e, hks], Or.inr (by
                rw [below_iff_children, Nat.mul_comm 2]; exact Or.inr h1), h2, ?_, ?_⟩
              · simp only [hki, hkl, if_false]; linarith
              · simp only [hki, hkl, if_false]; linarith

end LLab.Replay
