import Verif.Neat.Generation
import Mathlib.Algebra.Order.Floor.Ring
import Mathlib.Tactic.Linarith
import Mathlib.Tactic.Ring
import Mathlib.Tactic.Positivity
import Mathlib.Tactic.NormNum

/-!
Properties C90-C95 of `neat_generation_run`.
-/

namespace LLab.Generation

open LLab.Species LLab.Sort

section
variable {σ G : Type}

/-! ### The best genome -/

theorem foldl_best (xs : List (Ind G)) (b : Ind G) :
    let r := xs.foldl (fun b y => if b.fit < y.fit then y else b) b
    (r = b ∨ r ∈ xs) ∧ b.fit ≤ r.fit ∧ ∀ x ∈ xs, x.fit ≤ r.fit := by
  induction xs generalizing b with
  | nil => exact ⟨Or.inl rfl, le_refl _, fun x hx => by cases hx⟩
  | cons y ys ih =>
    dsimp only [List.foldl_cons] at ih ⊢
    by_cases h : b.fit < y.fit
    · rw [if_pos h]
      obtain ⟨h1, h2, h3⟩ := ih y
      refine ⟨?_, le_trans (le_of_lt h) h2, fun x hx => ?_⟩
      · rcases h1 with h1 | h1
        · exact Or.inr (by rw [h1]; simp)
        · exact Or.inr (List.mem_cons_of_mem _ h1)
      · rcases List.mem_cons.1 hx with rfl | hx
        · exact h2
        · exact h3 x hx
    · rw [if_neg h]
      obtain ⟨h1, h2, h3⟩ := ih b
      refine ⟨?_, h2, fun x hx => ?_⟩
      · rcases h1 with h1 | h1
        · exact Or.inl h1
        · exact Or.inr (List.mem_cons_of_mem _ h1)
      · rcases List.mem_cons.1 hx with rfl | hx
        · exact le_trans (not_lt.1 h) h2
        · exact h3 x hx

theorem bestOf_spec {l : List (Ind G)} {b : Ind G} (h : bestOf l = some b) : b ∈ l ∧ ∀ x ∈ l, x.fit ≤ b.fit := by
  cases l with
  | nil => cases h
  | cons x xs =>
    obtain ⟨h1, h2, h3⟩ := foldl_best xs x
    cases h
    refine ⟨?_, fun y hy => ?_⟩
    · rcases h1 with h1 | h1
      · rw [h1]
        simp
      · exact List.mem_cons_of_mem _ h1
    · rcases List.mem_cons.1 hy with rfl | hy
      · exact h2
      · exact h3 y hy

theorem bestOf_isSome {l : List (Ind G)} (h : l ≠ []) : ∃ b, bestOf l = some b := by
  cases l with
  | nil => exact absurd rfl h
  | cons x xs => exact ⟨_, rfl⟩

/-! ### Sorting permutes -/

theorem pick_append {β : Type} (l : List β) (is js : List Nat) :
    pick l (is ++ js) = (pick l is).bind fun a => (pick l js).bind fun b => some (a ++ b) := by
  induction is with
  | nil =>
    simp only [List.nil_append, pick, Option.bind_some]
    cases pick l js <;> rfl
  | cons i is ih =>
    simp only [List.cons_append, pick]
    cases l[i]? with
    | none => rfl
    | some x =>
      simp only [Option.bind_some, ih]
      cases pick l is with
      | none => rfl
      | some a =>
        simp only [Option.bind_some]
        cases pick l js <;> rfl

theorem pick_perm {β : Type} (l : List β) {is js : List Nat} (h : is.Perm js) {a : List β} (hj : pick l js = some a) :
    ∃ b, pick l is = some b ∧ b.Perm a := by
  induction h generalizing a with
  | nil => exact ⟨a, hj, List.Perm.refl _⟩
  | cons x _ ih =>
    simp only [pick] at hj ⊢
    cases hx : l[x]? with
    | none => rw [hx] at hj; cases hj
    | some y =>
      rw [hx, Option.bind_some] at hj
      obtain ⟨c, hp, hc⟩ := Option.bind_eq_some_iff.1 hj
      · cases hc
        obtain ⟨b, hb, hperm⟩ := ih hp
        exact ⟨y :: b, by rw [Option.bind_some, hb, Option.bind_some], List.Perm.cons _ hperm⟩
  | swap x y t =>
    simp only [pick] at hj ⊢
    cases hx : l[x]? with
    | none => rw [hx] at hj; cases hj
    | some u =>
      cases hy : l[y]? with
      | none => rw [hx, hy] at hj; cases hj
      | some v =>
        cases ht : pick l t with
        | none => rw [hx, hy, ht] at hj; cases hj
        | some c =>
          rw [hx, hy, ht] at hj
          simp only [Option.bind_some] at hj
          cases hj
          exact ⟨v :: u :: c, rfl, List.Perm.swap _ _ _⟩
  | trans _ _ ih1 ih2 =>
    obtain ⟨b, hb, hp⟩ := ih2 hj
    obtain ⟨c, hc, hp'⟩ := ih1 hb
    exact ⟨c, hc, hp'.trans hp⟩

theorem pick_range_aux {β : Type} (l m : List β) : pick (l ++ m) ((List.range m.length).map (· + l.length)) = some m := by
  induction m generalizing l with
  | nil => rfl
  | cons x m ih =>
    rw [List.length_cons, List.range_succ_eq_map, List.map_cons, List.map_map]
    simp only [pick]
    have h0 : (l ++ x :: m)[0 + l.length]? = some x := by simp
    rw [h0, Option.bind_some]
    have := ih (l ++ [x])
    rw [List.append_assoc, List.singleton_append] at this
    have e : (fun k => k + l.length) ∘ Nat.succ = fun k => k + (l ++ [x]).length := by
      funext k
      simp
      omega
    rw [e, this]
    rfl

theorem pick_range {β : Type} (l : List β) : pick l (List.range l.length) = some l := by
  have := pick_range_aux [] l
  simpa using this

/-- Sorting by fitness never fails and permutes the genomes. -/
theorem sortByFitness_perm (l : List (Ind G)) : ∃ l', sortByFitness l = some l' ∧ l'.Perm l := by
  obtain ⟨I, h1, h2, _⟩ := C02_sort_partial truncRat (l.map Ind.fit) (List.range l.length) 0 ((l.length : Int) - 1) (le_refl _) (by simp) (by simp)
  obtain ⟨l', h3, h4⟩ := pick_perm l ((List.reverse_perm I).trans h2) (pick_range l)
  exact ⟨l', by unfold sortByFitness; rw [h1, Option.bind_some, h3], h4⟩

/-! ### Rounding up -/

theorem truncRat_bounds (q : ℚ) : (truncRat q : ℚ) - 1 < q ∧ q < truncRat q + 1 := by
  unfold truncRat
  split_ifs with h
  · exact ⟨by have := Int.ceil_lt_add_one q; linarith, by have := Int.le_ceil q; linarith⟩
  · exact ⟨by have := Int.floor_le q; linarith, Int.lt_floor_add_one q⟩

theorem roundUp_le {q : ℚ} {n : Int} (h0 : 1 ≤ n) (h : q ≤ n) : roundUp q ≤ n := by
  unfold roundUp
  by_cases hq : q < 0
  · have hc : truncRat q = ⌈q⌉ := by unfold truncRat; rw [if_pos hq]
    have h1 : ⌈q⌉ ≤ 0 := Int.ceil_le.2 (by push_cast; linarith)
    rw [hc]
    split_ifs with hne
    · omega
    · omega
  · have hc : truncRat q = ⌊q⌋ := by unfold truncRat; rw [if_neg hq]
    rw [hc]
    split_ifs with hne
    · have h1 : (⌊q⌋ : ℚ) < q := lt_of_le_of_ne (Int.floor_le q) (Ne.symm hne)
      have : (⌊q⌋ : ℚ) < n := lt_of_lt_of_le h1 h
      have : ⌊q⌋ < n := by exact_mod_cast this
      omega
    · have : (⌊q⌋ : ℚ) ≤ n := le_trans (Int.floor_le q) h
      exact_mod_cast this

theorem roundUp_pos {q : ℚ} (h : 0 < q) : 1 ≤ roundUp q := by
  unfold roundUp
  have hc : truncRat q = ⌊q⌋ := by unfold truncRat; rw [if_neg (by linarith)]
  have h0 : 0 ≤ ⌊q⌋ := Int.floor_nonneg.2 (le_of_lt h)
  rw [hc]
  split_ifs with hne
  · omega
  · have : (⌊q⌋ : ℚ) = q := (not_not.1 hne).symm
    have : (0 : ℚ) < ⌊q⌋ := by rw [this]; exact h
    have : 0 < ⌊q⌋ := by exact_mod_cast this
    omega

theorem survivorsOf_bounds {P : Params} (hP : P.Valid) {n : Nat} (hn : 1 ≤ n) : 1 ≤ survivorsOf P n ∧ survivorsOf P n ≤ n := by
  unfold survivorsOf
  have hn' : (0 : ℚ) < n := by exact_mod_cast hn
  have h1 := roundUp_pos (mul_pos hn' hP.survivors.1)
  have h2 : roundUp ((n : ℚ) * P.survivors) ≤ (n : Int) := by
    refine roundUp_le (by omega) ?_
    have := mul_le_mul_of_nonneg_left hP.survivors.2 (le_of_lt hn')
    push_cast
    linarith
  omega

theorem share_le (a b : ℚ) : (share a b).2 ≤ 20 := by
  unfold share
  by_cases h : b = a
  · rw [if_pos h]
    norm_num
  · rw [if_neg h]
    dsimp only
    generalize (if a = 0 then 1 / 1000 else a) = a'
    split_ifs with h1 h2
    · exact le_refl _
    · norm_num
    · exact not_lt.1 h1

theorem quota_le (P : Params) {b : ℚ} (h : b ≤ 20) : quota P b ≤ 50 * P.children := by
  unfold quota
  have h1 : roundUp (b * (5 / 2)) ≤ (50 : Int) := roundUp_le (by norm_num) (by push_cast; linarith)
  have h2 : (P.children : Int) * roundUp (b * (5 / 2)) ≤ (P.children : Int) * 50 := mul_le_mul_of_nonneg_left h1 (by omega)
  omega

/-! ### The children of one species -/

theorem childIdx_run (N r n : Nat) (hr : 1 ≤ r) (hrn : r ≤ n) (fuel z : Nat) (hf : N - z ≤ fuel) :
    ∃ l, childIdx N r n fuel z = some l ∧ l.length = N - z ∧ ∀ i ∈ l, i < r := by
  induction fuel generalizing z with
  | zero =>
    refine ⟨[], ?_, by simp; omega, fun i hi => by cases hi⟩
    unfold childIdx
    rw [if_neg (by omega)]
  | succ f ih =>
    unfold childIdx
    by_cases hz : z < N
    · obtain ⟨l, h1, h2, h3⟩ := ih (z + r) (by omega)
      rw [if_pos hz]
      dsimp only
      rw [if_neg (by omega), h1, Option.bind_some]
      refine ⟨_, rfl, ?_, fun i hi => ?_⟩
      · rw [List.length_append, List.length_range, h2]
        omega
      · rcases List.mem_append.1 hi with hi | hi
        · have := List.mem_range.1 hi
          omega
        · exact h3 i hi
    · rw [if_neg hz]
      exact ⟨[], rfl, by simp; omega, fun i hi => by cases hi⟩

/-- A property of genomes, relative to the registry, that everything the generation does
keeps: the result of each operation has it, and no operation takes it from other
genomes. -/
structure World.Keeps (W : World σ G) (Q : σ → G → Prop) : Prop where
  mutate : ∀ w big young rate g, Q w g → Q (W.mutate w big young rate g).1 (W.mutate w big young rate g).2 ∧
    ∀ h, Q w h → Q (W.mutate w big young rate g).1 h
  cross : ∀ w g g2, Q w g → Q w g2 → Q (W.cross w g g2).1 (W.cross w g g2).2 ∧ ∀ h, Q w h → Q (W.cross w g g2).1 h
  coin : ∀ w r h, Q w h → Q (W.coin w r).1 h
  shuffle : ∀ w l h, Q w h → Q (W.shuffle w l).1 h
  adjust : ∀ w g, Q w g → Q w (W.adjust g)

/-- The genome has the property and its `specie_rip` is 0. -/
def Fine (Q : σ → G → Prop) (w : σ) (x : Ind G) : Prop := Q w x.g ∧ x.rip = 0

/-- Later states keep the property. -/
def Later (Q : σ → G → Prop) (w w' : σ) : Prop := ∀ h, Q w h → Q w' h

theorem Later.fine {Q : σ → G → Prop} {w w' : σ} (h : Later Q w w') {x : Ind G} (hx : Fine Q w x) : Fine Q w' x := ⟨h _ hx.1, hx.2⟩

theorem push_some {β : Type} {cap : Nat} {l : List β} {x : β} (h : l.length < cap) : push cap l x = some (l ++ [x]) := by
  unfold push
  rw [if_pos h]

theorem breed_run (W : World σ G) {Q : σ → G → Prop} (hW : W.Keeps Q) (cap : Nat) (big young : Bool) (rate : ℚ) (sorted : List (Ind G)) (is : List Nat)
    (w : σ) (kids : List (Ind G)) (hi : ∀ i ∈ is, i < sorted.length) (hs : ∀ x ∈ sorted, Fine Q w x) (hk : ∀ x ∈ kids, Fine Q w x)
    (hcap : kids.length + is.length ≤ cap) : ∃ w' new, breed W cap big young rate sorted is (w, kids) = some (w', kids ++ new) ∧
      new.length = is.length ∧ Later Q w w' ∧ ∀ x ∈ kids ++ new, Fine Q w' x := by
  induction is generalizing w kids with
  | nil => exact ⟨w, [], by simp [breed], rfl, fun _ h => h, by simpa using hk⟩
  | cons i is ih =>
    have hlt := hi i (by simp)
    have hx := hs _ (List.getElem_mem hlt)
    obtain ⟨m1, m2⟩ := hW.mutate w big young rate _ hx.1
    obtain ⟨kid, hkid⟩ : ∃ kid : Ind G, kid = ⟨(W.mutate w big young rate sorted[i].g).2, sorted[i].fit, sorted[i].rip⟩ := ⟨_, rfl⟩
    have hfine : Fine Q (W.mutate w big young rate sorted[i].g).1 kid := by
      rw [hkid]
      exact ⟨m1, hx.2⟩
    obtain ⟨w', new, e1, e2, e3, e4⟩ := ih (W.mutate w big young rate sorted[i].g).1 (kids ++ [kid]) (fun j hj => hi j (by simp [hj]))
      (fun x hx => Later.fine m2 (hs x hx)) (fun x hx => by
        rcases List.mem_append.1 hx with h | h
        · exact Later.fine m2 (hk x h)
        · rw [List.mem_singleton.1 h]
          exact hfine) (by
        rw [List.length_cons] at hcap
        rw [List.length_append, List.length_singleton]
        omega)
    refine ⟨w', kid :: new, ?_, by simp [e2], fun h hh => e3 h (m2 h hh), ?_⟩
    · simp only [breed]
      rw [List.getElem?_eq_getElem hlt, Option.bind_some, push_some (by rw [List.length_cons] at hcap; omega), Option.bind_some]
      rw [← hkid, e1]
      simp
    · rw [List.append_assoc, List.singleton_append] at e4
      exact e4

/-! ### The loop over the species -/

/-- The species and its genomes have the property. -/
def SpecFine (Q : σ → G → Prop) (w : σ) (s : Spec G) : Prop := Fine Q w s.sp.rep ∧ ∀ x ∈ s.sp.members, Fine Q w x

theorem Later.spec {Q : σ → G → Prop} {w w' : σ} (h : Later Q w w') {s : Spec G} (hs : SpecFine Q w s) : SpecFine Q w' s :=
  ⟨h.fine hs.1, fun x hx => h.fine (hs.2 x hx)⟩

/-- The counter of a species whose representative has `specie_rip = 0`. -/
theorem countRip_eq (W : World σ G) {P : Params} (hP : P.Valid) (n : Nat) (top : ℚ) (w : σ) (s : Spec G) (h : s.sp.rep.rip = 0) :
    countRip W P n top w s = (w, { s with rip := if top ≤ s.best then s.rip + 1 else 0 }) := by
  unfold countRip
  dsimp only
  rw [if_neg]
  rw [h]
  have := hP.limits
  omega

theorem speciesStep_run (W : World σ G) {Q : σ → G → Prop} (hW : W.Keeps Q) {P : Params} (hP : P.Valid) (cap : Nat) (rate : ℚ) (t : Stats)
    (s : Spec G) (acc : Acc σ G) (hs : SpecFine Q acc.w s) (hne : s.sp.members ≠ []) (hk : ∀ x ∈ acc.kids, Fine Q acc.w x)
    (he : ∀ x ∈ acc.elite, Fine Q acc.w x) (hcap : acc.kids.length + 50 * P.children ≤ cap) (hcap2 : acc.elite.length < cap) :
    ∃ w' new elite rip, speciesStep W P cap rate t s acc = some ({ s with rip := rip }, ⟨w',
        (share acc.a (normFitness t.oldest P.ageSig t.worst t.best s)).1, acc.kids ++ new, elite⟩) ∧
      new.length = quota P (share acc.a (normFitness t.oldest P.ageSig t.worst t.best s)).2 ∧
      acc.elite.length ≤ elite.length ∧ elite.length ≤ acc.elite.length + 1 ∧ Later Q acc.w w' ∧ (∀ x ∈ acc.kids ++ new, Fine Q w' x) ∧
      (∀ x ∈ elite, Fine Q w' x) ∧ ∃ x ∈ s.sp.members, rip = if x.fit ≤ s.best then s.rip + 1 else 0 := by
  unfold speciesStep
  dsimp only
  obtain ⟨sorted, hsort, hperm⟩ := sortByFitness_perm s.sp.members
  have hlen : sorted.length = s.sp.members.length := hperm.length_eq
  have hpos : 1 ≤ s.sp.members.length := List.length_pos_iff.2 hne
  obtain ⟨hr1, hr2⟩ := survivorsOf_bounds hP hpos
  have hsf : ∀ x ∈ sorted, Fine Q acc.w x := fun x hx => hs.2 x (hperm.mem_iff.1 hx)
  have h0 : 0 < sorted.length := by omega
  have hq := quota_le P (share_le acc.a (normFitness t.oldest P.ageSig t.worst t.best s))
  generalize share acc.a (normFitness t.oldest P.ageSig t.worst t.best s) = ab at hq
  obtain ⟨is, hi1, hi2, hi3⟩ := childIdx_run (quota P ab.2) (survivorsOf P s.sp.members.length) s.sp.members.length hr1 hr2 (quota P ab.2) 0 (by omega)
  rw [hsort, Option.bind_some, if_pos (Or.inl (by rw [hs.1.2]; have := hP.limits; omega)), List.getElem?_eq_getElem h0, Option.bind_some,
    countRip_eq W hP _ _ _ _ hs.1.2]
  obtain ⟨elite, hel, l1, l2, hef⟩ : ∃ elite, (if ab.1 ≤ ab.2 then push cap acc.elite sorted[0] else some acc.elite) = some elite ∧
      acc.elite.length ≤ elite.length ∧ elite.length ≤ acc.elite.length + 1 ∧ ∀ x ∈ elite, Fine Q acc.w x := by
    by_cases hab : ab.1 ≤ ab.2
    · rw [if_pos hab, push_some hcap2]
      refine ⟨_, rfl, by simp, by simp, fun x hx => ?_⟩
      rcases List.mem_append.1 hx with h | h
      · exact he x h
      · rw [List.mem_singleton.1 h]
        exact hsf _ (List.getElem_mem h0)
    · rw [if_neg hab]
      exact ⟨_, rfl, le_refl _, by omega, he⟩
  dsimp only
  obtain ⟨w', new, b1, b2, b3, b4⟩ := breed_run W hW cap (decide (t.avg ≤ s.sp.members.length))
    (decide (s.sp.rep.rip < P.limitSpecies - P.limitThreshold)) rate sorted is acc.w acc.kids (fun i hi => by
      have := hi3 i hi
      omega) hsf hk (by omega)
  rw [hel, Option.bind_some, hi1, Option.bind_some, b1, Option.bind_some]
  exact ⟨w', new, elite, _, rfl, by omega, l1, l2, b3, b4, fun x hx => b3.fine (hef x hx), sorted[0], hperm.mem_iff.1 (List.getElem_mem h0), rfl⟩

/-- The numbers of children of the species, in order (`/repo/src/neat.c` 318-370); `a` is the mean
fitness of the species, raised to `0.001` when it is 0. -/
def quotas (P : Params) (t : Stats) : ℚ → List (Spec G) → List Nat
  | _, [] => []
  | a, s :: ss => quota P (share a (normFitness t.oldest P.ageSig t.worst t.best s)).2 ::
      quotas P t (share a (normFitness t.oldest P.ageSig t.worst t.best s)).1 ss

/-- The species `s'` is `s` after a generation: only the counter of generations without
improvement differs, which went up or was reset. -/
def Counted (s s' : Spec G) : Prop := ∃ x ∈ s.sp.members, s' = { s with rip := if x.fit ≤ s.best then s.rip + 1 else 0 }

theorem speciesLoop_run (W : World σ G) {Q : σ → G → Prop} (hW : W.Keeps Q) {P : Params} (hP : P.Valid) (cap : Nat) (rate : ℚ) (t : Stats)
    (ss : List (Spec G)) (acc : Acc σ G) (hs : ∀ s ∈ ss, SpecFine Q acc.w s ∧ s.sp.members ≠ []) (hk : ∀ x ∈ acc.kids, Fine Q acc.w x)
    (he : ∀ x ∈ acc.elite, Fine Q acc.w x) (hcap : acc.kids.length + 50 * P.children * ss.length ≤ cap) (hcap2 : acc.elite.length + ss.length ≤ cap) :
    ∃ w' a' new elite ss', speciesLoop W P cap rate t ss acc = some (ss', ⟨w', a', acc.kids ++ new, elite⟩) ∧
      new.length = (quotas P t acc.a ss).sum ∧ elite.length ≤ acc.elite.length + ss.length ∧ Later Q acc.w w' ∧
      (∀ x ∈ acc.kids ++ new, Fine Q w' x) ∧ (∀ x ∈ elite, Fine Q w' x) ∧ List.Forall₂ Counted ss ss' ∧
      (quotas P t acc.a ss).sum ≤ 50 * P.children * ss.length := by
  induction ss generalizing acc with
  | nil =>
    exact ⟨acc.w, acc.a, [], acc.elite, [], by simp [speciesLoop], rfl, by simp, fun _ h => h, by simpa using hk, he, .nil, by simp [quotas]⟩
  | cons s ss ih =>
    obtain ⟨hsf, hne⟩ := hs s (by simp)
    have hexp : 50 * P.children * (s :: ss).length = 50 * P.children * ss.length + 50 * P.children := by
      rw [List.length_cons]
      ring
    rw [hexp] at hcap ⊢
    rw [List.length_cons] at hcap2
    obtain ⟨w1, new1, el1, rip1, e1, n1, l1, l2, la1, k1, f1, x, hx, hrip⟩ := speciesStep_run W hW hP cap rate t s acc hsf hne hk he
      (by omega) (by omega)
    have hq := quota_le P (share_le acc.a (normFitness t.oldest P.ageSig t.worst t.best s))
    obtain ⟨w2, a2, new2, el2, ss2, e2, n2, l3, la2, k2, f2, c2, q2⟩ := ih ⟨w1,
        (share acc.a (normFitness t.oldest P.ageSig t.worst t.best s)).1, acc.kids ++ new1, el1⟩
      (fun u hu => ⟨la1.spec (hs u (by simp [hu])).1, (hs u (by simp [hu])).2⟩) k1 f1
      (by dsimp only; rw [List.length_append]; omega) (by dsimp only; omega)
    dsimp only at e2 n2 l3 k2 q2 la2
    refine ⟨w2, a2, new1 ++ new2, el2, { s with rip := rip1 } :: ss2, ?_, ?_, ?_, fun h hh => la2 h (la1 h hh), ?_, f2, .cons ⟨x, hx, by rw [hrip]⟩ c2, ?_⟩
    · simp only [speciesLoop]
      rw [e1, Option.bind_some]
      dsimp only
      rw [e2, Option.bind_some, List.append_assoc]
    · rw [List.length_append, quotas, List.sum_cons, n1, n2]
    · rw [List.length_cons]
      omega
    · rw [← List.append_assoc]
      exact k2
    · rw [quotas, List.sum_cons]
      omega

/-! ### The new population -/

theorem pushAll_run {β : Type} (cap : Nat) (xs l : List β) (h : l.length + xs.length ≤ cap) : pushAll cap xs l = some (l ++ xs) := by
  induction xs generalizing l with
  | nil => simp [pushAll]
  | cons x xs ih =>
    rw [List.length_cons] at h
    simp only [pushAll]
    rw [push_some (by omega), Option.bind_some, ih _ (by rw [List.length_append, List.length_singleton]; omega)]
    simp

theorem crossAll_run (W : World σ G) {Q : σ → G → Prop} (hW : W.Keeps Q) (cap : Nat) (rate : ℚ) (n : Nat) (xs : List (Ind G)) (hn : xs.length ≤ n)
    (w : σ) (kids : List (Ind G)) (hx : ∀ x ∈ xs, Fine Q w x) (hk : ∀ x ∈ kids, Fine Q w x) (hcap : kids.length + xs.length / 2 ≤ cap) :
    ∃ w' new, crossAll W cap rate xs (w, kids) = some (w', kids ++ new) ∧ new.length ≤ xs.length / 2 ∧ Later Q w w' ∧
      ∀ x ∈ kids ++ new, Fine Q w' x := by
  induction n generalizing xs w kids with
  | zero =>
    have : xs = [] := List.length_eq_zero_iff.1 (by omega)
    subst this
    exact ⟨w, [], by simp [crossAll], by simp, fun _ h => h, by simpa using hk⟩
  | succ n ih =>
    match xs, hn, hx, hcap with
    | [], _, _, _ => exact ⟨w, [], by simp [crossAll], by simp, fun _ h => h, by simpa using hk⟩
    | [x], _, _, _ => exact ⟨w, [], by simp [crossAll], by simp, fun _ h => h, by simpa using hk⟩
    | x :: y :: xs, hn, hx, hcap =>
      have hlen : (x :: y :: xs).length / 2 = xs.length / 2 + 1 := by
        simp only [List.length_cons]
        omega
      rw [hlen] at hcap ⊢
      have hn' : xs.length ≤ n := by simp at hn; omega
      have hc : Later Q w (W.coin w rate).1 := fun h hh => hW.coin w rate h hh
      simp only [crossAll]
      by_cases hcoin : (W.coin w rate).2 = true
      · rw [if_pos hcoin, push_some (by omega), Option.bind_some]
        obtain ⟨m1, m2⟩ := hW.cross (W.coin w rate).1 x.g y.g (hc _ (hx x (by simp)).1) (hc _ (hx y (by simp)).1)
        obtain ⟨kid, hkid⟩ : ∃ kid : Ind G, kid = ⟨(W.cross (W.coin w rate).1 x.g y.g).2, 0, x.rip⟩ := ⟨_, rfl⟩
        rw [← hkid]
        have hl : Later Q w (W.cross (W.coin w rate).1 x.g y.g).1 := fun h hh => m2 h (hc h hh)
        obtain ⟨w', new, e1, e2, e3, e4⟩ := ih xs hn' (W.cross (W.coin w rate).1 x.g y.g).1 (kids ++ [kid]) (fun u hu => hl.fine (hx u (by simp [hu])))
          (fun u hu => by
            rcases List.mem_append.1 hu with h | h
            · exact hl.fine (hk u h)
            · rw [List.mem_singleton.1 h, hkid]
              exact ⟨m1, (hx x (by simp)).2⟩) (by rw [List.length_append, List.length_singleton]; omega)
        refine ⟨w', kid :: new, by rw [e1]; simp, by rw [List.length_cons]; omega, fun h hh => e3 h (hl h hh), ?_⟩
        rw [List.append_assoc, List.singleton_append] at e4
        exact e4
      · rw [if_neg hcoin]
        obtain ⟨w', new, e1, e2, e3, e4⟩ := ih xs hn' (W.coin w rate).1 kids (fun u hu => hc.fine (hx u (by simp [hu]))) (fun u hu => hc.fine (hk u hu))
          (by omega)
        exact ⟨w', new, e1, by omega, fun h hh => e3 h (hc h hh), e4⟩

theorem renew_run (W : World σ G) {Q : σ → G → Prop} (hW : W.Keeps Q) (hsh : ∀ w l, (W.shuffle w l).2.Perm l) (P : Params) (cap : Nat) (best : Ind G)
    (acc : Acc σ G) (hb : Fine Q acc.w best) (hk : ∀ x ∈ acc.kids, Fine Q acc.w x) (he : ∀ x ∈ acc.elite, Fine Q acc.w x)
    (hcap : acc.kids.length + acc.elite.length + acc.elite.length / 2 < cap) :
    ∃ w' crossed, renew W P cap best acc = some (w', reset W (acc.kids ++ (if P.keepParents then acc.elite else []) ++ crossed ++ [best])) ∧ crossed.length ≤ acc.elite.length / 2 ∧ Later Q acc.w w' ∧
      ∀ x ∈ acc.kids ++ (if P.keepParents then acc.elite else []) ++ crossed ++ [best], Fine Q w' x := by
  unfold renew
  have h1 : (if P.keepParents then pushAll cap acc.elite acc.kids else some acc.kids) =
      some (acc.kids ++ if P.keepParents then acc.elite else []) := by
    by_cases h : P.keepParents = true
    · rw [if_pos h, if_pos h, pushAll_run _ _ _ (by omega)]
    · rw [if_neg h, if_neg h, List.append_nil]
  have hkids : ∀ x ∈ acc.kids ++ (if P.keepParents then acc.elite else []), Fine Q acc.w x := by
    intro x hx
    rcases List.mem_append.1 hx with h | h
    · exact hk x h
    · split_ifs at h
      · exact he x h
      · cases h
  have hlen : (acc.kids ++ if P.keepParents then acc.elite else []).length ≤ acc.kids.length + acc.elite.length := by
    rw [List.length_append]
    split_ifs <;> simp
  rw [h1, Option.bind_some]
  generalize (acc.kids ++ if P.keepParents then acc.elite else []) = kids at hkids hlen
  obtain ⟨w', crossed, e1, e2, e3, e4⟩ : ∃ w' crossed, (if 1 < acc.elite.length then
      crossAll W cap P.crossRate (W.shuffle acc.w acc.elite).2 ((W.shuffle acc.w acc.elite).1, kids) else some (acc.w, kids)) = some (w', kids ++ crossed) ∧
      crossed.length ≤ acc.elite.length / 2 ∧ Later Q acc.w w' ∧ ∀ x ∈ kids ++ crossed, Fine Q w' x := by
    by_cases h : 1 < acc.elite.length
    · rw [if_pos h]
      have hp := hsh acc.w acc.elite
      have hl : Later Q acc.w (W.shuffle acc.w acc.elite).1 := fun u hu => hW.shuffle _ _ _ hu
      obtain ⟨w', new, a1, a2, a3, a4⟩ := crossAll_run W hW cap P.crossRate _ (W.shuffle acc.w acc.elite).2 (le_refl _) (W.shuffle acc.w acc.elite).1 kids
        (fun x hx => hl.fine (he x (hp.mem_iff.1 hx))) (fun x hx => hl.fine (hkids x hx)) (by rw [hp.length_eq]; omega)
      exact ⟨w', new, a1, by rw [hp.length_eq] at a2; exact a2, fun u hu => a3 u (hl u hu), a4⟩
    · rw [if_neg h]
      exact ⟨acc.w, [], by simp, by simp, fun _ h => h, by simpa using hkids⟩
  rw [e1, Option.bind_some]
  dsimp only
  rw [push_some (by rw [List.length_append]; omega), Option.bind_some]
  refine ⟨w', crossed, rfl, e2, e3, fun x hx => ?_⟩
  rcases List.mem_append.1 hx with h | h
  · exact e4 x h
  · rw [List.mem_singleton.1 h]
    exact e3.fine hb

/-! ### Species before the loop -/

/-- The species model of C49 underneath: forgetting the fitness fields, putting genomes in
species is `put_genome_in_species` of `Species.lean`. -/
theorem putF_sp (dist : G → G → ℚ) (th : ℚ) (xs : List (Ind G)) (ss : List (Spec G)) :
    (putF dist th xs ss).map Spec.sp = put (fun x y : Ind G => dist x.g y.g) th xs (ss.map Spec.sp) := by
  have one : ∀ (tt : List (Spec G)) (x : Ind G), (putOneF dist th tt x).map Spec.sp = putOne (fun x y : Ind G => dist x.g y.g) th (tt.map Spec.sp) x := by
    intro tt x
    induction tt with
    | nil => rfl
    | cons s tt ih =>
      simp only [putOneF, List.map_cons, putOne]
      split_ifs
      · rfl
      · rw [List.map_cons, ih]
  unfold putF put
  rw [List.map_map]
  have h0 : (ss.map fun s => { s with sp := { s.sp with age := s.sp.age + 1 } }).map Spec.sp = ss.map ((fun s => { s with age := s.age + 1 }) ∘ Spec.sp) := by
    rw [List.map_map]
    rfl
  rw [← h0]
  generalize (ss.map fun s : Spec G => { s with sp := { s.sp with age := s.sp.age + 1 } }) = tt
  induction xs generalizing tt with
  | nil => rfl
  | cons x xs ih => rw [List.foldl_cons, List.foldl_cons, ih, one]

theorem putOneF_fine (dist : G → G → ℚ) (th : ℚ) {Q : σ → G → Prop} {w : σ} (ss : List (Spec G)) (x : Ind G) (hs : ∀ s ∈ ss, SpecFine Q w s)
    (hx : Fine Q w x) : ∀ s ∈ putOneF dist th ss x, SpecFine Q w s := by
  induction ss with
  | nil =>
    intro s h
    rw [List.mem_singleton.1 h]
    exact ⟨hx, fun y hy => by rw [List.mem_singleton.1 hy]; exact hx⟩
  | cons t ss ih =>
    intro s h
    unfold putOneF at h
    split_ifs at h with hd
    · rcases List.mem_cons.1 h with rfl | h
      · refine ⟨(hs t (by simp)).1, fun y hy => ?_⟩
        rcases List.mem_append.1 hy with hy | hy
        · exact (hs t (by simp)).2 y hy
        · rw [List.mem_singleton.1 hy]
          exact hx
      · exact hs s (by simp [h])
    · rcases List.mem_cons.1 h with rfl | h
      · exact hs _ (by simp)
      · exact ih (fun u hu => hs u (by simp [hu])) s h

theorem putF_fine (dist : G → G → ℚ) (th : ℚ) {Q : σ → G → Prop} {w : σ} (xs : List (Ind G)) (ss : List (Spec G)) (hs : ∀ s ∈ ss, SpecFine Q w s)
    (hx : ∀ x ∈ xs, Fine Q w x) : ∀ s ∈ putF dist th xs ss, SpecFine Q w s := by
  unfold putF
  have h0 : ∀ s ∈ ss.map fun s : Spec G => { s with sp := { s.sp with age := s.sp.age + 1 } }, SpecFine Q w s := by
    intro s h
    obtain ⟨t, ht, rfl⟩ := List.mem_map.1 h
    exact hs t ht
  generalize (ss.map fun s : Spec G => { s with sp := { s.sp with age := s.sp.age + 1 } }) = tt at h0
  induction xs generalizing tt with
  | nil => exact h0
  | cons x xs ih =>
    rw [List.foldl_cons]
    exact ih (fun y hy => hx y (by simp [hy])) _ (putOneF_fine dist th tt x h0 (hx x (by simp)))

theorem put_everyone (dist : Ind G → Ind G → ℚ) (th : ℚ) (gs : List (Ind G)) (ss : List (Sp (Ind G))) :
    (everyone (put dist th gs ss)).Perm (everyone ss ++ gs) := by
  unfold put
  refine put_induct dist th (fun gs tt => (everyone tt).Perm (everyone ss ++ gs)) _ ?_ (fun gs tt g h => ?_) gs
  · rw [everyone_map_age, List.append_nil]
  · rw [← List.append_assoc]
    exact (putOne_everyone dist th tt g).trans (List.Perm.append_right _ h)

/-- The number of genomes kept in the species. -/
def total (ss : List (Spec G)) : Nat := (ss.map fun s => s.sp.members.length).sum

theorem total_eq (ss : List (Spec G)) : total ss = (everyone (ss.map Spec.sp)).length := by
  unfold total everyone
  rw [List.length_flatMap, List.map_map]
  rfl

theorem putF_total (dist : G → G → ℚ) (th : ℚ) (xs : List (Ind G)) (ss : List (Spec G)) : total (putF dist th xs ss) = total ss + xs.length := by
  rw [total_eq, total_eq, putF_sp, (put_everyone _ th xs _).length_eq, List.length_append]

theorem deleteF_total (ss : List (Spec G)) : total (deleteF ss) = total ss := by
  induction ss with
  | nil => rfl
  | cons s ss ih =>
    unfold total deleteF at ih ⊢
    rw [List.filter_cons]
    split_ifs with h
    · rw [List.map_cons, List.sum_cons, ih, List.map_cons, List.sum_cons]
    · rw [ih, List.map_cons, List.sum_cons]
      simp at h
      simp [h]

theorem length_le_total (ss : List (Spec G)) (h : ∀ s ∈ ss, s.sp.members ≠ []) : ss.length ≤ total ss := by
  induction ss with
  | nil => exact Nat.zero_le _
  | cons s ss ih =>
    unfold total at ih ⊢
    rw [List.map_cons, List.sum_cons, List.length_cons]
    have h1 := List.length_pos_iff.2 (h s (by simp))
    have h2 := ih fun t ht => h t (by simp [ht])
    omega

theorem deleteF_ne (ss : List (Spec G)) (s : Spec G) (h : s ∈ deleteF ss) : s ∈ ss ∧ s.sp.members ≠ [] := by
  unfold deleteF at h
  obtain ⟨h1, h2⟩ := List.mem_filter.1 h
  exact ⟨h1, by simpa [List.length_pos_iff] using h2⟩

theorem createF_ok (dist : G → G → ℚ) (th : ℚ) (xs : List (Ind G)) : (createF dist th xs).length ≤ xs.length ∧ total (createF dist th xs) ≤ xs.length ∧
    ∀ s ∈ createF dist th xs, s.sp.rep ∈ xs ∧ (∀ y ∈ s.sp.members, y ∈ xs) := by
  unfold createF
  induction xs using List.reverseRecOn with
  | nil => exact ⟨le_refl _, le_refl _, fun s hs => by cases hs⟩
  | append_singleton xs x ih =>
    rw [List.foldl_append, List.foldl_cons, List.foldl_nil]
    obtain ⟨h1, h2, h3⟩ := ih
    generalize xs.foldl (createOneF dist th) [] = tt at h1 h2 h3
    unfold createOneF
    rw [List.length_append, List.length_singleton]
    split_ifs
    · exact ⟨by omega, by omega, fun s hs => ⟨List.mem_append_left _ (h3 s hs).1, fun y hy => List.mem_append_left _ ((h3 s hs).2 y hy)⟩⟩
    · refine ⟨by rw [List.length_append, List.length_singleton]; omega, ?_, fun s hs => ?_⟩
      · unfold total at h2 ⊢
        rw [List.map_append, List.sum_append]
        simp [openSpec, opened]
        omega
      · rcases List.mem_append.1 hs with hs | hs
        · exact ⟨List.mem_append_left _ (h3 s hs).1, fun y hy => List.mem_append_left _ ((h3 s hs).2 y hy)⟩
        · rw [List.mem_singleton.1 hs]
          exact ⟨by simp [openSpec, opened], fun y hy => by
            have : y = x := by simpa [openSpec, opened] using hy
            simp [this]⟩

/-! ### The invariant -/

/-- What holds of every state of a `neat` between calls. -/
structure Inv (Q : σ → G → Prop) (P : Params) (s : State σ G) : Prop where
  pop : ∀ x ∈ s.pop, Fine Q s.w x
  species : ∀ t ∈ s.species, SpecFine Q s.w t
  nonempty : s.pop ≠ []
  fits : s.pop.length ≤ s.cap
  cap : s.cap = s.newMaxPop * 3 * 20 * P.children * 4
  room : 1 ≤ s.newMaxPop
  total : total s.species ≤ s.newMaxPop
  rate : 0 < s.rate ∧ s.rate ≤ 1 ∧ 0 < s.oldRate ∧ s.oldRate ≤ 1

theorem weed_run (m : Nat) (pop : List (Ind G)) : ∃ l, weed m pop = some l ∧ l.length = min m pop.length ∧ ∀ x ∈ l, x ∈ pop := by
  unfold weed
  split_ifs with h
  · obtain ⟨l, h1, h2⟩ := sortByFitness_perm pop
    rw [h1, Option.bind_some]
    exact ⟨_, rfl, by rw [List.length_take, h2.length_eq], fun x hx => h2.mem_iff.1 (List.mem_of_mem_take hx)⟩
  · exact ⟨pop, rfl, by omega, fun x hx => hx⟩

theorem normalise_fine {Q : σ → G → Prop} {w : σ} (b u : ℚ) (pop : List (Ind G)) (h : ∀ x ∈ pop, Fine Q w x) : ∀ x ∈ normalise b u pop, Fine Q w x := by
  intro x hx
  obtain ⟨y, hy, rfl⟩ := List.mem_map.1 hx
  exact h y hy

theorem forall₂_closeF {ss ss' : List (Spec G)} (h : List.Forall₂ Counted ss ss') {Q : σ → G → Prop} {w : σ} (hs : ∀ s ∈ ss, SpecFine Q w s) :
    total (closeF ss') = 0 ∧ ∀ s ∈ closeF ss', SpecFine Q w s := by
  constructor
  · unfold total closeF
    rw [List.map_map]
    exact List.sum_eq_zero (by simp)
  · intro s hm
    obtain ⟨t, ht, rfl⟩ := List.mem_map.1 hm
    have key : ∀ {ss ss' : List (Spec G)}, List.Forall₂ Counted ss ss' → ∀ t ∈ ss', ∃ u ∈ ss, t.sp = u.sp := by
      intro ss ss' h
      induction h with
      | nil => intro t ht; cases ht
      | cons hc _ ih =>
        intro t ht
        rcases List.mem_cons.1 ht with rfl | ht
        · obtain ⟨x, _, e⟩ := hc
          exact ⟨_, List.mem_cons_self, (congrArg Spec.sp e).trans rfl⟩
        · obtain ⟨u, hu, e⟩ := ih t ht
          exact ⟨u, by simp [hu], e⟩
    obtain ⟨u, hu, e⟩ := key h t ht
    refine ⟨?_, fun x hx => by cases hx⟩
    dsimp only
    rw [e]
    exact (hs u hu).1

/-- The species of a generation before its loop over them: the surviving genomes, with
normalised fitness, are put into the species, and empty species are deleted. -/
def speciesOf (W : World σ G) (P : Params) (first best : Ind G) (s : State σ G) (kept : List (Ind G)) : List (Spec G) :=
  deleteF (putF W.dist P.threshold (W.shuffle s.w (normalise best.fit first.fit kept)).2 s.species)

/-- The mean fitness of the species (`nes->a`). -/
def meanOf (P : Params) (ss : List (Spec G)) : ℚ :=
  meanFitness (statsOf P ss).oldest P.ageSig (statsOf P ss).worst (statsOf P ss).best ss

theorem evolve_run (W : World σ G) {Q : σ → G → Prop} (hW : W.Keeps Q) (hsh : ∀ w l, (W.shuffle w l).2.Perm l) {P : Params} (hP : P.Valid)
    (first best : Ind G) (s : State σ G) (hs : Inv Q P s) (hb : best ∈ s.pop) :
    ∃ kept w' kids elite crossed ss', weed s.newMaxPop s.pop = some kept ∧ kept.length = min s.newMaxPop s.pop.length ∧
      List.Forall₂ Counted (speciesOf W P first best s kept) ss' ∧
      evolve W P first best s = some (advance s w' (reset W (kids ++ (if P.keepParents then elite else []) ++ crossed ++ [best])) ss') ∧
      kids.length = (quotas P (statsOf P (speciesOf W P first best s kept)) (meanOf P (speciesOf W P first best s kept)) (speciesOf W P first best s kept)).sum ∧
      (∀ x ∈ speciesOf W P first best s kept, x.sp.members ≠ []) ∧
      elite.length ≤ (speciesOf W P first best s kept).length ∧ crossed.length ≤ elite.length / 2 ∧
      Inv Q P (advance s w' (reset W (kids ++ (if P.keepParents then elite else []) ++ crossed ++ [best])) ss') := by
  obtain ⟨kept, hk1, hk2, hk3⟩ := weed_run s.newMaxPop s.pop
  have hpos : 1 ≤ s.pop.length := List.length_pos_iff.2 hs.nonempty
  have hroom := hs.room
  have hnf : ∀ x ∈ normalise best.fit first.fit kept, Fine Q s.w x := normalise_fine _ _ _ fun x hx => hs.pop x (hk3 x hx)
  have hperm := hsh s.w (normalise best.fit first.fit kept)
  have hl0 : Later Q s.w (W.shuffle s.w (normalise best.fit first.fit kept)).1 := fun h hh => hW.shuffle _ _ _ hh
  have hssdef : speciesOf W P first best s kept = deleteF (putF W.dist P.threshold (W.shuffle s.w (normalise best.fit first.fit kept)).2 s.species) := rfl
  have htot : total (speciesOf W P first best s kept) = total s.species + kept.length := by
    rw [hssdef, deleteF_total, putF_total, hperm.length_eq, normalise, List.length_map]
  have hne : ∀ x ∈ speciesOf W P first best s kept, x.sp.members ≠ [] := fun x hx => (deleteF_ne _ x hx).2
  have hlen := length_le_total _ hne
  have hT := hs.total
  have hfine : ∀ x ∈ speciesOf W P first best s kept, SpecFine Q (W.shuffle s.w (normalise best.fit first.fit kept)).1 x := fun x hx =>
    hl0.spec (putF_fine W.dist P.threshold _ s.species hs.species (fun y hy => hnf y (hperm.mem_iff.1 hy)) x (deleteF_ne _ x hx).1)
  have hss0 : (speciesOf W P first best s kept).length ≠ 0 := by
    intro h0
    rw [List.length_eq_zero_iff.1 h0] at htot
    unfold total at htot
    simp only [List.map_nil, List.sum_nil] at htot
    omega
  have hunf : evolve W P first best s = (if (speciesOf W P first best s kept).length = 0 then none
    else (speciesLoop W P s.cap s.rate (statsOf P (speciesOf W P first best s kept)) (speciesOf W P first best s kept)
        ⟨(W.shuffle s.w (normalise best.fit first.fit kept)).1, meanOf P (speciesOf W P first best s kept), [], []⟩).bind fun y =>
      (renew W P s.cap best y.2).bind fun z => some (advance s z.1 z.2 y.1)) := by
    unfold evolve
    rw [hk1, Option.bind_some]
    rfl
  rw [hunf]
  generalize hSS : speciesOf W P first best s kept = ss at htot hne hlen hfine hss0
  clear hssdef hunf
  have hcapv := hs.cap
  have hbound : ss.length ≤ 2 * s.newMaxPop := by omega
  have hc := hP.children
  have hmul : 50 * P.children * ss.length ≤ 100 * (P.children * s.newMaxPop) := by
    calc 50 * P.children * ss.length ≤ 50 * P.children * (2 * s.newMaxPop) := Nat.mul_le_mul_left _ hbound
      _ = 100 * (P.children * s.newMaxPop) := by ring
  have hM : s.newMaxPop ≤ P.children * s.newMaxPop := Nat.le_mul_of_pos_left _ hc
  have hcap' : s.cap = 240 * (P.children * s.newMaxPop) := by
    rw [hcapv]
    ring
  have h1 : 1 ≤ P.children * s.newMaxPop := by omega
  generalize hY : P.children * s.newMaxPop = Y at hmul hM hcap' h1
  obtain ⟨w1, a1, new, elite, ss', e1, e2, e3, e4, e5, e6, e7, e8⟩ := speciesLoop_run W hW hP s.cap s.rate (statsOf P ss) ss
    ⟨(W.shuffle s.w (normalise best.fit first.fit kept)).1, meanOf P ss, [], []⟩ (fun x hx => ⟨hfine x hx, hne x hx⟩) (fun x hx => by cases hx)
    (fun x hx => by cases hx) (by dsimp only [List.length_nil]; omega) (by dsimp only [List.length_nil]; omega)
  dsimp only [List.length_nil, List.nil_append] at e1 e2 e3 e4 e5 e6 e7 e8
  have hlb : Later Q s.w w1 := fun h hh => e4 h (hl0 h hh)
  obtain ⟨w2, crossed, r1, r2, r3, r4⟩ := renew_run W hW hsh P s.cap best ⟨w1, a1, new, elite⟩ (hlb.fine (hs.pop best hb)) e5 e6 (by dsimp only; omega)
  dsimp only at r1 r2 r3 r4
  subst hSS
  refine ⟨kept, w2, new, elite, crossed, ss', hk1, hk2, e7, ?_, e2, hne, by omega, r2, ?_⟩
  · rw [if_neg hss0, e1, Option.bind_some]
    dsimp only
    rw [r1, Option.bind_some]
  · have hL : (new ++ (if P.keepParents then elite else []) ++ crossed ++ [best]).length ≤ s.cap := by
      rw [List.length_append, List.length_append, List.length_append, List.length_singleton]
      have : (if P.keepParents then elite else []).length ≤ elite.length := by split_ifs <;> simp
      omega
    obtain ⟨c1, c2⟩ := forall₂_closeF e7 fun x hx => Later.spec (fun h hh => r3 h (e4 h hh)) (hfine x hx)
    exact {
      pop := fun x hx => by
        obtain ⟨y, hy, rfl⟩ := List.mem_map.1 hx
        exact ⟨hW.adjust _ _ (r4 y hy).1, (r4 y hy).2⟩
      species := c2
      nonempty := by simp [advance, reset]
      fits := by
        unfold advance
        dsimp only
        rw [reset, List.length_map]
        exact hL
      cap := hs.cap
      room := hs.room
      total := by
        unfold advance
        dsimp only
        rw [c1]
        omega
      rate := hs.rate }

/-- Recording the best genome (`/repo/src/neat.c` 225-249). -/
def recorded (P : Params) (best : Ind G) (s : State σ G) : State σ G :=
  { stagnation P best.fit s with
    best := some best.g
    saved := if s.k % P.saving = 0 ∨ s.k = P.generations then s.saved ++ [(s.k + 1, best.g)] else s.saved }

theorem recorded_inv {Q : σ → G → Prop} {P : Params} {s : State σ G} (h : Inv Q P s) (best : Ind G) : Inv Q P (recorded P best s) where
  pop := h.pop
  species := h.species
  nonempty := h.nonempty
  fits := h.fits
  cap := h.cap
  room := h.room
  total := h.total
  rate := by
    obtain ⟨h1, h2, h3, h4⟩ := h.rate
    have key : ∀ r : ℚ, 0 < r → r ≤ 1 → ∀ c : Prop, ∀ _ : Decidable (c ∧ r < 97 / 100), 0 < (if c ∧ r < 97 / 100 then r + 3 / 100 else r) ∧
        (if c ∧ r < 97 / 100 then r + 3 / 100 else r) ≤ 1 := by
      intro r hr hr' c _
      split_ifs with hc
      · exact ⟨by linarith, by linarith [hc.2]⟩
      · exact ⟨hr, hr'⟩
    unfold recorded stagnation
    dsimp only
    have hr : 0 < (if best.fit ≤ s.last then s.rate else s.oldRate) ∧ (if best.fit ≤ s.last then s.rate else s.oldRate) ≤ 1 := by
      split_ifs
      · exact ⟨h1, h2⟩
      · exact ⟨h3, h4⟩
    obtain ⟨k1, k2⟩ := key _ hr.1 hr.2 (P.sameLimit ≤ if best.fit ≤ s.last then s.counter + 1 else 0) inferInstance
    exact ⟨k1, k2, h3, h4⟩

theorem run_unfold (W : World σ G) (P : Params) (s : State σ G) (first best : Ind G) (h1 : s.pop.head? = some first) (h2 : bestOf s.pop = some best) :
    run W P s = if s.k = P.generations then some (recorded P best s) else evolve W P first best (recorded P best s) := by
  unfold run
  rw [h1, Option.bind_some, h2, Option.bind_some]
  rfl

theorem head?_isSome {β : Type} {l : List β} (h : l ≠ []) : ∃ x, l.head? = some x := by
  cases l with
  | nil => exact absurd rfl h
  | cons x _ => exact ⟨x, rfl⟩

theorem run_inv (W : World σ G) {Q : σ → G → Prop} (hW : W.Keeps Q) (hsh : ∀ w l, (W.shuffle w l).2.Perm l) {P : Params} (hP : P.Valid)
    (s : State σ G) (hs : Inv Q P s) : ∃ s', run W P s = some s' ∧ Inv Q P s' := by
  obtain ⟨first, h1⟩ := head?_isSome hs.nonempty
  obtain ⟨best, h2⟩ := bestOf_isSome hs.nonempty
  rw [run_unfold W P s first best h1 h2]
  by_cases hk : s.k = P.generations
  · rw [if_pos hk]
    exact ⟨_, rfl, recorded_inv hs best⟩
  · rw [if_neg hk]
    obtain ⟨_, _, _, _, _, _, _, _, _, e, _, _, _, _, hi⟩ := evolve_run W hW hsh hP first best (recorded P best s) (recorded_inv hs best)
      (bestOf_spec h2).1
    exact ⟨_, e, hi⟩

theorem start_inv (W : World σ G) {Q : σ → G → Prop} {P : Params} (hP : P.Valid) (w : σ) (m : Nat) (rate : ℚ) (gs : List G)
    (h : 1 ≤ gs.length ∧ gs.length ≤ m) (hr : 0 < rate ∧ rate ≤ 1) (hQ : ∀ g ∈ gs, Q w g) : Inv Q P (start W P w m rate gs) := by
  have hf : ∀ x ∈ gs.map fun g => (⟨g, 0, 0⟩ : Ind G), Fine Q w x := by
    intro x hx
    obtain ⟨g, hg, rfl⟩ := List.mem_map.1 hx
    exact ⟨hQ g hg, rfl⟩
  obtain ⟨c1, c2, c3⟩ := createF_ok W.dist P.threshold (gs.map fun g => (⟨g, 0, 0⟩ : Ind G))
  rw [List.length_map] at c1 c2
  exact {
    pop := hf
    species := fun t ht => ⟨hf _ (c3 t ht).1, fun x hx => hf x ((c3 t ht).2 x hx)⟩
    nonempty := by
      intro h0
      have : (gs.map fun g => (⟨g, 0, 0⟩ : Ind G)).length = 0 := by
        rw [List.length_eq_zero_iff]
        exact h0
      rw [List.length_map] at this
      omega
    fits := by
      unfold start
      dsimp only
      rw [List.length_map]
      have := hP.children
      calc gs.length ≤ m * 1 := by omega
        _ ≤ m * (3 * 20 * P.children * 4) := Nat.mul_le_mul_left _ (by omega)
        _ = m * 3 * 20 * P.children * 4 := by ring
    cap := rfl
    room := by
      unfold start
      dsimp only
      omega
    total := le_trans c2 h.2
    rate := ⟨hr.1, hr.2, hr.1, hr.2⟩ }

theorem Step.inv (W : World σ G) {Q : σ → G → Prop} (hW : W.Keeps Q) (hsh : ∀ w l, (W.shuffle w l).2.Perm l) {P : Params} (hP : P.Valid)
    {s t : State σ G} (st : Step W P s t) (h : Inv Q P s) : Inv Q P t := by
  cases st with
  | evaluate f =>
    exact { h with
      pop := fun x hx => by
        unfold Generation.evaluate at hx
        dsimp only at hx
        rw [List.mem_mapIdx] at hx
        obtain ⟨i, hi, rfl⟩ := hx
        have hx := h.pop _ (List.getElem_mem hi)
        exact ⟨hx.1, hx.2⟩
      nonempty := by
        intro h0
        unfold Generation.evaluate at h0
        dsimp only at h0
        exact h.nonempty (List.mapIdx_eq_nil_iff.1 h0)
      fits := by
        unfold Generation.evaluate
        dsimp only
        rw [List.length_mapIdx]
        exact h.fits }
  | iter k => exact { h with }
  | maxPop m => exact { h with }
  | run =>
    rename_i h1
    obtain ⟨s', e, hi⟩ := run_inv W hW hsh hP s h
    rw [h1] at e
    cases e
    exact hi

theorem keeps_true (W : World σ G) : W.Keeps fun _ _ => True where
  mutate _ _ _ _ _ _ := ⟨trivial, fun _ _ => trivial⟩
  cross _ _ _ _ _ := ⟨trivial, fun _ _ => trivial⟩
  coin _ _ _ _ := trivial
  shuffle _ _ _ _ := trivial
  adjust _ _ _ := trivial

theorem Reachable.inv {W : World σ G} (hsh : ∀ w l, (W.shuffle w l).2.Perm l) {P : Params} (hP : P.Valid) {s : State σ G}
    (h : Reachable W P s) : Inv (fun _ _ => True) P s := by
  induction h with
  | start w m rate gs h hr => exact start_inv W hP w m rate gs h hr fun _ _ => trivial
  | step s t _ st ih => exact st.inv W (keeps_true W) hsh hP ih

/-- **C90.** Take any `neat` made by `init` with accepted parameters and any history of
fitness assignments, generations and settings. The next call of `neat_generation_run` is
defined: no read leaves an array, every loop ends, and neither of the two buffers
allocated by `init` overflows. The population always has at least one genome and never
more than the buffer holds, and the mutation rate stays in `(0, 1]`. -/
theorem C90_generation_defined (W : World σ G) (hsh : ∀ w l, (W.shuffle w l).2.Perm l) (P : Params) (hP : P.Valid) (s : State σ G)
    (h : Reachable W P s) : (∃ s', run W P s = some s') ∧ 1 ≤ s.pop.length ∧ s.pop.length ≤ s.cap ∧
      s.cap = 240 * s.newMaxPop * P.children ∧ 0 < s.rate ∧ s.rate ≤ 1 := by
  have hi := h.inv hsh hP
  obtain ⟨s', e, _⟩ := run_inv W (keeps_true W) hsh hP s hi
  exact ⟨⟨s', e⟩, List.length_pos_iff.2 hi.nonempty, hi.fits, by rw [hi.cap]; ring, hi.rate.1, hi.rate.2.1⟩

/-- **C91.** Every generation before the last one keeps the best genome: a genome of
maximal fitness is the last genome of the next population, as `adjust_genome` leaves it,
and all fitness values of the next population are 0. -/
theorem C91_best_survives (W : World σ G) (hsh : ∀ w l, (W.shuffle w l).2.Perm l) (P : Params) (hP : P.Valid) (s s' : State σ G)
    (h : Reachable W P s) (hk : s.k ≠ P.generations) (hr : run W P s = some s') :
    ∃ b ∈ s.pop, (∀ x ∈ s.pop, x.fit ≤ b.fit) ∧ (∃ l, s'.pop = l ++ [⟨W.adjust b.g, 0, b.rip⟩]) ∧ ∀ x ∈ s'.pop, x.fit = 0 := by
  have hi := h.inv hsh hP
  obtain ⟨first, h1⟩ := head?_isSome hi.nonempty
  obtain ⟨best, h2⟩ := bestOf_isSome hi.nonempty
  obtain ⟨hb1, hb2⟩ := bestOf_spec h2
  rw [run_unfold W P s first best h1 h2, if_neg hk] at hr
  obtain ⟨_, _, kids, elite, crossed, _, _, _, _, e, _⟩ := evolve_run W (keeps_true W) hsh hP first best (recorded P best s) (recorded_inv hi best) hb1
  rw [hr] at e
  cases e
  refine ⟨best, hb1, hb2, ⟨reset W (kids ++ (if P.keepParents then elite else []) ++ crossed), ?_⟩, fun x hx => ?_⟩
  · show reset W _ = _
    unfold reset
    rw [List.map_append]
    rfl
  · have hx' : x ∈ reset W (kids ++ (if P.keepParents then elite else []) ++ crossed ++ [best]) := hx
    obtain ⟨y, _, rfl⟩ := List.mem_map.1 hx'
    rfl

/-- Fitness given by a function of the genome. -/
def scored (score : G → ℚ) (s : State σ G) : State σ G := evaluate (fun i => (s.pop[i]?.map fun x => score x.g).getD 0) s

theorem mem_scored (score : G → ℚ) (s : State σ G) (x : Ind G) :
    x ∈ (scored score s).pop ↔ ∃ y ∈ s.pop, x = { y with fit := score y.g } := by
  unfold scored evaluate
  dsimp only
  rw [List.mem_mapIdx]
  constructor
  · rintro ⟨i, hi, rfl⟩
    exact ⟨s.pop[i], List.getElem_mem hi, by rw [List.getElem?_eq_getElem hi]; rfl⟩
  · rintro ⟨y, hy, rfl⟩
    obtain ⟨i, hi, rfl⟩ := List.mem_iff_getElem.1 hy
    exact ⟨i, hi, by rw [List.getElem?_eq_getElem hi]; rfl⟩

/-- **C91.** The best fitness never goes down. Suppose the fitness of a genome is a
function of the genome that `adjust_genome` does not change. Along any number of
generations, whatever the random choices, each population contains a genome at least as
good as any genome of any earlier population. -/
theorem C91_best_fitness_monotone (W : World σ G) (hsh : ∀ w l, (W.shuffle w l).2.Perm l) (P : Params) (hP : P.Valid) (score : G → ℚ)
    (hadj : ∀ g, score (W.adjust g) = score g) (traj : Nat → State σ G) (h0 : Reachable W P (traj 0))
    (hstep : ∀ n, n < P.generations → run W P (setIter n (scored score (traj n))) = some (traj (n + 1))) (m n : Nat) (hmn : m ≤ n)
    (hn : n ≤ P.generations) (x : Ind G) (hx : x ∈ (traj m).pop) : ∃ y ∈ (traj n).pop, score x.g ≤ score y.g := by
  have hreach : ∀ n, n ≤ P.generations → Reachable W P (traj n) := by
    intro n
    induction n with
    | zero => exact fun _ => h0
    | succ n ih =>
      intro hn
      exact .step _ _ (.step _ _ (.step _ _ (ih (by omega)) (.evaluate _ _)) (.iter n _)) (.run _ _ (hstep n (by omega)))
  induction n with
  | zero =>
    have : m = 0 := by omega
    subst this
    exact ⟨x, hx, le_refl _⟩
  | succ n ih =>
    by_cases hmn' : m = n + 1
    · subst hmn'
      exact ⟨x, hx, le_refl _⟩
    · obtain ⟨y, hy, hxy⟩ := ih (by omega) (by omega)
      have hr : Reachable W P (setIter n (scored score (traj n))) :=
        .step _ _ (.step _ _ (hreach n (by omega)) (.evaluate _ _)) (.iter n _)
      obtain ⟨b, hb, hbest, ⟨l, hl⟩, _⟩ := C91_best_survives W hsh P hP _ _ hr (by show n ≠ P.generations; omega) (hstep n (by omega))
      have hb' : b ∈ (scored score (traj n)).pop := hb
      obtain ⟨c, hc, hbc⟩ := (mem_scored score _ b).1 hb'
      have hy' := hbest { y with fit := score y.g } ((mem_scored score _ _).2 ⟨y, hy, rfl⟩)
      refine ⟨⟨W.adjust b.g, 0, b.rip⟩, by rw [hl]; simp, ?_⟩
      rw [hadj]
      refine le_trans hxy ?_
      have e : b.fit = score b.g := by rw [hbc]
      rw [← e]
      exact hy'

/-! ### How many children a species has -/

theorem bestRaw_ge (o : Int) (sig : ℚ) (ss : List (Spec G)) (s : Spec G) (hs : s ∈ ss) : rawFitness o sig s ≤ bestRaw o sig ss := by
  cases ss with
  | nil => cases hs
  | cons t ss =>
    unfold bestRaw
    have key : ∀ (ss : List (Spec G)) (b : ℚ), b ≤ ss.foldl (fun b t => if b < rawFitness o sig t then rawFitness o sig t else b) b ∧
        ∀ s ∈ ss, rawFitness o sig s ≤ ss.foldl (fun b t => if b < rawFitness o sig t then rawFitness o sig t else b) b := by
      intro ss
      induction ss with
      | nil => exact fun b => ⟨le_refl _, fun s hs => by cases hs⟩
      | cons u ss ih =>
        intro b
        rw [List.foldl_cons]
        obtain ⟨h1, h2⟩ := ih (if b < rawFitness o sig u then rawFitness o sig u else b)
        have hm : b ≤ (if b < rawFitness o sig u then rawFitness o sig u else b) ∧ rawFitness o sig u ≤ (if b < rawFitness o sig u then rawFitness o sig u else b) := by
          split_ifs with h
          · exact ⟨le_of_lt h, le_refl _⟩
          · exact ⟨le_refl _, not_lt.1 h⟩
        refine ⟨le_trans hm.1 h1, fun s hs => ?_⟩
        rcases List.mem_cons.1 hs with rfl | hs
        · exact le_trans hm.2 h1
        · exact h2 s hs
    obtain ⟨h1, h2⟩ := key ss (rawFitness o sig t)
    rcases List.mem_cons.1 hs with rfl | hs
    · exact h1
    · exact h2 s hs

theorem worstRaw_le (o : Int) (sig : ℚ) (ss : List (Spec G)) (s : Spec G) (hs : s ∈ ss) : worstRaw o sig ss ≤ rawFitness o sig s := by
  cases ss with
  | nil => cases hs
  | cons t ss =>
    unfold worstRaw
    have key : ∀ (ss : List (Spec G)) (b : ℚ), ss.foldl (fun b t => if rawFitness o sig t < b then rawFitness o sig t else b) b ≤ b ∧
        ∀ s ∈ ss, ss.foldl (fun b t => if rawFitness o sig t < b then rawFitness o sig t else b) b ≤ rawFitness o sig s := by
      intro ss
      induction ss with
      | nil => exact fun b => ⟨le_refl _, fun s hs => by cases hs⟩
      | cons u ss ih =>
        intro b
        rw [List.foldl_cons]
        obtain ⟨h1, h2⟩ := ih (if rawFitness o sig u < b then rawFitness o sig u else b)
        have hm : (if rawFitness o sig u < b then rawFitness o sig u else b) ≤ b ∧ (if rawFitness o sig u < b then rawFitness o sig u else b) ≤ rawFitness o sig u := by
          split_ifs with h
          · exact ⟨le_of_lt h, le_refl _⟩
          · exact ⟨le_refl _, not_lt.1 h⟩
        refine ⟨le_trans h1 hm.1, fun s hs => ?_⟩
        rcases List.mem_cons.1 hs with rfl | hs
        · exact le_trans h1 hm.2
        · exact h2 s hs
    obtain ⟨h1, h2⟩ := key ss (rawFitness o sig t)
    rcases List.mem_cons.1 hs with rfl | hs
    · exact h1
    · exact h2 s hs

/-- Normalised species fitness lies in `[0, 1]`. -/
theorem normFitness_bounds (P : Params) (ss : List (Spec G)) (s : Spec G) (hs : s ∈ ss) :
    0 ≤ normFitness (statsOf P ss).oldest P.ageSig (statsOf P ss).worst (statsOf P ss).best s ∧
      normFitness (statsOf P ss).oldest P.ageSig (statsOf P ss).worst (statsOf P ss).best s ≤ 1 := by
  unfold normFitness
  split_ifs with h1 h2
  · exact ⟨le_refl _, zero_le_one⟩
  · exact ⟨le_refl _, zero_le_one⟩
  · have hb := bestRaw_ge (oldestAge ss) P.ageSig ss s hs
    have hw := worstRaw_le (oldestAge ss) P.ageSig ss s hs
    have e : rawFitness (oldestAge ss) P.ageSig s = (s.sp.members.map Ind.fit).sum / s.sp.members.length *
        (1 + ((oldestAge ss - s.sp.age : Int) : ℚ) * P.ageSig) := by
      unfold rawFitness
      rw [if_neg h1]
    rw [e] at hb hw
    unfold statsOf at h2 ⊢
    dsimp only at h2 ⊢
    have hpos : 0 < bestRaw (oldestAge ss) P.ageSig ss - worstRaw (oldestAge ss) P.ageSig ss :=
      lt_of_le_of_ne (by linarith) (Ne.symm h2)
    exact ⟨div_nonneg (by linarith) (le_of_lt hpos), (div_le_one hpos).2 (by linarith)⟩

theorem share_pos {a b : ℚ} (ha : 0 ≤ a) (hb : 0 ≤ b) : 0 < (share a b).2 ∧ 0 ≤ (share a b).1 := by
  unfold share
  by_cases h : b = a
  · rw [if_pos h]
    exact ⟨one_pos, ha⟩
  · rw [if_neg h]
    dsimp only
    have ha' : 0 ≤ (if a = 0 then (1 / 1000 : ℚ) else a) := by
      split_ifs
      · norm_num
      · exact ha
    refine ⟨?_, ha'⟩
    have hq := div_nonneg hb ha'
    generalize (if a = 0 then (1 / 1000 : ℚ) else a) = a' at hq
    split_ifs with h1 h2
    · norm_num
    · norm_num
    · exact lt_of_le_of_ne hq (Ne.symm h2)

theorem quota_ge {P : Params} {b : ℚ} (hb : 0 < b) : P.children ≤ quota P b := by
  unfold quota
  have h1 : 1 ≤ roundUp (b * (5 / 2)) := roundUp_pos (by positivity)
  have h2 : (P.children : Int) * 1 ≤ (P.children : Int) * roundUp (b * (5 / 2)) := mul_le_mul_of_nonneg_left h1 (by omega)
  omega

theorem quotas_ge (P : Params) (t : Stats) (ss : List (Spec G)) (a : ℚ) (ha : 0 ≤ a)
    (h : ∀ s ∈ ss, 0 ≤ normFitness t.oldest P.ageSig t.worst t.best s) :
    (quotas P t a ss).length = ss.length ∧ ∀ q ∈ quotas P t a ss, P.children ≤ q ∧ q ≤ 50 * P.children := by
  induction ss generalizing a with
  | nil => exact ⟨rfl, fun q hq => by cases hq⟩
  | cons s ss ih =>
    obtain ⟨s1, s2⟩ := share_pos ha (h s (by simp))
    obtain ⟨h1, h2⟩ := ih _ s2 fun u hu => h u (by simp [hu])
    unfold quotas
    refine ⟨by rw [List.length_cons, List.length_cons, h1], fun q hq => ?_⟩
    rcases List.mem_cons.1 hq with rfl | hq
    · exact ⟨quota_ge s1, quota_le P (share_le _ _)⟩
    · exact h2 q hq

theorem meanOf_nonneg (P : Params) (ss : List (Spec G)) : 0 ≤ meanOf P ss := by
  unfold meanOf meanFitness
  split_ifs
  · exact le_refl _
  · refine div_nonneg (List.sum_nonneg fun q hq => ?_) (by positivity)
    obtain ⟨s, hs, rfl⟩ := List.mem_map.1 hq
    exact (normFitness_bounds P ss s hs).1

theorem sum_ge_of_all {l : List Nat} {c : Nat} (h : ∀ q ∈ l, c ≤ q) : l.length * c ≤ l.sum := by
  induction l with
  | nil => simp
  | cons q l ih =>
    rw [List.length_cons, List.sum_cons, Nat.add_mul, one_mul]
    have := ih fun x hx => h x (by simp [hx])
    have := h q (by simp)
    omega

theorem sum_le_of_all {l : List Nat} {c : Nat} (h : ∀ q ∈ l, q ≤ c) : l.sum ≤ l.length * c := by
  induction l with
  | nil => simp
  | cons q l ih =>
    rw [List.length_cons, List.sum_cons, Nat.add_mul, one_mul]
    have := ih fun x hx => h x (by simp [hx])
    have := h q (by simp)
    omega

/-- **C92.** After every generation before the last one, the population has at least
`children` genomes for each species and the best genome, and at most `50 * children`
genomes for each species, its best genome, half a crossover and the best genome. The
genomes tried in total grow by the size of the population. -/
theorem C92_population_size (W : World σ G) (hsh : ∀ w l, (W.shuffle w l).2.Perm l) (P : Params) (hP : P.Valid) (s s' : State σ G)
    (h : Reachable W P s) (hk : s.k ≠ P.generations) (hr : run W P s = some s') :
    1 ≤ s'.species.length ∧ s'.species.length * P.children + 1 ≤ s'.pop.length ∧
      s'.pop.length ≤ s'.species.length * (50 * P.children) + s'.species.length + s'.species.length / 2 + 1 ∧
      s'.count = s.count + s'.pop.length := by
  have hi := h.inv hsh hP
  obtain ⟨first, h1⟩ := head?_isSome hi.nonempty
  obtain ⟨best, h2⟩ := bestOf_isSome hi.nonempty
  obtain ⟨hb1, hb2⟩ := bestOf_spec h2
  rw [run_unfold W P s first best h1 h2, if_neg hk] at hr
  obtain ⟨kept, w', kids, elite, crossed, ss', _, hkept, hc, e, hq, hne, he, hcr, hi'⟩ := evolve_run W (keeps_true W) hsh hP first best (recorded P best s)
    (recorded_inv hi best) hb1
  rw [hr] at e
  cases e
  have hlen : (closeF ss').length = (speciesOf W P first best (recorded P best s) kept).length := by
    unfold closeF
    rw [List.length_map, hc.length_eq]
  have hpop : (reset W (kids ++ (if P.keepParents then elite else []) ++ crossed ++ [best])).length =
      kids.length + (if P.keepParents then elite else []).length + crossed.length + 1 := by
    unfold reset
    rw [List.length_map, List.length_append, List.length_append, List.length_append, List.length_singleton]
  have hel : (if P.keepParents then elite else []).length ≤ elite.length := by split_ifs <;> simp
  obtain ⟨q1, q2⟩ := quotas_ge P (statsOf P (speciesOf W P first best (recorded P best s) kept)) (speciesOf W P first best (recorded P best s) kept)
    (meanOf P (speciesOf W P first best (recorded P best s) kept)) (meanOf_nonneg P _) fun x hx => (normFitness_bounds P _ x hx).1
  have l1 := sum_ge_of_all fun q hq => (q2 q hq).1
  have l2 := sum_le_of_all fun q hq => (q2 q hq).2
  rw [q1] at l1 l2
  have hpos : 1 ≤ (speciesOf W P first best (recorded P best s) kept).length := by
    have ht : total (speciesOf W P first best (recorded P best s) kept) = total s.species + kept.length := by
      unfold speciesOf
      rw [deleteF_total, putF_total, (hsh _ _).length_eq, normalise, List.length_map]
      rfl
    have hk1 : 1 ≤ kept.length := by
      have h3 := hi.room
      have h4 := List.length_pos_iff.2 hi.nonempty
      have : kept.length = min s.newMaxPop s.pop.length := hkept
      omega
    by_contra h0
    rw [List.length_eq_zero_iff.1 (by omega : (speciesOf W P first best (recorded P best s) kept).length = 0)] at ht
    unfold total at ht
    simp only [List.map_nil, List.sum_nil] at ht
    omega
  show 1 ≤ (closeF ss').length ∧ (closeF ss').length * P.children + 1 ≤ (reset W _).length ∧
    (reset W _).length ≤ (closeF ss').length * (50 * P.children) + (closeF ss').length + (closeF ss').length / 2 + 1 ∧ s.count + (reset W _).length = s.count + (reset W _).length
  rw [hlen, hpop]
  exact ⟨hpos, by omega, by omega, rfl⟩

end
end LLab.Generation
