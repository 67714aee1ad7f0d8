import Verif.Neat.GenerationProps
import Mathlib.Logic.Function.Iterate

/-!
Properties C93-C95 of `neat_generation_run`: the record of the best fitness, the counter
of generations without improvement, the files written, and the claims the code does not
meet.
-/

namespace LLab.Generation

open LLab.Species LLab.Sort

section
variable {σ G : Type}

theorem evolve_fields (W : World σ G) (P : Params) (first best : Ind G) (s s' : State σ G) (h : evolve W P first best s = some s') :
    s'.last = s.last ∧ s'.counter = s.counter ∧ s'.rate = s.rate ∧ s'.oldRate = s.oldRate ∧ s'.saved = s.saved ∧ s'.cap = s.cap ∧
      s'.newMaxPop = s.newMaxPop := by
  unfold evolve at h
  obtain ⟨kept, _, h⟩ := Option.bind_eq_some_iff.1 h
  dsimp only at h
  split_ifs at h
  obtain ⟨y, _, h⟩ := Option.bind_eq_some_iff.1 h
  obtain ⟨z, _, h⟩ := Option.bind_eq_some_iff.1 h
  cases h
  exact ⟨rfl, rfl, rfl, rfl, rfl, rfl, rfl⟩

/-- What a generation records, whether it is the last one or not. -/
theorem run_fields (W : World σ G) (P : Params) (s s' : State σ G) (h : run W P s = some s') :
    ∃ best ∈ s.pop, (∀ x ∈ s.pop, x.fit ≤ best.fit) ∧ s'.last = (recorded P best s).last ∧ s'.counter = (recorded P best s).counter ∧
      s'.rate = (recorded P best s).rate ∧ s'.oldRate = s.oldRate ∧ s'.saved = (recorded P best s).saved := by
  have h' := h
  unfold run at h
  obtain ⟨first, h1, h⟩ := Option.bind_eq_some_iff.1 h
  obtain ⟨best, h2, h⟩ := Option.bind_eq_some_iff.1 h
  rw [run_unfold W P s first best h1 h2] at h'
  obtain ⟨b1, b2⟩ := bestOf_spec h2
  refine ⟨best, b1, b2, ?_⟩
  split_ifs at h'
  · cases h'
    exact ⟨rfl, rfl, rfl, rfl, rfl⟩
  · obtain ⟨e1, e2, e3, e4, e5, _⟩ := evolve_fields W P first best _ s' h'
    exact ⟨e1, e2, e3, e4, e5⟩

/-- A run of generations: before generation number `n` the caller sets the generation
number and gives the genomes the fitness `f n`. -/
def Trajectory (W : World σ G) (P : Params) (f : Nat → Nat → ℚ) (T : Nat → State σ G) : Prop :=
  ∀ n, run W P (setIter n (evaluate (f n) (T n))) = some (T (n + 1))

/-- Every reachable state starts such a run, whatever the fitness values. -/
theorem trajectory_exists (W : World σ G) (hsh : ∀ w l, (W.shuffle w l).2.Perm l) (P : Params) (hP : P.Valid) (f : Nat → Nat → ℚ)
    (s : State σ G) (hs : Reachable W P s) : ∃ T, T 0 = s ∧ Trajectory W P f T := by
  have next : ∀ (n : Nat) (t : {t : State σ G // Reachable W P t}), ∃ u : {t : State σ G // Reachable W P t},
      run W P (setIter n (evaluate (f n) t.1)) = some u.1 := by
    intro n t
    have ht : Reachable W P (setIter n (evaluate (f n) t.1)) := .step _ _ (.step _ _ t.2 (.evaluate _ _)) (.iter n _)
    obtain ⟨⟨u, e⟩, _⟩ := C90_generation_defined W hsh P hP _ ht
    exact ⟨⟨u, .step _ _ ht (.run _ _ e)⟩, e⟩
  choose g hg using next
  let T : Nat → {t : State σ G // Reachable W P t} := fun n => Nat.rec ⟨s, hs⟩ (fun n t => g n t) n
  exact ⟨fun n => (T n).1, rfl, fun n => hg n (T n)⟩

/-- **C93.** The recorded fitness is the best fitness seen so far. After any number of
generations it is at least the fitness of every genome of every earlier generation, and
it is the fitness of one of them or still the value it started from. -/
theorem C93_best_so_far (W : World σ G) (P : Params) (f : Nat → Nat → ℚ) (T : Nat → State σ G) (hT : Trajectory W P f T) (n : Nat) :
    (∀ m < n, ∀ x ∈ (evaluate (f m) (T m)).pop, x.fit ≤ (T n).last) ∧
      ((T n).last = (T 0).last ∨ ∃ m < n, ∃ x ∈ (evaluate (f m) (T m)).pop, (T n).last = x.fit) := by
  induction n with
  | zero => exact ⟨fun m hm => by omega, Or.inl rfl⟩
  | succ n ih =>
    obtain ⟨i1, i2⟩ := ih
    obtain ⟨best, hb, hmax, hlast, _⟩ := run_fields W P _ _ (hT n)
    have hl : (T (n + 1)).last = if (T n).last < best.fit then best.fit else (T n).last := hlast
    have hge : (T n).last ≤ (T (n + 1)).last ∧ best.fit ≤ (T (n + 1)).last := by
      rw [hl]
      split_ifs with h
      · exact ⟨le_of_lt h, le_refl _⟩
      · exact ⟨le_refl _, not_lt.1 h⟩
    refine ⟨fun m hm x hx => ?_, ?_⟩
    · by_cases hmn : m = n
      · subst hmn
        exact le_trans (hmax x hx) hge.2
      · exact le_trans (i1 m (by omega) x hx) hge.1
    · rw [hl]
      split_ifs with h
      · exact Or.inr ⟨n, by omega, best, hb, rfl⟩
      · rcases i2 with i2 | ⟨m, hm, x, hx, e⟩
        · exact Or.inl i2
        · exact Or.inr ⟨m, by omega, x, hx, e⟩

/-- One increase of the mutation rate. -/
def raised (r : ℚ) : ℚ := if r < 97 / 100 then r + 3 / 100 else r

/-- **C93.** As long as no generation improves the recorded fitness, the counter is the
number of generations modulo `same_fitness_limit`, and the mutation rate has been raised
by 0.03 once for each full `same_fitness_limit` generations, while it was below 0.97. -/
theorem C93_stagnation (W : World σ G) (P : Params) (hP : P.Valid) (f : Nat → Nat → ℚ) (T : Nat → State σ G) (hT : Trajectory W P f T)
    (h0 : (T 0).counter = 0) (n : Nat) (hflat : ∀ m < n, ∀ x ∈ (evaluate (f m) (T m)).pop, x.fit ≤ (T 0).last) :
    (T n).last = (T 0).last ∧ (T n).counter = n % P.sameLimit ∧ (T n).rate = raised^[n / P.sameLimit] (T 0).rate := by
  have hs := hP.same
  induction n with
  | zero => exact ⟨rfl, by rw [h0, Nat.zero_mod], by rw [Nat.zero_div]; rfl⟩
  | succ n ih =>
    obtain ⟨i1, i2, i3⟩ := ih fun m hm => hflat m (by omega)
    obtain ⟨best, hb, hmax, hlast, hcount, hrate, _⟩ := run_fields W P _ _ (hT n)
    have hle : best.fit ≤ (T n).last := by
      rw [i1]
      exact hflat n (by omega) best hb
    have hl : (T (n + 1)).last = if (T n).last < best.fit then best.fit else (T n).last := hlast
    have hc : (T (n + 1)).counter = if P.sameLimit ≤ (if best.fit ≤ (T n).last then (T n).counter + 1 else 0) then 0
      else (if best.fit ≤ (T n).last then (T n).counter + 1 else 0) := hcount
    have hr : (T (n + 1)).rate = if P.sameLimit ≤ (if best.fit ≤ (T n).last then (T n).counter + 1 else 0) ∧
        (if best.fit ≤ (T n).last then (T n).rate else (T n).oldRate) < 97 / 100
      then (if best.fit ≤ (T n).last then (T n).rate else (T n).oldRate) + 3 / 100
      else (if best.fit ≤ (T n).last then (T n).rate else (T n).oldRate) := hrate
    rw [if_pos hle] at hc
    rw [if_pos hle, if_pos hle] at hr
    refine ⟨by rw [hl, if_neg (not_lt.2 hle), i1], ?_, ?_⟩
    · rw [hc, i2]
      have hm := Nat.mod_lt n (show 0 < P.sameLimit by omega)
      by_cases hfull : P.sameLimit ≤ n % P.sameLimit + 1
      · rw [if_pos hfull]
        have e : n % P.sameLimit + 1 = P.sameLimit := by omega
        rw [← Nat.mod_add_mod, e, Nat.mod_self]
      · rw [if_neg hfull, ← Nat.mod_add_mod n, Nat.mod_eq_of_lt (a := n % P.sameLimit + 1) (by omega)]
    · rw [hr, i2, i3]
      have hm := Nat.mod_lt n (show 0 < P.sameLimit by omega)
      have hd := Nat.div_add_mod n P.sameLimit
      by_cases hfull : P.sameLimit ≤ n % P.sameLimit + 1
      · have e : (n + 1) / P.sameLimit = n / P.sameLimit + 1 := by
          have e1 : n + 1 = P.sameLimit * (n / P.sameLimit + 1) := by
            rw [Nat.mul_add, Nat.mul_one]
            omega
          exact Nat.div_eq_of_eq_mul_right (by omega) e1
        rw [e, Function.iterate_succ_apply']
        unfold raised
        by_cases h97 : raised^[n / P.sameLimit] (T 0).rate < 97 / 100
        · rw [if_pos ⟨hfull, h97⟩]
          unfold raised at h97
          rw [if_pos h97]
        · rw [if_neg fun h => h97 h.2]
          unfold raised at h97
          rw [if_neg h97]
      · have e : (n + 1) / P.sameLimit = n / P.sameLimit := by
          have e1 : n + 1 = P.sameLimit * (n / P.sameLimit) + (n % P.sameLimit + 1) := by omega
          refine Nat.div_eq_of_lt_le ?_ ?_
          · rw [Nat.mul_comm]
            omega
          · rw [Nat.succ_mul, Nat.mul_comm]
            omega
        rw [e, if_neg fun h => hfull h.1]

/-- **C93.** A generation in which some genome exceeds the record clears the counter and puts the
mutation rate back to its initial value. -/
theorem C93_improvement (W : World σ G) (P : Params) (hP : P.Valid) (f : Nat → Nat → ℚ) (T : Nat → State σ G) (hT : Trajectory W P f T)
    (h0 : (T 0).rate = (T 0).oldRate) (n : Nat) (x : Ind G) (hx : x ∈ (evaluate (f n) (T n)).pop) (hgt : (T n).last < x.fit) :
    (T (n + 1)).counter = 0 ∧ (T (n + 1)).rate = (T 0).rate := by
  have hold : ∀ m, (T m).oldRate = (T 0).oldRate := by
    intro m
    induction m with
    | zero => rfl
    | succ m ih =>
      obtain ⟨_, _, _, _, _, _, ho, _⟩ := run_fields W P _ _ (hT m)
      rw [ho]
      exact ih
  obtain ⟨best, _, hmax, _, hcount, hrate, _⟩ := run_fields W P _ _ (hT n)
  have hs := hP.same
  have hlt : ¬ best.fit ≤ (T n).last := fun h => absurd (lt_of_lt_of_le hgt (hmax x hx)) (not_lt.2 h)
  have hc : (T (n + 1)).counter = if P.sameLimit ≤ (if best.fit ≤ (T n).last then (T n).counter + 1 else 0) then 0
    else (if best.fit ≤ (T n).last then (T n).counter + 1 else 0) := hcount
  have hr : (T (n + 1)).rate = if P.sameLimit ≤ (if best.fit ≤ (T n).last then (T n).counter + 1 else 0) ∧
      (if best.fit ≤ (T n).last then (T n).rate else (T n).oldRate) < 97 / 100
    then (if best.fit ≤ (T n).last then (T n).rate else (T n).oldRate) + 3 / 100
    else (if best.fit ≤ (T n).last then (T n).rate else (T n).oldRate) := hrate
  rw [if_neg hlt] at hc
  rw [if_neg hlt, if_neg hlt] at hr
  constructor
  · rw [hc]
    split_ifs <;> rfl
  · rw [hr, if_neg (by omega), hold n, h0]

/-- **C93.** Every generation whose number is a multiple of `saving`, and the last one,
write one file more: a genome of maximal fitness under the number of the generation plus
one. Other generations write none. -/
theorem C93_saved (W : World σ G) (P : Params) (s s' : State σ G) (h : run W P s = some s') :
    (s.k % P.saving = 0 ∨ s.k = P.generations → ∃ b ∈ s.pop, (∀ x ∈ s.pop, x.fit ≤ b.fit) ∧ s'.saved = s.saved ++ [(s.k + 1, b.g)]) ∧
      (¬ (s.k % P.saving = 0 ∨ s.k = P.generations) → s'.saved = s.saved) := by
  obtain ⟨best, hb, hmax, _, _, _, _, hs⟩ := run_fields W P s s' h
  unfold recorded at hs
  dsimp only at hs
  constructor
  · intro hk
    rw [if_pos hk] at hs
    exact ⟨best, hb, hmax, hs⟩
  · intro hk
    rw [if_neg hk] at hs
    exact hs

/-! ### Normalised fitness -/

/-- **C94 (what holds).** Normalisation keeps the order of the genomes, gives the first
genome 0 and no genome more than 1; if the first genome is a worst one every value lies
in `[0, 1]`. Missing: without that hypothesis values fall below 0, see
`C94_normalised_refuted`. -/
theorem C94_normalised_partial (pop : List (Ind G)) (first best : Ind G) (hf : pop.head? = some first) (hb : bestOf pop = some best) :
    (∀ x y : Ind G, x.fit ≤ y.fit ↔ ∀ x' y', normalise best.fit first.fit [x, y] = [x', y'] → x'.fit ≤ y'.fit) ∧
      (∀ x ∈ normalise best.fit first.fit pop, x.fit ≤ 1) ∧
      ((∀ x ∈ pop, first.fit ≤ x.fit) → ∀ x ∈ normalise best.fit first.fit pop, 0 ≤ x.fit) ∧
      ((normalise best.fit first.fit pop).head?.map Ind.fit = some 0) := by
  obtain ⟨b1, b2⟩ := bestOf_spec hb
  have hfirst : first ∈ pop := by
    cases pop with
    | nil => cases hf
    | cons y ys => cases hf; simp
  have hle := b2 first hfirst
  have hpos : 0 < (if best.fit - first.fit = 0 then (1 / 10000 : ℚ) else best.fit - first.fit) := by
    split_ifs with h
    · norm_num
    · exact lt_of_le_of_ne (by linarith) (Ne.symm h)
  have hge : best.fit - first.fit ≤ (if best.fit - first.fit = 0 then (1 / 10000 : ℚ) else best.fit - first.fit) := by
    split_ifs with h
    · rw [h]; norm_num
    · exact le_refl _
  refine ⟨fun x y => ?_, fun x hx => ?_, fun hall x hx => ?_, ?_⟩
  · unfold normalise
    constructor
    · intro h x' y' e
      injection e with e1 e2
      injection e2 with e2 _
      rw [← e1, ← e2]
      exact div_le_div_of_nonneg_right (by linarith) (le_of_lt hpos)
    · intro h
      have := h _ _ rfl
      dsimp only at this
      rw [div_le_div_iff_of_pos_right hpos] at this
      linarith
  · obtain ⟨y, hy, rfl⟩ := List.mem_map.1 hx
    dsimp only
    rw [div_le_one hpos]
    linarith [b2 y hy]
  · obtain ⟨y, hy, rfl⟩ := List.mem_map.1 hx
    exact div_nonneg (by linarith [hall y hy]) (le_of_lt hpos)
  · cases pop with
    | nil => cases hf
    | cons y ys =>
      cases hf
      simp [normalise]

end

/-- **C94 (refuted).** Normalised fitness does not always lie in `[0, 1]`: the fitness
subtracted is that of the first genome, not the smallest. With fitness 5 and 1 the second
becomes -40000. -/
theorem C94_normalised_refuted : ¬ ∀ (pop : List (Ind Int)) (first best : Ind Int), pop.head? = some first → bestOf pop = some best →
    ∀ x ∈ normalise best.fit first.fit pop, 0 ≤ x.fit ∧ x.fit ≤ 1 := by
  intro h
  have h1 := h [⟨0, 5, 0⟩, ⟨1, 1, 0⟩] ⟨0, 5, 0⟩ ⟨0, 5, 0⟩ rfl (by decide +kernel) ⟨1, -40000, 0⟩ (by decide +kernel)
  norm_num at h1

/-! ### A concrete population -/

/-- Genomes are numbers, mutation and crossover return their first argument, coins come up
false. -/
def demoWorld : World Nat Int where
  dist a b := |a - b|
  shuffle w l := (w, l)
  mutate w _ _ _ g := (w + 1, g)
  cross w g _ := (w, g)
  coin w _ := (w, false)
  adjust g := g

/-- Species threshold 3, one child per share, species to be retired after two generations
without improvement. -/
def demoParams : Params where
  threshold := 3
  generations := 100
  survivors := 1 / 2
  children := 1
  crossRate := 1 / 2
  saving := 5
  limitSpecies := 2
  limitThreshold := 1
  sameLimit := 3
  keepParents := false
  ageSig := 0

theorem demoParams_valid : demoParams.Valid where
  generations := by decide
  survivors := by constructor <;> norm_num [demoParams]
  children := by decide
  saving := by decide
  same := by decide
  limits := by decide

theorem demo_shuffle (w : Nat) (l : List (Ind Int)) : (demoWorld.shuffle w l).2.Perm l := List.Perm.refl _

/-- Eleven genomes far apart. -/
def demoStart : State Nat Int := start demoWorld demoParams 0 40 (1 / 2) [0, 10, 20, 30, 40, 50, 60, 70, 80, 90, 100]

/-- `n` generations from there, all fitness values 0. -/
def demoRun : Nat → Option (State Nat Int)
  | 0 => some demoStart
  | n + 1 => (demoRun n).bind fun s => run demoWorld demoParams (setIter 1 s)

theorem demo_reachable (n : Nat) (s : State Nat Int) (h : demoRun n = some s) : Reachable demoWorld demoParams s := by
  induction n generalizing s with
  | zero =>
    cases h
    exact .start 0 40 (1 / 2) _ (by decide) (by norm_num)
  | succ n ih =>
    obtain ⟨t, ht, hr⟩ := Option.bind_eq_some_iff.1 h
    exact .step _ _ (.step _ _ (ih t ht) (.iter 1 t)) (.run _ _ hr)

theorem any_some {β : Type} {o : Option β} {p : β → Bool} (h : o.any p = true) : ∃ x, o = some x ∧ p x = true := by
  cases o with
  | none => cases h
  | some x => exact ⟨x, rfl, h⟩

/-- C90-C92 apply to a population of eleven species, which grows. -/
example : (demoRun 1).map (fun s => (s.pop.length, s.species.length, s.count)) = some (34, 11, 45) := by decide +kernel

/-- **C95 (refuted).** With at least ten species, a species that has not improved for
`limiting_species` generations is documented to die out. The counter that is consulted is
that of the representative genome, which stays 0: here all ten species and more have not
improved for two generations, no new species opens, and they all have children again. -/
theorem C95_retired_refuted : ¬ ∀ s s' : State Nat Int, Reachable demoWorld demoParams s → s.k ≠ demoParams.generations →
    run demoWorld demoParams s = some s' → 10 ≤ s.species.length → s'.species.length = s.species.length →
    (∀ t ∈ s.species, demoParams.limitSpecies ≤ t.rip) → s'.pop.length ≤ 1 := by
  intro h
  have hs : (demoRun 3).any (fun s => decide (s.k = 1) && decide (s.species.length = 11) &&
    decide (∀ t ∈ s.species, demoParams.limitSpecies ≤ t.rip) && (run demoWorld demoParams s).any fun s' =>
      decide (s'.species.length = 11) && decide (s'.pop.length = 34)) = true := by decide +kernel
  obtain ⟨s, e, hb⟩ := any_some hs
  simp only [Bool.and_eq_true, decide_eq_true_eq] at hb
  obtain ⟨⟨⟨k1, k2⟩, k3⟩, k4⟩ := hb
  obtain ⟨s', e', hb'⟩ := any_some k4
  simp only [Bool.and_eq_true, decide_eq_true_eq] at hb'
  have := h s s' (demo_reachable 3 s e) (by rw [k1]; decide) e' (by omega) (by omega) k3
  omega

/-- C93 applies: eleven species, all fitness values -1 for ever, so that no generation
improves on the initial record. -/
example : ∃ T, T 0 = demoStart ∧ Trajectory demoWorld demoParams (fun _ _ => -1) T ∧
    ∀ n, (T n).counter = n % 3 ∧ (T n).rate = raised^[n / 3] (1 / 2) := by
  obtain ⟨T, h0, hT⟩ := trajectory_exists demoWorld demo_shuffle demoParams demoParams_valid (fun _ _ => -1) demoStart (demo_reachable 0 _ rfl)
  refine ⟨T, h0, hT, fun n => ?_⟩
  have := (C93_stagnation demoWorld demoParams demoParams_valid _ T hT (by rw [h0]; rfl) n fun m _ x hx => ?_).2
  · rw [h0] at this
    exact this
  · have e : (evaluate (fun _ => -1) (T m)).pop = (T m).pop.mapIdx fun _ x => { x with fit := -1 } := rfl
    rw [e] at hx
    obtain ⟨i, hi, rfl⟩ := List.mem_mapIdx.1 hx
    rw [h0]
    exact le_refl _

/-- C94 applies to three genomes, the first a worst one. -/
example : normalise 5 1 [⟨0, 1, 0⟩, ⟨1, 3, 0⟩, (⟨2, 5, 0⟩ : Ind Int)] = [⟨0, 0, 0⟩, ⟨1, 1 / 2, 0⟩, ⟨2, 1, 0⟩] := by decide +kernel

/-- **C93 (refuted).** The counter is not always reset by an improvement: the recorded
fitness starts at -1, so going from -5 to -2 counts as no improvement. -/
theorem C93_improvement_refuted : ¬ ∀ (s s1 s2 : State Nat Int) (a b : ℚ), Reachable demoWorld demoParams s → a < b →
    run demoWorld demoParams (evaluate (fun _ => a) s) = some s1 → run demoWorld demoParams (evaluate (fun _ => b) s1) = some s2 →
    s2.counter = 0 := by
  intro h
  have hs : (run demoWorld demoParams (evaluate (fun _ => -5) demoStart)).any (fun s1 =>
    (run demoWorld demoParams (evaluate (fun _ => -2) s1)).any fun s2 => decide (s2.counter = 2)) = true := by decide +kernel
  obtain ⟨s1, e1, h1⟩ := any_some hs
  obtain ⟨s2, e2, h2⟩ := any_some h1
  have := h demoStart s1 s2 (-5) (-2) (demo_reachable 0 _ rfl) (by norm_num) e1 e2
  rw [of_decide_eq_true h2] at this
  exact absurd this (by decide)

/-! ### The size limit -/

section
variable {σ G : Type}

/-- **C96 (what holds).** When the population exceeds the limit, exactly `m` genomes of it
are kept, each as often as it occurs. Missing: that they are the best, see
`C96_weakest_removed_refuted`. -/
theorem C96_weakest_removed_partial (m : Nat) (pop : List (Ind G)) :
    ∃ kept removed, weed m pop = some kept ∧ (kept ++ removed).Perm pop ∧ kept.length = min m pop.length := by
  unfold weed
  split_ifs with h
  · obtain ⟨l, h1, h2⟩ := sortByFitness_perm pop
    rw [h1, Option.bind_some]
    refine ⟨_, l.drop m, rfl, ?_, ?_⟩
    · rw [List.take_append_drop]
      exact h2
    · rw [List.length_take, h2.length_eq]
  · exact ⟨pop, [], rfl, by simp, by omega⟩

/-- **C96 (refuted).** `set_max_population` is meant to change the size limit of the
population. It changes no later generation: the genomes, the species, the files written
and everything else come out as without the call. -/
theorem C96_set_max_population_refuted (W : World σ G) (P : Params) (m : Nat) (s : State σ G) :
    run W P (setMaxPop m s) = (run W P s).map (setMaxPop m) := by
  cases h1 : s.pop.head? with
  | none =>
    have a : run W P s = none := by unfold run; rw [h1]; rfl
    have b : run W P (setMaxPop m s) = none := by
      unfold run
      rw [show (setMaxPop m s).pop.head? = none from h1]; rfl
    rw [a, b]; rfl
  | some first =>
    cases h2 : bestOf s.pop with
    | none =>
      have a : run W P s = none := by unfold run; rw [h1, Option.bind_some, h2]; rfl
      have b : run W P (setMaxPop m s) = none := by
        unfold run
        rw [show (setMaxPop m s).pop.head? = some first from h1, Option.bind_some, show bestOf (setMaxPop m s).pop = none from h2]; rfl
      rw [a, b]; rfl
    | some best =>
      rw [run_unfold W P s first best h1 h2, run_unfold W P (setMaxPop m s) first best h1 h2]
      have hk : (setMaxPop m s).k = s.k := rfl
      have hrec : recorded P best (setMaxPop m s) = setMaxPop m (recorded P best s) := rfl
      rw [hk, hrec]
      by_cases h : s.k = P.generations
      · rw [if_pos h, if_pos h]; rfl
      · rw [if_neg h, if_neg h]
        generalize recorded P best s = t
        unfold evolve
        rw [show weed (setMaxPop m t).newMaxPop (setMaxPop m t).pop = weed t.newMaxPop t.pop from rfl]
        cases weed t.newMaxPop t.pop with
        | none => rfl
        | some pop =>
          rw [Option.bind_some, Option.bind_some]
          dsimp only [setMaxPop]
          by_cases h0 : (deleteF (putF W.dist P.threshold (W.shuffle t.w (normalise best.fit first.fit pop)).2 t.species)).length = 0
          · rw [if_pos h0, if_pos h0]; rfl
          · rw [if_neg h0, if_neg h0]
            generalize speciesLoop W P t.cap t.rate _ _ _ = y
            cases y with
            | none => rfl
            | some y =>
              rw [Option.bind_some, Option.bind_some]
              cases renew W P t.cap best y.2 with
              | none => rfl
              | some z => rfl

end

/-- **C96 (refuted).** The genomes removed are not always the weakest: the sort compares
fitness values cut to integers. Of fitness 1/2 and 1/5 the second is kept. -/
theorem C96_weakest_removed_refuted : ¬ ∀ (m : Nat) (pop kept : List (Ind Int)), weed m pop = some kept →
    ∀ x ∈ kept, ∀ y ∈ pop, y ∉ kept → y.fit ≤ x.fit := by
  intro h
  have := h 1 [⟨0, 1 / 2, 0⟩, ⟨1, 1 / 5, 0⟩] [⟨1, 1 / 5, 0⟩] (by decide +kernel) ⟨1, 1 / 5, 0⟩ (by simp) ⟨0, 1 / 2, 0⟩ (by simp)
    (by decide +kernel)
  norm_num at this

end LLab.Generation
