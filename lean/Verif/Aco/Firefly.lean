import Verif.Aco.Swarm
import Verif.Sort.Props
import Mathlib.Tactic.Ring
import Mathlib.Tactic.FieldSimp
import Mathlib.Tactic.Linarith
import Mathlib.Tactic.NormNum

/-!
The firefly step of the ant colony search (`update_fa_nodes`, `/repo/src/aco_process.c` 883-926).
Property C164.

One group is the `width` candidates of one weight. `c` is `(int)(width * percentage_of_fireflies)`.
The draws of `r2` are parameters: `u k` is the one with which candidate number `k` of the sorted order chooses
a brighter one, `jit k` the one that jitters its move. `pw x` is `pow(x, 1.0 / softmax_temperature)`, `ex` is `exp`.
-/

namespace LLab.Aco.Fa

open LLab.Sort

variable {F : Type} [Field F] [LinearOrder F]

/-- The parameters of the step (`aco_struct`, `/repo/src/llab.h`). -/
structure Rule (F : Type) where
  /-- `step_size` -/
  step : F
  /-- `beta_min` -/
  bmin : F
  /-- `beta_zero` -/
  b0 : F
  /-- `lambda` -/
  lam : F
  /-- `pow(·, 1.0 / softmax_temperature)` -/
  pw : F → F
  /-- `exp` -/
  ex : F → F
  /-- the conversion of a `float` to `int` inside `sort` -/
  toInt : F → Int

/-- The loop `values[indices[k]] = pow(…); sum += …` over the candidates from `c` on (`/repo/src/aco_process.c` 899-902). -/
def powers (pw : F → F) : List Nat → List F → F → Option (List F × F)
  | [], vs, s => some (vs, s)
  | n :: ns, vs, s => (vs[n]?).bind fun v => powers pw ns (vs.set n (pw v)) (s + pw v)

/-- The loop `values[indices[k]] /= sum` (`/repo/src/aco_process.c` 903-905). -/
def divide (sum : F) : List Nat → List F → Option (List F)
  | [], vs => some vs
  | n :: ns, vs => (vs[n]?).bind fun v => divide sum ns (vs.set n (v / sum))

/-- The roulette: the loop over `w` (`/repo/src/aco_process.c` 909-920). The inner `none`: it ends without a choice. -/
def pick (vs : List F) : List Nat → F → Option (Option Nat)
  | [], _ => some none
  | n :: ns, ran => (vs[n]?).bind fun p => if ran ≤ p then some (some n) else pick vs ns (ran - p)

/-- The move of candidate `n` towards `m` (`/repo/src/aco_process.c` 911-915). -/
def fly (R : Rule F) (jit : F) (l : List (Particle F)) (n m : Nat) : Option (List (Particle F)) :=
  (l[n]?).bind fun a => (l[m]?).bind fun b =>
    if a.scent < b.scent then
      some (l.set n { a with x := a.x + (R.step * (jit - 1 / 2) + (b.x - a.x) * (R.bmin + (R.b0 - R.bmin) * R.ex (-R.lam * ((a.x - b.x) * (a.x - b.x))))) })
    else some l

/-- The loop over `k` (`/repo/src/aco_process.c` 907-921), the first `k` rounds. -/
def rounds (R : Rule F) (u jit : Nat → F) (order : List Nat) (vs : List F) (c : Nat) : Nat → List (Particle F) → Option (List (Particle F))
  | 0, l => some l
  | k + 1, l => (rounds R u jit order vs c k l).bind fun l => (pick vs (order.drop c) (u k)).bind fun
    | none => some l
    | some m => (order[k]?).bind fun n => fly R (jit k) l n m

/-- `update_fa_nodes` (`/repo/src/aco_process.c` 883-926) for the candidates of one weight. If the sum of the powers is zero, the
shares are `NaN` (the powers are not negative, so all are zero), every comparison with them fails, and nothing moves. -/
def group (R : Rule F) (c : Nat) (u jit : Nat → F) (l : List (Particle F)) : Option (List (Particle F)) :=
  (sortC R.toInt (l.map (·.scent)) (List.range l.length) 0 ((l.length : Int) - 1)).bind fun order =>
    (powers R.pw (order.drop c) (l.map (·.scent)) 0).bind fun p =>
      if p.2 = 0 then some l
      else (divide p.2 (order.drop c) p.1).bind fun vs => rounds R u jit order vs c c l


/-! ### Specification -/

/-- How attractive candidate `n` is: its pheromone raised to `1 / temperature`. -/
def glow (pw : F → F) (l : List (Particle F)) (n : Nat) : F :=
  match l[n]? with
  | some a => pw a.scent
  | none => 0

/-- The pull on a candidate at `x` of one at `y`. -/
def pull (R : Rule F) (x y : F) : F := R.bmin + (R.b0 - R.bmin) * R.ex (-R.lam * (x - y) ^ 2)

/-- Where a candidate ends that flies towards a brighter one. -/
def flown (R : Rule F) (jit : F) (a b : Particle F) : Particle F :=
  { a with x := a.x + R.step * (jit - 1 / 2) + pull R a.x b.x * (b.x - a.x) }

/-- The share of the first `j` of the candidates `ns` in their whole glow. -/
def upTo (pw : F → F) (l : List (Particle F)) (ns : List Nat) (j : Nat) : F :=
  ((ns.take j).map (glow pw l)).sum / (ns.map (glow pw l)).sum

/-! ### Lemmas -/

omit [LinearOrder F] in
theorem flown_eq (R : Rule F) (jit : F) (a b : Particle F) :
    { a with x := a.x + (R.step * (jit - 1 / 2) + (b.x - a.x) * (R.bmin + (R.b0 - R.bmin) * R.ex (-R.lam * ((a.x - b.x) * (a.x - b.x))))) } = flown R jit a b := by
  have h : -R.lam * ((a.x - b.x) * (a.x - b.x)) = -R.lam * (a.x - b.x) ^ 2 := by ring
  rw [h, flown, pull]
  have h2 : a.x + (R.step * (jit - 1 / 2) + (b.x - a.x) * (R.bmin + (R.b0 - R.bmin) * R.ex (-R.lam * (a.x - b.x) ^ 2))) =
      a.x + R.step * (jit - 1 / 2) + (R.bmin + (R.b0 - R.bmin) * R.ex (-R.lam * (a.x - b.x) ^ 2)) * (b.x - a.x) := by ring
  rw [h2]

omit [LinearOrder F] in
theorem powers_spec (pw : F → F) (f : Nat → F) : ∀ (ns : List Nat) (vs : List F) (s : F), ns.Nodup → (∀ n ∈ ns, vs[n]? = some (f n)) →
    ∃ vs', powers pw ns vs s = some (vs', s + (ns.map (fun n => pw (f n))).sum) ∧ vs'.length = vs.length ∧
      (∀ n ∈ ns, vs'[n]? = some (pw (f n))) ∧ (∀ n, n ∉ ns → vs'[n]? = vs[n]?)
  | [], vs, s, _, _ => ⟨vs, by simp [powers], rfl, by simp, fun _ _ => rfl⟩
  | n :: ns, vs, s, nd, h => by
    obtain ⟨hn, nd'⟩ := List.nodup_cons.1 nd
    have hv := h n (by simp)
    have hlt : n < vs.length := (List.getElem?_eq_some_iff.1 hv).1
    obtain ⟨vs', e, hl, h1, h2⟩ := powers_spec pw f ns (vs.set n (pw (f n))) (s + pw (f n)) nd' (by
      intro m hm
      have : n ≠ m := fun he => hn (he ▸ hm)
      rw [List.getElem?_set_ne this]
      exact h m (by simp [hm]))
    refine ⟨vs', ?_, by rw [hl, List.length_set], ?_, ?_⟩
    · rw [powers, hv, Option.bind_some, e, List.map_cons, List.sum_cons, add_assoc]
    · intro m hm
      rcases List.mem_cons.1 hm with rfl | hm
      · rw [h2 m hn, List.getElem?_set_self hlt]
      · exact h1 m hm
    · intro m hm
      have hm1 : n ≠ m := fun he => hm (by simp [he])
      rw [h2 m (fun h => hm (by simp [h])), List.getElem?_set_ne hm1]

omit [LinearOrder F] in
theorem divide_spec (S : F) (f : Nat → F) : ∀ (ns : List Nat) (vs : List F), ns.Nodup → (∀ n ∈ ns, vs[n]? = some (f n)) →
    ∃ vs', divide S ns vs = some vs' ∧ (∀ n ∈ ns, vs'[n]? = some (f n / S)) ∧ (∀ n, n ∉ ns → vs'[n]? = vs[n]?)
  | [], vs, _, _ => ⟨vs, by simp [divide], by simp, fun _ _ => rfl⟩
  | n :: ns, vs, nd, h => by
    obtain ⟨hn, nd'⟩ := List.nodup_cons.1 nd
    have hv := h n (by simp)
    have hlt : n < vs.length := (List.getElem?_eq_some_iff.1 hv).1
    obtain ⟨vs', e, h1, h2⟩ := divide_spec S f ns (vs.set n (f n / S)) nd' (by
      intro m hm
      have : n ≠ m := fun he => hn (he ▸ hm)
      rw [List.getElem?_set_ne this]
      exact h m (by simp [hm]))
    refine ⟨vs', ?_, ?_, ?_⟩
    · rw [divide, hv, Option.bind_some, e]
    · intro m hm
      rcases List.mem_cons.1 hm with rfl | hm
      · rw [h2 m hn, List.getElem?_set_self hlt]
      · exact h1 m hm
    · intro m hm
      have hm1 : n ≠ m := fun he => hm (by simp [he])
      rw [h2 m (fun h => hm (by simp [h])), List.getElem?_set_ne hm1]

variable [IsStrictOrderedRing F]

theorem pick_spec (vs : List F) (f : Nat → F) : ∀ (ns : List Nat) (u : F), (∀ n ∈ ns, vs[n]? = some (f n)) →
    (pick vs ns u = some none ∧ ∀ j < ns.length, ((ns.take (j + 1)).map f).sum < u) ∨
    ∃ j m, pick vs ns u = some (some m) ∧ ns[j]? = some m ∧ (∀ i < j, ((ns.take (i + 1)).map f).sum < u) ∧ u ≤ ((ns.take (j + 1)).map f).sum
  | [], u, _ => Or.inl ⟨rfl, by simp⟩
  | n :: ns, u, h => by
    have hv := h n (by simp)
    by_cases hu : u ≤ f n
    · refine Or.inr ⟨0, n, ?_, rfl, by simp, by simpa using hu⟩
      rw [pick, hv, Option.bind_some, if_pos hu]
    · have e : pick vs (n :: ns) u = pick vs ns (u - f n) := by
        rw [pick, hv, Option.bind_some, if_neg hu]
      push Not at hu
      rcases pick_spec vs f ns (u - f n) (fun m hm => h m (by simp [hm])) with ⟨e1, h1⟩ | ⟨j, m, e1, hj, h1, h2⟩
      · refine Or.inl ⟨e.trans e1, ?_⟩
        intro j hj
        cases j with
        | zero => simpa using hu
        | succ j =>
          have := h1 j (by simpa using hj)
          rw [List.take_succ_cons, List.map_cons, List.sum_cons]
          linarith
      · refine Or.inr ⟨j + 1, m, e.trans e1, by simpa using hj, ?_, ?_⟩
        · intro i hi
          cases i with
          | zero => simpa using hu
          | succ i =>
            have := h1 i (by omega)
            rw [List.take_succ_cons, List.map_cons, List.sum_cons]
            linarith
        · rw [List.take_succ_cons, List.map_cons, List.sum_cons]
          linarith

omit [LinearOrder F] [IsStrictOrderedRing F] in
theorem sum_div (f : Nat → F) (S : F) (ns : List Nat) : (ns.map (fun n => f n / S)).sum = (ns.map f).sum / S := by
  induction ns with
  | nil => simp
  | cons n ns ih => rw [List.map_cons, List.sum_cons, ih, List.map_cons, List.sum_cons, add_div]

/-- What happens to candidate `n`, number `k` of the order: no choice, or a choice by the roulette. -/
def Chose (R : Rule F) (l : List (Particle F)) (bright : List Nat) (u jit : F) (a a' : Particle F) : Prop :=
  ((∀ j < bright.length, upTo R.pw l bright (j + 1) < u) ∧ a' = a) ∨
  ∃ (j m : Nat) (b : Particle F), bright[j]? = some m ∧ l[m]? = some b ∧ (∀ i < j, upTo R.pw l bright (i + 1) < u) ∧
    u ≤ upTo R.pw l bright (j + 1) ∧ a' = if a.scent < b.scent then flown R jit a b else a

theorem rounds_spec (R : Rule F) (c : Nat) (u jit : Nat → F) (l : List (Particle F)) (order : List Nat) (vs : List F)
    (nd : order.Nodup) (hin : ∀ n ∈ order, n < l.length)
    (hv : ∀ n ∈ order.drop c, vs[n]? = some (glow R.pw l n / ((order.drop c).map (glow R.pw l)).sum)) (hc : c ≤ order.length) :
    ∀ k ≤ c, ∃ l', rounds R u jit order vs c k l = some l' ∧ l'.length = l.length ∧
      (∀ n, n ∉ order.take k → l'[n]? = l[n]?) ∧
      ∀ i < k, ∀ n a, order[i]? = some n → l[n]? = some a → ∃ a', l'[n]? = some a' ∧ Chose R l (order.drop c) (u i) (jit i) a a' := by
  intro k
  induction k with
  | zero => exact fun _ => ⟨l, rfl, rfl, fun _ _ => rfl, fun i hi => absurd hi (by omega)⟩
  | succ k ih =>
    intro hk
    obtain ⟨l1, e1, hl1, out1, in1⟩ := ih (by omega)
    have hkl : k < order.length := by omega
    have hok : order[k]? = some order[k] := List.getElem?_eq_getElem hkl
    have hnk : order[k] < l.length := hin _ (List.getElem_mem hkl)
    have hnot : order[k] ∉ order.take k := by
      intro hm
      obtain ⟨i, hi, he⟩ := List.mem_iff_getElem.1 hm
      rw [List.getElem_take] at he
      have hi' : i < k := by rw [List.length_take] at hi; omega
      have := (List.Nodup.getElem_inj_iff nd).1 he
      omega
    have htake : order.take (k + 1) = order.take k ++ [order[k]] := List.take_succ_eq_append_getElem hkl
    have hal : l[order[k]]? = some l[order[k]] := List.getElem?_eq_getElem hnk
    have ha1 : l1[order[k]]? = some l[order[k]] := (out1 _ hnot).trans hal
    have keep : ∀ i < k, ∀ n, order[i]? = some n → n ≠ order[k] := by
      intro i hi n hn he
      obtain ⟨h1, h2⟩ := List.getElem?_eq_some_iff.1 hn
      have := (List.Nodup.getElem_inj_iff nd (hi := h1) (hj := hkl)).1 (h2.trans he)
      omega
    have spec := pick_spec vs (fun n => glow R.pw l n / ((order.drop c).map (glow R.pw l)).sum) (order.drop c) (u k) hv
    simp only [sum_div] at spec
    rcases spec with ⟨e, h1⟩ | ⟨j, m, e, hj, h1, h2⟩
    · refine ⟨l1, ?_, hl1, ?_, ?_⟩
      · rw [rounds, e1, Option.bind_some, e, Option.bind_some]
      · intro n hn
        refine out1 n (fun h => hn ?_)
        rw [htake]; exact List.mem_append_left _ h
      · intro i hi n a hn ha
        by_cases hik : i = k
        · subst hik
          rw [hok] at hn
          cases hn
          rw [hal] at ha
          cases ha
          exact ⟨_, ha1, Or.inl ⟨h1, rfl⟩⟩
        · exact in1 i (by omega) n a hn ha
    · have hmem : m ∈ order.drop c := List.mem_of_getElem? hj
      have hml : m < l.length := hin m (List.mem_of_mem_drop hmem)
      have hmb : l[m]? = some l[m] := List.getElem?_eq_getElem hml
      have hmt : m ∉ order.take k := by
        intro hm
        have hdis : List.Disjoint (order.take c) (order.drop c) := by
          have := nd
          rw [← List.take_append_drop c order] at this
          exact (List.nodup_append'.1 this).2.2
        exact hdis (List.take_subset_take_left order (by omega : k ≤ c) hm) hmem
      have hb1 : l1[m]? = some l[m] := (out1 _ hmt).trans hmb
      have hfly : rounds R u jit order vs c (k + 1) l = fly R (jit k) l1 order[k] m := by
        rw [rounds, e1, Option.bind_some, e, Option.bind_some, hok]
        rfl
      by_cases hs : l[order[k]].scent < l[m].scent
      · refine ⟨l1.set order[k] (flown R (jit k) l[order[k]] l[m]), ?_, by rw [List.length_set, hl1], ?_, ?_⟩
        · rw [hfly, fly, ha1, Option.bind_some, hb1, Option.bind_some, if_pos hs, flown_eq]
        · intro n hn
          rw [htake, List.mem_append, List.mem_singleton, not_or] at hn
          rw [List.getElem?_set_ne (fun h => hn.2 h.symm)]
          exact out1 n hn.1
        · intro i hi n a hn ha
          by_cases hik : i = k
          · subst hik
            rw [hok] at hn
            cases hn
            rw [hal] at ha
            cases ha
            refine ⟨flown R (jit i) l[order[i]] l[m], ?_, Or.inr ⟨j, m, l[m], hj, hmb, h1, h2, (if_pos hs).symm⟩⟩
            rw [List.getElem?_set_self (by omega)]
          · obtain ⟨a', h3, h4⟩ := in1 i (by omega) n a hn ha
            refine ⟨a', ?_, h4⟩
            rw [List.getElem?_set_ne (fun h => keep i (by omega) n hn h.symm)]
            exact h3
      · refine ⟨l1, ?_, hl1, ?_, ?_⟩
        · rw [hfly, fly, ha1, Option.bind_some, hb1, Option.bind_some, if_neg hs]
        · intro n hn
          refine out1 n (fun h => hn ?_)
          rw [htake]; exact List.mem_append_left _ h
        · intro i hi n a hn ha
          by_cases hik : i = k
          · subst hik
            rw [hok] at hn
            cases hn
            rw [hal] at ha
            cases ha
            exact ⟨_, ha1, Or.inr ⟨j, m, l[m], hj, hmb, h1, h2, (if_neg hs).symm⟩⟩
          · exact in1 i (by omega) n a hn ha

/-! ### Theorems -/

/-- **C164 (the step, as it is).** For any candidates, any share `c` of fireflies and any draws the step runs without undefined
behaviour. Let `order` be the order `sort` puts the candidates in. The candidates from number `c` of this order on stay as
they are. If their glow sums to zero nobody moves. Otherwise each of the first `c` takes the first of them at which the shares of
the glow add up to the draw, and flies towards it if that one is strictly brighter; all else about a candidate is kept.
Missing: `order` need not be the order of brightness, see `C164_dimmest_refuted`. -/
theorem C164_step_partial (R : Rule F) (c : Nat) (u jit : Nat → F) (l : List (Particle F)) :
    ∃ order l', sortC R.toInt (l.map (·.scent)) (List.range l.length) 0 ((l.length : Int) - 1) = some order ∧
      order.Perm (List.range l.length) ∧ group R c u jit l = some l' ∧ l'.length = l.length ∧
      (∀ n ∈ order.drop c, l'[n]? = l[n]?) ∧
      (((order.drop c).map (glow R.pw l)).sum = 0 → l' = l) ∧
      (((order.drop c).map (glow R.pw l)).sum ≠ 0 → ∀ k < c, ∀ n a, order[k]? = some n → l[n]? = some a →
        ∃ a', l'[n]? = some a' ∧ Chose R l (order.drop c) (u k) (jit k) a a') := by
  obtain ⟨order, eo, hp, _⟩ := C02_sort_partial R.toInt (l.map (·.scent)) (List.range l.length) 0 ((l.length : Int) - 1) (by omega)
    (by rw [List.length_map]; omega) (by rw [List.length_range]; omega)
  have nd : order.Nodup := hp.nodup_iff.2 List.nodup_range
  have hin : ∀ n ∈ order, n < l.length := fun n hn => List.mem_range.1 (hp.mem_iff.1 hn)
  have hin' : ∀ n ∈ order.drop c, n < l.length := fun n hn => hin n (List.mem_of_mem_drop hn)
  have ndd : (order.drop c).Nodup := (List.drop_sublist c order).nodup nd
  obtain ⟨vs1, e1, hl1, h1, -⟩ := powers_spec R.pw (fun n => ((l.map (·.scent))[n]?).getD 0) (order.drop c) (l.map (·.scent)) 0 ndd (by
    intro n hn
    have hlt : n < (l.map (·.scent)).length := by rw [List.length_map]; exact hin' n hn
    rw [List.getElem?_eq_getElem hlt, Option.getD_some])
  have hg : ∀ n ∈ order.drop c, R.pw (((l.map (·.scent))[n]?).getD 0) = glow R.pw l n := by
    intro n hn
    have hlt := hin' n hn
    have : l[n]? = some l[n] := List.getElem?_eq_getElem hlt
    rw [List.getElem?_map, this, glow, this]
    rfl
  have hsum : ((order.drop c).map (fun n => R.pw (((l.map (·.scent))[n]?).getD 0))).sum = ((order.drop c).map (glow R.pw l)).sum := by
    rw [List.map_congr_left hg]
  rw [hsum, zero_add] at e1
  by_cases hS : ((order.drop c).map (glow R.pw l)).sum = 0
  · refine ⟨order, l, eo, hp, ?_, rfl, fun _ _ => rfl, fun _ => rfl, fun h => absurd hS h⟩
    rw [group, eo, Option.bind_some, e1, Option.bind_some]
    exact if_pos hS
  · obtain ⟨vs, e2, h2, -⟩ := divide_spec ((order.drop c).map (glow R.pw l)).sum (glow R.pw l) (order.drop c) vs1 ndd (by
      intro n hn
      rw [h1 n hn, hg n hn])
    have hc : c ≤ order.length := by
      by_contra hcon
      push Not at hcon
      rw [List.drop_eq_nil_of_le (by omega)] at hS
      exact hS rfl
    obtain ⟨l', e3, hl', out, inn⟩ := rounds_spec R c u jit l order vs nd hin h2 hc c (le_refl _)
    refine ⟨order, l', eo, hp, ?_, hl', ?_, fun h => absurd h hS, fun _ => inn⟩
    · rw [group, eo, Option.bind_some, e1, Option.bind_some]
      refine (if_neg hS).trans ?_
      rw [e2, Option.bind_some, e3]
    · intro n hn
      refine out n (fun hm => ?_)
      have := nd
      rw [← List.take_append_drop c order] at this
      exact (List.nodup_append'.1 this).2.2 hm hn

/-- **C164 (the brightest stay).** After the step there are as many candidates as before, and each is as before or has flown towards a strictly
brighter one that has not moved itself: a candidate no other outshines keeps its value. -/
theorem C164_brightest (R : Rule F) (c : Nat) (u jit : Nat → F) (l : List (Particle F)) :
    ∃ l', group R c u jit l = some l' ∧ l'.length = l.length ∧ ∀ (n : Nat) (a : Particle F), l[n]? = some a → ∃ a', l'[n]? = some a' ∧
      (a' = a ∨ ∃ (k m : Nat) (b : Particle F), k < c ∧ l[m]? = some b ∧ l'[m]? = some b ∧ a.scent < b.scent ∧ a' = flown R (jit k) a b) ∧
      ((∀ b ∈ l, b.scent ≤ a.scent) → a' = a) := by
  obtain ⟨order, l', eo, hp, e, hl, hout, h0, hin⟩ := C164_step_partial R c u jit l
  refine ⟨l', e, hl, ?_⟩
  intro n a ha
  have key : ∃ a', l'[n]? = some a' ∧ (a' = a ∨ ∃ (k m : Nat) (b : Particle F), k < c ∧ l[m]? = some b ∧ l'[m]? = some b ∧ a.scent < b.scent ∧ a' = flown R (jit k) a b) := by
    by_cases hS : ((order.drop c).map (glow R.pw l)).sum = 0
    · exact ⟨a, by rw [h0 hS]; exact ha, Or.inl rfl⟩
    · have hmem : n ∈ order := hp.mem_iff.2 (List.mem_range.2 (List.getElem?_eq_some_iff.1 ha).1)
      rw [← List.take_append_drop c order] at hmem
      rcases List.mem_append.1 hmem with hm | hm
      · obtain ⟨k, hk, hkn⟩ := List.mem_iff_getElem.1 hm
        rw [List.length_take] at hk
        have hok : order[k]? = some n := by
          rw [List.getElem_take] at hkn
          rw [List.getElem?_eq_getElem (by omega), hkn]
        obtain ⟨a', h1, h2⟩ := hin hS k (by omega) n a hok ha
        refine ⟨a', h1, ?_⟩
        rcases h2 with ⟨-, h2⟩ | ⟨j, m, b, hj, hb, -, -, h2⟩
        · exact Or.inl h2
        · by_cases hs : a.scent < b.scent
          · rw [if_pos hs] at h2
            exact Or.inr ⟨k, m, b, by omega, hb, (hout m (List.mem_of_getElem? hj)).trans hb, hs, h2⟩
          · rw [if_neg hs] at h2
            exact Or.inl h2
      · exact ⟨a, (hout n hm).trans ha, Or.inl rfl⟩
  obtain ⟨a', h1, h2⟩ := key
  refine ⟨a', h1, h2, ?_⟩
  intro hb
  rcases h2 with h2 | ⟨k, m, b, -, hm, -, hs, -⟩
  · exact h2
  · exact absurd (hb b (List.mem_of_getElem? hm)) (not_le.2 hs)

omit [IsStrictOrderedRing F] in
/-- **C164 (a draw always chooses).** With a glow that does not sum to zero and a draw of at most one, the roulette ends with a choice:
some brighter candidate's share reaches the draw. -/
theorem C164_choice (pw : F → F) (l : List (Particle F)) (bright : List Nat) (hS : (bright.map (glow pw l)).sum ≠ 0) (u : F) (hu : u ≤ 1) :
    ∃ j < bright.length, u ≤ upTo pw l bright (j + 1) := by
  have hne : bright ≠ [] := by
    intro h
    rw [h] at hS
    exact hS rfl
  have hpos : 0 < bright.length := List.length_pos_of_ne_nil hne
  refine ⟨bright.length - 1, by omega, ?_⟩
  have : bright.length - 1 + 1 = bright.length := by omega
  rw [this, upTo, List.take_length, div_self hS]
  exact hu

/-- **C164 (how far).** With the exponential, `0 ≤ lambda` and `beta_min ≤ beta_zero`, a candidate that flies ends within half a step of a point
that lies between it and the brighter one, at a fraction between `beta_min` and `beta_zero` of the way. -/
theorem C164_attraction (R : Rule ℝ) (hex : R.ex = Real.exp) (hl : 0 ≤ R.lam) (hb : R.bmin ≤ R.b0) (hs : 0 ≤ R.step) (jit : ℝ) (h0 : 0 ≤ jit) (h1 : jit ≤ 1)
    (a b : Particle ℝ) : ∃ t, R.bmin ≤ t ∧ t ≤ R.b0 ∧ |(flown R jit a b).x - (a.x + t * (b.x - a.x))| ≤ R.step / 2 := by
  refine ⟨pull R a.x b.x, ?_, ?_, ?_⟩
  · have := Real.exp_pos (-R.lam * (a.x - b.x) ^ 2)
    rw [pull, hex]
    nlinarith
  · have : Real.exp (-R.lam * (a.x - b.x) ^ 2) ≤ 1 := by
      rw [Real.exp_le_one_iff]
      nlinarith [sq_nonneg (a.x - b.x)]
    rw [pull, hex]
    nlinarith
  · have e : (flown R jit a b).x - (a.x + pull R a.x b.x * (b.x - a.x)) = R.step * (jit - 1 / 2) := by
      rw [flown]; ring
    rw [e, abs_le]
    constructor <;> nlinarith

/-- **C164 (refuted: small pheromones).** If the pheromones have the same whole part - all below one, say - the candidates are not put in order at
all: only the first `c` of them can ever move, whatever their brightness. -/
theorem C164_small_refuted (R : Rule F) (c : Nat) (u jit : Nat → F) (l : List (Particle F)) (i : Int) (h : ∀ a ∈ l, R.toInt a.scent = i) :
    ∃ l', group R c u jit l = some l' ∧ ∀ n, c ≤ n → l'[n]? = l[n]? := by
  obtain ⟨order, l', eo, hp, e, hl, hout, h0, hin⟩ := C164_step_partial R c u jit l
  refine ⟨l', e, ?_⟩
  have hid := C02_sort_already_sorted_partial R.toInt (l.map (·.scent)) (List.range l.length) 0 ((l.length : Int) - 1) (by omega)
    (by rw [List.length_map]; omega) (by rw [List.length_range]; omega) (by
      rw [List.map_map]
      have : ∀ x ∈ l.map (R.toInt ∘ fun x => x.scent), x = i := by
        intro x hx
        obtain ⟨a, ha, rfl⟩ := List.mem_map.1 hx
        exact h a ha
      rw [List.pairwise_iff_getElem]
      intro p q hp hq _
      rw [this _ (List.getElem_mem hp), this _ (List.getElem_mem hq)])
  rw [eo] at hid
  cases hid
  intro n hn
  by_cases hlt : n < l.length
  · refine hout n ?_
    rw [List.mem_iff_getElem]
    refine ⟨n - c, by rw [List.length_drop, List.length_range]; omega, ?_⟩
    rw [List.getElem_drop, List.getElem_range]
    omega
  · rw [List.getElem?_eq_none (by omega), List.getElem?_eq_none (by omega)]

/-- Four candidates whose pheromones are 3, 1, 2, 0. -/
def four : List (Particle Rat) := [⟨0, 0, 0, 3, 0, none⟩, ⟨5, 0, 0, 1, 0, none⟩, ⟨7, 0, 0, 2, 0, none⟩, ⟨9, 0, 0, 0, 0, none⟩]

/-- A rule with temperature one. -/
def plain : Rule Rat := ⟨0, 1, 1, 0, id, fun _ => 1, truncRat⟩

/-- **C164 (refuted: it is the dimmest that move).** A candidate that flies need not be one of the `c` dimmest, that is, have fewer than `c`
dimmer ones. Of four candidates with pheromones 3, 1, 2, 0, half of them fireflies, the one with pheromone 2 flies. -/
theorem C164_dimmest_refuted : ¬ ∀ (R : Rule Rat) (c : Nat) (u jit : Nat → Rat) (l l' : List (Particle Rat)), R.toInt = truncRat →
    group R c u jit l = some l' → ∀ (n : Nat) (a a' : Particle Rat), l[n]? = some a → l'[n]? = some a' → a' ≠ a →
      (l.filter fun b => b.scent < a.scent).length < c := by
  intro h
  obtain ⟨order, l', eo, hp, e, hl, hout, h0, hin⟩ := C164_step_partial plain 2 (fun _ => 1) (fun _ => 0) four
  have w := C02_sort_witnesses.1
  have eo' : sortC plain.toInt (four.map (·.scent)) (List.range four.length) 0 ((four.length : Int) - 1) = some [3, 2, 1, 0] := w
  rw [eo'] at eo
  cases eo
  have g1 : glow plain.pw four 1 = 1 := rfl
  have g0 : glow plain.pw four 0 = 3 := rfl
  have hd : ([3, 2, 1, 0] : List Nat).drop 2 = [1, 0] := rfl
  rw [hd] at hin
  have hS : (([1, 0] : List Nat).map (glow plain.pw four)).sum ≠ 0 := by
    simp only [List.map_cons, List.map_nil, List.sum_cons, List.sum_nil, g0, g1]
    norm_num
  obtain ⟨a', h1, h2⟩ := hin hS 1 (by omega) 2 ⟨7, 0, 0, 2, 0, none⟩ rfl rfl
  have ha' : a' = ⟨0, 0, 0, 2, 0, none⟩ := by
    rcases h2 with ⟨h2, -⟩ | ⟨j, m, b, hj, hb, h2, h4, h3⟩
    · have := h2 1 (by simp)
      simp only [upTo, List.take_succ_cons, List.take_nil, List.map_cons, List.map_nil, List.sum_cons, List.sum_nil, g0, g1] at this
      norm_num at this
    · have hj0 : j ≠ 0 := by
        rintro rfl
        simp only [upTo, zero_add, List.take_succ_cons, List.take_zero, List.map_cons, List.map_nil, List.sum_cons, List.sum_nil, g0, g1] at h4
        norm_num at h4
      have hj1 : j = 1 := by
        have := (List.getElem?_eq_some_iff.1 hj).1
        simp only [List.length_cons, List.length_nil] at this
        omega
      subst hj1
      cases hj
      cases hb
      rw [h3, if_pos (by norm_num), flown, pull]
      simp [plain]
  have hm := h plain 2 (fun _ => 1) (fun _ => 0) four l' rfl e 2 ⟨7, 0, 0, 2, 0, none⟩ a' rfl h1
    (by rw [ha']; intro hh; injection hh with hx; norm_num at hx)
  have : (four.filter fun b => b.scent < (2 : Rat)).length = 2 := by decide +kernel
  exact absurd (this ▸ hm) (by omega)

/-- Two candidates, the first of which flies all the way to the brighter second: the hypotheses of the theorems above are met. -/
example : group (⟨0, 1, 1, 0, id, fun _ => 1, truncRat⟩ : Rule Rat) 1 (fun _ => 1) (fun _ => 0)
    [⟨4, 0, 0, 1, 0, none⟩, ⟨6, 0, 0, 2, 0, none⟩] = some [⟨6, 0, 0, 1, 0, none⟩, ⟨6, 0, 0, 2, 0, none⟩] := by
  decide +kernel

end LLab.Aco.Fa
