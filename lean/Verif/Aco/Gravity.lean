import Verif.Aco.Swarm
import Mathlib.Tactic.Ring
import Mathlib.Tactic.Linarith
import Mathlib.Tactic.NormNum

/-!
The gravitational steps of the ant colony search (`update_gsa_nodes` and `update_psogsa_nodes`, `/repo/src/aco_process.c` 928-1015,
1021-1107). Property C167.

The candidates of one weight, as in `Verif.Aco.Swarm`, whose `masses` are used. The draws of `r2` and `random_beta` are parameters; so are `pow` and `exp`
where they are applied: `rp` is the exponent as a function of the mean distance (`rp_min + (rp_max - rp_min) * exp(…)`), `pw x r` is `pow(x, r)`,
`dec t` is `exp(pow(-t, omega))`.
-/

namespace LLab.Aco.Gsa

variable {F : Type} [Field F] [LinearOrder F]

/-- The parameters of the two steps. -/
structure Rule (F : Type) where
  g : F
  /-- `EPSILON` -/
  eps : F
  rp : F → F
  pw : F → F → F
  /-- `alpha_velocity` -/
  alpha : F
  /-- `pow(·, h_velocity)` -/
  fade : F → F
  dec : F → F
  inertia : F
  c1 : F
  c2 : F

/-- The distance, `if(distance < 0) distance *= -1` (`/repo/src/aco_process.c` 944-946, 981-983). -/
def dist (a b : F) : F := if a - b < 0 then (a - b) * (-1) else a - b

/-- `deltas[k]` (`/repo/src/aco_process.c` 942-949). `none`: a division by zero. -/
def delta (xs : List F) (x : F) : Option F :=
  if (xs.length : F) - 1 = 0 then none else some ((xs.map (dist x)).sum / ((xs.length : F) - 1))

/-- `forces[k]` (`/repo/src/aco_process.c` 980-986): `r w` is the draw for candidate `w`. -/
def force (R : Rule F) (ms xs : List F) (r : Nat → F) (rp x : F) : F :=
  ((List.range xs.length).map fun w => r w * (R.g * ms.getD w 0 / (R.pw (dist x (xs.getD w 0)) rp + R.eps)) * (xs.getD w 0 - x)).sum

/-- `x_max` (`/repo/src/aco_process.c` 940, 954-955) from the first candidate on. -/
def largest (x : F) (xs : List F) : F := xs.foldl (fun m y => if y > m then y else m) x

/-- `x_min` (`/repo/src/aco_process.c` 939, 956-957). -/
def smallest (x : F) (xs : List F) : F := xs.foldl (fun m y => if y < m then y else m) x

/-- `v_max` (`/repo/src/aco_process.c` 990-991); `t` is `current_iteration / max_number_of_iterations`. -/
def vmax (R : Rule F) (hi lo t : F) : F := R.alpha * (hi - lo) * (1 - R.fade t)

/-- The two comparisons that bound the velocity (`/repo/src/aco_process.c` 997-1000). -/
def clamp (v m : F) : F :=
  let v := if v > m then m else v
  if v < -m then -m else v

/-- The move of `update_gsa_nodes` (`/repo/src/aco_process.c` 996-1002): `r` is the draw for the velocity, `b` is
`1.0 + current_iteration / (max_number_of_iterations + random_beta(2, 5))`. -/
def gsaMove (R : Rule F) (m t r b f : F) (p : Particle F) : Particle F :=
  { p with v := clamp (r * p.v + f) m, x := R.dec t * p.x + b * clamp (r * p.v + f) m }

/-- The move of `update_psogsa_nodes` (`/repo/src/aco_process.c` 1084-1095). -/
def psogsaMove (R : Rule F) (m hi r1 r2 f : F) (p : Particle F) : Particle F :=
  if p.x ≠ hi then
    let v := clamp (R.inertia * p.v + r1 * R.c1 * f + r2 * R.c2 * (hi - p.x)) m
    { p with v := v, x := p.x + v }
  else p

/-- The draws of one step: for the force between two candidates, and two for each candidate. -/
structure Draws (F : Type) where
  pair : Nat → Nat → F
  one : Nat → F
  two : Nat → F

/-- The part common to both steps: masses, mean distances and forces, and then a move for each candidate, which depends on its force and reads
nothing another candidate's move has changed. -/
def stepWith (R : Rule F) (d : Draws F) (move : Nat → F → F → F → Particle F → Particle F) (l : List (Particle F)) : Option (List (Particle F)) :=
  match l with
  | [] => some []
  | p0 :: ps => (masses (l.map (·.scent))).bind fun ms =>
    (List.range l.length).mapM fun k => (l[k]?).bind fun p => (delta (l.map (·.x)) p.x).bind fun dl =>
      some (move k (largest p0.x (ps.map (·.x))) (smallest p0.x (ps.map (·.x))) (force R ms (l.map (·.x)) (d.pair k) (R.rp dl) p.x) p)

/-- `update_gsa_nodes` (`/repo/src/aco_process.c` 928-1015) for the candidates of one weight. -/
def gsa (R : Rule F) (t : F) (d : Draws F) : List (Particle F) → Option (List (Particle F)) :=
  stepWith R d fun k hi lo f p => gsaMove R (vmax R hi lo t) t (d.one k) (d.two k) f p

/-- `update_psogsa_nodes` (`/repo/src/aco_process.c` 1021-1107) for the candidates of one weight. -/
def psogsa (R : Rule F) (t : F) (d : Draws F) : List (Particle F) → Option (List (Particle F)) :=
  stepWith R d fun k hi lo f p => psogsaMove R (vmax R hi lo t) hi (d.one k) (d.two k) f p

/-! ### Specification -/

/-- `hi` is the largest, `lo` the smallest value of the candidates. -/
def Range (l : List (Particle F)) (hi lo : F) : Prop :=
  (∃ p ∈ l, p.x = hi) ∧ (∃ p ∈ l, p.x = lo) ∧ ∀ p ∈ l, lo ≤ p.x ∧ p.x ≤ hi

/-! ### Lemmas -/

omit [Field F] in
theorem largest_spec : ∀ (xs : List F) (x : F), x ≤ largest x xs ∧ (∀ y ∈ xs, y ≤ largest x xs) ∧ (largest x xs = x ∨ largest x xs ∈ xs)
  | [], x => ⟨le_refl _, by simp, Or.inl rfl⟩
  | y :: xs, x => by
    obtain ⟨h1, h2, h3⟩ := largest_spec xs (if y > x then y else x)
    have e : largest x (y :: xs) = largest (if y > x then y else x) xs := rfl
    rw [e]
    by_cases hy : y > x
    · rw [if_pos hy] at h1 h2 h3 ⊢
      refine ⟨hy.le.trans h1, ?_, ?_⟩
      · intro z hz
        rcases List.mem_cons.1 hz with rfl | hz
        · exact h1
        · exact h2 z hz
      · rcases h3 with h3 | h3
        · rw [h3]; exact Or.inr (by simp)
        · exact Or.inr (by simp [h3])
    · rw [if_neg hy] at h1 h2 h3 ⊢
      refine ⟨h1, ?_, ?_⟩
      · intro z hz
        rcases List.mem_cons.1 hz with rfl | hz
        · exact (not_lt.1 hy).trans h1
        · exact h2 z hz
      · rcases h3 with h3 | h3
        · exact Or.inl h3
        · exact Or.inr (by simp [h3])

omit [Field F] in
theorem smallest_spec : ∀ (xs : List F) (x : F), smallest x xs ≤ x ∧ (∀ y ∈ xs, smallest x xs ≤ y) ∧ (smallest x xs = x ∨ smallest x xs ∈ xs)
  | [], x => ⟨le_refl _, by simp, Or.inl rfl⟩
  | y :: xs, x => by
    obtain ⟨h1, h2, h3⟩ := smallest_spec xs (if y < x then y else x)
    have e : smallest x (y :: xs) = smallest (if y < x then y else x) xs := rfl
    rw [e]
    by_cases hy : y < x
    · rw [if_pos hy] at h1 h2 h3 ⊢
      refine ⟨h1.trans hy.le, ?_, ?_⟩
      · intro z hz
        rcases List.mem_cons.1 hz with rfl | hz
        · exact h1
        · exact h2 z hz
      · rcases h3 with h3 | h3
        · rw [h3]; exact Or.inr (by simp)
        · exact Or.inr (by simp [h3])
    · rw [if_neg hy] at h1 h2 h3 ⊢
      refine ⟨h1, ?_, ?_⟩
      · intro z hz
        rcases List.mem_cons.1 hz with rfl | hz
        · exact h1.trans (not_lt.1 hy)
        · exact h2 z hz
      · rcases h3 with h3 | h3
        · exact Or.inl h3
        · exact Or.inr (by simp [h3])

omit [Field F] in
theorem range_spec (p0 : Particle F) (ps : List (Particle F)) : Range (p0 :: ps) (largest p0.x (ps.map (·.x))) (smallest p0.x (ps.map (·.x))) := by
  obtain ⟨h1, h2, h3⟩ := largest_spec (ps.map (·.x)) p0.x
  obtain ⟨k1, k2, k3⟩ := smallest_spec (ps.map (·.x)) p0.x
  refine ⟨?_, ?_, ?_⟩
  · rcases h3 with h3 | h3
    · exact ⟨p0, by simp, h3.symm⟩
    · obtain ⟨p, hp, e⟩ := List.mem_map.1 h3
      exact ⟨p, by simp [hp], e⟩
  · rcases k3 with k3 | k3
    · exact ⟨p0, by simp, k3.symm⟩
    · obtain ⟨p, hp, e⟩ := List.mem_map.1 k3
      exact ⟨p, by simp [hp], e⟩
  · intro p hp
    rcases List.mem_cons.1 hp with rfl | hp
    · exact ⟨k1, h1⟩
    · exact ⟨k2 _ (List.mem_map_of_mem hp), h2 _ (List.mem_map_of_mem hp)⟩

theorem mapM_some {A B : Type} (φ : A → Option B) : ∀ (l : List A) (l' : List B), l.mapM φ = some l' → l'.length = l.length ∧ ∀ (i : Nat) (a : A), l[i]? = some a → ∃ b, l'[i]? = some b ∧ φ a = some b
  | [], l', h => by
    rw [List.mapM_nil] at h
    cases h
    exact ⟨rfl, by simp⟩
  | a :: l, l', h => by
    rw [List.mapM_cons] at h
    obtain ⟨b, hb, h⟩ := Option.bind_eq_some_iff.1 h
    obtain ⟨bs, hbs, h⟩ := Option.bind_eq_some_iff.1 h
    cases h
    obtain ⟨h1, h2⟩ := mapM_some φ l bs hbs
    refine ⟨by simp [h1], ?_⟩
    intro i x hx
    cases i with
    | zero => cases hx; exact ⟨b, rfl, hb⟩
    | succ i => exact h2 i x hx

variable [IsStrictOrderedRing F]

theorem dist_eq (a b : F) : dist a b = |a - b| := by
  rw [dist]
  by_cases h : a - b < 0
  · rw [if_pos h, abs_of_neg h, mul_neg_one]
  · rw [if_neg h, abs_of_nonneg (not_lt.1 h)]

theorem clamp_spec (v m : F) (hm : 0 ≤ m) : |clamp v m| ≤ m ∧ (|v| ≤ m → clamp v m = v) := by
  have e : clamp v m = if (if v > m then m else v) < -m then -m else (if v > m then m else v) := rfl
  rw [e]
  by_cases h1 : v > m
  · rw [if_pos h1, if_neg (by linarith)]
    exact ⟨by rw [abs_of_nonneg hm], fun h => absurd (le_of_abs_le h) (not_le.2 h1)⟩
  · rw [if_neg h1]
    by_cases h2 : v < -m
    · rw [if_pos h2]
      exact ⟨by rw [abs_neg, abs_of_nonneg hm], fun h => absurd (neg_le_of_abs_le h) (not_le.2 h2)⟩
    · rw [if_neg h2]
      exact ⟨abs_le.2 ⟨not_lt.1 h2, not_lt.1 h1⟩, fun _ => rfl⟩

omit [IsStrictOrderedRing F] in
theorem stepWith_spec (R : Rule F) (d : Draws F) (move : Nat → F → F → F → Particle F → Particle F) (l l' : List (Particle F)) (hl : l ≠ []) (h : stepWith R d move l = some l') :
    l'.length = l.length ∧ ∃ ms hi lo, masses (l.map (·.scent)) = some ms ∧ Range l hi lo ∧ ∀ (k : Nat) (p : Particle F), l[k]? = some p →
      ∃ dl, delta (l.map (·.x)) p.x = some dl ∧ l'[k]? = some (move k hi lo (force R ms (l.map (·.x)) (d.pair k) (R.rp dl) p.x) p) := by
  cases l with
  | nil => exact absurd rfl hl
  | cons p0 ps =>
    rw [stepWith] at h
    obtain ⟨ms, hms, h⟩ := Option.bind_eq_some_iff.1 h
    obtain ⟨h1, h2⟩ := mapM_some _ _ _ h
    rw [List.length_range] at h1
    refine ⟨h1, ms, _, _, hms, range_spec p0 ps, ?_⟩
    intro k p hp
    have hk : k < (p0 :: ps).length := (List.getElem?_eq_some_iff.1 hp).1
    obtain ⟨b, hb, e⟩ := h2 k k (by rw [List.getElem?_range hk])
    rw [hp, Option.bind_some] at e
    obtain ⟨dl, hdl, e⟩ := Option.bind_eq_some_iff.1 e
    cases e
    exact ⟨dl, hdl, hb⟩

/-- The pull of all candidates on one at `x`: the masses `ms`, the draws `r`, the exponent by the mean distance from the others. Specification. -/
def pull (R : Rule F) (ms xs : List F) (r : Nat → F) (x : F) : F :=
  ((List.range xs.length).map fun w =>
    r w * (R.g * ms.getD w 0 / (R.pw |x - xs.getD w 0| (R.rp ((xs.map fun y => |x - y|).sum / ((xs.length : F) - 1))) + R.eps)) * (xs.getD w 0 - x)).sum

theorem force_eq (R : Rule F) (ms xs : List F) (r : Nat → F) (x dl : F) (h : delta xs x = some dl) : force R ms xs r (R.rp dl) x = pull R ms xs r x := by
  rw [delta] at h
  by_cases h0 : (xs.length : F) - 1 = 0
  · rw [if_pos h0] at h; cases h
  · rw [if_neg h0] at h
    have e : dist x = fun y => |x - y| := funext fun y => dist_eq x y
    rw [← Option.some.inj h, force, pull, e]

theorem clamp_eq (v m : F) (hm : 0 ≤ m) : clamp v m = max (-m) (min m v) := by
  have e : clamp v m = if (if v > m then m else v) < -m then -m else (if v > m then m else v) := rfl
  rw [e]
  by_cases h1 : v > m
  · rw [if_pos h1, min_eq_left h1.le, if_neg (by linarith), max_eq_right (by linarith)]
  · rw [if_neg h1, min_eq_right (not_lt.1 h1)]
    by_cases h2 : v < -m
    · rw [if_pos h2, max_eq_left h2.le]
    · rw [if_neg h2, max_eq_right (not_lt.1 h2)]

/-! ### Theorems -/

/-- **C167 (where each candidate goes).** All candidates move at once, by the masses and values before the step. In the plain variant the new velocity is a
random share of the old one plus the pull, cut to the limit, and the value is scaled by `dec t` and moved by a multiple of the velocity. In the swarm variant
a candidate below the largest value adds its velocity, which has a part towards the largest value. -/
theorem C167_moves (R : Rule F) (t : F) (d : Draws F) (l : List (Particle F)) (hl : l ≠ []) (ha : 0 ≤ R.alpha) (hf : R.fade t ≤ 1) :
    (∀ l', gsa R t d l = some l' → ∃ ms hi lo, masses (l.map (·.scent)) = some ms ∧ Range l hi lo ∧ ∀ (k : Nat) (p : Particle F), l[k]? = some p → ∃ p', l'[k]? = some p' ∧
      p'.v = max (-(R.alpha * (hi - lo) * (1 - R.fade t))) (min (R.alpha * (hi - lo) * (1 - R.fade t)) (d.one k * p.v + pull R ms (l.map (·.x)) (d.pair k) p.x)) ∧
      p'.x = R.dec t * p.x + d.two k * p'.v) ∧
    (∀ l', psogsa R t d l = some l' → ∃ ms hi lo, masses (l.map (·.scent)) = some ms ∧ Range l hi lo ∧ ∀ (k : Nat) (p : Particle F), l[k]? = some p → p.x < hi → ∃ p', l'[k]? = some p' ∧
      p'.v = max (-(R.alpha * (hi - lo) * (1 - R.fade t))) (min (R.alpha * (hi - lo) * (1 - R.fade t))
        (R.inertia * p.v + d.one k * R.c1 * pull R ms (l.map (·.x)) (d.pair k) p.x + d.two k * R.c2 * (hi - p.x))) ∧
      p'.x = p.x + p'.v) := by
  constructor
  · intro l' h
    obtain ⟨-, ms, hi, lo, hms, hr, hk⟩ := stepWith_spec R d _ l l' hl h
    refine ⟨ms, hi, lo, hms, hr, fun k p hp => ?_⟩
    obtain ⟨dl, hdl, e⟩ := hk k p hp
    obtain ⟨q, hq, rfl⟩ := hr.1
    have hsp : lo ≤ q.x := (hr.2.2 q hq).1
    have hm : 0 ≤ vmax R q.x lo t := mul_nonneg (mul_nonneg ha (by linarith)) (by linarith)
    rw [force_eq R ms _ _ _ _ hdl] at e
    exact ⟨_, e, clamp_eq _ _ hm, rfl⟩
  · intro l' h
    obtain ⟨-, ms, hi, lo, hms, hr, hk⟩ := stepWith_spec R d _ l l' hl h
    refine ⟨ms, hi, lo, hms, hr, fun k p hp hx => ?_⟩
    obtain ⟨dl, hdl, e⟩ := hk k p hp
    obtain ⟨q, hq, rfl⟩ := hr.1
    have hsp : lo ≤ q.x := (hr.2.2 q hq).1
    have hm : 0 ≤ vmax R q.x lo t := mul_nonneg (mul_nonneg ha (by linarith)) (by linarith)
    rw [force_eq R ms _ _ _ _ hdl, psogsaMove, if_pos hx.ne] at e
    exact ⟨_, e, clamp_eq _ _ hm, rfl⟩

/-- **C167 (the steps run).** If two candidates have different pheromones, both steps run, and no candidate is lost. (With equal pheromones they
divide by zero, see C110.) -/
theorem C167_runs (R : Rule F) (t : F) (d : Draws F) (l : List (Particle F)) (h : ∃ p ∈ l, ∃ q ∈ l, p.scent < q.scent) :
    (∃ l', gsa R t d l = some l' ∧ l'.length = l.length) ∧ ∃ l', psogsa R t d l = some l' ∧ l'.length = l.length := by
  have key : ∀ move, ∃ l', stepWith R d move l = some l' ∧ l'.length = l.length := by
    intro move
    obtain ⟨p, hp, q, hq, hpq⟩ := h
    obtain ⟨ms, hms, -⟩ := C110_masses_partial (l.map (·.scent)) ⟨p.scent, List.mem_map_of_mem hp, q.scent, List.mem_map_of_mem hq, hpq⟩
    have hlen : 2 ≤ l.length := by
      match l, hp, hq with
      | [a], hp, hq =>
        rw [List.mem_singleton] at hp hq
        rw [hp, hq] at hpq
        exact absurd hpq (lt_irrefl _)
      | a :: b :: l, _, _ => simp
    have hd : ((l.map (·.x)).length : F) - 1 ≠ 0 := by
      rw [List.length_map]
      have : (2 : F) ≤ (l.length : F) := by exact_mod_cast hlen
      intro h0
      linarith
    have hne : ∃ l', stepWith R d move l = some l' := by
      cases l with
      | nil => simp at hp
      | cons p0 ps =>
        rw [stepWith, hms, Option.bind_some]
        have : ∀ (ks : List Nat), (∀ k ∈ ks, k < (p0 :: ps).length) → ∃ l', (ks.mapM fun k => ((p0 :: ps)[k]?).bind fun p => (delta ((p0 :: ps).map (·.x)) p.x).bind fun dl =>
            some (move k (largest p0.x (ps.map (·.x))) (smallest p0.x (ps.map (·.x))) (force R ms ((p0 :: ps).map (·.x)) (d.pair k) (R.rp dl) p.x) p)) = some l' := by
          intro ks
          induction ks with
          | nil => exact fun _ => ⟨[], rfl⟩
          | cons k ks ih =>
            intro hks
            obtain ⟨l', e⟩ := ih (fun j hj => hks j (by simp [hj]))
            rw [List.mapM_cons, e, List.getElem?_eq_getElem (hks k (by simp)), Option.bind_some, delta, if_neg hd]
            exact ⟨_, rfl⟩
        exact this _ (fun k hk => List.mem_range.1 hk)
    obtain ⟨l', e⟩ := hne
    exact ⟨l', e, (stepWith_spec R d move l l' (by rintro rfl; simp at hp) e).1⟩
  exact ⟨key _, key _⟩

/-- **C167 (bounded speed).** After either step no velocity that the step set is above the limit: `alpha` times the spread of the values, times
one minus the share of the iterations done to the power `h`. Everything but value and velocity is kept. -/
theorem C167_speed (R : Rule F) (t : F) (d : Draws F) (l l' : List (Particle F)) (hl : l ≠ []) (ha : 0 ≤ R.alpha) (hf : R.fade t ≤ 1)
    (h : gsa R t d l = some l' ∨ psogsa R t d l = some l') :
    ∃ hi lo, Range l hi lo ∧ ∀ (k : Nat) (p : Particle F), l[k]? = some p → ∃ p', l'[k]? = some p' ∧
      (|p'.v| ≤ R.alpha * (hi - lo) * (1 - R.fade t) ∨ p' = p) ∧ p'.scent = p.scent ∧ p'.best = p.best ∧ p'.bestPersonal = p.bestPersonal ∧ p'.leader = p.leader := by
  rcases h with h | h
  · obtain ⟨-, ms, hi, lo, -, hr, hk⟩ := stepWith_spec R d _ l l' hl h
    refine ⟨hi, lo, hr, fun k p hp => ?_⟩
    obtain ⟨dl, -, e⟩ := hk k p hp
    obtain ⟨q, hq, rfl⟩ := hr.1
    have hsp : lo ≤ q.x := (hr.2.2 q hq).1
    have hm : 0 ≤ vmax R q.x lo t := mul_nonneg (mul_nonneg ha (by linarith)) (by linarith)
    exact ⟨_, e, Or.inl (clamp_spec _ _ hm).1, rfl, rfl, rfl, rfl⟩
  · obtain ⟨-, ms, hi, lo, -, hr, hk⟩ := stepWith_spec R d _ l l' hl h
    refine ⟨hi, lo, hr, fun k p hp => ?_⟩
    obtain ⟨dl, -, e⟩ := hk k p hp
    obtain ⟨q, hq, rfl⟩ := hr.1
    have hsp : lo ≤ q.x := (hr.2.2 q hq).1
    have hm : 0 ≤ vmax R q.x lo t := mul_nonneg (mul_nonneg ha (by linarith)) (by linarith)
    refine ⟨_, e, ?_⟩
    rw [psogsaMove]
    by_cases hx : p.x ≠ q.x
    · rw [if_pos hx]
      exact ⟨Or.inl (clamp_spec _ _ hm).1, rfl, rfl, rfl, rfl⟩
    · rw [if_neg hx]
      exact ⟨Or.inr rfl, rfl, rfl, rfl, rfl⟩

/-- **C167 (forces attract).** With non-negative draws, masses and `g`, a candidate below all others is not pushed down and one above all others is not
pushed up. -/
theorem C167_attract (R : Rule F) (ms xs : List F) (r : Nat → F) (rp x : F) (hg : 0 ≤ R.g) (he : 0 < R.eps) (hpw : ∀ a b, 0 ≤ R.pw a b) (hms : ∀ m ∈ ms, 0 ≤ m) (hr : ∀ w, 0 ≤ r w) :
    ((∀ y ∈ xs, x ≤ y) → 0 ≤ force R ms xs r rp x) ∧ ((∀ y ∈ xs, y ≤ x) → force R ms xs r rp x ≤ 0) := by
  have hcoef : ∀ w, 0 ≤ r w * (R.g * ms.getD w 0 / (R.pw (dist x (xs.getD w 0)) rp + R.eps)) := by
    intro w
    have hm : 0 ≤ ms.getD w 0 := by
      rw [List.getD_eq_getElem?_getD]
      by_cases hw : w < ms.length
      · rw [List.getElem?_eq_getElem hw, Option.getD_some]
        exact hms _ (List.getElem_mem hw)
      · rw [List.getElem?_eq_none (by omega), Option.getD_none]
    have := hpw (dist x (xs.getD w 0)) rp
    exact mul_nonneg (hr w) (div_nonneg (mul_nonneg hg hm) (by linarith))
  have hget : ∀ w ∈ List.range xs.length, xs.getD w 0 ∈ xs := by
    intro w hw
    have hw' := List.mem_range.1 hw
    rw [List.getD_eq_getElem?_getD, List.getElem?_eq_getElem hw', Option.getD_some]
    exact List.getElem_mem hw'
  constructor
  · intro h
    refine List.sum_nonneg (fun z hz => ?_)
    obtain ⟨w, hw, rfl⟩ := List.mem_map.1 hz
    exact mul_nonneg (hcoef w) (by have := h _ (hget w hw); linarith)
  · intro h
    have key : ∀ ws : List Nat, (∀ w ∈ ws, xs.getD w 0 ≤ x) →
        (ws.map fun w => r w * (R.g * ms.getD w 0 / (R.pw (dist x (xs.getD w 0)) rp + R.eps)) * (xs.getD w 0 - x)).sum ≤ 0 := by
      intro ws
      induction ws with
      | nil => intro _; simp
      | cons w ws ih =>
        intro hws
        rw [List.map_cons, List.sum_cons]
        have h1 := ih (fun v hv => hws v (by simp [hv]))
        have h2 := mul_nonneg (hcoef w) (show 0 ≤ x - xs.getD w 0 by have := hws w (by simp); linarith)
        have h3 : r w * (R.g * ms.getD w 0 / (R.pw (dist x (xs.getD w 0)) rp + R.eps)) * (xs.getD w 0 - x) =
            -(r w * (R.g * ms.getD w 0 / (R.pw (dist x (xs.getD w 0)) rp + R.eps)) * (x - xs.getD w 0)) := by ring
        rw [h3]
        linarith
    exact key _ (fun w hw => h _ (hget w hw))

/-- **C167 (the search comes to rest, partly).** At the last iteration the swarm variant leaves every candidate's value where it is. Missing: the plain
variant does not, see `C167_rest_refuted`. -/
theorem C167_rest_partial (R : Rule F) (d : Draws F) (l l' : List (Particle F)) (hl : l ≠ []) (hf : R.fade 1 = 1) (h : psogsa R 1 d l = some l') :
    ∀ (k : Nat) (p : Particle F), l[k]? = some p → ∃ p', l'[k]? = some p' ∧ p'.x = p.x := by
  intro k p hp
  obtain ⟨-, ms, hi, lo, -, hr, hk⟩ := stepWith_spec R d _ l l' hl h
  obtain ⟨dl, -, e⟩ := hk k p hp
  refine ⟨_, e, ?_⟩
  rw [psogsaMove]
  by_cases hx : p.x ≠ hi
  · rw [if_pos hx]
    have hm : vmax R hi lo 1 = 0 := by rw [vmax, hf, sub_self, mul_zero]
    have hz : clamp (R.inertia * p.v + d.one k * R.c1 * force R ms (l.map (·.x)) (d.pair k) (R.rp dl) p.x + d.two k * R.c2 * (hi - p.x)) (vmax R hi lo 1) = 0 := by
      rw [hm]
      exact abs_nonpos_iff.1 (clamp_spec _ 0 (le_refl _)).1
    show p.x + clamp _ (vmax R hi lo 1) = p.x
    rw [hz, add_zero]
  · rw [if_neg hx]

/-- **C167 (refuted: the plain variant comes to rest).** At the last iteration all velocities are zero, but every value is multiplied by `dec 1`, which is
`exp(-1)` for `omega = 1`: the candidates go on shrinking towards zero, whatever their pheromones. -/
theorem C167_rest_refuted (R : Rule F) (d : Draws F) (l l' : List (Particle F)) (hl : l ≠ []) (hf : R.fade 1 = 1) (h : gsa R 1 d l = some l') :
    ∀ (k : Nat) (p : Particle F), l[k]? = some p → ∃ p', l'[k]? = some p' ∧ p'.v = 0 ∧ p'.x = R.dec 1 * p.x := by
  intro k p hp
  obtain ⟨-, ms, hi, lo, -, hr, hk⟩ := stepWith_spec R d _ l l' hl h
  obtain ⟨dl, -, e⟩ := hk k p hp
  have hm : vmax R hi lo 1 = 0 := by rw [vmax, hf, sub_self, mul_zero]
  have hz : clamp (d.one k * p.v + force R ms (l.map (·.x)) (d.pair k) (R.rp dl) p.x) (vmax R hi lo 1) = 0 := by
    rw [hm]
    exact abs_nonpos_iff.1 (clamp_spec _ 0 (le_refl _)).1
  refine ⟨_, e, hz, ?_⟩
  show R.dec 1 * p.x + d.two k * clamp _ (vmax R hi lo 1) = _
  rw [hz, mul_zero, add_zero]

/-- **C167 (refuted: the brightest leads).** In the swarm variant the candidates are drawn to the largest value and the candidate that has it stays, whatever its
pheromone: here the one with the least pheromone stays where it is, and the one with the most moves. -/
theorem C167_leader_refuted : ∃ (R : Rule Rat) (d : Draws Rat) (l' : List (Particle Rat)) (a b : Particle Rat),
    psogsa R 0 d [⟨2, 0, 0, 0, 0, none⟩, ⟨1, 0, 0, 5, 0, none⟩] = some l' ∧ l'[0]? = some a ∧ a.x = 2 ∧ l'[1]? = some b ∧ b.x = 2 := by
  refine ⟨⟨0, 1, fun _ => 0, fun _ _ => 1, 1, id, fun _ => 1, 0, 0, 1⟩, ⟨fun _ _ => 0, fun _ => 0, fun _ => 1⟩,
    [⟨2, 0, 0, 0, 0, none⟩, ⟨2, 0, 0, 5, 1, none⟩], ⟨2, 0, 0, 0, 0, none⟩, ⟨2, 0, 0, 5, 1, none⟩, by decide +kernel, rfl, rfl, rfl, rfl⟩

omit [IsStrictOrderedRing F] in
/-- **C167 (who stays, in the swarm variant).** A candidate with the largest value keeps its value and velocity, whatever the pheromones. -/
theorem C167_largest_stays (R : Rule F) (t : F) (d : Draws F) (l l' : List (Particle F)) (hl : l ≠ []) (h : psogsa R t d l = some l') (k : Nat) (p : Particle F) (hp : l[k]? = some p)
    (hmax : ∀ q ∈ l, q.x ≤ p.x) : l'[k]? = some p := by
  obtain ⟨-, ms, hi, lo, -, hr, hk⟩ := stepWith_spec R d _ l l' hl h
  obtain ⟨dl, -, e⟩ := hk k p hp
  obtain ⟨q, hq, rfl⟩ := hr.1
  have hx : p.x = q.x := le_antisymm ((hr.2.2 p (List.mem_of_getElem? hp)).2) (hmax q hq)
  rw [psogsaMove, if_neg (not_not.2 hx)] at e
  exact e

/-- Two candidates with different pheromones meet the hypotheses, and the plain step halves the first at the last iteration. -/
example : gsa (⟨1, 1, fun _ => 0, fun _ _ => 1, 1, id, fun _ => 1 / 2, 0, 0, 1⟩ : Rule Rat) 1 ⟨fun _ _ => 1, fun _ => 1, fun _ => 1⟩ [⟨2, 0, 0, 0, 3, none⟩, ⟨1, 0, 0, 5, 0, none⟩] =
    some [⟨1, 0, 0, 0, 0, none⟩, ⟨1 / 2, 0, 0, 5, 0, none⟩] := by
  decide +kernel

end LLab.Aco.Gsa
