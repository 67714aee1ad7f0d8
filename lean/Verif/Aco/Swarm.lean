import Mathlib.Algebra.Order.Field.Rat
import Mathlib.Data.List.Basic
import Mathlib.Algebra.BigOperators.Group.List.Basic
import Mathlib.Analysis.SpecialFunctions.Trigonometric.Basic
import Verif.Common.Loop

/-!
The swarm steps that move the candidate values of the ant colony search
(`/repo/src/aco_process.c`). Properties C108-C110.

One layer is the array `nodes_layers[i]` of its weight nodes: `width` candidates for each of its
`sizes[i] * sizes[i+1]` weights, one weight after the other.
-/

namespace LLab.Aco

variable {F : Type}

/-- The fields of a weight node the swarm steps use (`aco_node`, `/repo/src/llab.h` 961-982). -/
structure Particle (F : Type) where
  /-- `weights->single_p` -/
  x : F
  /-- `best_weights->single_p` -/
  best : F
  bestPersonal : F
  /-- `input_pheromone` -/
  scent : F
  v : F
  /-- `best_global_params` points to the `best_weights` of the node at this position of the array; `none` is `NULL`. -/
  leader : Option Nat
deriving DecidableEq

section

variable [Field F] [LinearOrder F]

/-- `init_aco_node` for a weight (`/repo/src/aco_init.c` 92-145). -/
def freshParticle (x : F) : Particle F := ⟨x, x, 0, 0, 0, none⟩

/-- `set_best_personal_node_fitness_pso` (`/repo/src/aco_process.c` 699-710) for one node. -/
def setPersonal (a : Particle F) : Particle F :=
  if a.scent > a.bestPersonal then { a with bestPersonal := a.scent, best := a.x } else a

/-- The first inner loop of `set_best_global_node_fitness_pso` (`/repo/src/aco_process.c` 718-726) over the nodes at
`b + k`, `k < width`: the best value and the position of its node. `none`: a read outside the array. -/
def scanGroup (l : List (Particle F)) (b : Nat) : Nat → Option (F × Option Nat)
  | 0 => some (-1, none)
  | k + 1 => (scanGroup l b k).bind fun s => (l[b + k]?).bind fun a =>
    if a.bestPersonal > s.1 then some (a.bestPersonal, some (b + k)) else some s

/-- One weight: both inner loops (`/repo/src/aco_process.c` 716-731). -/
def setGroup (width j : Nat) (l : List (Particle F)) : Option (List (Particle F)) :=
  (scanGroup l (j * width) width).map fun s =>
    (List.range width).foldl (fun l k => l.modify (j * width + k) fun a => { a with leader := s.2 }) l

/-- `set_best_global_node_fitness_pso` (`/repo/src/aco_process.c` 712-733) for one layer with `groups = 4 * depth - 3`,
`…_according_to_nodes` (735-756) with `groups = sizes[i] * sizes[i+1]`. The field `best_global`, which
nothing reads, is left out. -/
def setGlobal (width : Nat) : Nat → List (Particle F) → Option (List (Particle F))
  | 0, l => some l
  | g + 1, l => (setGlobal width g l).bind (setGroup width g)

/-- The body of the inner loop of `update_pso_nodes` (`/repo/src/aco_process.c` 795-804) with the draws `r1`, `r2`. `none`:
`best_global_params` is `NULL`. -/
def psoStep (w c1 c2 vmax r1 r2 : F) (l : List (Particle F)) (a : Particle F) : Option (Particle F) :=
  a.leader.bind fun i => (l[i]?).bind fun b =>
    if b.best ≠ a.x then
      let v := w * a.v + c1 * r1 * (a.best - a.x) + c2 * r2 * (b.best - a.x)
      let v := if v > vmax then vmax else v
      let v := if v < -vmax then -vmax else v
      some { a with v := v, x := a.x + v }
    else some a

/-- `update_pso_nodes` (`/repo/src/aco_process.c` 777-809) for one layer; node `n` gets the draws `r n`. The
steps change `x` and `v` only, and read those of no other node. -/
def psoLayer (w c1 c2 vmax : F) (r : Nat → F × F) (l : List (Particle F)) : Option (List (Particle F)) :=
  (List.range l.length).mapM fun n => (l[n]?).bind fun a => psoStep w c1 c2 vmax (r n).1 (r n).2 l a

/-- `update_pso_params` (`/repo/src/aco_process.c` 1127-1136): the inertia. -/
def newInertia (lo hi inertia cur maxIt : F) : F :=
  let i := inertia - (hi - (hi - lo) * 2 * (cur / maxIt))
  let i := if i < lo then lo else i
  if i > hi then hi else i

/-- The masses of `update_gsa_nodes` (`/repo/src/aco_process.c` 938-966): smallest and largest pheromone of the candidates of one
weight, differences scaled to [0,1], divided by their sum. `none`: no candidates, or a division by zero. -/
def masses (scents : List F) : Option (List F) :=
  match scents with
  | [] => none
  | s :: ss =>
    let lo := ss.foldl (fun m x => if x < m then x else m) s
    let hi := ss.foldl (fun m x => if x > m then x else m) s
    if hi - lo = 0 then none
    else
      let ms := (s :: ss).map fun x => (x - lo) / (hi - lo)
      if ms.sum = 0 then none else some (ms.map (· / ms.sum))

end

/-- `c1` and `c2` of `update_pso_params` (`/repo/src/aco_process.c` 1133-1134). -/
noncomputable def psoConstants (cur maxIt : ℝ) : ℝ × ℝ :=
  (-1.5 * Real.cos (3.14 * cur / maxIt) + 2.8, -0.7 * Real.cos (3.14 * cur / maxIt) + 2.04)

/-- `set_pheromone_to_index` (`/repo/src/aco_process.c` 235-239) on the array of `number_of_ants` pheromones. `none`: a
write outside it. -/
def setPheromone {F : Type} (phs : List F) (index : Int) (x : F) : Option (List F) :=
  if index > (phs.length : Int) then some phs
  else if 0 ≤ index ∧ index < (phs.length : Int) then some (phs.set index.toNat x)
  else none

/-! ### Proofs -/

section

variable [Field F] [LinearOrder F] [IsStrictOrderedRing F]

/-- Candidate `i` is the first of the `width` candidates of weight `j` with the largest personal best. -/
def Leads (l : List (Particle F)) (width j i : Nat) : Prop :=
  ∃ k a, k < width ∧ i = j * width + k ∧ l[i]? = some a ∧
    (∀ k' a', k' < width → l[j * width + k']? = some a' → a'.bestPersonal ≤ a.bestPersonal) ∧
    ∀ k' a', k' < k → l[j * width + k']? = some a' → a'.bestPersonal < a.bestPersonal

theorem scanGroup_spec (l : List (Particle F)) (b : Nat) : ∀ n, b + n ≤ l.length →
    (∀ a ∈ l, 0 ≤ a.bestPersonal) →
    ∃ s, scanGroup l b n = some s ∧
      ((n = 0 ∧ s = (-1, none)) ∨ ∃ k a, k < n ∧ s = (a.bestPersonal, some (b + k)) ∧ l[b + k]? = some a ∧
        (∀ k' a', k' < n → l[b + k']? = some a' → a'.bestPersonal ≤ a.bestPersonal) ∧
        ∀ k' a', k' < k → l[b + k']? = some a' → a'.bestPersonal < a.bestPersonal) := by
  intro n
  induction n with
  | zero => intro _ _; exact ⟨_, rfl, Or.inl ⟨rfl, rfl⟩⟩
  | succ n ih =>
    intro h hp
    obtain ⟨s, e, hs⟩ := ih (by omega) hp
    have hlt : b + n < l.length := by omega
    have hg : l[b + n]? = some l[b + n] := List.getElem?_eq_getElem hlt
    have hpos : 0 ≤ l[b + n].bestPersonal := hp _ (List.getElem_mem hlt)
    rw [scanGroup, e, Option.bind_some, hg, Option.bind_some]
    by_cases hc : l[b + n].bestPersonal > s.1
    · rw [if_pos hc]
      refine ⟨_, rfl, Or.inr ⟨n, l[b + n], by omega, rfl, hg, ?_, ?_⟩⟩
      · intro k' a' hk' ha'
        rcases Nat.lt_or_ge k' n with h1 | h1
        · rcases hs with ⟨h2, _⟩ | ⟨k, a, _, h3, _, h4, _⟩
          · omega
          · rw [h3] at hc
            exact (h4 k' a' h1 ha').trans hc.le
        · rw [show k' = n by omega, hg] at ha'
          rw [Option.some.inj ha']
      · intro k' a' hk' ha'
        rcases hs with ⟨h2, _⟩ | ⟨k, a, _, h3, _, h4, _⟩
        · omega
        · rw [h3] at hc
          exact lt_of_le_of_lt (h4 k' a' hk' ha') hc
    · rw [if_neg hc]
      rcases hs with ⟨h2, h3⟩ | ⟨k, a, hk, h3, h4, h5, h6⟩
      · exfalso
        rw [h3] at hc
        apply hc
        show -1 < l[b + n].bestPersonal
        linarith
      · refine ⟨s, rfl, Or.inr ⟨k, a, by omega, h3, h4, ?_, h6⟩⟩
        intro k' a' hk' ha'
        rcases Nat.lt_or_ge k' n with h1 | h1
        · exact h5 k' a' h1 ha'
        · rw [show k' = n by omega, hg] at ha'
          rw [h3] at hc
          rw [← Option.some.inj ha']
          exact not_lt.1 hc

omit [Field F] [LinearOrder F] [IsStrictOrderedRing F] in
theorem modify_range (b : Nat) (f : Particle F → Particle F) : ∀ (n : Nat) (l : List (Particle F)) (i : Nat),
    ((List.range n).foldl (fun l k => l.modify (b + k) f) l)[i]? =
      if b ≤ i ∧ i < b + n then (l[i]?).map f else l[i]? := by
  intro n
  induction n with
  | zero => intro l i; rw [if_neg (by omega)]; rfl
  | succ n ih =>
    intro l i
    rw [List.range_succ, List.foldl_append, List.foldl_cons, List.foldl_nil, List.getElem?_modify, ih]
    by_cases h1 : b + n = i
    · subst h1
      rw [if_neg (by omega), if_pos (by omega)]
      simp
    · simp only [if_neg h1]
      by_cases h2 : b ≤ i ∧ i < b + n
      · rw [if_pos h2, if_pos (by omega)]
        simp
      · rw [if_neg h2, if_neg (by omega)]
        simp

/-- The state after the first `g` weights. -/
theorem setGlobal_spec (width : Nat) (hw : 0 < width) : ∀ (g : Nat) (l : List (Particle F)), g * width ≤ l.length →
    (∀ a ∈ l, 0 ≤ a.bestPersonal) →
    ∃ l', setGlobal width g l = some l' ∧ l'.length = l.length ∧
      (∀ i a, g * width ≤ i → l[i]? = some a → l'[i]? = some a) ∧
      ∀ j k a, j < g → k < width → l[j * width + k]? = some a →
        ∃ i, Leads l width j i ∧ l'[j * width + k]? = some { a with leader := some i } := by
  intro g
  induction g with
  | zero => intro l _ _; exact ⟨l, rfl, rfl, fun i a _ h => h, by intro j k a h; omega⟩
  | succ g ih =>
    intro l hl hp
    have hm := Nat.add_mul g 1 width
    obtain ⟨l1, e1, hlen, h1, h2⟩ := ih l (by omega) hp
    have hsame : ∀ (i : Nat) (a' : Particle F), l1[i]? = some a' → ∃ a, l[i]? = some a ∧ a'.bestPersonal = a.bestPersonal := by
      intro i a' ha'
      have hi : i < l.length := by rw [← hlen]; exact (List.getElem?_eq_some_iff.1 ha').1
      have hg : l[i]? = some l[i] := List.getElem?_eq_getElem hi
      rcases Nat.lt_or_ge i (g * width) with hc | hc
      · have hk := Nat.mod_lt i hw
        have hd : i / width < g := by rw [Nat.div_lt_iff_lt_mul hw]; exact hc
        have he : i = i / width * width + i % width := by
          have := Nat.div_add_mod i width; rw [Nat.mul_comm] at this; omega
        obtain ⟨n, _, h3⟩ := h2 (i / width) (i % width) l[i] hd hk (by rw [← he]; exact hg)
        rw [← he, ha'] at h3
        exact ⟨l[i], hg, by rw [Option.some.inj h3]⟩
      · have h3 := h1 i l[i] hc hg
        rw [ha'] at h3
        exact ⟨l[i], hg, by rw [Option.some.inj h3]⟩
    have hp1 : ∀ a ∈ l1, 0 ≤ a.bestPersonal := by
      intro a ha
      obtain ⟨i, hi⟩ := List.getElem?_of_mem ha
      obtain ⟨a0, h3, h4⟩ := hsame i a hi
      rw [h4]
      exact hp a0 (List.mem_of_getElem? h3)
    obtain ⟨s, e2, hs⟩ := scanGroup_spec l1 (g * width) width (by omega) hp1
    rcases hs with ⟨h3, _⟩ | ⟨k, a, hk, h3, h4, h5, h6⟩
    · omega
    have hblock : ∀ k', k' < width → l1[g * width + k']? = l[g * width + k']? := by
      intro k' hk'
      have hi : g * width + k' < l.length := by omega
      rw [List.getElem?_eq_getElem hi]
      exact h1 _ _ (by omega) (List.getElem?_eq_getElem hi)
    have hleads : Leads l width g (g * width + k) := by
      refine ⟨k, a, hk, rfl, by rw [← hblock k hk]; exact h4, ?_, ?_⟩
      · intro k' a' hk' ha'
        exact h5 k' a' hk' (by rw [hblock k' hk']; exact ha')
      · intro k' a' hk' ha'
        exact h6 k' a' hk' (by rw [hblock k' (by omega)]; exact ha')
    refine ⟨_, by rw [setGlobal, e1, Option.bind_some, setGroup, e2, Option.map_some], ?_, ?_, ?_⟩
    · rw [← hlen]
      generalize List.range width = ks
      clear e2 hblock h1 h2 hsame hp1 h4 h5 h6 hlen e1
      induction ks generalizing l1 with
      | nil => rfl
      | cons x xs ihx => rw [List.foldl_cons, ihx]; simp
    · intro i a' hi ha'
      rw [modify_range, if_neg (by omega)]
      exact h1 i a' (by omega) ha'
    · intro j k' a' hj hk' ha'
      rw [modify_range]
      rcases Nat.lt_or_ge j g with hjg | hjg
      · have : j * width + k' < g * width := by
          have h7 : (j + 1) * width ≤ g * width := Nat.mul_le_mul_right width hjg
          have := Nat.add_mul j 1 width
          omega
        rw [if_neg (by omega)]
        exact h2 j k' a' hjg hk' ha'
      · have : j = g := by omega
        subst this
        refine ⟨j * width + k, hleads, ?_⟩
        rw [if_pos (by omega), hblock k' hk', ha', h3]
        rfl

/-- **C108 (leaders).** `set_best_global_node_fitness_pso_according_to_nodes`: in every layer all candidates of a weight get as
leader the first of them with the largest personal best; nothing else changes. -/
theorem C108_leaders (width cells : Nat) (hw : 0 < width) (l : List (Particle F)) (hl : l.length = cells * width)
    (hp : ∀ a ∈ l, 0 ≤ a.bestPersonal) :
    ∃ l', setGlobal width cells l = some l' ∧ l'.length = l.length ∧
      ∀ j k a, j < cells → k < width → l[j * width + k]? = some a →
        ∃ i, Leads l width j i ∧ l'[j * width + k]? = some { a with leader := some i } := by
  obtain ⟨l', e, h1, _, h2⟩ := setGlobal_spec width hw cells l (by omega) hp
  exact ⟨l', e, h1, h2⟩

example : (setGlobal 2 2 [⟨1, 1, 3, 0, 0, none⟩, ⟨2, 2, 5, 0, 0, none⟩, ⟨3, 3, 4, 0, 0, none⟩, ⟨4, 4, 4, 0, 0, none⟩] :
    Option (List (Particle ℚ))).map (fun l => l.map (·.leader)) = some [some 1, some 1, some 2, some 2] := by
  decide +kernel

/-- **C108 (refuted for the edge version).** `set_best_global_node_fitness_pso` handles `4 * depth - 3` weights, whatever the
size of the layer: with the smallest depth allowed, a layer with fewer than nine weights is read outside its array, and in a layer with
ten weights the last one has no leader, so that the following `update_pso_nodes` reads through `NULL`. -/
theorem C108_depth_refuted :
    (∀ cells, cells < 9 → setGlobal 1 (4 * 3 - 3) (List.replicate cells (freshParticle (1 : ℚ))) = none) ∧
    (setGlobal 1 (4 * 3 - 3) (List.replicate 10 (freshParticle (1 : ℚ)))).isSome = true ∧
    (setGlobal 1 (4 * 3 - 3) (List.replicate 10 (freshParticle (1 : ℚ)))).bind
      (psoLayer 1 1 1 1 fun _ => (0, 0)) = none := by
  refine ⟨?_, by decide +kernel, by decide +kernel⟩
  decide +kernel

/-- **C108 (partial, the edge version).** It is right exactly for layers with `4 * depth - 3` weights. Missing: all
others (`C108_depth_refuted`). -/
theorem C108_depth_partial (width cells depth : Nat) (hw : 0 < width) (hd : 4 * depth - 3 = cells) (l : List (Particle F))
    (hl : l.length = cells * width) (hp : ∀ a ∈ l, 0 ≤ a.bestPersonal) :
    ∃ l', setGlobal width (4 * depth - 3) l = some l' ∧ l'.length = l.length ∧
      ∀ j k a, j < cells → k < width → l[j * width + k]? = some a →
        ∃ i, Leads l width j i ∧ l'[j * width + k]? = some { a with leader := some i } := by
  rw [hd]
  exact C108_leaders width cells hw l hl hp

theorem psoStep_spec (w c1 c2 vmax r1 r2 : F) (hv : 0 ≤ vmax) (l : List (Particle F)) (a a' : Particle F)
    (e : psoStep w c1 c2 vmax r1 r2 l a = some a') :
    a'.best = a.best ∧ a'.bestPersonal = a.bestPersonal ∧ a'.scent = a.scent ∧ a'.leader = a.leader ∧
      |a'.x - a.x| ≤ vmax ∧ (|a.v| ≤ vmax → |a'.v| ≤ vmax) ∧
      ∀ i b, a.leader = some i → l[i]? = some b → (b.best = a.x → a' = a) ∧ (b.best ≠ a.x →
        a'.v = max (-vmax) (min vmax (w * a.v + c1 * r1 * (a.best - a.x) + c2 * r2 * (b.best - a.x))) ∧ a'.x = a.x + a'.v) := by
  rw [psoStep] at e
  obtain ⟨i, e1, e⟩ := Option.bind_eq_some_iff.1 e
  obtain ⟨b, e2, e⟩ := Option.bind_eq_some_iff.1 e
  have clip : ∀ v : F, |(if (if v > vmax then vmax else v) < -vmax then -vmax else if v > vmax then vmax else v)| ≤ vmax := by
    intro v
    rw [abs_le]
    split_ifs <;> constructor <;> linarith
  have clip' : ∀ v : F, (if (if v > vmax then vmax else v) < -vmax then -vmax else if v > vmax then vmax else v) =
      max (-vmax) (min vmax v) := by
    intro v
    by_cases h1 : v > vmax
    · rw [if_pos h1, if_neg (by linarith), min_eq_left h1.le, max_eq_right (by linarith)]
    · rw [if_neg h1, min_eq_right (not_lt.1 h1)]
      by_cases h2 : v < -vmax
      · rw [if_pos h2, max_eq_left h2.le]
      · rw [if_neg h2, max_eq_right (not_lt.1 h2)]
  by_cases hc : b.best ≠ a.x
  · rw [if_pos hc] at e
    cases e
    refine ⟨rfl, rfl, rfl, rfl, ?_, fun _ => clip _, ?_⟩
    · dsimp only
      rw [add_sub_cancel_left]
      exact clip _
    · intro i' b' h1 h2
      rw [e1] at h1
      cases h1
      rw [e2] at h2
      cases h2
      exact ⟨fun h3 => absurd h3 hc, fun _ => ⟨clip' _, rfl⟩⟩
  · rw [if_neg hc] at e
    cases e
    refine ⟨rfl, rfl, rfl, rfl, by simpa using hv, id, ?_⟩
    intro i' b' h1 h2
    rw [e1] at h1
    cases h1
    rw [e2] at h2
    cases h2
    exact ⟨fun _ => rfl, fun h3 => absurd h3 hc⟩

omit [Field F] [LinearOrder F] [IsStrictOrderedRing F] in
theorem mapM_some {α β : Type} (f : α → Option β) : ∀ l : List α, (∀ a ∈ l, ∃ b, f a = some b) →
    ∃ r, l.mapM f = some r ∧ r.length = l.length ∧ ∀ (i : Nat) (a : α), l[i]? = some a → ∃ b, f a = some b ∧ r[i]? = some b := by
  intro l
  induction l with
  | nil => intro _; exact ⟨[], by simp, rfl, by simp⟩
  | cons x xs ih =>
    intro h
    obtain ⟨b, hb⟩ := h x (by simp)
    obtain ⟨r, e, hl, hr⟩ := ih (fun a ha => h a (by simp [ha]))
    refine ⟨b :: r, by simp [hb, e], by simp [hl], ?_⟩
    intro i a ha
    cases i with
    | zero => simp at ha; subst ha; exact ⟨b, hb, rfl⟩
    | succ i => simp at ha; exact hr i a ha

/-- **C108 (one swarm step).** After the leaders are set, `update_pso_nodes` is defined for every draw; no value moves by more than `v_max`,
velocities stay within it, the personal bests are kept, a candidate already at the value of its leader does not move, and any other
moves by its old velocity times the inertia plus the random pulls towards its own best and its leader's best, clipped to `v_max`. -/
theorem C108_pso (width cells : Nat) (hw : 0 < width) (l : List (Particle F)) (hl : l.length = cells * width)
    (hp : ∀ a ∈ l, 0 ≤ a.bestPersonal) (w c1 c2 vmax : F) (hv : 0 ≤ vmax) (hvs : ∀ a ∈ l, |a.v| ≤ vmax)
    (r : Nat → F × F) :
    ∃ l' l'', setGlobal width cells l = some l' ∧ psoLayer w c1 c2 vmax r l' = some l'' ∧ l''.length = l.length ∧
      ∀ n a a', l[n]? = some a → l''[n]? = some a' →
        a'.best = a.best ∧ a'.bestPersonal = a.bestPersonal ∧ |a'.x - a.x| ≤ vmax ∧ |a'.v| ≤ vmax ∧
        ∀ i b, Leads l width (n / width) i → l[i]? = some b → (b.best = a.x → a'.x = a.x ∧ a'.v = a.v) ∧ (b.best ≠ a.x →
          a'.v = max (-vmax) (min vmax (w * a.v + c1 * (r n).1 * (a.best - a.x) + c2 * (r n).2 * (b.best - a.x))) ∧
          a'.x = a.x + a'.v) := by
  obtain ⟨l', e, hlen, h2⟩ := C108_leaders width cells hw l hl hp
  have hpos : ∀ n, n < l.length → n / width < cells ∧ n % width < width ∧ n = n / width * width + n % width := by
    intro n hn
    refine ⟨by rw [Nat.div_lt_iff_lt_mul hw]; omega, Nat.mod_lt n hw, ?_⟩
    have := Nat.div_add_mod n width; rw [Nat.mul_comm] at this; omega
  have hat : ∀ n a, l[n]? = some a → ∃ i, Leads l width (n / width) i ∧ l'[n]? = some { a with leader := some i } := by
    intro n a ha
    obtain ⟨h3, h4, h5⟩ := hpos n (List.getElem?_eq_some_iff.1 ha).1
    obtain ⟨i, h6, h7⟩ := h2 (n / width) (n % width) a h3 h4 (by rw [← h5]; exact ha)
    exact ⟨i, h6, by rw [← h5] at h7; exact h7⟩
  obtain ⟨l'', e2, hlen2, h3⟩ := mapM_some (fun n => (l'[n]?).bind fun a => psoStep w c1 c2 vmax (r n).1 (r n).2 l' a)
    (List.range l'.length) (by
      intro n hn
      have hn : n < l.length := by rw [← hlen]; exact List.mem_range.1 hn
      obtain ⟨i, ⟨k, b, _, _, hb, _⟩, h7⟩ := hat n l[n] (List.getElem?_eq_getElem hn)
      obtain ⟨i', _, h8⟩ := hat i b hb
      rw [h7, Option.bind_some, psoStep, Option.bind_some, h8, Option.bind_some]
      split_ifs
      · exact ⟨_, rfl⟩
      · exact ⟨_, rfl⟩)
  refine ⟨l', l'', e, e2, by rw [hlen2, List.length_range, hlen], ?_⟩
  intro n a a' ha ha'
  have hn : n < l.length := (List.getElem?_eq_some_iff.1 ha).1
  obtain ⟨i, h6, h7⟩ := hat n a ha
  obtain ⟨b, h8, h9⟩ := h3 n n (by rw [List.getElem?_range]; omega)
  rw [ha'] at h9
  cases h9
  rw [h7, Option.bind_some] at h8
  obtain ⟨q1, q2, _, _, q3, q4, q5⟩ := psoStep_spec w c1 c2 vmax _ _ hv l' _ _ h8
  refine ⟨q1, q2, q3, q4 (hvs a (List.mem_of_getElem? ha)), ?_⟩
  intro i2 b2 hi2 hb2
  obtain ⟨k1, a1, p1, p2, p3, p4, p5⟩ := h6
  obtain ⟨k2, a2, s1, s2, s3, s4, s5⟩ := hi2
  have hk : k1 = k2 := by
    rcases Nat.lt_trichotomy k1 k2 with h | h | h
    · have := s5 k1 a1 h (by rw [← p2]; exact p3)
      have := p4 k2 a2 s1 (by rw [← s2]; exact s3)
      exact absurd (lt_of_le_of_lt this ‹_›) (lt_irrefl _)
    · exact h
    · have := p5 k2 a2 h (by rw [← s2]; exact s3)
      have := s4 k1 a1 p1 (by rw [← p2]; exact p3)
      exact absurd (lt_of_le_of_lt this ‹_›) (lt_irrefl _)
  have hii : i = i2 := by rw [p2, s2, hk]
  subst hii
  obtain ⟨i3, _, h10⟩ := hat i b2 hb2
  obtain ⟨t1, t2⟩ := q5 i _ rfl h10
  exact ⟨fun h => by rw [t1 h]; exact ⟨rfl, rfl⟩, fun h => t2 h⟩

example : ((setGlobal 2 1 [⟨1, 1, 3, 0, 0, none⟩, ⟨2, 2, 5, 0, 0, none⟩]).bind
    (psoLayer (1 / 2) 1 2 (1 / 4) fun _ => (1, 1)) : Option (List (Particle ℚ))).map (fun l => l.map fun a => (a.x, a.v)) =
    some [(5 / 4, 1 / 4), (2, 0)] := by
  decide +kernel

/-- A history of one candidate: each round it has some pheromone and value, and the personal best is updated. -/
def personalAfter (x0 : F) (rounds : List (F × F)) : Particle F :=
  rounds.foldl (fun a r => setPersonal { a with scent := r.1, x := r.2 }) (freshParticle x0)

omit [IsStrictOrderedRing F] in
/-- **C109.** Over any history of pheromones and moves the personal best of a candidate is the largest pheromone it ever had and
the value it had then (or zero and its initial value, if it never had any pheromone). -/
theorem C109_personal_best (x0 : F) (rounds : List (F × F)) :
    (∀ r ∈ rounds, r.1 ≤ (personalAfter x0 rounds).bestPersonal) ∧ 0 ≤ (personalAfter x0 rounds).bestPersonal ∧
    (((personalAfter x0 rounds).bestPersonal, (personalAfter x0 rounds).best) ∈ rounds ∨
      ((personalAfter x0 rounds).bestPersonal = 0 ∧ (personalAfter x0 rounds).best = x0)) := by
  induction rounds using List.reverseRecOn with
  | nil => exact ⟨by simp, le_rfl, Or.inr ⟨rfl, rfl⟩⟩
  | append_singleton rs r ih =>
    obtain ⟨h1, h2, h3⟩ := ih
    have e : personalAfter x0 (rs ++ [r]) = setPersonal { personalAfter x0 rs with scent := r.1, x := r.2 } := by
      rw [personalAfter, List.foldl_append]; rfl
    rw [e, setPersonal]
    by_cases hc : r.1 > (personalAfter x0 rs).bestPersonal
    · rw [if_pos hc]
      refine ⟨?_, h2.trans hc.le, Or.inl (by simp)⟩
      intro q hq
      rcases List.mem_append.1 hq with hq | hq
      · exact (h1 q hq).trans hc.le
      · rw [List.mem_singleton.1 hq]
    · rw [if_neg hc]
      refine ⟨?_, h2, ?_⟩
      · intro q hq
        rcases List.mem_append.1 hq with hq | hq
        · exact h1 q hq
        · rw [List.mem_singleton.1 hq]; exact not_lt.1 hc
      · rcases h3 with h3 | h3
        · exact Or.inl (List.mem_append_left _ h3)
        · exact Or.inr h3

example : (personalAfter (7 : ℚ) [(2, 1), (5, 3), (4, 9)]).best = 3 := by decide +kernel

omit [IsStrictOrderedRing F] in
/-- **C109 (inertia).** The inertia stays between its bounds, whatever the iteration. -/
theorem C109_inertia (lo hi inertia cur maxIt : F) (h : lo ≤ hi) :
    lo ≤ newInertia lo hi inertia cur maxIt ∧ newInertia lo hi inertia cur maxIt ≤ hi := by
  unfold newInertia
  dsimp only
  split_ifs with h1 h2 h3
  · exact ⟨h, le_rfl⟩
  · exact ⟨le_rfl, h⟩
  · exact ⟨h, le_rfl⟩
  · exact ⟨not_lt.1 h1, not_lt.1 h3⟩

/-- **C110 (partial).** If the candidates of a weight do not all have the same pheromone, their masses are not negative, add up to
one, the candidate with the least pheromone weighs nothing, and more pheromone never weighs less. Missing: equal pheromones. -/
theorem C110_masses_partial (scents : List F) (h : ∃ x ∈ scents, ∃ y ∈ scents, x < y) :
    ∃ ms, masses scents = some ms ∧ ms.length = scents.length ∧ (∀ m ∈ ms, 0 ≤ m) ∧ ms.sum = 1 ∧
      (∀ (i j : Nat) (x y m n : F), scents[i]? = some x → scents[j]? = some y → ms[i]? = some m → ms[j]? = some n → x ≤ y → m ≤ n) ∧
      ∀ (i : Nat) (x m : F), scents[i]? = some x → ms[i]? = some m → (∀ y ∈ scents, x ≤ y) → m = 0 := by
  have hmin : ∀ (ss : List F) (s : F), (∀ x ∈ s :: ss, ss.foldl (fun m x => if x < m then x else m) s ≤ x) ∧
      ss.foldl (fun m x => if x < m then x else m) s ∈ s :: ss := by
    intro ss
    induction ss with
    | nil => intro s; simp
    | cons y ys ih =>
      intro s
      rw [List.foldl_cons]
      by_cases hc : y < s
      · rw [if_pos hc]
        obtain ⟨h1, h2⟩ := ih y
        refine ⟨?_, List.mem_cons_of_mem _ h2⟩
        intro x hx
        rcases List.mem_cons.1 hx with rfl | hx
        · exact (h1 y (by simp)).trans hc.le
        · exact h1 x hx
      · rw [if_neg hc]
        obtain ⟨h1, h2⟩ := ih s
        refine ⟨?_, ?_⟩
        · intro x hx
          rcases List.mem_cons.1 hx with rfl | hx
          · exact h1 x (by simp)
          · rcases List.mem_cons.1 hx with rfl | hx
            · exact (h1 s (by simp)).trans (not_lt.1 hc)
            · exact h1 x (by simp [hx])
        · rcases List.mem_cons.1 h2 with h2 | h2
          · rw [h2]; simp
          · simp [h2]
  have hmax : ∀ (ss : List F) (s : F), (∀ x ∈ s :: ss, x ≤ ss.foldl (fun m x => if x > m then x else m) s) ∧
      ss.foldl (fun m x => if x > m then x else m) s ∈ s :: ss := by
    intro ss
    induction ss with
    | nil => intro s; simp
    | cons y ys ih =>
      intro s
      rw [List.foldl_cons]
      by_cases hc : y > s
      · rw [if_pos hc]
        obtain ⟨h1, h2⟩ := ih y
        refine ⟨?_, List.mem_cons_of_mem _ h2⟩
        intro x hx
        rcases List.mem_cons.1 hx with rfl | hx
        · exact hc.le.trans (h1 y (by simp))
        · exact h1 x hx
      · rw [if_neg hc]
        obtain ⟨h1, h2⟩ := ih s
        refine ⟨?_, ?_⟩
        · intro x hx
          rcases List.mem_cons.1 hx with rfl | hx
          · exact h1 x (by simp)
          · rcases List.mem_cons.1 hx with rfl | hx
            · exact (not_lt.1 hc).trans (h1 s (by simp))
            · exact h1 x (by simp [hx])
        · rcases List.mem_cons.1 h2 with h2 | h2
          · rw [h2]; simp
          · simp [h2]
  obtain ⟨x, hx, y, hy, hxy⟩ := h
  cases scents with
  | nil => simp at hx
  | cons s ss =>
    obtain ⟨l1, l2⟩ := hmin ss s
    obtain ⟨u1, u2⟩ := hmax ss s
    have hd : 0 < ss.foldl (fun m x => if x > m then x else m) s - ss.foldl (fun m x => if x < m then x else m) s := by
      have := l1 x hx
      have := u1 y hy
      linarith
    rw [masses]
    dsimp only
    rw [if_neg hd.ne']
    generalize ss.foldl (fun m x => if x < m then x else m) s = lo at *
    generalize ss.foldl (fun m x => if x > m then x else m) s = hi at *
    have hnn : ∀ m ∈ (s :: ss).map (fun x => (x - lo) / (hi - lo)), 0 ≤ m := by
      intro m hm
      obtain ⟨z, hz, rfl⟩ := List.mem_map.1 hm
      exact div_nonneg (by linarith [l1 z hz]) hd.le
    have hpos : 0 < ((s :: ss).map (fun x => (x - lo) / (hi - lo))).sum := by
      have h1 : (hi - lo) / (hi - lo) ≤ ((s :: ss).map (fun x => (x - lo) / (hi - lo))).sum :=
        List.single_le_sum hnn _ (List.mem_map.2 ⟨hi, u2, rfl⟩)
      rw [div_self hd.ne'] at h1
      linarith
    rw [if_neg hpos.ne']
    generalize hS : ((s :: ss).map (fun x => (x - lo) / (hi - lo))).sum = S at *
    refine ⟨_, rfl, by simp, ?_, ?_, ?_, ?_⟩
    · intro m hm
      obtain ⟨z, hz, rfl⟩ := List.mem_map.1 hm
      exact div_nonneg (hnn z hz) hpos.le
    · have hdiv : ∀ l : List F, (l.map (· / S)).sum = l.sum / S := by
        intro l
        induction l with
        | nil => simp
        | cons x xs ih => rw [List.map_cons, List.sum_cons, ih, List.sum_cons, add_div]
      rw [hdiv, hS, div_self hpos.ne']
    · intro i j x' y' m n e1 e2 e3 e4 hle
      rw [List.getElem?_map, List.getElem?_map, e1] at e3
      rw [List.getElem?_map, List.getElem?_map, e2] at e4
      cases e3
      cases e4
      exact div_le_div_of_nonneg_right (div_le_div_of_nonneg_right (by linarith) hd.le) hpos.le
    · intro i x' m e1 e3 hall
      rw [List.getElem?_map, List.getElem?_map, e1] at e3
      cases e3
      have h1 := hall lo l2
      have h2 := l1 x' (List.mem_of_getElem? e1)
      rw [show x' = lo from le_antisymm h1 h2]
      simp

example : masses [(1 : ℚ), 3, 2] = some [0, 2 / 3, 1 / 3] := by decide +kernel

omit [IsStrictOrderedRing F] in
/-- **C110 (refuted).** `init_aco` gives all nodes the same pheromone; until the ants have made a difference the masses are zero divided by zero. -/
theorem C110_masses_refuted (x : F) (n : Nat) : masses (List.replicate (n + 1) x) = none := by
  have h : ∀ (ss : List F), (∀ y ∈ ss, y = x) → ss.foldl (fun m x => if x < m then x else m) x = x ∧
      ss.foldl (fun m x => if x > m then x else m) x = x := by
    intro ss
    induction ss with
    | nil => intro _; exact ⟨rfl, rfl⟩
    | cons y ys ih =>
      intro hy
      have e := hy y (by simp)
      subst e
      rw [List.foldl_cons, List.foldl_cons, if_neg (lt_irrefl _)]
      exact ih fun z hz => hy z (by simp [hz])
  obtain ⟨h1, h2⟩ := h (List.replicate n x) (fun y hy => (List.mem_replicate.1 hy).2)
  rw [List.replicate_succ, masses]
  dsimp only
  rw [h1, h2, if_pos (sub_self x)]

end

/-- **C104 (reporting, partial).** For the index of an ant its pheromone is stored and no other changes; a larger index than the
number of ants is ignored. Missing: the number of ants itself (`C104_report_refuted`). -/
theorem C104_report_partial {F : Type} (phs : List F) (x : F) :
    (∀ k : Nat, k < phs.length → ∃ r, setPheromone phs k x = some r ∧ r.length = phs.length ∧ r[k]? = some x ∧
      ∀ i, i ≠ k → r[i]? = phs[i]?) ∧
    ∀ k : Nat, phs.length < k → setPheromone phs k x = some phs := by
  constructor
  · intro k hk
    refine ⟨phs.set k x, ?_, by simp, by simp [hk], ?_⟩
    · rw [setPheromone, if_neg (by omega), if_pos (by omega), Int.toNat_natCast]
    · intro i hi
      rw [List.getElem?_set_ne (fun h => hi h.symm)]
  · intro k hk
    rw [setPheromone, if_pos (by omega)]

/-- **C104 (reporting, refuted).** The index equal to the number of ants passes the check and is written outside the array. -/
theorem C104_report_refuted {F : Type} (phs : List F) (x : F) : setPheromone phs phs.length x = none := by
  rw [setPheromone, if_neg (by omega), if_neg (by omega)]

/-- **C109 (constants).** The pull towards the own best stays in [1.3, 4.3], the pull towards the leader in [1.34, 2.74]. -/
theorem C109_constants (cur maxIt : ℝ) :
    1.3 ≤ (psoConstants cur maxIt).1 ∧ (psoConstants cur maxIt).1 ≤ 4.3 ∧
    1.34 ≤ (psoConstants cur maxIt).2 ∧ (psoConstants cur maxIt).2 ≤ 2.74 := by
  have h1 := Real.neg_one_le_cos (3.14 * cur / maxIt)
  have h2 := Real.cos_le_one (3.14 * cur / maxIt)
  unfold psoConstants
  dsimp only
  refine ⟨by linarith, by linarith, by linarith, by linarith⟩

end LLab.Aco
