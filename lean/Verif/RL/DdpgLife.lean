import Verif.Aco.NodeLife

/-!
Property C177: the life of a deep deterministic policy gradient learner: `init_ddpg` and `free_ddpg` (`/repo/src/drl.c` 69-261).

The memory is that of `Verif.Aco.NodeLife`. A network counts as one block: `copy_model` makes one and `free_model` frees one. Numbers
kept in the learner are left out. `none` is undefined behaviour.
-/

namespace LLab.RL.DdpgLife

open LLab.Aco.NodeLife

/-! ### Model -/

/-- What `init_ddpg` looks at in a network: its block, whether its error was set, and the kinds of its layers, the first entries of the rows of
`sla`. -/
structure Mod where
  adr : Nat
  errorSet : Bool
  sla : List Nat

/-- `RLS` (`/repo/src/llab.h`). -/
def RLS : Nat := 3

/-- The check that the last layer is not residual, for one network (`/repo/src/drl.c` 83-91, 93-101, 103-111, 113-121): is it refused? -/
def refused (sla : List Nat) : Option Bool :=
  let i := (sla.takeWhile fun x => x ≠ 0).length
  if i = sla.length then
    if i = 0 then none else (sla[i - 1]?).bind fun x => some (x == RLS)
  else (sla[i]?).bind fun x => some (x == RLS)

/-- The four checks in their order; the first network that is refused ends the program. -/
def anyRefused : List Mod → Option Bool
  | [] => some false
  | m :: ms => (refused m.sla).bind fun r => if r then some true else anyRefused ms

/-- `k` calls of `malloc`. -/
def allocs : Nat → Heap → Heap × List Nat
  | 0, h => (h, [])
  | k + 1, h => let r := allocs k h.alloc
    (r.1, h.next :: r.2)

/-- A loop of `n` rounds with `k` calls of `malloc` or `copy_model` each. -/
def rounds (k : Nat) : Nat → Heap → Heap × List (List Nat)
  | 0, h => (h, [])
  | n + 1, h => let a := allocs k h
    let r := rounds k n a.1
    (r.1, a.2 :: r.2)

/-- `ddpg` (`/repo/src/llab.h`): the four networks; the eight arrays `tm1`, …, `bm4` and what they hold, a row for each place in the batch; the
seven arrays of outputs; `buff1`, `buff2`, `actions`, `terminal` and `rewards`, and the rows of the first three, a row for each frame. -/
structure Ddpg where
  adr : Nat
  nets : List Nat
  arrays : List Nat
  copies : List (List Nat)
  outputs : List Nat
  buffers : List Nat
  frames : List (List Nat)

/-- The part of `init_ddpg` after the checks (`/repo/src/drl.c` 128-206). -/
def build (nets : List Nat) (batch maxFrames : Nat) (h : Heap) : Heap × Ddpg :=
  let a := allocs 8 h.alloc
  let o := allocs 7 a.1
  let c := rounds 8 batch o.1
  let b := allocs 5 c.1
  let f := rounds 3 maxFrames b.1
  (f.1, ⟨h.next, nets, a.2, c.2, o.2, b.2, f.2⟩)

/-- `init_ddpg` (`/repo/src/drl.c` 69-208); a network is `none` if it is null, the result `some none` if the program ends with an error. -/
def init (m1 m2 m3 m4 : Option Mod) (batch m1Input buffSize maxFrames : Nat) (h : Heap) : Option (Option (Heap × Ddpg)) :=
  match m1, m2, m3, m4 with
  | some a, some b, some c, some d =>
    if !a.errorSet || !b.errorSet || !c.errorSet || !d.errorSet then some none
    else (anyRefused [a, b, c, d]).bind fun r =>
      if r then some none
      else if buffSize ≠ m1Input then some none
      else some (some (build [a.adr, b.adr, c.adr, d.adr] batch maxFrames h))
  | _, _, _, _ => some none

/-- `free_ddpg` (`/repo/src/drl.c` 216-261). -/
def freeDdpg (d : Ddpg) (h : Heap) : Option Heap :=
  freeList (d.copies.flatten ++ (d.arrays ++ (d.nets ++ (d.frames.flatten ++ (d.buffers ++ [d.adr]))))) h

/-! ### Lemmas -/

theorem grow_refl (h : Heap) : Grow h h [] := ⟨List.nodup_nil, by simp, Nat.le_refl _, by simp⟩

theorem grow_allocs : ∀ (k : Nat) (h : Heap), Grow h (allocs k h).1 (allocs k h).2 ∧ (allocs k h).2.length = k
  | 0, h => ⟨grow_refl h, rfl⟩
  | k + 1, h => ⟨(grow_alloc h).trans (grow_allocs k h.alloc).1, congrArg (· + 1) (grow_allocs k h.alloc).2⟩

theorem grow_rounds (k : Nat) : ∀ (n : Nat) (h : Heap), Grow h (rounds k n h).1 (rounds k n h).2.flatten ∧ (rounds k n h).2.length = n ∧
    ∀ r ∈ (rounds k n h).2, r.length = k
  | 0, h => ⟨grow_refl h, rfl, fun r hr => by cases hr⟩
  | n + 1, h => by
    obtain ⟨g, hl⟩ := grow_allocs k h
    obtain ⟨g', hl', hr⟩ := grow_rounds k n (allocs k h).1
    refine ⟨?_, congrArg (· + 1) hl', ?_⟩
    · show Grow h _ ((allocs k h).2 ++ (rounds k n (allocs k h).1).2.flatten)
      exact g.trans g'
    · intro r hm
      rcases List.mem_cons.mp hm with rfl | hm
      · exact hl
      · exact hr r hm

theorem takeWhile_all (l : List Nat) (h : ∀ x ∈ l, x ≠ 0) : (l.takeWhile fun x => x ≠ 0) = l := by
  induction l with
  | nil => rfl
  | cons a l ih => rw [List.takeWhile_cons_of_pos (by simpa using h a (by simp)), ih fun x hx => h x (by simp [hx])]

theorem refused_full (sla : List Nat) (x : Nat) (h : ∀ y ∈ sla ++ [x], y ≠ 0) : refused (sla ++ [x]) = some (x == RLS) := by
  unfold refused
  rw [takeWhile_all _ h, if_pos rfl, if_neg (by simp)]
  simp

/-- The network has layers, none of them of the kind 0, and the last is of the kind `x`. -/
def Ends (m : Mod) (x : Nat) : Prop := ∃ l, m.sla = l ++ [x] ∧ ∀ y ∈ l ++ [x], y ≠ 0

theorem refused_ends (m : Mod) (x : Nat) (h : Ends m x) : refused m.sla = some (x == RLS) := by
  obtain ⟨l, e, h⟩ := h
  rw [e]
  exact refused_full l x h

theorem init_build (m1 m2 m3 m4 : Option Mod) (batch m1Input buffSize maxFrames : Nat) (h0 h : Heap) (d : Ddpg)
    (hi : init m1 m2 m3 m4 batch m1Input buffSize maxFrames h0 = some (some (h, d)))
    (nets : List Nat) (hm : nets = ([m1, m2, m3, m4].filterMap id).map Mod.adr) : (h, d) = build nets batch maxFrames h0 := by
  unfold init at hi
  match m1, m2, m3, m4, hm, hi with
  | some a, some b, some c, some e, hm, hi =>
    dsimp only at hi
    split at hi
    · cases hi
    · obtain ⟨r, _, hi⟩ := Option.bind_eq_some_iff.mp hi
      split at hi
      · cases hi
      · split at hi
        · cases hi
        · injection hi with hi
          injection hi with hi
          rw [hm]
          exact hi.symm
  | none, _, _, _, _, hi => cases hi
  | some _, none, _, _, _, hi => cases hi
  | some _, some _, none, _, _, hi => cases hi
  | some _, some _, some _, none, _, hi => cases hi

/-! ### Theorems -/

/-- With four networks whose rows of layers are all used, the learner is made if and only if every error was set, no last layer is residual, and
the size of a frame is that of the input of the first network; otherwise the program ends with an error. -/
theorem C177_checks_partial (a b c d : Mod) (xa xb xc xd : Nat) (ha : Ends a xa) (hb : Ends b xb) (hc : Ends c xc) (hd : Ends d xd)
    (batch m1Input buffSize maxFrames : Nat) (h : Heap) :
    ∃ r, init (some a) (some b) (some c) (some d) batch m1Input buffSize maxFrames h = some r ∧
      (r.isSome = true ↔ (a.errorSet = true ∧ b.errorSet = true ∧ c.errorSet = true ∧ d.errorSet = true) ∧
        (xa ≠ RLS ∧ xb ≠ RLS ∧ xc ≠ RLS ∧ xd ≠ RLS) ∧ buffSize = m1Input) := by
  unfold init
  dsimp only
  by_cases he : (!a.errorSet || !b.errorSet || !c.errorSet || !d.errorSet) = true
  · rw [if_pos he]
    refine ⟨none, rfl, by simp, ?_⟩
    rintro ⟨⟨e1, e2, e3, e4⟩, _⟩
    rw [e1, e2, e3, e4] at he
    simp at he
  · rw [if_neg he]
    have he' : a.errorSet = true ∧ b.errorSet = true ∧ c.errorSet = true ∧ d.errorSet = true := by
      cases h1 : a.errorSet <;> cases h2 : b.errorSet <;> cases h3 : c.errorSet <;> cases h4 : d.errorSet <;> simp_all
    simp only [anyRefused, refused_ends a xa ha, refused_ends b xb hb, refused_ends c xc hc, refused_ends d xd hd, Option.bind_some]
    by_cases h1 : xa = RLS
    · subst h1; exact ⟨none, rfl, by simp⟩
    by_cases h2 : xb = RLS
    · subst h2; refine ⟨none, ?_, by simp⟩
      simp [h1]
    by_cases h3 : xc = RLS
    · subst h3; refine ⟨none, ?_, by simp⟩
      simp [h1, h2]
    by_cases h4 : xd = RLS
    · subst h4; refine ⟨none, ?_, by simp⟩
      simp [h1, h2, h3]
    by_cases h5 : buffSize = m1Input
    · refine ⟨some (build [a.adr, b.adr, c.adr, d.adr] batch maxFrames h), ?_, by simp [he', h1, h2, h3, h4, h5]⟩
      simp [h1, h2, h3, h4, h5]
    · refine ⟨none, ?_, by simp [h5]⟩
      simp [h1, h2, h3, h4, h5]

/-- A null network ends the program with an error. -/
theorem C177_null (m1 m2 m3 m4 : Option Mod) (batch m1Input buffSize maxFrames : Nat) (h : Heap)
    (hn : m1 = none ∨ m2 = none ∨ m3 = none ∨ m4 = none) : init m1 m2 m3 m4 batch m1Input buffSize maxFrames h = some none := by
  rcases hn with rfl | rfl | rfl | rfl
  · rfl
  · cases m1 <;> rfl
  · cases m1 <;> cases m2 <;> rfl
  · cases m1 <;> cases m2 <;> cases m3 <;> rfl

/-- A residual last layer should be refused also if rows are left over: it is not, whatever layers come before. -/
theorem C177_residual_refuted (sla rest : List Nat) (h : ∀ y ∈ sla, y ≠ 0) : refused (sla ++ [RLS] ++ 0 :: rest) = some false := by
  have ht : ((sla ++ [RLS] ++ 0 :: rest).takeWhile fun x => x ≠ 0) = sla ++ [RLS] := by
    rw [List.takeWhile_append_of_pos (by
      intro x hx
      rcases List.mem_append.mp hx with hx | hx
      · simpa using h x hx
      · rw [List.mem_singleton] at hx; subst hx; rfl)]
    simp
  unfold refused
  rw [ht, if_neg (by simp)]
  simp [RLS]

/-- A learner that was made has the four networks, eight copies for each place in the batch, three rows for each frame and all its arrays, in distinct
new live blocks. -/
theorem C177_made (m1 m2 m3 m4 : Option Mod) (batch m1Input buffSize maxFrames : Nat) (h0 h : Heap) (d : Ddpg)
    (hi : init m1 m2 m3 m4 batch m1Input buffSize maxFrames h0 = some (some (h, d))) :
    d.nets = ([m1, m2, m3, m4].filterMap id).map Mod.adr ∧ d.nets.length = 4 ∧ (d.arrays.length = 8 ∧ d.outputs.length = 7 ∧ d.buffers.length = 5) ∧
    (d.copies.length = batch ∧ ∀ r ∈ d.copies, r.length = 8) ∧ (d.frames.length = maxFrames ∧ ∀ r ∈ d.frames, r.length = 3) ∧
    (d.adr :: (d.arrays ++ (d.outputs ++ (d.copies.flatten ++ (d.buffers ++ d.frames.flatten))))).Nodup ∧
    (∀ q ∈ d.adr :: (d.arrays ++ (d.outputs ++ (d.copies.flatten ++ (d.buffers ++ d.frames.flatten)))), h0.next ≤ q ∧ h.live q = true) ∧
    ∀ q, h0.live q = true → h.live q = true := by
  have hb := init_build m1 m2 m3 m4 batch m1Input buffSize maxFrames h0 h d hi _ rfl
  have hlen : (([m1, m2, m3, m4].filterMap id).map Mod.adr).length = 4 := by
    match m1, m2, m3, m4, hi with
    | some _, some _, some _, some _, _ => rfl
    | none, _, _, _, hi => cases hi
    | some _, none, _, _, hi => cases hi
    | some _, some _, none, _, hi => cases hi
    | some _, some _, some _, none, hi => cases hi
  have e1 := congrArg Prod.fst hb
  have e2 := congrArg Prod.snd hb
  dsimp only at e1 e2
  clear hb hi
  subst e1
  subst e2
  obtain ⟨ga, la⟩ := grow_allocs 8 h0.alloc
  obtain ⟨go, lo⟩ := grow_allocs 7 (allocs 8 h0.alloc).1
  obtain ⟨gc, lc, rc⟩ := grow_rounds 8 batch (allocs 7 (allocs 8 h0.alloc).1).1
  obtain ⟨gb, lb⟩ := grow_allocs 5 (rounds 8 batch (allocs 7 (allocs 8 h0.alloc).1).1).1
  obtain ⟨gf, lf, rf⟩ := grow_rounds 3 maxFrames (allocs 5 (rounds 8 batch (allocs 7 (allocs 8 h0.alloc).1).1).1).1
  have g := (grow_alloc h0).trans (ga.trans (go.trans (gc.trans (gb.trans gf))))
  exact ⟨rfl, hlen, ⟨la, lo, lb⟩, ⟨lc, rc⟩, ⟨lf, rf⟩, g.nodup, fun q hq => ⟨(g.fresh q hq).1, (g.live q).mpr (Or.inr hq)⟩,
    fun q hq => (g.live q).mpr (Or.inl hq)⟩

/-- Making the learner and freeing it never goes wrong, for any size of the batch and any number of frames, and frees the four networks and everything the
learner made but seven blocks. -/
theorem C177_free_partial (m1 m2 m3 m4 : Option Mod) (batch m1Input buffSize maxFrames : Nat) (h0 h : Heap) (d : Ddpg) (hs : Sane h0)
    (hi : init m1 m2 m3 m4 batch m1Input buffSize maxFrames h0 = some (some (h, d)))
    (nets : List Nat) (hm : nets = ([m1, m2, m3, m4].filterMap id).map Mod.adr) (hn : nets.Nodup) (hl : ∀ p ∈ nets, h0.live p = true) :
    ∃ h', ∃ lost : List Nat, freeDdpg d h = some h' ∧ lost.Nodup ∧ lost.length = 7 ∧ (∀ q ∈ lost, h0.next ≤ q) ∧
      ∀ q, h'.live q = true ↔ (h0.live q = true ∧ q ∉ nets) ∨ q ∈ lost := by
  have hb := init_build m1 m2 m3 m4 batch m1Input buffSize maxFrames h0 h d hi nets hm
  clear hi hm
  obtain ⟨rfl, rfl⟩ : h = (build nets batch maxFrames h0).1 ∧ d = (build nets batch maxFrames h0).2 := ⟨congrArg Prod.fst hb, congrArg Prod.snd hb⟩
  obtain ⟨ga, _⟩ := grow_allocs 8 h0.alloc
  obtain ⟨go, lo⟩ := grow_allocs 7 (allocs 8 h0.alloc).1
  obtain ⟨gc, _⟩ := grow_rounds 8 batch (allocs 7 (allocs 8 h0.alloc).1).1
  obtain ⟨gb, _⟩ := grow_allocs 5 (rounds 8 batch (allocs 7 (allocs 8 h0.alloc).1).1).1
  obtain ⟨gf, _⟩ := grow_rounds 3 maxFrames (allocs 5 (rounds 8 batch (allocs 7 (allocs 8 h0.alloc).1).1).1).1
  have g := (grow_alloc h0).trans (ga.trans (go.trans (gc.trans (gb.trans gf))))
  clear ga go gc gb gf hb
  revert g lo
  unfold freeDdpg build
  dsimp only
  generalize (rounds 3 maxFrames (allocs 5 (rounds 8 batch (allocs 7 (allocs 8 h0.alloc).1).1).1).1).1 = h1
  generalize (rounds 3 maxFrames (allocs 5 (rounds 8 batch (allocs 7 (allocs 8 h0.alloc).1).1).1).1).2.flatten = F
  generalize (allocs 5 (rounds 8 batch (allocs 7 (allocs 8 h0.alloc).1).1).1).2 = B
  generalize (rounds 8 batch (allocs 7 (allocs 8 h0.alloc).1).1).2.flatten = C
  generalize (allocs 7 (allocs 8 h0.alloc).1).2 = O
  generalize (allocs 8 h0.alloc).2 = A
  intro lo g
  have hp : (nets ++ ([h0.next] ++ (A ++ (O ++ (C ++ (B ++ F)))))).Perm ((C ++ (A ++ (nets ++ (F ++ (B ++ [h0.next]))))) ++ O) := by
    refine List.perm_iff_count.mpr fun z => ?_
    simp only [List.count_append]
    omega
  have hall : (nets ++ ([h0.next] ++ (A ++ (O ++ (C ++ (B ++ F)))))).Nodup := List.nodup_append.mpr ⟨hn, g.nodup, fun x hx y hy hxy => by
    have := hs x (hl x hx)
    have := (g.fresh y hy).1
    omega⟩
  obtain ⟨n1, n2, n3⟩ := List.nodup_append.mp (hp.nodup_iff.mp hall)
  have hO : ∀ q ∈ O, h0.next ≤ q := fun q hq => (g.fresh q (by simp [hq])).1
  have hlive : ∀ q, h1.live q = true ↔ h0.live q = true ∨ q ∈ (C ++ (A ++ (nets ++ (F ++ (B ++ [h0.next]))))) ++ O := fun q => by
    rw [g.live q, ← hp.mem_iff, List.mem_append (s := nets)]
    constructor
    · rintro (c | c)
      · exact Or.inl c
      · exact Or.inr (Or.inr c)
    · rintro (c | c | c)
      · exact Or.inl c
      · exact Or.inl (hl q c)
      · exact Or.inr c
  obtain ⟨h', e, _, hq⟩ := freeList_spec _ h1 n1 (fun p hp => (hlive p).mpr (Or.inr (List.mem_append_left _ hp)))
  refine ⟨h', O, e, n2, lo, hO, fun q => ?_⟩
  rw [hq q, hlive q]
  constructor
  · rintro ⟨c | c, d⟩
    · exact Or.inl ⟨c, fun hm => d (by simp [hm])⟩
    · rcases List.mem_append.mp c with c | c
      · exact absurd c d
      · exact Or.inr c
  · rintro (⟨c, d⟩ | c)
    · refine ⟨Or.inl c, fun hm => ?_⟩
      rcases List.mem_append.mp (hp.mem_iff.mpr (List.mem_append_left _ hm)) with x | x
      · exact d x
      · have := hs q c
        have := (g.fresh q x).1
        omega
    · exact ⟨Or.inr (List.mem_append_right _ c), fun hm => n3 q hm q c rfl⟩

/-- So freeing a learner should leave nothing behind, but always does. -/
theorem C177_leak_refuted (m1 m2 m3 m4 : Option Mod) (batch m1Input buffSize maxFrames : Nat) (h0 h h' : Heap) (d : Ddpg) (hs : Sane h0)
    (hi : init m1 m2 m3 m4 batch m1Input buffSize maxFrames h0 = some (some (h, d)))
    (hn : (([m1, m2, m3, m4].filterMap id).map Mod.adr).Nodup) (hl : ∀ p ∈ ([m1, m2, m3, m4].filterMap id).map Mod.adr, h0.live p = true)
    (hf : freeDdpg d h = some h') : ¬ ∀ q, h'.live q = true → h0.live q = true := by
  obtain ⟨h1, lost, e, _, hlen, hnew, hq⟩ := C177_free_partial m1 m2 m3 m4 batch m1Input buffSize maxFrames h0 h d hs hi _ rfl hn hl
  rw [e] at hf
  cases hf
  intro c
  match lost, hlen with
  | x :: _, _ =>
    have h1 := hs x (c x ((hq x).mpr (Or.inr (by simp))))
    have h2 := hnew x (by simp)
    omega

/-- The hypotheses are met by four small networks, a batch of two and three frames. -/
example : ∃ h d, init (some ⟨0, true, [1, 1]⟩) (some ⟨1, true, [1]⟩) (some ⟨2, true, [2, 3, 1]⟩) (some ⟨3, true, [1]⟩) 2 5 5 3
    ⟨4, fun q => decide (q < 4)⟩ = some (some (h, d)) ∧ Sane ⟨4, fun q => decide (q < 4)⟩ ∧ Ends ⟨2, true, [2, 3, 1]⟩ 1 ∧
    (∀ p ∈ [0, 1, 2, 3], decide (p < 4) = true) ∧ d.copies.length = 2 :=
  ⟨_, _, rfl, fun q hq => by simpa using hq, ⟨[2, 3], rfl, by decide⟩, by decide, rfl⟩

end LLab.RL.DdpgLife
