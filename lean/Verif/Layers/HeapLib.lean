import Verif.Layers.FclLife

/-!
A small library for objects that own arrays in memory, over the memory of
`Verif/Layers/FclLife.lean`. An object is a family of pointers with an index type `I` of its own; a
pointer is null (`none`) or an address. The lemmas say what sequences of allocations, writes,
copies and frees do.
-/

namespace LLab.Heap

open FclLife (Mem Reads store_spec)

variable {I : Type} {F : Type}

/-- The object owns its arrays: every pointer is null or names a live block of the right size, and no
two pointers name the same block. -/
structure Owns (m : Mem F) (ptr : I → Option Nat) (size : I → Nat) : Prop where
  live : ∀ x a, ptr x = some a → a < m.next ∧ ∃ A, m.blk a = some A ∧ A.len = size x
  inj : ∀ x y a, ptr x = some a → ptr y = some a → x = y

/-- Two objects share no array. -/
def Apart {J : Type} (p : I → Option Nat) (q : J → Option Nat) : Prop := ∀ x y a, p x = some a → q y ≠ some a

/-- All arrays of an object have the same contents in both memories. -/
def Intact (m m' : Mem F) (p : I → Option Nat) : Prop := ∀ x a, p x = some a → m'.blk a = m.blk a

/-- One guarded write loop. -/
structure Wr (I F : Type) where
  fld : I
  on : Bool
  c : Nat → F

/-- A sequence of write loops. -/
def writeAll (ptr : I → Option Nat) (size : I → Nat) : List (Wr I F) → Mem F → Option (Mem F)
  | [], m => some m
  | s :: ss, m => do
    let m ← (if s.on then m.store (ptr s.fld) (size s.fld) s.c else some m)
    writeAll ptr size ss m

/-- A sequence of `copy_array` calls. -/
def copyAll (p q : I → Option Nat) (size : I → Nat) (on : I → Bool) : List I → Mem F → Option (Mem F)
  | [], m => some m
  | x :: xs, m => do
    let m ← (if on x then m.copy (p x) (q x) (size x) else some m)
    copyAll p q size on xs m

/-- A sequence of `free` calls. -/
def freeAll (ptr : I → Option Nat) : List I → Mem F → Option (Mem F)
  | [], m => some m
  | x :: xs, m => do
    let m ← m.free (ptr x)
    freeAll ptr xs m

/-- A sequence of allocations. -/
def buildAll [DecidableEq I] (al : I → Bool) (first : I → Arr F) : List I → Mem F → Mem F × (I → Option Nat)
  | [], m => (m, fun _ => none)
  | x :: xs, m =>
    if al x then
      let s := buildAll al first xs (m.alloc (first x))
      (s.1, Function.update s.2 x (some m.next))
    else buildAll al first xs m

theorem Owns.store {m : Mem F} {ptr : I → Option Nat} {size : I → Nat} (h : Owns m ptr size) {b : Nat} {B B' : Arr F} (hB : m.blk b = some B) (hl : B'.len = B.len) :
    Owns ⟨m.next, Function.update m.blk b (some B')⟩ ptr size := by
  refine ⟨fun x a ha => ?_, h.inj⟩
  obtain ⟨h1, A, h2, h3⟩ := h.live x a ha
  refine ⟨h1, ?_⟩
  by_cases e : a = b
  · subst e
    refine ⟨B', by simp, ?_⟩
    rw [hB] at h2
    rw [hl, Option.some.inj h2, h3]
  · exact ⟨A, by simp [e, h2], h3⟩

theorem writeAll_spec (ptr : I → Option Nat) (size : I → Nat) : ∀ (l : List (Wr I F)) (m : Mem F), Owns m ptr size → (l.map Wr.fld).Nodup →
    (∀ s ∈ l, s.on = true → (ptr s.fld).isSome) →
    ∃ m', writeAll ptr size l m = some m' ∧ Owns m' ptr size ∧ m'.next = m.next ∧
      (∀ a, (∀ s ∈ l, s.on = true → ptr s.fld ≠ some a) → m'.blk a = m.blk a) ∧
      ∀ s ∈ l, s.on = true → Reads m' (ptr s.fld) (size s.fld) s.c := by
  intro l
  induction l with
  | nil =>
    intro m h _ _
    exact ⟨m, rfl, h, rfl, fun _ _ => rfl, fun s hs => by simp at hs⟩
  | cons s ss ih =>
    intro m h hnd hne
    rw [List.map_cons, List.nodup_cons] at hnd
    by_cases hon : s.on = true
    · obtain ⟨a, ha⟩ := Option.isSome_iff_exists.1 (hne s (by simp) hon)
      obtain ⟨_, A, hA, hl⟩ := h.live _ a ha
      set m1 : Mem F := ⟨m.next, Function.update m.blk a (some ⟨A.len, fun i => if i < size s.fld then s.c i else A.get i⟩)⟩ with hm1
      have hstep : m.store (ptr s.fld) (size s.fld) s.c = some m1 := by
        rw [ha]; exact store_spec _ hA (by omega)
      obtain ⟨m', e, o, nx, fr, rd⟩ := ih m1 (h.store hA rfl) hnd.2 fun t ht => hne t (by simp [ht])
      refine ⟨m', ?_, o, nx, fun b hb => ?_, fun t ht hton => ?_⟩
      · simp only [writeAll, hon, if_true, hstep, Option.bind_eq_bind, Option.bind_some]
        exact e
      · rw [fr b fun t ht => hb t (by simp [ht])]
        have : b ≠ a := by
          rintro rfl
          exact hb s (by simp) hon ha
        simp [hm1, this]
      · rcases List.mem_cons.1 ht with rfl | ht'
        · refine ⟨a, ⟨A.len, fun i => if i < size t.fld then t.c i else A.get i⟩, ha, ?_, hl, fun i hi => if_pos hi⟩
          rw [fr a]
          · simp [hm1]
          · intro u hu _ hua
            exact hnd.1 (List.mem_map.2 ⟨u, hu, h.inj _ _ a hua ha⟩)
        · exact rd t ht' hton
    · obtain ⟨m', e, o, nx, fr, rd⟩ := ih m h hnd.2 fun t ht => hne t (by simp [ht])
      refine ⟨m', ?_, o, nx, fun b hb => fr b fun t ht => hb t (by simp [ht]), fun t ht hton => ?_⟩
      · simp only [writeAll, hon, Bool.false_eq_true, if_false, Option.bind_eq_bind, Option.bind_some]
        exact e
      · rcases List.mem_cons.1 ht with rfl | ht'
        · exact absurd hton hon
        · exact rd t ht' hton

theorem writeAll_none (ptr : I → Option Nat) (size : I → Nat) : ∀ (l : List (Wr I F)) (m : Mem F), (∃ s ∈ l, s.on = true ∧ ptr s.fld = none ∧ size s.fld ≠ 0) →
    writeAll ptr size l m = none := by
  intro l
  induction l with
  | nil => intro m h; simp at h
  | cons t ts ih =>
    rintro m ⟨s, hs, hon, hp, hz⟩
    rcases List.mem_cons.1 hs with rfl | hs'
    · simp [writeAll, hon, hp, Mem.store, hz]
    · simp only [writeAll, Option.bind_eq_bind, Option.bind_eq_none_iff]
      exact fun m' _ => ih m' ⟨s, hs', hon, hp, hz⟩

theorem copyAll_spec (p q : I → Option Nat) (size sizeq : I → Nat) (on : I → Bool) (hap : Apart p q) (hsz : ∀ x, on x = true → size x = sizeq x) : ∀ (l : List I) (m : Mem F),
    Owns m p size → Owns m q sizeq → l.Nodup →
    ∃ m', copyAll p q size on l m = some m' ∧ Owns m' p size ∧ Owns m' q sizeq ∧ m'.next = m.next ∧
      (∀ a, (∀ x ∈ l, on x = true → (p x).isSome → q x ≠ some a) → m'.blk a = m.blk a) ∧
      ∀ x ∈ l, on x = true → ∀ a A, p x = some a → m.blk a = some A → (q x).isSome → Reads m' (q x) (size x) A.get := by
  intro l
  induction l with
  | nil =>
    intro m h1 h2 _
    exact ⟨m, rfl, h1, h2, rfl, fun _ _ => rfl, fun s hs => by simp at hs⟩
  | cons x xs ih =>
    intro m h1 h2 hnd
    rw [List.nodup_cons] at hnd
    by_cases hgo : on x = true ∧ (p x).isSome ∧ (q x).isSome
    · obtain ⟨hon, ha', hb'⟩ := hgo
      obtain ⟨a, ha⟩ := Option.isSome_iff_exists.1 ha'
      obtain ⟨b, hb⟩ := Option.isSome_iff_exists.1 hb'
      obtain ⟨_, A, hA, hl⟩ := h1.live _ a ha
      obtain ⟨_, B, hB, hl2⟩ := h2.live _ b hb
      set m1 : Mem F := ⟨m.next, Function.update m.blk b (some ⟨B.len, fun i => if i < size x then A.get i else B.get i⟩)⟩ with hm1
      have hstep : m.copy (p x) (q x) (size x) = some m1 := by
        have hs := store_spec A.get hB (n := size x) (by rw [hl2, hsz x hon])
        unfold Mem.copy
        rw [ha, hb]
        by_cases h0 : size x = 0
        · rw [if_pos h0, ← hs]
          unfold Mem.store
          rw [if_pos h0]
        · rw [if_neg h0]
          simp only [hA]
          rw [if_pos (by omega)]
          exact hs
      obtain ⟨m', e, o1, o2, nx, fr, rd⟩ := ih m1 (h1.store hB rfl) (h2.store hB rfl) hnd.2
      refine ⟨m', ?_, o1, o2, nx, fun z hz => ?_, fun t ht hton u U hp hP hcs => ?_⟩
      · simp only [copyAll, hon, if_true, hstep, Option.bind_eq_bind, Option.bind_some]
        exact e
      · rw [fr z fun t ht => hz t (by simp [ht])]
        have : z ≠ b := by
          rintro rfl
          exact hz x (by simp) hon ha' hb
        simp [hm1, this]
      · have hpb : u ≠ b := by
          rintro rfl
          exact hap _ x u hp hb
        rcases List.mem_cons.1 ht with rfl | ht'
        · rw [ha] at hp
          obtain rfl := Option.some.inj hp
          rw [hA] at hP
          obtain rfl := Option.some.inj hP
          refine ⟨b, ⟨B.len, fun i => if i < size t then A.get i else B.get i⟩, hb, ?_, by rw [hsz t hton]; exact hl2, fun i hi => if_pos hi⟩
          rw [fr b]
          · simp [hm1]
          · intro v hv _ _ hvb
            exact hnd.1 (h2.inj _ _ b hvb hb ▸ hv)
        · exact rd t ht' hton u U hp (by simp [hm1, hpb, hP]) hcs
    · have hstep : (if on x then m.copy (p x) (q x) (size x) else some m) = some m := by
        by_cases hon : on x = true
        · rw [if_pos hon]
          unfold Mem.copy
          by_cases h0 : size x = 0
          · rw [if_pos h0]
          · rw [if_neg h0]
            cases hf : p x with
            | none => rfl
            | some a =>
              cases hc : q x with
              | none => rfl
              | some b => exact absurd ⟨hon, by simp [hf], by simp [hc]⟩ hgo
        · rw [if_neg hon]
      obtain ⟨m', e, o1, o2, nx, fr, rd⟩ := ih m h1 h2 hnd.2
      refine ⟨m', ?_, o1, o2, nx, fun z hz => fr z fun t ht => hz t (by simp [ht]), fun t ht hton u U hp hP hcs => ?_⟩
      · simp only [copyAll, Option.bind_eq_bind, hstep, Option.bind_some]
        exact e
      · rcases List.mem_cons.1 ht with rfl | ht'
        · exact absurd ⟨hton, by simp [hp], hcs⟩ hgo
        · exact rd t ht' hton u U hp hP hcs

theorem freeAll_spec (ptr : I → Option Nat) (hinj : ∀ x y a, ptr x = some a → ptr y = some a → x = y) : ∀ (l : List I) (m : Mem F),
    l.Nodup → (∀ x ∈ l, ∀ a, ptr x = some a → m.blk a ≠ none) →
    ∃ m', freeAll ptr l m = some m' ∧ m'.next = m.next ∧ (∀ x ∈ l, ∀ a, ptr x = some a → m'.blk a = none) ∧
      ∀ a, (∀ x ∈ l, ptr x ≠ some a) → m'.blk a = m.blk a := by
  intro l
  induction l with
  | nil =>
    intro m _ _
    exact ⟨m, rfl, rfl, fun x hx => by simp at hx, fun _ _ => rfl⟩
  | cons x xs ih =>
    intro m hnd hlive
    rw [List.nodup_cons] at hnd
    cases hx : ptr x with
    | none =>
      obtain ⟨m', e, nx, g, fr⟩ := ih m hnd.2 fun y hy => hlive y (by simp [hy])
      refine ⟨m', ?_, nx, fun y hy a hya => ?_, fun a ha => fr a fun y hy => ha y (by simp [hy])⟩
      · simp only [freeAll, hx, Mem.free, Option.bind_eq_bind, Option.bind_some]
        exact e
      · rcases List.mem_cons.1 hy with rfl | hy'
        · rw [hx] at hya; cases hya
        · exact g y hy' a hya
    | some b =>
      have hb := hlive x (by simp) b hx
      obtain ⟨m', e, nx, g, fr⟩ := ih ⟨m.next, Function.update m.blk b none⟩ hnd.2 (by
        intro y hy a hya
        have hab : a ≠ b := by
          rintro rfl
          exact hnd.1 (hinj _ _ a hya hx ▸ hy)
        simpa [hab] using hlive y (by simp [hy]) a hya)
      have hstep : m.free (ptr x) = some ⟨m.next, Function.update m.blk b none⟩ := by
        unfold Mem.free
        rw [hx]
        cases hB : m.blk b with
        | none => exact absurd hB hb
        | some B => simp only [hB]
      have hbfr : m'.blk b = none := by
        rw [fr b]
        · simp
        · intro y hy hyb
          exact hnd.1 (hinj _ _ b hyb hx ▸ hy)
      refine ⟨m', ?_, nx, fun y hy a hya => ?_, fun a ha => ?_⟩
      · simp only [freeAll, hstep, Option.bind_eq_bind, Option.bind_some]
        exact e
      · rcases List.mem_cons.1 hy with rfl | hy'
        · rw [hx] at hya
          obtain rfl := Option.some.inj hya
          exact hbfr
        · exact g y hy' a hya
      · rw [fr a fun y hy => ha y (by simp [hy])]
        have : a ≠ b := by
          rintro rfl
          exact ha x (by simp) hx
        simp [this]

/-- Copying into an array that is too small goes out of bounds. -/
theorem copyAll_none (p q : I → Option Nat) (size sizeq : I → Nat) (on : I → Bool) : ∀ (l : List I) (m : Mem F),
    Owns m p size → Owns m q sizeq → (∃ x ∈ l, on x = true ∧ (p x).isSome ∧ (q x).isSome ∧ sizeq x < size x) → copyAll p q size on l m = none := by
  intro l
  induction l with
  | nil => intro m _ _ h; simp at h
  | cons t ts ih =>
    rintro m hp hq ⟨x, hx, hon, h1, h2, h3⟩
    simp only [copyAll, Option.bind_eq_bind, Option.bind_eq_none_iff]
    intro m' hm'
    rcases List.mem_cons.1 hx with rfl | hx'
    · obtain ⟨a, ha⟩ := Option.isSome_iff_exists.1 h1
      obtain ⟨b, hb⟩ := Option.isSome_iff_exists.1 h2
      obtain ⟨_, A, hA, hl⟩ := hp.live _ a ha
      obtain ⟨_, B, hB, hl2⟩ := hq.live _ b hb
      rw [if_pos hon, ha, hb] at hm'
      unfold Mem.copy Mem.store at hm'
      simp only [if_neg (show size x ≠ 0 by omega), hA, hB, if_pos (show size x ≤ A.len by omega), if_neg (show ¬ size x ≤ B.len by omega)] at hm'
      cases hm'
    · have : Owns m' p size ∧ Owns m' q sizeq := by
        by_cases ho : on t = true
        · rw [if_pos ho] at hm'
          unfold Mem.copy at hm'
          by_cases h0 : size t = 0
          · rw [if_pos h0] at hm'
            obtain rfl := Option.some.inj hm'
            exact ⟨hp, hq⟩
          · rw [if_neg h0] at hm'
            cases hpt : p t with
            | none =>
              rw [hpt] at hm'
              obtain rfl := Option.some.inj hm'
              exact ⟨hp, hq⟩
            | some a =>
              cases hqt : q t with
              | none =>
                rw [hpt, hqt] at hm'
                obtain rfl := Option.some.inj hm'
                exact ⟨hp, hq⟩
              | some b =>
                obtain ⟨_, A, hA, hl⟩ := hp.live _ a hpt
                obtain ⟨_, B, hB, hl2⟩ := hq.live _ b hqt
                rw [hpt, hqt] at hm'
                simp only [hA, Mem.store, if_neg h0, hB, if_pos (show size t ≤ A.len by omega)] at hm'
                split_ifs at hm' with hle
                obtain rfl := Option.some.inj hm'
                exact ⟨hp.store hB rfl, hq.store hB rfl⟩
        · rw [if_neg ho] at hm'
          obtain rfl := Option.some.inj hm'
          exact ⟨hp, hq⟩
      exact ih m' this.1 this.2 ⟨x, hx', hon, h1, h2, h3⟩

/-- A concatenation of blocks told apart by a key has no repetition. -/
theorem nodup_flatMap_key {A B : Type} {l : List A} {f : A → List B} (key : B → A) (hl : l.Nodup) (hf : ∀ a ∈ l, (f a).Nodup)
    (hk : ∀ a ∈ l, ∀ b ∈ f a, key b = a) : (l.flatMap f).Nodup := by
  induction l with
  | nil => simp
  | cons a l ih =>
    rw [List.nodup_cons] at hl
    rw [List.flatMap_cons, List.nodup_append]
    refine ⟨hf a (by simp), ih hl.2 (fun b hb => hf b (by simp [hb])) (fun b hb => hk b (by simp [hb])), fun x hx y hy hxy => ?_⟩
    subst hxy
    obtain ⟨b, hb, hxb⟩ := List.mem_flatMap.1 hy
    have h1 := hk a (by simp) x hx
    have h2 := hk b (by simp [hb]) x hxb
    rw [h1] at h2
    exact hl.1 (h2 ▸ hb)

variable [DecidableEq I]

theorem buildAll_spec (al : I → Bool) (first : I → Arr F) : ∀ (l : List I) (m : Mem F), l.Nodup →
    m.next ≤ (buildAll al first l m).1.next ∧ (∀ a, a < m.next → (buildAll al first l m).1.blk a = m.blk a) ∧
      (∀ a, m.next ≤ a → a < (buildAll al first l m).1.next → ∃ x ∈ l, (buildAll al first l m).2 x = some a) ∧
      (∀ a, (buildAll al first l m).1.next ≤ a → (buildAll al first l m).1.blk a = m.blk a) ∧
      (∀ x a, (buildAll al first l m).2 x = some a → x ∈ l ∧ al x = true ∧ m.next ≤ a ∧ a < (buildAll al first l m).1.next ∧
        (buildAll al first l m).1.blk a = some (first x)) ∧
      (∀ x ∈ l, al x = true → ((buildAll al first l m).2 x).isSome) ∧
      ∀ x y a, (buildAll al first l m).2 x = some a → (buildAll al first l m).2 y = some a → x = y := by
  intro l
  induction l with
  | nil =>
    intro m _
    simp only [buildAll]
    refine ⟨le_rfl, ?_, fun a h1 h2 => absurd h1 (by omega), ?_, ?_, ?_, ?_⟩ <;> simp
  | cons x xs ih =>
    intro m hnd
    rw [List.nodup_cons] at hnd
    by_cases hal : al x = true
    · obtain ⟨h1, h2, h3, h4, h5, h6, h7⟩ := ih (m.alloc (first x)) hnd.2
      have hb : buildAll al first (x :: xs) m = ((buildAll al first xs (m.alloc (first x))).1,
          Function.update (buildAll al first xs (m.alloc (first x))).2 x (some m.next)) := by
        simp only [buildAll, hal, if_true]
      rw [hb]
      generalize buildAll al first xs (m.alloc (first x)) = s at *
      have hn : (m.alloc (first x)).next = m.next + 1 := rfl
      rw [hn] at h1 h2 h3 h5
      have hfresh : ∀ y a, s.2 y = some a → m.next + 1 ≤ a := fun y a h => (h5 y a h).2.2.1
      dsimp only
      refine ⟨by omega, fun a ha => ?_, fun a ha1 ha2 => ?_, fun a ha => ?_, fun y a hy => ?_, fun y hy hya => ?_, fun y z a hy hz => ?_⟩
      · rw [h2 a (by omega)]
        simp [Mem.alloc, show a ≠ m.next by omega]
      · by_cases e : a = m.next
        · exact ⟨x, by simp, by simp [e]⟩
        · obtain ⟨y, hy, hya⟩ := h3 a (by omega) ha2
          refine ⟨y, by simp [hy], ?_⟩
          have : y ≠ x := by
            rintro rfl
            exact hnd.1 hy
          simp [this, hya]
      · rw [h4 a ha]
        simp [Mem.alloc, show a ≠ m.next by omega]
      · by_cases e : y = x
        · subst e
          rw [Function.update_self] at hy
          obtain rfl := Option.some.inj hy
          refine ⟨by simp, hal, le_rfl, by omega, ?_⟩
          rw [h2 _ (by omega)]
          simp [Mem.alloc]
        · rw [Function.update_of_ne e] at hy
          obtain ⟨g1, g2, g3, g4, g5⟩ := h5 y a hy
          exact ⟨by simp [g1], g2, by omega, g4, g5⟩
      · by_cases e : y = x
        · subst e; simp
        · rw [Function.update_of_ne e]
          exact h6 y (by simpa [e] using hy) hya
      · by_cases e1 : y = x
        · by_cases e2 : z = x
          · rw [e1, e2]
          · rw [e1, Function.update_self] at hy
            rw [Function.update_of_ne e2] at hz
            obtain rfl := Option.some.inj hy
            have := hfresh z _ hz
            omega
        · by_cases e2 : z = x
          · rw [e2, Function.update_self] at hz
            rw [Function.update_of_ne e1] at hy
            obtain rfl := Option.some.inj hz
            have := hfresh y _ hy
            omega
          · rw [Function.update_of_ne e1] at hy
            rw [Function.update_of_ne e2] at hz
            exact h7 y z a hy hz
    · obtain ⟨h1, h2, h3, h4, h5, h6, h7⟩ := ih m hnd.2
      have hb : buildAll al first (x :: xs) m = buildAll al first xs m := by
        simp only [buildAll, hal, Bool.false_eq_true, if_false]
      rw [hb]
      refine ⟨h1, h2, fun a ha1 ha2 => ?_, h4, fun y a hy => ?_, fun y hy hya => ?_, h7⟩
      · obtain ⟨y, hy, hya⟩ := h3 a ha1 ha2
        exact ⟨y, by simp [hy], hya⟩
      · obtain ⟨g1, g2⟩ := h5 y a hy
        exact ⟨by simp [g1], g2⟩
      · rcases List.mem_cons.1 hy with rfl | hy'
        · exact absurd hya hal
        · exact h6 y hy' hya

omit [DecidableEq I] in
/-- Freeing an object frees each of its arrays once and nothing else. -/
theorem free_owned {m : Mem F} {ptr : I → Option Nat} {size : I → Nat} (h : Owns m ptr size) {l : List I} (hnd : l.Nodup)
    (hall : ∀ x a, ptr x = some a → x ∈ l) :
    ∃ m', freeAll ptr l m = some m' ∧ m'.next = m.next ∧ (∀ x a, ptr x = some a → m'.blk a = none) ∧
      ∀ a, (∀ x, ptr x ≠ some a) → m'.blk a = m.blk a := by
  obtain ⟨m', e, n, g, fr⟩ := freeAll_spec ptr h.inj l m hnd (by
    intro x _ a hx
    obtain ⟨_, A, hA, _⟩ := h.live x a hx
    rw [hA]
    exact Option.some_ne_none _)
  exact ⟨m', e, n, fun x a hx => g x (hall x a hx) a hx, fun a ha => fr a fun x _ => ha x⟩

/-- What an object that is built knows. -/
theorem build_owned (al : I → Bool) (first : I → Arr F) {l : List I} (m : Mem F) (hnd : l.Nodup) :
    Owns (buildAll al first l m).1 (buildAll al first l m).2 (fun x => (first x).len) ∧
      (∀ x ∈ l, al x = true → Reads (buildAll al first l m).1 ((buildAll al first l m).2 x) (first x).len (first x).get) := by
  obtain ⟨_, _, _, _, h5, h6, h7⟩ := buildAll_spec al first l m hnd
  refine ⟨⟨fun x a hx => ⟨(h5 x a hx).2.2.2.1, _, (h5 x a hx).2.2.2.2, rfl⟩, h7⟩, fun x hx ha => ?_⟩
  obtain ⟨a, hxa⟩ := Option.isSome_iff_exists.1 (h6 x hx ha)
  exact ⟨a, _, hxa, (h5 x a hxa).2.2.2.2, rfl, fun _ _ => rfl⟩

/-- Building an object and freeing it gives back all the memory. -/
theorem build_free (al : I → Bool) (first : I → Arr F) {l l' : List I} (m : Mem F) (hm : m.Sane) (hnd : l.Nodup) (hnd' : l'.Nodup)
    (hsub : ∀ x ∈ l, al x = true → x ∈ l') :
    ∃ m2, freeAll (buildAll al first l m).2 l' (buildAll al first l m).1 = some m2 ∧ m2.blk = m.blk := by
  obtain ⟨h1, h2, h3, h4, h5, h6, h7⟩ := buildAll_spec al first l m hnd
  obtain ⟨m2, e, _, g, fr⟩ := free_owned (build_owned al first m hnd).1 hnd' (fun x a hx => hsub x (h5 x a hx).1 (h5 x a hx).2.1)
  refine ⟨m2, e, funext fun a => ?_⟩
  by_cases ha : a < m.next
  · rw [fr a, h2 a ha]
    intro x hx
    have := (h5 x a hx).2.2.1
    omega
  · rw [hm a (by omega)]
    by_cases hb : a < (buildAll al first l m).1.next
    · obtain ⟨x, _, hx⟩ := h3 a (by omega) hb
      exact g x a hx
    · rw [fr a, h4 a (by omega), hm a (by omega)]
      intro x hx
      have := (h5 x a hx).2.2.2.1
      omega

/-- Building a second object and copying arrays of the first into it. -/
theorem build_copy (al : I → Bool) (first : I → Arr F) {order l : List I} (m : Mem F) (p : I → Option Nat) (size : I → Nat) (on : I → Bool)
    (h : Owns m p size) (hsz : ∀ x, on x = true → size x = (first x).len) (hord : order.Nodup) (hl : l.Nodup) :
    ∃ m' q, (buildAll al first order m).2 = q ∧ copyAll p q size on l (buildAll al first order m).1 = some m' ∧
      Owns m' q (fun x => (first x).len) ∧ Owns m' p size ∧ Apart p q ∧ (∀ a, a < m.next → m'.blk a = m.blk a) ∧
      (∀ x a, q x = some a → x ∈ order ∧ al x = true ∧ m.next ≤ a) ∧ (∀ x ∈ order, al x = true → (q x).isSome) ∧ m.next ≤ m'.next ∧
      (∀ x ∈ l, on x = true → ∀ a A, p x = some a → m.blk a = some A → (q x).isSome → Reads m' (q x) (size x) A.get) ∧
      ∀ x ∈ order, al x = true → (on x = false ∨ x ∉ l ∨ p x = none) → Reads m' (q x) (first x).len (first x).get := by
  obtain ⟨h1, h2, h3, h4, h5, h6, h7⟩ := buildAll_spec al first order m hord
  obtain ⟨o, rd⟩ := build_owned al first m hord
  set q := (buildAll al first order m).2 with hq
  set m1 := (buildAll al first order m).1 with hm1
  have hap : Apart p q := by
    intro x y a hx hy
    have := (h.live x a hx).1
    have := (h5 y a hy).2.2.1
    omega
  have o1 : Owns m1 p size := by
    refine ⟨fun x a hx => ?_, h.inj⟩
    obtain ⟨g1, A, g2, g3⟩ := h.live x a hx
    exact ⟨by omega, A, by rw [h2 a g1, g2], g3⟩
  obtain ⟨m2, e2, p1, p2, nx, fr2, rd2⟩ := copyAll_spec p q size _ on hap hsz l m1 o1 o hl
  refine ⟨m2, q, rfl, e2, p2, p1, hap, fun a ha => ?_, fun x a hx => ⟨(h5 x a hx).1, (h5 x a hx).2.1, (h5 x a hx).2.2.1⟩, h6, by omega,
    fun x hx hon a A hxa hA hs => ?_, fun x hx ha hno => ?_⟩
  · rw [fr2 a, h2 a ha]
    intro x _ _ _ hxa
    have := (h5 x a hxa).2.2.1
    omega
  · exact rd2 x hx hon a A hxa (by rw [h2 a (h.live x a hxa).1, hA]) hs
  · obtain ⟨b, B, hb, hB, hl, hc⟩ := rd x hx ha
    refine ⟨b, B, hb, ?_, hl, hc⟩
    rw [fr2 b, hB]
    intro y hy hon hys hyb
    have := o.inj y x b hyb hb
    subst this
    rcases hno with hno | hno | hno
    · rw [hno] at hon; cases hon
    · exact hno hy
    · rw [hno] at hys; cases hys

end LLab.Heap
