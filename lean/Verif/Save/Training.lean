import Mathlib.Data.List.GetD
import Mathlib.Logic.Function.Basic

/-!
Saving of a training state (`/repo/src/training.c` 28-298). Property C134.

There is no loader in the library, so the property is about what the files determine. Bytes are
naturals; an `int` or a `float` in memory is a block of four bytes. `none` is `exit(1)` or a read
past the end of an array. `save_model` and `save_rmodel` are parameters: they put some bytes in
the file with the given number (what these bytes are is the subject of C07).
-/

namespace LLab.TrainSave

/-! ### Model -/

/-- A byte string. -/
abbrev Bytes := List Nat

/-- The four bytes of a non-negative `int`, little endian. -/
def int4 (a : Nat) : Bytes := [a % 256, a / 256 % 256, a / 65536 % 256, a / 16777216 % 256]

/-- An `int` or `float` cell in memory: its four bytes. -/
structure Word where
  b0 : Nat
  b1 : Nat
  b2 : Nat
  b3 : Nat
deriving DecidableEq

/-- The bytes of a word. -/
def Word.bytes (w : Word) : Bytes := [w.b0, w.b1, w.b2, w.b3]

/-- The memory image of an array of words. -/
def image (l : List Word) : Bytes := (l.map Word.bytes).flatten

/-- `training` (`/repo/src/llab.h` 693-701); the counts `n_m`, `n_r`, `n_char`, `n_int`,
`n_float` are the lengths of the lists. -/
structure Training (M R : Type) where
  models : List M
  rmodels : List R
  epochs : Nat
  inst : Nat
  chars : List Bytes
  ints : List (List Word)
  floats : List (List Word)
  charSize : Nat
  intSize : Nat
  floatSize : Nat

/-- `fwrite(p, size, 1, fw)` followed by the check that one element was written
(`/repo/src/training.c` 130-135): an element of size 0 counts as none written, and reading past
the end of the array is undefined. -/
def fwrite1 (mem : Bytes) (size : Nat) : Option Bytes :=
  if size = 0 then none else if size ≤ mem.length then some (mem.take size) else none

/-- One of the loops of lines 129-154. -/
def block (size : Nat) : List Bytes → Option Bytes
  | [] => some []
  | m :: rest => do
    let h ← fwrite1 m size
    let t ← block size rest
    some (h ++ t)

/-- The ten counters (`/repo/src/training.c` 60-128). -/
def header {M R : Type} (t : Training M R) : Bytes :=
  int4 t.models.length ++ int4 t.rmodels.length ++ int4 t.epochs ++ int4 t.inst ++ int4 t.chars.length ++
    int4 t.ints.length ++ int4 t.floats.length ++ int4 t.charSize ++ int4 t.intSize ++ int4 t.floatSize

/-- The file with the number handed to `save_training` (`/repo/src/training.c` 58-160): note
`sizeof(char)` in the loops over the integer and the float arrays. -/
def mainFile {M R : Type} (t : Training M R) : Option Bytes := do
  let c ← block t.charSize t.chars
  let i ← block t.intSize (t.ints.map image)
  let f ← block t.floatSize (t.floats.map image)
  some (header t ++ c ++ i ++ f)

/-- The files by number. -/
abbrev Disk := Nat → Option Bytes

/-- The loops that save the models (`/repo/src/training.c` 166-171): `count` grows by one with
each model. -/
def saveAll {M : Type} (sm : M → Bytes) : List M → Nat → Disk → Nat × Disk
  | [], count, d => (count, d)
  | m :: rest, count, d => saveAll sm rest (count + 1) (Function.update d count (some (sm m)))

/-- `save_training` (`/repo/src/training.c` 49-172) and `standard_save_training` (175-298), which
have the same text. -/
def saveTraining {M R : Type} (sm : M → Bytes) (sr : R → Bytes) (t : Training M R) (n : Nat) (d : Disk) : Option Disk := do
  let f ← mainFile t
  let d := Function.update d n (some f)
  let s := saveAll sm t.models (n + 1) d
  some (saveAll sr t.rmodels s.1 s.2).2

/-! ### Specification -/

/-- The arrays of a training have the sizes it announces and the counters fit an `int`. -/
structure Sized {M R : Type} (t : Training M R) : Prop where
  chars : ∀ c ∈ t.chars, c.length = t.charSize
  ints : ∀ c ∈ t.ints, c.length = t.intSize
  floats : ∀ c ∈ t.floats, c.length = t.floatSize
  models : t.models.length < 2 ^ 31
  rmodels : t.rmodels.length < 2 ^ 31
  epochs : t.epochs < 2 ^ 31
  inst : t.inst < 2 ^ 31
  nchars : t.chars.length < 2 ^ 31
  nints : t.ints.length < 2 ^ 31
  nfloats : t.floats.length < 2 ^ 31
  charSize : t.charSize < 2 ^ 31
  intSize : t.intSize < 2 ^ 31
  floatSize : t.floatSize < 2 ^ 31

/-- Every announced size is positive where there is an array of that kind. -/
def Positive {M R : Type} (t : Training M R) : Prop :=
  (t.chars ≠ [] → 0 < t.charSize) ∧ (t.ints ≠ [] → 0 < t.intSize) ∧ (t.floats ≠ [] → 0 < t.floatSize)

/-! ### Proofs -/

theorem int4_inj {a b : Nat} (ha : a < 2 ^ 31) (hb : b < 2 ^ 31) (h : int4 a = int4 b) : a = b := by
  unfold int4 at h
  injection h with h0 h
  injection h with h1 h
  injection h with h2 h
  injection h with h3 h
  omega

theorem int4_len (a : Nat) : (int4 a).length = 4 := rfl

theorem image_len (l : List Word) : (image l).length = 4 * l.length := by
  induction l with
  | nil => rfl
  | cons w l ih =>
    show (w.bytes ++ image l).length = _
    rw [List.length_append, ih, List.length_cons]
    show 4 + _ = _
    omega

theorem block_run (size : Nat) : ∀ l : List Bytes, (l ≠ [] → 0 < size) → (∀ m ∈ l, size ≤ m.length) →
    block size l = some ((l.map (List.take size)).flatten) := by
  intro l
  induction l with
  | nil => intro _ _; rfl
  | cons m l ih =>
    intro hp hs
    have hp' : 0 < size := hp (by simp)
    have h1 : fwrite1 m size = some (m.take size) := by
      unfold fwrite1
      rw [if_neg (by omega), if_pos (hs m (by simp))]
    unfold block
    rw [h1, ih (fun _ => hp') (fun k hk => hs k (List.mem_cons_of_mem _ hk))]
    rfl

theorem flatten_inj {size : Nat} : ∀ (l l' : List Bytes) (r r' : Bytes), l.length = l'.length → (∀ m ∈ l, m.length = size) →
    (∀ m ∈ l', m.length = size) → l.flatten ++ r = l'.flatten ++ r' → l = l' ∧ r = r' := by
  intro l
  induction l with
  | nil =>
    intro l' r r' hl _ _ h
    cases l' with
    | nil => exact ⟨rfl, h⟩
    | cons a l' => cases hl
  | cons a l ih =>
    intro l' r r' hl h1 h2 h
    cases l' with
    | nil => cases hl
    | cons b l' =>
      rw [List.flatten_cons, List.flatten_cons, List.append_assoc, List.append_assoc] at h
      have hab := List.append_inj h ((h1 a (by simp)).trans (h2 b (by simp)).symm)
      obtain ⟨hl', hr⟩ := ih l' r r' (Nat.succ.inj hl) (fun m hm => h1 m (List.mem_cons_of_mem _ hm))
        (fun m hm => h2 m (List.mem_cons_of_mem _ hm)) hab.2
      exact ⟨by rw [hab.1, hl'], hr⟩

theorem mainFile_run {M R : Type} (t : Training M R) (hs : Sized t) (hp : Positive t) :
    mainFile t = some (header t ++ (t.chars.map (List.take t.charSize)).flatten ++
      ((t.ints.map image).map (List.take t.intSize)).flatten ++ ((t.floats.map image).map (List.take t.floatSize)).flatten) := by
  unfold mainFile
  rw [block_run t.charSize t.chars hp.1 (fun m hm => Nat.le_of_eq (hs.chars m hm).symm),
    block_run t.intSize _ (fun h => hp.2.1 (fun h' => h (by rw [h']; rfl)))
      (fun m hm => by
        obtain ⟨l, hl, rfl⟩ := List.mem_map.1 hm
        rw [image_len, hs.ints l hl]; omega),
    block_run t.floatSize _ (fun h => hp.2.2 (fun h' => h (by rw [h']; rfl)))
      (fun m hm => by
        obtain ⟨l, hl, rfl⟩ := List.mem_map.1 hm
        rw [image_len, hs.floats l hl]; omega)]
  rfl

/-- **C134, partial.** A training whose arrays have the announced positive sizes is saved, and
the main file determines all the counters, every character array, and of every integer and float
array the leading part that has as many *bytes* as the array has *elements*. Missing: the rest of
the integer and float arrays, see `C134_words_lost_refuted`. -/
theorem C134_file_partial {M R : Type} (t t' : Training M R) (hs : Sized t) (hs' : Sized t') (hp : Positive t) (hp' : Positive t') :
    (∃ f, mainFile t = some f) ∧ (mainFile t = mainFile t' →
      t.models.length = t'.models.length ∧ t.rmodels.length = t'.rmodels.length ∧ t.epochs = t'.epochs ∧ t.inst = t'.inst ∧
      t.charSize = t'.charSize ∧ t.intSize = t'.intSize ∧ t.floatSize = t'.floatSize ∧ t.chars = t'.chars ∧
      t.ints.length = t'.ints.length ∧ t.floats.length = t'.floats.length ∧
      (∀ j, j < t.ints.length → ((image (t.ints.getD j [])).take t.intSize = (image (t'.ints.getD j [])).take t.intSize)) ∧
      (∀ j, j < t.floats.length → ((image (t.floats.getD j [])).take t.floatSize = (image (t'.floats.getD j [])).take t.floatSize))) := by
  refine ⟨⟨_, mainFile_run t hs hp⟩, fun h => ?_⟩
  rw [mainFile_run t hs hp, mainFile_run t' hs' hp'] at h
  have h := Option.some.inj h
  have hh : header t = header t' ∧ _ := List.append_inj (by simpa only [List.append_assoc] using h) rfl
  obtain ⟨hh, hbody⟩ := hh
  unfold header at hh
  simp only [List.append_assoc] at hh
  obtain ⟨e1, hh⟩ := List.append_inj hh rfl
  obtain ⟨e2, hh⟩ := List.append_inj hh rfl
  obtain ⟨e3, hh⟩ := List.append_inj hh rfl
  obtain ⟨e4, hh⟩ := List.append_inj hh rfl
  obtain ⟨e5, hh⟩ := List.append_inj hh rfl
  obtain ⟨e6, hh⟩ := List.append_inj hh rfl
  obtain ⟨e7, hh⟩ := List.append_inj hh rfl
  obtain ⟨e8, hh⟩ := List.append_inj hh rfl
  obtain ⟨e9, e10⟩ := List.append_inj hh rfl
  have e1 := int4_inj hs.models hs'.models e1
  have e2 := int4_inj hs.rmodels hs'.rmodels e2
  have e3 := int4_inj hs.epochs hs'.epochs e3
  have e4 := int4_inj hs.inst hs'.inst e4
  have e5 := int4_inj hs.nchars hs'.nchars e5
  have e6 := int4_inj hs.nints hs'.nints e6
  have e7 := int4_inj hs.nfloats hs'.nfloats e7
  have e8 := int4_inj hs.charSize hs'.charSize e8
  have e9 := int4_inj hs.intSize hs'.intSize e9
  have e10 := int4_inj hs.floatSize hs'.floatSize e10
  rw [← e8, ← e9, ← e10] at hbody
  have tk : ∀ (l : List Bytes) (k : Nat), (∀ m ∈ l, k ≤ m.length) → ∀ m ∈ l.map (List.take k), m.length = k := by
    intro l k hl m hm
    obtain ⟨a, ha, rfl⟩ := List.mem_map.1 hm
    rw [List.length_take, Nat.min_eq_left (hl a ha)]
  have im : ∀ (l : List (List Word)) (k : Nat), (∀ m ∈ l, m.length = k) → ∀ m ∈ l.map image, k ≤ m.length := by
    intro l k hl m hm
    obtain ⟨a, ha, rfl⟩ := List.mem_map.1 hm
    rw [image_len, hl a ha]; omega
  obtain ⟨c, hbody⟩ := flatten_inj (size := t.charSize) _ _ _ _ (by rw [List.length_map, List.length_map, e5])
    (tk _ _ (fun m hm => Nat.le_of_eq (hs.chars m hm).symm)) (tk _ _ (fun m hm => Nat.le_of_eq (by rw [hs'.chars m hm, e8]))) hbody
  have hfi : (∀ m ∈ t'.ints, m.length = t.intSize) := fun m hm => (hs'.ints m hm).trans e9.symm
  have hff : (∀ m ∈ t'.floats, m.length = t.floatSize) := fun m hm => (hs'.floats m hm).trans e10.symm
  obtain ⟨i, hbody⟩ := flatten_inj (size := t.intSize) _ _ _ _ (by simp only [List.length_map, e6])
    (tk _ _ (im _ _ hs.ints)) (tk _ _ (im _ _ hfi)) hbody
  obtain ⟨f, -⟩ := flatten_inj (size := t.floatSize) _ _ [] [] (by simp only [List.length_map, e7])
    (tk _ _ (im _ _ hs.floats)) (tk _ _ (im _ _ hff)) (by rw [List.append_nil, List.append_nil]; exact hbody)
  have pick : ∀ (l l' : List (List Word)) (k : Nat), l.length = l'.length →
      (l.map image).map (List.take k) = (l'.map image).map (List.take k) →
      ∀ j, j < l.length → ((image (l.getD j [])).take k = (image (l'.getD j [])).take k) := by
    intro l l' k hl h j hj
    have h2 := congrArg (fun m : List Bytes => m[j]?) h
    simp only [List.getElem?_map, List.getElem?_eq_getElem hj, List.getElem?_eq_getElem (hl ▸ hj), Option.map_some] at h2
    have h3 := Option.some.inj h2
    rw [List.getD_eq_getElem _ _ hj, List.getD_eq_getElem _ _ (hl ▸ hj)]
    exact h3
  refine ⟨e1, e2, e3, e4, e8, e9, e10, ?_, e6, e7, pick _ _ _ e6 i, pick _ _ _ e7 f⟩
  have tkid : ∀ (l : List Bytes), (∀ m ∈ l, m.length = t.charSize) → l.map (List.take t.charSize) = l := by
    intro l hl
    exact (List.map_congr_left (g := id) (fun m hm => by rw [← hl m hm, List.take_length]; rfl)).trans (List.map_id l)
  rw [tkid _ hs.chars, tkid _ (fun m hm => (hs'.chars m hm).trans e8.symm)] at c
  exact c

theorem saveAll_spec {M : Type} (sm : M → Bytes) : ∀ (l : List M) (count : Nat) (d : Disk),
    (saveAll sm l count d).1 = count + l.length ∧
    (∀ i, (h : i < l.length) → (saveAll sm l count d).2 (count + i) = some (sm l[i])) ∧
    (∀ k, k < count ∨ count + l.length ≤ k → (saveAll sm l count d).2 k = d k) := by
  intro l
  induction l with
  | nil => intro count d; exact ⟨rfl, fun i h => absurd h (by simp), fun _ _ => rfl⟩
  | cons m l ih =>
    intro count d
    obtain ⟨h1, h2, h3⟩ := ih (count + 1) (Function.update d count (some (sm m)))
    refine ⟨?_, ?_, ?_⟩
    · show (saveAll sm l (count + 1) _).1 = _
      rw [h1, List.length_cons]; omega
    · intro i hi
      show (saveAll sm l (count + 1) _).2 _ = _
      cases i with
      | zero => rw [h3 _ (Or.inl (by omega)), Nat.add_zero, Function.update_self]; rfl
      | succ i =>
        have := h2 i (by simpa using hi)
        rw [show count + (i + 1) = count + 1 + i by omega, this]; rfl
    · intro k hk
      show (saveAll sm l (count + 1) _).2 _ = _
      rw [List.length_cons] at hk
      rw [h3 k (by omega), Function.update_of_ne (by omega)]

/-- **C134.** Saving a training under the number `n` puts the main file under `n`, the models
under the following numbers in order, then the recurrent models, and touches no other file. -/
theorem C134_models {M R : Type} (sm : M → Bytes) (sr : R → Bytes) (t : Training M R) (n : Nat) (d d' : Disk)
    (h : saveTraining sm sr t n d = some d') :
    (∃ f, mainFile t = some f ∧ d' n = some f) ∧
    (∀ i, (hi : i < t.models.length) → d' (n + 1 + i) = some (sm t.models[i])) ∧
    (∀ i, (hi : i < t.rmodels.length) → d' (n + 1 + t.models.length + i) = some (sr t.rmodels[i])) ∧
    (∀ k, k < n ∨ n + t.models.length + t.rmodels.length < k → d' k = d k) := by
  unfold saveTraining at h
  obtain ⟨f, hf, h⟩ := Option.bind_eq_some_iff.1 h
  obtain ⟨a1, a2, a3⟩ := saveAll_spec sm t.models (n + 1) (Function.update d n (some f))
  obtain ⟨b1, b2, b3⟩ := saveAll_spec sr t.rmodels (saveAll sm t.models (n + 1) (Function.update d n (some f))).1
    (saveAll sm t.models (n + 1) (Function.update d n (some f))).2
  have hd : d' = _ := (Option.some.inj h).symm
  rw [a1] at b2 b3 hd
  refine ⟨⟨f, hf, ?_⟩, ?_, ?_, ?_⟩
  · rw [hd, b3 _ (Or.inl (by omega)), a3 _ (Or.inl (by omega)), Function.update_self]
  · intro i hi
    rw [hd, b3 _ (Or.inl (by omega)), a2 i hi]
  · intro i hi
    rw [hd, b2 i hi]
  · intro k hk
    rw [hd, b3 _ (by omega), a3 _ (by omega), Function.update_of_ne (by omega)]

/-- **C134 refuted.** Of every integer array of at least two elements the last element is never
saved: replacing it by anything gives the same files. (The same holds for float arrays, which the
code writes with the same statement.) -/
theorem C134_words_lost_refuted {M R : Type} (sm : M → Bytes) (sr : R → Bytes) (t : Training M R) (hs : Sized t)
    (a : List Word) (w w' : Word) (rest : List (List Word)) (ha : 0 < a.length) (hi : t.ints = (a ++ [w]) :: rest) (n : Nat) (d : Disk) :
    saveTraining sm sr { t with ints := (a ++ [w']) :: rest } n d = saveTraining sm sr t n d := by
  have hsz : t.intSize = a.length + 1 := by
    rw [← hs.ints (a ++ [w]) (by rw [hi]; simp)]; simp
  have himg : ∀ v : Word, image (a ++ [v]) = image a ++ v.bytes := by
    intro v; unfold image; simp
  have hw : ∀ v : Word, fwrite1 (image (a ++ [v])) t.intSize = some ((image a).take t.intSize) := by
    intro v
    unfold fwrite1
    rw [if_neg (by omega), if_pos (by rw [image_len, hsz, List.length_append, List.length_singleton]; omega), himg,
      List.take_append_of_le_length (by rw [image_len]; omega)]
  have hm : mainFile { t with ints := (a ++ [w']) :: rest } = mainFile t := by
    unfold mainFile
    have h1 : block t.intSize (((a ++ [w']) :: rest).map image) = block t.intSize (t.ints.map image) := by
      rw [hi, List.map_cons, List.map_cons, block.eq_2, block.eq_2, hw w, hw w']
    have h2 : header { t with ints := (a ++ [w']) :: rest } = header t := by
      unfold header
      rw [hi]; rfl
    show (block t.charSize t.chars).bind (fun c => (block t.intSize (((a ++ [w']) :: rest).map image)).bind fun i => _) = _
    rw [h1, h2]; rfl
  unfold saveTraining
  rw [hm]

/-- **C134 refuted.** Arrays of size zero: the program exits instead of saving. -/
theorem C134_empty_arrays_refuted {M R : Type} (sm : M → Bytes) (sr : R → Bytes) (t : Training M R) (n : Nat) (d : Disk)
    (h : (t.chars ≠ [] ∧ t.charSize = 0) ∨ (t.ints ≠ [] ∧ t.intSize = 0) ∨ (t.floats ≠ [] ∧ t.floatSize = 0)) :
    saveTraining sm sr t n d = none := by
  have hb : ∀ l : List Bytes, l ≠ [] → block 0 l = none := by
    intro l hl
    cases l with
    | nil => exact absurd rfl hl
    | cons a l => rfl
  have hm : ∀ l : List (List Word), l ≠ [] → l.map image ≠ [] := fun l hl h => hl (List.map_eq_nil_iff.1 h)
  have : mainFile t = none := by
    unfold mainFile
    rcases h with ⟨h, h0⟩ | ⟨h, h0⟩ | ⟨h, h0⟩
    · rw [h0, hb _ h]; rfl
    · rw [h0, hb _ (hm _ h)]
      cases block t.charSize t.chars <;> rfl
    · rw [h0, hb _ (hm _ h)]
      cases block t.charSize t.chars with
      | none => rfl
      | some c => cases block t.intSize (t.ints.map image) <;> rfl
  unfold saveTraining
  rw [this]; rfl

/-- **C134 refuted.** Two trainings saved under numbers that are too close: the second save
replaces a model of the first, so the files of the first no longer hold its models. Spelled out
for a second save whose number is that of the `i`-th model. -/
theorem C134_overlap_refuted {M R : Type} (sm : M → Bytes) (sr : R → Bytes) (t t' : Training M R) (n i : Nat) (d d1 d2 : Disk)
    (hi : i < t.models.length) (h1 : saveTraining sm sr t n d = some d1) (h2 : saveTraining sm sr t' (n + 1 + i) d1 = some d2) :
    d1 (n + 1 + i) = some (sm t.models[i]) ∧ ∃ f, mainFile t' = some f ∧ d2 (n + 1 + i) = some f :=
  ⟨(C134_models sm sr t n d d1 h1).2.1 i hi, (C134_models sm sr t' (n + 1 + i) d1 d2 h2).1⟩

/-! ### Concrete cases -/

/-- A training with one model, one recurrent model, a string and two integers. -/
def exTraining : Training Nat Nat where
  models := [7]
  rmodels := [8]
  epochs := 300
  inst := 2
  chars := [[104, 105]]
  ints := [[⟨1, 0, 0, 0⟩, ⟨2, 0, 0, 0⟩]]
  floats := []
  charSize := 2
  intSize := 2
  floatSize := 0

theorem exTraining_sized : Sized exTraining where
  chars := by decide
  ints := by decide
  floats := by decide
  models := by decide
  rmodels := by decide
  epochs := by decide
  inst := by decide
  nchars := by decide
  nints := by decide
  nfloats := by decide
  charSize := by decide
  intSize := by decide
  floatSize := by decide

/-- The example is positive, so `C134_file_partial` applies. -/
example : Positive exTraining := ⟨by decide, by decide, by decide⟩

/-- `C134_models` applies to the example; the header says 300 epochs. -/
example : ∃ d', saveTraining (fun m => [m]) (fun m => [m]) exTraining 5 (fun _ => none) = some d' ∧ d' 6 = some [7] ∧ d' 7 = some [8] ∧
    d' 5 = some ([1,0,0,0, 1,0,0,0, 44,1,0,0, 2,0,0,0, 1,0,0,0, 1,0,0,0, 0,0,0,0, 2,0,0,0, 2,0,0,0, 0,0,0,0] ++ [104, 105] ++ [1, 0]) :=
  ⟨_, rfl, by decide, by decide, by decide⟩

/-- `C134_words_lost_refuted` applies to the example: the second integer may be anything. -/
example (w' : Word) (d : Disk) : saveTraining (fun m => [m]) (fun m => [m]) { exTraining with ints := [[⟨1, 0, 0, 0⟩, w']] } 5 d =
    saveTraining (fun m => [m]) (fun m => [m]) exTraining 5 d :=
  C134_words_lost_refuted _ _ exTraining exTraining_sized [⟨1, 0, 0, 0⟩] ⟨2, 0, 0, 0⟩ w' [] (by decide) rfl 5 d

/-- `C134_empty_arrays_refuted` applies when the example announces strings of length zero. -/
example (d : Disk) : saveTraining (fun m => [m]) (fun m => [m]) { exTraining with charSize := 0 } 5 d = none :=
  C134_empty_arrays_refuted _ _ _ 5 d (Or.inl ⟨by decide, rfl⟩)

/-- `C134_overlap_refuted` applies: the example saved under 5 and then under 6. -/
example : ∃ d1 d2, saveTraining (fun m => [m]) (fun m => [m]) exTraining 5 (fun _ => none) = some d1 ∧
    saveTraining (fun m => [m]) (fun m => [m]) exTraining 6 d1 = some d2 ∧ d1 6 ≠ d2 6 :=
  ⟨_, _, rfl, rfl, by decide⟩

end LLab.TrainSave
