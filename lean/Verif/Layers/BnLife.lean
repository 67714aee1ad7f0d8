import Mathlib.Data.List.Nodup
import Verif.Layers.HeapLib

/-!
The life of a normalisation layer in memory: construction, copying, pasting, resetting, stripping for
inference and freeing (`/repo/src/batch_norm_layers.c` 35-83, 169-253, 458-559, 601-618).
Property C156.

Memory is that of `Verif/Layers/FclLife.lean`. A matrix of the layer is a table of row pointers; the
table is a block of its own, the row pointers it holds are pointers of the layer here.
-/

namespace LLab.BnLife

open FclLife (Mem Reads Slot)
open Heap

variable {F : Type} [Field F]

/-! ### Model -/

/-- The five matrices of `struct bn` (`/repo/src/llab.h`): `input_vectors`, `temp_vectors`, `error2`,
`temp1`, `outputs`. -/
inductive BMat where
  | input | temp | error2 | temp1 | outputs
deriving DecidableEq

/-- The thirteen vectors of `struct bn`. -/
inductive BVec where
  | gamma (s : Slot)
  | beta (s : Slot)
  | mean | var | temp2
deriving DecidableEq

/-- The pointers of `struct bn`: tables, rows and vectors. -/
inductive BFld where
  | tab (t : BMat)
  | row (t : BMat) (i : Nat)
  | vec (v : BVec)
deriving DecidableEq

/-- A normalisation layer. -/
structure Bn where
  batch : Nat
  dim : Nat
  ptr : BFld → Option Nat

/-- The number of cells of a block. -/
def size (batch dim : Nat) : BFld → Nat
  | .tab _ => batch
  | _ => dim

/-- All matrices. -/
def mats : List BMat := [.input, .temp, .error2, .temp1, .outputs]

/-- All vectors, in the order of `/repo/src/batch_norm_layers.c` 53-65. -/
def vecs : List BVec :=
  [.gamma .val, .gamma .d, .gamma .d1, .gamma .d2, .gamma .d3, .beta .val, .beta .d, .beta .d1, .beta .d2, .beta .d3, .mean, .var, .temp2]

/-- The allocations of `batch_normalization` in order (`/repo/src/batch_norm_layers.c` 47-73). -/
def order (batch : Nat) : List BFld :=
  mats.map .tab ++ vecs.map .vec ++ (List.range batch).flatMap (fun i => mats.map fun t => .row t i)

/-- The first contents (`/repo/src/batch_norm_layers.c` 47-77): zero, and one for the scale. The cells
of a table are its row pointers, which are kept apart here. -/
def first (batch dim : Nat) (x : BFld) : Arr F :=
  ⟨size batch dim x, match x with
    | .vec (.gamma .val) => fun _ => 1
    | _ => fun _ => 0⟩

/-- `batch_normalization` (`/repo/src/batch_norm_layers.c` 35-83). `none`: `exit(1)`. -/
def construct (m : Mem F) (batch dim : Nat) : Option (Mem F × Bn) :=
  if batch = 0 ∨ dim = 0 then none
  else
    let s := buildAll (fun _ => true) (first batch dim) (order batch) m
    some (s.1, ⟨batch, dim, s.2⟩)

/-- The arrays `copy_bn` and `paste_bn` copy (`/repo/src/batch_norm_layers.c` 462-471, 605-615; the
second copy of `d3_beta` in `paste_bn` repeats the first). -/
def copyOrder : List BFld :=
  [.vec (.gamma .val), .vec (.gamma .d), .vec (.gamma .d1), .vec (.gamma .d2), .vec (.gamma .d3), .vec (.beta .val), .vec (.beta .d),
    .vec (.beta .d1), .vec (.beta .d2), .vec (.beta .d3)]

/-- `copy_bn` (`/repo/src/batch_norm_layers.c` 458-475). -/
def Bn.dup (m : Mem F) (b : Bn) : Option (Mem F × Bn) := do
  let (m, c) ← construct m b.batch b.dim
  let m ← copyAll b.ptr c.ptr (size b.batch b.dim) (fun _ => true) copyOrder m
  some (m, c)

/-- `paste_bn` (`/repo/src/batch_norm_layers.c` 601-618). -/
def Bn.paste (m : Mem F) (b c : Bn) : Option (Mem F) := copyAll b.ptr c.ptr (size b.batch b.dim) (fun _ => true) copyOrder m

/-- The write loops of `reset_bn` (`/repo/src/batch_norm_layers.c` 503-528); with `grad` false those of
`reset_bn_except_partial_derivatives` (537-559). -/
def resetSteps (grad : Bool) (b : Bn) : List (Wr BFld F) :=
  (List.range b.batch).flatMap (fun i => [⟨.row .input i, true, fun _ => 0⟩, ⟨.row .temp i, true, fun _ => 0⟩, ⟨.row .outputs i, true, fun _ => 0⟩,
    ⟨.row .error2 i, (b.ptr (.tab .error2)).isSome, fun _ => 0⟩, ⟨.row .temp1 i, (b.ptr (.tab .temp1)).isSome, fun _ => 0⟩]) ++
  [⟨.vec (.gamma .d), grad && (b.ptr (.vec (.gamma .d))).isSome, fun _ => 0⟩, ⟨.vec (.beta .d), grad && (b.ptr (.vec (.beta .d))).isSome, fun _ => 0⟩,
    ⟨.vec .temp2, (b.ptr (.vec .temp2)).isSome, fun _ => 0⟩, ⟨.vec .mean, true, fun _ => 0⟩, ⟨.vec .var, true, fun _ => 0⟩]

/-- `reset_bn` (`/repo/src/batch_norm_layers.c` 503-528) and `reset_bn_except_partial_derivatives`
(537-559). -/
def Bn.reset (grad : Bool) (m : Mem F) (b : Bn) : Option (Mem F) := writeAll b.ptr (size b.batch b.dim) (resetSteps grad b) m

/-- `free_matrix` (`/repo/src/utils.c` 665-675), the blocks it frees: the rows, then the table. -/
def matrixOrder (batch : Nat) (t : BMat) : List BFld := (List.range batch).map (.row t) ++ [.tab t]

/-- The order of `free_batch_normalization` (`/repo/src/batch_norm_layers.c` 233-252). -/
def freeOrder (batch : Nat) : List BFld :=
  mats.flatMap (matrixOrder batch) ++ [.vec (.gamma .val), .vec (.gamma .d), .vec (.gamma .d1), .vec (.gamma .d2), .vec (.gamma .d3),
    .vec (.beta .val), .vec (.beta .d), .vec (.beta .d1), .vec (.beta .d2), .vec (.beta .d3), .vec .temp2, .vec .mean, .vec .var]

/-- `free_batch_normalization` (`/repo/src/batch_norm_layers.c` 229-253). -/
def Bn.free (m : Mem F) (b : Bn) : Option (Mem F) := freeAll b.ptr (freeOrder b.batch) m

/-- What `make_the_bn_only_for_ff` frees (`/repo/src/batch_norm_layers.c` 172-184). -/
def stripOrder (batch : Nat) : List BFld :=
  [BMat.error2, .temp1].flatMap (matrixOrder batch) ++ [.vec (.gamma .d), .vec (.gamma .d1), .vec (.gamma .d2), .vec (.gamma .d3), .vec (.beta .d),
    .vec (.beta .d1), .vec (.beta .d2), .vec (.beta .d3), .vec .temp2]

/-- `make_the_bn_only_for_ff` (`/repo/src/batch_norm_layers.c` 169-196); with the table of a matrix null
its rows cannot be named any more. -/
def Bn.strip (m : Mem F) (b : Bn) : Option (Mem F × Bn) := do
  let m ← freeAll b.ptr (stripOrder b.batch) m
  some (m, { b with ptr := fun x => if x ∈ stripOrder b.batch then none else b.ptr x })

/-- The order of `free_the_bn_only_for_ff` (`/repo/src/batch_norm_layers.c` 209-218). -/
def freeStripOrder (batch : Nat) : List BFld :=
  [BMat.input, .temp, .outputs].flatMap (matrixOrder batch) ++ [.vec (.gamma .val), .vec (.beta .val), .vec .mean, .vec .var]

/-- `free_the_bn_only_for_ff` (`/repo/src/batch_norm_layers.c` 205-220). -/
def Bn.freeStrip (m : Mem F) (b : Bn) : Option (Mem F) := freeAll b.ptr (freeStripOrder b.batch) m

/-! ### Specification -/

/-- The blocks of a layer. -/
def Part (batch : Nat) : BFld → Prop
  | .row _ i => i < batch
  | _ => True

/-- The layer owns its blocks and has no others. -/
structure Own (m : Mem F) (b : Bn) : Prop where
  owns : Owns m b.ptr (size b.batch b.dim)
  part : ∀ x a, b.ptr x = some a → Part b.batch x

/-- Nothing is missing. -/
def Full (b : Bn) : Prop := ∀ x, Part b.batch x → (b.ptr x).isSome

/-- Scale and shift with their gradients and optimiser arrays. -/
def learned : BFld → Bool
  | .vec (.gamma _) | .vec (.beta _) => true
  | _ => false

/-- What only back-propagation and the optimiser use. -/
def backward : BFld → Bool
  | .tab .error2 | .tab .temp1 | .row .error2 _ | .row .temp1 _ | .vec .temp2 => true
  | .vec (.gamma s) | .vec (.beta s) => s ≠ .val
  | _ => false

/-! ### Lists -/

theorem mem_order {batch : Nat} {x : BFld} (h : Part batch x) : x ∈ order batch := by
  unfold order
  cases x with
  | tab t => cases t <;> simp [mats]
  | row t i =>
    refine List.mem_append_right _ (List.mem_flatMap.2 ⟨i, List.mem_range.2 h, ?_⟩)
    cases t <;> simp [mats]
  | vec v =>
    refine List.mem_append_left _ (List.mem_append_right _ (List.mem_map.2 ⟨v, ?_, rfl⟩))
    cases v with
    | gamma s => cases s <;> decide
    | beta s => cases s <;> decide
    | _ => decide

theorem order_part {batch : Nat} {x : BFld} (h : x ∈ order batch) : Part batch x := by
  unfold order at h
  simp only [List.mem_append, List.mem_map, List.mem_flatMap, List.mem_range] at h
  rcases h with (⟨t, _, rfl⟩ | ⟨v, _, rfl⟩) | ⟨i, hi, t, _, rfl⟩
  · trivial
  · trivial
  · exact hi

theorem order_nodup (batch : Nat) : (order batch).Nodup := by
  unfold order
  rw [List.nodup_append]
  refine ⟨by decide, ?_, fun x hx y hy hxy => ?_⟩
  · refine nodup_flatMap_key (fun x => match x with | .row _ i => i | _ => 0) List.nodup_range (fun i _ => ?_) (fun i _ x hx => ?_)
    · simp [mats]
    · obtain ⟨t, _, rfl⟩ := List.mem_map.1 hx
      rfl
  · subst hxy
    obtain ⟨i, _, hi⟩ := List.mem_flatMap.1 hy
    obtain ⟨t, _, rfl⟩ := List.mem_map.1 hi
    simp [mats, vecs] at hx

theorem matrixOrder_nodup (batch : Nat) (t : BMat) : (matrixOrder batch t).Nodup := by
  unfold matrixOrder
  rw [List.nodup_append]
  refine ⟨List.Nodup.map (fun i j h => by simpa using h) List.nodup_range, by simp, fun x hx y hy hxy => ?_⟩
  obtain ⟨i, _, rfl⟩ := List.mem_map.1 hx
  simp only [List.mem_singleton] at hy
  rw [hy] at hxy
  cases hxy

/-- Blocks of matrices followed by vectors. -/
theorem mv_nodup (batch : Nat) {ms : List BMat} {vs : List BFld} (hm : ms.Nodup) (hv : vs.Nodup) (hvec : ∀ x ∈ vs, ∃ v, x = .vec v) :
    (ms.flatMap (matrixOrder batch) ++ vs).Nodup := by
  rw [List.nodup_append]
  refine ⟨nodup_flatMap_key (fun x => match x with | .row t _ => t | .tab t => t | _ => .input) hm (fun t _ => matrixOrder_nodup batch t)
    (fun t _ x hx => ?_), hv, fun x hx y hy hxy => ?_⟩
  · unfold matrixOrder at hx
    simp only [List.mem_append, List.mem_map, List.mem_singleton] at hx
    rcases hx with ⟨i, _, rfl⟩ | rfl <;> rfl
  · subst hxy
    obtain ⟨v, rfl⟩ := hvec x hy
    obtain ⟨t, _, ht⟩ := List.mem_flatMap.1 hx
    simp [matrixOrder] at ht

/-- Membership in blocks of matrices followed by vectors. -/
theorem mem_mv {batch : Nat} {ms : List BMat} {vs : List BFld} {x : BFld} (hvec : ∀ x ∈ vs, ∃ v, x = .vec v) :
    x ∈ ms.flatMap (matrixOrder batch) ++ vs ↔ match x with
      | .tab t => t ∈ ms
      | .row t i => t ∈ ms ∧ i < batch
      | .vec v => BFld.vec v ∈ vs := by
  rw [List.mem_append, List.mem_flatMap]
  cases x with
  | tab t =>
    simp only [matrixOrder, List.mem_append, List.mem_map, List.mem_singleton, reduceCtorEq, and_false, exists_false, false_or, BFld.tab.injEq]
    constructor
    · rintro (⟨s, hs, rfl⟩ | h)
      · exact hs
      · obtain ⟨v, hv⟩ := hvec _ h; cases hv
    · exact fun h => Or.inl ⟨t, h, rfl⟩
  | row t i =>
    simp only [matrixOrder, List.mem_append, List.mem_map, List.mem_range, List.mem_singleton, reduceCtorEq, or_false, BFld.row.injEq]
    constructor
    · rintro (⟨s, hs, j, hj, rfl, rfl⟩ | h)
      · exact ⟨hs, hj⟩
      · obtain ⟨v, hv⟩ := hvec _ h; cases hv
    · exact fun h => Or.inl ⟨t, h.1, i, h.2, rfl, rfl⟩
  | vec v =>
    simp [matrixOrder]

theorem freeOrder_nodup (batch : Nat) : (freeOrder batch).Nodup := mv_nodup batch (by decide) (by decide) (by simp)

theorem stripOrder_nodup (batch : Nat) : (stripOrder batch).Nodup := mv_nodup batch (by decide) (by decide) (by simp)

theorem freeStripOrder_nodup (batch : Nat) : (freeStripOrder batch).Nodup := mv_nodup batch (by decide) (by decide) (by simp)

theorem mem_freeOrder {batch : Nat} {x : BFld} (h : Part batch x) : x ∈ freeOrder batch := by
  rw [freeOrder, mem_mv (by simp)]
  cases x with
  | tab t => cases t <;> simp [mats]
  | row t i => exact ⟨by cases t <;> simp [mats], h⟩
  | vec v =>
    cases v with
    | gamma s => cases s <;> simp
    | beta s => cases s <;> simp
    | _ => simp

theorem mem_stripOrder {batch : Nat} {x : BFld} : x ∈ stripOrder batch ↔ backward x = true ∧ Part batch x := by
  rw [stripOrder, mem_mv (by simp)]
  cases x with
  | tab t => cases t <;> simp [backward, Part]
  | row t i => cases t <;> simp [backward, Part]
  | vec v =>
    cases v with
    | gamma s => cases s <;> simp [backward, Part]
    | beta s => cases s <;> simp [backward, Part]
    | _ => simp [backward, Part]

theorem mem_freeStripOrder {batch : Nat} {x : BFld} : x ∈ freeStripOrder batch ↔ backward x = false ∧ Part batch x := by
  rw [freeStripOrder, mem_mv (by simp)]
  cases x with
  | tab t => cases t <;> simp [backward, Part]
  | row t i => cases t <;> simp [backward, Part]
  | vec v =>
    cases v with
    | gamma s => cases s <;> simp [backward, Part]
    | beta s => cases s <;> simp [backward, Part]
    | _ => simp [backward, Part]

theorem copyOrder_nodup : copyOrder.Nodup := by decide

theorem mem_copyOrder {x : BFld} : x ∈ copyOrder ↔ learned x = true := by
  cases x with
  | tab t => simp [copyOrder, learned]
  | row t i => simp [copyOrder, learned]
  | vec v =>
    cases v with
    | gamma s => cases s <;> simp [copyOrder, learned]
    | beta s => cases s <;> simp [copyOrder, learned]
    | _ => simp [copyOrder, learned]

/-! ### C156 -/

/-- **C156 (construction).** The constructor gives a complete layer in fresh memory: scale one, all
else zero. -/
theorem C156_construct (m : Mem F) {batch dim : Nat} (hb : 0 < batch) (hd : 0 < dim) :
    ∃ m' b, construct m batch dim = some (m', b) ∧ b.batch = batch ∧ b.dim = dim ∧ Own m' b ∧ Full b ∧ (∀ a, a < m.next → m'.blk a = m.blk a) ∧
      m.next ≤ m'.next ∧ (∀ x a, b.ptr x = some a → m.next ≤ a) ∧ Reads m' (b.ptr (.vec (.gamma .val))) dim (fun _ => 1) ∧
      ∀ x, Part batch x → x ≠ .vec (.gamma .val) → Reads m' (b.ptr x) (size batch dim x) fun _ => 0 := by
  obtain ⟨h1, h2, _, _, h5, h6, _⟩ := buildAll_spec (fun _ => true) (first batch dim) (order batch) m (order_nodup batch)
  obtain ⟨o, rd⟩ := build_owned (fun _ => true) (first batch dim) m (order_nodup batch)
  refine ⟨_, ⟨batch, dim, _⟩, by rw [construct, if_neg (by omega)], rfl, rfl, ⟨o, fun x a hx => order_part (h5 x a hx).1⟩,
    fun x hx => h6 x (mem_order hx) rfl, h2, h1, fun x a hx => (h5 x a hx).2.2.1, rd _ (mem_order trivial) rfl, fun x hx hne => ?_⟩
  obtain ⟨a, A, ha, hA, hl, hc⟩ := rd x (mem_order hx) rfl
  refine ⟨a, A, ha, hA, hl, fun i hi => (hc i hi).trans ?_⟩
  unfold first
  cases x with
  | vec v =>
    cases v with
    | gamma s =>
      cases s with
      | val => exact absurd rfl hne
      | _ => rfl
    | _ => rfl
  | _ => rfl

omit [Field F] in
/-- **C156 (freeing).** Freeing a layer, complete or stripped, frees each of its blocks once and nothing
else. -/
theorem C156_free (m : Mem F) (b : Bn) (h : Own m b) :
    ∃ m', b.free m = some m' ∧ (∀ x a, b.ptr x = some a → m'.blk a = none) ∧ ∀ a, (∀ x, b.ptr x ≠ some a) → m'.blk a = m.blk a := by
  obtain ⟨m', e, _, g, fr⟩ := free_owned h.owns (freeOrder_nodup b.batch) fun x a hx => mem_freeOrder (h.part x a hx)
  exact ⟨m', e, g, fr⟩

/-- **C156 (no leak).** Building a layer and freeing it gives back all the memory. -/
theorem C156_no_leak (m : Mem F) (hm : m.Sane) {batch dim : Nat} (hb : 0 < batch) (hd : 0 < dim) :
    ∃ m1 b m2, construct m batch dim = some (m1, b) ∧ b.free m1 = some m2 ∧ m2.blk = m.blk := by
  obtain ⟨m2, e, h⟩ := build_free (fun _ => true) (first batch dim) m hm (order_nodup batch) (freeOrder_nodup batch) fun x hx _ =>
    mem_freeOrder (order_part hx)
  exact ⟨_, ⟨batch, dim, _⟩, m2, by rw [construct, if_neg (by omega)], e, h⟩

/-- **C156 (copying).** The copy owns complete fresh memory; scale, shift, their gradients and optimiser
arrays are those of the original where the original has them, everything else is in the initial state;
the original and all other memory are as before. -/
theorem C156_copy (m : Mem F) (b : Bn) (h : Own m b) (hb : 0 < b.batch) (hd : 0 < b.dim) :
    ∃ m' c, b.dup m = some (m', c) ∧ c.batch = b.batch ∧ c.dim = b.dim ∧ Own m' c ∧ Full c ∧ Own m' b ∧ Apart b.ptr c.ptr ∧
      (∀ a, a < m.next → m'.blk a = m.blk a) ∧
      (∀ x, learned x = true → ∀ a A, b.ptr x = some a → m.blk a = some A → Reads m' (c.ptr x) b.dim A.get) ∧
      ∀ x, Part b.batch x → learned x = false → Reads m' (c.ptr x) (size b.batch b.dim x) fun _ => 0 := by
  obtain ⟨m', q, e, e2, o, ob, ap, fr, fresh, full, _, rd, rd0⟩ := build_copy (fun _ => true) (first b.batch b.dim) (order := order b.batch)
    (l := copyOrder) m b.ptr (size b.batch b.dim) (fun _ => true) h.owns (fun _ _ => rfl) (order_nodup _) copyOrder_nodup
  refine ⟨m', ⟨b.batch, b.dim, q⟩, ?_, rfl, rfl, ⟨o, fun x a hx => order_part (fresh x a hx).1⟩, fun x hx => full x (mem_order hx) rfl,
    ⟨ob, h.part⟩, ap, fr, fun x hx a A hxa hA => ?_, fun x hx hl => ?_⟩
  · unfold Bn.dup construct
    rw [if_neg (by omega)]
    subst e
    simp only [Option.bind_eq_bind, Option.bind_some, e2]
  · have hpart : Part b.batch x := h.part x a hxa
    have := rd x (mem_copyOrder.2 hx) rfl a A hxa hA (full x (mem_order hpart) rfl)
    cases x with
    | vec v => exact this
    | _ => cases hx
  · obtain ⟨a, A, ha, hA, hlen, hc⟩ := rd0 x (mem_order hx) rfl (Or.inr (Or.inl fun hm => by rw [mem_copyOrder.1 hm] at hl; cases hl))
    refine ⟨a, A, ha, hA, hlen, fun i hi => (hc i hi).trans ?_⟩
    unfold first
    cases x with
    | vec v =>
      cases v with
      | gamma s => cases hl
      | _ => rfl
    | _ => rfl

omit [Field F] in
/-- **C156 (pasting).** Pasting between layers of the same width copies exactly the learned arrays that
both have; the source and the rest of memory are as before. -/
theorem C156_paste_partial (m : Mem F) (b c : Bn) (hb : Own m b) (hc : Own m c) (hap : Apart b.ptr c.ptr) (hdim : b.dim = c.dim) :
    ∃ m', b.paste m c = some m' ∧ Own m' b ∧ Own m' c ∧ Intact m m' b.ptr ∧
      (∀ x, learned x = true → ∀ a A e, b.ptr x = some a → m.blk a = some A → c.ptr x = some e → Reads m' (c.ptr x) b.dim A.get) ∧
      ∀ a, (∀ x, learned x = true → c.ptr x ≠ some a) → m'.blk a = m.blk a := by
  have hl : ∀ x, learned x = true → size b.batch b.dim x = size c.batch c.dim x := by
    intro x hx
    cases x with
    | vec v => exact hdim
    | _ => cases hx
  have h0 : copyAll b.ptr c.ptr (size b.batch b.dim) (fun _ => true) copyOrder m = copyAll b.ptr c.ptr (size b.batch b.dim) learned copyOrder m := rfl
  obtain ⟨m', e, o1, o2, _, fr, rd⟩ := copyAll_spec b.ptr c.ptr (size b.batch b.dim) (size c.batch c.dim) learned hap hl copyOrder m hb.owns hc.owns
    copyOrder_nodup
  refine ⟨m', h0.trans e, ⟨o1, hb.part⟩, ⟨o2, hc.part⟩, fun x a hx => fr a fun y _ _ _ hy => hap x y a hx hy, fun x hx a A d hxa hA hxd => ?_,
    fun a ha => fr a fun x _ hx _ => ha x hx⟩
  have := rd x (mem_copyOrder.2 hx) hx a A hxa hA (by simp [hxd])
  cases x with
  | vec v => exact this
  | _ => cases hx

omit [Field F] in
/-- **C156 (pasting, refuted for other widths).** `paste_bn` does not compare the widths: pasting a
layer on a narrower one writes out of bounds. -/
theorem C156_paste_refuted (m : Mem F) (b c : Bn) (hb : Own m b) (hc : Own m c) (fb : Full b) (fc : Full c) (hdim : c.dim < b.dim) :
    b.paste m c = none :=
  copyAll_none _ _ _ (size c.batch c.dim) _ _ m hb.owns hc.owns
    ⟨.vec (.gamma .val), by decide, rfl, fb _ trivial, fc _ trivial, hdim⟩

theorem resetSteps_nodup (grad : Bool) (b : Bn) : ((resetSteps (F := F) grad b).map Wr.fld).Nodup := by
  unfold resetSteps
  rw [List.map_append, List.nodup_append, List.map_flatMap]
  refine ⟨nodup_flatMap_key (fun x => match x with | .row _ i => i | _ => 0) List.nodup_range (fun i _ => by simp) (fun i _ x hx => ?_), ?_,
    fun x hx y hy hxy => ?_⟩
  · simp only [List.map_cons, List.map_nil, List.mem_cons, List.not_mem_nil, or_false] at hx
    rcases hx with rfl | rfl | rfl | rfl | rfl <;> rfl
  · simp only [List.map_cons, List.map_nil]
    decide
  · subst hxy
    obtain ⟨i, _, hi⟩ := List.mem_flatMap.1 hx
    simp only [List.map_cons, List.map_nil, List.mem_cons, List.not_mem_nil, or_false] at hi hy
    rcases hi with rfl | rfl | rfl | rfl | rfl <;> simp at hy

/-- The layer can be reset: what the forward pass needs is there, and a matrix whose table is there has
all its rows. -/
structure Usable (b : Bn) : Prop where
  fwd : ∀ x, Part b.batch x → backward x = false → (b.ptr x).isSome
  rows : ∀ t i, i < b.batch → (b.ptr (.tab t)).isSome → (b.ptr (.row t i)).isSome

theorem Full.usable {b : Bn} (h : Full b) : Usable b := ⟨fun x hx _ => h x hx, fun _ i hi _ => h (.row _ i) hi⟩

/-- **C156 (resetting).** Resetting a complete or stripped layer clears all work arrays, and the
gradients too with `reset_bn`; scale, shift and optimiser arrays are as before, and with
`reset_bn_except_partial_derivatives` the gradients too. -/
theorem C156_reset (grad : Bool) (m : Mem F) (b : Bn) (h : Own m b) (hu : Usable b) :
    ∃ m', b.reset grad m = some m' ∧ Own m' b ∧
      (∀ x a, b.ptr x = some a → (learned x = true ∧ (grad = false ∨ (x ≠ .vec (.gamma .d) ∧ x ≠ .vec (.beta .d)))) → m'.blk a = m.blk a) ∧
      (grad = true → ∀ x ∈ [BFld.vec (.gamma .d), .vec (.beta .d)], (b.ptr x).isSome → Reads m' (b.ptr x) b.dim fun _ => 0) ∧
      (∀ t i, i < b.batch → (b.ptr (.tab t)).isSome → Reads m' (b.ptr (.row t i)) b.dim fun _ => 0) ∧
      (∀ x ∈ [BFld.vec .mean, .vec .var, .vec .temp2], (b.ptr x).isSome → Reads m' (b.ptr x) b.dim fun _ => 0) ∧
      ∀ a, (∀ x, b.ptr x ≠ some a) → m'.blk a = m.blk a := by
  have hmem : ∀ s, s ∈ resetSteps (F := F) grad b ↔ (∃ i < b.batch, s = ⟨.row .input i, true, fun _ => 0⟩ ∨ s = ⟨.row .temp i, true, fun _ => 0⟩ ∨
      s = ⟨.row .outputs i, true, fun _ => 0⟩ ∨ s = ⟨.row .error2 i, (b.ptr (.tab .error2)).isSome, fun _ => 0⟩ ∨
      s = ⟨.row .temp1 i, (b.ptr (.tab .temp1)).isSome, fun _ => 0⟩) ∨
      s = ⟨.vec (.gamma .d), grad && (b.ptr (.vec (.gamma .d))).isSome, fun _ => 0⟩ ∨ s = ⟨.vec (.beta .d), grad && (b.ptr (.vec (.beta .d))).isSome, fun _ => 0⟩ ∨
      s = ⟨.vec .temp2, (b.ptr (.vec .temp2)).isSome, fun _ => 0⟩ ∨ s = ⟨.vec .mean, true, fun _ => 0⟩ ∨ s = ⟨.vec .var, true, fun _ => 0⟩ := by
    intro s
    simp only [resetSteps, List.mem_append, List.mem_flatMap, List.mem_range, List.mem_cons, List.not_mem_nil, or_false]
  obtain ⟨m', e, o, _, fr, rd⟩ := writeAll_spec b.ptr (size b.batch b.dim) (resetSteps grad b) m h.owns (resetSteps_nodup grad b) (by
    intro s hs hon
    rcases (hmem s).1 hs with ⟨i, hi, rfl | rfl | rfl | rfl | rfl⟩ | rfl | rfl | rfl | rfl | rfl
    · exact hu.fwd _ hi rfl
    · exact hu.fwd _ hi rfl
    · exact hu.fwd _ hi rfl
    · exact hu.rows _ i hi hon
    · exact hu.rows _ i hi hon
    · exact (Bool.and_eq_true _ _ ▸ hon).2
    · exact (Bool.and_eq_true _ _ ▸ hon).2
    · exact hon
    · exact hu.fwd (.vec .mean) trivial rfl
    · exact hu.fwd (.vec .var) trivial rfl)
  refine ⟨m', e, ⟨o, h.part⟩, fun x a hxa hx => fr a fun s hs hon hsa => ?_, fun hg x hx hxs => ?_, fun t i hi ht => ?_, fun x hx hxs => ?_,
    fun a ha => fr a fun s _ _ => ha _⟩
  · have := h.owns.inj _ _ a hsa hxa
    subst this
    rcases (hmem s).1 hs with ⟨i, hi, rfl | rfl | rfl | rfl | rfl⟩ | rfl | rfl | rfl | rfl | rfl
    · cases hx.1
    · cases hx.1
    · cases hx.1
    · cases hx.1
    · cases hx.1
    · rcases hx.2 with hg | hg
      · subst hg; cases hon
      · exact hg.1 rfl
    · rcases hx.2 with hg | hg
      · subst hg; cases hon
      · exact hg.2 rfl
    · cases hx.1
    · cases hx.1
    · cases hx.1
  · subst hg
    simp only [List.mem_cons, List.not_mem_nil, or_false] at hx
    rcases hx with rfl | rfl
    · exact rd ⟨.vec (.gamma .d), true && (b.ptr (.vec (.gamma .d))).isSome, fun _ => 0⟩ ((hmem _).2 (by simp)) (by simp [hxs])
    · exact rd ⟨.vec (.beta .d), true && (b.ptr (.vec (.beta .d))).isSome, fun _ => 0⟩ ((hmem _).2 (by simp)) (by simp [hxs])
  · cases t with
    | input => exact rd ⟨.row .input i, true, fun _ => 0⟩ ((hmem _).2 (Or.inl ⟨i, hi, by simp⟩)) rfl
    | temp => exact rd ⟨.row .temp i, true, fun _ => 0⟩ ((hmem _).2 (Or.inl ⟨i, hi, by simp⟩)) rfl
    | outputs => exact rd ⟨.row .outputs i, true, fun _ => 0⟩ ((hmem _).2 (Or.inl ⟨i, hi, by simp⟩)) rfl
    | error2 => exact rd ⟨.row .error2 i, (b.ptr (.tab .error2)).isSome, fun _ => 0⟩ ((hmem _).2 (Or.inl ⟨i, hi, by simp⟩)) ht
    | temp1 => exact rd ⟨.row .temp1 i, (b.ptr (.tab .temp1)).isSome, fun _ => 0⟩ ((hmem _).2 (Or.inl ⟨i, hi, by simp⟩)) ht
  · simp only [List.mem_cons, List.not_mem_nil, or_false] at hx
    rcases hx with rfl | rfl | rfl
    · exact rd ⟨.vec .mean, true, fun _ => 0⟩ ((hmem _).2 (by simp)) rfl
    · exact rd ⟨.vec .var, true, fun _ => 0⟩ ((hmem _).2 (by simp)) rfl
    · exact rd ⟨.vec .temp2, (b.ptr (.vec .temp2)).isSome, fun _ => 0⟩ ((hmem _).2 (by simp)) hxs

omit [Field F] in
/-- **C156 (stripping).** Stripping a complete layer frees exactly what only back-propagation and the
optimiser use; what is left has the same contents, can be reset, and is given back in full by
`free_the_bn_only_for_ff`. -/
theorem C156_strip (m : Mem F) (b : Bn) (h : Own m b) (hf : Full b) :
    ∃ m1 c m2, b.strip m = some (m1, c) ∧ Own m1 c ∧ Usable c ∧ (∀ x, backward x = true → c.ptr x = none) ∧
      (∀ x, backward x = false → c.ptr x = b.ptr x) ∧ Intact m m1 c.ptr ∧ c.freeStrip m1 = some m2 ∧
      (∀ x a, b.ptr x = some a → m2.blk a = none) ∧ ∀ a, (∀ x, b.ptr x ≠ some a) → m2.blk a = m.blk a := by
  obtain ⟨m1, e1, n1, g1, fr1⟩ := freeAll_spec b.ptr h.owns.inj (stripOrder b.batch) m (stripOrder_nodup _) (by
    intro x _ a hx
    obtain ⟨_, A, hA, _⟩ := h.owns.live x a hx
    rw [hA]
    exact Option.some_ne_none _)
  set c : Bn := { b with ptr := fun x => if x ∈ stripOrder b.batch then none else b.ptr x } with hc
  have hin : ∀ x a, c.ptr x = some a → x ∉ stripOrder b.batch ∧ b.ptr x = some a := by
    intro x a hx
    simp only [hc] at hx
    split_ifs at hx with hm
    exact ⟨hm, hx⟩
  have hb0 : ∀ x, backward x = false → c.ptr x = b.ptr x := by
    intro x hx
    simp only [hc]
    rw [if_neg]
    intro hm
    rw [(mem_stripOrder.1 hm).1] at hx
    cases hx
  have hb1 : ∀ x, backward x = true → c.ptr x = none := by
    intro x hx
    simp only [hc]
    by_cases hp : Part b.batch x
    · rw [if_pos (mem_stripOrder.2 ⟨hx, hp⟩)]
    · rw [if_neg fun hm => hp (mem_stripOrder.1 hm).2]
      cases hx' : b.ptr x with
      | none => rfl
      | some a => exact absurd (h.part x a hx') hp
  have hint : Intact m m1 c.ptr := fun x a hx => fr1 a fun y hy hya => (hin x a hx).1 (h.owns.inj _ _ a hya (hin x a hx).2 ▸ hy)
  have o1 : Own m1 c := by
    refine ⟨⟨fun x a hx => ?_, fun x y a hx hy => h.owns.inj x y a (hin x a hx).2 (hin y a hy).2⟩, fun x a hx => h.part x a (hin x a hx).2⟩
    obtain ⟨k1, A, k2, k3⟩ := h.owns.live x a (hin x a hx).2
    exact ⟨by omega, A, by rw [hint x a hx, k2], k3⟩
  have hall : ∀ x a, c.ptr x = some a → x ∈ freeStripOrder b.batch := by
    intro x a hx
    refine mem_freeStripOrder.2 ⟨?_, h.part x a (hin x a hx).2⟩
    cases hk : backward x with
    | false => rfl
    | true => rw [hb1 x hk] at hx; cases hx
  obtain ⟨m2, e2, _, g2, fr2⟩ := free_owned o1.owns (freeStripOrder_nodup b.batch) hall
  refine ⟨m1, c, m2, ?_, o1, ⟨fun x hx hk => ?_, fun t i hi ht => ?_⟩, hb1, hb0, hint, e2, fun x a hx => ?_, fun a ha => ?_⟩
  · simp only [Bn.strip, e1, Option.bind_eq_bind, Option.bind_some]
    rfl
  · rw [hb0 x hk]
    exact hf x hx
  · have ht' : backward (.tab t) = false := by
      cases hk : backward (.tab t) with
      | false => rfl
      | true => rw [hb1 _ hk] at ht; cases ht
    have : backward (.row t i) = false := by cases t <;> simp_all [backward]
    rw [hb0 _ this]
    exact hf (.row t i) hi
  · by_cases hm : x ∈ stripOrder b.batch
    · rw [fr2 a, g1 x hm a hx]
      intro y hy
      exact (hin y a hy).1 (h.owns.inj _ _ a hx (hin y a hy).2 ▸ hm)
    · exact g2 x a (by simp only [hc, if_neg hm, hx])
  · rw [fr2 a fun x hx => ha x (hin x a hx).2, fr1 a fun x _ => ha x]

omit [Field F] in
/-- **C156 (`free_the_bn_only_for_ff`, refuted for complete layers).** On a layer that was not stripped it
leaves blocks that nothing can free any more. -/
theorem C156_free_only_ff_refuted (m : Mem F) (b : Bn) (h : Own m b) (hf : Full b) :
    ∃ m', b.freeStrip m = some m' ∧ ∀ x, backward x = true → Part b.batch x → ∃ a A, b.ptr x = some a ∧ m'.blk a = some A := by
  obtain ⟨m', e, _, _, fr⟩ := freeAll_spec b.ptr h.owns.inj (freeStripOrder b.batch) m (freeStripOrder_nodup _) (by
    intro x _ a hx
    obtain ⟨_, A, hA, _⟩ := h.owns.live x a hx
    rw [hA]
    exact Option.some_ne_none _)
  refine ⟨m', e, fun x hx hp => ?_⟩
  obtain ⟨a, ha⟩ := Option.isSome_iff_exists.1 (hf x hp)
  obtain ⟨_, A, hA, _⟩ := h.owns.live x a ha
  refine ⟨a, A, ha, ?_⟩
  rw [fr a, hA]
  intro y hy hya
  rw [h.owns.inj y x a hya ha] at hy
  rw [(mem_freeStripOrder.1 hy).1] at hx
  cases hx

/-! ### Concrete cases -/

/-- Two layers of different width in one memory, the wider one stripped. -/
example : ∃ (m : Mem ℚ) (b c : Bn) (m1 : Mem ℚ) (d : Bn), Own m b ∧ Full b ∧ Own m c ∧ Full c ∧ b.paste m c = none ∧
    b.strip m = some (m1, d) ∧ Own m1 d ∧ Usable d := by
  obtain ⟨m0, c, _, hcb, hcd, oc, fc, _, _, _, _⟩ := C156_construct (⟨0, fun _ => none⟩ : Mem ℚ) (batch := 2) (dim := 3) (by omega) (by omega)
  obtain ⟨m, b, _, hbb, hbd, ob, fb, fr, hn, fresh, _⟩ := C156_construct m0 (batch := 2) (dim := 4) (by omega) (by omega)
  have oc' : Own m c := by
    refine ⟨⟨fun x a hx => ?_, oc.owns.inj⟩, oc.part⟩
    obtain ⟨k1, A, k2, k3⟩ := oc.owns.live x a hx
    exact ⟨by omega, A, by rw [fr a k1, k2], k3⟩
  obtain ⟨m1, d, _, e, od, hu, _⟩ := C156_strip m b ob fb
  exact ⟨m, b, c, m1, d, ob, fb, oc', fc, C156_paste_refuted m b c ob oc' fb fc (by omega), e, od, hu⟩

/-- A layer, its copy, and a paste back. -/
example : ∃ (m : Mem ℚ) (b c : Bn) (m' : Mem ℚ), Own m b ∧ Own m c ∧ Apart b.ptr c.ptr ∧ b.dim = 3 ∧ b.paste m c = some m' ∧
    Reads m' (c.ptr (.vec (.gamma .val))) 3 fun _ => 1 := by
  obtain ⟨m0, b, _, hb, hd, ob, fb, _, _, _, rd, _⟩ := C156_construct (⟨0, fun _ => none⟩ : Mem ℚ) (batch := 2) (dim := 3) (by omega) (by omega)
  obtain ⟨m, c, _, _, hcd, oc, fc, ob', ap, fr, _⟩ := C156_copy m0 b ob (by omega) (by omega)
  obtain ⟨a, A, ha, hA, hl, hc⟩ := rd
  obtain ⟨e, he⟩ := Option.isSome_iff_exists.1 (fc (.vec (.gamma .val)) trivial)
  obtain ⟨m', e', _, _, _, rd', _⟩ := C156_paste_partial m b c ob' oc ap hcd.symm
  obtain ⟨u, U, hu, hU, hul, huc⟩ := rd' _ rfl a A e ha (by rw [fr a (ob.owns.live _ a ha).1, hA]) he
  exact ⟨m, b, c, m', ob', oc, ap, hd, e', u, U, hu, hU, by omega, fun i hi => (huc i (by omega)).trans (hc i hi)⟩

end LLab.BnLife
