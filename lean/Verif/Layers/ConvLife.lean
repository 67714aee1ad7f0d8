import Verif.Layers.BnLife

/-!
The life of a convolutional layer in memory: construction, copying, pasting, resetting, stripping for
inference and freeing (`/repo/src/convolutional_layers.c` 58-381, 911-1010, 1768-1834, 1893-1995,
2216-2262, 2351-2424, 3197-3233). Property C157.

Memory is that of `Verif/Layers/FclLife.lean`. The four arrays `kernels`, `d_kernels`, ... are tables of
row pointers, see `Verif/Layers/BnLife.lean`. Integer arrays (`indices`, `used_kernels`) are stored
with values in the same field. Random draws are parameters. The sizes that the constructor computes
from strides and paddings are given (`Verif/Save/Cl.lean` models that arithmetic and its checks).
-/

namespace LLab.ConvLife

open FclLife (Mem Reads Slot Train)
open Heap
open BnLife (BFld Part)

variable {F : Type} [Field F]

/-! ### Model -/

/-- `convolutional_flag` -/
inductive Kind where
  | none | conv | transposed
deriving DecidableEq

/-- `normalization_flag` -/
inductive Norm where
  | no | lrn | group
deriving DecidableEq

/-- The single arrays of `struct cl` (`/repo/src/llab.h`). -/
inductive CVec where
  | bias (s : Slot)
  | score (s : Slot)
  | indices | used | pre | post | norm | pool | temp | temp2 | temp3 | error2
deriving DecidableEq

/-- The blocks of a layer: tables and rows of the kernels, single arrays, `group_norm` and the blocks
of its members. -/
inductive CFld where
  | tab (s : Slot)
  | row (s : Slot) (i : Nat)
  | vec (v : CVec)
  | gtab
  | group (g : Nat) (x : BFld)
deriving DecidableEq

/-- The flags and sizes of `struct cl`. `nk` is `n_kernels`, `ks` is `channels*kernel_rows*kernel_cols`,
`area1` is `rows1*cols1`, `area2` is `rows2*cols2`, `inSize` is `channels*input_rows*input_cols`, `gch` is
`group_norm_channels`, `gdim` the width of the group normalisations, `popupFF` says that
`feed_forward_flag` is `EDGE_POPUP`. -/
structure Flags where
  (nk ks area1 area2 inSize gch gdim : Nat)
  kind : Kind
  norm : Norm
  (act pool popupFF : Bool)
  train : Train

/-- A convolutional layer. -/
structure Cl (F : Type) where
  fl : Flags
  k : F
  ptr : CFld → Option Nat

/-- `exists_kernels_cl`, `exists_biases_cl`, `exists_pre_activation_cl`
(`/repo/src/convolutional_layers.c` 919-929). -/
def Flags.hasK (fl : Flags) : Bool := fl.kind != .none

/-- `exists_d_kernels_cl`, `exists_d_biases_cl` (`/repo/src/convolutional_layers.c` 911-917), without the
test of the pointer. -/
def Flags.hasD (fl : Flags) : Bool := fl.train != .edge && fl.train != .onlyFF && fl.kind != .none

/-- `exists_edge_popup_stuff_cl` (`/repo/src/convolutional_layers.c` 943-945). -/
def Flags.hasPopup (fl : Flags) : Bool := fl.kind != .none && (fl.popupFF || fl.train == .edge)

/-- `exists_edge_popup_stuff_with_only_training_mode_cl` (`/repo/src/convolutional_layers.c` 947-949). -/
def Flags.trainsPopup (fl : Flags) : Bool := fl.kind != .none && fl.train == .edge

/-- `exists_bp_handler_arrays` (`/repo/src/convolutional_layers.c` 951-953). -/
def Flags.hasBack (fl : Flags) : Bool := fl.train != .onlyFF

/-- Whether the layer normalises by groups. -/
def Flags.grouped (fl : Flags) : Bool := fl.norm == .group

/-- `n_kernels/group_norm_channels` -/
def Flags.groups (fl : Flags) : Nat := fl.nk / fl.gch

/-- The number of cells of a block. -/
def Flags.size (fl : Flags) : CFld → Nat
  | .tab _ => fl.nk
  | .row _ _ => fl.ks
  | .vec (.bias _) | .vec .used => fl.nk
  | .vec (.score _) | .vec .indices => fl.nk * fl.ks
  | .vec .pool => fl.nk * fl.area2
  | .vec .error2 => fl.inSize
  | .vec _ => fl.nk * fl.area1
  | .gtab => fl.groups
  | .group _ x => BnLife.size fl.gch fl.gdim x

/-- What the constructor allocates (`/repo/src/convolutional_layers.c` 181-379), rows and groups up to
their number. -/
def Flags.alloc (fl : Flags) : CFld → Bool
  | .tab .val | .row .val _ | .vec (.bias .val) | .vec .pre => fl.hasK
  | .tab _ | .row _ _ | .vec (.bias _) => fl.hasD
  | .vec (.score _) | .vec .indices => fl.hasPopup
  | .vec .used => true
  | .vec .post => fl.act
  | .vec .norm => fl.norm != .no
  | .vec .pool => fl.pool
  | .vec .temp | .vec .temp2 | .vec .temp3 | .vec .error2 => fl.hasBack
  | .gtab | .group _ _ => fl.grouped

/-- The first contents (`/repo/src/convolutional_layers.c` 181-379; 341-354 for the kernels and the
ranking: the ranking is written only when the branch of the gradients is not taken). -/
def Flags.first (fl : Flags) (w : Nat → Nat → F) (x : CFld) : Arr F :=
  match x with
  | .group _ y => BnLife.first fl.gch fl.gdim y
  | .row .val i => ⟨fl.ks, w i⟩
  | .vec .used => ⟨fl.nk, fun _ => 1⟩
  | .vec .indices => ⟨fl.nk * fl.ks, fun i => if fl.train = .gd ∨ fl.train = .freeze then 0 else (i : F)⟩
  | x => ⟨fl.size x, fun _ => 0⟩

/-- The value and the gradient slots. -/
def slots : List Slot := [.val, .d, .d1, .d2, .d3]

/-- The blocks of the rows, kernel by kernel. -/
def rows (nk : Nat) : List CFld := (List.range nk).flatMap fun i => slots.map fun s => .row s i

/-- The blocks of all group normalisations, in a given order. -/
def groupOrder (n : Nat) (l : List BFld) : List CFld := (List.range n).flatMap fun g => l.map (.group g)

/-- The allocations of the constructor in order (`/repo/src/convolutional_layers.c` 181-379). -/
def order (fl : Flags) : List CFld :=
  [.vec .used, .tab .val, .tab .d, .tab .d1, .tab .d2, .tab .d3, .vec (.bias .val), .vec (.bias .d), .vec (.bias .d1), .vec (.bias .d2),
    .vec (.bias .d3), .vec (.score .val), .vec (.score .d), .vec (.score .d1), .vec (.score .d2), .vec (.score .d3), .vec .indices, .vec .temp,
    .vec .temp2, .vec .temp3, .vec .error2, .vec .pre, .vec .post, .vec .norm, .vec .pool] ++ (rows fl.nk ++
  (.gtab :: groupOrder fl.groups (BnLife.order fl.gch)))

/-- The checks on flags and sizes (`/repo/src/convolutional_layers.c` 59-157) that do not concern strides and
paddings; a group size of zero divides by zero (85), a group of width zero is refused by
`batch_normalization`. -/
def Flags.accepted (fl : Flags) : Prop :=
  0 < fl.nk ∧ 0 < fl.ks ∧ 0 < fl.inSize ∧ (fl.kind = .none → fl.pool = true ∧ fl.norm = .no) ∧
    (fl.norm = .group → 0 < fl.gch ∧ fl.gch ≤ fl.nk ∧ fl.nk % fl.gch = 0 ∧ 0 < fl.gdim ∧ fl.popupFF = false ∧ fl.train ≠ .edge)

instance (fl : Flags) : Decidable fl.accepted := by
  unfold Flags.accepted
  infer_instance

/-- `convolutional` (`/repo/src/convolutional_layers.c` 58-381). `none`: `exit(1)` or a division by zero. -/
def construct (m : Mem F) (fl : Flags) (w : Nat → Nat → F) : Option (Mem F × Cl F) :=
  if fl.accepted then
    let s := buildAll fl.alloc (fl.first w) (order fl) m
    some (s.1, ⟨fl, 1, s.2⟩)
  else none

/-- The order of `free_convolutional` (`/repo/src/convolutional_layers.c` 967-1008). -/
def freeOrder (fl : Flags) : List CFld :=
  rows fl.nk ++ ([.tab .val, .vec .used, .tab .d, .tab .d1, .tab .d2, .tab .d3, .vec (.bias .val), .vec (.bias .d), .vec (.bias .d1), .vec (.bias .d2),
    .vec (.bias .d3), .vec .pre, .vec .post, .vec .norm, .vec .pool, .vec .temp, .vec .temp2, .vec .temp3, .vec .error2, .vec .indices,
    .vec (.score .val), .vec (.score .d), .vec (.score .d1), .vec (.score .d2), .vec (.score .d3)] ++
  (groupOrder fl.groups (BnLife.freeOrder fl.gch) ++ [.gtab]))

/-- The conditions of `free_convolutional`: rows of kernels and of gradients (968-976), groups (1003). -/
def Cl.freeGuard (c : Cl F) : CFld → Bool
  | .row .val _ => c.fl.hasK
  | .row _ _ => (c.ptr (.tab .d)).isSome
  | .gtab | .group _ _ => c.fl.grouped
  | _ => true

/-- `free_convolutional` (`/repo/src/convolutional_layers.c` 962-1010). -/
def Cl.free (m : Mem F) (c : Cl F) : Option (Mem F) := freeAll c.ptr ((freeOrder c.fl).filter c.freeGuard) m

/-- What `copy_cl` copies (`/repo/src/convolutional_layers.c` 1774-1830). `used_kernels` is copied again for
every kernel, once here; `paste_cl` (2374-2421) copies the ranking before the scores. -/
def copyOrder (fl : Flags) : List CFld :=
  .vec .used :: (rows fl.nk ++ (groupOrder fl.groups BnLife.copyOrder ++ [.vec (.bias .val), .vec (.bias .d), .vec (.bias .d1), .vec (.bias .d2),
    .vec (.bias .d3), .vec (.score .val), .vec (.score .d), .vec (.score .d1), .vec (.score .d2), .vec (.score .d3), .vec .indices]))

/-- The conditions of `copy_cl`. -/
def Cl.copyGuard (c : Cl F) : CFld → Bool
  | .vec .used => true
  | .row .val _ | .vec (.bias .val) => c.fl.hasK
  | .row _ _ => c.fl.hasD && (c.ptr (.tab .d)).isSome
  | .vec (.bias _) => c.fl.hasD && (c.ptr (.vec (.bias .d))).isSome
  | .vec (.score _) | .vec .indices => c.fl.hasPopup
  | .group _ _ => c.fl.grouped
  | _ => false

/-- `copy_cl` (`/repo/src/convolutional_layers.c` 1768-1834). -/
def Cl.dup (m : Mem F) (c : Cl F) (w : Nat → Nat → F) : Option (Mem F × Cl F) := do
  let (m, d) ← construct m c.fl w
  let m ← copyAll c.ptr d.ptr c.fl.size c.copyGuard (copyOrder c.fl) m
  some (m, { d with k := c.k })

/-- The conditions of `paste_cl`; `d` is the target. -/
def Cl.pasteGuard (c d : Cl F) : CFld → Bool
  | .group _ _ => c.fl.grouped && d.fl.grouped && c.fl.groups == d.fl.groups
  | x => c.copyGuard x && d.copyGuard x

/-- `paste_cl` (`/repo/src/convolutional_layers.c` 2351-2424). -/
def Cl.paste (m : Mem F) (c d : Cl F) : Option (Mem F × Cl F) :=
  if c.fl.nk ≠ d.fl.nk ∨ c.fl.nk * c.fl.ks ≠ d.fl.nk * d.fl.ks ∨ c.fl.ks ≠ d.fl.ks then some (m, d)
  else do
    let m ← copyAll c.ptr d.ptr c.fl.size (c.pasteGuard d) (copyOrder c.fl) m
    some (m, { d with k := c.k })

/-- The `g`-th group normalisation. -/
def Cl.bn (c : Cl F) (g : Nat) : BnLife.Bn := ⟨c.fl.gch, c.fl.gdim, fun x => c.ptr (.group g x)⟩

/-- The resets of all group normalisations. -/
def bnSteps (c : Cl F) : List (Wr CFld F) :=
  (List.range c.fl.groups).flatMap fun g => (BnLife.resetSteps true (c.bn g)).map fun s => ⟨.group g s.fld, c.fl.grouped && s.on, s.c⟩

/-- The write loops of `reset_cl_only_for_ff` (`/repo/src/convolutional_layers.c` 1970-1993). -/
def forwardSteps (c : Cl F) : List (Wr CFld F) :=
  [⟨.vec .pre, c.fl.hasK, fun _ => 0⟩, ⟨.vec .post, c.fl.act, fun _ => 0⟩, ⟨.vec .norm, c.fl.norm != .no, fun _ => 0⟩,
    ⟨.vec .pool, c.fl.pool, fun _ => 0⟩] ++ bnSteps c

/-- The further write loops of `reset_cl` (`/repo/src/convolutional_layers.c` 1898-1937). -/
def backSteps (c : Cl F) : List (Wr CFld F) :=
  ((List.range c.fl.nk).map fun i => ⟨.row .d i, c.fl.hasD && (c.ptr (.tab .d)).isSome, fun _ => 0⟩) ++
  [⟨.vec (.bias .d), c.fl.hasD && (c.ptr (.vec (.bias .d))).isSome, fun _ => 0⟩, ⟨.vec .temp, c.fl.hasBack, fun _ => 0⟩,
    ⟨.vec .temp2, c.fl.hasBack, fun _ => 0⟩, ⟨.vec .temp3, c.fl.hasBack, fun _ => 0⟩, ⟨.vec .error2, c.fl.hasBack, fun _ => 0⟩]

/-- `reset_cl` (`/repo/src/convolutional_layers.c` 1893-1953). The ranking of the scores (`rank`) and the used
kernels it gives (`used`) are parameters. -/
def Cl.reset (rank : Arr F → Nat → F) (used : Arr F → Nat → F) (m : Mem F) (c : Cl F) : Option (Mem F) := do
  let m ← writeAll c.ptr c.fl.size (backSteps c ++ forwardSteps c) m
  if c.fl.trainsPopup then do
    let a ← c.ptr (.vec (.score .val))
    let sc ← m.blk a
    writeAll c.ptr c.fl.size [⟨.vec (.score .d), (c.ptr (.vec (.score .d))).isSome, fun _ => 0⟩, ⟨.vec .indices, true, rank sc⟩,
      ⟨.vec .used, true, used sc⟩] m
  else some m

/-- `reset_cl_only_for_ff` (`/repo/src/convolutional_layers.c` 1964-1995). -/
def Cl.resetFF (m : Mem F) (c : Cl F) : Option (Mem F) := writeAll c.ptr c.fl.size (forwardSteps c) m

/-- `reset_cl_for_edge_popup` (`/repo/src/convolutional_layers.c` 2216-2262): `error2` is written without a
test (2246-2248). -/
def Cl.resetPopup (m : Mem F) (c : Cl F) : Option (Mem F) :=
  writeAll c.ptr c.fl.size ([⟨.vec .temp, c.fl.hasBack, fun _ => 0⟩, ⟨.vec .temp2, c.fl.hasBack, fun _ => 0⟩, ⟨.vec .temp3, c.fl.hasBack, fun _ => 0⟩,
    ⟨.vec .error2, true, fun _ => 0⟩, ⟨.vec (.score .d), c.fl.trainsPopup, fun _ => 0⟩] ++ forwardSteps c) m

/-- `free_matrix((void**)p, n)` (`/repo/src/utils.c` 665-675) on an array of numbers: with pointers of the
size of two numbers it reads `2*n` of them, and a pair that is not zero is taken for an address and
freed. `none`: a read out of bounds or a free of something that was never allocated. -/
noncomputable def freeAsMatrix (m : Mem F) (p : Option Nat) (n : Nat) : Option (Mem F) :=
  open Classical in
  match p with
  | none => some m
  | some a => match m.blk a with
    | none => none
    | some A => if 2 * n ≤ A.len ∧ ∀ i, i < 2 * n → A.get i = 0 then m.free (some a) else none

/-- What the first part of `make_the_cl_only_for_ff` frees (`/repo/src/convolutional_layers.c` 3200-3211). -/
def stripOrder (fl : Flags) : List CFld :=
  [.vec .temp, .vec .temp2, .vec .temp3, .vec .error2] ++
    ([Slot.d, .d1, .d2, .d3].flatMap (fun s => (List.range fl.nk).map (.row s) ++ [.tab s]) ++
      [.vec (.bias .d), .vec (.bias .d1), .vec (.bias .d2), .vec (.bias .d3)])

/-- The score arrays the second part frees as matrices (`/repo/src/convolutional_layers.c` 3225-3228). -/
def stripScores : List CFld := [.vec (.score .d), .vec (.score .d1), .vec (.score .d2), .vec (.score .d3)]

/-- Free score arrays as matrices. -/
noncomputable def freeScores (ptr : CFld → Option Nat) (n : Nat) : List CFld → Mem F → Option (Mem F)
  | [], m => some m
  | x :: xs, m => do
    let m ← freeAsMatrix m (ptr x) n
    freeScores ptr n xs m

/-- `make_the_cl_only_for_ff` (`/repo/src/convolutional_layers.c` 3197-3233). The group normalisations are left
as they are. -/
noncomputable def Cl.strip (m : Mem F) (c : Cl F) : Option (Mem F × Cl F) := do
  let m ← freeAll c.ptr (stripOrder c.fl) m
  let m ← freeScores c.ptr c.fl.nk stripScores m
  some (m, { c with fl := { c.fl with train := .onlyFF }, ptr := fun x => if x ∈ stripOrder c.fl ∨ x ∈ stripScores then none else c.ptr x })

/-! ### Specification -/

/-- The blocks of a layer with these flags. -/
def Has (fl : Flags) (x : CFld) : Prop :=
  fl.alloc x = true ∧ match x with
    | .row _ i => i < fl.nk
    | .group g y => g < fl.groups ∧ Part fl.gch y
    | _ => True

/-- The blocks a layer with these flags has, in terms of the flags. -/
def Called (fl : Flags) : CFld → Prop
  | .tab .val | .vec (.bias .val) | .vec .pre => fl.kind ≠ .none
  | .row .val i => fl.kind ≠ .none ∧ i < fl.nk
  | .tab _ | .vec (.bias _) => fl.kind ≠ .none ∧ fl.train ≠ .edge ∧ fl.train ≠ .onlyFF
  | .row _ i => (fl.kind ≠ .none ∧ fl.train ≠ .edge ∧ fl.train ≠ .onlyFF) ∧ i < fl.nk
  | .vec (.score _) | .vec .indices => fl.kind ≠ .none ∧ (fl.popupFF = true ∨ fl.train = .edge)
  | .vec .used => True
  | .vec .post => fl.act = true
  | .vec .norm => fl.norm ≠ .no
  | .vec .pool => fl.pool = true
  | .vec .temp | .vec .temp2 | .vec .temp3 | .vec .error2 => fl.train ≠ .onlyFF
  | .gtab => fl.norm = .group
  | .group g y => fl.norm = .group ∧ g < fl.nk / fl.gch ∧ Part fl.gch y

/-- The places a layer of this shape can have blocks in. -/
def Place (fl : Flags) : CFld → Prop
  | .row _ i => i < fl.nk
  | .group g y => g < fl.groups ∧ Part fl.gch y
  | _ => True

/-- The layer owns its blocks, in the places of its shape: kernels with a convolution, groups with group
normalisation, rows of gradients and further gradients of the biases together with the first. -/
structure Own (m : Mem F) (c : Cl F) : Prop where
  owns : Owns m c.ptr c.fl.size
  place : ∀ x a, c.ptr x = some a → Place c.fl x
  kernels : ∀ i a, c.ptr (.row .val i) = some a → c.fl.kind ≠ .none
  groups : ∀ g x a, c.ptr .gtab = some a ∨ c.ptr (.group g x) = some a → c.fl.norm = .group
  grads : ∀ s i a, s ≠ .val → c.ptr (.row s i) = some a → (c.ptr (.tab .d)).isSome
  biases : ∀ s a, s ≠ .val → c.ptr (.vec (.bias s)) = some a → (c.ptr (.vec (.bias .d))).isSome

/-- Nothing is missing. -/
def Full (c : Cl F) : Prop := ∀ x, Has c.fl x → (c.ptr x).isSome

/-- Kernels, biases, scores, their gradients and optimiser arrays, the ranking, the used kernels and
what the group normalisations have learned. -/
def learned : CFld → Bool
  | .row _ _ | .vec (.bias _) | .vec (.score _) | .vec .indices | .vec .used => true
  | .group _ x => BnLife.learned x
  | _ => false

/-- Gradients that a reset clears. -/
def gradient : CFld → Bool
  | .row .d _ | .vec (.bias .d) | .group _ (.vec (.gamma .d)) | .group _ (.vec (.beta .d)) => true
  | _ => false

/-! ### Lists -/

/-- A block that is neither a row nor in a group. -/
def flat : CFld → Bool
  | .tab _ | .vec _ => true
  | _ => false

theorem nodup_app {A : Type} {l1 l2 : List A} (P : A → Bool) (h1 : l1.Nodup) (h2 : l2.Nodup) (hp : ∀ x ∈ l1, P x = true) (hq : ∀ x ∈ l2, P x = false) :
    (l1 ++ l2).Nodup := by
  rw [List.nodup_append]
  refine ⟨h1, h2, fun x hx y hy hxy => ?_⟩
  subst hxy
  have := hq x hy
  rw [hp x hx] at this
  cases this

theorem mem_rows {nk : Nat} {x : CFld} : x ∈ rows nk ↔ ∃ s i, i < nk ∧ x = .row s i := by
  unfold rows
  simp only [List.mem_flatMap, List.mem_range, List.mem_map]
  constructor
  · rintro ⟨i, hi, s, _, rfl⟩
    exact ⟨s, i, hi, rfl⟩
  · rintro ⟨s, i, hi, rfl⟩
    exact ⟨i, hi, s, by cases s <;> decide, rfl⟩

theorem rows_nodup (nk : Nat) : (rows nk).Nodup := by
  refine nodup_flatMap_key (fun x => match x with | .row _ i => i | _ => 0) List.nodup_range (fun i _ => by simp [slots]) (fun i _ x hx => ?_)
  obtain ⟨s, _, rfl⟩ := List.mem_map.1 hx
  rfl

theorem mem_groupOrder {n : Nat} {l : List BFld} {x : CFld} : x ∈ groupOrder n l ↔ ∃ g y, g < n ∧ y ∈ l ∧ x = .group g y := by
  unfold groupOrder
  simp only [List.mem_flatMap, List.mem_range, List.mem_map]
  constructor
  · rintro ⟨g, hg, y, hy, rfl⟩
    exact ⟨g, y, hg, hy, rfl⟩
  · rintro ⟨g, y, hg, hy, rfl⟩
    exact ⟨g, hg, y, hy, rfl⟩

theorem groupOrder_nodup (n : Nat) {l : List BFld} (h : l.Nodup) : (groupOrder n l).Nodup := by
  refine nodup_flatMap_key (fun x => match x with | .group g _ => g | _ => 0) List.nodup_range
    (fun g _ => h.map fun x y e => by simpa using e) (fun g _ x hx => ?_)
  obtain ⟨y, _, rfl⟩ := List.mem_map.1 hx
  rfl

/-- Rows. -/
def isRow : CFld → Bool
  | .row _ _ => true
  | _ => false

theorem order_nodup (fl : Flags) : (order fl).Nodup := by
  refine nodup_app flat (by decide) (nodup_app isRow (rows_nodup _) (List.nodup_cons.2 ⟨?_, groupOrder_nodup _ (BnLife.order_nodup _)⟩) ?_ ?_) (by decide) ?_
  · rw [mem_groupOrder]
    rintro ⟨_, _, _, _, h⟩
    cases h
  · intro x hx
    obtain ⟨_, _, _, rfl⟩ := mem_rows.1 hx
    rfl
  · intro x hx
    rcases List.mem_cons.1 hx with rfl | hx
    · rfl
    · obtain ⟨_, _, _, _, rfl⟩ := mem_groupOrder.1 hx
      rfl
  · intro x hx
    rcases List.mem_append.1 hx with hx | hx
    · obtain ⟨_, _, _, rfl⟩ := mem_rows.1 hx
      rfl
    · rcases List.mem_cons.1 hx with rfl | hx
      · rfl
      · obtain ⟨_, _, _, _, rfl⟩ := mem_groupOrder.1 hx
        rfl

theorem mem_order {fl : Flags} {x : CFld} : x ∈ order fl ↔ Place fl x := by
  unfold order
  rw [List.mem_append, List.mem_append, mem_rows, List.mem_cons (b := CFld.gtab), mem_groupOrder]
  cases x with
  | tab s => cases s <;> simp [Place]
  | row s i => simp [Place]
  | vec v =>
    cases v with
    | bias s => cases s <;> simp [Place]
    | score s => cases s <;> simp [Place]
    | _ => simp [Place]
  | gtab => simp [Place]
  | group g y =>
    simp only [Place, List.mem_cons, reduceCtorEq, List.not_mem_nil, or_self, false_or, exists_false, and_false, CFld.group.injEq]
    constructor
    · rintro ⟨g', y', hg, hy, rfl, rfl⟩
      exact ⟨hg, BnLife.order_part hy⟩
    · rintro ⟨hg, hy⟩
      exact ⟨g, y, hg, BnLife.mem_order hy, rfl, rfl⟩

theorem freeOrder_nodup (fl : Flags) : (freeOrder fl).Nodup := by
  refine nodup_app isRow (rows_nodup _) (nodup_app flat (by decide)
    (nodup_app (fun x => x != .gtab) (groupOrder_nodup _ (BnLife.freeOrder_nodup _)) (by simp) ?_ (by simp)) (by decide) ?_) ?_ ?_
  · intro x hx
    obtain ⟨_, _, _, _, rfl⟩ := mem_groupOrder.1 hx
    rfl
  · intro x hx
    rcases List.mem_append.1 hx with hx | hx
    · obtain ⟨_, _, _, _, rfl⟩ := mem_groupOrder.1 hx
      rfl
    · rw [List.mem_singleton.1 hx]; rfl
  · intro x hx
    obtain ⟨_, _, _, rfl⟩ := mem_rows.1 hx
    rfl
  · intro x hx
    rcases List.mem_append.1 hx with hx | hx
    · clear * - hx
      revert x
      decide
    · rcases List.mem_append.1 hx with hx | hx
      · obtain ⟨_, _, _, _, rfl⟩ := mem_groupOrder.1 hx
        rfl
      · rw [List.mem_singleton.1 hx]; rfl

theorem mem_freeOrder {fl : Flags} {x : CFld} (h : Place fl x) : x ∈ freeOrder fl := by
  unfold freeOrder
  rw [List.mem_append, List.mem_append, List.mem_append, mem_rows, mem_groupOrder]
  cases x with
  | tab s => cases s <;> simp
  | row s i => exact Or.inl ⟨s, i, h, rfl⟩
  | vec v =>
    cases v with
    | bias s => cases s <;> simp
    | score s => cases s <;> simp
    | _ => simp
  | gtab => simp
  | group g y => exact Or.inr (Or.inr (Or.inl ⟨g, y, h.1, BnLife.mem_freeOrder h.2, rfl⟩))

theorem copyOrder_nodup (fl : Flags) : (copyOrder fl).Nodup := by
  unfold copyOrder
  rw [List.nodup_cons]
  constructor
  · rw [List.mem_append, List.mem_append, mem_rows, mem_groupOrder]
    simp
  · refine nodup_app isRow (rows_nodup _) (nodup_app (fun x => !flat x) (groupOrder_nodup _ BnLife.copyOrder_nodup) (by decide) ?_ (by decide)) ?_ ?_
    · intro x hx
      obtain ⟨_, _, _, _, rfl⟩ := mem_groupOrder.1 hx
      rfl
    · intro x hx
      obtain ⟨_, _, _, rfl⟩ := mem_rows.1 hx
      rfl
    · intro x hx
      rcases List.mem_append.1 hx with hx | hx
      · obtain ⟨_, _, _, _, rfl⟩ := mem_groupOrder.1 hx
        rfl
      · clear * - hx
        revert x
        decide

theorem mem_copyOrder {fl : Flags} {x : CFld} (h : Place fl x) : x ∈ copyOrder fl ↔ learned x = true := by
  unfold copyOrder
  rw [List.mem_cons, List.mem_append, List.mem_append, mem_rows, mem_groupOrder]
  cases x with
  | tab s => simp [learned]
  | row s i => simp only [learned, iff_true]; exact Or.inr (Or.inl ⟨s, i, h, rfl⟩)
  | vec v =>
    cases v with
    | bias s => cases s <;> simp [learned]
    | score s => cases s <;> simp [learned]
    | _ => simp [learned]
  | gtab => simp [learned]
  | group g y =>
    simp only [reduceCtorEq, exists_false, and_false, CFld.group.injEq, List.mem_cons, List.not_mem_nil, or_false, false_or, learned]
    rw [← BnLife.mem_copyOrder]
    constructor
    · rintro ⟨_, _, _, hy, rfl, rfl⟩
      exact hy
    · exact fun hy => ⟨g, y, h.1, hy, rfl, rfl⟩

theorem learned_of_copyOrder {fl : Flags} {x : CFld} (h : x ∈ copyOrder fl) : learned x = true := by
  have h' := h
  unfold copyOrder at h'
  rw [List.mem_cons, List.mem_append, List.mem_append, mem_rows, mem_groupOrder] at h'
  rcases h' with rfl | ⟨s, i, _, rfl⟩ | ⟨g, y, _, hy, rfl⟩ | h'
  · rfl
  · rfl
  · exact BnLife.mem_copyOrder.1 hy
  · clear * - h'
    revert x
    decide

omit [Field F] in
theorem copyAll_on (p q : CFld → Option Nat) (size : CFld → Nat) {on on' : CFld → Bool} : ∀ (l : List CFld), (∀ x ∈ l, on x = on' x) → ∀ (m : Mem F),
    copyAll p q size on l m = copyAll p q size on' l m := by
  intro l
  induction l with
  | nil => intro _ m; rfl
  | cons x xs ih =>
    intro h m
    simp only [copyAll, h x (by simp)]
    congr 1
    funext m'
    exact ih (fun y hy => h y (by simp [hy])) m'

theorem first_len (fl : Flags) (w : Nat → Nat → F) (x : CFld) : (fl.first w x).len = fl.size x := by
  cases x with
  | row s i => cases s <;> rfl
  | vec v => cases v <;> rfl
  | _ => rfl

theorem has_iff {fl : Flags} {x : CFld} : Has fl x ↔ fl.alloc x = true ∧ Place fl x := by
  cases x <;> rfl

omit [Field F] in
theorem Own.reach {m : Mem F} {c : Cl F} (h : Own m c) {x : CFld} {a : Nat} (hx : c.ptr x = some a) : c.freeGuard x = true := by
  cases x with
  | tab s => rfl
  | row s i =>
    cases s with
    | val => simp [Cl.freeGuard, Flags.hasK, h.kernels i a hx]
    | d => exact h.grads .d i a (by simp) hx
    | d1 => exact h.grads .d1 i a (by simp) hx
    | d2 => exact h.grads .d2 i a (by simp) hx
    | d3 => exact h.grads .d3 i a (by simp) hx
  | vec v => rfl
  | gtab => simp [Cl.freeGuard, Flags.grouped, h.groups 0 (.tab .input) a (Or.inl hx)]
  | group g y => simp [Cl.freeGuard, Flags.grouped, h.groups g y a (Or.inr hx)]

omit [Field F] in
/-- Ownership only depends on the owned memory. -/
theorem Own.mono {m m' : Mem F} {c : Cl F} (h : Own m c) (ho : Owns m' c.ptr c.fl.size) : Own m' c :=
  ⟨ho, h.place, h.kernels, h.groups, h.grads, h.biases⟩

omit [Field F] in
/-- A complete layer with fresh memory owns it. -/
theorem Own.of {m : Mem F} {c : Cl F} (ho : Owns m c.ptr c.fl.size) (hh : ∀ x a, c.ptr x = some a → Has c.fl x) (hf : Full c) : Own m c := by
  refine ⟨ho, fun x a hx => (has_iff.1 (hh x a hx)).2, fun i a hx => ?_, fun g x a hx => ?_, fun s i a hs hx => ?_, fun s a hs hx => ?_⟩
  · have := (hh _ a hx).1
    simpa [Flags.alloc, Flags.hasK] using this
  · rcases hx with hx | hx <;> simpa [Flags.alloc, Flags.grouped] using (hh _ a hx).1
  · refine hf (.tab .d) ⟨?_, trivial⟩
    have := (hh _ a hx).1
    cases s with
    | val => exact absurd rfl hs
    | _ => exact this
  · refine hf (.vec (.bias .d)) ⟨?_, trivial⟩
    have := (hh _ a hx).1
    cases s with
    | val => exact absurd rfl hs
    | _ => exact this

/-- The contents of a new layer: kernels from the draws, all kernels used, scale one in the groups, the
ranking of a layer not trained by gradients in the order of the weights, everything else zero. -/
structure Starts (m : Mem F) (c : Cl F) (w : Nat → Nat → F) : Prop where
  kernels : c.fl.kind ≠ .none → ∀ i, i < c.fl.nk → Reads m (c.ptr (.row .val i)) c.fl.ks (w i)
  used : Reads m (c.ptr (.vec .used)) c.fl.nk fun _ => 1
  scale : c.fl.norm = .group → ∀ g, g < c.fl.groups → Reads m (c.ptr (.group g (.vec (.gamma .val)))) c.fl.gdim fun _ => 1
  ranking : c.fl.hasPopup = true → c.fl.train ≠ .gd → c.fl.train ≠ .freeze → Reads m (c.ptr (.vec .indices)) (c.fl.nk * c.fl.ks) fun i => (i : F)
  ranking0 : c.fl.hasPopup = true → c.fl.train = .gd ∨ c.fl.train = .freeze → Reads m (c.ptr (.vec .indices)) (c.fl.nk * c.fl.ks) fun _ => 0
  rest : ∀ x, Has c.fl x → (∀ i, x ≠ .row .val i) → x ≠ .vec .used → (∀ g, x ≠ .group g (.vec (.gamma .val))) → x ≠ .vec .indices →
    Reads m (c.ptr x) (c.fl.size x) fun _ => 0

theorem starts_first {m : Mem F} {k : F} {p : CFld → Option Nat} (fl : Flags) (w : Nat → Nat → F)
    (h : ∀ x, Has fl x → Reads m (p x) (fl.size x) (fl.first w x).get) : Starts m ⟨fl, k, p⟩ w := by
  refine ⟨fun hk i hi => h (.row .val i) ⟨by simp [Flags.alloc, Flags.hasK, hk], hi⟩, h (.vec .used) ⟨rfl, trivial⟩,
    fun hn g hg => h (.group g (.vec (.gamma .val))) ⟨by simp [Flags.alloc, Flags.grouped, show fl.norm = .group from hn], hg, trivial⟩,
    fun hp h1 h2 => ?_, fun hp h1 => ?_, fun x hx h1 h2 h3 h4 => ?_⟩
  · obtain ⟨a, A, ha, hA, hl, hc⟩ := h (.vec .indices) ⟨hp, trivial⟩
    refine ⟨a, A, ha, hA, hl, fun i hi => (hc i hi).trans ?_⟩
    simp only [Flags.first]
    rw [if_neg]
    rintro (h | h)
    · exact h1 h
    · exact h2 h
  · obtain ⟨a, A, ha, hA, hl, hc⟩ := h (.vec .indices) ⟨hp, trivial⟩
    refine ⟨a, A, ha, hA, hl, fun i hi => (hc i hi).trans ?_⟩
    simp only [Flags.first]
    exact if_pos h1
  · have := h x hx
    cases x with
    | tab s => exact this
    | row s i => cases s with
      | val => exact absurd rfl (h1 i)
      | _ => exact this
    | vec v => cases v with
      | used => exact absurd rfl h2
      | indices => exact absurd rfl h4
      | _ => exact this
    | gtab => exact this
    | group g y => cases y with
      | vec v => cases v with
        | gamma s => cases s with
          | val => exact absurd rfl (h3 g)
          | _ => exact this
        | _ => exact this
      | _ => exact this

theorem has_called (fl : Flags) (x : CFld) : Has fl x ↔ Called fl x := by
  cases x with
  | tab s => cases s <;> simp [Has, Called, Flags.alloc, Flags.hasK, Flags.hasD, and_comm]
  | row s i => cases s <;> simp [Has, Called, Flags.alloc, Flags.hasK, Flags.hasD, and_comm, and_assoc]
  | vec v =>
    cases v with
    | bias s => cases s <;> simp [Has, Called, Flags.alloc, Flags.hasK, Flags.hasD, and_comm]
    | _ => simp [Has, Called, Flags.alloc, Flags.hasK, Flags.hasPopup, Flags.hasBack]
  | _ => simp [Has, Called, Flags.alloc, Flags.grouped, Flags.groups]

/-! ### C157 -/

/-- **C157 (construction).** The constructor gives a complete layer in fresh memory with the first
contents; nothing else changes. -/
theorem C157_construct (m : Mem F) (fl : Flags) (w : Nat → Nat → F) (h : fl.accepted) :
    ∃ m' c, construct m fl w = some (m', c) ∧ c.fl = fl ∧ c.k = 1 ∧ Own m' c ∧ Full c ∧ (∀ a, a < m.next → m'.blk a = m.blk a) ∧ m.next ≤ m'.next ∧
      (∀ x a, c.ptr x = some a → m.next ≤ a ∧ Has fl x) ∧ Starts m' c w := by
  obtain ⟨h1, h2, _, _, h5, h6, _⟩ := buildAll_spec fl.alloc (fl.first w) (order fl) m (order_nodup fl)
  obtain ⟨o, rd⟩ := build_owned fl.alloc (fl.first w) m (order_nodup fl)
  simp only [first_len] at o rd
  have hh : ∀ x a, (buildAll fl.alloc (fl.first w) (order fl) m).2 x = some a → Has fl x :=
    fun x a hx => has_iff.2 ⟨(h5 x a hx).2.1, mem_order.1 (h5 x a hx).1⟩
  have hf : Full (⟨fl, 1, (buildAll fl.alloc (fl.first w) (order fl) m).2⟩ : Cl F) :=
    fun x hx => h6 x (mem_order.2 (has_iff.1 hx).2) (has_iff.1 hx).1
  refine ⟨_, ⟨fl, 1, _⟩, by rw [construct, if_pos h], rfl, rfl, Own.of o hh hf, hf, h2, h1, fun x a hx => ⟨(h5 x a hx).2.2.1, hh x a hx⟩, ?_⟩
  exact starts_first fl w fun x hx => rd x (mem_order.2 (has_iff.1 hx).2) (has_iff.1 hx).1

/-- **C157 (the arrays of a new layer).** A new layer has exactly the arrays its flags call for. -/
theorem C157_arrays (m : Mem F) (fl : Flags) (w : Nat → Nat → F) (h : fl.accepted) :
    ∃ m' c, construct m fl w = some (m', c) ∧ ∀ x, (c.ptr x).isSome = true ↔ Called fl x := by
  obtain ⟨m', c, e, rfl, _, _, hf, _, _, hh, _⟩ := C157_construct m fl w h
  refine ⟨m', c, e, fun x => ⟨fun hx => ?_, fun hx => hf x ((has_called _ x).2 hx)⟩⟩
  obtain ⟨a, ha⟩ := Option.isSome_iff_exists.1 hx
  exact (has_called _ x).1 (hh x a ha).2

/-- **C157 (construction, refuted for the ranking).** A layer that is trained by gradient descent and runs
by edge-popup starts with a ranking that names the first weight everywhere. -/
theorem C157_ranking_refuted (m : Mem F) (fl : Flags) (w : Nat → Nat → F) (h : fl.accepted) (hk : fl.kind ≠ .none) (hff : fl.popupFF = true)
    (htr : fl.train = .gd ∨ fl.train = .freeze) :
    ∃ m' c, construct m fl w = some (m', c) ∧ Reads m' (c.ptr (.vec .indices)) (fl.nk * fl.ks) fun _ => 0 := by
  obtain ⟨m', c, e, rfl, _, _, _, _, _, _, rd⟩ := C157_construct m fl w h
  exact ⟨m', c, e, rd.ranking0 (by simp [Flags.hasPopup, hk, hff]) htr⟩

omit [Field F] in
/-- **C157 (freeing).** Freeing a layer, complete or stripped, frees each of its blocks once and nothing
else. -/
theorem C157_free (m : Mem F) (c : Cl F) (h : Own m c) :
    ∃ m', c.free m = some m' ∧ m'.next = m.next ∧ (∀ x a, c.ptr x = some a → m'.blk a = none) ∧
      ∀ a, (∀ x, c.ptr x ≠ some a) → m'.blk a = m.blk a :=
  free_owned h.owns ((freeOrder_nodup c.fl).filter _) fun x a hx => List.mem_filter.2 ⟨mem_freeOrder (h.place x a hx), h.reach hx⟩

/-- **C157 (no leak).** Building a layer and freeing it gives back all the memory. -/
theorem C157_no_leak (m : Mem F) (hm : m.Sane) (fl : Flags) (w : Nat → Nat → F) (h : fl.accepted) :
    ∃ m1 c m2, construct m fl w = some (m1, c) ∧ c.free m1 = some m2 ∧ m2.blk = m.blk := by
  have hl := ((freeOrder_nodup fl).filter (⟨fl, (1 : F), (buildAll fl.alloc (fl.first w) (order fl) m).2⟩ : Cl F).freeGuard)
  obtain ⟨m', c, e, _, _, o, _⟩ := C157_construct m fl w h
  rw [construct, if_pos h] at e
  obtain ⟨rfl, rfl⟩ := Prod.mk.inj (Option.some.inj e)
  obtain ⟨h1, h2, h3, h4, h5, h6, h7⟩ := buildAll_spec fl.alloc (fl.first w) (order fl) m (order_nodup fl)
  obtain ⟨m2, e, hb⟩ := build_free fl.alloc (fl.first w) m hm (order_nodup fl) hl fun x hx ha => by
    obtain ⟨a, hxa⟩ := Option.isSome_iff_exists.1 (h6 x hx ha)
    exact List.mem_filter.2 ⟨mem_freeOrder (mem_order.1 hx), o.reach hxa⟩
  exact ⟨_, ⟨fl, 1, _⟩, m2, by rw [construct, if_pos h], e, hb⟩

omit [Field F] in
theorem copyGuard_of {m : Mem F} {c : Cl F} (h : Own m c) {x : CFld} {a : Nat} (hl : learned x = true) (hx : Has c.fl x) (hxa : c.ptr x = some a) :
    c.copyGuard x = true := by
  obtain ⟨ha, _⟩ := hx
  cases x with
  | tab s => cases hl
  | row s i =>
    cases s with
    | val => exact ha
    | _ => simp only [Cl.copyGuard, show c.fl.hasD = true from ha, h.grads _ i a (by simp) hxa, Bool.and_self]
  | vec v =>
    cases v with
    | bias s =>
      cases s with
      | val => exact ha
      | _ => simp only [Cl.copyGuard, show c.fl.hasD = true from ha, h.biases _ a (by simp) hxa, Bool.and_self]
    | score s => exact ha
    | indices => exact ha
    | used => rfl
    | _ => cases hl
  | gtab => cases hl
  | group g y => exact ha

omit [Field F] in
theorem copyGuard_alloc {c : Cl F} {x : CFld} (h : c.copyGuard x = true) : c.fl.alloc x = true := by
  cases x with
  | tab s => cases h
  | row s i =>
    cases s with
    | val => exact h
    | _ => exact (Bool.and_eq_true _ _ ▸ h).1
  | vec v =>
    cases v with
    | bias s =>
      cases s with
      | val => exact h
      | _ => exact (Bool.and_eq_true _ _ ▸ h).1
    | score s => exact h
    | indices => exact h
    | used => rfl
    | _ => cases h
  | gtab => cases h
  | group g y => exact h

/-- **C157 (copying).** The copy owns complete fresh memory. Kernels, biases, scores, their gradients and
optimiser arrays, ranking, used kernels and the learned arrays of the groups are those of the original
where its flags have them and it has them; everything else is in the initial state; the original and
all other memory are as before. -/
theorem C157_copy (m : Mem F) (c : Cl F) (w : Nat → Nat → F) (h : Own m c) (ha : c.fl.accepted) :
    ∃ m' d, c.dup m w = some (m', d) ∧ d.fl = c.fl ∧ d.k = c.k ∧ Own m' d ∧ Full d ∧ Own m' c ∧ Apart c.ptr d.ptr ∧
      (∀ a, a < m.next → m'.blk a = m.blk a) ∧ m.next ≤ m'.next ∧
      (∀ x, learned x = true → Has c.fl x → ∀ a A, c.ptr x = some a → m.blk a = some A → Reads m' (d.ptr x) (c.fl.size x) A.get) ∧
      (∀ x, Has c.fl x → learned x = false → Reads m' (d.ptr x) (c.fl.size x) fun _ => 0) ∧ ∀ x a, d.ptr x = some a → m.next ≤ a := by
  obtain ⟨m', q, e, e2, o, ob, ap, fr, fresh, full, hn, rd, rd0⟩ := build_copy c.fl.alloc (c.fl.first w) (order := order c.fl)
    (l := copyOrder c.fl) m c.ptr c.fl.size c.copyGuard h.owns (fun x _ => (first_len c.fl w x).symm) (order_nodup _) (copyOrder_nodup _)
  simp only [first_len] at o rd0
  have hf : Full (⟨c.fl, c.k, q⟩ : Cl F) := fun x hx => full x (mem_order.2 (has_iff.1 hx).2) (has_iff.1 hx).1
  refine ⟨m', ⟨c.fl, c.k, q⟩, ?_, rfl, rfl, Own.of o (fun x a hx => has_iff.2 ⟨(fresh x a hx).2.1, mem_order.1 (fresh x a hx).1⟩) hf, hf, h.mono ob, ap,
    fr, hn, fun x hl hx a A hxa hA => ?_, fun x hx hno => ?_, fun x a hx => (fresh x a hx).2.2⟩
  · unfold Cl.dup construct
    rw [if_pos ha]
    subst e
    simp only [Option.bind_eq_bind, Option.bind_some, e2]
  · exact rd x ((mem_copyOrder (has_iff.1 hx).2).2 hl) (copyGuard_of h hl hx hxa) a A hxa hA (hf x hx)
  · have := rd0 x (mem_order.2 (has_iff.1 hx).2) (has_iff.1 hx).1
      (Or.inr (Or.inl fun hm => by rw [(mem_copyOrder (has_iff.1 hx).2).1 hm] at hno; cases hno))
    cases x with
    | tab s => exact this
    | row s i => cases hno
    | vec v => cases v with
      | used => cases hno
      | indices => cases hno
      | _ => exact this
    | gtab => exact this
    | group g y => cases y with
      | vec v => cases v with
        | gamma s => cases hno
        | _ => exact this
      | _ => exact this

/-- The shapes that `paste_cl` compares agree. -/
def SameShape (c d : Cl F) : Prop := c.fl.nk = d.fl.nk ∧ c.fl.ks = d.fl.ks

/-- The groups are pasted. -/
def SameGroups (c d : Cl F) : Prop := c.fl.norm = .group ∧ d.fl.norm = .group ∧ c.fl.groups = d.fl.groups

omit [Field F] in
theorem pasteGuard_of {m : Mem F} {c d : Cl F} (hc : Own m c) (hd : Own m d) {x : CFld} {a e : Nat} (hl : learned x = true) (hx : Has c.fl x)
    (hy : Has d.fl x) (hxa : c.ptr x = some a) (hxe : d.ptr x = some e) (hg : ∀ g y, x = .group g y → c.fl.groups = d.fl.groups) :
    c.pasteGuard d x = true := by
  have h1 := copyGuard_of hc hl hx hxa
  have h2 := copyGuard_of hd hl hy hxe
  cases x with
  | group g y =>
    simp only [Cl.pasteGuard, Bool.and_eq_true, beq_iff_eq]
    exact ⟨⟨h1, h2⟩, hg g y rfl⟩
  | _ => simp only [Cl.pasteGuard, h1, h2, Bool.and_self]

omit [Field F] in
theorem pasteGuard_imp {c d : Cl F} {x : CFld} (h : c.pasteGuard d x = true) :
    c.copyGuard x = true ∧ d.copyGuard x = true ∧ ∀ g y, x = .group g y → SameGroups c d := by
  cases x with
  | group g y =>
    simp only [Cl.pasteGuard, Bool.and_eq_true, beq_iff_eq] at h
    exact ⟨h.1.1, h.1.2, fun _ _ _ => ⟨by simpa [Flags.grouped] using h.1.1, by simpa [Flags.grouped] using h.1.2, h.2⟩⟩
  | _ =>
    simp only [Cl.pasteGuard, Bool.and_eq_true] at h
    obtain ⟨h1, h2⟩ := h
    exact ⟨h1, h2, fun _ _ hx => by cases hx⟩

omit [Field F] in
/-- **C157 (pasting).** Between layers of different shape nothing happens. Otherwise exactly the learned
arrays that both layers have by their flags are copied, and the percentage; groups are copied if both
have the same number of them. The source and the rest of memory are as before. Groups that are pasted
must have the same width. -/
theorem C157_paste_partial (m : Mem F) (c d : Cl F) (hc : Own m c) (hd : Own m d) (hap : Apart c.ptr d.ptr) :
    (¬ SameShape c d → c.paste m d = some (m, d)) ∧
    (SameShape c d → (SameGroups c d → c.fl.gdim = d.fl.gdim) →
      ∃ m', c.paste m d = some (m', { d with k := c.k }) ∧ Own m' c ∧ Own m' d ∧ Intact m m' c.ptr ∧
        (∀ x, learned x = true → Has c.fl x → Has d.fl x → (∀ g y, x = .group g y → c.fl.groups = d.fl.groups) → ∀ a A e, c.ptr x = some a →
          m.blk a = some A → d.ptr x = some e → Reads m' (d.ptr x) (c.fl.size x) A.get) ∧
        ∀ a, (∀ x, learned x = true → c.fl.alloc x = true → d.fl.alloc x = true → d.ptr x ≠ some a) → m'.blk a = m.blk a) := by
  constructor
  · intro h
    unfold Cl.paste
    rw [if_pos]
    by_contra hcon
    refine h ⟨?_, ?_⟩ <;> tauto
  · intro h hg
    have hsz : ∀ x, (learned x && c.pasteGuard d x) = true → c.fl.size x = d.fl.size x := by
      intro x hx
      obtain ⟨h0, hx⟩ := Bool.and_eq_true _ _ ▸ hx
      obtain ⟨h1, h2, h3⟩ := pasteGuard_imp hx
      obtain ⟨e1, e2⟩ := h
      cases x with
      | tab s => cases h1
      | row s i => exact e2
      | vec v =>
        cases v with
        | bias s => exact e1
        | score s => simp only [Flags.size, e1, e2]
        | indices => simp only [Flags.size, e1, e2]
        | used => exact e1
        | _ => cases h1
      | gtab => cases h1
      | group g y =>
        have := hg (h3 g y rfl)
        cases y with
        | vec v => exact this
        | _ => cases h0
    obtain ⟨m', e, o1, o2, _, fr, rd⟩ := copyAll_spec c.ptr d.ptr c.fl.size d.fl.size (fun x => learned x && c.pasteGuard d x) hap hsz (copyOrder c.fl) m hc.owns hd.owns
      (copyOrder_nodup _)
    refine ⟨m', ?_, hc.mono o1, hd.mono o2, fun x a hx => fr a fun y _ _ _ hy => hap x y a hx hy, fun x hl hx hy hgr a A e hxa hA hxe => ?_,
      fun a ha => fr a fun x hx hon _ => ?_⟩
    · unfold Cl.paste
      rw [if_neg (by rw [h.1, h.2]; tauto)]
      rw [← copyAll_on (on := fun x => learned x && c.pasteGuard d x) c.ptr d.ptr c.fl.size (copyOrder c.fl)
        (fun x hx => by rw [learned_of_copyOrder hx, Bool.true_and])]
      simp only [e, Option.bind_eq_bind, Option.bind_some]
    · exact rd x ((mem_copyOrder (has_iff.1 hx).2).2 hl) (by rw [hl, pasteGuard_of hc hd hl hx hy hxa hxe hgr]; rfl) a A hxa hA (by simp [hxe])
    · obtain ⟨h0, hon⟩ := Bool.and_eq_true _ _ ▸ hon
      obtain ⟨h1, h2, _⟩ := pasteGuard_imp hon
      exact ha x h0 (copyGuard_alloc h1) (copyGuard_alloc h2)

omit [Field F] in
/-- **C157 (pasting, refuted for groups of other width).** `paste_cl` compares the number of groups and not
their width: pasting a layer with larger feature maps writes out of bounds. -/
theorem C157_paste_refuted (m : Mem F) (c d : Cl F) (hc : Own m c) (hd : Own m d) (fc : Full c) (fd : Full d) (hs : SameShape c d) (hg : SameGroups c d)
    (hn : 0 < c.fl.groups) (hdim : d.fl.gdim < c.fl.gdim) : c.paste m d = none := by
  unfold Cl.paste
  rw [if_neg (by rw [hs.1, hs.2]; tauto)]
  have hx : Has c.fl (.group 0 (.vec (.gamma .val))) := ⟨by simp [Flags.alloc, Flags.grouped, hg.1], hn, trivial⟩
  have hy : Has d.fl (.group 0 (.vec (.gamma .val))) := ⟨by simp [Flags.alloc, Flags.grouped, hg.2.1], hg.2.2 ▸ hn, trivial⟩
  rw [copyAll_none _ _ _ d.fl.size _ _ m hc.owns hd.owns ⟨.group 0 (.vec (.gamma .val)), (mem_copyOrder (has_iff.1 hx).2).2 rfl, ?_, fc _ hx, fd _ hy, hdim⟩]
  · rfl
  · simp [Cl.pasteGuard, Flags.grouped, hg.1, hg.2.1, hg.2.2]

/-! ### Resetting -/

/-- The layer has what its flags name, except perhaps gradients of the scores. -/
def Usable (c : Cl F) : Prop := ∀ x, Has c.fl x → (∀ s, s ≠ .val → x ≠ .vec (.score s)) → (c.ptr x).isSome

/-- What a pass forward leaves behind. -/
def forward : CFld → Bool
  | .vec .pre | .vec .post | .vec .norm | .vec .pool => true
  | _ => false

/-- What a pass backward leaves behind. -/
def errors : CFld → Bool
  | .vec .temp | .vec .temp2 | .vec .temp3 | .vec .error2 => true
  | _ => false

/-- What `reset_bn` clears. -/
def groupWork : CFld → Bool
  | .group _ (.row _ _) | .group _ (.vec .mean) | .group _ (.vec .var) | .group _ (.vec .temp2) | .group _ (.vec (.gamma .d)) |
    .group _ (.vec (.beta .d)) => true
  | _ => false

omit [Field F] in
theorem Full.usable {c : Cl F} (h : Full c) : Usable c := fun x hx _ => h x hx

/-- The blocks written by one reset of a group. -/
theorem mem_resetSteps {b : BnLife.Bn} {s : Wr BFld F} (h : s ∈ BnLife.resetSteps (F := F) true b) :
    s.c = (fun _ => 0) ∧ Part b.batch s.fld ∧ groupWork (.group 0 s.fld) = true ∧ ((∃ t i, s.fld = .row t i ∧ (s.on = true ∨ s.on = (b.ptr (.tab t)).isSome)) ∨
      ∃ v, s.fld = .vec v) := by
  simp only [BnLife.resetSteps, List.mem_append, List.mem_flatMap, List.mem_range, List.mem_cons, List.not_mem_nil, or_false] at h
  rcases h with ⟨i, hi, rfl | rfl | rfl | rfl | rfl⟩ | rfl | rfl | rfl | rfl | rfl
  all_goals first
    | exact ⟨rfl, hi, rfl, Or.inl ⟨_, i, rfl, Or.inl rfl⟩⟩
    | exact ⟨rfl, hi, rfl, Or.inl ⟨_, i, rfl, Or.inr rfl⟩⟩
    | exact ⟨rfl, trivial, rfl, Or.inr ⟨_, rfl⟩⟩

theorem resetSteps_mem (b : BnLife.Bn) {y : BFld} (hw : groupWork (.group 0 y) = true) (hp : Part b.batch y) (hall : ∀ x, Part b.batch x → (b.ptr x).isSome) :
    (⟨y, true, fun _ => 0⟩ : Wr BFld F) ∈ BnLife.resetSteps (F := F) true b := by
  have h1 := hall (.tab .error2) trivial
  have h2 := hall (.tab .temp1) trivial
  have h3 := hall (.vec (.gamma .d)) trivial
  have h4 := hall (.vec (.beta .d)) trivial
  have h5 := hall (.vec .temp2) trivial
  simp only [BnLife.resetSteps, List.mem_append, List.mem_flatMap, List.mem_range, List.mem_cons, List.not_mem_nil, or_false, h1, h2, h3, h4, h5,
    Bool.and_self]
  cases y with
  | tab t => cases hw
  | row t i =>
    refine Or.inl ⟨i, hp, ?_⟩
    cases t <;> simp
  | vec v =>
    right
    cases v with
    | gamma s => cases s <;> simp_all [groupWork]
    | beta s => cases s <;> simp_all [groupWork]
    | _ => simp

theorem bnSteps_nodup (c : Cl F) : ((bnSteps c).map Wr.fld).Nodup := by
  unfold bnSteps
  rw [List.map_flatMap]
  refine nodup_flatMap_key (fun x => match x with | .group g _ => g | _ => 0) List.nodup_range (fun g _ => ?_) (fun g _ x hx => ?_)
  · rw [List.map_map]
    have := (BnLife.resetSteps_nodup (F := F) true (c.bn g)).map (f := CFld.group g) fun x y e => by simpa using e
    rw [List.map_map] at this
    exact this
  · simp only [List.map_map, List.mem_map, Function.comp_apply] at hx
    obtain ⟨s, _, rfl⟩ := hx
    rfl

theorem mem_bnSteps {c : Cl F} {s : Wr CFld F} (h : s ∈ bnSteps c) :
    ∃ g y, g < c.fl.groups ∧ s.fld = .group g y ∧ Part c.fl.gch y ∧ s.c = (fun _ => 0) ∧ groupWork s.fld = true ∧ (s.on = true → c.fl.grouped = true) := by
  simp only [bnSteps, List.mem_flatMap, List.mem_range, List.mem_map] at h
  obtain ⟨g, hg, t, ht, rfl⟩ := h
  obtain ⟨h1, h2, h3, _⟩ := mem_resetSteps ht
  refine ⟨g, t.fld, hg, rfl, h2, h1, ?_, fun hon => (Bool.and_eq_true _ _ ▸ hon).1⟩
  cases hf : t.fld with
  | vec v => rw [hf] at h3; cases v with
    | gamma s => cases s <;> simp_all [groupWork]
    | beta s => cases s <;> simp_all [groupWork]
    | _ => simp_all [groupWork]
  | _ => rw [hf] at h3; simp_all [groupWork]

theorem bnSteps_mem {c : Cl F} (hu : Usable c) {g : Nat} {y : BFld} (hx : Has c.fl (.group g y)) (hw : groupWork (.group g y) = true) :
    (⟨.group g y, true, fun _ => 0⟩ : Wr CFld F) ∈ bnSteps c := by
  simp only [bnSteps, List.mem_flatMap, List.mem_range, List.mem_map]
  refine ⟨g, hx.2.1, ⟨y, true, fun _ => 0⟩, resetSteps_mem (c.bn g) ?_ hx.2.2 (fun x hp => hu (.group g x) ⟨hx.1, hx.2.1, hp⟩ (by simp)), ?_⟩
  · cases y with
    | vec v => cases v with
      | gamma s => cases s <;> simp_all [groupWork]
      | beta s => cases s <;> simp_all [groupWork]
      | _ => simp_all [groupWork]
    | _ => simp_all [groupWork]
  · simp [show c.fl.grouped = true from hx.1]

theorem forwardSteps_nodup (c : Cl F) : ((forwardSteps c).map Wr.fld).Nodup := by
  unfold forwardSteps
  rw [List.map_append]
  refine nodup_app flat (by simp) (bnSteps_nodup c) (by simp [flat]) fun x hx => ?_
  obtain ⟨s, hs, rfl⟩ := List.mem_map.1 hx
  obtain ⟨g, y, _, e, _⟩ := mem_bnSteps hs
  rw [e]
  rfl

/-- The writes of `forwardSteps`. -/
theorem mem_forwardSteps {c : Cl F} {s : Wr CFld F} (h : s ∈ forwardSteps c) :
    s.c = (fun _ => 0) ∧ (forward s.fld = true ∨ groupWork s.fld = true) ∧ (s.on = true → Has c.fl s.fld) := by
  rcases List.mem_append.1 h with h | h
  · simp only [List.mem_cons, List.not_mem_nil, or_false] at h
    rcases h with rfl | rfl | rfl | rfl <;> exact ⟨rfl, Or.inl rfl, fun hon => ⟨hon, trivial⟩⟩
  · obtain ⟨g, y, hg, e, hp, hz, hw, hon⟩ := mem_bnSteps h
    exact ⟨hz, Or.inr hw, fun ho => by rw [e]; exact ⟨hon ho, hg, hp⟩⟩

theorem forwardSteps_mem {c : Cl F} (hu : Usable c) {x : CFld} (hx : Has c.fl x) (hw : forward x = true ∨ groupWork x = true) :
    (⟨x, true, fun _ => 0⟩ : Wr CFld F) ∈ forwardSteps c := by
  refine List.mem_append.2 ?_
  cases x with
  | group g y =>
    right
    rcases hw with hw | hw
    · cases hw
    · exact bnSteps_mem hu hx hw
  | vec v =>
    left
    have ha := hx.1
    cases v with
    | pre => simp [show c.fl.hasK = true from ha]
    | post => simp [show c.fl.act = true from ha]
    | norm => simp [show (c.fl.norm != .no) = true from ha]
    | pool => simp [show c.fl.pool = true from ha]
    | _ => rcases hw with hw | hw <;> cases hw
  | _ => rcases hw with hw | hw <;> cases hw

theorem forward_flag {x : CFld} (h : forward x = true ∨ groupWork x = true) : ∀ s, s ≠ .val → x ≠ .vec (.score s) := by
  rintro s _ rfl
  rcases h with h | h <;> cases h

/-- **C157 (resetting for inference).** `reset_cl_only_for_ff` clears what the forward pass leaves behind
and the work arrays and gradients of the groups, and nothing else. -/
theorem C157_reset_ff (m : Mem F) (c : Cl F) (h : Own m c) (hu : Usable c) :
    ∃ m', c.resetFF m = some m' ∧ Own m' c ∧
      (∀ x, Has c.fl x → (forward x = true ∨ groupWork x = true) → Reads m' (c.ptr x) (c.fl.size x) fun _ => 0) ∧
      (∀ x a, c.ptr x = some a → forward x = false → groupWork x = false → m'.blk a = m.blk a) ∧
      ∀ a, (∀ x, c.ptr x ≠ some a) → m'.blk a = m.blk a := by
  obtain ⟨m', e, o, _, fr, rd⟩ := writeAll_spec c.ptr c.fl.size (forwardSteps c) m h.owns (forwardSteps_nodup c) (fun s hs hon =>
    hu _ ((mem_forwardSteps hs).2.2 hon) (forward_flag (mem_forwardSteps hs).2.1))
  refine ⟨m', e, h.mono o, fun x hx hw => rd _ (forwardSteps_mem hu hx hw) rfl, fun x a hxa h1 h2 => fr a fun s hs _ hsa => ?_,
    fun a ha => fr a fun s _ _ => ha _⟩
  have := h.owns.inj _ _ a hsa hxa
  rcases (mem_forwardSteps hs).2.1 with hw | hw
  · rw [this, h1] at hw; cases hw
  · rw [this, h2] at hw; cases hw

/-- Everything that `reset_cl` clears. -/
def cleared (x : CFld) : Bool := forward x || groupWork x || errors x || (match x with | .row .d _ | .vec (.bias .d) => true | _ => false)

theorem mem_backSteps {c : Cl F} {s : Wr CFld F} (h : s ∈ backSteps c) :
    s.c = (fun _ => 0) ∧ cleared s.fld = true ∧ forward s.fld = false ∧ (flat s.fld || isRow s.fld) = true ∧ (s.on = true → Has c.fl s.fld) := by
  simp only [backSteps, List.mem_append, List.mem_map, List.mem_range, List.mem_cons, List.not_mem_nil, or_false] at h
  rcases h with ⟨i, hi, rfl⟩ | rfl | rfl | rfl | rfl | rfl
  · exact ⟨rfl, rfl, rfl, rfl, fun hon => ⟨(Bool.and_eq_true _ _ ▸ hon).1, hi⟩⟩
  · exact ⟨rfl, rfl, rfl, rfl, fun hon => ⟨(Bool.and_eq_true _ _ ▸ hon).1, trivial⟩⟩
  all_goals exact ⟨rfl, rfl, rfl, rfl, fun hon => ⟨hon, trivial⟩⟩

theorem resetAll_nodup (c : Cl F) : ((backSteps c ++ forwardSteps c).map Wr.fld).Nodup := by
  rw [List.map_append, List.nodup_append]
  refine ⟨?_, forwardSteps_nodup c, fun x hx y hy hxy => ?_⟩
  · unfold backSteps
    rw [List.map_append, List.map_map]
    refine nodup_app isRow (List.nodup_range.map fun i j e => by simpa using e) (by simp) (fun x hx => ?_) (by simp [isRow])
    obtain ⟨i, _, rfl⟩ := List.mem_map.1 hx
    rfl
  · subst hxy
    obtain ⟨s, hs, rfl⟩ := List.mem_map.1 hx
    obtain ⟨t, ht, e⟩ := List.mem_map.1 hy
    obtain ⟨_, _, hf, hfl, _⟩ := mem_backSteps hs
    rcases (mem_forwardSteps ht).2.1 with h | h
    · rw [e, hf] at h; cases h
    · rw [e] at h
      cases hx : s.fld with
      | group g y => rw [hx] at hfl; cases hfl
      | _ => rw [hx] at h; cases h

theorem resetAll_mem {c : Cl F} (hu : Usable c) {x : CFld} (hx : Has c.fl x) (hw : cleared x = true) :
    (⟨x, true, fun _ => 0⟩ : Wr CFld F) ∈ backSteps c ++ forwardSteps c := by
  rw [List.mem_append]
  by_cases hf : forward x = true ∨ groupWork x = true
  · exact Or.inr (forwardSteps_mem hu hx hf)
  · left
    have ha := hx.1
    simp only [backSteps, List.mem_append, List.mem_map, List.mem_range]
    cases x with
    | row s i =>
      cases s with
      | d =>
        refine Or.inl ⟨i, hx.2, ?_⟩
        rw [show c.fl.hasD = true from ha, hu (.tab .d) ⟨ha, trivial⟩ (by simp)]
        rfl
      | _ => cases hw
    | vec v =>
      right
      cases v with
      | bias s =>
        cases s with
        | d =>
          rw [show c.fl.hasD = true from ha, hu (.vec (.bias .d)) ⟨ha, trivial⟩ (by simp)]
          simp
        | _ => cases hw
      | score s => cases hw
      | temp => simp [show c.fl.hasBack = true from ha]
      | temp2 => simp [show c.fl.hasBack = true from ha]
      | temp3 => simp [show c.fl.hasBack = true from ha]
      | error2 => simp [show c.fl.hasBack = true from ha]
      | pre => exact absurd (Or.inl rfl) hf
      | post => exact absurd (Or.inl rfl) hf
      | norm => exact absurd (Or.inl rfl) hf
      | pool => exact absurd (Or.inl rfl) hf
      | indices => cases hw
      | used => cases hw
    | group g y =>
      have : groupWork (.group g y) = true := by simpa [cleared, forward, errors] using hw
      exact absurd (Or.inr this) hf
    | tab s => cases hw
    | gtab => cases hw

/-- **C157 (resetting).** Resetting a complete or stripped layer clears the gradients and everything the
passes leave behind. Kernels, biases, optimiser arrays, and without edge-popup training the scores, the
ranking and the used kernels, are as before. With edge-popup training the gradients of the scores are
cleared and the ranking and the used kernels are computed from the scores, which are as before. -/
theorem C157_reset (rank used : Arr F → Nat → F) (m : Mem F) (c : Cl F) (h : Own m c) (hu : Usable c) :
    ∃ m', c.reset rank used m = some m' ∧ Own m' c ∧
      (∀ x, Has c.fl x → cleared x = true → Reads m' (c.ptr x) (c.fl.size x) fun _ => 0) ∧
      (c.fl.trainsPopup = true → ∃ a A, c.ptr (.vec (.score .val)) = some a ∧ m.blk a = some A ∧ m'.blk a = some A ∧
        Reads m' (c.ptr (.vec .indices)) (c.fl.nk * c.fl.ks) (rank A) ∧ Reads m' (c.ptr (.vec .used)) c.fl.nk (used A) ∧
        ((c.ptr (.vec (.score .d))).isSome → Reads m' (c.ptr (.vec (.score .d))) (c.fl.nk * c.fl.ks) fun _ => 0)) ∧
      (∀ x a, c.ptr x = some a → cleared x = false → (c.fl.trainsPopup = true → x ∉ [CFld.vec (.score .d), .vec .indices, .vec .used]) →
        m'.blk a = m.blk a) ∧
      ∀ a, (∀ x, c.ptr x ≠ some a) → m'.blk a = m.blk a := by
  obtain ⟨m1, e, o, _, fr, rd⟩ := writeAll_spec c.ptr c.fl.size (backSteps c ++ forwardSteps c) m h.owns (resetAll_nodup c) (by
    intro s hs hon
    rcases List.mem_append.1 hs with hs | hs
    · obtain ⟨_, hcl, _, _, hh⟩ := mem_backSteps hs
      refine hu _ (hh hon) ?_
      rintro t _ ht
      rw [ht] at hcl
      cases hcl
    · exact hu _ ((mem_forwardSteps hs).2.2 hon) (forward_flag (mem_forwardSteps hs).2.1))
  have hstep : ∀ s ∈ backSteps c ++ forwardSteps c, cleared s.fld = true := by
    intro s hs
    rcases List.mem_append.1 hs with hs | hs
    · exact (mem_backSteps hs).2.1
    · unfold cleared
      rcases (mem_forwardSteps hs).2.1 with h | h <;> simp [h]
  have hcl1 : ∀ x, Has c.fl x → cleared x = true → Reads m1 (c.ptr x) (c.fl.size x) fun _ => 0 := fun x hx hw => rd _ (resetAll_mem hu hx hw) rfl
  have hfr1 : ∀ x a, c.ptr x = some a → cleared x = false → m1.blk a = m.blk a := by
    intro x a hxa hx
    refine fr a fun s hs _ hsa => ?_
    have := hstep s hs
    rw [h.owns.inj _ _ a hsa hxa, hx] at this
    cases this
  have hout1 : ∀ a, (∀ x, c.ptr x ≠ some a) → m1.blk a = m.blk a := fun a ha => fr a fun s _ _ => ha _
  by_cases hp : c.fl.trainsPopup = true
  · have hpop : c.fl.hasPopup = true := by
      simp only [Flags.trainsPopup, Bool.and_eq_true] at hp
      simp [Flags.hasPopup, hp.1, hp.2]
    obtain ⟨a, ha⟩ := Option.isSome_iff_exists.1 (hu (.vec (.score .val)) ⟨hpop, trivial⟩ (by
      rintro s hs ⟨⟩
      exact hs rfl))
    obtain ⟨_, A, hA, _⟩ := h.owns.live _ a ha
    have hA1 : m1.blk a = some A := by rw [hfr1 _ a ha rfl, hA]
    obtain ⟨m2, e2, o2, _, fr2, rd2⟩ := writeAll_spec c.ptr c.fl.size [⟨.vec (.score .d), (c.ptr (.vec (.score .d))).isSome, fun _ => 0⟩,
      ⟨.vec .indices, true, rank A⟩, ⟨.vec .used, true, used A⟩] m1 o (by simp) (by
        intro s hs hon
        simp only [List.mem_cons, List.not_mem_nil, or_false] at hs
        rcases hs with rfl | rfl | rfl
        · exact hon
        · exact hu (.vec .indices) ⟨hpop, trivial⟩ (by simp)
        · exact hu (.vec .used) ⟨rfl, trivial⟩ (by simp))
    have hfr2 : ∀ x a, c.ptr x = some a → x ∉ [CFld.vec (.score .d), .vec .indices, .vec .used] → m2.blk a = m1.blk a := by
      intro x a hxa hx
      refine fr2 a fun s hs _ hsa => hx ?_
      rw [← h.owns.inj _ _ a hsa hxa]
      simp only [List.mem_cons, List.not_mem_nil, or_false] at hs ⊢
      rcases hs with rfl | rfl | rfl <;> simp
    refine ⟨m2, ?_, h.mono o2, fun x hx hw => ?_, fun _ => ⟨a, A, ha, hA, ?_, rd2 ⟨.vec .indices, true, rank A⟩ (by simp) rfl,
      rd2 ⟨.vec .used, true, used A⟩ (by simp) rfl, fun hs => rd2 ⟨.vec (.score .d), (c.ptr (.vec (.score .d))).isSome, fun _ => 0⟩ (by simp) hs⟩,
      fun x b hxb hx hno => ?_, fun b hb => ?_⟩
    · simp only [Cl.reset, e, Option.bind_eq_bind, Option.bind_some, hp, if_true, ha, hA1, e2]
    · obtain ⟨b, B, hb, hB, hl, hc⟩ := hcl1 x hx hw
      refine ⟨b, B, hb, ?_, hl, hc⟩
      rw [hfr2 x b hb, hB]
      intro hm
      simp only [List.mem_cons, List.not_mem_nil, or_false] at hm
      rcases hm with rfl | rfl | rfl <;> cases hw
    · rw [hfr2 _ a ha (by simp), hA1]
    · rw [hfr2 x b hxb (hno hp), hfr1 x b hxb hx]
    · rw [fr2 b fun s _ _ => hb _, hout1 b hb]
  · refine ⟨m1, ?_, h.mono o, hcl1, fun hp' => absurd hp' hp, fun x a hxa hx _ => hfr1 x a hxa hx, hout1⟩
    simp only [Cl.reset, e, Option.bind_eq_bind, Option.bind_some, hp, if_false, Bool.false_eq_true]

/-- **C157 (`reset_cl_for_edge_popup`, refuted for layers made for inference).** It clears the error of the
input without a test and writes through a null pointer when the layer has none. -/
theorem C157_reset_popup_refuted (m : Mem F) (c : Cl F) (h : c.ptr (.vec .error2) = none) (hz : 0 < c.fl.inSize) : c.resetPopup m = none :=
  writeAll_none _ _ _ m ⟨⟨.vec .error2, true, fun _ => 0⟩, by simp, rfl, h, by simp only [Flags.size]; omega⟩

/-! ### Stripping -/

/-- What only back-propagation and the optimiser use, the groups aside. -/
def backward : CFld → Bool
  | .tab s | .row s _ | .vec (.bias s) | .vec (.score s) => s ≠ .val
  | .vec .temp | .vec .temp2 | .vec .temp3 | .vec .error2 => true
  | _ => false

theorem mem_stripOrder {fl : Flags} {x : CFld} : x ∈ stripOrder fl ++ stripScores ↔ backward x = true ∧ Place fl x := by
  simp only [stripOrder, stripScores, List.mem_append, List.mem_flatMap, List.mem_map, List.mem_range, List.mem_cons, List.not_mem_nil, or_false]
  cases x with
  | tab s => cases s <;> simp [backward, Place]
  | row s i => cases s <;> simp [backward, Place]
  | vec v =>
    cases v with
    | bias s => cases s <;> simp [backward, Place]
    | score s => cases s <;> simp [backward, Place]
    | _ => simp [backward, Place]
  | gtab => simp [backward]
  | group g y => simp [backward]

theorem stripOrder_nodup (fl : Flags) : (stripOrder fl ++ stripScores).Nodup := by
  unfold stripOrder
  have hm : ([Slot.d, .d1, .d2, .d3].flatMap fun s => (List.range fl.nk).map (CFld.row s) ++ [.tab s]).Nodup := by
    refine nodup_flatMap_key (fun x => match x with | .row s _ => s | .tab s => s | _ => .val) (by decide) (fun s _ => ?_) (fun s _ x hx => ?_)
    · refine nodup_app isRow (List.nodup_range.map fun i j e => by simpa using e) (by simp) (fun x hx => ?_) (by simp [isRow])
      obtain ⟨i, _, rfl⟩ := List.mem_map.1 hx
      rfl
    · rcases List.mem_append.1 hx with hx | hx
      · obtain ⟨i, _, rfl⟩ := List.mem_map.1 hx
        rfl
      · rw [List.mem_singleton.1 hx]
  have hk : ∀ x ∈ ([Slot.d, .d1, .d2, .d3].flatMap fun s => (List.range fl.nk).map (CFld.row s) ++ [.tab s]), ∃ s i, x = .row s i ∨ x = .tab s := by
    intro x hx
    obtain ⟨s, _, hx⟩ := List.mem_flatMap.1 hx
    rcases List.mem_append.1 hx with hx | hx
    · obtain ⟨i, _, rfl⟩ := List.mem_map.1 hx
      exact ⟨s, i, Or.inl rfl⟩
    · exact ⟨s, 0, Or.inr (List.mem_singleton.1 hx)⟩
  rw [List.append_assoc, List.append_assoc]
  refine nodup_app (fun x => x ∈ [CFld.vec .temp, .vec .temp2, .vec .temp3, .vec .error2]) (by decide)
    (nodup_app (fun x => match x with | .row _ _ | .tab _ => true | _ => false) hm (by decide) (fun x hx => ?_) (by decide)) (by decide) (fun x hx => ?_)
  · obtain ⟨s, i, rfl | rfl⟩ := hk x hx <;> rfl
  · rcases List.mem_append.1 hx with hx | hx
    · obtain ⟨s, i, rfl | rfl⟩ := hk x hx <;> simp
    · clear * - hx
      revert x
      decide

omit [Field F] in
theorem freeAll_append (ptr : CFld → Option Nat) : ∀ (l l' : List CFld) (m : Mem F), freeAll ptr (l ++ l') m = (freeAll ptr l m).bind (freeAll ptr l') := by
  intro l
  induction l with
  | nil => intro l' m; rfl
  | cons x xs ih =>
    intro l' m
    simp only [List.cons_append, freeAll, Option.bind_eq_bind, Option.bind_assoc]
    congr 1
    funext m'
    exact ih l' m'

/-- Arrays of zeros that are long enough are freed like any others. -/
theorem freeScores_eq (ptr : CFld → Option Nat) (n : Nat) (hinj : ∀ x y a, ptr x = some a → ptr y = some a → x = y) : ∀ (l : List CFld) (m : Mem F), l.Nodup →
    (∀ x ∈ l, ∀ a, ptr x = some a → ∃ A, m.blk a = some A ∧ 2 * n ≤ A.len ∧ ∀ i, i < 2 * n → A.get i = 0) → freeScores ptr n l m = freeAll ptr l m := by
  intro l
  induction l with
  | nil => intro m _ _; rfl
  | cons x xs ih =>
    intro m hnd h
    rw [List.nodup_cons] at hnd
    have h1 : freeAsMatrix m (ptr x) n = m.free (ptr x) := by
      cases hx : ptr x with
      | none => rfl
      | some a =>
        obtain ⟨A, hA, hl⟩ := h x (by simp) a hx
        simp only [freeAsMatrix, hA]
        rw [if_pos hl]
    simp only [freeScores, freeAll, h1, Option.bind_eq_bind]
    cases hf : m.free (ptr x) with
    | none => rfl
    | some m' =>
      refine ih m' hnd.2 fun y hy a hya => ?_
      obtain ⟨A, hA, hl⟩ := h y (by simp [hy]) a hya
      refine ⟨A, ?_, hl⟩
      cases hx : ptr x with
      | none =>
        rw [hx] at hf
        rw [← Option.some.inj hf, hA]
      | some b =>
        have hne : a ≠ b := by
          rintro rfl
          exact hnd.1 (hinj x y a hx hya ▸ hy)
        rw [hx] at hf
        unfold Mem.free at hf
        cases hb : m.blk b with
        | none => simp [hb] at hf
        | some B =>
          simp only [hb, Option.some.injEq] at hf
          rw [← hf]
          simp [hne, hA]

/-- What the flags of a layer made for inference name. -/
theorem has_strip {fl : Flags} {x : CFld} (hx : Has { fl with train := .onlyFF } x) (hs : ∀ s, s ≠ .val → x ≠ .vec (.score s)) :
    backward x = false ∧ Has fl x := by
  obtain ⟨ha, hp⟩ := hx
  cases x with
  | tab s => cases s with
    | val => exact ⟨rfl, ha, trivial⟩
    | _ => cases ha
  | row s i => cases s with
    | val => exact ⟨rfl, ha, hp⟩
    | _ => cases ha
  | vec v =>
    cases v with
    | bias s => cases s with
      | val => exact ⟨rfl, ha, trivial⟩
      | _ => cases ha
    | score s =>
      by_cases h0 : s = .val
      · subst h0
        refine ⟨rfl, ?_, trivial⟩
        simp only [Flags.alloc, Flags.hasPopup, Bool.and_eq_true, Bool.or_eq_true] at ha ⊢
        exact ⟨ha.1, ha.2.imp id fun h => by cases h⟩
      · exact absurd rfl (hs s h0)
    | indices =>
      refine ⟨rfl, ?_, trivial⟩
      simp only [Flags.alloc, Flags.hasPopup, Bool.and_eq_true, Bool.or_eq_true] at ha ⊢
      exact ⟨ha.1, ha.2.imp id fun h => by cases h⟩
    | temp => cases ha
    | temp2 => cases ha
    | temp3 => cases ha
    | error2 => cases ha
    | used => exact ⟨rfl, ha, trivial⟩
    | pre => exact ⟨rfl, ha, trivial⟩
    | post => exact ⟨rfl, ha, trivial⟩
    | norm => exact ⟨rfl, ha, trivial⟩
    | pool => exact ⟨rfl, ha, trivial⟩
  | gtab => exact ⟨rfl, ha, trivial⟩
  | group g y => exact ⟨rfl, ha, hp⟩

/-- **C157 (stripping).** If the layer has no gradients of scores, or these are zero where the function
looks at them, `make_the_cl_only_for_ff` frees exactly what only back-propagation and the optimiser use,
the groups aside. What is left has the same contents, can be reset, and is given back in full by
`free_convolutional`. -/
theorem C157_strip_partial (m : Mem F) (c : Cl F) (h : Own m c) (hf : Full c)
    (hz : ∀ s, s ≠ .val → ∀ a, c.ptr (.vec (.score s)) = some a → ∃ A, m.blk a = some A ∧ 2 * c.fl.nk ≤ A.len ∧ ∀ i, i < 2 * c.fl.nk → A.get i = 0) :
    ∃ m1 d m2, c.strip m = some (m1, d) ∧ d.fl = { c.fl with train := .onlyFF } ∧ Own m1 d ∧ Usable d ∧ (∀ x, backward x = true → d.ptr x = none) ∧
      (∀ x, backward x = false → d.ptr x = c.ptr x) ∧ Intact m m1 d.ptr ∧ d.free m1 = some m2 ∧
      (∀ x a, c.ptr x = some a → m2.blk a = none) ∧ ∀ a, (∀ x, c.ptr x ≠ some a) → m2.blk a = m.blk a := by
  have hlive : ∀ x a, c.ptr x = some a → m.blk a ≠ none := by
    intro x a hx
    obtain ⟨_, A, hA, _⟩ := h.owns.live x a hx
    rw [hA]
    exact Option.some_ne_none _
  have hnd := stripOrder_nodup c.fl
  obtain ⟨m1, e1, n1, g1, fr1⟩ := freeAll_spec c.ptr h.owns.inj _ m hnd fun x _ => hlive x
  rw [freeAll_append] at e1
  obtain ⟨m0, e0, e1⟩ := Option.bind_eq_some_iff.1 e1
  obtain ⟨m0', e0', _, _, fr0⟩ := freeAll_spec c.ptr h.owns.inj (stripOrder c.fl) m (List.nodup_append.1 hnd).1 fun x _ => hlive x
  rw [e0] at e0'
  obtain rfl := Option.some.inj e0'
  have e2 : freeScores c.ptr c.fl.nk stripScores m0 = some m1 := by
    rw [freeScores_eq c.ptr c.fl.nk h.owns.inj stripScores m0 (by decide), e1]
    intro x hx a hxa
    have hs : ∃ s, s ≠ Slot.val ∧ x = .vec (.score s) := by
      simp only [stripScores, List.mem_cons, List.not_mem_nil, or_false] at hx
      rcases hx with rfl | rfl | rfl | rfl
      · exact ⟨.d, by simp, rfl⟩
      · exact ⟨.d1, by simp, rfl⟩
      · exact ⟨.d2, by simp, rfl⟩
      · exact ⟨.d3, by simp, rfl⟩
    obtain ⟨s, hs, rfl⟩ := hs
    obtain ⟨A, hA, hl⟩ := hz s hs a hxa
    refine ⟨A, ?_, hl⟩
    rw [fr0 a, hA]
    intro y hy hya
    rw [h.owns.inj _ _ a hya hxa] at hy
    exact (List.nodup_append.1 hnd).2.2 _ hy _ hx rfl
  set d : Cl F := { c with fl := { c.fl with train := .onlyFF }, ptr := fun x => if x ∈ stripOrder c.fl ∨ x ∈ stripScores then none else c.ptr x } with hd
  have hin : ∀ x a, d.ptr x = some a → x ∉ stripOrder c.fl ++ stripScores ∧ c.ptr x = some a := by
    intro x a hx
    simp only [hd] at hx
    rw [List.mem_append]
    by_cases hm : x ∈ stripOrder c.fl ∨ x ∈ stripScores
    · rw [if_pos hm] at hx; cases hx
    · rw [if_neg hm] at hx
      exact ⟨hm, hx⟩
  have hb0 : ∀ x, backward x = false → d.ptr x = c.ptr x := by
    intro x hx
    simp only [hd]
    rw [if_neg]
    intro hm
    rw [(mem_stripOrder.1 (List.mem_append.2 hm)).1] at hx
    cases hx
  have hb1 : ∀ x, backward x = true → d.ptr x = none := by
    intro x hx
    cases hx' : d.ptr x with
    | none => rfl
    | some a =>
      obtain ⟨h1, h2⟩ := hin x a hx'
      exact absurd (mem_stripOrder.2 ⟨hx, h.place x a h2⟩) h1
  have hint : Intact m m1 d.ptr := fun x a hx => fr1 a fun y hy hya => (hin x a hx).1 (h.owns.inj _ _ a hya (hin x a hx).2 ▸ hy)
  have hsize : d.fl.size = c.fl.size := by
    funext x
    cases x with
    | vec v => cases v <;> rfl
    | _ => rfl
  have hback : ∀ x a, d.ptr x = some a → backward x = false := by
    intro x a hx
    cases hk : backward x with
    | false => rfl
    | true => rw [hb1 x hk] at hx; cases hx
  have o1 : Own m1 d := by
    refine ⟨⟨fun x a hx => ?_, fun x y a hx hy => h.owns.inj x y a (hin x a hx).2 (hin y a hy).2⟩, fun x a hx => ?_, fun i a hx => h.kernels i a (hin _ a hx).2,
      fun g x a hx => h.groups g x a (hx.imp (fun hx => (hin _ a hx).2) fun hx => (hin _ a hx).2), fun s i a hs hx => ?_, fun s a hs hx => ?_⟩
    · obtain ⟨k1, A, k2, k3⟩ := h.owns.live x a (hin x a hx).2
      exact ⟨by omega, A, by rw [hint x a hx, k2], by rw [hsize, k3]⟩
    · have := h.place x a (hin x a hx).2
      cases x <;> exact this
    · have := hback _ a hx
      simp [backward, hs] at this
    · have := hback _ a hx
      simp [backward, hs] at this
  obtain ⟨m2, e3, _, g2, fr2⟩ := C157_free m1 d o1
  refine ⟨m1, d, m2, ?_, rfl, o1, fun x hx hs => ?_, hb1, hb0, hint, e3, fun x a hx => ?_, fun a ha => ?_⟩
  · simp only [Cl.strip, e0, e2, Option.bind_eq_bind, Option.bind_some]
    rfl
  · obtain ⟨hbx, hh⟩ := has_strip hx hs
    rw [hb0 x hbx]
    exact hf x hh
  · by_cases hm : x ∈ stripOrder c.fl ++ stripScores
    · rw [fr2 a, g1 x hm a hx]
      intro y hy
      exact (hin y a hy).1 (h.owns.inj _ _ a hx (hin y a hy).2 ▸ hm)
    · refine g2 x a ?_
      rw [hb0 x, hx]
      cases hk : backward x with
      | false => rfl
      | true => exact absurd (mem_stripOrder.2 ⟨hk, h.place x a hx⟩) hm
  · rw [fr2 a fun x hx => ha x (hin x a hx).2, fr1 a fun x _ => ha x]

/-- **C157 (stripping, refuted for layers with scores).** `make_the_cl_only_for_ff` frees the arrays of the
gradients of the scores as if they were matrices: with one weight per kernel, or with a gradient that
is not zero among the first, it reads out of bounds or frees an address made of numbers. -/
theorem C157_strip_refuted (m : Mem F) (c : Cl F) (h : Own m c) {a : Nat} {A : Arr F} (ha : c.ptr (.vec (.score .d)) = some a) (hA : m.blk a = some A)
    (hbad : c.fl.nk * c.fl.ks < 2 * c.fl.nk ∨ ∃ i, i < 2 * c.fl.nk ∧ A.get i ≠ 0) : c.strip m = none := by
  have hnd := stripOrder_nodup c.fl
  obtain ⟨m0, e0, _, _, fr0⟩ := freeAll_spec c.ptr h.owns.inj (stripOrder c.fl) m (List.nodup_append.1 hnd).1 fun x _ b hx => by
    obtain ⟨_, B, hB, _⟩ := h.owns.live x b hx
    rw [hB]
    exact Option.some_ne_none _
  have hA0 : m0.blk a = some A := by
    rw [fr0 a, hA]
    intro y hy hya
    rw [h.owns.inj _ _ a hya ha] at hy
    exact (List.nodup_append.1 hnd).2.2 _ hy _ (by simp [stripScores]) rfl
  have hl : A.len = c.fl.nk * c.fl.ks := by
    obtain ⟨_, B, hB, hl⟩ := h.owns.live _ a ha
    rw [hA] at hB
    rw [Option.some.inj hB]
    exact hl
  have hno : freeAsMatrix m0 (some a) c.fl.nk = none := by
    simp only [freeAsMatrix, hA0]
    rw [if_neg]
    rintro ⟨h1, h2⟩
    rcases hbad with hb | ⟨i, hi, hne⟩
    · omega
    · exact hne (h2 i hi)
  simp only [Cl.strip, e0, Option.bind_eq_bind, Option.bind_some, freeScores, stripScores, ha, hno, Option.bind_none]

/-! ### Concrete cases -/

/-- A convolution with four kernels in two groups, trained by gradient descent. -/
def grouped : Flags := ⟨4, 6, 9, 0, 50, 2, 9, .conv, .group, true, false, false, .gd⟩

/-- The same with larger feature maps. -/
def larger : Flags := { grouped with area1 := 16, gdim := 16 }

/-- A convolution trained by edge-popup. -/
def popup : Flags := ⟨4, 6, 9, 4, 50, 0, 0, .conv, .no, true, true, true, .edge⟩

example : grouped.accepted ∧ larger.accepted ∧ popup.accepted := by decide

/-- A grouped layer, its copy, a larger layer whose paste runs out of bounds, and the stripped layer. -/
example : ∃ (m : Mem ℚ) (b c : Cl ℚ) (m1 : Mem ℚ) (d : Cl ℚ), Own m b ∧ Full b ∧ Own m c ∧ Full c ∧ b.paste m c = none ∧ b.strip m = some (m1, d) ∧
    Own m1 d ∧ Usable d ∧ d.resetPopup m1 = none ∧ ∃ m2, d.reset (fun _ _ => 0) (fun _ _ => 0) m1 = some m2 := by
  obtain ⟨m0, c, _, hcf, _, oc, fc, _, _, _, _⟩ := C157_construct (⟨0, fun _ => none⟩ : Mem ℚ) grouped (fun i j => i + j) (by decide)
  obtain ⟨m, b, _, hbf, _, ob, fb, fr, hn, fresh, _⟩ := C157_construct m0 larger (fun i j => i + j) (by decide)
  have oc' : Own m c := by
    refine oc.mono ⟨fun x a hx => ?_, oc.owns.inj⟩
    obtain ⟨k1, A, k2, k3⟩ := oc.owns.live x a hx
    exact ⟨by omega, A, by rw [fr a k1, k2], k3⟩
  obtain ⟨m1, d, _, e, hdf, od, hu, hb1, _⟩ := C157_strip_partial m b ob fb (by
    intro s _ a ha
    have := (fresh _ a ha).2.1
    cases this)
  obtain ⟨m2, e2, _⟩ := C157_reset (fun _ _ => 0) (fun _ _ => 0) m1 d od hu
  refine ⟨m, b, c, m1, d, ob, fb, oc', fc, C157_paste_refuted m b c ob oc' fb fc ?_ ?_ ?_ ?_, e, od, hu,
    C157_reset_popup_refuted m1 d (hb1 _ rfl) ?_, m2, e2⟩
  · rw [SameShape, hbf, hcf]; decide
  · rw [SameGroups, hbf, hcf]; decide
  · rw [hbf]; decide
  · rw [hbf, hcf]; decide
  · rw [hdf, hbf]; decide

/-- An edge-popup layer: it can be copied and reset; with a gradient of the scores it cannot be stripped. -/
example : ∃ (m : Mem ℚ) (c : Cl ℚ) (m1 : Mem ℚ), Own m c ∧ Full c ∧ c.fl = popup ∧ (∃ m' d, c.dup m (fun _ _ => 0) = some (m', d) ∧ Own m' d) ∧
    m1.next = m.next ∧ Own m1 c ∧ c.strip m1 = none := by
  obtain ⟨m, c, _, hcf, _, oc, fc, _, _, _, _⟩ := C157_construct (⟨0, fun _ => none⟩ : Mem ℚ) popup (fun i j => i + j) (by decide)
  obtain ⟨m', d, e, _, _, od, _⟩ := C157_copy m c (fun _ _ => 0) oc (by rw [hcf]; decide)
  obtain ⟨a, ha⟩ := Option.isSome_iff_exists.1 (fc (.vec (.score .d)) ⟨by rw [hcf]; decide, trivial⟩)
  obtain ⟨_, A, hA, hl⟩ := oc.owns.live _ a ha
  have o1 : Own ⟨m.next, Function.update m.blk a (some ⟨A.len, fun _ => 1⟩)⟩ c := oc.mono (oc.owns.store hA rfl)
  refine ⟨m, c, ⟨m.next, Function.update m.blk a (some ⟨A.len, fun _ => 1⟩)⟩, oc, fc, hcf, ⟨m', d, e, od⟩, rfl, o1, C157_strip_refuted _ c o1 ha (A := ⟨A.len, fun _ => 1⟩) (by simp) (Or.inr ⟨0, ?_, by simp⟩)⟩
  rw [hcf]
  decide

end LLab.ConvLife
