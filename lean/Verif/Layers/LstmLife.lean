import Verif.Layers.ConvLife

/-!
The life of an LSTM layer in memory: construction, copying, pasting, resetting, stripping for
inference and freeing (`/repo/src/recurrent_layers.c` 41-251, 425-569, 1125-1208, 1264-1340, 1521-1580,
1806-1893, 1942-1947). Property C162.

Memory is that of `Verif/Layers/FclLife.lean`. Matrices are tables of row pointers, see
`Verif/Layers/BnLife.lean`. Integer arrays (`w_indices`, `w_active_output_neurons`, ...) are stored with
values in the same field. Random draws are parameters. The order of allocations within one loop is kept
only up to the loop.
-/

namespace LLab.LstmLife

open FclLife (Mem Reads Slot)
open Heap
open BnLife (BFld Part)
open ConvLife (nodup_app)

variable {F : Type} [Field F]

/-! ### Model -/

/-- Input weights, recurrent weights and biases. -/
inductive LPar where
  | w | u | b
deriving DecidableEq

/-- The 29 tables of four rows in `struct lstm` (`/repo/src/llab.h`); `rec` says whether the table belongs to
the recurrent weights `u` or to the input weights `w`. -/
inductive LMat where
  | par (p : LPar) (s : Slot)
  | act (rec : Bool)
  | score (rec : Bool) (s : Slot)
  | idx (rec : Bool)
deriving DecidableEq

/-- `lstm_hidden`, `lstm_cell`, `out_up` -/
inductive LSeq where
  | hidden | cell | out
deriving DecidableEq

/-- The blocks of a layer: tables and rows of the four gates, tables and rows over the window, the table,
sub-tables and rows of `lstm_z`, the dropout masks, `bns` and the blocks of its members. -/
inductive LFld where
  | tab (t : LMat)
  | row (t : LMat) (i : Nat)
  | stab (t : LSeq)
  | srow (t : LSeq) (i : Nat)
  | ztab
  | zrow (i : Nat)
  | z (i j : Nat)
  | mask (right : Bool)
  | gtab
  | group (g : Nat) (x : BFld)
deriving DecidableEq

/-- The flags and sizes of `struct lstm`: `popup` says that `training_mode` is `EDGE_POPUP`, `ffPopup` that
`feed_forward_flag` is, `grouped` that `norm_flag` is `GROUP_NORMALIZATION`, `cells` is `n_grouped_cell`. -/
structure Flags where
  (inp out win cells : Nat)
  (popup ffPopup grouped residual : Bool)

/-- An LSTM layer. -/
structure Lstm (F : Type) where
  fl : Flags
  k : F
  ptr : LFld → Option Nat

/-- `window/n_grouped_cell` -/
def Flags.groups (fl : Flags) : Nat := fl.win / fl.cells

/-- `exists_edge_popup_stuff_lstm` (`/repo/src/recurrent_layers.c` 429-431). -/
def Flags.hasPopup (fl : Flags) : Bool := fl.popup || fl.ffPopup

/-- Which tables exist (`/repo/src/recurrent_layers.c` 69-158); the conditions are `exists_d_params_lstm` and
`exists_edge_popup_stuff_lstm` (425-431). -/
def Flags.hasMat (fl : Flags) : LMat → Bool
  | .par _ .val | .act _ => true
  | .par _ _ => !fl.popup
  | .score _ _ | .idx _ => fl.hasPopup

/-- The number of cells of a row. -/
def Flags.rowSize (fl : Flags) : LMat → Nat
  | .par .w _ | .act false | .score false _ | .idx false => fl.out * fl.inp
  | .par .u _ | .act true | .score true _ | .idx true => fl.out * fl.out
  | .par .b _ => fl.out

/-- The number of cells of a block. -/
def Flags.size (fl : Flags) : LFld → Nat
  | .tab _ | .zrow _ => 4
  | .row t _ => fl.rowSize t
  | .stab _ | .ztab => fl.win
  | .srow _ _ | .z _ _ | .mask _ => fl.out
  | .gtab => fl.groups
  | .group _ x => BnLife.size fl.cells fl.out x

/-- What the constructor allocates (`/repo/src/recurrent_layers.c` 69-232). The rows of scores and rankings
are allocated in the `else if` of the rows of gradients (194-229). -/
def Flags.alloc (fl : Flags) : LFld → Bool
  | .tab t => fl.hasMat t
  | .row (.score _ _) _ | .row (.idx _) _ => fl.popup
  | .row t _ => fl.hasMat t
  | .gtab | .group _ _ => fl.grouped
  | _ => true

/-- The row pointers that the constructor leaves as `malloc` gave them: the tables of scores exist and
their rows are not set. -/
def Flags.wild (fl : Flags) : LFld → Bool
  | .row (.score _ _) i | .row (.idx _) i => fl.ffPopup && !fl.popup && decide (i < 4)
  | _ => false

/-- The first contents (`/repo/src/recurrent_layers.c` 163-237). -/
def Flags.first (fl : Flags) (w : Bool → Nat → Nat → F) (x : LFld) : Arr F :=
  match x with
  | .row (.par .w .val) i => ⟨fl.out * fl.inp, w false i⟩
  | .row (.par .u .val) i => ⟨fl.out * fl.out, w true i⟩
  | .row (.act r) _ => ⟨fl.rowSize (.act r), fun _ => 1⟩
  | .row (.idx r) _ => ⟨fl.rowSize (.idx r), fun j => (j : F)⟩
  | .mask _ => ⟨fl.out, fun _ => 1⟩
  | .group _ y => BnLife.first fl.cells fl.out y
  | x => ⟨fl.size x, fun _ => 0⟩

/-- The tables in the order of the constructor (`/repo/src/recurrent_layers.c` 69-139). -/
def tables : List LMat :=
  [.par .w .val, .act false, .act true, .par .u .val, .par .w .d, .par .w .d1, .par .w .d2, .par .w .d3, .par .u .d, .par .u .d1, .par .u .d2,
    .par .u .d3, .par .b .val, .par .b .d, .par .b .d1, .par .b .d2, .par .b .d3, .score false .val, .score false .d, .score false .d1,
    .score true .d1, .score false .d2, .score true .d2, .score false .d3, .score true .d3, .score true .val, .score true .d, .idx false, .idx true]

/-- The rows of the four gates. -/
def rows (ts : List LMat) : List LFld := (List.range 4).flatMap fun i => ts.map fun t => .row t i

/-- The blocks of the window (`/repo/src/recurrent_layers.c` 163-171). -/
def windows (win : Nat) : List LFld :=
  (List.range win).flatMap fun i => [.zrow i, .srow .hidden i, .srow .cell i, .srow .out i, .z i 0, .z i 1, .z i 2, .z i 3]

/-- The blocks of all group normalisations, in a given order. -/
def groupOrder (n : Nat) (l : List BFld) : List LFld := (List.range n).flatMap fun g => l.map (.group g)

/-- The allocations of the constructor (`/repo/src/recurrent_layers.c` 69-232). -/
def order (fl : Flags) : List LFld :=
  (tables.map .tab ++ [.ztab, .stab .hidden, .stab .out, .stab .cell, .mask false, .mask true, .gtab]) ++
    (groupOrder fl.groups (BnLife.order fl.cells) ++ (windows fl.win ++ rows tables))

/-- The checks of the constructor (`/repo/src/recurrent_layers.c` 42-62); a number of grouped cells of zero
divides by zero (53). -/
def Flags.accepted (fl : Flags) : Prop :=
  0 < fl.inp ∧ 0 < fl.out ∧ 2 ≤ fl.win ∧ (fl.grouped = true → 0 < fl.cells ∧ fl.cells ≤ fl.win ∧ fl.win % fl.cells = 0) ∧
    (fl.residual = true → fl.inp = fl.out)

instance (fl : Flags) : Decidable fl.accepted := by
  unfold Flags.accepted
  infer_instance

/-- `recurrent_lstm` (`/repo/src/recurrent_layers.c` 41-251). `junk` is what `malloc` leaves in the row pointers
that are never set. `none`: `exit(1)` or a division by zero. -/
def construct (m : Mem F) (fl : Flags) (w : Bool → Nat → Nat → F) (junk : LFld → Nat) : Option (Mem F × Lstm F) :=
  if fl.accepted then
    let s := buildAll fl.alloc (fl.first w) (order fl) m
    some (s.1, ⟨fl, 1, fun x => if fl.wild x then some (junk x) else s.2 x⟩)
  else none

/-- The rows in the order of `free_recurrent_lstm` (`/repo/src/recurrent_layers.c` 468-519). -/
def freeRows : List LMat :=
  [.par .w .val, .par .u .val, .par .w .d, .par .w .d1, .par .w .d2, .par .w .d3, .par .u .d, .par .u .d1, .par .u .d2, .par .u .d3,
    .par .b .d, .par .b .d1, .par .b .d2, .par .b .d3, .par .b .val, .act false, .act true, .score false .val, .score false .d,
    .score false .d1, .score true .d1, .score false .d2, .score true .d2, .score false .d3, .score true .d3, .score true .val, .score true .d,
    .idx false, .idx true]

/-- The tables in the order of `free_recurrent_lstm` (`/repo/src/recurrent_layers.c` 529-559). -/
def freeTables : List LMat :=
  [.idx false, .idx true, .act false, .act true, .score false .val, .score false .d, .score false .d1, .score true .d1, .score false .d2,
    .score true .d2, .score false .d3, .score true .d3, .score true .val, .score true .d, .par .w .val, .par .u .val, .par .w .d, .par .w .d1,
    .par .w .d2, .par .w .d3, .par .u .d, .par .u .d1, .par .u .d2, .par .u .d3, .par .b .val, .par .b .d, .par .b .d1, .par .b .d2, .par .b .d3]

/-- The order of `free_recurrent_lstm` (`/repo/src/recurrent_layers.c` 457-566). -/
def freeOrder (fl : Flags) : List LFld :=
  ((List.range fl.win).flatMap fun i => [.z i 0, .z i 1, .z i 2, .z i 3, .zrow i, .srow .hidden i, .srow .cell i, .srow .out i]) ++
    (rows freeRows ++ (groupOrder fl.groups (BnLife.freeOrder fl.cells) ++
      (.gtab :: (freeTables.map .tab ++ [.ztab, .stab .hidden, .stab .cell, .stab .out, .mask true, .mask false]))))

/-- The conditions of `free_recurrent_lstm`. -/
def Lstm.freeGuard (l : Lstm F) : LFld → Bool
  | .row t _ => l.fl.hasMat t && match t with
    | .par _ .val | .act _ | .score _ .val | .idx _ => true
    | t => (l.ptr (.tab t)).isSome
  | .gtab | .group _ _ => l.fl.grouped
  | _ => true

/-- `free_recurrent_lstm` (`/repo/src/recurrent_layers.c` 449-569). -/
def Lstm.free (m : Mem F) (l : Lstm F) : Option (Mem F) := freeAll l.ptr ((freeOrder l.fl).filter l.freeGuard) m

/-- The rows `copy_lstm` and `paste_lstm` copy (`/repo/src/recurrent_layers.c` 1131-1187, 1269-1329). -/
def copyRows : List LMat :=
  [.par .w .val, .par .u .val, .act false, .act true, .par .w .d, .par .w .d1, .par .w .d2, .par .w .d3, .par .u .d, .par .u .d1, .par .u .d2,
    .par .u .d3, .par .b .d, .par .b .d1, .par .b .d2, .par .b .d3, .par .b .val, .score false .val, .score true .val, .score false .d,
    .score false .d1, .score false .d2, .score false .d3, .score true .d, .score true .d1, .score true .d2, .score true .d3, .idx true, .idx false]

/-- The arrays of a group normalisation that `copy_lstm` copies (`/repo/src/recurrent_layers.c` 1192-1200):
`d1_beta` is not among them. -/
def copyGroup : List BFld :=
  [.vec (.gamma .val), .vec (.gamma .d), .vec (.gamma .d1), .vec (.gamma .d2), .vec (.gamma .d3), .vec (.beta .val), .vec (.beta .d),
    .vec (.beta .d2), .vec (.beta .d3)]

/-- What `copy_lstm` copies. -/
def copyOrder (fl : Flags) : List LFld := rows copyRows ++ groupOrder fl.groups copyGroup

/-- The conditions of `copy_lstm` and `paste_lstm`. -/
def Lstm.copyGuard (l : Lstm F) : LFld → Bool
  | .row t _ => l.fl.hasMat t && match t with
    | .par _ .val | .act _ => true
    | t => (l.ptr (.tab t)).isSome
  | .group _ _ => l.fl.grouped
  | _ => false

/-- `copy_lstm` (`/repo/src/recurrent_layers.c` 1125-1208). -/
def Lstm.dup (m : Mem F) (l : Lstm F) (w : Bool → Nat → Nat → F) (junk : LFld → Nat) : Option (Mem F × Lstm F) := do
  let (m, d) ← construct m l.fl w junk
  let m ← copyAll l.ptr d.ptr l.fl.size l.copyGuard (copyOrder l.fl) m
  some (m, { d with k := l.k })

/-- What `paste_lstm` copies: `paste_bn` is complete. -/
def pasteOrder (fl : Flags) : List LFld := rows copyRows ++ groupOrder fl.groups BnLife.copyOrder

/-- Whether the target has a table with this entry. -/
def Lstm.reach (d : Lstm F) : LFld → Bool
  | .row t _ => (d.ptr (.tab t)).isSome
  | .group g _ => (d.ptr .gtab).isSome && decide (g < d.fl.groups)
  | _ => true

/-- `paste_lstm` (`/repo/src/recurrent_layers.c` 1264-1340): no size is compared and all conditions are on the
source. `none`: also when an entry of a table is named that the target does not have. -/
def Lstm.paste (m : Mem F) (l d : Lstm F) : Option (Mem F × Lstm F) :=
  if (pasteOrder l.fl).all (fun x => !l.copyGuard x || d.reach x) then do
    let m ← copyAll l.ptr d.ptr l.fl.size l.copyGuard (pasteOrder l.fl) m
    some (m, { d with k := l.k })
  else none

/-- The `g`-th group normalisation. -/
def Lstm.bn (l : Lstm F) (g : Nat) : BnLife.Bn := ⟨l.fl.cells, l.fl.out, fun x => l.ptr (.group g x)⟩

/-- The resets of all group normalisations. -/
def bnSteps (l : Lstm F) : List (Wr LFld F) :=
  (List.range l.fl.groups).flatMap fun g => (BnLife.resetSteps true (l.bn g)).map fun s => ⟨.group g s.fld, l.fl.grouped && s.on, s.c⟩

/-- The write loops over the window (`/repo/src/recurrent_layers.c` 1546-1555, 1870-1879); `lstm_hidden`,
`lstm_cell` and `out_up` are written four times with the same value, once here. -/
def windowSteps (l : Lstm F) : List (Wr LFld F) :=
  (List.range l.fl.win).flatMap fun i => [⟨.z i 0, true, fun _ => 0⟩, ⟨.z i 1, true, fun _ => 0⟩, ⟨.z i 2, true, fun _ => 0⟩, ⟨.z i 3, true, fun _ => 0⟩,
    ⟨.srow .hidden i, true, fun _ => 0⟩, ⟨.srow .cell i, true, fun _ => 0⟩, ⟨.srow .out i, true, fun _ => 0⟩]

/-- The write loops of `reset_lstm_only_for_ff` (`/repo/src/recurrent_layers.c` 1853-1888). -/
def forwardSteps (l : Lstm F) : List (Wr LFld F) := [⟨.mask false, true, fun _ => 1⟩, ⟨.mask true, true, fun _ => 1⟩] ++ (windowSteps l ++ bnSteps l)

/-- The gradients `reset_lstm` clears (`/repo/src/recurrent_layers.c` 1525-1536, 1558-1564): the conditions do
not look at the pointers. -/
def backSteps (l : Lstm F) : List (Wr LFld F) :=
  (List.range 4).flatMap fun i => [⟨.row (.par .w .d) i, !l.fl.popup, fun _ => 0⟩, ⟨.row (.par .u .d) i, !l.fl.popup, fun _ => 0⟩,
    ⟨.row (.par .b .d) i, !l.fl.popup, fun _ => 0⟩, ⟨.row (.score false .d) i, l.fl.hasPopup, fun _ => 0⟩, ⟨.row (.score true .d) i, l.fl.hasPopup, fun _ => 0⟩]

/-- The new ranking and the active outputs of some rows (`/repo/src/recurrent_layers.c` 1565-1569). `rank` gives the
new ranking from the scores and the old one, `hit` the outputs that `get_used_outputs_lstm` (1942-1947)
meets; it sets their cells to one and leaves the others as they are. -/
def rankAll (rank : Arr F → Arr F → Nat → F) (hit : Bool → F → (Nat → F) → Nat → Bool) (l : Lstm F) : List (Bool × Nat) → Mem F → Option (Mem F)
  | [], m => some m
  | (r, i) :: ss, m => do
    let sc ← (l.ptr (.row (.score r .val) i)).bind m.blk
    let ix ← (l.ptr (.row (.idx r) i)).bind m.blk
    let ac ← (l.ptr (.row (.act r) i)).bind m.blk
    let m ← writeAll l.ptr l.fl.size [⟨.row (.idx r) i, true, rank sc ix⟩,
      ⟨.row (.act r) i, true, fun j => if hit r l.k (rank sc ix) j then 1 else ac.get j⟩] m
    rankAll rank hit l ss m

/-- The rows with a ranking. -/
def gates : List (Bool × Nat) := [(false, 0), (true, 0), (false, 1), (true, 1), (false, 2), (true, 2), (false, 3), (true, 3)]

/-- `reset_lstm` (`/repo/src/recurrent_layers.c` 1521-1580). The resets of the groups come before the ranking
here. -/
def Lstm.reset (rank : Arr F → Arr F → Nat → F) (hit : Bool → F → (Nat → F) → Nat → Bool) (m : Mem F) (l : Lstm F) : Option (Mem F) := do
  let m ← writeAll l.ptr l.fl.size (backSteps l ++ forwardSteps l) m
  if l.fl.hasPopup then rankAll rank hit l gates m else some m

/-- `reset_lstm_only_for_ff` (`/repo/src/recurrent_layers.c` 1853-1888). -/
def Lstm.resetFF (m : Mem F) (l : Lstm F) : Option (Mem F) := writeAll l.ptr l.fl.size (forwardSteps l) m

/-- The tables `make_the_lstm_only_for_ff` frees (`/repo/src/recurrent_layers.c` 1807-1842). -/
def stripTables (fl : Flags) : List LMat :=
  ([.par .w .d, .par .w .d1, .par .w .d2, .par .w .d3, .par .u .d, .par .u .d1, .par .u .d2, .par .u .d3, .par .b .d, .par .b .d1,
    .par .b .d2, .par .b .d3, .score false .d, .score false .d1, .score false .d2, .score false .d3, .score true .d, .score true .d1,
    .score true .d2, .score true .d3] : List LMat).filter fl.hasMat

/-- `free_matrix(t, 4)` (`/repo/src/utils.c` 665-675), the blocks it frees. -/
def matrixOrder (t : LMat) : List LFld := [.row t 0, .row t 1, .row t 2, .row t 3, .tab t]

/-- `make_the_lstm_only_for_ff` (`/repo/src/recurrent_layers.c` 1806-1851). The training mode and the group
normalisations stay as they are. -/
def Lstm.strip (m : Mem F) (l : Lstm F) : Option (Mem F × Lstm F) := do
  let m ← freeAll l.ptr ((stripTables l.fl).flatMap matrixOrder) m
  some (m, { l with ptr := fun x => if x ∈ (stripTables l.fl).flatMap matrixOrder then none else l.ptr x })

/-! ### Specification -/

/-- The places a layer of this shape can have blocks in. -/
def Place (fl : Flags) : LFld → Prop
  | .row _ i => i < 4
  | .srow _ i | .zrow i => i < fl.win
  | .z i j => i < fl.win ∧ j < 4
  | .group g y => g < fl.groups ∧ Part fl.cells y
  | _ => True

/-- The blocks a layer with these flags has, in terms of the flags. -/
def Called (fl : Flags) : LFld → Prop
  | .tab (.par _ .val) | .tab (.act _) => True
  | .row (.par _ .val) i | .row (.act _) i => i < 4
  | .tab (.par _ _) => fl.popup = false
  | .row (.par _ _) i => fl.popup = false ∧ i < 4
  | .tab (.score _ _) | .tab (.idx _) => fl.popup = true ∨ fl.ffPopup = true
  | .row (.score _ _) i | .row (.idx _) i => fl.popup = true ∧ i < 4
  | .srow _ i | .zrow i => i < fl.win
  | .z i j => i < fl.win ∧ j < 4
  | .gtab => fl.grouped = true
  | .group g y => fl.grouped = true ∧ g < fl.win / fl.cells ∧ Part fl.cells y
  | .stab _ | .ztab | .mask _ => True

/-- Edge-popup is used for the forward pass only together with edge-popup training. -/
def Flags.sound (fl : Flags) : Prop := fl.ffPopup = true → fl.popup = true

/-- The layer owns its blocks, in the places of its shape; rows only with their table and their flags. -/
structure Own (m : Mem F) (l : Lstm F) : Prop where
  owns : Owns m l.ptr l.fl.size
  place : ∀ x a, l.ptr x = some a → Place l.fl x
  tabs : ∀ t a, l.ptr (.tab t) = some a → l.fl.hasMat t = true
  rows : ∀ t i a, l.ptr (.row t i) = some a → l.fl.hasMat t = true ∧ (l.ptr (.tab t)).isSome
  groups : ∀ g x a, l.ptr .gtab = some a ∨ l.ptr (.group g x) = some a → l.fl.grouped = true

/-- Nothing is missing. -/
def Full (l : Lstm F) : Prop := ∀ x, Called l.fl x → (l.ptr x).isSome

/-- Gradients and optimiser arrays of the weights, the biases and the scores. -/
def backward : LMat → Bool
  | .par _ s | .score _ s => s ≠ .val
  | _ => false

/-- Nothing but gradients and optimiser arrays is missing. -/
def Usable (l : Lstm F) : Prop := ∀ x, Called l.fl x → (∀ t i, backward t = true → x ≠ .tab t ∧ x ≠ .row t i) → (l.ptr x).isSome

/-- Weights, biases, scores, their gradients and optimiser arrays, the rankings, the active outputs and
what the group normalisations have learned. -/
def learned : LFld → Bool
  | .row _ _ => true
  | .group _ x => BnLife.learned x
  | _ => false

/-- What a pass forward leaves behind, and the work arrays and gradients of the groups. -/
def forward : LFld → Bool
  | .srow _ _ | .z _ _ => true
  | .group _ (.row _ _) | .group _ (.vec .mean) | .group _ (.vec .var) | .group _ (.vec .temp2) | .group _ (.vec (.gamma .d)) |
    .group _ (.vec (.beta .d)) => true
  | _ => false

/-- Gradients of the weights, biases and scores. -/
def gradient : LFld → Bool
  | .row (.par _ .d) _ | .row (.score _ .d) _ => true
  | _ => false

/-- The contents of a new layer: weights from the draws, all outputs active, the masks open, scale one in
the groups, rankings in the order of the weights, everything else zero. -/
structure Starts (m : Mem F) (l : Lstm F) (w : Bool → Nat → Nat → F) : Prop where
  input : ∀ i, i < 4 → Reads m (l.ptr (.row (.par .w .val) i)) (l.fl.out * l.fl.inp) (w false i)
  recurrent : ∀ i, i < 4 → Reads m (l.ptr (.row (.par .u .val) i)) (l.fl.out * l.fl.out) (w true i)
  active : ∀ r i, i < 4 → Reads m (l.ptr (.row (.act r) i)) (l.fl.rowSize (.act r)) fun _ => 1
  ranking : ∀ r i, l.fl.popup = true → i < 4 → Reads m (l.ptr (.row (.idx r) i)) (l.fl.rowSize (.idx r)) fun j => (j : F)
  masks : ∀ r, Reads m (l.ptr (.mask r)) l.fl.out fun _ => 1
  scale : l.fl.grouped = true → ∀ g, g < l.fl.win / l.fl.cells → Reads m (l.ptr (.group g (.vec (.gamma .val)))) l.fl.out fun _ => 1
  rest : ∀ x, Called l.fl x → (∀ i, x ≠ .row (.par .w .val) i) → (∀ i, x ≠ .row (.par .u .val) i) → (∀ r i, x ≠ .row (.act r) i) →
    (∀ r i, x ≠ .row (.idx r) i) → (∀ r, x ≠ .mask r) → (∀ g, x ≠ .group g (.vec (.gamma .val))) → Reads m (l.ptr x) (l.fl.size x) fun _ => 0

/-! ### Lists -/

/-- The kind of a block: single blocks, rows of gates, the window, the groups. -/
def kind : LFld → Nat
  | .row _ _ => 1
  | .srow _ _ | .zrow _ | .z _ _ => 2
  | .group _ _ => 3
  | _ => 0

theorem app {l1 l2 : List LFld} (k : Nat) (h1 : l1.Nodup) (h2 : l2.Nodup) (hp : ∀ x ∈ l1, kind x = k) (hq : ∀ x ∈ l2, kind x ≠ k) : (l1 ++ l2).Nodup :=
  nodup_app (fun x => decide (kind x = k)) h1 h2 (fun x hx => by simp [hp x hx]) (fun x hx => by simp [hq x hx])

theorem mem_rows {ts : List LMat} {x : LFld} : x ∈ rows ts ↔ ∃ t i, t ∈ ts ∧ i < 4 ∧ x = .row t i := by
  unfold rows
  simp only [List.mem_flatMap, List.mem_range, List.mem_map]
  constructor
  · rintro ⟨i, hi, t, ht, rfl⟩
    exact ⟨t, i, ht, hi, rfl⟩
  · rintro ⟨t, i, ht, hi, rfl⟩
    exact ⟨i, hi, t, ht, rfl⟩

theorem rows_nodup {ts : List LMat} (h : ts.Nodup) : (rows ts).Nodup := by
  refine nodup_flatMap_key (fun x => match x with | .row _ i => i | _ => 0) List.nodup_range (fun i _ => h.map fun x y e => by simpa using e) (fun i _ x hx => ?_)
  obtain ⟨s, _, rfl⟩ := List.mem_map.1 hx
  rfl

theorem mem_groupOrder {n : Nat} {l : List BFld} {x : LFld} : x ∈ groupOrder n l ↔ ∃ g y, g < n ∧ y ∈ l ∧ x = .group g y := by
  unfold groupOrder
  simp only [List.mem_flatMap, List.mem_range, List.mem_map]
  constructor
  · rintro ⟨g, hg, y, hy, rfl⟩
    exact ⟨g, y, hg, hy, rfl⟩
  · rintro ⟨g, y, hg, hy, rfl⟩
    exact ⟨g, hg, y, hy, rfl⟩

theorem groupOrder_nodup (n : Nat) {l : List BFld} (h : l.Nodup) : (groupOrder n l).Nodup := by
  refine nodup_flatMap_key (fun x => match x with | .group g _ => g | _ => 0) List.nodup_range
    (fun g _ => h.map fun x y e => by simpa using e) (fun g _ x hx => ?_)
  obtain ⟨y, _, rfl⟩ := List.mem_map.1 hx
  rfl

/-- The step of the window a block belongs to. -/
def step : LFld → Nat
  | .srow _ i | .zrow i | .z i _ => i
  | _ => 0

theorem windows_nodup (win : Nat) : (windows win).Nodup := by
  refine nodup_flatMap_key step List.nodup_range (fun i _ => by simp) (fun i _ x hx => ?_)
  simp only [List.mem_cons, List.not_mem_nil, or_false] at hx
  rcases hx with rfl | rfl | rfl | rfl | rfl | rfl | rfl | rfl <;> rfl

theorem mem_windows {win : Nat} {x : LFld} : x ∈ windows win ↔ kind x = 2 ∧ match x with
    | .z i j => i < win ∧ j < 4
    | x => step x < win := by
  unfold windows
  simp only [List.mem_flatMap, List.mem_range, List.mem_cons, List.not_mem_nil, or_false]
  constructor
  · rintro ⟨i, hi, rfl | rfl | rfl | rfl | rfl | rfl | rfl | rfl⟩
    all_goals first | exact ⟨rfl, hi⟩ | exact ⟨rfl, hi, by omega⟩
  · rintro ⟨hk, h⟩
    cases x with
    | srow t i => exact ⟨i, h, by cases t <;> simp⟩
    | zrow i => exact ⟨i, h, by simp⟩
    | z i j =>
      refine ⟨i, h.1, ?_⟩
      have : j = 0 ∨ j = 1 ∨ j = 2 ∨ j = 3 := by have := h.2; omega
      rcases this with rfl | rfl | rfl | rfl <;> simp
    | _ => cases hk

theorem kind_rows {ts : List LMat} {x : LFld} (h : x ∈ rows ts) : kind x = 1 := by
  obtain ⟨_, _, _, _, rfl⟩ := mem_rows.1 h
  rfl

theorem kind_groups {n : Nat} {l : List BFld} {x : LFld} (h : x ∈ groupOrder n l) : kind x = 3 := by
  obtain ⟨_, _, _, _, rfl⟩ := mem_groupOrder.1 h
  rfl

theorem kind_windows {win : Nat} {x : LFld} (h : x ∈ windows win) : kind x = 2 := (mem_windows.1 h).1

theorem order_nodup (fl : Flags) : (order fl).Nodup := by
  refine app 0 (by decide) (app 3 (groupOrder_nodup _ (BnLife.order_nodup _)) (app 2 (windows_nodup _) (rows_nodup (by decide))
    (fun x hx => kind_windows hx) fun x hx => ?_) (fun x hx => kind_groups hx) fun x hx => ?_) (by decide) fun x hx => ?_
  · rw [kind_rows hx]; decide
  · rcases List.mem_append.1 hx with hx | hx
    · rw [kind_windows hx]; decide
    · rw [kind_rows hx]; decide
  · rcases List.mem_append.1 hx with hx | hx
    · rw [kind_groups hx]; decide
    · rcases List.mem_append.1 hx with hx | hx
      · rw [kind_windows hx]; decide
      · rw [kind_rows hx]; decide

theorem mem_tables (t : LMat) : t ∈ tables := by
  cases t with
  | par p s => cases p <;> cases s <;> decide
  | act r => cases r <;> decide
  | score r s => cases r <;> cases s <;> decide
  | idx r => cases r <;> decide

theorem mem_freeRows (t : LMat) : t ∈ freeRows := by
  cases t with
  | par p s => cases p <;> cases s <;> decide
  | act r => cases r <;> decide
  | score r s => cases r <;> cases s <;> decide
  | idx r => cases r <;> decide

theorem mem_freeTables (t : LMat) : t ∈ freeTables := by
  cases t with
  | par p s => cases p <;> cases s <;> decide
  | act r => cases r <;> decide
  | score r s => cases r <;> cases s <;> decide
  | idx r => cases r <;> decide

theorem mem_copyRows (t : LMat) : t ∈ copyRows := by
  cases t with
  | par p s => cases p <;> cases s <;> decide
  | act r => cases r <;> decide
  | score r s => cases r <;> cases s <;> decide
  | idx r => cases r <;> decide

theorem mem_order {fl : Flags} {x : LFld} : x ∈ order fl ↔ Place fl x := by
  unfold order
  rw [List.mem_append, List.mem_append, List.mem_append, List.mem_append, mem_groupOrder, mem_windows, mem_rows, List.mem_map]
  cases x with
  | tab t => simp [Place, mem_tables]
  | row t i => simp [Place, mem_tables, kind]
  | stab t => cases t <;> simp [Place]
  | srow t i => simp [Place, kind, step]
  | ztab => simp [Place]
  | zrow i => simp [Place, kind, step]
  | z i j => simp [Place, kind]
  | mask r => cases r <;> simp [Place]
  | gtab => simp [Place]
  | group g y =>
    simp only [Place, List.mem_cons, reduceCtorEq, List.not_mem_nil, or_self, false_or, exists_false, and_false, LFld.group.injEq, kind, or_false,
      Nat.reduceEqDiff, false_and]
    constructor
    · rintro ⟨g', y', hg, hy, rfl, rfl⟩
      exact ⟨hg, BnLife.order_part hy⟩
    · rintro ⟨hg, hy⟩
      exact ⟨g, y, hg, BnLife.mem_order hy, rfl, rfl⟩

theorem freeOrder_nodup (fl : Flags) : (freeOrder fl).Nodup := by
  refine app 2 ?_ (app 1 (rows_nodup (by decide)) (app 3 (groupOrder_nodup _ (BnLife.freeOrder_nodup _)) (by decide) (fun x hx => kind_groups hx) (by decide))
    (fun x hx => kind_rows hx) fun x hx => ?_) (fun x hx => ?_) fun x hx => ?_
  · refine nodup_flatMap_key step List.nodup_range (fun i _ => by simp) (fun i _ x hx => ?_)
    simp only [List.mem_cons, List.not_mem_nil, or_false] at hx
    rcases hx with rfl | rfl | rfl | rfl | rfl | rfl | rfl | rfl <;> rfl
  · rcases List.mem_append.1 hx with hx | hx
    · rw [kind_groups hx]; decide
    · clear * - hx; revert x; decide
  · simp only [List.mem_flatMap, List.mem_range, List.mem_cons, List.not_mem_nil, or_false] at hx
    obtain ⟨i, _, rfl | rfl | rfl | rfl | rfl | rfl | rfl | rfl⟩ := hx <;> rfl
  · rcases List.mem_append.1 hx with hx | hx
    · rw [kind_rows hx]; decide
    · rcases List.mem_append.1 hx with hx | hx
      · rw [kind_groups hx]; decide
      · clear * - hx; revert x; decide

theorem mem_freeOrder {fl : Flags} {x : LFld} (h : Place fl x) : x ∈ freeOrder fl := by
  unfold freeOrder
  rw [List.mem_append, List.mem_append, List.mem_append, mem_rows, mem_groupOrder, List.mem_cons, List.mem_append, List.mem_map, List.mem_flatMap]
  cases x with
  | tab t => simp [mem_freeTables]
  | row t i => exact Or.inr (Or.inl ⟨t, i, mem_freeRows t, h, rfl⟩)
  | stab t => cases t <;> simp
  | srow t i => exact Or.inl ⟨i, List.mem_range.2 h, by cases t <;> simp⟩
  | ztab => simp
  | zrow i => exact Or.inl ⟨i, List.mem_range.2 h, by simp⟩
  | z i j =>
    refine Or.inl ⟨i, List.mem_range.2 h.1, ?_⟩
    have : j = 0 ∨ j = 1 ∨ j = 2 ∨ j = 3 := by have := h.2; omega
    rcases this with rfl | rfl | rfl | rfl <;> simp
  | mask r => cases r <;> simp
  | gtab => simp
  | group g y => exact Or.inr (Or.inr (Or.inl ⟨g, y, h.1, BnLife.mem_freeOrder h.2, rfl⟩))

theorem mem_copyGroup {y : BFld} : y ∈ copyGroup ↔ BnLife.learned y = true ∧ y ≠ .vec (.beta .d1) := by
  cases y with
  | tab t => simp [copyGroup, BnLife.learned]
  | row t i => simp [copyGroup, BnLife.learned]
  | vec v =>
    cases v with
    | gamma s => cases s <;> simp [copyGroup, BnLife.learned]
    | beta s => cases s <;> simp [copyGroup, BnLife.learned]
    | _ => simp [copyGroup, BnLife.learned]

theorem copyOrder_nodup (fl : Flags) : (copyOrder fl).Nodup :=
  app 1 (rows_nodup (by decide)) (groupOrder_nodup _ (by decide)) (fun x hx => kind_rows hx) fun x hx => by rw [kind_groups hx]; decide

theorem pasteOrder_nodup (fl : Flags) : (pasteOrder fl).Nodup :=
  app 1 (rows_nodup (by decide)) (groupOrder_nodup _ BnLife.copyOrder_nodup) (fun x hx => kind_rows hx) fun x hx => by rw [kind_groups hx]; decide

theorem mem_copyOrder {fl : Flags} {x : LFld} (h : Place fl x) : x ∈ copyOrder fl ↔ learned x = true ∧ ∀ g, x ≠ .group g (.vec (.beta .d1)) := by
  unfold copyOrder
  rw [List.mem_append, mem_rows, mem_groupOrder]
  cases x with
  | row t i => simp only [learned]; exact ⟨fun _ => ⟨trivial, by simp⟩, fun _ => Or.inl ⟨t, i, mem_copyRows t, h, rfl⟩⟩
  | group g y =>
    simp only [reduceCtorEq, and_false, exists_false, false_or, LFld.group.injEq, learned]
    constructor
    · rintro ⟨_, _, _, hy, rfl, rfl⟩
      exact ⟨(mem_copyGroup.1 hy).1, fun g' hg => (mem_copyGroup.1 hy).2 (LFld.group.inj hg).2⟩
    · rintro ⟨h1, h2⟩
      exact ⟨g, y, h.1, mem_copyGroup.2 ⟨h1, fun e => h2 g (by rw [e])⟩, rfl, rfl⟩
  | _ => simp [learned]

theorem mem_pasteOrder {fl : Flags} {x : LFld} (h : Place fl x) : x ∈ pasteOrder fl ↔ learned x = true := by
  unfold pasteOrder
  rw [List.mem_append, mem_rows, mem_groupOrder]
  cases x with
  | row t i => simp only [learned]; exact ⟨fun _ => trivial, fun _ => Or.inl ⟨t, i, mem_copyRows t, h, rfl⟩⟩
  | group g y =>
    simp only [reduceCtorEq, and_false, exists_false, false_or, LFld.group.injEq, learned]
    rw [← BnLife.mem_copyOrder]
    constructor
    · rintro ⟨_, _, _, hy, rfl, rfl⟩
      exact hy
    · exact fun hy => ⟨g, y, h.1, hy, rfl, rfl⟩
  | _ => simp [learned]

theorem pasteOrder_place {fl : Flags} {x : LFld} (h : x ∈ pasteOrder fl) : Place fl x ∧ learned x = true := by
  have h' := h
  unfold pasteOrder at h'
  rw [List.mem_append, mem_rows, mem_groupOrder] at h'
  rcases h' with ⟨t, i, _, hi, rfl⟩ | ⟨g, y, hg, hy, rfl⟩
  · exact ⟨hi, rfl⟩
  · have hl := BnLife.mem_copyOrder.1 hy
    refine ⟨⟨hg, ?_⟩, hl⟩
    cases y with
    | row t i => cases hl
    | _ => trivial

omit [Field F] in
theorem copyAll_on (p q : LFld → Option Nat) (size : LFld → Nat) {on on' : LFld → Bool} : ∀ (l : List LFld), (∀ x ∈ l, on x = on' x) → ∀ (m : Mem F),
    copyAll p q size on l m = copyAll p q size on' l m := by
  intro l
  induction l with
  | nil => intro _ m; rfl
  | cons x xs ih =>
    intro h m
    simp only [copyAll, h x (by simp)]
    congr 1
    funext m'
    exact ih (fun y hy => h y (by simp [hy])) m'

theorem first_len (fl : Flags) (w : Bool → Nat → Nat → F) (x : LFld) : (fl.first w x).len = fl.size x := by
  cases x with
  | row t i =>
    cases t with
    | par p s => cases p <;> cases s <;> rfl
    | _ => rfl
  | _ => rfl

theorem called_iff {fl : Flags} {x : LFld} : Called fl x ↔ fl.alloc x = true ∧ Place fl x := by
  cases x with
  | tab t =>
    cases t with
    | par p s => cases s <;> simp [Called, Flags.alloc, Flags.hasMat, Place]
    | _ => simp [Called, Flags.alloc, Flags.hasMat, Flags.hasPopup, Place]
  | row t i =>
    cases t with
    | par p s => cases s <;> simp [Called, Flags.alloc, Flags.hasMat, Place]
    | _ => simp [Called, Flags.alloc, Flags.hasMat, Place]
  | _ => simp [Called, Flags.alloc, Place, Flags.groups]

theorem wild_sound {fl : Flags} (h : fl.sound) (x : LFld) : fl.wild x = false := by
  have : (fl.ffPopup && !fl.popup) = false := by
    cases hf : fl.ffPopup with
    | false => rfl
    | true => simp [h hf]
  cases x with
  | row t i => cases t <;> simp [Flags.wild, this]
  | _ => rfl

theorem construct_sound {m : Mem F} {fl : Flags} (w : Bool → Nat → Nat → F) (junk : LFld → Nat) (ha : fl.accepted) (h : fl.sound) :
    construct m fl w junk = some ((buildAll fl.alloc (fl.first w) (order fl) m).1, ⟨fl, 1, (buildAll fl.alloc (fl.first w) (order fl) m).2⟩) := by
  unfold construct
  rw [if_pos ha]
  simp only [wild_sound h, Bool.false_eq_true, if_false]

omit [Field F] in
theorem Own.mono {m m' : Mem F} {l : Lstm F} (h : Own m l) (ho : Owns m' l.ptr l.fl.size) : Own m' l := ⟨ho, h.place, h.tabs, h.rows, h.groups⟩

omit [Field F] in
theorem Own.of {m : Mem F} {l : Lstm F} (ho : Owns m l.ptr l.fl.size) (hh : ∀ x a, l.ptr x = some a → Called l.fl x) (hf : Full l) : Own m l := by
  refine ⟨ho, fun x a hx => (called_iff.1 (hh x a hx)).2, fun t a hx => (called_iff.1 (hh _ a hx)).1, fun t i a hx => ?_, fun g x a hx => ?_⟩
  · have h1 := (called_iff.1 (hh _ a hx)).1
    have h2 : l.fl.hasMat t = true := by
      cases t with
      | par p s => exact h1
      | act r => rfl
      | score r s => simp [Flags.hasMat, Flags.hasPopup, show l.fl.popup = true from h1]
      | idx r => simp [Flags.hasMat, Flags.hasPopup, show l.fl.popup = true from h1]
    exact ⟨h2, hf (.tab t) (called_iff.2 ⟨h2, trivial⟩)⟩
  · rcases hx with hx | hx
    · exact (called_iff.1 (hh _ a hx)).1
    · exact (called_iff.1 (hh _ a hx)).1

omit [Field F] in
theorem Own.freeable {m : Mem F} {l : Lstm F} (h : Own m l) {x : LFld} {a : Nat} (hx : l.ptr x = some a) : l.freeGuard x = true := by
  cases x with
  | row t i =>
    obtain ⟨h1, h2⟩ := h.rows t i a hx
    cases t with
    | par p s => cases s <;> simp [Lstm.freeGuard, h1, h2]
    | score r s => cases s <;> simp [Lstm.freeGuard, h1, h2]
    | _ => simp [Lstm.freeGuard, h1]
  | gtab => exact h.groups 0 (.tab .input) a (Or.inl hx)
  | group g y => exact h.groups g y a (Or.inr hx)
  | _ => rfl

omit [Field F] in
theorem Own.copyable {m : Mem F} {l : Lstm F} (h : Own m l) {x : LFld} {a : Nat} (hl : learned x = true) (hx : l.ptr x = some a) : l.copyGuard x = true := by
  cases x with
  | row t i =>
    obtain ⟨h1, h2⟩ := h.rows t i a hx
    cases t with
    | par p s => cases s <;> simp [Lstm.copyGuard, h1, h2]
    | act r => rfl
    | _ => simp [Lstm.copyGuard, h1, h2]
  | group g y => exact h.groups g y a (Or.inr hx)
  | _ => cases hl

theorem starts_first {m : Mem F} {k : F} {p : LFld → Option Nat} (fl : Flags) (w : Bool → Nat → Nat → F)
    (h : ∀ x, Called fl x → Reads m (p x) (fl.size x) (fl.first w x).get) : Starts m ⟨fl, k, p⟩ w := by
  refine ⟨fun i hi => h (.row (.par .w .val) i) hi, fun i hi => h (.row (.par .u .val) i) hi, fun r i hi => h (.row (.act r) i) hi,
    fun r i hp hi => h (.row (.idx r) i) ⟨hp, hi⟩, fun r => h (.mask r) trivial,
    fun hn g hg => h (.group g (.vec (.gamma .val))) ⟨hn, hg, trivial⟩, fun x hx h1 h2 h3 h4 h5 h6 => ?_⟩
  have := h x hx
  cases x with
  | row t i =>
    cases t with
    | par p s =>
      cases p with
      | w => cases s with
        | val => exact absurd rfl (h1 i)
        | _ => exact this
      | u => cases s with
        | val => exact absurd rfl (h2 i)
        | _ => exact this
      | b => exact this
    | act r => exact absurd rfl (h3 r i)
    | idx r => exact absurd rfl (h4 r i)
    | score r s => exact this
  | mask r => exact absurd rfl (h5 r)
  | group g y => cases y with
    | vec v => cases v with
      | gamma s => cases s with
        | val => exact absurd rfl (h6 g)
        | _ => exact this
      | _ => exact this
    | _ => exact this
  | _ => exact this

/-! ### Theorems -/

/-- **C162 (construction).** A new layer owns fresh memory, has exactly the arrays its flags call for with the
right first contents, and nothing else changes. Missing: layers that use edge-popup for the forward pass
only. -/
theorem C162_construct_partial (m : Mem F) (fl : Flags) (w : Bool → Nat → Nat → F) (junk : LFld → Nat) (h : fl.accepted) (hs : fl.sound) :
    ∃ m' l, construct m fl w junk = some (m', l) ∧ l.fl = fl ∧ l.k = 1 ∧ Own m' l ∧ (∀ x, (l.ptr x).isSome = true ↔ Called fl x) ∧
      (∀ a, a < m.next → m'.blk a = m.blk a) ∧ m.next ≤ m'.next ∧ (∀ x a, l.ptr x = some a → m.next ≤ a) ∧ Starts m' l w := by
  obtain ⟨h1, h2, _, _, h5, h6, _⟩ := buildAll_spec fl.alloc (fl.first w) (order fl) m (order_nodup fl)
  obtain ⟨o, rd⟩ := build_owned fl.alloc (fl.first w) m (order_nodup fl)
  simp only [first_len] at o rd
  have hh : ∀ x a, (buildAll fl.alloc (fl.first w) (order fl) m).2 x = some a → Called fl x :=
    fun x a hx => called_iff.2 ⟨(h5 x a hx).2.1, mem_order.1 (h5 x a hx).1⟩
  have hf : Full (⟨fl, 1, (buildAll fl.alloc (fl.first w) (order fl) m).2⟩ : Lstm F) :=
    fun x hx => h6 x (mem_order.2 (called_iff.1 hx).2) (called_iff.1 hx).1
  refine ⟨_, _, construct_sound w junk h hs, rfl, rfl, Own.of o hh hf, fun x => ⟨fun hx => ?_, hf x⟩, h2, h1, fun x a hx => (h5 x a hx).2.2.1, ?_⟩
  · obtain ⟨a, ha⟩ := Option.isSome_iff_exists.1 hx
    exact hh x a ha
  · exact starts_first fl w fun x hx => rd x (mem_order.2 (called_iff.1 hx).2) (called_iff.1 hx).1

omit [Field F] in
/-- Freeing something that is not a live block. -/
theorem freeAll_wild (p : LFld → Option Nat) : ∀ (l : List LFld) (m : Mem F) (a : Nat), m.blk a = none → (∃ x ∈ l, p x = some a) → freeAll p l m = none := by
  intro l
  induction l with
  | nil => rintro m a _ ⟨x, hx, _⟩; simp at hx
  | cons y ys ih =>
    rintro m a ha ⟨x, hx, hxa⟩
    simp only [freeAll, Option.bind_eq_bind, Option.bind_eq_none_iff]
    intro m' hm'
    rcases List.mem_cons.1 hx with rfl | hx'
    · rw [hxa] at hm'
      simp [Mem.free, ha] at hm'
    · refine ih m' a ?_ ⟨x, hx', hxa⟩
      cases hy : p y with
      | none => rw [hy] at hm'; cases hm'; exact ha
      | some b =>
        rw [hy] at hm'
        unfold Mem.free at hm'
        cases hb : m.blk b with
        | none => simp [hb] at hm'
        | some B =>
          simp only [hb] at hm'
          obtain rfl := Option.some.inj hm'
          by_cases hab : a = b
          · simp [hab]
          · simp [Function.update_of_ne hab, ha]

/-- **C162 (construction, refuted for edge-popup in the forward pass only).** With `feed_forward_flag`
edge-popup and another training mode the rows of the scores and rankings are never allocated and their
pointers never set: whatever the memory, there are left-over contents with which freeing the new layer frees
something that was never allocated. -/
theorem C162_popup_forward_refuted (m : Mem F) (hm : m.Sane) (fl : Flags) (w : Bool → Nat → Nat → F) (h : fl.accepted) (h1 : fl.ffPopup = true)
    (h2 : fl.popup = false) : ∃ junk m' l, construct m fl w junk = some (m', l) ∧ l.free m' = none := by
  obtain ⟨k1, k2, k3, k4, k5, k6, _⟩ := buildAll_spec fl.alloc (fl.first w) (order fl) m (order_nodup fl)
  refine ⟨fun _ => (buildAll fl.alloc (fl.first w) (order fl) m).1.next, _, _, by rw [construct, if_pos h], ?_⟩
  refine freeAll_wild _ _ _ (buildAll fl.alloc (fl.first w) (order fl) m).1.next ?_ ⟨.row (.score false .val) 0, ?_, ?_⟩
  · rw [k4 _ le_rfl, hm _ k1]
  · refine List.mem_filter.2 ⟨mem_freeOrder (show (0 : Nat) < 4 by decide), ?_⟩
    simp [Lstm.freeGuard, Flags.hasMat, Flags.hasPopup, h1]
  · simp [Flags.wild, h1, h2]

omit [Field F] in
/-- **C162 (freeing).** Freeing a layer, complete or stripped, frees each of its blocks once and nothing
else. -/
theorem C162_free (m : Mem F) (l : Lstm F) (h : Own m l) :
    ∃ m', l.free m = some m' ∧ m'.next = m.next ∧ (∀ x a, l.ptr x = some a → m'.blk a = none) ∧
      ∀ a, (∀ x, l.ptr x ≠ some a) → m'.blk a = m.blk a :=
  free_owned h.owns ((freeOrder_nodup l.fl).filter _) fun x a hx => List.mem_filter.2 ⟨mem_freeOrder (h.place x a hx), h.freeable hx⟩

/-- **C162 (which layers are refused).** A layer is built exactly when it has an input and an output, a window of at
least two steps, groups of whole cells that fill the window, and, for a residual connection, outputs as
many as inputs. -/
theorem C162_accepts (m : Mem F) (fl : Flags) (w : Bool → Nat → Nat → F) (junk : LFld → Nat) :
    (construct m fl w junk).isSome = true ↔ 1 ≤ fl.inp ∧ 1 ≤ fl.out ∧ 1 < fl.win ∧
      (fl.grouped = true → 1 ≤ fl.cells ∧ ∃ n, 1 ≤ n ∧ fl.win = n * fl.cells) ∧ (fl.residual = true → fl.out = fl.inp) := by
  unfold construct
  by_cases h : fl.accepted
  · rw [if_pos h]
    obtain ⟨h1, h2, h3, h4, h5⟩ := h
    refine ⟨fun _ => ⟨h1, h2, h3, fun hg => ⟨(h4 hg).1, fl.win / fl.cells, Nat.div_pos (h4 hg).2.1 (h4 hg).1, ?_⟩, fun hr => (h5 hr).symm⟩, fun _ => rfl⟩
    exact (Nat.div_mul_cancel (Nat.dvd_of_mod_eq_zero (h4 hg).2.2)).symm
  · rw [if_neg h]
    refine ⟨fun hh => (by cases hh), fun ⟨h1, h2, h3, h4, h5⟩ => absurd ⟨h1, h2, h3, fun hg => ?_, fun hr => (h5 hr).symm⟩ h⟩
    obtain ⟨g1, n, g2, g3⟩ := h4 hg
    exact ⟨g1, g3 ▸ Nat.le_mul_of_pos_left _ g2, by rw [g3]; exact Nat.mul_mod_left _ _⟩

/-- **C162 (no leak).** Building a layer and freeing it gives back all the memory. -/
theorem C162_no_leak_partial (m : Mem F) (hm : m.Sane) (fl : Flags) (w : Bool → Nat → Nat → F) (junk : LFld → Nat) (h : fl.accepted) (hs : fl.sound) :
    ∃ m1 l m2, construct m fl w junk = some (m1, l) ∧ l.free m1 = some m2 ∧ m2.blk = m.blk := by
  obtain ⟨m', l, e, _, _, o, _⟩ := C162_construct_partial m fl w junk h hs
  rw [construct_sound w junk h hs] at e
  obtain ⟨rfl, rfl⟩ := Prod.mk.inj (Option.some.inj e)
  have hl := ((freeOrder_nodup fl).filter (⟨fl, (1 : F), (buildAll fl.alloc (fl.first w) (order fl) m).2⟩ : Lstm F).freeGuard)
  obtain ⟨h1, h2, h3, h4, h5, h6, h7⟩ := buildAll_spec fl.alloc (fl.first w) (order fl) m (order_nodup fl)
  obtain ⟨m2, e, hb⟩ := build_free fl.alloc (fl.first w) m hm (order_nodup fl) hl fun x hx ha => by
    obtain ⟨a, hxa⟩ := Option.isSome_iff_exists.1 (h6 x hx ha)
    exact List.mem_filter.2 ⟨mem_freeOrder (mem_order.1 hx), o.freeable hxa⟩
  exact ⟨_, _, m2, construct_sound w junk h hs, e, hb⟩

/-- **C162 (copying).** The copy owns complete fresh memory. Weights, biases, scores, their gradients and
optimiser arrays, rankings, active outputs and the learned arrays of the groups other than the first
optimiser array of the shifts are those of the original where it has them; the original and all other
memory are as before. Missing: the first optimiser array of the shifts. -/
theorem C162_copy_partial (m : Mem F) (l : Lstm F) (w : Bool → Nat → Nat → F) (junk : LFld → Nat) (h : Own m l) (ha : l.fl.accepted) (hs : l.fl.sound) :
    ∃ m' d, l.dup m w junk = some (m', d) ∧ d.fl = l.fl ∧ d.k = l.k ∧ Own m' d ∧ Full d ∧ Own m' l ∧ Apart l.ptr d.ptr ∧
      (∀ a, a < m.next → m'.blk a = m.blk a) ∧ m.next ≤ m'.next ∧ (∀ x a, d.ptr x = some a → m.next ≤ a) ∧
      (∀ x, learned x = true → Called l.fl x → (∀ g, x ≠ .group g (.vec (.beta .d1))) → ∀ a A, l.ptr x = some a → m.blk a = some A →
        Reads m' (d.ptr x) (l.fl.size x) A.get) ∧
      (∀ r, Reads m' (d.ptr (.mask r)) l.fl.out fun _ => 1) ∧
      (∀ x, Called l.fl x → learned x = false → (∀ r, x ≠ .mask r) → Reads m' (d.ptr x) (l.fl.size x) fun _ => 0) ∧
      ∀ g, Called l.fl (.group g (.vec (.beta .d1))) → Reads m' (d.ptr (.group g (.vec (.beta .d1)))) l.fl.out fun _ => 0 := by
  obtain ⟨m', q, e, e2, o, ob, ap, fr, fresh, full, hn, rd, rd0⟩ := build_copy l.fl.alloc (l.fl.first w) (order := order l.fl)
    (l := copyOrder l.fl) m l.ptr l.fl.size l.copyGuard h.owns (fun x _ => (first_len l.fl w x).symm) (order_nodup _) (copyOrder_nodup _)
  simp only [first_len] at o rd0
  have hf : Full (⟨l.fl, l.k, q⟩ : Lstm F) := fun x hx => full x (mem_order.2 (called_iff.1 hx).2) (called_iff.1 hx).1
  have hrest : ∀ x, Called l.fl x → (learned x = false ∨ ∃ g, x = .group g (.vec (.beta .d1))) → Reads m' (q x) (l.fl.size x) (l.fl.first w x).get := by
    intro x hx hno
    refine rd0 x (mem_order.2 (called_iff.1 hx).2) (called_iff.1 hx).1 (Or.inr (Or.inl fun hm => ?_))
    obtain ⟨g1, g2⟩ := (mem_copyOrder (called_iff.1 hx).2).1 hm
    rcases hno with hno | ⟨g, hg⟩
    · rw [g1] at hno; cases hno
    · exact g2 g hg
  refine ⟨m', ⟨l.fl, l.k, q⟩, ?_, rfl, rfl, Own.of o (fun x a hx => called_iff.2 ⟨(fresh x a hx).2.1, mem_order.1 (fresh x a hx).1⟩) hf, hf, h.mono ob, ap,
    fr, hn, fun x a hx => (fresh x a hx).2.2, fun x hl hx hno a A hxa hA => ?_, fun r => hrest (.mask r) trivial (Or.inl rfl), fun x hx hno hma => ?_,
    fun g hg => hrest _ hg (Or.inr ⟨g, rfl⟩)⟩
  · unfold Lstm.dup
    rw [construct_sound w junk ha hs]
    subst e
    simp only [Option.bind_eq_bind, Option.bind_some, e2]
  · exact rd x ((mem_copyOrder (called_iff.1 hx).2).2 ⟨hl, hno⟩) (h.copyable hl hxa) a A hxa hA (hf x hx)
  · have := hrest x hx (Or.inl hno)
    cases x with
    | row t i => cases hno
    | mask r => exact absurd rfl (hma r)
    | group g y => cases y with
      | vec v => cases v with
        | gamma s => cases hno
        | _ => exact this
      | _ => exact this
    | _ => exact this

/-- **C162 (copying, refuted for grouped layers).** `copy_lstm` forgets the first optimiser array of the
shifts (momentum, or the first moment): if it is not zero in the original the copy differs. -/
theorem C162_copy_refuted (m : Mem F) (l : Lstm F) (w : Bool → Nat → Nat → F) (junk : LFld → Nat) (h : Own m l) (ha : l.fl.accepted) (hs : l.fl.sound)
    (hg : l.fl.grouped = true) {g a i : Nat} {A : Arr F} (hgn : g < l.fl.win / l.fl.cells) (hx : l.ptr (.group g (.vec (.beta .d1))) = some a)
    (hA : m.blk a = some A) (hi : i < l.fl.out) (hne : A.get i ≠ 0) :
    ∃ m' d b B, l.dup m w junk = some (m', d) ∧ d.ptr (.group g (.vec (.beta .d1))) = some b ∧ m'.blk b = some B ∧ m'.blk a = some A ∧ B.get i ≠ A.get i := by
  obtain ⟨m', d, e, _, _, _, _, _, _, fr, _, _, _, _, _, z⟩ := C162_copy_partial m l w junk h ha hs
  obtain ⟨b, B, hb, hB, _, hc⟩ := z g ⟨hg, hgn, trivial⟩
  refine ⟨m', d, b, B, e, hb, hB, by rw [fr a (h.owns.live _ a hx).1, hA], ?_⟩
  rw [hc i hi]
  exact hne.symm

/-! ### Pasting -/

omit [Field F] in
theorem size_eq {fl fl' : Flags} (h1 : fl.inp = fl'.inp) (h2 : fl.out = fl'.out) {x : LFld} (hl : learned x = true) : fl.size x = fl'.size x := by
  cases x with
  | row t i =>
    cases t with
    | par p s => cases p <;> simp [Flags.size, Flags.rowSize, h1, h2]
    | act r => cases r <;> simp [Flags.size, Flags.rowSize, h1, h2]
    | score r s => cases r <;> simp [Flags.size, Flags.rowSize, h1, h2]
    | idx r => cases r <;> simp [Flags.size, Flags.rowSize, h1, h2]
  | group g y => cases y with
    | vec v => exact h2
    | _ => cases hl
  | _ => cases hl

omit [Field F] in
/-- **C162 (pasting).** Between layers with the same numbers of inputs and outputs, if the target has every
learned array that the source has, all of them are copied, and the percentage; the source and the rest of
memory are as before. -/
theorem C162_paste_partial (m : Mem F) (l d : Lstm F) (hl : Own m l) (hd : Own m d) (hap : Apart l.ptr d.ptr) (hf : Full d) (h1 : l.fl.inp = d.fl.inp)
    (h2 : l.fl.out = d.fl.out) (hp : l.fl.popup = d.fl.popup) (hff : l.fl.ffPopup = d.fl.ffPopup)
    (hg : l.fl.grouped = true → d.fl.grouped = true ∧ l.fl.win / l.fl.cells ≤ d.fl.win / d.fl.cells) :
    ∃ m', l.paste m d = some (m', { d with k := l.k }) ∧ Own m' l ∧ Own m' d ∧ Intact m m' l.ptr ∧
      (∀ x, learned x = true → ∀ a A, l.ptr x = some a → m.blk a = some A → (d.ptr x).isSome → Reads m' (d.ptr x) (l.fl.size x) A.get) ∧
      (∀ x a, learned x = true → Called d.fl x → l.ptr x = some a → (d.ptr x).isSome) ∧
      ∀ a, (∀ x, learned x = true → (l.ptr x).isSome → d.ptr x ≠ some a) → m'.blk a = m.blk a := by
  have hM : ∀ t, l.fl.hasMat t = d.fl.hasMat t := by
    intro t
    cases t with
    | par p s => cases s <;> simp [Flags.hasMat, hp]
    | _ => simp [Flags.hasMat, Flags.hasPopup, hp, hff]
  have hall : (pasteOrder l.fl).all (fun x => !l.copyGuard x || d.reach x) = true := by
    rw [List.all_eq_true]
    intro x hx
    obtain ⟨hpl, hle⟩ := pasteOrder_place hx
    cases hgx : l.copyGuard x with
    | false => rfl
    | true =>
      simp only [Bool.not_true, Bool.false_or]
      cases x with
      | row t i =>
        have hmt : l.fl.hasMat t = true := by
          simp only [Lstm.copyGuard, Bool.and_eq_true] at hgx
          exact hgx.1
        exact hf (.tab t) (called_iff.2 ⟨by rw [← hmt, hM t]; rfl, trivial⟩)
      | group g y =>
        obtain ⟨k1, k2⟩ := hg hgx
        have hlt : g < d.fl.groups := lt_of_lt_of_le hpl.1 k2
        have : (d.ptr .gtab).isSome = true := hf .gtab k1
        simp only [Lstm.reach, this, hlt, decide_true, Bool.and_self]
      | _ => rfl
  obtain ⟨m', e, o1, o2, _, fr, rd⟩ := copyAll_spec l.ptr d.ptr l.fl.size d.fl.size (fun x => learned x && l.copyGuard x) hap
    (fun x hx => size_eq h1 h2 (Bool.and_eq_true _ _ ▸ hx).1) (pasteOrder l.fl) m hl.owns hd.owns (pasteOrder_nodup _)
  refine ⟨m', ?_, hl.mono o1, hd.mono o2, fun x a hx => fr a fun y _ _ _ hy => hap x y a hx hy, fun x hle a A hxa hA hs => ?_,
    fun x a _ hx _ => hf x hx, fun a ha => fr a fun x _ hon hs => ha x (Bool.and_eq_true _ _ ▸ hon).1 hs⟩
  · unfold Lstm.paste
    rw [if_pos hall, ← copyAll_on (on := fun x => learned x && l.copyGuard x) l.ptr d.ptr l.fl.size (pasteOrder l.fl)
      (fun x hx => by rw [(pasteOrder_place hx).2, Bool.true_and])]
    simp only [e, Option.bind_eq_bind, Option.bind_some]
  · exact rd x ((mem_pasteOrder (hl.place x a hxa)).2 hle) (by rw [hle, hl.copyable hle hxa]; rfl) a A hxa hA hs

omit [Field F] in
/-- **C162 (pasting, refuted for smaller targets).** No size is compared: pasting on a layer with fewer outputs
and no more inputs writes out of bounds. -/
theorem C162_paste_refuted (m : Mem F) (l d : Lstm F) (hl : Own m l) (hd : Own m d) (fl : Full l) (fd : Full d) (h : d.fl.out < l.fl.out) :
    l.paste m d = none := by
  unfold Lstm.paste
  by_cases hall : (pasteOrder l.fl).all (fun x => !l.copyGuard x || d.reach x) = true
  · have hx : LFld.row (.par .b .val) 0 ∈ pasteOrder l.fl := (mem_pasteOrder (show Place l.fl (.row (.par .b .val) 0) from (by decide : 0 < 4))).2 rfl
    rw [if_pos hall, copyAll_none l.ptr d.ptr l.fl.size d.fl.size l.copyGuard (pasteOrder l.fl) m hl.owns hd.owns ⟨.row (.par .b .val) 0, hx, rfl,
      fl (.row (.par .b .val) 0) (by decide : 0 < 4), fd (.row (.par .b .val) 0) (by decide : 0 < 4), h⟩]
    rfl
  · rw [if_neg hall]

/-! ### Resetting -/

theorem bnSteps_nodup (l : Lstm F) : ((bnSteps l).map Wr.fld).Nodup := by
  unfold bnSteps
  rw [List.map_flatMap]
  refine nodup_flatMap_key (fun x => match x with | .group g _ => g | _ => 0) List.nodup_range (fun g _ => ?_) (fun g _ x hx => ?_)
  · rw [List.map_map]
    have := (BnLife.resetSteps_nodup (F := F) true (l.bn g)).map (f := LFld.group g) fun x y e => by simpa using e
    rw [List.map_map] at this
    exact this
  · simp only [List.map_map, List.mem_map, Function.comp_apply] at hx
    obtain ⟨s, _, rfl⟩ := hx
    rfl

theorem work_iff (g : Nat) (y : BFld) : ConvLife.groupWork (.group 0 y) = forward (.group g y) := by
  cases y with
  | vec v => cases v with
    | gamma s => cases s <;> rfl
    | beta s => cases s <;> rfl
    | _ => rfl
  | _ => rfl

theorem mem_bnSteps {l : Lstm F} {s : Wr LFld F} (h : s ∈ bnSteps l) :
    s.c = (fun _ => 0) ∧ kind s.fld = 3 ∧ forward s.fld = true ∧ (s.on = true → Called l.fl s.fld) := by
  simp only [bnSteps, List.mem_flatMap, List.mem_range, List.mem_map] at h
  obtain ⟨g, hg, t, ht, rfl⟩ := h
  obtain ⟨h1, h2, h3, _⟩ := ConvLife.mem_resetSteps ht
  exact ⟨h1, rfl, (work_iff g t.fld).symm.trans h3, fun hon => ⟨(Bool.and_eq_true _ _ ▸ hon).1, hg, h2⟩⟩

theorem bnSteps_mem {l : Lstm F} (hu : Usable l) {g : Nat} {y : BFld} (hx : Called l.fl (.group g y)) (hw : forward (.group g y) = true) :
    (⟨.group g y, true, fun _ => 0⟩ : Wr LFld F) ∈ bnSteps l := by
  simp only [bnSteps, List.mem_flatMap, List.mem_range, List.mem_map]
  refine ⟨g, hx.2.1, ⟨y, true, fun _ => 0⟩, ConvLife.resetSteps_mem (l.bn g) (by rw [work_iff g y, hw]) hx.2.2
    (fun x hp => hu (.group g x) ⟨hx.1, hx.2.1, hp⟩ (by simp)), ?_⟩
  simp [show l.fl.grouped = true from hx.1]

theorem mem_windowSteps {l : Lstm F} {s : Wr LFld F} (h : s ∈ windowSteps l) :
    s.c = (fun _ => 0) ∧ kind s.fld = 2 ∧ forward s.fld = true ∧ Called l.fl s.fld := by
  simp only [windowSteps, List.mem_flatMap, List.mem_range, List.mem_cons, List.not_mem_nil, or_false] at h
  obtain ⟨i, hi, rfl | rfl | rfl | rfl | rfl | rfl | rfl⟩ := h
  all_goals first | exact ⟨rfl, rfl, rfl, hi⟩ | exact ⟨rfl, rfl, rfl, hi, by decide⟩

theorem windowSteps_nodup (l : Lstm F) : ((windowSteps l).map Wr.fld).Nodup := by
  unfold windowSteps
  rw [List.map_flatMap]
  refine nodup_flatMap_key step List.nodup_range (fun i _ => by simp) (fun i _ x hx => ?_)
  simp only [List.map_cons, List.map_nil, List.mem_cons, List.not_mem_nil, or_false] at hx
  rcases hx with rfl | rfl | rfl | rfl | rfl | rfl | rfl <;> rfl

theorem forwardSteps_nodup (l : Lstm F) : ((forwardSteps l).map Wr.fld).Nodup := by
  unfold forwardSteps
  rw [List.map_append, List.map_append]
  refine app 0 (by simp) (app 2 (windowSteps_nodup l) (bnSteps_nodup l) (fun x hx => ?_) fun x hx => ?_) (by simp [kind]) fun x hx => ?_
  · obtain ⟨s, hs, rfl⟩ := List.mem_map.1 hx
    exact (mem_windowSteps hs).2.1
  · obtain ⟨s, hs, rfl⟩ := List.mem_map.1 hx
    rw [(mem_bnSteps hs).2.1]; decide
  · rcases List.mem_append.1 hx with hx | hx
    · obtain ⟨s, hs, rfl⟩ := List.mem_map.1 hx
      rw [(mem_windowSteps hs).2.1]; decide
    · obtain ⟨s, hs, rfl⟩ := List.mem_map.1 hx
      rw [(mem_bnSteps hs).2.1]; decide

theorem mem_forwardSteps {l : Lstm F} {s : Wr LFld F} (h : s ∈ forwardSteps l) :
    kind s.fld ≠ 1 ∧ (forward s.fld = true ∨ ∃ r, s.fld = .mask r) ∧ (s.on = true → Called l.fl s.fld) := by
  rcases List.mem_append.1 h with h | h
  · simp only [List.mem_cons, List.not_mem_nil, or_false] at h
    rcases h with rfl | rfl
    · exact ⟨by simp [kind], Or.inr ⟨_, rfl⟩, fun _ => trivial⟩
    · exact ⟨by simp [kind], Or.inr ⟨_, rfl⟩, fun _ => trivial⟩
  · rcases List.mem_append.1 h with h | h
    · obtain ⟨_, k, f, c⟩ := mem_windowSteps h
      exact ⟨by rw [k]; decide, Or.inl f, fun _ => c⟩
    · obtain ⟨_, k, f, c⟩ := mem_bnSteps h
      exact ⟨by rw [k]; decide, Or.inl f, c⟩

theorem forwardSteps_mem {l : Lstm F} (hu : Usable l) {x : LFld} (hx : Called l.fl x) (hw : forward x = true) :
    (⟨x, true, fun _ => 0⟩ : Wr LFld F) ∈ forwardSteps l := by
  refine List.mem_append_right _ (List.mem_append.2 ?_)
  cases x with
  | group g y => exact Or.inr (bnSteps_mem hu hx hw)
  | srow t i =>
    left
    simp only [windowSteps, List.mem_flatMap, List.mem_range]
    exact ⟨i, hx, by cases t <;> simp⟩
  | z i j =>
    left
    simp only [windowSteps, List.mem_flatMap, List.mem_range]
    refine ⟨i, hx.1, ?_⟩
    have : j = 0 ∨ j = 1 ∨ j = 2 ∨ j = 3 := by have := hx.2; omega
    rcases this with rfl | rfl | rfl | rfl <;> simp
  | _ => cases hw

theorem forward_usable {l : Lstm F} (hu : Usable l) {s : Wr LFld F} (h : s ∈ forwardSteps l) (hon : s.on = true) : (l.ptr s.fld).isSome := by
  obtain ⟨_, k, c⟩ := mem_forwardSteps h
  refine hu _ (c hon) fun t i _ => ⟨?_, ?_⟩
  · intro e
    rw [e] at k
    rcases k with k | ⟨r, k⟩ <;> cases k
  · intro e
    rw [e] at k
    rcases k with k | ⟨r, k⟩ <;> cases k

/-- **C162 (resetting for inference).** `reset_lstm_only_for_ff` opens the masks, clears the window and the
work arrays and gradients of the groups, and changes nothing else; it works on stripped layers too. -/
theorem C162_reset_ff (m : Mem F) (l : Lstm F) (h : Own m l) (hu : Usable l) :
    ∃ m', l.resetFF m = some m' ∧ Own m' l ∧ (∀ x, Called l.fl x → forward x = true → Reads m' (l.ptr x) (l.fl.size x) fun _ => 0) ∧
      (∀ r, Reads m' (l.ptr (.mask r)) l.fl.out fun _ => 1) ∧
      (∀ x a, l.ptr x = some a → forward x = false → (∀ r, x ≠ .mask r) → m'.blk a = m.blk a) ∧
      ∀ a, (∀ x, l.ptr x ≠ some a) → m'.blk a = m.blk a := by
  obtain ⟨m', e, o, _, fr, rd⟩ := writeAll_spec l.ptr l.fl.size (forwardSteps l) m h.owns (forwardSteps_nodup l) (fun s hs hon => forward_usable hu hs hon)
  refine ⟨m', e, h.mono o, fun x hx hw => rd _ (forwardSteps_mem hu hx hw) rfl, fun r => ?_, fun x a hxa h1 h2 => fr a fun s hs _ hsa => ?_,
    fun a ha => fr a fun s _ _ => ha _⟩
  · cases r
    · exact rd ⟨.mask false, true, fun _ => 1⟩ (by simp [forwardSteps]) rfl
    · exact rd ⟨.mask true, true, fun _ => 1⟩ (by simp [forwardSteps]) rfl
  · have := h.owns.inj _ _ a hsa hxa
    rcases (mem_forwardSteps hs).2.1 with hw | ⟨r, hw⟩
    · rw [this, h1] at hw; cases hw
    · exact h2 r (this ▸ hw)

theorem mem_backSteps {l : Lstm F} {s : Wr LFld F} (h : s ∈ backSteps l) :
    s.c = (fun _ => 0) ∧ gradient s.fld = true ∧ ∃ t i, i < 4 ∧ s.fld = .row t i ∧ s.on = l.fl.hasMat t := by
  simp only [backSteps, List.mem_flatMap, List.mem_range, List.mem_cons, List.not_mem_nil, or_false] at h
  obtain ⟨i, hi, rfl | rfl | rfl | rfl | rfl⟩ := h
  all_goals exact ⟨rfl, rfl, _, i, hi, rfl, rfl⟩

theorem reset_nodup (l : Lstm F) : ((backSteps l ++ forwardSteps l).map Wr.fld).Nodup := by
  rw [List.map_append]
  refine app 1 ?_ (forwardSteps_nodup l) (fun x hx => ?_) fun x hx => ?_
  · unfold backSteps
    rw [List.map_flatMap]
    refine nodup_flatMap_key (fun x => match x with | .row _ i => i | _ => 0) List.nodup_range (fun i _ => by simp) (fun i _ x hx => ?_)
    simp only [List.map_cons, List.map_nil, List.mem_cons, List.not_mem_nil, or_false] at hx
    rcases hx with rfl | rfl | rfl | rfl | rfl <;> rfl
  · obtain ⟨s, hs, rfl⟩ := List.mem_map.1 hx
    obtain ⟨_, _, t, i, _, e, _⟩ := mem_backSteps hs
    rw [e]; rfl
  · obtain ⟨s, hs, rfl⟩ := List.mem_map.1 hx
    exact (mem_forwardSteps hs).1

omit [Field F] in
theorem Full.usable {l : Lstm F} (h : Full l) : Usable l := fun x hx _ => h x hx

/-- With sound flags a row is called for as soon as its table is. -/
theorem called_row {fl : Flags} (hs : fl.sound) {t : LMat} {i : Nat} (h : fl.hasMat t = true) (hi : i < 4) : Called fl (.row t i) := by
  refine called_iff.2 ⟨?_, hi⟩
  have hp : fl.hasPopup = true → fl.popup = true := by
    unfold Flags.hasPopup
    rw [Bool.or_eq_true]
    rintro (h | h)
    · exact h
    · exact hs h
  cases t with
  | par p s => exact h
  | act r => rfl
  | score r s => exact hp h
  | idx r => exact hp h

/-- The rows a ranking changes. -/
def ranked (ss : List (Bool × Nat)) (x : LFld) : Prop := ∃ r i, (r, i) ∈ ss ∧ (x = .row (.idx r) i ∨ x = .row (.act r) i)

theorem rankAll_spec (rank : Arr F → Arr F → Nat → F) (hit : Bool → F → (Nat → F) → Nat → Bool) (l : Lstm F) : ∀ (ss : List (Bool × Nat)) (m : Mem F),
    Owns m l.ptr l.fl.size → ss.Nodup → (∀ s ∈ ss, (l.ptr (.row (.score s.1 .val) s.2)).isSome ∧ (l.ptr (.row (.idx s.1) s.2)).isSome ∧
      (l.ptr (.row (.act s.1) s.2)).isSome) →
    ∃ m', rankAll rank hit l ss m = some m' ∧ Owns m' l.ptr l.fl.size ∧ (∀ a, (∀ x, ranked ss x → l.ptr x ≠ some a) → m'.blk a = m.blk a) ∧
      ∀ r i, (r, i) ∈ ss → ∃ a b c A B C, l.ptr (.row (.score r .val) i) = some a ∧ m.blk a = some A ∧ l.ptr (.row (.idx r) i) = some b ∧
        m.blk b = some B ∧ l.ptr (.row (.act r) i) = some c ∧ m.blk c = some C ∧
        Reads m' (l.ptr (.row (.idx r) i)) (l.fl.rowSize (.idx r)) (rank A B) ∧
        Reads m' (l.ptr (.row (.act r) i)) (l.fl.rowSize (.act r)) fun j => if hit r l.k (rank A B) j then 1 else C.get j := by
  intro ss
  induction ss with
  | nil => intro m o _ _; exact ⟨m, rfl, o, fun _ _ => rfl, fun r i h => by simp at h⟩
  | cons s ss ih =>
    obtain ⟨r, i⟩ := s
    intro m o hnd hall
    rw [List.nodup_cons] at hnd
    obtain ⟨p1, p2, p3⟩ := hall (r, i) (by simp)
    obtain ⟨a, ha⟩ := Option.isSome_iff_exists.1 p1
    obtain ⟨b, hb⟩ := Option.isSome_iff_exists.1 p2
    obtain ⟨c, hc⟩ := Option.isSome_iff_exists.1 p3
    simp only at ha hb hc
    obtain ⟨_, A, hA, _⟩ := o.live _ a ha
    obtain ⟨_, B, hB, _⟩ := o.live _ b hb
    obtain ⟨_, C, hC, _⟩ := o.live _ c hc
    obtain ⟨m1, e1, o1, _, fr1, rd1⟩ := writeAll_spec l.ptr l.fl.size [⟨.row (.idx r) i, true, rank A B⟩,
      ⟨.row (.act r) i, true, fun j => if hit r l.k (rank A B) j then 1 else C.get j⟩] m o (by simp) (by
        intro s hs _
        simp only [List.mem_cons, List.not_mem_nil, or_false] at hs
        rcases hs with rfl | rfl
        · exact p2
        · exact p3)
    have fr1' : ∀ x d, l.ptr x = some d → x ≠ .row (.idx r) i → x ≠ .row (.act r) i → m1.blk d = m.blk d := by
      intro x d hx h1 h2
      refine fr1 d fun s hs _ hsd => ?_
      have := o.inj _ _ d hsd hx
      simp only [List.mem_cons, List.not_mem_nil, or_false] at hs
      rcases hs with rfl | rfl
      · exact h1 this.symm
      · exact h2 this.symm
    obtain ⟨m2, e2, o2, fr2, rd2⟩ := ih m1 o1 hnd.2 fun s hs => hall s (by simp [hs])
    refine ⟨m2, ?_, o2, fun d hd => ?_, fun r' i' hm => ?_⟩
    · simp only [rankAll, ha, hb, hc, Option.bind_some, hA, hB, hC, Option.bind_eq_bind, e1, e2]
    · rw [fr2 d fun x ⟨r', i', h1, h2⟩ => hd x ⟨r', i', by simp [h1], h2⟩, fr1 d]
      intro s hs _
      simp only [List.mem_cons, List.not_mem_nil, or_false] at hs
      rcases hs with rfl | rfl
      · exact hd _ ⟨r, i, by simp, Or.inl rfl⟩
      · exact hd _ ⟨r, i, by simp, Or.inr rfl⟩
    · rcases List.mem_cons.1 hm with he | hm'
      · obtain ⟨rfl, rfl⟩ := Prod.mk.inj he
        refine ⟨a, b, c, A, B, C, ha, hA, hb, hB, hc, hC, ?_, ?_⟩
        · obtain ⟨d, D, hd, hD, hl, hv⟩ := rd1 ⟨.row (.idx r') i', true, rank A B⟩ (by simp) rfl
          refine ⟨d, D, hd, ?_, hl, hv⟩
          rw [fr2 d, hD]
          rintro x ⟨r2, i2, h1, h2⟩ hx
          have := o.inj _ _ d hx hd
          rw [this] at h2
          rcases h2 with h2 | h2
          · cases h2; exact hnd.1 h1
          · cases h2
        · obtain ⟨d, D, hd, hD, hl, hv⟩ := rd1 ⟨.row (.act r') i', true, fun j => if hit r' l.k (rank A B) j then 1 else C.get j⟩ (by simp) rfl
          refine ⟨d, D, hd, ?_, hl, hv⟩
          rw [fr2 d, hD]
          rintro x ⟨r2, i2, h1, h2⟩ hx
          have := o.inj _ _ d hx hd
          rw [this] at h2
          rcases h2 with h2 | h2
          · cases h2
          · cases h2; exact hnd.1 h1
      · obtain ⟨a', b', c', A', B', C', q1, q2, q3, q4, q5, q6, q7, q8⟩ := rd2 r' i' hm'
        have hne : (r', i') ≠ (r, i) := fun he => hnd.1 (he ▸ hm')
        refine ⟨a', b', c', A', B', C', q1, ?_, q3, ?_, q5, ?_, q7, q8⟩
        · rw [← fr1' _ a' q1 (by simp) (by simp), q2]
        · rw [← fr1' _ b' q3 (by rintro h; cases h; exact hne rfl) (by simp), q4]
        · rw [← fr1' _ c' q5 (by simp) (by rintro h; cases h; exact hne rfl), q6]

theorem mem_gates (r : Bool) (i : Nat) : (r, i) ∈ gates ↔ i < 4 := by
  constructor
  · intro h
    simp only [gates, List.mem_cons, Prod.mk.injEq, List.not_mem_nil, or_false] at h
    omega
  · intro h
    have : i = 0 ∨ i = 1 ∨ i = 2 ∨ i = 3 := by omega
    cases r <;> rcases this with rfl | rfl | rfl | rfl <;> decide

/-- **C162 (resetting).** Resetting a complete layer clears the gradients, the window and the work arrays of the
groups and opens the masks. With edge-popup training the rankings are computed anew and active outputs
are added; otherwise rankings and active outputs, and always weights, biases, scores and optimiser
arrays, are as before. Missing: stripped layers and edge-popup in the forward pass only. -/
theorem C162_reset_partial (rank : Arr F → Arr F → Nat → F) (hit : Bool → F → (Nat → F) → Nat → Bool) (m : Mem F) (l : Lstm F) (h : Own m l) (hf : Full l)
    (hs : l.fl.sound) :
    ∃ m', l.reset rank hit m = some m' ∧ Own m' l ∧
      (∀ x, Called l.fl x → forward x = true ∨ gradient x = true → Reads m' (l.ptr x) (l.fl.size x) fun _ => 0) ∧
      (∀ r, Reads m' (l.ptr (.mask r)) l.fl.out fun _ => 1) ∧
      (l.fl.popup = true → ∀ r i, i < 4 → ∃ a b c A B C, l.ptr (.row (.score r .val) i) = some a ∧ m.blk a = some A ∧
        l.ptr (.row (.idx r) i) = some b ∧ m.blk b = some B ∧ l.ptr (.row (.act r) i) = some c ∧ m.blk c = some C ∧
        Reads m' (l.ptr (.row (.idx r) i)) (l.fl.rowSize (.idx r)) (rank A B) ∧
        Reads m' (l.ptr (.row (.act r) i)) (l.fl.rowSize (.act r)) fun j => if hit r l.k (rank A B) j then 1 else C.get j) ∧
      (∀ x a, l.ptr x = some a → forward x = false → gradient x = false → (∀ r, x ≠ .mask r) →
        (l.fl.popup = true → ∀ r i, x ≠ .row (.idx r) i ∧ x ≠ .row (.act r) i) → m'.blk a = m.blk a) ∧
      ∀ a, (∀ x, l.ptr x ≠ some a) → m'.blk a = m.blk a := by
  obtain ⟨m1, e, o, _, fr, rd⟩ := writeAll_spec l.ptr l.fl.size (backSteps l ++ forwardSteps l) m h.owns (reset_nodup l) (by
    intro s hm hon
    rcases List.mem_append.1 hm with hm | hm
    · obtain ⟨_, _, t, i, hi, e, ho⟩ := mem_backSteps hm
      rw [e]
      exact hf _ (called_row hs (ho ▸ hon) hi)
    · exact forward_usable hf.usable hm hon)
  have hz : ∀ x, Called l.fl x → forward x = true ∨ gradient x = true → Reads m1 (l.ptr x) (l.fl.size x) fun _ => 0 := by
    rintro x hx (hw | hw)
    · exact rd _ (List.mem_append_right _ (forwardSteps_mem hf.usable hx hw)) rfl
    · refine rd ⟨x, true, fun _ => 0⟩ (List.mem_append_left _ ?_) rfl
      cases x with
      | row t i =>
        simp only [backSteps, List.mem_flatMap, List.mem_range]
        cases t with
        | par p s => cases s with
          | d => exact ⟨i, hx.2, by cases p <;> simp [show l.fl.popup = false from hx.1]⟩
          | _ => cases hw
        | score r s => cases s with
          | d => exact ⟨i, hx.2, by cases r <;> simp [Flags.hasPopup, show l.fl.popup = true from hx.1]⟩
          | _ => cases hw
        | _ => cases hw
      | _ => cases hw
  have hma : ∀ r, Reads m1 (l.ptr (.mask r)) l.fl.out fun _ => 1 := by
    intro r
    cases r
    · exact rd ⟨.mask false, true, fun _ => 1⟩ (by simp [forwardSteps]) rfl
    · exact rd ⟨.mask true, true, fun _ => 1⟩ (by simp [forwardSteps]) rfl
  have hfr : ∀ x a, l.ptr x = some a → forward x = false → gradient x = false → (∀ r, x ≠ .mask r) → m1.blk a = m.blk a := by
    intro x a hxa h1 h2 h3
    refine fr a fun s hm _ hsa => ?_
    have := h.owns.inj _ _ a hsa hxa
    rcases List.mem_append.1 hm with hm | hm
    · have hg := (mem_backSteps hm).2.1
      rw [this, h2] at hg; cases hg
    · rcases (mem_forwardSteps hm).2.1 with hw | ⟨r, hw⟩
      · rw [this, h1] at hw; cases hw
      · exact h3 r (this ▸ hw)
  by_cases hp : l.fl.popup = true
  · have hpop : l.fl.hasPopup = true := by simp [Flags.hasPopup, hp]
    obtain ⟨m2, e2, o2, fr2, rd2⟩ := rankAll_spec rank hit l gates m1 o (by decide) (by
      rintro ⟨r, i⟩ hri
      have hi := (mem_gates r i).1 hri
      exact ⟨hf _ ⟨hp, hi⟩, hf _ ⟨hp, hi⟩, hf _ hi⟩)
    have hk : ∀ x, Called l.fl x → ∀ c, (¬ ranked gates x) → Reads m1 (l.ptr x) (l.fl.size x) c → Reads m2 (l.ptr x) (l.fl.size x) c := by
      rintro x _ c hr ⟨b, B, hb, hB, hl, hc⟩
      refine ⟨b, B, hb, ?_, hl, hc⟩
      rw [fr2 b, hB]
      intro y hy hyb
      exact hr (h.owns.inj _ _ b hb hyb ▸ hy)
    refine ⟨m2, ?_, h.mono o2, fun x hx hw => hk x hx _ ?_ (hz x hx hw), fun r => hk (.mask r) trivial _ ?_ (hma r), fun _ r i hi => ?_,
      fun x a hxa h1 h2 h3 h4 => ?_, fun a ha => ?_⟩
    · simp only [Lstm.reset, e, Option.bind_eq_bind, Option.bind_some, hpop, if_true, e2]
    · rintro ⟨r, i, _, rfl | rfl⟩ <;> rcases hw with hw | hw <;> cases hw
    · rintro ⟨_, _, _, h | h⟩ <;> cases h
    · obtain ⟨a, b, c, A, B, C, q1, q2, q3, q4, q5, q6, q7, q8⟩ := rd2 r i ((mem_gates r i).2 hi)
      refine ⟨a, b, c, A, B, C, q1, ?_, q3, ?_, q5, ?_, q7, q8⟩
      · rw [← hfr _ a q1 rfl rfl (by simp), q2]
      · rw [← hfr _ b q3 rfl rfl (by simp), q4]
      · rw [← hfr _ c q5 rfl rfl (by simp), q6]
    · rw [fr2 a, hfr x a hxa h1 h2 h3]
      rintro y ⟨r, i, _, hy⟩ hya
      have := h.owns.inj _ _ a hxa hya
      rcases hy with hy | hy
      · exact (h4 hp r i).1 (this.trans hy)
      · exact (h4 hp r i).2 (this.trans hy)
    · rw [fr2 a fun x _ => ha x, fr a fun s _ _ => ha _]
  · have hpop : l.fl.hasPopup = false := by
      have : l.fl.ffPopup = false := by
        cases hff : l.fl.ffPopup with
        | false => rfl
        | true => exact absurd (hs hff) hp
      simp [Flags.hasPopup, hp, this]
    refine ⟨m1, ?_, h.mono o, hz, hma, fun hp' => absurd hp' hp, fun x a hxa h1 h2 h3 _ => hfr x a hxa h1 h2 h3, fun a ha => fr a fun s _ _ => ha _⟩
    simp only [Lstm.reset, e, Option.bind_eq_bind, Option.bind_some, hpop, if_false, Bool.false_eq_true]

/-- **C162 (active outputs, refuted).** `get_used_outputs_lstm` only ever sets cells to one: once all outputs are
active, as in a new layer, they stay active through every reset, whatever the scores and the percentage. -/
theorem C162_active_refuted (rank : Arr F → Arr F → Nat → F) (hit : Bool → F → (Nat → F) → Nat → Bool) (m : Mem F) (l : Lstm F) (h : Own m l) (hf : Full l)
    (hs : l.fl.sound) (hp : l.fl.popup = true) (hact : ∀ r i, i < 4 → Reads m (l.ptr (.row (.act r) i)) (l.fl.rowSize (.act r)) fun _ => 1) :
    ∃ m', l.reset rank hit m = some m' ∧ ∀ r i, i < 4 → Reads m' (l.ptr (.row (.act r) i)) (l.fl.rowSize (.act r)) fun _ => 1 := by
  obtain ⟨m', e, _, _, _, q, _⟩ := C162_reset_partial rank hit m l h hf hs
  refine ⟨m', e, fun r i hi => ?_⟩
  obtain ⟨a, b, c, A, B, C, q1, q2, q3, q4, q5, q6, q7, d, D, hd, hD, hl, hv⟩ := q hp r i hi
  refine ⟨d, D, hd, hD, hl, fun j hj => ?_⟩
  rw [hv j hj]
  obtain ⟨c', C', hc', hC', _, hone⟩ := hact r i hi
  rw [q5] at hc'
  obtain rfl := Option.some.inj hc'
  rw [q6] at hC'
  obtain rfl := Option.some.inj hC'
  by_cases hh : hit r l.k (rank A B) j = true
  · exact if_pos hh
  · exact (if_neg hh).trans (hone j hj)

/-! ### Stripping -/

theorem mem_stripTables {fl : Flags} {t : LMat} : t ∈ stripTables fl ↔ backward t = true ∧ fl.hasMat t = true := by
  unfold stripTables
  rw [List.mem_filter]
  refine and_congr_left fun _ => ?_
  cases t with
  | par p s => cases p <;> cases s <;> simp [backward]
  | act r => cases r <;> simp [backward]
  | score r s => cases r <;> cases s <;> simp [backward]
  | idx r => cases r <;> simp [backward]

theorem mem_strip {fl : Flags} {x : LFld} : x ∈ (stripTables fl).flatMap matrixOrder ↔ ∃ t, backward t = true ∧ fl.hasMat t = true ∧
    (x = .tab t ∨ ∃ i, i < 4 ∧ x = .row t i) := by
  rw [List.mem_flatMap]
  constructor
  · rintro ⟨t, ht, hx⟩
    obtain ⟨h1, h2⟩ := mem_stripTables.1 ht
    refine ⟨t, h1, h2, ?_⟩
    simp only [matrixOrder, List.mem_cons, List.not_mem_nil, or_false] at hx
    rcases hx with rfl | rfl | rfl | rfl | rfl
    · exact Or.inr ⟨0, by decide, rfl⟩
    · exact Or.inr ⟨1, by decide, rfl⟩
    · exact Or.inr ⟨2, by decide, rfl⟩
    · exact Or.inr ⟨3, by decide, rfl⟩
    · exact Or.inl rfl
  · rintro ⟨t, h1, h2, hx⟩
    refine ⟨t, mem_stripTables.2 ⟨h1, h2⟩, ?_⟩
    rcases hx with rfl | ⟨i, hi, rfl⟩
    · simp [matrixOrder]
    · have : i = 0 ∨ i = 1 ∨ i = 2 ∨ i = 3 := by omega
      rcases this with rfl | rfl | rfl | rfl <;> simp [matrixOrder]

theorem strip_nodup (fl : Flags) : ((stripTables fl).flatMap matrixOrder).Nodup := by
  refine nodup_flatMap_key (fun x => match x with | .row t _ => t | .tab t => t | _ => .act false) ((by decide : List.Nodup _).filter _)
    (fun t _ => by simp [matrixOrder]) (fun t _ x hx => ?_)
  simp only [matrixOrder, List.mem_cons, List.not_mem_nil, or_false] at hx
  rcases hx with rfl | rfl | rfl | rfl | rfl <;> rfl

omit [Field F] in
/-- **C162 (stripping).** `make_the_lstm_only_for_ff` frees exactly the gradients and optimiser arrays of weights,
biases and scores; everything else stays, the layer can be run and freed. -/
theorem C162_strip (m : Mem F) (l : Lstm F) (h : Own m l) (hu : Usable l) :
    ∃ m' d, l.strip m = some (m', d) ∧ d.fl = l.fl ∧ d.k = l.k ∧ Own m' d ∧ Usable d ∧
      (∀ t i, backward t = true → d.ptr (.tab t) = none ∧ d.ptr (.row t i) = none) ∧
      (∀ x, (∀ t i, backward t = true → x ≠ .tab t ∧ x ≠ .row t i) → d.ptr x = l.ptr x) ∧
      (∀ x a, l.ptr x = some a → d.ptr x = none → m'.blk a = none) ∧ ∀ a, (∀ x, l.ptr x = some a → d.ptr x = some a) → m'.blk a = m.blk a := by
  obtain ⟨m', e, hn, hfreed, fr⟩ := freeAll_spec l.ptr h.owns.inj _ m (strip_nodup l.fl) (by
    intro x _ a hx
    obtain ⟨_, A, hA, _⟩ := h.owns.live x a hx
    rw [hA]
    exact Option.some_ne_none _)
  have hptr : ∀ x a, (if x ∈ (stripTables l.fl).flatMap matrixOrder then none else l.ptr x) = some a →
      x ∉ (stripTables l.fl).flatMap matrixOrder ∧ l.ptr x = some a := by
    intro x a hx
    by_cases hm : x ∈ (stripTables l.fl).flatMap matrixOrder
    · rw [if_pos hm] at hx; cases hx
    · rw [if_neg hm] at hx; exact ⟨hm, hx⟩
  have hkeep : ∀ x, (∀ t i, backward t = true → x ≠ .tab t ∧ x ≠ .row t i) → x ∉ (stripTables l.fl).flatMap matrixOrder := by
    intro x hx hm
    obtain ⟨t, hb, _, rfl | ⟨i, _, rfl⟩⟩ := mem_strip.1 hm
    · exact (hx t 0 hb).1 rfl
    · exact (hx t i hb).2 rfl
  refine ⟨m', { l with ptr := fun x => if x ∈ (stripTables l.fl).flatMap matrixOrder then none else l.ptr x }, ?_, rfl, rfl, ⟨⟨fun x a hx => ?_, fun x y a hx hy => ?_⟩, fun x a hx => ?_, fun t a hx => h.tabs t a (hptr _ a hx).2, fun t i a hx => ?_, fun g x a hx => ?_⟩, fun x hx hno => ?_, fun t i hb => ⟨?_, ?_⟩,
    fun x hx => if_neg (hkeep x hx), fun x a hx hxn => ?_, fun a ha => fr a fun x hx hxa => ?_⟩
  · simp only [Lstm.strip, e, Option.bind_eq_bind, Option.bind_some]
  · obtain ⟨hm, hx⟩ := hptr x a hx
    obtain ⟨k1, A, k2, k3⟩ := h.owns.live x a hx
    refine ⟨by omega, A, ?_, k3⟩
    rw [fr a, k2]
    intro y hy hya
    exact hm (h.owns.inj _ _ a hya hx ▸ hy)
  · exact h.owns.inj x y a (hptr x a hx).2 (hptr y a hy).2
  · exact h.place x a (hptr x a hx).2
  · obtain ⟨hm, hx⟩ := hptr _ a hx
    obtain ⟨k1, k2⟩ := h.rows t i a hx
    refine ⟨k1, ?_⟩
    show (if LFld.tab t ∈ (stripTables l.fl).flatMap matrixOrder then none else l.ptr (.tab t)).isSome = true
    rw [if_neg, k2]
    intro hmt
    obtain ⟨t', hb, ht, ht' | ⟨j, _, ht'⟩⟩ := mem_strip.1 hmt
    · cases ht'
      exact hm (mem_strip.2 ⟨t, hb, ht, Or.inr ⟨i, h.place _ a hx, rfl⟩⟩)
    · cases ht'
  · rcases hx with hx | hx
    · exact h.groups g x a (Or.inl (hptr _ a hx).2)
    · exact h.groups g x a (Or.inr (hptr _ a hx).2)
  · show (if x ∈ (stripTables l.fl).flatMap matrixOrder then none else l.ptr x).isSome = true
    rw [if_neg (hkeep x hno)]
    exact hu x hx hno
  · show (if LFld.tab t ∈ (stripTables l.fl).flatMap matrixOrder then none else l.ptr (.tab t)) = none
    by_cases hm : LFld.tab t ∈ (stripTables l.fl).flatMap matrixOrder
    · rw [if_pos hm]
    · rw [if_neg hm]
      cases hx : l.ptr (.tab t) with
      | none => rfl
      | some a => exact absurd (mem_strip.2 ⟨t, hb, h.tabs t a hx, Or.inl rfl⟩) hm
  · show (if LFld.row t i ∈ (stripTables l.fl).flatMap matrixOrder then none else l.ptr (.row t i)) = none
    by_cases hm : LFld.row t i ∈ (stripTables l.fl).flatMap matrixOrder
    · rw [if_pos hm]
    · rw [if_neg hm]
      cases hx : l.ptr (.row t i) with
      | none => rfl
      | some a => exact absurd (mem_strip.2 ⟨t, hb, (h.rows t i a hx).1, Or.inr ⟨i, h.place _ a hx, rfl⟩⟩) hm
  · refine hfreed x ?_ a hx
    by_contra hm
    have : (if x ∈ (stripTables l.fl).flatMap matrixOrder then none else l.ptr x) = none := hxn
    rw [if_neg hm, hx] at this
    cases this
  · have := ha x hxa
    exact (hptr x a this).1 hx

/-- **C162 (resetting, refuted for stripped layers).** Stripping does not change the training mode, by which
`reset_lstm` decides whether there are gradients: resetting a stripped layer writes through a null
pointer. -/
theorem C162_stripped_refuted (rank : Arr F → Arr F → Nat → F) (hit : Bool → F → (Nat → F) → Nat → Bool) (m : Mem F) (l : Lstm F) (h : Own m l)
    (hu : Usable l) (ha : l.fl.accepted) : ∃ m' d, l.strip m = some (m', d) ∧ d.reset rank hit m' = none := by
  obtain ⟨m', d, e, hfl, _, _, _, hno, _⟩ := C162_strip m l h hu
  refine ⟨m', d, e, ?_⟩
  unfold Lstm.reset
  have h1 : 0 < d.fl.out * d.fl.inp := by rw [hfl]; exact Nat.mul_pos ha.2.1 ha.1
  rw [writeAll_none]
  · rfl
  · cases hp : d.fl.popup with
    | false =>
      refine ⟨⟨.row (.par .w .d) 0, true, fun _ => 0⟩, List.mem_append_left _ ?_, rfl, (hno (.par .w .d) 0 rfl).2, Nat.pos_iff_ne_zero.1 h1⟩
      simp only [backSteps, List.mem_flatMap, List.mem_range]
      exact ⟨0, by decide, by simp [hp]⟩
    | true =>
      refine ⟨⟨.row (.score false .d) 0, true, fun _ => 0⟩, List.mem_append_left _ ?_, rfl, (hno (.score false .d) 0 rfl).2, Nat.pos_iff_ne_zero.1 h1⟩
      simp only [backSteps, List.mem_flatMap, List.mem_range]
      exact ⟨0, by decide, by simp [Flags.hasPopup, hp]⟩

omit [Field F] in
/-- **C162 (pasting, refuted for stripped targets).** The conditions of `paste_lstm` are on the source only:
pasting a complete layer that is trained by gradients on a stripped one reads through a null table. -/
theorem C162_paste_stripped_refuted (m : Mem F) (l d : Lstm F) (hf : Full l) (hp : l.fl.popup = false) (hd : d.ptr (.tab (.par .w .d)) = none) :
    l.paste m d = none := by
  unfold Lstm.paste
  rw [if_neg]
  rw [List.all_eq_true]
  intro hall
  have h1 : (l.ptr (.tab (.par .w .d))).isSome = true := hf (.tab (.par .w .d)) hp
  have := hall (.row (.par .w .d) 0) ((mem_pasteOrder (show Place l.fl (.row (.par .w .d) 0) from (by decide : 0 < 4))).2 rfl)
  simp [Lstm.copyGuard, Flags.hasMat, hp, h1, Lstm.reach, hd] at this

/-! ### Non-vacuity -/

/-- Two groups of two steps. -/
def grouped : Flags := ⟨2, 3, 4, 2, false, false, true, false⟩

/-- Edge-popup. -/
def popup : Flags := ⟨2, 3, 2, 1, true, true, false, false⟩

/-- Edge-popup in the forward pass only. -/
def mixed : Flags := ⟨2, 3, 2, 1, false, true, false, false⟩

/-- Fewer outputs. -/
def narrow : Flags := ⟨2, 2, 4, 2, false, false, true, true⟩

example : grouped.accepted ∧ popup.accepted ∧ mixed.accepted ∧ narrow.accepted ∧ mixed.ffPopup = true ∧ mixed.popup = false := by decide

example : grouped.sound ∧ popup.sound ∧ narrow.sound := by simp [Flags.sound, grouped, popup, narrow]

/-- A grouped layer with a first moment of one: its copy has lost it, it can be pasted back, a narrower target
and a stripped target are refused, the stripped layer can be run but not reset. -/
example : ∃ (m : Mem ℚ) (l n : Lstm ℚ), Own m l ∧ Full l ∧ l.fl = grouped ∧ Own m n ∧ Full n ∧ l.paste m n = none ∧
    (∃ m' d b B, l.dup m (fun _ _ _ => 0) (fun _ => 0) = some (m', d) ∧ d.ptr (.group 1 (.vec (.beta .d1))) = some b ∧ m'.blk b = some B ∧ B.get 2 ≠ 1) ∧
    ∃ m1 d, l.strip m = some (m1, d) ∧ d.reset (fun _ _ _ => 0) (fun _ _ _ _ => true) m1 = none ∧ l.paste m1 d = none ∧
      ∃ m2, d.resetFF m1 = some m2 ∧ ∃ m3, d.free m2 = some m3 := by
  obtain ⟨m0, n, _, hn, _, on, cn, _, _, _, _⟩ := C162_construct_partial (⟨0, fun _ => none⟩ : Mem ℚ) narrow (fun _ i j => i + j) (fun _ => 0) (by decide) (by simp [Flags.sound, narrow])
  obtain ⟨m1, l, _, hl, _, ol, cl, fr, hnx, fresh, _⟩ := C162_construct_partial m0 grouped (fun _ i j => i + j) (fun _ => 0) (by decide) (by simp [Flags.sound, grouped])
  have fl : Full l := fun x hx => (cl x).2 (hl ▸ hx)
  have fn : Full n := fun x hx => (cn x).2 (hn ▸ hx)
  have on1 : Owns m1 n.ptr n.fl.size := by
    refine ⟨fun x a hx => ?_, on.owns.inj⟩
    obtain ⟨k1, A, k2, k3⟩ := on.owns.live x a hx
    exact ⟨by omega, A, by rw [fr a k1, k2], k3⟩
  obtain ⟨a, ha⟩ := Option.isSome_iff_exists.1 (fl (.group 1 (.vec (.beta .d1))) (by rw [hl]; exact ⟨rfl, by decide, trivial⟩))
  obtain ⟨_, A, hA, hlen⟩ := ol.owns.live _ a ha
  have o2 : Own ⟨m1.next, Function.update m1.blk a (some ⟨A.len, fun _ => 1⟩)⟩ l := ol.mono (ol.owns.store hA rfl)
  have n2 : Own ⟨m1.next, Function.update m1.blk a (some ⟨A.len, fun _ => 1⟩)⟩ n := on.mono (on1.store hA rfl)
  obtain ⟨m', d, b, B, e, hb, hB, _, hne⟩ := C162_copy_refuted _ l (fun _ _ _ => 0) (fun _ => 0) o2 (by rw [hl]; decide) (by rw [hl]; simp [Flags.sound, grouped])
    (by rw [hl]; rfl) (g := 1) (a := a) (i := 2) (A := ⟨A.len, fun _ => 1⟩) (by rw [hl]; decide) ha (by simp) (by rw [hl]; decide) (by simp)
  obtain ⟨m2, s, e2, hs, _, os, us, hno, _⟩ := C162_strip _ l o2 fl.usable
  obtain ⟨m2', s', e2', hr⟩ := C162_stripped_refuted (fun _ _ _ => 0) (fun _ _ _ _ => true) _ l o2 fl.usable (by rw [hl]; decide)
  rw [e2] at e2'
  obtain ⟨rfl, rfl⟩ := Prod.mk.inj (Option.some.inj e2')
  obtain ⟨m3, e3, o3, _⟩ := C162_reset_ff m2 s os us
  obtain ⟨m4, e4, _⟩ := C162_free m3 s o3
  exact ⟨_, l, n, o2, fl, hl, n2, fn, C162_paste_refuted _ l n o2 n2 fl fn (by rw [hl, hn]; decide), ⟨m', d, b, B, e, hb, hB, hne⟩, m2, s, e2, hr,
    C162_paste_stripped_refuted m2 l s fl (by rw [hl]; rfl) (hno (.par .w .d) 0 rfl).1, m3, e3, m4, e4⟩

/-- An edge-popup layer keeps all outputs active. -/
example : ∃ (m : Mem ℚ) (l : Lstm ℚ), Own m l ∧ Full l ∧ l.fl.popup = true ∧ ∃ m', l.reset (fun _ _ _ => 0) (fun _ _ _ _ => false) m = some m' ∧
    ∀ r i, i < 4 → Reads m' (l.ptr (.row (.act r) i)) (l.fl.rowSize (.act r)) fun _ => 1 := by
  obtain ⟨m, l, _, hl, _, ol, cl, _, _, _, st⟩ := C162_construct_partial (⟨0, fun _ => none⟩ : Mem ℚ) popup (fun _ i j => i + j) (fun _ => 0) (by decide) (by simp [Flags.sound, popup])
  have fl : Full l := fun x hx => (cl x).2 (hl ▸ hx)
  have hp : l.fl.popup = true := by rw [hl]; rfl
  exact ⟨m, l, ol, fl, hp, C162_active_refuted _ _ m l ol fl (fun _ => hp) hp fun r i hi => st.active r i hi⟩

end LLab.LstmLife
