import Verif.Layers.LstmLife
import Verif.Layers.ResetLife
import Verif.Net.Rebuild

/-!
The life of recurrent networks in memory (`/repo/src/rmodel.c` 38-330): construction, copying, pasting,
resetting and freeing. Layers are those of `Verif/Layers/LstmLife.lean`; the tools for lists of objects are
those of `Verif/Layers/ModelLife.lean`, `PasteLife.lean` and `ResetLife.lean`. Property C163.
-/

namespace LLab.RmodelLife

open FclLife (Mem Reads)
open Heap
open LstmLife (Lstm LFld)
open ModelLife (Kind PasteKind ResetKind dupAll freeEach pasteAll resetAll Disj)

variable {F : Type}

/-! ### Model -/

/-- An LSTM layer with its number `layer`. -/
structure Cell (F : Type) where
  layer : Nat
  net : Lstm F

/-- The blocks of a network outside its layers: `lstms`, `sla` and the rows of `sla`. -/
inductive SFld where
  | tab | sla
  | row (i : Nat)
deriving DecidableEq

/-- `rmodel` (`/repo/src/llab.h`); `betas` are `beta1_adam`, `beta2_adam` and `beta3_adamod`. -/
structure Rnn (F : Type) where
  (layers win mode : Nat)
  betas : F × F × F
  cells : List (Cell F)
  ptr : SFld → Option Nat

/-- The number of cells of a block. -/
def size (layers n : Nat) : SFld → Nat
  | .tab => n
  | _ => layers

/-- The allocations of `recurrent_network` (`/repo/src/rmodel.c` 48-52). -/
def slaOrder (layers : Nat) : List SFld := .sla :: (List.range layers).map .row

/-- What the rows of `sla` hold (`/repo/src/rmodel.c` 78-90): `LSTMS`, which is 5, for every layer with this number. -/
def slaFirst [Field F] (layers : Nat) (ids : List Nat) : SFld → Arr F
  | .row i => ⟨layers, fun j => if j < ids.count i then 5 else 0⟩
  | _ => ⟨layers, fun _ => 0⟩

/-- The check of the sizes of consecutive layers (`/repo/src/rmodel.c` 97-102). -/
def chain : List (Cell F) → Bool
  | a :: b :: l => decide (b.net.fl.inp = a.net.fl.out) && chain (b :: l)
  | _ => true

/-- `recurrent_network` (`/repo/src/rmodel.c` 38-116), with the table of the caller. The sort and the check of the
numbers are those of `network`. `sla` is allocated before the checks in the code. `none`: the program ends
or a row of `sla` overflows. -/
def recurrentNetwork [Field F] (m : Mem F) (betas : F × F × F) (layers win mode : Nat) (cells : List (Cell F)) (tab : Option Nat) : Option (Mem F × Rnn F) :=
  if layers = 0 ∨ cells.length = 0 ∨ tab = none ∨ cells.any (fun c => decide (c.net.fl.win ≠ win)) then none
  else do
    let cs ← Network.exch Cell.layer cells
    let b ← Network.seqCheck layers (cs.map Cell.layer) layers 0
    if b && chain cs then
      let s := buildAll (fun _ => true) (slaFirst layers (cs.map Cell.layer)) (slaOrder layers) m
      some (s.1, ⟨layers, win, mode, betas, cs, fun x => if x = .tab then tab else s.2 x⟩)
    else none

/-- `free_rmodel` (`/repo/src/rmodel.c` 123-137). -/
def Rnn.free (m : Mem F) (r : Rnn F) : Option (Mem F) := do
  let m ← freeEach (fun m (c : Cell F) => c.net.free m) r.cells m
  freeAll r.ptr (.tab :: ((List.range r.layers).map .row ++ [.sla])) m

/-- The draws and uninitialised pointers of one layer. -/
abbrev Draw (F : Type) := (Bool → Nat → Nat → F) × (LFld → Nat)

/-- `copy_lstm` (`/repo/src/recurrent_layers.c` 1125-1208) with the number of the layer. -/
def Cell.dup [Field F] (m : Mem F) (c : Cell F) (w : Draw F) : Option (Mem F × Cell F) := do
  let (m, d) ← c.net.dup m w.1 w.2
  some (m, ⟨c.layer, d⟩)

/-- `copy_rmodel` (`/repo/src/rmodel.c` 168-184). `d` are the rates `recurrent_network` sets. -/
def Rnn.dup [Field F] (d : F × F × F) (m : Mem F) (r : Rnn F) (w : Nat → Draw F) : Option (Mem F × Rnn F) := do
  let s := buildAll (fun _ => (r.ptr .tab).isSome) (fun _ => ⟨r.cells.length, fun _ => 0⟩) [SFld.tab] m
  let (m, cs) ← dupAll Cell.dup r.cells s.1 w
  let (m, c) ← recurrentNetwork m d r.layers r.win r.mode cs (s.2 .tab)
  some (m, { c with betas := r.betas })

/-- `paste_lstm` (`/repo/src/recurrent_layers.c` 1264-1340): the number stays. -/
def Cell.paste (m : Mem F) (c d : Cell F) : Option (Mem F × Cell F) := do
  let (m, n) ← c.net.paste m d.net
  some (m, ⟨d.layer, n⟩)

/-- `paste_rmodel` (`/repo/src/rmodel.c` 222-232): the layers only, as many as the source has. -/
def Rnn.paste (m : Mem F) (r d : Rnn F) : Option (Mem F × Rnn F) := do
  let (m, cs) ← pasteAll Cell.paste r.cells d.cells m
  some (m, { d with cells := cs })

/-- The parameters of resets, see `LstmLife.Lstm.reset`. -/
structure Ranks (F : Type) where
  rank : Arr F → Arr F → Nat → F
  hit : Bool → F → (Nat → F) → Nat → Bool

/-- `reset_rmodel` (`/repo/src/rmodel.c` 291-299). -/
def Rnn.reset [Field F] (S : Ranks F) (m : Mem F) (r : Rnn F) : Option (Mem F × Rnn F) := do
  let (m, cs) ← resetAll (fun m (c : Cell F) (_ : Unit) => (c.net.reset S.rank S.hit m).map fun m => (m, c)) r.cells m fun _ => ()
  some (m, { r with cells := cs })

/-- `reset_rmodel_only_for_ff` (`/repo/src/rmodel.c` 313-321). -/
def Rnn.resetFF [Field F] (m : Mem F) (r : Rnn F) : Option (Mem F × Rnn F) := do
  let (m, cs) ← resetAll (fun m (c : Cell F) (_ : Unit) => (c.net.resetFF m).map fun m => (m, c)) r.cells m fun _ => ()
  some (m, { r with cells := cs })

/-- `make_the_lstm_only_for_ff` on the layers one after the other (`/repo/src/rmodel.c` 327-329). -/
def stripAll : List (Cell F) → Mem F → Option (Mem F × List (Cell F))
  | [], m => some (m, [])
  | c :: cs, m => do
    let (m, d) ← c.net.strip m
    let (m, ds) ← stripAll cs m
    some (m, ⟨c.layer, d⟩ :: ds)

/-- `make_the_rmodel_only_for_ff` (`/repo/src/rmodel.c` 323-330). -/
def Rnn.strip (m : Mem F) (r : Rnn F) : Option (Mem F × Rnn F) := do
  let (m, cs) ← stripAll r.cells m
  some (m, { r with cells := cs })

/-! ### Specification -/

/-- Some pointer of the layer names the block. -/
def cellAddr (c : Cell F) (a : Nat) : Prop := ∃ x, c.net.ptr x = some a

/-- Some pointer of the network names the block. -/
def rnnAddr (r : Rnn F) (a : Nat) : Prop := (∃ c ∈ r.cells, cellAddr c a) ∨ ∃ x, r.ptr x = some a

/-- A network owns its blocks: every layer its own, the table of the layers, `sla` and its rows; nothing is shared. -/
structure RnnOwn (m : Mem F) (r : Rnn F) : Prop where
  cells : ∀ c ∈ r.cells, LstmLife.Own m c.net
  blocks : Owns m r.ptr (size r.layers r.cells.length)
  whole : ∀ x, (r.ptr x).isSome = true ↔ (x = .tab ∨ x = .sla ∨ ∃ i, i < r.layers ∧ x = .row i)
  apart : r.cells.Pairwise fun c c' => Disj (cellAddr c) (cellAddr c')
  apart' : ∀ c ∈ r.cells, Disj (cellAddr c) fun a => ∃ x, r.ptr x = some a

/-- One layer for every number, in order, all with the window of the network, each taking the outputs of the
one before it. -/
structure Shaped (r : Rnn F) : Prop where
  layered : 0 < r.layers
  numbers : r.cells.map Cell.layer = List.range r.layers
  window : ∀ c ∈ r.cells, c.net.fl.win = r.win
  sizes : ∀ (i : Nat) a b, r.cells[i]? = some a → r.cells[i + 1]? = some b → b.net.fl.inp = a.net.fl.out

/-- `sla` says that every number belongs to one LSTM layer. -/
def Marked [Field F] (m : Mem F) (r : Rnn F) : Prop := ∀ i, i < r.layers → Reads m (r.ptr (.row i)) r.layers fun j => if j = 0 then 5 else 0

/-- The layer `d` is a copy of the layer `c`, but for the first optimiser array of the shifts of the groups. -/
structure CellCopied [Field F] (m : Mem F) (c : Cell F) (m' : Mem F) (d : Cell F) : Prop where
  same : d.layer = c.layer ∧ d.net.fl = c.net.fl ∧ d.net.k = c.net.k
  full : LstmLife.Full d.net
  learned : ∀ x, LstmLife.learned x = true → LstmLife.Called c.net.fl x → (∀ g, x ≠ .group g (.vec (.beta .d1))) → ∀ a A, c.net.ptr x = some a → m.blk a = some A →
    Reads m' (d.net.ptr x) (c.net.fl.size x) A.get
  masks : ∀ r, Reads m' (d.net.ptr (.mask r)) c.net.fl.out fun _ => 1
  rest : ∀ x, LstmLife.Called c.net.fl x → LstmLife.learned x = false → (∀ r, x ≠ .mask r) → Reads m' (d.net.ptr x) (c.net.fl.size x) fun _ => 0
  lost : ∀ g, LstmLife.Called c.net.fl (.group g (.vec (.beta .d1))) → Reads m' (d.net.ptr (.group g (.vec (.beta .d1)))) c.net.fl.out fun _ => 0

/-- The layer `d'` is `d` with what `c` has learned. -/
structure CellPasted (m : Mem F) (c d : Cell F) (m' : Mem F) (d' : Cell F) : Prop where
  same : d'.layer = d.layer ∧ d'.net.fl = d.net.fl ∧ d'.net.ptr = d.net.ptr ∧ d'.net.k = c.net.k
  learned : ∀ x, LstmLife.learned x = true → ∀ a A, c.net.ptr x = some a → m.blk a = some A → (d.net.ptr x).isSome → Reads m' (d.net.ptr x) (c.net.fl.size x) A.get
  rest : ∀ x, LstmLife.learned x = false ∨ c.net.ptr x = none → ∀ a, d.net.ptr x = some a → m'.blk a = m.blk a

/-- A complete target of the same sizes and modes with enough groups. -/
def CellFit (c d : Cell F) : Prop :=
  LstmLife.Full d.net ∧ c.net.fl.inp = d.net.fl.inp ∧ c.net.fl.out = d.net.fl.out ∧ c.net.fl.popup = d.net.fl.popup ∧ c.net.fl.ffPopup = d.net.fl.ffPopup ∧
    (c.net.fl.grouped = true → d.net.fl.grouped = true ∧ c.net.fl.win / c.net.fl.cells ≤ d.net.fl.win / d.net.fl.cells)

/-- The layer is ready for the next sequence: states and gradients are zero, the masks one, weights, biases,
scores, optimiser arrays and tables as before. -/
structure CellCleared [Field F] (S : Ranks F) (m : Mem F) (c : Cell F) (m' : Mem F) : Prop where
  cleared : ∀ x, LstmLife.Called c.net.fl x → LstmLife.forward x = true ∨ LstmLife.gradient x = true → Reads m' (c.net.ptr x) (c.net.fl.size x) fun _ => 0
  masks : ∀ r, Reads m' (c.net.ptr (.mask r)) c.net.fl.out fun _ => 1
  ranked : c.net.fl.popup = true → ∀ r i, i < 4 → ∃ a b e A B C, c.net.ptr (.row (.score r .val) i) = some a ∧ m.blk a = some A ∧
    c.net.ptr (.row (.idx r) i) = some b ∧ m.blk b = some B ∧ c.net.ptr (.row (.act r) i) = some e ∧ m.blk e = some C ∧
    Reads m' (c.net.ptr (.row (.idx r) i)) (c.net.fl.rowSize (.idx r)) (S.rank A B) ∧
    Reads m' (c.net.ptr (.row (.act r) i)) (c.net.fl.rowSize (.act r)) fun j => if S.hit r c.net.k (S.rank A B) j then 1 else C.get j
  kept : ∀ x a, c.net.ptr x = some a → LstmLife.forward x = false → LstmLife.gradient x = false → (∀ r, x ≠ .mask r) →
    (c.net.fl.popup = true → ∀ r i, x ≠ .row (.idx r) i ∧ x ≠ .row (.act r) i) → m'.blk a = m.blk a

/-- The layer is ready for the next pass forward. -/
structure CellForward [Field F] (m : Mem F) (c : Cell F) (m' : Mem F) : Prop where
  cleared : ∀ x, LstmLife.Called c.net.fl x → LstmLife.forward x = true → Reads m' (c.net.ptr x) (c.net.fl.size x) fun _ => 0
  masks : ∀ r, Reads m' (c.net.ptr (.mask r)) c.net.fl.out fun _ => 1
  kept : ∀ x a, c.net.ptr x = some a → LstmLife.forward x = false → (∀ r, x ≠ .mask r) → m'.blk a = m.blk a

/-- The layer `d` is `c` without gradients and optimiser arrays, whose memory is given back. -/
structure CellStripped (m : Mem F) (c : Cell F) (m' : Mem F) (d : Cell F) : Prop where
  same : d.layer = c.layer ∧ d.net.fl = c.net.fl ∧ d.net.k = c.net.k
  usable : LstmLife.Usable d.net
  gone : ∀ t i, LstmLife.backward t = true → d.net.ptr (.tab t) = none ∧ d.net.ptr (.row t i) = none
  rest : ∀ x, (∀ t i, LstmLife.backward t = true → x ≠ .tab t ∧ x ≠ .row t i) → d.net.ptr x = c.net.ptr x
  freed : ∀ x a, c.net.ptr x = some a → d.net.ptr x = none → m'.blk a = none
  kept : ∀ x a, d.net.ptr x = some a → c.net.ptr x = some a ∧ m'.blk a = m.blk a

/-! ### Layers as objects -/

/-- LSTM layers. -/
def cellKind [Field F] : Kind (Cell F) (Draw F) F where
  addr := cellAddr
  Own m c := LstmLife.Own m c.net
  ok c := c.net.fl.accepted ∧ c.net.fl.sound
  dup := Cell.dup
  free m c := c.net.free m
  Copied := CellCopied
  live h ha := by
    obtain ⟨x, hx⟩ := ha
    obtain ⟨h1, A, h2, _⟩ := h.owns.live x _ hx
    exact ⟨h1, by rw [h2]; exact Option.some_ne_none _⟩
  mono h hn hb := by
    refine h.mono ⟨fun x a hx => ?_, h.owns.inj⟩
    obtain ⟨h1, A, h2, h3⟩ := h.owns.live x a hx
    exact ⟨by omega, A, by rw [hb a ⟨x, hx⟩, h2], h3⟩
  copied_mono {m m' m0 m1 c d} h h0 h1 := by
    have up : ∀ {x n e}, Reads m' (d.net.ptr x) n e → Reads m1 (d.net.ptr x) n e := fun {x n e} h => ModelLife.reads_mono h fun a ha => h1 a ⟨x, ha⟩
    exact ⟨h.same, h.full, fun x hl hx hg a A ha hA => up (h.learned x hl hx hg a A ha (by rw [← h0 a ⟨x, ha⟩]; exact hA)), fun r => up (h.masks r),
      fun x hx hl hm => up (h.rest x hx hl hm), fun g hg => up (h.lost g hg)⟩
  dup_spec m c w h hok := by
    obtain ⟨m', d, e, hfl, hk, od, fu, _, _, _, hn, hfr, rd, mk, rs, lo⟩ := LstmLife.C162_copy_partial m c.net w.1 w.2 h hok.1 hok.2
    refine ⟨m', ⟨c.layer, d⟩, by simp only [Cell.dup, e, Option.bind_eq_bind, Option.bind_some], od, hn, fun a ⟨x, hx⟩ => hfr x a hx, fun a ha => ?_,
      ⟨rfl, hfl, hk⟩, fu, rd, mk, rs, lo⟩
    unfold Lstm.dup at e
    rw [LstmLife.construct_sound w.1 w.2 hok.1 hok.2] at e
    simp only [Option.bind_eq_bind, Option.bind_some, Option.bind_eq_some_iff, Option.some.injEq, Prod.mk.injEq] at e
    obtain ⟨m1, e1, rfl, rfl⟩ := e
    have hne : ∀ x, (buildAll c.net.fl.alloc (c.net.fl.first w.1) (LstmLife.order c.net.fl) m).2 x ≠ some a := fun x hx => ha ⟨x, hx⟩
    rw [(ModelLife.copyAll_frame _ _ _ _ _ e1).2 a hne]
    exact ModelLife.build_frame _ _ m (LstmLife.order_nodup _) a hne
  free_spec m c h := by
    obtain ⟨m', e, n, g, fr⟩ := LstmLife.C162_free m c.net h
    exact ⟨m', e, n, fun a ⟨x, hx⟩ => g x a hx, fun a ha => fr a fun x hx => ha ⟨x, hx⟩⟩

/-- LSTM layers can be pasted. -/
def cellPaste [Field F] : PasteKind (cellKind (F := F)) where
  fit := CellFit
  paste := Cell.paste
  Pasted := CellPasted
  mono {m l d m' d' m0 m1} h h0 h1 h2 had := by
    have hp := h.same.2.2.1
    refine ⟨h.same, fun x hl a A ha hA hs => ModelLife.reads_mono (h.learned x hl a A ha (by rw [← h0 a ⟨x, ha⟩]; exact hA) hs) fun a ha => h2 a ((had a).2 ⟨x, ha⟩),
      fun x hx a ha => ?_⟩
    rw [h2 a ((had a).2 ⟨x, ha⟩), h1 a ⟨x, ha⟩, h.rest x hx a ha]
  spec m c d hc hd hap hfit := by
    obtain ⟨f1, f2, f3, f4, f5, f6⟩ := hfit
    obtain ⟨m', e, oc, od, it, rd, _, fr⟩ := LstmLife.C162_paste_partial m c.net d.net hc hd (fun x y a hx hy => hap a ⟨x, hx⟩ ⟨y, hy⟩) f1 f2 f3 f4 f5 f6
    refine ⟨m', ⟨d.layer, { d.net with k := c.net.k }⟩, by simp only [Cell.paste, e, Option.bind_eq_bind, Option.bind_some], ?_,
      (⟨od.owns, od.place, od.tabs, od.rows, od.groups⟩ : LstmLife.Own m' { d.net with k := c.net.k }), fun a => Iff.rfl, fun a ha => fr a fun x _ _ hx => ha ⟨x, hx⟩,
      ⟨rfl, rfl, rfl, rfl⟩, rd, fun x hx a ha => fr a fun y h1 h2 hya => ?_⟩
    · have e' := e
      unfold Lstm.paste at e'
      split at e'
      · simp only [Option.bind_eq_bind, Option.bind_eq_some_iff, Option.some.injEq, Prod.mk.injEq] at e'
        obtain ⟨m2, e2, rfl, _⟩ := e'
        exact (ModelLife.copyAll_frame _ _ _ _ _ e2).1
      · cases e'
    · have := hd.owns.inj _ _ a hya ha
      subst this
      rcases hx with hx | hx
      · rw [h1] at hx; cases hx
      · rw [hx] at h2; cases h2

theorem rankAll_next [Field F] (rank : Arr F → Arr F → Nat → F) (hit : Bool → F → (Nat → F) → Nat → Bool) (l : Lstm F) : ∀ (s : List (Bool × Nat)) {m m' : Mem F},
    LstmLife.rankAll rank hit l s m = some m' → m'.next = m.next := by
  intro s
  induction s with
  | nil => intro m m' h; obtain rfl := Option.some.inj h; rfl
  | cons x s ih =>
    intro m m' h
    obtain ⟨r, i⟩ := x
    simp only [LstmLife.rankAll, Option.bind_eq_bind, Option.bind_eq_some_iff] at h
    obtain ⟨_, _, _, _, _, _, m1, h1, h2⟩ := h
    rw [ih h2, ModelLife.writeAll_next _ _ _ h1]

/-- LSTM layers can be reset. -/
def cellReset [Field F] (S : Ranks F) : ResetKind Unit (cellKind (F := F)) where
  ready c := LstmLife.Full c.net ∧ c.net.fl.sound
  reset m c _ := (c.net.reset S.rank S.hit m).map fun m => (m, c)
  Clear _ := CellCleared S
  mono {s m c m' m0 m1} h h0 h1 := by
    have up : ∀ {x n e}, Reads m' (c.net.ptr x) n e → Reads m1 (c.net.ptr x) n e := fun {x n e} h => ModelLife.reads_mono h fun a ha => h1 a ⟨x, ha⟩
    refine ⟨fun x hx hc => up (h.cleared x hx hc), fun r => up (h.masks r), fun hp r i hi => ?_, fun x a ha k1 k2 k3 k4 => ?_⟩
    · obtain ⟨a, b, e, A, B, C, q1, q2, q3, q4, q5, q6, q7, q8⟩ := h.ranked hp r i hi
      exact ⟨a, b, e, A, B, C, q1, by rw [h0 a ⟨_, q1⟩, q2], q3, by rw [h0 b ⟨_, q3⟩, q4], q5, by rw [h0 e ⟨_, q5⟩, q6], up q7, up q8⟩
    · rw [h1 a ⟨x, ha⟩, h.kept x a ha k1 k2 k3 k4, h0 a ⟨x, ha⟩]
  spec m c _ o hr := by
    obtain ⟨m', e, o', g, mk, rk, kp, fr⟩ := LstmLife.C162_reset_partial S.rank S.hit m c.net o hr.1 hr.2
    refine ⟨m', by rw [e]; rfl, ?_, o', fun a ha => fr a fun x hx => ha ⟨x, hx⟩, g, mk, rk, kp⟩
    unfold Lstm.reset at e
    simp only [Option.bind_eq_bind, Option.bind_eq_some_iff] at e
    obtain ⟨m1, e1, e2⟩ := e
    have n1 := ModelLife.writeAll_next _ _ _ e1
    by_cases hp : c.net.fl.hasPopup = true
    · rw [if_pos hp] at e2
      rw [rankAll_next _ _ _ _ e2, n1]
    · rw [if_neg hp] at e2
      obtain rfl := Option.some.inj e2
      exact n1

/-- LSTM layers can be reset for the pass forward. -/
def cellForward [Field F] : ResetKind Unit (cellKind (F := F)) where
  ready c := LstmLife.Usable c.net
  reset m c _ := (c.net.resetFF m).map fun m => (m, c)
  Clear _ := CellForward
  mono {s m c m' m0 m1} h h0 h1 := by
    have up : ∀ {x n e}, Reads m' (c.net.ptr x) n e → Reads m1 (c.net.ptr x) n e := fun {x n e} h => ModelLife.reads_mono h fun a ha => h1 a ⟨x, ha⟩
    refine ⟨fun x hx hc => up (h.cleared x hx hc), fun r => up (h.masks r), fun x a ha k1 k2 => ?_⟩
    rw [h1 a ⟨x, ha⟩, h.kept x a ha k1 k2, h0 a ⟨x, ha⟩]
  spec m c _ o hr := by
    obtain ⟨m', e, o', g, mk, kp, fr⟩ := LstmLife.C162_reset_ff m c.net o hr
    exact ⟨m', by rw [e]; rfl, ModelLife.writeAll_next _ _ _ e, o', fun a ha => fr a fun x hx => ha ⟨x, hx⟩, g, mk, kp⟩

/-! ### Construction -/

theorem slaOrder_nodup (n : Nat) : (slaOrder n).Nodup := by
  unfold slaOrder
  rw [List.nodup_cons]
  refine ⟨fun h => ?_, List.nodup_range.map fun i j h => by simpa using h⟩
  obtain ⟨i, _, h⟩ := List.mem_map.1 h
  cases h

theorem slaFirst_len [Field F] (layers n : Nat) (ids : List Nat) {x : SFld} (h : x ≠ .tab) : (slaFirst (F := F) layers ids x).len = size layers n x := by
  cases x with
  | tab => exact absurd rfl h
  | _ => rfl

theorem mem_slaOrder {n : Nat} {x : SFld} : x ∈ slaOrder n ↔ x = .sla ∨ ∃ i, i < n ∧ x = .row i := by
  simp only [slaOrder, List.mem_cons, List.mem_map, List.mem_range]
  refine or_congr_right ⟨?_, ?_⟩
  · rintro ⟨i, hi, rfl⟩; exact ⟨i, hi, rfl⟩
  · rintro ⟨i, hi, rfl⟩; exact ⟨i, hi, rfl⟩

theorem chain_iff : (l : List (Cell F)) → (chain l = true ↔ ∀ (i : Nat) a b, l[i]? = some a → l[i + 1]? = some b → b.net.fl.inp = a.net.fl.out)
  | [] => by simp [chain]
  | [x] => by
    simp only [chain, true_iff]
    intro i a b h1 h2
    simp at h2
  | a :: b :: l => by
    rw [chain, Bool.and_eq_true, decide_eq_true_eq, chain_iff (b :: l)]
    constructor
    · rintro ⟨h1, h2⟩ i x y e1 e2
      cases i with
      | zero => simp at e1 e2; rw [← e1, ← e2]; exact h1
      | succ i => exact h2 i x y (by simpa using e1) (by simpa using e2)
    · intro h
      exact ⟨h 0 a b rfl rfl, fun i x y e1 e2 => h (i + 1) x y (by simpa using e1) (by simpa using e2)⟩

/-- The sorted numbers are the numbers in order. -/
theorem numbers_sorted {cs : List (Cell F)} {n : Nat} (hp : (cs.map Cell.layer).Perm (List.range n)) (hs : cs.Pairwise fun a b => a.layer ≤ b.layer) :
    cs.map Cell.layer = List.range n := by
  refine List.Perm.eq_of_pairwise (le := (· ≤ ·)) (fun a b _ _ h1 h2 => Nat.le_antisymm h1 h2) (List.pairwise_map.2 hs) ?_ hp
  exact List.pairwise_lt_range.imp fun h => le_of_lt h

/-- **C163 (construction).** From layers that own their blocks, with the numbers below `layers` in any order, all with
the window of the network and matching sizes in order of their numbers, a network is made that has the
layers in order, owns them, the table and a fresh `sla` that is right; everything else in memory is as
before. -/
theorem C163_construct [Field F] (m : Mem F) (betas : F × F × F) (layers win mode t : Nat) (A : Arr F) (cells sorted : List (Cell F))
    (ho : ∀ c ∈ cells, LstmLife.Own m c.net) (hd : cells.Pairwise fun c c' => Disj (cellAddr c) (cellAddr c'))
    (ht : t < m.next) (hA : m.blk t = some A) (hlen : A.len = cells.length) (hap : ∀ c ∈ cells, ¬ cellAddr c t) (h0 : 0 < layers)
    (hsort : sorted.Perm cells) (hnum : sorted.map Cell.layer = List.range layers) (hwin : ∀ c ∈ cells, c.net.fl.win = win)
    (hsz : ∀ (i : Nat) a b, sorted[i]? = some a → sorted[i + 1]? = some b → b.net.fl.inp = a.net.fl.out) :
    ∃ m' r, recurrentNetwork m betas layers win mode cells (some t) = some (m', r) ∧ r.layers = layers ∧ r.win = win ∧ r.mode = mode ∧ r.betas = betas ∧
      r.cells = sorted ∧ r.ptr .tab = some t ∧ RnnOwn m' r ∧ Shaped r ∧ Marked m' r ∧ m.next ≤ m'.next ∧ (∀ a, a < m.next → m'.blk a = m.blk a) ∧
      (∀ x a, x ≠ .tab → r.ptr x = some a → m.next ≤ a) ∧ ∀ a, (∀ x, r.ptr x ≠ some a) → m'.blk a = m.blk a := by
  obtain ⟨cs, e, hp, hs⟩ := Network.exch_spec Cell.layer cells
  have hperm : (cs.map Cell.layer).Perm (List.range layers) := by
    rw [← hnum]
    exact (hp.trans hsort.symm).map _
  have hn := numbers_sorted hperm hs
  have hcs : cs = sorted := by
    have hnd : (cs.map Cell.layer).Nodup := by rw [hn]; exact List.nodup_range
    have hlt : ∀ l : List (Cell F), l.map Cell.layer = List.range layers → l.Pairwise fun a b => a.layer < b.layer := fun l hl => by
      rw [← List.pairwise_map (f := Cell.layer) (R := (· < ·)), hl]
      exact List.pairwise_lt_range
    exact List.Perm.eq_of_pairwise (le := fun a b : Cell F => a.layer < b.layer) (fun a b _ _ h1 h2 => absurd h1 (by omega)) (hlt cs hn) (hlt sorted hnum) (hp.trans hsort.symm)
  subst hcs
  have hl : cs.length = layers := by
    have := congrArg List.length hn
    simpa using this
  have hl' : cells.length = layers := by rw [← hp.length_eq, hl]
  obtain ⟨b, eb, hb⟩ := Network.seqCheck_nodup layers (cs.map Cell.layer) (by rw [hn]; exact List.nodup_range) layers (le_refl _) 0 (by omega)
  have hbt : b = true := hb.2 fun i _ hi => by rw [hn]; exact List.mem_range.2 hi
  have hch : chain cs = true := (chain_iff cs).2 hsz
  have hsp := buildAll_spec (fun _ => true) (slaFirst (F := F) layers (cs.map Cell.layer)) (slaOrder layers) m (slaOrder_nodup _)
  obtain ⟨o2, rd⟩ := build_owned (fun _ => true) (slaFirst (F := F) layers (cs.map Cell.layer)) m (slaOrder_nodup layers)
  have hfr := ModelLife.build_frame (fun _ => true) (slaFirst (F := F) layers (cs.map Cell.layer)) m (slaOrder_nodup layers)
  have hrun : recurrentNetwork m betas layers win mode cells (some t) = some
      ((buildAll (fun _ => true) (slaFirst (F := F) layers (cs.map Cell.layer)) (slaOrder layers) m).1, ⟨layers, win, mode, betas, cs,
        fun x => if x = .tab then some t else (buildAll (fun _ => true) (slaFirst (F := F) layers (cs.map Cell.layer)) (slaOrder layers) m).2 x⟩) := by
    unfold recurrentNetwork
    rw [if_neg]
    · simp only [e, eb, hbt, hch, Option.bind_eq_bind, Option.bind_some, Bool.and_self, if_true]
    · rintro (h | h | h | h)
      · omega
      · omega
      · cases h
      · obtain ⟨c, hc, h⟩ := List.any_eq_true.1 h
        exact (of_decide_eq_true h) (hwin c hc)
  generalize buildAll (fun _ => true) (slaFirst (F := F) layers (cs.map Cell.layer)) (slaOrder layers) m = s at *
  obtain ⟨g1, g2, g3, g4, g5, g6, g7⟩ := hsp
  have hptr : ∀ x a, (if x = SFld.tab then some t else s.2 x) = some a → x = .tab ∧ a = t ∨ x ≠ .tab ∧ s.2 x = some a := by
    intro x a hx
    by_cases h : x = .tab
    · rw [if_pos h] at hx
      exact Or.inl ⟨h, (Option.some.inj hx).symm⟩
    · rw [if_neg h] at hx
      exact Or.inr ⟨h, hx⟩
  refine ⟨_, _, hrun, rfl, rfl, rfl, rfl, rfl, rfl, ⟨fun c hc => ?_, ⟨fun x a hx => ?_, fun x y a hx hy => ?_⟩, fun x => ?_, ?_, fun c hc a ha => ?_⟩,
    ⟨h0, hn, fun c hc => hwin c (hp.mem_iff.1 hc), hsz⟩, fun i hi => ?_, g1, g2, fun x a hx hxa => ?_, fun a ha => ?_⟩
  · exact cellKind.mono (ho c (hp.mem_iff.1 hc)) g1 fun a ha => g2 a (cellKind.live (ho c (hp.mem_iff.1 hc)) ha).1
  · rcases hptr x a hx with ⟨rfl, rfl⟩ | ⟨h1, h2⟩
    · exact ⟨by omega, A, by rw [g2 _ ht, hA], by rw [hlen, hl']; exact hl.symm⟩
    · obtain ⟨k1, B, k2, k3⟩ := o2.live x a h2
      exact ⟨k1, B, k2, by rw [k3]; exact slaFirst_len _ _ _ h1⟩
  · rcases hptr x a hx with ⟨rfl, rfl⟩ | ⟨h1, h2⟩ <;> rcases hptr y _ hy with ⟨rfl, h⟩ | ⟨h3, h4⟩
    · rfl
    · have := (g5 y _ h4).2.2.1
      omega
    · have := (g5 x _ h2).2.2.1
      omega
    · exact g7 _ _ _ h2 h4
  · show (if x = SFld.tab then some t else s.2 x).isSome = true ↔ _
    by_cases h : x = .tab
    · simp [h]
    · rw [if_neg h]
      constructor
      · intro hx
        obtain ⟨a, ha⟩ := Option.isSome_iff_exists.1 hx
        exact Or.inr (mem_slaOrder.1 (g5 x a ha).1)
      · rintro (hx | hx)
        · exact absurd hx h
        · exact g6 x (mem_slaOrder.2 hx) rfl
  · exact (hp.pairwise_iff (fun {c c'} h a h1 h2 => h a h2 h1)).2 hd
  · rintro ⟨x, hx⟩
    rcases hptr x a hx with ⟨rfl, rfl⟩ | ⟨h1, h2⟩
    · exact hap c (hp.mem_iff.1 hc) ha
    · have := (g5 x a h2).2.2.1
      have := (cellKind.live (ho c (hp.mem_iff.1 hc)) ha).1
      omega
  · have hr := rd (.row i) (mem_slaOrder.2 (Or.inr ⟨i, hi, rfl⟩)) rfl
    obtain ⟨a, B, k1, k2, k3, k4⟩ := hr
    refine ⟨a, B, k1, k2, k3, fun j hj => ?_⟩
    rw [k4 j hj, hn]
    show (if j < (List.range layers).count i then (5 : F) else 0) = _
    rw [List.count_eq_one_of_mem List.nodup_range (List.mem_range.2 hi)]
    by_cases h : j = 0
    · rw [if_pos (by omega)]
      exact (if_pos h).symm
    · rw [if_neg (by omega)]
      exact (if_neg h).symm
  · rcases hptr x a hxa with ⟨h1, _⟩ | ⟨_, h2⟩
    · exact absurd h1 hx
    · exact (g5 x a h2).2.2.1
  · refine hfr a fun x hx => ?_
    by_cases h : x = .tab
    · have := (mem_slaOrder.1 (g5 x a hx).1)
      rw [h] at this
      rcases this with h | ⟨_, _, h⟩ <;> cases h
    · exact ha x ((if_neg h).trans hx)

/-! ### Freeing and copying -/

theorem RnnOwn.all [Field F] {m : Mem F} {r : Rnn F} (h : RnnOwn m r) : (cellKind (F := F)).All m r.cells := ⟨h.cells, h.apart⟩

theorem RnnOwn.live [Field F] {m : Mem F} {r : Rnn F} (h : RnnOwn m r) {a : Nat} (ha : rnnAddr r a) : a < m.next ∧ m.blk a ≠ none := by
  rcases ha with ⟨c, hc, ha⟩ | ⟨x, hx⟩
  · exact cellKind.live (h.cells c hc) ha
  · obtain ⟨h1, A, h2, _⟩ := h.blocks.live x _ hx
    exact ⟨h1, by rw [h2]; exact Option.some_ne_none _⟩

theorem RnnOwn.mono [Field F] {m m' : Mem F} {r : Rnn F} (h : RnnOwn m r) (hn : m.next ≤ m'.next) (hb : ∀ a, rnnAddr r a → m'.blk a = m.blk a) : RnnOwn m' r := by
  refine ⟨fun c hc => cellKind.mono (h.cells c hc) hn fun a ha => hb a (Or.inl ⟨c, hc, ha⟩), ⟨fun x a hx => ?_, h.blocks.inj⟩, h.whole, h.apart, h.apart'⟩
  obtain ⟨h1, A, h2, h3⟩ := h.blocks.live x a hx
  exact ⟨by omega, A, by rw [hb a (Or.inr ⟨x, hx⟩), h2], h3⟩

/-- **C163 (freeing).** Freeing a network frees each block of its layers, the table and `sla` once and nothing else. -/
theorem C163_free [Field F] (m : Mem F) (r : Rnn F) (h : RnnOwn m r) :
    ∃ m', r.free m = some m' ∧ m'.next = m.next ∧ (∀ a, rnnAddr r a → m'.blk a = none) ∧ ∀ a, ¬ rnnAddr r a → m'.blk a = m.blk a := by
  obtain ⟨m1, e1, n1, g1, b1⟩ := ModelLife.freeEach_spec cellKind r.cells m h.all
  have ho : Owns m1 r.ptr (size r.layers r.cells.length) := by
    refine ⟨fun x a hx => ?_, h.blocks.inj⟩
    obtain ⟨j1, A, j2, j3⟩ := h.blocks.live x a hx
    exact ⟨by omega, A, by rw [b1 a fun c hc ha => h.apart' c hc a ha ⟨x, hx⟩, j2], j3⟩
  obtain ⟨m2, e2, n2, g2, b2⟩ := free_owned (l := .tab :: ((List.range r.layers).map .row ++ [.sla])) ho (by
      rw [List.nodup_cons, List.nodup_append]
      refine ⟨by simp, List.nodup_range.map fun i j h => by simpa using h, by simp, fun x hx y hy hxy => ?_⟩
      rw [List.mem_singleton] at hy
      subst hxy hy
      obtain ⟨i, _, h⟩ := List.mem_map.1 hx
      cases h) fun x a hx => by
    rcases (h.whole x).1 (by rw [hx]; rfl) with rfl | rfl | ⟨i, hi, rfl⟩ <;> simp
    exact hi
  refine ⟨m2, ?_, by omega, fun a ha => ?_, fun a ha => ?_⟩
  · unfold Rnn.free
    rw [show freeEach (fun m (c : Cell F) => c.net.free m) r.cells m = some m1 from e1]
    exact e2
  · rcases ha with ⟨c, hc, ha⟩ | ⟨x, hx⟩
    · rw [b2 a fun x hx => h.apart' c hc a ha ⟨x, hx⟩]
      exact g1 c hc a ha
    · exact g2 x a hx
  · rw [b2 a fun x hx => ha (Or.inr ⟨x, hx⟩), b1 a fun c hc hx => ha (Or.inl ⟨c, hc, hx⟩)]

theorem map_copied [Field F] {m m' : Mem F} {α : Type} (f : Cell F → α) (hf : ∀ c d, CellCopied m c m' d → f d = f c) :
    ∀ {l l' : List (Cell F)}, List.Forall₂ (fun c d => CellCopied m c m' d) l l' → l'.map f = l.map f
  | _, _, .nil => rfl
  | _, _, .cons h1 h2 => by rw [List.map_cons, List.map_cons, hf _ _ h1, map_copied f hf h2]

/-- **C163 (copying).** Copying a network gives a network of its own: same numbers, window, mode and rates, a right
`sla`, every layer a complete copy in fresh memory; the original and all other memory are as before.
Missing: the first optimiser array of the shifts of the groups (`CellCopied.lost`). -/
theorem C163_copy_partial [Field F] (d : F × F × F) (m : Mem F) (r : Rnn F) (w : Nat → Draw F) (h : RnnOwn m r) (hs : Shaped r)
    (hok : ∀ c ∈ r.cells, c.net.fl.accepted ∧ c.net.fl.sound) :
    ∃ m' c, r.dup d m w = some (m', c) ∧ RnnOwn m' c ∧ RnnOwn m' r ∧ Shaped c ∧ Marked m' c ∧ c.layers = r.layers ∧ c.win = r.win ∧ c.mode = r.mode ∧
      c.betas = r.betas ∧ List.Forall₂ (fun x y => CellCopied m x m' y) r.cells c.cells ∧ m.next ≤ m'.next ∧ (∀ a, rnnAddr c a → m.next ≤ a) ∧
      ∀ a, ¬ rnnAddr c a → m'.blk a = m.blk a := by
  have ht : (r.ptr .tab).isSome = true := (h.whole .tab).2 (Or.inl rfl)
  have hsp := buildAll_spec (fun _ => (r.ptr .tab).isSome) (fun _ => (⟨r.cells.length, fun _ => 0⟩ : Arr F)) [SFld.tab] m (by simp)
  have hrun : ∀ {m1 : Mem F} {cs : List (Cell F)} {m2 : Mem F} {c : Rnn F},
      dupAll Cell.dup r.cells (buildAll (fun _ => (r.ptr .tab).isSome) (fun _ => (⟨r.cells.length, fun _ => 0⟩ : Arr F)) [SFld.tab] m).1 w = some (m1, cs) →
      recurrentNetwork m1 d r.layers r.win r.mode cs ((buildAll (fun _ => (r.ptr .tab).isSome) (fun _ => (⟨r.cells.length, fun _ => 0⟩ : Arr F)) [SFld.tab] m).2 .tab) = some (m2, c) →
      r.dup d m w = some (m2, { c with betas := r.betas }) := by
    intro m1 cs m2 c h1 h2
    simp only [Rnn.dup, h1, h2, Option.bind_eq_bind, Option.bind_some]
  have hfr := ModelLife.build_frame (fun _ => (r.ptr .tab).isSome) (fun _ => (⟨r.cells.length, fun _ => 0⟩ : Arr F)) (l := [SFld.tab]) m (by simp)
  generalize buildAll (fun _ => (r.ptr .tab).isSome) (fun _ => (⟨r.cells.length, fun _ => 0⟩ : Arr F)) [SFld.tab] m = s at *
  obtain ⟨g1, g2, g3, g4, g5, g6, g7⟩ := hsp
  obtain ⟨t, htt⟩ := Option.isSome_iff_exists.1 (g6 .tab (by simp) ht)
  obtain ⟨_, _, t1, t2, t3⟩ := g5 _ t htt
  have hone : ∀ x a, s.2 x = some a → a = t := fun x a hx => by
    have hx1 := (g5 x a hx).1
    rw [List.mem_singleton] at hx1
    rw [hx1, htt] at hx
    exact (Option.some.inj hx).symm
  have old : ∀ a, rnnAddr r a → s.1.blk a = m.blk a := fun a ha => g2 a (h.live ha).1
  obtain ⟨m1, cs, e1, o1, n1, f1, b1, c1⟩ := ModelLife.dupAll_spec cellKind r.cells s.1 w
    (Kind.All.mono cellKind h.all g1 fun c hc a ha => old a (Or.inl ⟨c, hc, ha⟩)) hok
  have c1' : List.Forall₂ (fun x y => CellCopied m x m1 y) r.cells cs :=
    cellKind.copiedAll c1 (fun c hc a ha => (old a (Or.inl ⟨c, hc, ha⟩)).symm) fun _ _ _ _ => rfl
  have hlen := c1.length_eq
  have k1 : cs.map Cell.layer = r.cells.map Cell.layer := map_copied _ (fun c d h => h.same.1) c1'
  have k2 : cs.map (fun c => c.net.fl) = r.cells.map fun c => c.net.fl := map_copied _ (fun c d h => h.same.2.1) c1'
  have hfl : ∀ (i : Nat) y, cs[i]? = some y → ∃ x, r.cells[i]? = some x ∧ y.net.fl = x.net.fl := by
    intro i y hy
    have hi : i < r.cells.length := by
      rw [hlen]
      exact (List.getElem?_eq_some_iff.1 hy).1
    have := congrArg (·[i]?) k2
    simp only [List.getElem?_map, hy, List.getElem?_eq_getElem hi, Option.map_some, Option.some.injEq] at this
    exact ⟨_, List.getElem?_eq_getElem hi, this⟩
  have hct : ∀ c ∈ cs, ¬ cellAddr c t := fun c hc ha => by
    have := f1 c hc t ha
    omega
  obtain ⟨m2, c, e2, p1, p2, p3, p4, p5, p6, oc, sc, mc, n2, q1, q2, q3⟩ := C163_construct m1 d r.layers r.win r.mode t ⟨r.cells.length, fun _ => 0⟩ cs cs o1.1 o1.2
    (by omega) (by rw [b1 t hct, t3]) hlen hct hs.layered (List.Perm.refl _) (by rw [k1, hs.numbers]) (fun c hc => by
      obtain ⟨i, hi⟩ := List.getElem?_of_mem hc
      obtain ⟨x, hx, he⟩ := hfl i c hi
      rw [he, hs.window x (List.mem_of_getElem? hx)]) fun i a b ha hb => by
      obtain ⟨x, hx, he⟩ := hfl i a ha
      obtain ⟨y, hy, he'⟩ := hfl (i + 1) b hb
      rw [he, he', hs.sizes i x y hx hy]
  have hnew : ∀ a, rnnAddr c a → m.next ≤ a := by
    rintro a (⟨x, hx, ha⟩ | ⟨x, hx⟩)
    · have := f1 x (p5 ▸ hx) a ha
      omega
    · by_cases hxt : x = .tab
      · rw [hxt, p6] at hx
        obtain rfl := Option.some.inj hx
        exact t1
      · have := q2 x a hxt hx
        omega
  have hframe : ∀ a, ¬ rnnAddr c a → m2.blk a = m.blk a := fun a ha => by
    rw [q3 a fun x hx => ha (Or.inr ⟨x, hx⟩), b1 a fun x hx hxa => ha (Or.inl ⟨x, by rw [p5]; exact hx, hxa⟩), hfr a fun x hx => ?_]
    have := hone x a hx
    exact ha (Or.inr ⟨.tab, by rw [p6, this]⟩)
  have hold : ∀ a, rnnAddr r a → m2.blk a = m.blk a := fun a ha => hframe a fun hc => by
    have := (h.live ha).1
    have := hnew a hc
    omega
  refine ⟨m2, { c with betas := r.betas }, hrun e1 (by rw [htt]; exact e2), ⟨oc.cells, oc.blocks, oc.whole, oc.apart, oc.apart'⟩, h.mono (by omega) hold,
    ⟨sc.layered, sc.numbers, sc.window, sc.sizes⟩, mc, p1, p2, p3, rfl, ?_, by omega, hnew, hframe⟩
  show List.Forall₂ _ r.cells c.cells
  rw [p5]
  exact cellKind.copiedAll c1' (fun _ _ _ _ => rfl) fun x hx a ha => q1 a (cellKind.live (o1.1 x hx) ha).1

/-- **C163 (copies are independent).** Freeing the copy gives back exactly the memory the copy took; freeing the
original leaves the copy complete. -/
theorem C163_independent [Field F] (d : F × F × F) (m : Mem F) (hm : m.Sane) (r : Rnn F) (w : Nat → Draw F) (h : RnnOwn m r) (hs : Shaped r)
    (hok : ∀ c ∈ r.cells, c.net.fl.accepted ∧ c.net.fl.sound) :
    ∃ m' c, r.dup d m w = some (m', c) ∧ (∃ m1, r.free m' = some m1 ∧ RnnOwn m1 c ∧ ∀ a, rnnAddr c a → m1.blk a = m'.blk a) ∧
      ∃ m2, c.free m' = some m2 ∧ RnnOwn m2 r ∧ m2.blk = m.blk := by
  obtain ⟨m', c, e, oc, or, _, _, _, _, _, _, _, hn, hnew, hfr⟩ := C163_copy_partial d m r w h hs hok
  obtain ⟨m1, e1, n1, _, b1⟩ := C163_free m' r or
  obtain ⟨m2, e2, n2, g2, b2⟩ := C163_free m' c oc
  have k1 : ∀ a, rnnAddr c a → m1.blk a = m'.blk a := fun a ha => b1 a fun hr => by
    have := (h.live hr).1
    have := hnew a ha
    omega
  have k2 : m2.blk = m.blk := funext fun a => by
    by_cases ha : rnnAddr c a
    · rw [g2 a ha, hm a (hnew a ha)]
    · rw [b2 a ha, hfr a ha]
  exact ⟨m', c, e, ⟨m1, e1, oc.mono (by omega) k1, k1⟩, m2, e2, h.mono (by omega) fun a _ => by rw [k2], k2⟩

/-- **C163 (copying, refuted).** A network whose `i`-th layer has groups with a non-zero first moment of some shift
is copied without it: the optimiser goes on differently. -/
theorem C163_copy_refuted [Field F] (d : F × F × F) (m : Mem F) (r : Rnn F) (w : Nat → Draw F) (h : RnnOwn m r) (hs : Shaped r)
    (hok : ∀ c ∈ r.cells, c.net.fl.accepted ∧ c.net.fl.sound) {i g a j : Nat} {x : Cell F} {A : Arr F} (hx : r.cells[i]? = some x) (hg : x.net.fl.grouped = true)
    (hgn : g < x.net.fl.win / x.net.fl.cells) (ha : x.net.ptr (.group g (.vec (.beta .d1))) = some a) (hA : m.blk a = some A) (hj : j < x.net.fl.out) (hne : A.get j ≠ 0) :
    ∃ m' c y b B, r.dup d m w = some (m', c) ∧ c.cells[i]? = some y ∧ y.net.ptr (.group g (.vec (.beta .d1))) = some b ∧ m'.blk b = some B ∧
      m'.blk a = some A ∧ B.get j ≠ A.get j := by
  obtain ⟨m', c, e, _, _, _, _, _, _, _, _, f, _, hnew, hfr⟩ := C163_copy_partial d m r w h hs hok
  have hi : i < c.cells.length := by
    rw [← f.length_eq]
    exact (List.getElem?_eq_some_iff.1 hx).1
  obtain ⟨hi', rfl⟩ := List.getElem?_eq_some_iff.1 hx
  have hc := f.get hi' hi
  simp only [List.get_eq_getElem] at hc
  obtain ⟨b, B, hb, hB, _, hz⟩ := hc.lost g ⟨hg, hgn, trivial⟩
  refine ⟨m', c, _, b, B, e, List.getElem?_eq_getElem hi, hb, hB, ?_, ?_⟩
  · rw [hfr a fun hc => ?_, hA]
    have := (h.live (Or.inl ⟨_, List.getElem_mem hi', _, ha⟩)).1
    have := hnew a hc
    omega
  rw [hz j hj]
  exact hne.symm

/-! ### Pasting -/

/-- **C163 (pasting).** Pasting a network on another one with layers of the same shapes and at least as many groups
gives every layer of the target what the layer of the source has learned; everything else, `sla`, mode and
rates of the target among it, is as before. Missing: rates and shorter targets, see below. -/
theorem C163_paste_partial [Field F] (m : Mem F) (r d : Rnn F) (hr : RnnOwn m r) (hd : RnnOwn m d) (hap : Disj (rnnAddr r) (rnnAddr d))
    (hf : List.Forall₂ CellFit r.cells d.cells) :
    ∃ m' d', r.paste m d = some (m', d') ∧ RnnOwn m' d' ∧ RnnOwn m' r ∧ d'.layers = d.layers ∧ d'.win = d.win ∧ d'.mode = d.mode ∧ d'.betas = d.betas ∧ d'.ptr = d.ptr ∧
      d'.cells.length = d.cells.length ∧ (∀ a, rnnAddr d' a ↔ rnnAddr d a) ∧ (∀ a, (∀ c ∈ d.cells, ¬ cellAddr c a) → m'.blk a = m.blk a) ∧
      ∀ (i : Nat) x y z, r.cells[i]? = some x → d.cells[i]? = some y → d'.cells[i]? = some z → CellPasted m x y m' z := by
  obtain ⟨m', cs, e, n, o, ln, ad, fr, ps⟩ := ModelLife.pasteAll_spec cellPaste r.cells d.cells m hf hr.all hd.all
    fun c hc c' hc' a ha ha' => hap a (Or.inl ⟨c, hc, ha⟩) (Or.inl ⟨c', hc', ha'⟩)
  have kp : ∀ x a, d.ptr x = some a → m'.blk a = m.blk a := fun x a hx => fr a fun c hc ha => hd.apart' c hc a ha ⟨x, hx⟩
  refine ⟨m', { d with cells := cs }, ?_, ⟨o.1, ⟨fun x a hx => ?_, hd.blocks.inj⟩, hd.whole, o.2, fun c hc a ha ⟨x, hx⟩ => ?_⟩, hr.mono n.ge fun a ha => fr a fun c hc hca =>
    hap a ha (Or.inl ⟨c, hc, hca⟩), rfl, rfl, rfl, rfl, rfl, ln, fun a => or_congr (ad a) Iff.rfl, fr, fun i x y z h1 h2 h3 => (ps i x y z h1 h2 h3).1⟩
  · unfold Rnn.paste
    rw [show pasteAll Cell.paste r.cells d.cells m = some (m', cs) from e]
    rfl
  · obtain ⟨h1, A, h2, h3⟩ := hd.blocks.live x a hx
    exact ⟨by omega, A, by rw [kp x a hx, h2], by rw [h3]; simp only [ln]⟩
  · obtain ⟨c', hc', ha'⟩ := (ad a).1 ⟨c, hc, ha⟩
    exact hd.apart' c' hc' a ha' ⟨x, hx⟩

/-- **C163 (pasting, refuted for shorter targets).** A target with fewer layers is read out of bounds. -/
theorem C163_paste_short_refuted (m : Mem F) (r d : Rnn F) (h : d.cells.length < r.cells.length) : r.paste m d = none := by
  unfold Rnn.paste
  rw [ModelLife.pasteAll_short Cell.paste r.cells d.cells m h]
  rfl

/-- **C163 (pasting, refuted for rates).** The rates of the optimiser are copied but not pasted: after pasting, the
target keeps its own. -/
theorem C163_rates_refuted [Field F] (m : Mem F) (r d : Rnn F) (hr : RnnOwn m r) (hd : RnnOwn m d) (hap : Disj (rnnAddr r) (rnnAddr d))
    (hf : List.Forall₂ CellFit r.cells d.cells) (hne : r.betas ≠ d.betas) : ∃ m' d', r.paste m d = some (m', d') ∧ d'.betas ≠ r.betas := by
  obtain ⟨m', d', e, _, _, _, _, _, hb, _⟩ := C163_paste_partial m r d hr hd hap hf
  exact ⟨m', d', e, by rw [hb]; exact hne.symm⟩

/-! ### Resetting -/

theorem reset_own [Field F] {m m' : Mem F} {r : Rnn F} (h : RnnOwn m r) (n : m'.next = m.next) (o : (cellKind (F := F)).All m' r.cells)
    (fr : ∀ a, (∀ l ∈ r.cells, ¬ cellKind.addr l a) → m'.blk a = m.blk a) : RnnOwn m' r := by
  refine ⟨o.1, ⟨fun x a hx => ?_, h.blocks.inj⟩, h.whole, h.apart, h.apart'⟩
  obtain ⟨h1, A, h2, h3⟩ := h.blocks.live x a hx
  exact ⟨by omega, A, by rw [fr a fun c hc ha => h.apart' c hc a ha ⟨x, hx⟩, h2], h3⟩

/-- **C163 (resetting).** Resetting a complete network resets every layer and touches nothing else. Missing: layers
with edge-popup in the forward pass only and stripped layers, see C162. -/
theorem C163_reset_partial [Field F] (S : Ranks F) (m : Mem F) (r : Rnn F) (h : RnnOwn m r) (hr : ∀ c ∈ r.cells, LstmLife.Full c.net ∧ c.net.fl.sound) :
    ∃ m', r.reset S m = some (m', r) ∧ RnnOwn m' r ∧ (∀ c ∈ r.cells, CellCleared S m c m') ∧ ∀ a, (∀ c ∈ r.cells, ¬ cellAddr c a) → m'.blk a = m.blk a := by
  obtain ⟨m', e, n, o, fr, cl⟩ := ModelLife.resetAll_spec (cellReset S) r.cells m (fun _ => ()) h.all hr
  refine ⟨m', ?_, reset_own h n o fr, fun c hc => ?_, fr⟩
  · unfold Rnn.reset
    rw [show resetAll (fun m (c : Cell F) (_ : Unit) => (c.net.reset S.rank S.hit m).map fun m => (m, c)) r.cells m (fun _ => ()) = some (m', r.cells) from e]
    rfl
  · obtain ⟨i, hi⟩ := List.getElem?_of_mem hc
    exact cl i c hi

/-- **C163 (resetting for inference).** Resetting for the pass forward clears the states of every layer, also of a
stripped one, and touches nothing else. -/
theorem C163_reset_ff [Field F] (m : Mem F) (r : Rnn F) (h : RnnOwn m r) (hr : ∀ c ∈ r.cells, LstmLife.Usable c.net) :
    ∃ m', r.resetFF m = some (m', r) ∧ RnnOwn m' r ∧ (∀ c ∈ r.cells, CellForward m c m') ∧ ∀ a, (∀ c ∈ r.cells, ¬ cellAddr c a) → m'.blk a = m.blk a := by
  obtain ⟨m', e, n, o, fr, cl⟩ := ModelLife.resetAll_spec cellForward r.cells m (fun _ => ()) h.all hr
  refine ⟨m', ?_, reset_own h n o fr, fun c hc => ?_, fr⟩
  · unfold Rnn.resetFF
    rw [show resetAll (fun m (c : Cell F) (_ : Unit) => (c.net.resetFF m).map fun m => (m, c)) r.cells m (fun _ => ()) = some (m', r.cells) from e]
    rfl
  · obtain ⟨i, hi⟩ := List.getElem?_of_mem hc
    exact cl i c hi

/-! ### Stripping -/

theorem freeAll_next {I : Type} (p : I → Option Nat) : ∀ (l : List I) {m m' : Mem F}, freeAll p l m = some m' → m'.next = m.next := by
  intro l
  induction l with
  | nil => intro m m' h; obtain rfl := Option.some.inj h; rfl
  | cons x l ih =>
    intro m m' h
    simp only [freeAll, Option.bind_eq_bind, Option.bind_eq_some_iff] at h
    obtain ⟨m1, h1, h2⟩ := h
    rw [ih h2]
    cases hx : p x with
    | none =>
      rw [hx] at h1
      obtain rfl := Option.some.inj h1
      rfl
    | some a =>
      rw [hx] at h1
      unfold Mem.free at h1
      simp only at h1
      split at h1
      · cases h1
      · obtain rfl := Option.some.inj h1
        rfl

theorem stripAll_spec [Field F] : ∀ (cs : List (Cell F)) (m : Mem F), (cellKind (F := F)).All m cs → (∀ c ∈ cs, LstmLife.Usable c.net) →
    ∃ m' ds, stripAll cs m = some (m', ds) ∧ m'.next = m.next ∧ (cellKind (F := F)).All m' ds ∧ List.Forall₂ (fun c d => CellStripped m c m' d) cs ds ∧
      (∀ d ∈ ds, ∀ a, cellAddr d a → ∃ c ∈ cs, cellAddr c a) ∧ ∀ a, (∀ c ∈ cs, ¬ cellAddr c a) → m'.blk a = m.blk a := by
  intro cs
  induction cs with
  | nil =>
    intro m h _
    exact ⟨m, [], rfl, rfl, h, .nil, fun d hd => by simp at hd, fun _ _ => rfl⟩
  | cons c cs ih =>
    intro m h hu
    obtain ⟨m1, d, e1, s1, s2, od, us, g1, g2, g3, g4⟩ := LstmLife.C162_strip m c.net (h.1 c (by simp)) (hu c (by simp))
    have n1 : m1.next = m.next := by
      have e1' := e1
      simp only [Lstm.strip, Option.bind_eq_bind, Option.bind_eq_some_iff, Option.some.injEq, Prod.mk.injEq] at e1'
      obtain ⟨m0, e0, rfl, _⟩ := e1'
      exact freeAll_next _ _ e0
    have hsub : ∀ x a, d.ptr x = some a → c.net.ptr x = some a := by
      intro x a hx
      by_cases hb : ∀ t i, LstmLife.backward t = true → x ≠ .tab t ∧ x ≠ .row t i
      · rw [← g2 x hb]
        exact hx
      · exfalso
        push Not at hb
        obtain ⟨t, i, ht, hb⟩ := hb
        by_cases hx1 : x = .tab t
        · rw [hx1, (g1 t i ht).1] at hx
          cases hx
        · rw [hb hx1, (g1 t i ht).2] at hx
          cases hx
    have hp := List.pairwise_cons.1 h.2
    have fr1 : ∀ a, ¬ cellAddr c a → m1.blk a = m.blk a := fun a ha => g4 a fun x hx => absurd ⟨x, hx⟩ ha
    have k1 : ∀ x ∈ cs, ∀ a, cellAddr x a → m1.blk a = m.blk a := fun x hx a ha => fr1 a fun h' => hp.1 x hx a h' ha
    obtain ⟨m2, ds, e2, n2, o2, f2, sb, fr2⟩ := ih m1 (Kind.All.mono cellKind ⟨fun x hx => h.1 x (by simp [hx]), hp.2⟩ n1.ge k1) fun x hx => hu x (by simp [hx])
    have k2 : ∀ a, cellAddr c a → m2.blk a = m1.blk a := fun a ha => fr2 a fun x hx hxa => hp.1 x hx a ha hxa
    refine ⟨m2, ⟨c.layer, d⟩ :: ds, by simp only [stripAll, e1, e2, Option.bind_eq_bind, Option.bind_some], by omega, ⟨fun x hx => ?_, List.pairwise_cons.2 ⟨fun x hx a ha ha' => ?_, o2.2⟩⟩,
      .cons ⟨⟨rfl, s1, s2⟩, us, g1, g2, fun x a hx hxn => ?_, fun x a hx => ⟨hsub x a hx, ?_⟩⟩ ?_, fun x hx a ha => ?_, fun a ha => ?_⟩
    · rcases List.mem_cons.1 hx with rfl | hx
      · exact cellKind.mono (l := ⟨c.layer, d⟩) od n2.ge fun a ⟨x, hx⟩ => k2 a ⟨x, hsub x a hx⟩
      · exact o2.1 x hx
    · obtain ⟨y, hy⟩ := ha
      obtain ⟨z, hz, hza⟩ := sb x hx a ha'
      exact hp.1 z hz a ⟨y, hsub y a hy⟩ hza
    · rw [k2 a ⟨x, hx⟩, g3 x a hx hxn]
    · rw [k2 a ⟨x, hsub x a hx⟩]
      refine g4 a fun y hy => ?_
      rw [(h.1 c (by simp)).owns.inj y x a hy (hsub x a hx)]
      exact hx
    · refine ModelLife.forall₂_mem (fun x y hx hxy => ?_) f2
      refine ⟨hxy.same, hxy.usable, hxy.gone, hxy.rest, hxy.freed, fun z a hz => ⟨(hxy.kept z a hz).1, ?_⟩⟩
      rw [(hxy.kept z a hz).2]
      exact k1 x hx a ⟨z, (hxy.kept z a hz).1⟩
    · rcases List.mem_cons.1 hx with rfl | hx
      · obtain ⟨y, hy⟩ := ha
        exact ⟨c, by simp, y, hsub y a hy⟩
      · obtain ⟨z, hz, hza⟩ := sb x hx a ha
        exact ⟨z, by simp [hz], hza⟩
    · rw [fr2 a fun x hx => ha x (by simp [hx]), fr1 a (ha c (by simp))]

/-- **C163 (stripping for inference).** Stripping a network gives back the gradients and optimiser arrays of every layer
and keeps all else; the stripped network owns what it has left, so that it can be reset for the pass
forward (`C163_reset_ff`) and freed (`C163_free`). -/
theorem C163_strip [Field F] (m : Mem F) (r : Rnn F) (h : RnnOwn m r) (hu : ∀ c ∈ r.cells, LstmLife.Usable c.net) :
    ∃ m' d, r.strip m = some (m', d) ∧ RnnOwn m' d ∧ d.layers = r.layers ∧ d.win = r.win ∧ d.mode = r.mode ∧ d.betas = r.betas ∧ d.ptr = r.ptr ∧
      List.Forall₂ (fun c c' => CellStripped m c m' c') r.cells d.cells ∧ (∀ c ∈ d.cells, LstmLife.Usable c.net) ∧
      ∀ a, (∀ c ∈ r.cells, ¬ cellAddr c a) → m'.blk a = m.blk a := by
  obtain ⟨m', ds, e, n, o, f, sb, fr⟩ := stripAll_spec r.cells m h.all hu
  refine ⟨m', { r with cells := ds }, ?_, ⟨o.1, ⟨fun x a hx => ?_, h.blocks.inj⟩, h.whole, o.2, fun c hc a ha ⟨x, hx⟩ => ?_⟩, rfl, rfl, rfl, rfl, rfl, f, fun c hc => ?_, fr⟩
  · simp only [Rnn.strip, e, Option.bind_eq_bind, Option.bind_some]
  · obtain ⟨h1, A, h2, h3⟩ := h.blocks.live x a hx
    exact ⟨by omega, A, by rw [fr a fun c hc ha => h.apart' c hc a ha ⟨x, hx⟩, h2], by rw [h3, f.length_eq]⟩
  · obtain ⟨c', hc', ha'⟩ := sb c hc a ha
    exact h.apart' c' hc' a ha' ⟨x, hx⟩
  · obtain ⟨i, hi⟩ := List.getElem?_of_mem hc
    obtain ⟨hi', rfl⟩ := List.getElem?_eq_some_iff.1 hi
    have := f.get (by rw [f.length_eq]; exact hi') hi'
    simp only [List.get_eq_getElem] at this
    exact this.usable

/-- Resetting stops at the first layer that cannot be reset. -/
theorem resetAll_none {L S : Type} (reset : Mem F → L → S → Option (Mem F × L)) : ∀ (ls : List L) (m : Mem F) (s : Nat → S), (∃ l ∈ ls, ∀ m s, reset m l s = none) →
    resetAll reset ls m s = none := by
  intro ls
  induction ls with
  | nil => rintro m s ⟨l, hl, _⟩; simp at hl
  | cons x ls ih =>
    rintro m s ⟨l, hl, h⟩
    simp only [ModelLife.resetAll, Option.bind_eq_bind, Option.bind_eq_none_iff]
    intro p hp
    rcases List.mem_cons.1 hl with rfl | hl
    · rw [h] at hp
      cases hp
    · rw [ih _ _ ⟨l, hl, h⟩]
      simp

/-- **C163 (stripped networks, refuted).** A network with a layer that trains by gradients cannot be reset by
`reset_rmodel` after it is stripped: it writes through null. -/
theorem C163_stripped_refuted [Field F] (S : Ranks F) (m : Mem F) (r : Rnn F) (h : RnnOwn m r) (hu : ∀ c ∈ r.cells, LstmLife.Usable c.net) (c : Cell F) (hc : c ∈ r.cells)
    (ha : c.net.fl.accepted) (hp : c.net.fl.popup = false) : ∃ m' d, r.strip m = some (m', d) ∧ d.reset S m' = none := by
  obtain ⟨m', d, e, _, _, _, _, _, _, f, _⟩ := C163_strip m r h hu
  refine ⟨m', d, e, ?_⟩
  obtain ⟨i, hi⟩ := List.getElem?_of_mem hc
  obtain ⟨hi', rfl⟩ := List.getElem?_eq_some_iff.1 hi
  have hi2 : i < d.cells.length := by rw [← f.length_eq]; exact hi'
  have hst := f.get hi' hi2
  simp only [List.get_eq_getElem] at hst
  unfold Rnn.reset
  rw [resetAll_none _ _ _ _ ⟨d.cells[i], List.getElem_mem hi2, fun m s => ?_⟩]
  · rfl
  · have h1 : 0 < d.cells[i].net.fl.out * d.cells[i].net.fl.inp := by rw [hst.same.2.1]; exact Nat.mul_pos ha.2.1 ha.1
    have : d.cells[i].net.reset S.rank S.hit m = none := by
      unfold Lstm.reset
      rw [writeAll_none]
      · rfl
      · refine ⟨⟨.row (.par .w .d) 0, true, fun _ => 0⟩, List.mem_append_left _ ?_, rfl, (hst.gone (.par .w .d) 0 rfl).2, Nat.pos_iff_ne_zero.1 h1⟩
        simp only [LstmLife.backSteps, List.mem_flatMap, List.mem_range]
        exact ⟨0, by decide, by simp [hst.same.2.1, hp]⟩
    rw [this]
    rfl

/-! ### Non-vacuity -/

/-- The first layer: two inputs, three outputs, two groups of two steps. -/
def lower : LstmLife.Flags := ⟨2, 3, 4, 2, false, false, true, false⟩

/-- The second layer: three inputs, three outputs, edge-popup. -/
def upper : LstmLife.Flags := ⟨3, 3, 4, 1, true, true, false, true⟩

/-- Two layers given in the wrong order make a network that can be copied, pasted on its copy, reset and freed. -/
example : ∃ (m : Mem ℚ) (r : Rnn ℚ), RnnOwn m r ∧ Shaped r ∧ r.cells.length = 2 ∧ (∀ c ∈ r.cells, c.net.fl.accepted ∧ c.net.fl.sound ∧ LstmLife.Full c.net) ∧
    ∃ m1 c m2 d m3 e m4, r.dup (0, 0, 0) m (fun _ => (fun _ _ _ => 0, fun _ => 0)) = some (m1, c) ∧ r.paste m1 c = some (m2, d) ∧
      d.reset ⟨fun _ _ _ => 0, fun _ _ _ _ => true⟩ m2 = some (m3, e) ∧ e.free m3 = some m4 ∧
      ∃ m5 s, r.strip m = some (m5, s) ∧ s.reset ⟨fun _ _ _ => 0, fun _ _ _ _ => true⟩ m5 = none ∧ ∃ m6, s.resetFF m5 = some (m6, s) := by
  obtain ⟨m1, l, _, hl, _, ol, cl, _, _, _, _⟩ := LstmLife.C162_construct_partial (⟨0, fun _ => none⟩ : Mem ℚ) lower (fun _ i j => i + j) (fun _ => 0) (by decide)
    (by simp [LstmLife.Flags.sound, lower])
  obtain ⟨m2, u, _, hu, _, ou, cu, fru, nu, fru', _⟩ := LstmLife.C162_construct_partial m1 upper (fun _ i j => i + j) (fun _ => 0) (by decide)
    (by simp [LstmLife.Flags.sound, upper])
  have fl : LstmLife.Full l := fun x hx => (cl x).2 (hl ▸ hx)
  have fu : LstmLife.Full u := fun x hx => (cu x).2 (hu ▸ hx)
  have ol2 : LstmLife.Own m2 l := cellKind.mono (l := ⟨0, l⟩) ol nu fun a ⟨x, hx⟩ => fru a (ol.owns.live x a hx).1
  have hlt : ∀ x a, l.ptr x = some a → a < m1.next := fun x a hx => (ol.owns.live x a hx).1
  have hb : ∀ a, a ≠ m2.next → (m2.alloc ⟨2, fun _ => 0⟩).blk a = m2.blk a := fun a ha => by simp [Mem.alloc, ha]
  have hb' : (m2.alloc (⟨2, fun _ => 0⟩ : Arr ℚ)).blk m2.next = some ⟨2, fun _ => 0⟩ := by simp [Mem.alloc]
  have hn : (m2.alloc (⟨2, fun _ => 0⟩ : Arr ℚ)).next = m2.next + 1 := rfl
  have hu2 : ∀ x a, u.ptr x = some a → a < m2.next := fun x a hx => (ou.owns.live x a hx).1
  have ol3 : LstmLife.Own (m2.alloc ⟨2, fun _ => 0⟩) l := cellKind.mono (l := ⟨0, l⟩) ol2 (by omega) fun a ⟨x, hx⟩ => hb a (by have := hlt x a hx; omega)
  have ou3 : LstmLife.Own (m2.alloc ⟨2, fun _ => 0⟩) u := cellKind.mono (l := ⟨1, u⟩) ou (by omega) fun a ⟨x, hx⟩ => hb a (by have := hu2 x a hx; omega)
  obtain ⟨m3, r, _, _, _, _, _, hcs, _, or, sr, _⟩ := C163_construct (m2.alloc ⟨2, fun _ => 0⟩) (1, 1, 1) 2 4 0 m2.next ⟨2, fun _ => 0⟩ [⟨1, u⟩, ⟨0, l⟩] [⟨0, l⟩, ⟨1, u⟩]
    (by simp only [List.mem_cons, List.not_mem_nil, or_false, forall_eq_or_imp, forall_eq]; exact ⟨ou3, ol3⟩)
    (by
      simp only [List.pairwise_cons, List.mem_cons, List.not_mem_nil, or_false, forall_eq, List.Pairwise.nil, and_true]
      refine ⟨?_, by simp⟩
      rintro a ⟨x, hx⟩ ⟨y, hy⟩
      have := hlt y a hy
      have := fru' x a hx
      omega) (by omega) hb' rfl (by
      simp only [List.mem_cons, List.not_mem_nil, or_false, forall_eq_or_imp, forall_eq]
      exact ⟨fun ⟨x, hx⟩ => absurd (hu2 x _ hx) (lt_irrefl _), fun ⟨x, hx⟩ => absurd (hlt x _ hx) (by omega)⟩) (by decide) (List.Perm.swap _ _ _) rfl
    (by simp [hl, hu, lower, upper]) (by
      intro i a b h1 h2
      rcases i with _ | i
      · simp at h1 h2
        subst h1 h2
        show u.fl.inp = l.fl.out
        rw [hl, hu]
        rfl
      · simp at h2)
  have hall : ∀ c ∈ r.cells, c.net.fl.accepted ∧ c.net.fl.sound ∧ LstmLife.Full c.net := by
    rw [hcs]
    simp only [List.mem_cons, List.not_mem_nil, or_false, forall_eq_or_imp, forall_eq]
    exact ⟨⟨by rw [hl]; decide, by rw [hl]; simp [LstmLife.Flags.sound, lower], fl⟩, by rw [hu]; decide, by rw [hu]; simp [LstmLife.Flags.sound, upper], fu⟩
  obtain ⟨m4, c, e1, oc, or4, _, _, _, _, _, _, f, _, hnew, _⟩ := C163_copy_partial (0, 0, 0) m3 r (fun _ => (fun _ _ _ => 0, fun _ => 0)) or sr
    fun c hc => ⟨(hall c hc).1, (hall c hc).2.1⟩
  have hfit : List.Forall₂ CellFit r.cells c.cells := f.imp fun x y h => ⟨h.full, by rw [h.same.2.1], by rw [h.same.2.1], by rw [h.same.2.1], by rw [h.same.2.1],
    fun hg => ⟨by rw [h.same.2.1]; exact hg, by rw [h.same.2.1]⟩⟩
  obtain ⟨m5, d, e2, od, _, _, _, _, _, _, ln, _, _, ps⟩ := C163_paste_partial m4 r c or4 oc (fun a h1 h2 => by
    have := (or.live h1).1
    have := hnew a h2
    omega) hfit
  have hd : ∀ z ∈ d.cells, LstmLife.Full z.net ∧ z.net.fl.sound := by
    intro z hz
    obtain ⟨i, hi⟩ := List.getElem?_of_mem hz
    have h1 : i < d.cells.length := (List.getElem?_eq_some_iff.1 hi).1
    have h2 : i < c.cells.length := by omega
    have h3 : i < r.cells.length := by rw [f.length_eq]; exact h2
    have hp := (ps i _ _ z (List.getElem?_eq_getElem h3) (List.getElem?_eq_getElem h2) hi).same
    have hc := f.get h3 h2
    simp only [List.get_eq_getElem] at hc
    refine ⟨fun x hx => ?_, ?_⟩
    · rw [hp.2.2.1]
      exact hc.full x (hp.2.1 ▸ hx)
    · rw [hp.2.1, hc.same.2.1]
      exact (hall _ (List.getElem_mem h3)).2.1
  obtain ⟨m6, e3, o6, _⟩ := C163_reset_partial ⟨fun _ _ _ => 0, fun _ _ _ _ => true⟩ m5 d od hd
  obtain ⟨m7, e4, _⟩ := C163_free m6 d o6
  have hus : ∀ c ∈ r.cells, LstmLife.Usable c.net := fun c hc => (hall c hc).2.2.usable
  obtain ⟨m8, s, e5, os, _, _, _, _, _, _, us, _⟩ := C163_strip m3 r or hus
  obtain ⟨m8', s', e5', e6⟩ := C163_stripped_refuted ⟨fun _ _ _ => 0, fun _ _ _ _ => true⟩ m3 r or hus ⟨0, l⟩ (by rw [hcs]; simp) (by rw [hl]; decide) (by rw [hl]; rfl)
  rw [e5] at e5'
  obtain ⟨rfl, rfl⟩ := Prod.mk.inj (Option.some.inj e5')
  obtain ⟨m9, e7, _⟩ := C163_reset_ff m8 s os us
  exact ⟨m3, r, or, sr, by rw [hcs]; rfl, hall, m4, c, m5, d, m6, d, m7, e1, e2, e3, e4, m8, s, e5, e6, m9, e7⟩

end LLab.RmodelLife
