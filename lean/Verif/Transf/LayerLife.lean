import Verif.RL.DdpgLife

/-!
Property C181: the life of the encoders and decoders of transformers: `transformer_encoder_layer`, `free_transformer_encoder_layer`,
`free_transformer_wrapped_encoder_layer`, `copy_transformer_encoder` (`/repo/src/transformer_encoder.c` 54-191, 198-238, 290-325, 576-598),
`transformer_decoder_layer`, `free_transformer_decoder_layer` and `copy_transformer_decoder` (`/repo/src/transformer_decoder.c` 58-133, 143-179, 477-500).

The memory is that of `Verif.Aco.NodeLife`. A network or normalisation layer is one block with contents, which its copy makes with the same contents
and its `free` function frees. The contents of the buffers are left out. A flag is set or not. The checks that normalisation layers have the size of what
they normalise are left out, since a copy has the sizes of the original. `none` is undefined behaviour or the end of the program with an error.
-/

namespace LLab.Transf.LayerLife

open LLab.Aco.NodeLife LLab.RL.DdpgLife

/-! ### Model -/

/-- A network or a normalisation layer: its block and its contents. -/
structure M (γ : Type) where
  adr : Nat
  c : γ

/-- `copy_model`, `copy_scaled_l2_norm`. -/
def copyM {γ : Type} (m : M γ) (h : Heap) : Heap × M γ := (h.alloc, ⟨h.next, m.c⟩)

/-- The loop over the normalisation layers (`/repo/src/transformer_encoder.c` 592-594, `/repo/src/transformer_decoder.c` 493-495). -/
def copyNorms {γ : Type} : List (M γ) → Heap → Heap × List (M γ)
  | [], h => (h, [])
  | m :: ms, h => let a := copyM m h
    let r := copyNorms ms a.1
    (r.1, a.2 :: r.2)

/-- The loop over the heads, each with its queries, keys and values (`/repo/src/transformer_encoder.c` 584-588,
`/repo/src/transformer_decoder.c` 485-489). -/
def copyHeads {γ : Type} : List (M γ × M γ × M γ) → Heap → Heap × List (M γ × M γ × M γ)
  | [], h => (h, [])
  | x :: xs, h => let a := copyM x.1 h
    let b := copyM x.2.1 a.1
    let c := copyM x.2.2 b.1
    let r := copyHeads xs c.1
    (r.1, (a.2, b.2, c.2) :: r.2)

/-- `input_dimension`, `attention_flag` and the two sizes of the embedding. -/
structure Cfg where
  input : Nat
  att : Nat
  k : Nat
  v : Nat

/-- `transformer_encoder` (`/repo/src/llab.h`). `arrs` are the blocks of the arrays `q`, `k` and `v`, `off` the place in them where those of the
encoder start, 0 unless it is inside a decoder; `heads` are its heads, `norms` its normalisation layers, in the array `l2` unless it is null;
`errs` are `q_error`, `k_error`, `v_error`, `bufs` the six buffers allocated after them, `r1` and `r2` the buffers of the residual connections. -/
structure Enc (γ : Type) where
  adr : Nat
  arrs : Nat × Nat × Nat
  off : Nat
  heads : List (M γ × M γ × M γ)
  m : M γ
  lin : M γ
  l2 : Option Nat
  norms : List (M γ)
  norm1 : Bool
  norm2 : Bool
  res1 : Bool
  res2 : Bool
  cfg : Cfg
  errs : List Nat
  bufs : List Nat
  r1 : List Nat
  r2 : List Nat

/-- `n_l2` of an encoder (`/repo/src/transformer_encoder.c` 121-130). -/
def nl2 (norm1 norm2 : Bool) : Nat := (if norm1 then 1 else 0) + (if norm2 then 1 else 0)

/-- `transformer_encoder_layer` (`/repo/src/transformer_encoder.c` 54-191) with arrays and networks that are not null; `l2` is the array of the
normalisation layers, `norms` what it holds from the place on that was passed, `l2Null` whether that place is null. -/
def encLayer {γ : Type} (arrs : Nat × Nat × Nat) (off : Nat) (heads : List (M γ × M γ × M γ)) (m lin : M γ) (l2 : Option Nat) (l2Null : Bool) (norms : List (M γ))
    (cfg : Cfg) (res1 norm1 res2 norm2 : Bool) (h : Heap) : Option (Heap × Enc γ) :=
  if l2Null = true ∧ (norm1 = true ∨ norm2 = true) then none
  else if l2Null = false ∧ norm1 = false ∧ norm2 = false then none
  else if cfg.input = 0 ∨ heads.length = 0 ∨ cfg.k = 0 ∨ cfg.v = 0 then none
  else if cfg.input % heads.length ≠ 0 then none
  else if norms.length < nl2 norm1 norm2 then none
  else
    let a := allocs 3 h.alloc
    let b := allocs 6 a.1
    let c := allocs (if res1 then 2 else 0) b.1
    let d := allocs (if res2 then 2 else 0) c.1
    some (d.1, ⟨h.next, arrs, off, heads, m, lin, l2, norms.take (nl2 norm1 norm2), norm1, norm2, res1, res2, cfg, a.2, b.2, c.2, d.2⟩)

/-- The heads freed in the order of the loop (`/repo/src/transformer_encoder.c` 202-206, 294-298, `/repo/src/transformer_decoder.c` 148-152). -/
def headBlocks {γ : Type} (hs : List (M γ × M γ × M γ)) : List Nat := hs.flatMap fun x => [x.1.adr, x.2.1.adr, x.2.2.adr]

/-- What `free_transformer_wrapped_encoder_layer` frees after the heads and buffers of errors (`/repo/src/transformer_encoder.c` 302-321); between
the normalisation layers and the buffers `free_transformer_encoder_layer` frees their array (219-235), which is `mid`. -/
def tailBlocks {γ : Type} (mid : List Nat) (t : Enc γ) : List Nat :=
  t.m.adr :: t.lin.adr :: (t.norms.map M.adr ++ (mid ++ (t.bufs ++ ((if t.res1 then t.r1 else []) ++ ((if t.res2 then t.r2 else []) ++ [t.adr])))))

/-- `free_transformer_encoder_layer` (`/repo/src/transformer_encoder.c` 198-238); an address inside of a block cannot be freed. -/
def freeEnc {γ : Type} (t : Enc γ) (h : Heap) : Option Heap :=
  if t.off ≠ 0 then none
  else freeList (headBlocks t.heads ++ ([t.arrs.1, t.arrs.2.1, t.arrs.2.2] ++ (t.errs ++ tailBlocks t.l2.toList t))) h

/-- What `free_transformer_wrapped_encoder_layer` frees, in order (`/repo/src/transformer_encoder.c` 290-325). -/
def wrappedBlocks {γ : Type} (t : Enc γ) : List Nat := headBlocks t.heads ++ (t.errs ++ tailBlocks [] t)

/-- `copy_transformer_encoder` (`/repo/src/transformer_encoder.c` 576-598). -/
def copyEnc {γ : Type} (t : Enc γ) (h : Heap) : Option (Heap × Enc γ) :=
  let a := copyHeads t.heads h.alloc.alloc.alloc
  let b : Heap × Option Nat := if nl2 t.norm1 t.norm2 ≠ 0 then (a.1.alloc, some a.1.next) else (a.1, none)
  let c := copyNorms t.norms b.1
  let m := copyM t.m c.1
  let l := copyM t.lin m.1
  encLayer (h.next, h.alloc.next, h.alloc.alloc.next) 0 a.2 m.2 l.2 b.2 b.2.isNone c.2 t.cfg t.res1 t.norm1 t.res2 t.norm2 l.1

/-- `transformer_decoder` (`/repo/src/llab.h`). `heads` are the first `n_head` heads in the arrays, `norms` the layer after the first attention, if any;
the heads and normalisation layers that follow in the arrays are those of the encoder `e`. `bufs` are the ten buffers. -/
structure Dec (γ : Type) where
  adr : Nat
  arrs : Nat × Nat × Nat
  heads : List (M γ × M γ × M γ)
  lin : M γ
  l2 : Option Nat
  norms : List (M γ)
  norm : Bool
  res : Bool
  left : Nat
  encInput : Nat
  cfg : Cfg
  bufs : List Nat
  r1 : List Nat
  e : Enc γ

/-- `transformer_decoder_layer` (`/repo/src/transformer_decoder.c` 58-133) with networks that are not null; `n1` is the number of heads of the first
attention, `heads` are those of both. -/
def decLayer {γ : Type} (arrs : Nat × Nat × Nat) (n1 : Nat) (heads : List (M γ × M γ × M γ)) (m lin1 lin2 : M γ) (l2 : Option Nat) (norms : List (M γ))
    (cfg : Cfg) (left encInput encAtt encK encV : Nat) (res1 norm1 res2 norm2 res3 norm3 : Bool) (h : Heap) : Option (Heap × Dec γ) :=
  if n1 = 0 ∨ cfg.input = 0 ∨ encInput = 0 ∨ (heads.drop n1).length = 0 then none
  else if cfg.input % n1 ≠ 0 then none
  else if cfg.input % (n1 * cfg.v) ≠ 0 then none
  else
    let count := if norm1 then 1 else 0
    (encLayer arrs n1 (heads.drop n1) m lin2 l2 (l2.isNone && !norm1) (norms.drop count) ⟨encInput, encAtt, encK, encV⟩ res2 norm2 res3 norm3 h).bind fun e =>
      let b := allocs 10 e.1.alloc
      let c := allocs (if res1 then 2 else 0) b.1
      some (c.1, ⟨e.1.next, arrs, heads.take n1, lin1, l2, norms.take count, norm1, res1, left, encInput, cfg, b.2, c.2, e.2⟩)

/-- `free_transformer_decoder_layer` (`/repo/src/transformer_decoder.c` 143-179). -/
def freeDec {γ : Type} (d : Dec γ) (h : Heap) : Option Heap :=
  freeList (wrappedBlocks d.e ++ (headBlocks d.heads ++ (d.arrs.1 :: d.arrs.2.1 :: d.arrs.2.2 :: d.lin.adr ::
    ((if d.norm then (d.norms.take 1).map M.adr else []) ++ (d.l2.toList ++ (d.bufs ++ ((if d.res then d.r1 else []) ++ [d.adr]))))))) h

/-- `copy_transformer_decoder` (`/repo/src/transformer_decoder.c` 477-500). -/
def copyDec {γ : Type} (t : Dec γ) (h : Heap) : Option (Heap × Dec γ) :=
  let a := copyHeads (t.heads ++ t.e.heads) h.alloc.alloc.alloc
  let b : Heap × Option Nat := if (if t.norm then 1 else 0) ≠ 0 ∨ nl2 t.e.norm1 t.e.norm2 ≠ 0 then (a.1.alloc, some a.1.next) else (a.1, none)
  let c := copyNorms (t.norms ++ t.e.norms) b.1
  let m := copyM t.e.m c.1
  let mm := copyM t.e.lin m.1
  let l := copyM t.lin mm.1
  decLayer (h.next, h.alloc.next, h.alloc.alloc.next) t.heads.length a.2 m.2 l.2 mm.2 b.2 c.2 t.cfg t.left t.encInput t.e.cfg.att t.e.cfg.k t.e.cfg.v
    t.res t.norm t.e.res1 t.e.norm1 t.e.res2 t.e.norm2 l.1

/-! ### Specification -/

/-- The blocks an encoder has for itself, also inside a decoder. -/
def ownParts {γ : Type} (t : Enc γ) : List Nat :=
  t.adr :: t.m.adr :: t.lin.adr :: (t.errs ++ (t.bufs ++ (t.r1 ++ (t.r2 ++ (t.norms.map M.adr ++
    (t.heads.map (fun x => x.1.adr) ++ (t.heads.map (fun x => x.2.1.adr) ++ t.heads.map fun x => x.2.2.adr)))))))

/-- All blocks of an encoder. -/
def encOwned {γ : Type} (t : Enc γ) : List Nat := t.arrs.1 :: t.arrs.2.1 :: t.arrs.2.2 :: (t.l2.toList ++ ownParts t)

/-- All blocks of a decoder. -/
def decOwned {γ : Type} (d : Dec γ) : List Nat :=
  d.adr :: d.lin.adr :: d.arrs.1 :: d.arrs.2.1 :: d.arrs.2.2 :: (d.l2.toList ++ (d.bufs ++ (d.r1 ++ (d.norms.map M.adr ++
    (d.heads.map (fun x => x.1.adr) ++ (d.heads.map (fun x => x.2.1.adr) ++ (d.heads.map (fun x => x.2.2.adr) ++ ownParts d.e)))))))

/-- What an encoder is, without addresses. -/
def encLook {γ : Type} (t : Enc γ) : List (γ × γ × γ) × γ × γ × List γ × (Bool × Bool × Bool × Bool) × Cfg :=
  (t.heads.map fun x => (x.1.c, x.2.1.c, x.2.2.c), t.m.c, t.lin.c, t.norms.map M.c, (t.res1, t.norm1, t.res2, t.norm2), t.cfg)

/-- What a decoder is, without addresses. -/
def decLook {γ : Type} (d : Dec γ) :=
  (d.heads.map (fun x => (x.1.c, x.2.1.c, x.2.2.c)), d.lin.c, d.norms.map M.c, d.res, d.norm, d.left, d.cfg, encLook d.e)

/-- An encoder as the constructor makes them. -/
structure EncOk {γ : Type} (t : Enc γ) : Prop where
  input : t.cfg.input ≠ 0
  heads : t.heads.length ≠ 0
  k : t.cfg.k ≠ 0
  v : t.cfg.v ≠ 0
  div : t.cfg.input % t.heads.length = 0
  norms : t.norms.length = nl2 t.norm1 t.norm2
  r1 : t.res1 = false → t.r1 = []
  r2 : t.res2 = false → t.r2 = []

/-- A decoder as the constructor makes them. -/
structure DecOk {γ : Type} (d : Dec γ) : Prop where
  e : EncOk d.e
  input : d.cfg.input ≠ 0
  heads : d.heads.length ≠ 0
  div : d.cfg.input % d.heads.length = 0
  divv : d.cfg.input % (d.heads.length * d.cfg.v) = 0
  norms : d.norms.length = if d.norm then 1 else 0
  enc : d.encInput = d.e.cfg.input
  single : d.norm = true → d.e.norm1 = true ∨ d.e.norm2 = true
  r1 : d.res = false → d.r1 = []

/-- Blocks that are distinct and live. -/
def Alive (l : List Nat) (h : Heap) : Prop := l.Nodup ∧ ∀ q ∈ l, h.live q = true

/-! ### Lemmas -/

theorem copyNorms_spec {γ : Type} : ∀ (l : List (M γ)) (h : Heap), Grow h (copyNorms l h).1 ((copyNorms l h).2.map M.adr) ∧
    (copyNorms l h).2.map M.c = l.map M.c
  | [], h => ⟨grow_refl h, rfl⟩
  | m :: l, h => ⟨(grow_alloc h).trans (copyNorms_spec l h.alloc).1, congrArg (m.c :: ·) (copyNorms_spec l h.alloc).2⟩

theorem copyHeads_spec {γ : Type} : ∀ (l : List (M γ × M γ × M γ)) (h : Heap), Grow h (copyHeads l h).1 (headBlocks (copyHeads l h).2) ∧
    ((copyHeads l h).2.map fun x => (x.1.c, x.2.1.c, x.2.2.c)) = l.map fun x => (x.1.c, x.2.1.c, x.2.2.c)
  | [], h => ⟨grow_refl h, rfl⟩
  | m :: l, h => ⟨((grow_alloc h).trans ((grow_alloc h.alloc).trans (grow_alloc h.alloc.alloc))).trans (copyHeads_spec l h.alloc.alloc.alloc).1,
      congrArg ((m.1.c, m.2.1.c, m.2.2.c) :: ·) (copyHeads_spec l h.alloc.alloc.alloc).2⟩

theorem count_heads {γ : Type} (z : Nat) (hs : List (M γ × M γ × M γ)) : List.count z (headBlocks hs) =
    List.count z (hs.map fun x => x.1.adr) + List.count z (hs.map fun x => x.2.1.adr) + List.count z (hs.map fun x => x.2.2.adr) := by
  induction hs with
  | nil => rfl
  | cons x xs ih =>
    have : headBlocks (x :: xs) = x.1.adr :: x.2.1.adr :: x.2.2.adr :: headBlocks xs := rfl
    rw [this]
    simp only [List.map_cons, List.count_cons, ih]
    omega

theorem count_res (z : Nat) (b : Bool) (l : List Nat) (h : b = false → l = []) : List.count z (if b then l else []) = List.count z l := by
  cases b with
  | true => rfl
  | false => rw [h rfl]; rfl

theorem count_tail {γ : Type} (z : Nat) (mid : List Nat) (t : Enc γ) (h : EncOk t) :
    List.count z (headBlocks t.heads) + List.count z t.errs + List.count z (tailBlocks mid t) = List.count z mid + List.count z (ownParts t) := by
  unfold tailBlocks ownParts
  simp only [List.count_append, List.count_cons, List.count_nil, count_res z _ _ h.r1, count_res z _ _ h.r2, count_heads]
  omega

theorem enc_perm {γ : Type} (t : Enc γ) (h : EncOk t) :
    (headBlocks t.heads ++ ([t.arrs.1, t.arrs.2.1, t.arrs.2.2] ++ (t.errs ++ tailBlocks t.l2.toList t))).Perm (encOwned t) := by
  refine List.perm_iff_count.mpr fun z => ?_
  have := count_tail z t.l2.toList t h
  unfold encOwned
  simp only [List.count_append, List.count_cons, List.count_nil]
  omega

theorem dec_perm {γ : Type} (d : Dec γ) (h : DecOk d) :
    (wrappedBlocks d.e ++ (headBlocks d.heads ++ (d.arrs.1 :: d.arrs.2.1 :: d.arrs.2.2 :: d.lin.adr ::
      ((if d.norm then (d.norms.take 1).map M.adr else []) ++ (d.l2.toList ++ (d.bufs ++ ((if d.res then d.r1 else []) ++ [d.adr]))))))).Perm (decOwned d) := by
  refine List.perm_iff_count.mpr fun z => ?_
  have ht := count_tail z [] d.e h.e
  have hn : (if d.norm then (d.norms.take 1).map M.adr else []) = d.norms.map M.adr := by
    have := h.norms
    split at this
    · rw [List.take_of_length_le (by omega)]; simp [*]
    · rw [List.length_eq_zero_iff.mp this]; simp
  unfold decOwned wrappedBlocks
  rw [hn]
  simp only [List.count_append, List.count_cons, List.count_nil, count_res z _ _ h.r1, count_heads] at ht ⊢
  omega

theorem free_enc {γ : Type} (t : Enc γ) (h : EncOk t) (ho : t.off = 0) (k : Heap) (ha : Alive (encOwned t) k) :
    ∃ k', freeEnc t k = some k' ∧ ∀ q, k'.live q = true ↔ k.live q = true ∧ q ∉ encOwned t := by
  have hp := enc_perm t h
  obtain ⟨k', e, _, hq⟩ := freeList_spec _ k (hp.nodup_iff.mpr ha.1) (fun q hm => ha.2 q (hp.mem_iff.mp hm))
  refine ⟨k', ?_, fun q => by rw [hq q, hp.mem_iff]⟩
  unfold freeEnc
  rw [if_neg (by simp [ho])]
  exact e

theorem free_dec {γ : Type} (t : Dec γ) (h : DecOk t) (k : Heap) (ha : Alive (decOwned t) k) :
    ∃ k', freeDec t k = some k' ∧ ∀ q, k'.live q = true ↔ k.live q = true ∧ q ∉ decOwned t := by
  have hp := dec_perm t h
  obtain ⟨k', e, _, hq⟩ := freeList_spec _ k (hp.nodup_iff.mpr ha.1) (fun q hm => ha.2 q (hp.mem_iff.mp hm))
  exact ⟨k', e, fun q => by rw [hq q, hp.mem_iff]⟩

/-- What the constructor of encoders returns. -/
theorem encLayer_spec {γ : Type} (arrs : Nat × Nat × Nat) (off : Nat) (heads : List (M γ × M γ × M γ)) (m lin : M γ) (l2 : Option Nat) (l2Null : Bool)
    (norms : List (M γ)) (cfg : Cfg) (res1 norm1 res2 norm2 : Bool) (h h' : Heap) (t : Enc γ)
    (he : encLayer arrs off heads m lin l2 l2Null norms cfg res1 norm1 res2 norm2 h = some (h', t)) :
    EncOk t ∧ Grow h h' (t.adr :: (t.errs ++ (t.bufs ++ (t.r1 ++ t.r2)))) ∧ t.arrs = arrs ∧ t.off = off ∧ t.heads = heads ∧ t.m = m ∧ t.lin = lin ∧ t.l2 = l2 ∧
      t.norms = norms.take (nl2 norm1 norm2) ∧ (t.res1, t.norm1, t.res2, t.norm2) = (res1, norm1, res2, norm2) ∧ t.cfg = cfg ∧
      (l2Null = !(norm1 || norm2)) := by
  unfold encLayer at he
  split at he
  · cases he
  rename_i c0
  split at he
  · cases he
  rename_i c1
  split at he
  · cases he
  rename_i c2
  split at he
  · cases he
  rename_i c3
  split at he
  · cases he
  rename_i c4
  cases he
  simp only [not_or] at c2
  refine ⟨⟨c2.1, c2.2.1, c2.2.2.1, c2.2.2.2, by simpa using c3, ?_, ?_, ?_⟩, ?_, rfl, rfl, rfl, rfl, rfl, rfl, rfl, rfl, rfl, ?_⟩
  · show (norms.take (nl2 norm1 norm2)).length = nl2 norm1 norm2
    rw [List.length_take]; omega
  · intro hr
    dsimp only at hr ⊢
    subst hr; rfl
  · intro hr
    dsimp only at hr ⊢
    subst hr; rfl
  · exact (grow_alloc h).trans ((grow_allocs 3 _).1.trans ((grow_allocs 6 _).1.trans ((grow_allocs _ _).1.trans (grow_allocs _ _).1)))
  · cases l2Null <;> cases norm1 <;> cases norm2 <;> simp at c0 c1 ⊢

/-- When the constructor of encoders returns. -/
theorem encLayer_some {γ : Type} (arrs : Nat × Nat × Nat) (off : Nat) (heads : List (M γ × M γ × M γ)) (m lin : M γ) (l2 : Option Nat) (l2Null : Bool)
    (norms : List (M γ)) (cfg : Cfg) (res1 norm1 res2 norm2 : Bool) (h : Heap) (h1 : l2Null = !(norm1 || norm2))
    (h2 : cfg.input ≠ 0 ∧ heads.length ≠ 0 ∧ cfg.k ≠ 0 ∧ cfg.v ≠ 0) (h3 : cfg.input % heads.length = 0) (h4 : norms.length = nl2 norm1 norm2) :
    ∃ h' t, encLayer arrs off heads m lin l2 l2Null norms cfg res1 norm1 res2 norm2 h = some (h', t) := by
  unfold encLayer
  rw [if_neg (by rw [h1]; cases norm1 <;> cases norm2 <;> simp), if_neg (by rw [h1]; cases norm1 <;> cases norm2 <;> simp), if_neg (by simp [h2]), if_neg (by simp [h3]), if_neg (by omega)]
  exact ⟨_, _, rfl⟩

theorem len_heads {γ : Type} {a b : List (M γ × M γ × M γ)} (h : (a.map fun x => (x.1.c, x.2.1.c, x.2.2.c)) = b.map fun x => (x.1.c, x.2.1.c, x.2.2.c)) :
    a.length = b.length := by simpa using congrArg List.length h

theorem len_norms {γ : Type} {a b : List (M γ)} (h : a.map M.c = b.map M.c) : a.length = b.length := by simpa using congrArg List.length h

theorem copy_enc {γ : Type} (t : Enc γ) (ok : EncOk t) (h : Heap) :
    ∃ h' t', copyEnc t h = some (h', t') ∧ EncOk t' ∧ t'.off = 0 ∧ Grow h h' (encOwned t') ∧ encLook t' = encLook t := by
  obtain ⟨ga, la⟩ := copyHeads_spec t.heads h.alloc.alloc.alloc
  generalize hA : copyHeads t.heads h.alloc.alloc.alloc = a at ga la
  obtain ⟨b, hb, gb, hl2⟩ : ∃ b : Heap × Option Nat, (if nl2 t.norm1 t.norm2 ≠ 0 then (a.1.alloc, some a.1.next) else (a.1, none)) = b ∧
      Grow a.1 b.1 b.2.toList ∧ (b.2.isNone = !(t.norm1 || t.norm2)) := by
    by_cases hn : nl2 t.norm1 t.norm2 ≠ 0
    · rw [if_pos hn]
      refine ⟨_, rfl, grow_alloc _, ?_⟩
      cases h1 : t.norm1 <;> cases h2 : t.norm2 <;> simp [h1, h2, nl2] at hn ⊢
    · rw [if_neg hn]
      refine ⟨_, rfl, grow_refl _, ?_⟩
      cases h1 : t.norm1 <;> cases h2 : t.norm2 <;> simp [h1, h2, nl2] at hn ⊢
  obtain ⟨gc, lc⟩ := copyNorms_spec t.norms b.1
  generalize hC : copyNorms t.norms b.1 = c at gc lc
  have hlen := len_heads la
  obtain ⟨h', t', e⟩ := encLayer_some (h.next, h.alloc.next, h.alloc.alloc.next) 0 a.2 ⟨c.1.next, t.m.c⟩ ⟨c.1.alloc.next, t.lin.c⟩ b.2 b.2.isNone c.2 t.cfg t.res1 t.norm1 t.res2
    t.norm2 c.1.alloc.alloc hl2 ⟨ok.input, by rw [hlen]; exact ok.heads, ok.k, ok.v⟩ (by rw [hlen]; exact ok.div) (by rw [len_norms lc]; exact ok.norms)
  obtain ⟨ok', gr, ea, eo, eh, em, el, e2, en, ef, ec, _⟩ := encLayer_spec _ _ _ _ _ _ _ _ _ _ _ _ _ _ _ _ e
  refine ⟨h', t', ?_, ok', eo, ?_, ?_⟩
  · unfold copyEnc
    dsimp only
    rw [hA, hb, hC]
    exact e
  · have g := (grow_alloc h).trans ((grow_alloc _).trans ((grow_alloc _).trans (ga.trans (gb.trans (gc.trans ((grow_alloc _).trans ((grow_alloc _).trans gr)))))))
    refine g.perm ?_
    refine List.perm_iff_count.mpr fun z => ?_
    have hnn : t'.norms = c.2 := by rw [en, List.take_of_length_le (Nat.le_of_eq (by rw [len_norms lc, ok.norms]))]
    unfold encOwned ownParts
    rw [ea, e2, em, el, hnn, eh]
    simp only [List.count_append, List.count_cons, List.count_nil, count_heads, Heap.alloc]
    omega
  · unfold encLook
    rw [eh, em, el, en, ef, ec, List.take_of_length_le (Nat.le_of_eq (by rw [len_norms lc, ok.norms])), la, lc]

/-- What the constructor of decoders returns. -/
theorem decLayer_spec {γ : Type} (arrs : Nat × Nat × Nat) (n1 : Nat) (heads : List (M γ × M γ × M γ)) (m lin1 lin2 : M γ) (l2 : Option Nat) (norms : List (M γ))
    (cfg : Cfg) (left encInput encAtt encK encV : Nat) (res1 norm1 res2 norm2 res3 norm3 : Bool) (h h' : Heap) (d : Dec γ)
    (he : decLayer arrs n1 heads m lin1 lin2 l2 norms cfg left encInput encAtt encK encV res1 norm1 res2 norm2 res3 norm3 h = some (h', d))
    (hn : norms.length = (if norm1 then 1 else 0) + nl2 norm2 norm3) :
    DecOk d ∧ Grow h h' (d.adr :: (d.bufs ++ (d.r1 ++ (d.e.adr :: (d.e.errs ++ (d.e.bufs ++ (d.e.r1 ++ d.e.r2))))))) ∧ d.arrs = arrs ∧ d.heads = heads.take n1 ∧
      d.e.heads = heads.drop n1 ∧ d.lin = lin1 ∧ d.e.m = m ∧ d.e.lin = lin2 ∧ d.l2 = l2 ∧ d.norms = norms.take (if norm1 then 1 else 0) ∧
      d.e.norms = norms.drop (if norm1 then 1 else 0) ∧ d.res = res1 ∧ d.norm = norm1 ∧ d.left = left ∧ d.cfg = cfg ∧
      (d.e.res1, d.e.norm1, d.e.res2, d.e.norm2) = (res2, norm2, res3, norm3) ∧ d.e.cfg = ⟨encInput, encAtt, encK, encV⟩ := by
  unfold decLayer at he
  split at he
  · cases he
  rename_i c1
  split at he
  · cases he
  rename_i c2
  split at he
  · cases he
  rename_i c3
  obtain ⟨⟨k, e⟩, hE, he⟩ := Option.bind_eq_some_iff.mp he
  obtain ⟨ok', gr, ea, eo, eh, em, el, e2, en, ef, ec, el2⟩ := encLayer_spec _ _ _ _ _ _ _ _ _ _ _ _ _ _ _ _ hE
  cases he
  simp only [not_or] at c1
  have hlen : (heads.take n1).length = n1 := by
    have := c1.2.2.2
    rw [List.length_drop] at this
    rw [List.length_take]; omega
  have hf1 : e.norm1 = norm2 := congrArg (fun x => x.2.1) ef
  have hf2 : e.norm2 = norm3 := congrArg (fun x => x.2.2.2) ef
  refine ⟨⟨ok', c1.2.1, ?_, ?_, ?_, ?_, ?_, ?_, ?_⟩, ?_, rfl, rfl, eh, rfl, em, el, rfl, rfl, ?_, rfl, rfl, rfl, rfl, ef, ec⟩
  · show (heads.take n1).length ≠ 0
    rw [hlen]; exact c1.1
  · show cfg.input % (heads.take n1).length = 0
    rw [hlen]; simpa using c2
  · show cfg.input % ((heads.take n1).length * cfg.v) = 0
    rw [hlen]; simpa using c3
  · show (norms.take _).length = if norm1 then 1 else 0
    rw [List.length_take]; omega
  · show encInput = e.cfg.input
    rw [ec]
  · intro hx
    show e.norm1 = true ∨ e.norm2 = true
    rw [hf1, hf2]
    have hx : norm1 = true := hx
    rw [hx] at el2
    cases norm2 <;> cases norm3 <;> simp at el2 ⊢
  · intro hx
    have hx : res1 = false := hx
    subst hx; rfl
  · have g := gr.trans ((grow_alloc k).trans ((grow_allocs 10 _).1.trans (grow_allocs (if res1 then 2 else 0) _).1))
    refine g.perm ?_
    refine List.perm_iff_count.mpr fun z => ?_
    simp only [List.count_append, List.count_cons, List.count_nil]
    omega
  · show e.norms = _
    rw [en]
    exact List.take_of_length_le (by rw [List.length_drop]; omega)

theorem copy_dec {γ : Type} (t : Dec γ) (ok : DecOk t) (h : Heap) :
    ∃ h' t', copyDec t h = some (h', t') ∧ DecOk t' ∧ Grow h h' (decOwned t') ∧ decLook t' = decLook t := by
  obtain ⟨ga, la⟩ := copyHeads_spec (t.heads ++ t.e.heads) h.alloc.alloc.alloc
  generalize hA : copyHeads (t.heads ++ t.e.heads) h.alloc.alloc.alloc = a at ga la
  obtain ⟨b, hb, gb, hl2⟩ : ∃ b : Heap × Option Nat, (if (if t.norm then 1 else 0) ≠ 0 ∨ nl2 t.e.norm1 t.e.norm2 ≠ 0 then (a.1.alloc, some a.1.next) else (a.1, none)) = b ∧
      Grow a.1 b.1 b.2.toList ∧ ((b.2.isNone && !t.norm) = !(t.e.norm1 || t.e.norm2)) := by
    by_cases hn : (if t.norm then 1 else 0) ≠ 0 ∨ nl2 t.e.norm1 t.e.norm2 ≠ 0
    · rw [if_pos hn]
      refine ⟨_, rfl, grow_alloc _, ?_⟩
      by_cases hx : t.norm = true
      · rcases ok.single hx with c | c <;> simp [c]
      · cases h1 : t.e.norm1 <;> cases h2 : t.e.norm2 <;> simp [h1, h2, nl2, hx] at hn ⊢
    · rw [if_neg hn]
      refine ⟨_, rfl, grow_refl _, ?_⟩
      cases hx : t.norm
      · cases h1 : t.e.norm1 <;> cases h2 : t.e.norm2 <;> simp [h1, h2, nl2, hx] at hn ⊢
      · simp [hx] at hn
  obtain ⟨gc, lc⟩ := copyNorms_spec (t.norms ++ t.e.norms) b.1
  generalize hC : copyNorms (t.norms ++ t.e.norms) b.1 = c at gc lc
  have hlen := len_heads la
  rw [List.length_append] at hlen
  have hnl := len_norms lc
  rw [List.length_append, ok.norms, ok.e.norms] at hnl
  have hdl : (a.2.drop t.heads.length).length = t.e.heads.length := by rw [List.length_drop]; omega
  obtain ⟨k, e, hE⟩ := encLayer_some (h.next, h.alloc.next, h.alloc.alloc.next) t.heads.length (a.2.drop t.heads.length) ⟨c.1.next, t.e.m.c⟩ ⟨c.1.alloc.next, t.e.lin.c⟩ b.2
    (b.2.isNone && !t.norm) (c.2.drop (if t.norm then 1 else 0)) ⟨t.encInput, t.e.cfg.att, t.e.cfg.k, t.e.cfg.v⟩ t.e.res1 t.e.norm1 t.e.res2 t.e.norm2 c.1.alloc.alloc.alloc
    hl2 ⟨by rw [ok.enc]; exact ok.e.input, by rw [hdl]; exact ok.e.heads, ok.e.k, ok.e.v⟩ (by rw [hdl, ok.enc]; exact ok.e.div)
    (by rw [List.length_drop]; omega)
  obtain ⟨h', t', e⟩ : ∃ h' t', decLayer (h.next, h.alloc.next, h.alloc.alloc.next) t.heads.length a.2 ⟨c.1.next, t.e.m.c⟩ ⟨c.1.alloc.alloc.next, t.lin.c⟩ ⟨c.1.alloc.next, t.e.lin.c⟩ b.2 c.2
      t.cfg t.left t.encInput t.e.cfg.att t.e.cfg.k t.e.cfg.v t.res t.norm t.e.res1 t.e.norm1 t.e.res2 t.e.norm2 c.1.alloc.alloc.alloc = some (h', t') := by
    unfold decLayer
    rw [if_neg (by simp only [not_or]; exact ⟨ok.heads, ok.input, by rw [ok.enc]; exact ok.e.input, by rw [hdl]; exact ok.e.heads⟩), if_neg (by simp [ok.div]),
      if_neg (by simp [ok.divv])]
    dsimp only
    rw [hE]
    exact ⟨_, _, rfl⟩
  obtain ⟨ok', gr, ea, eh, eeh, el, em, eel, e2, en, een, er, eno, ele, ec, ef, eec⟩ := decLayer_spec _ _ _ _ _ _ _ _ _ _ _ _ _ _ _ _ _ _ _ _ _ _ _ e hnl
  refine ⟨h', t', ?_, ok', ?_, ?_⟩
  · unfold copyDec
    dsimp only
    rw [hA, hb, hC]
    exact e
  · have g := (grow_alloc h).trans ((grow_alloc _).trans ((grow_alloc _).trans (ga.trans (gb.trans (gc.trans ((grow_alloc _).trans ((grow_alloc _).trans
      ((grow_alloc _).trans gr))))))))
    refine g.perm ?_
    refine List.perm_iff_count.mpr fun z => ?_
    have hh : headBlocks a.2 = headBlocks t'.heads ++ headBlocks t'.e.heads := by
      rw [eh, eeh]
      unfold headBlocks
      rw [← List.flatMap_append, List.take_append_drop]
    have hnn : c.2.map M.adr = t'.norms.map M.adr ++ t'.e.norms.map M.adr := by rw [en, een, ← List.map_append, List.take_append_drop]
    rw [hh, hnn]
    unfold decOwned ownParts
    rw [ea, e2, em, el, eel]
    simp only [List.count_append, List.count_cons, List.count_nil, count_heads, Heap.alloc]
    omega
  · have q1 : (t'.heads.map fun x => (x.1.c, x.2.1.c, x.2.2.c)) = t.heads.map fun x => (x.1.c, x.2.1.c, x.2.2.c) := by
      rw [eh, List.map_take, la, List.map_append, List.take_left' (by simp)]
    have q2 : (t'.e.heads.map fun x => (x.1.c, x.2.1.c, x.2.2.c)) = t.e.heads.map fun x => (x.1.c, x.2.1.c, x.2.2.c) := by
      rw [eeh, List.map_drop, la, List.map_append, List.drop_left' (by simp)]
    have q3 : t'.norms.map M.c = t.norms.map M.c := by
      rw [en, List.map_take, lc, List.map_append, List.take_left' (by rw [List.length_map, ok.norms])]
    have q4 : t'.e.norms.map M.c = t.e.norms.map M.c := by
      rw [een, List.map_drop, lc, List.map_append, List.drop_left' (by rw [List.length_map, ok.norms])]
    unfold decLook encLook
    rw [q1, q2, q3, q4, el, em, eel, er, eno, ele, ec, ef, eec, ok.enc]

/-- Two sets of blocks, the second made anew: freed in both orders. -/
theorem two (o o' : List Nat) (f f' : Heap → Option Heap) (h0 h : Heap) (hs : Sane h0) (ha : Alive o h0) (g : Grow h0 h o')
    (hf : ∀ k, Alive o k → ∃ k', f k = some k' ∧ ∀ q, k'.live q = true ↔ k.live q = true ∧ q ∉ o)
    (hf' : ∀ k, Alive o' k → ∃ k', f' k = some k' ∧ ∀ q, k'.live q = true ↔ k.live q = true ∧ q ∉ o') :
    (∃ h1 h2, f' h = some h1 ∧ (∀ q, h1.live q = h0.live q) ∧ f h1 = some h2 ∧ ∀ q, h2.live q = true ↔ h0.live q = true ∧ q ∉ o) ∧
    ∃ h1 h2, f h = some h1 ∧ f' h1 = some h2 ∧ ∀ q, h2.live q = true ↔ h0.live q = true ∧ q ∉ o := by
  have hdis : ∀ q ∈ o', h0.live q ≠ true := fun q hq hl => by
    have := hs q hl
    have := (g.fresh q hq).1
    omega
  have hb : ∀ {a b : Bool}, (a = true ↔ b = true) → a = b := by
    intro a b
    cases a <;> cases b <;> simp
  constructor
  · obtain ⟨h1, e1, q1⟩ := hf' h ⟨g.nodup, fun q hq => (g.live q).mpr (Or.inr hq)⟩
    have same : ∀ q, h1.live q = true ↔ h0.live q = true := fun q => by
      rw [q1 q, g.live q]
      constructor
      · rintro ⟨c | c, d⟩
        · exact c
        · exact absurd c d
      · exact fun c => ⟨Or.inl c, fun hm => hdis q hm c⟩
    obtain ⟨h2, e2, q2⟩ := hf h1 ⟨ha.1, fun q hq => (same q).mpr (ha.2 q hq)⟩
    exact ⟨h1, h2, e1, fun q => hb (same q), e2, fun q => by rw [q2 q, same q]⟩
  · obtain ⟨h1, e1, q1⟩ := hf h ⟨ha.1, fun q hq => (g.live q).mpr (Or.inl (ha.2 q hq))⟩
    obtain ⟨h2, e2, q2⟩ := hf' h1 ⟨g.nodup, fun q hq => (q1 q).mpr ⟨(g.live q).mpr (Or.inr hq), fun hm => hdis q hq (ha.2 q hm)⟩⟩
    refine ⟨h1, h2, e1, e2, fun q => ?_⟩
    rw [q2 q, q1 q, g.live q]
    constructor
    · rintro ⟨⟨c | c, d⟩, x⟩
      · exact ⟨c, d⟩
      · exact absurd c x
    · rintro ⟨c, d⟩
      exact ⟨⟨Or.inl c, d⟩, fun hm => hdis q hm c⟩

/-- The blocks made anew are none of the old ones. -/
theorem apart (o o' : List Nat) (h0 h : Heap) (hs : Sane h0) (ha : Alive o h0) (g : Grow h0 h o') :
    Alive o' h ∧ Alive o h ∧ ∀ q ∈ o', q ∉ o ∧ h0.live q = false := by
  refine ⟨⟨g.nodup, fun q hq => (g.live q).mpr (Or.inr hq)⟩, ⟨ha.1, fun q hq => (g.live q).mpr (Or.inl (ha.2 q hq))⟩, fun q hq => ?_⟩
  have hdead : h0.live q = false := by
    cases hl : h0.live q
    · rfl
    · have := hs q hl
      have := (g.fresh q hq).1
      omega
  exact ⟨fun x => (by rw [ha.2 q x] at hdead; cases hdead), hdead⟩

/-! ### Theorems -/

/-- What the two constructors return is as the following theorems ask: all encoders, and all decoders given as many normalisation layers as they use. -/
theorem C181_made {γ : Type} (arrs : Nat × Nat × Nat) (n1 : Nat) (heads : List (M γ × M γ × M γ)) (m lin1 lin2 : M γ) (l2 : Option Nat) (norms : List (M γ))
    (cfg : Cfg) (left encInput encAtt encK encV : Nat) (res1 norm1 res2 norm2 res3 norm3 : Bool) (h : Heap) :
    (∀ h' t, encLayer arrs 0 heads m lin1 l2 l2.isNone norms cfg res1 norm1 res2 norm2 h = some (h', t) → EncOk t ∧ t.off = 0) ∧
    (norms.length = (if norm1 then 1 else 0) + nl2 norm2 norm3 →
      ∀ h' d, decLayer arrs n1 heads m lin1 lin2 l2 norms cfg left encInput encAtt encK encV res1 norm1 res2 norm2 res3 norm3 h = some (h', d) → DecOk d) := by
  constructor
  · intro h' t e
    obtain ⟨ok, _, _, o, _⟩ := encLayer_spec _ _ _ _ _ _ _ _ _ _ _ _ _ _ _ _ e
    exact ⟨ok, o⟩
  · intro hn h' d e
    exact (decLayer_spec _ _ _ _ _ _ _ _ _ _ _ _ _ _ _ _ _ _ _ _ _ _ _ e hn).1

/-- An encoder is copied: the copy has the same networks, normalisation layers and settings, in distinct new blocks, and is as constructors make them. -/
theorem C181_encoder_copy {γ : Type} (t : Enc γ) (ok : EncOk t) (h0 : Heap) (hs : Sane h0) (ha : Alive (encOwned t) h0) :
    ∃ h t', copyEnc t h0 = some (h, t') ∧ EncOk t' ∧ t'.off = 0 ∧ encLook t' = encLook t ∧ Alive (encOwned t') h ∧ Alive (encOwned t) h ∧
      ∀ q ∈ encOwned t', q ∉ encOwned t ∧ h0.live q = false := by
  obtain ⟨h, t', e, ok', o, g, l⟩ := copy_enc t ok h0
  exact ⟨h, t', e, ok', o, l, apart _ _ _ _ hs ha g⟩

/-- An encoder and its copy are freed in any order, all blocks of both and no other; freeing the copy first gives the memory as before the copy. -/
theorem C181_encoder_free {γ : Type} (t t' : Enc γ) (ok : EncOk t) (ho : t.off = 0) (h0 h : Heap) (hs : Sane h0) (ha : Alive (encOwned t) h0)
    (hc : copyEnc t h0 = some (h, t')) :
    (∃ h1 h2, freeEnc t' h = some h1 ∧ (∀ q, h1.live q = h0.live q) ∧ freeEnc t h1 = some h2 ∧ ∀ q, h2.live q = true ↔ h0.live q = true ∧ q ∉ encOwned t) ∧
    ∃ h1 h2, freeEnc t h = some h1 ∧ freeEnc t' h1 = some h2 ∧ ∀ q, h2.live q = true ↔ h0.live q = true ∧ q ∉ encOwned t := by
  obtain ⟨k, t1, e, ok', o, g, _⟩ := copy_enc t ok h0
  rw [e] at hc
  cases hc
  exact two _ _ _ _ h0 h hs ha g (free_enc t ok ho) (free_enc t' ok' o)

/-- A decoder is copied, with the encoder inside: the copy has the same networks, normalisation layers and settings, in distinct new blocks, and is as
constructors make them. -/
theorem C181_decoder_copy {γ : Type} (t : Dec γ) (ok : DecOk t) (h0 : Heap) (hs : Sane h0) (ha : Alive (decOwned t) h0) :
    ∃ h t', copyDec t h0 = some (h, t') ∧ DecOk t' ∧ decLook t' = decLook t ∧ Alive (decOwned t') h ∧ Alive (decOwned t) h ∧
      ∀ q ∈ decOwned t', q ∉ decOwned t ∧ h0.live q = false := by
  obtain ⟨h, t', e, ok', g, l⟩ := copy_dec t ok h0
  exact ⟨h, t', e, ok', l, apart _ _ _ _ hs ha g⟩

/-- A decoder and its copy are freed in any order, all blocks of both and no other; freeing the copy first gives the memory as before the copy. -/
theorem C181_decoder_free {γ : Type} (t t' : Dec γ) (ok : DecOk t) (h0 h : Heap) (hs : Sane h0) (ha : Alive (decOwned t) h0) (hc : copyDec t h0 = some (h, t')) :
    (∃ h1 h2, freeDec t' h = some h1 ∧ (∀ q, h1.live q = h0.live q) ∧ freeDec t h1 = some h2 ∧ ∀ q, h2.live q = true ↔ h0.live q = true ∧ q ∉ decOwned t) ∧
    ∃ h1 h2, freeDec t h = some h1 ∧ freeDec t' h1 = some h2 ∧ ∀ q, h2.live q = true ↔ h0.live q = true ∧ q ∉ decOwned t := by
  obtain ⟨k, t1, e, ok', g, _⟩ := copy_dec t ok h0
  rw [e] at hc
  cases hc
  exact two _ _ _ _ h0 h hs ha g (free_dec t ok) (free_dec t' ok')

/-- The encoder inside a decoder cannot be freed as one that stands alone. -/
theorem C181_inside {γ : Type} (arrs : Nat × Nat × Nat) (n1 : Nat) (heads : List (M γ × M γ × M γ)) (m lin1 lin2 : M γ) (l2 : Option Nat) (norms : List (M γ))
    (cfg : Cfg) (left encInput encAtt encK encV : Nat) (res1 norm1 res2 norm2 res3 norm3 : Bool) (h h' : Heap) (d : Dec γ)
    (he : decLayer arrs n1 heads m lin1 lin2 l2 norms cfg left encInput encAtt encK encV res1 norm1 res2 norm2 res3 norm3 h = some (h', d)) :
    ∀ k, freeEnc d.e k = none := by
  intro k
  unfold decLayer at he
  split at he
  · cases he
  rename_i c1
  split at he
  · cases he
  split at he
  · cases he
  obtain ⟨⟨k, e⟩, hE, he⟩ := Option.bind_eq_some_iff.mp he
  obtain ⟨_, _, _, eo, _⟩ := encLayer_spec _ _ _ _ _ _ _ _ _ _ _ _ _ _ _ _ hE
  cases he
  simp only [not_or] at c1
  show freeEnc e _ = none
  unfold freeEnc
  rw [if_pos (by rw [eo]; exact c1.1)]

/-- The hypotheses are met by a decoder with two heads in each attention, all residual connections and all normalisation layers, made by the constructor. -/
example : ∃ (h0 h : Heap) (d : Dec Nat), DecOk d ∧ Sane h ∧ Alive (decOwned d) h ∧ d.e.norms.length = 2 ∧
    decLayer (0, 1, 2) 2 [(⟨3, 30⟩, ⟨4, 40⟩, ⟨5, 50⟩), (⟨6, 60⟩, ⟨7, 70⟩, ⟨8, 80⟩), (⟨9, 90⟩, ⟨10, 100⟩, ⟨11, 110⟩), (⟨12, 120⟩, ⟨13, 130⟩, ⟨14, 140⟩)]
      ⟨15, 150⟩ ⟨16, 160⟩ ⟨17, 170⟩ (some 18) [⟨19, 190⟩, ⟨20, 200⟩, ⟨21, 210⟩] ⟨8, 1, 2, 2⟩ 8 8 0 2 2 true true true true true true h0 = some (h, d) := by
  have key := decLayer_spec (γ := Nat) (0, 1, 2) 2 [(⟨3, 30⟩, ⟨4, 40⟩, ⟨5, 50⟩), (⟨6, 60⟩, ⟨7, 70⟩, ⟨8, 80⟩), (⟨9, 90⟩, ⟨10, 100⟩, ⟨11, 110⟩),
      (⟨12, 120⟩, ⟨13, 130⟩, ⟨14, 140⟩)]
      ⟨15, 150⟩ ⟨16, 160⟩ ⟨17, 170⟩ (some 18) [⟨19, 190⟩, ⟨20, 200⟩, ⟨21, 210⟩] ⟨8, 1, 2, 2⟩ 8 8 0 2 2 true true true true true true
      ⟨22, fun q => decide (q < 22)⟩ _ _ rfl rfl
  have hg := key.2.1
  refine ⟨_, _, _, key.1, ?_, ⟨by decide, ?_⟩, rfl, rfl⟩
  · intro q hq
    rcases (hg.live q).mp hq with c | c
    · have : q < 22 := by simpa using c
      exact Nat.lt_of_lt_of_le this hg.le
    · exact (hg.fresh q c).2
  · decide

end LLab.Transf.LayerLife
