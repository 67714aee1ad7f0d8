import Mathlib.Tactic.Ring
import Mathlib.Tactic.FieldSimp
import Verif.Layers.ModelLife

/-!
The life in memory of networks made of models: variational auto-encoders (`/repo/src/vae_model.c`) and
duelling categorical networks (`/repo/src/dueling_categorical_dqn.c`). Models are those of
`Verif/Layers/ModelLife.lean`. Property C159.
-/

namespace LLab.ModelLife

open FclLife (Mem Fcl Reads Draws)
open ConvLife (Cl)
open Heap

variable {F : Type} [Field F] [LinearOrder F]

/-! ### Model -/

/-- The arrays of a variational auto-encoder outside its models. -/
inductive VFld where
  | z | input | dmean | dstd
deriving DecidableEq

/-- `vaemodel` (`/repo/src/llab_dt.h`). -/
structure VaeNet (F : Type) where
  latent : Nat
  (encoder decoder : Mdl F)
  ptr : VFld → Option Nat

/-- `variational_auto_encoder_model` (`/repo/src/vae_model.c` 39-59); `none`: it ends the program or copying is
undefined. -/
def vaeNet (m : Mem F) (encoder decoder : Mdl F) (latent : Nat) (r : MDraws F × MDraws F) : Option (Mem F × VaeNet F) :=
  if latent ≠ 0 ∧ latent * 2 = encoder.out then do
    let s := buildAll (fun _ => true) (fun _ => ⟨latent, fun _ => 0⟩) [VFld.z, .input, .dmean, .dstd] m
    let (m, e) ← encoder.dup s.1 r.1
    let (m, d) ← decoder.dup m r.2
    some (m, ⟨latent, e, d, s.2⟩)
  else none

/-- `copy_vae_model` (`/repo/src/vae_model.c` 87-90). -/
def VaeNet.dup (m : Mem F) (v : VaeNet F) (r : MDraws F × MDraws F) : Option (Mem F × VaeNet F) := vaeNet m v.encoder v.decoder v.latent r

omit [LinearOrder F] in
/-- `free_vae_model` (`/repo/src/vae_model.c` 68-79) on a network that is not null. The `return` of line 70 has no
semicolon, so that the `free` of `z` belongs to the branch for null. -/
def VaeNet.free (m : Mem F) (v : VaeNet F) : Option (Mem F) := do
  let m ← freeAll v.ptr [.input, .dmean, .dstd] m
  let m ← v.encoder.free m
  v.decoder.free m

/-- The arrays of a duelling network outside its models. -/
inductive DFld where
  | mean | valueError | add | advError | error | soft | softD | support | q
deriving DecidableEq

/-- `dueling_categorical_dqn` (`/repo/src/llab_dt.h`). `models` are `shared_hidden_layers`, `v_hidden_layers`, `a_hidden_layers`,
`v_linear_last_layer` and `a_linear_last_layer`. -/
structure Dqn (F : Type) where
  (input actions atoms : Nat)
  (vmin vmax : F)
  qr : Bool
  models : List (Mdl F)
  ptr : DFld → Option Nat

/-- What the checks of the constructor can see of a model: dimensions, rates and the flags of all layers. -/
structure Shape (F : Type) where
  (layers out : Nat)
  betas : F × F × F
  fcls : List (FclLife.Flags F)
  cls : List ConvLife.Flags
  rls : List (Nat × Nat × Nat × List ConvLife.Flags)

omit [Field F] [LinearOrder F] in
/-- See `Shape`. -/
def Mdl.shape (M : Mdl F) : Shape F :=
  ⟨M.layers, M.out, M.betas, M.fcls.map (·.fl), M.cls.map (·.fl), M.rls.map fun l => (l.channels, l.rows, l.cols, l.cls.map (·.fl))⟩

/-- The sizes of the arrays (`/repo/src/dueling_categorical_dqn.c` 134-142). -/
def dqnSize (actions atoms : Nat) : DFld → Nat
  | .mean | .valueError | .support => atoms
  | .q => actions
  | _ => actions * atoms

/-- What the arrays hold at first: the support (`/repo/src/dueling_categorical_dqn.c` 130, 143-147) and zeros. -/
def dqnFirst (actions atoms : Nat) (vmin vmax : F) (x : DFld) : Arr F :=
  ⟨dqnSize actions atoms x, fun i => if x = .support then if i < atoms - 1 then vmin + i * ((vmax - vmin) / ((atoms - 1 : Nat) : F)) else vmax else 0⟩

/-- `dueling_categorical_dqn_init` (`/repo/src/dueling_categorical_dqn.c` 24-160). `check` are the checks 30-33 and 55-119, which read
only what `Shape` says; `none`: the program ends. -/
def dqnInit (check : Nat → Nat → Nat → List (Shape F) → Bool) (m : Mem F) (input actions atoms : Nat) (vmin vmax : F) (models : List (Mdl F)) :
    Option (Mem F × Dqn F) :=
  if 0 < input ∧ 1 < atoms ∧ 0 < actions ∧ vmin ≤ vmax ∧ check input actions atoms (models.map Mdl.shape) = true then
    let s := buildAll (fun _ => true) (dqnFirst actions atoms vmin vmax) [.mean, .valueError, .add, .advError, .error, .soft, .softD, .support, .q] m
    some (s.1, ⟨input, actions, atoms, vmin, vmax, false, models, s.2⟩)
  else none

/-- `copy_dueling_categorical_dqn` (`/repo/src/dueling_categorical_dqn.c` 749-760). -/
def Dqn.dup (check : Nat → Nat → Nat → List (Shape F) → Bool) (m : Mem F) (d : Dqn F) (r : Nat → MDraws F) : Option (Mem F × Dqn F) := do
  let (m, ms) ← dupAll Mdl.dup d.models m r
  let (m, c) ← dqnInit check m d.input d.actions d.atoms d.vmin d.vmax ms
  some (m, { c with qr := d.qr })

omit [LinearOrder F] in
/-- `free_dueling_categorical_dqn` (`/repo/src/dueling_categorical_dqn.c` 611-630). -/
def Dqn.free (m : Mem F) (d : Dqn F) : Option (Mem F) := do
  let m ← freeEach Mdl.free d.models m
  freeAll d.ptr [.mean, .add, .soft, .softD, .valueError, .advError, .error, .support, .q] m

/-! ### Specification -/

omit [Field F] [LinearOrder F] in
/-- Some pointer of the auto-encoder names the block. -/
def vaeAddr (v : VaeNet F) (a : Nat) : Prop := mdlAddr v.encoder a ∨ mdlAddr v.decoder a ∨ ∃ x, v.ptr x = some a

/-- An auto-encoder owns its blocks: each model its own, four live arrays, nothing is shared. -/
structure VaeOwn (m : Mem F) (v : VaeNet F) : Prop where
  encoder : MdlOwn m v.encoder
  decoder : MdlOwn m v.decoder
  blocks : Owns m v.ptr fun _ => v.latent
  full : ∀ x, (v.ptr x).isSome = true
  apart : Disj (mdlAddr v.encoder) (mdlAddr v.decoder)
  apartE : Disj (mdlAddr v.encoder) fun a => ∃ x, v.ptr x = some a
  apartD : Disj (mdlAddr v.decoder) fun a => ∃ x, v.ptr x = some a

omit [Field F] [LinearOrder F] in
/-- Some pointer of the duelling network names the block. -/
def dqnAddr (d : Dqn F) (a : Nat) : Prop := (∃ M ∈ d.models, mdlAddr M a) ∨ ∃ x, d.ptr x = some a

/-- A duelling network owns its blocks. -/
structure DqnOwn (m : Mem F) (d : Dqn F) : Prop where
  models : ∀ M ∈ d.models, MdlOwn m M
  blocks : Owns m d.ptr (dqnSize d.actions d.atoms)
  full : ∀ x, (d.ptr x).isSome = true
  apart : d.models.Pairwise fun M M' => Disj (mdlAddr M) (mdlAddr M')
  apart' : ∀ M ∈ d.models, Disj (mdlAddr M) fun a => ∃ x, d.ptr x = some a

omit [LinearOrder F] in
/-- The atoms of the value distribution: evenly spaced from the least to the largest value. -/
def Even (atoms : Nat) (vmin vmax : F) (s : Nat → F) : Prop :=
  s 0 = vmin ∧ s (atoms - 1) = vmax ∧ ∀ i, i + 1 < atoms → s (i + 1) - s i = (vmax - vmin) / ((atoms - 1 : Nat) : F)

/-! ### Models as a kind -/

/-- Models. -/
def mdlKind : Kind (Mdl F) (MDraws F) F where
  addr := mdlAddr
  Own := MdlOwn
  ok := Copyable
  dup := Mdl.dup
  free := Mdl.free
  Copied := MdlCopied
  live h ha := h.live ha
  mono h hn hb := h.mono hn hb
  copied_mono {m m' m0 m1 M C} h h0 h1 := by
    have hr : ∀ {x n c}, Reads m' (C.ptr x) n c → Reads m1 (C.ptr x) n c := by
      rintro x n c ⟨b, B, hb, hB, hlen, hc⟩
      exact ⟨b, B, hb, by rw [h1 b (Or.inr (Or.inr (Or.inr ⟨x, hb⟩))), hB], hlen, hc⟩
    exact ⟨h.layers, h.out, h.loss, h.betas,
      fclKind.copiedAll h.fcls (fun c hc a ha => h0 a (Or.inl ⟨c, hc, ha⟩)) fun c hc a ha => h1 a (Or.inl ⟨c, hc, ha⟩),
      clKind.copiedAll h.cls (fun c hc a ha => h0 a (Or.inr (Or.inl ⟨c, hc, ha⟩))) fun c hc a ha => h1 a (Or.inr (Or.inl ⟨c, hc, ha⟩)),
      rlKind.copiedAll h.rls (fun c hc a ha => h0 a (Or.inr (Or.inr (Or.inl ⟨c, hc, ha⟩)))) fun c hc a ha => h1 a (Or.inr (Or.inr (Or.inl ⟨c, hc, ha⟩))),
      h.sla, fun he => hr (h.error he), fun a A ha hA => hr (h.weights a A ha (by rw [← h0 a (Or.inr (Or.inr (Or.inr ⟨_, ha⟩)))]; exact hA)), h.unweighted⟩
  dup_spec m M r h hc := by
    obtain ⟨m', C, e, oC, _, cp, n, fr, b, _⟩ := C158_copy_partial m M r h hc
    exact ⟨m', C, e, oC, n, fr, b, cp⟩
  free_spec m M h := C158_free m M h

omit [LinearOrder F] in
/-- A copy passes the checks of its original. -/
theorem MdlCopied.shape_eq {m m' : Mem F} {M C : Mdl F} (h : MdlCopied m M m' C) : C.shape = M.shape := by
  have hm : ∀ {A B : Type} {P : A → A → Prop} (f : A → B) {l l' : List A}, List.Forall₂ P l l' → (∀ a b, P a b → f b = f a) → l'.map f = l.map f := by
    intro A B P f l l' h hf
    induction h with
    | nil => rfl
    | cons hx _ ih => rw [List.map_cons, List.map_cons, ih, hf _ _ hx]
  simp only [Mdl.shape, h.layers, h.out, h.betas, Shape.mk.injEq, true_and]
  refine ⟨hm _ h.fcls fun a b hab => hab.flags, hm _ h.cls fun a b hab => hab.flags, hm _ h.rls fun a b hab => ?_⟩
  obtain ⟨s1, s2, s3, _⟩ := hab.shape
  simp only [s1, s2, s3, hm _ hab.cls fun a b hab => hab.flags]

omit [LinearOrder F] in
theorem shapes_eq {m m' : Mem F} {ls cs : List (Mdl F)} (h : List.Forall₂ (fun M C => MdlCopied m M m' C) ls cs) : cs.map Mdl.shape = ls.map Mdl.shape := by
  induction h with
  | nil => rfl
  | cons hx _ ih => rw [List.map_cons, List.map_cons, ih, MdlCopied.shape_eq hx]

/-! ### Variational auto-encoders -/

/-- **C159 (auto-encoder).** The auto-encoder made of two models has copies of both, shares no block with them, and its
four arrays are cleared; the two models and all other memory are as before. -/
theorem C159_vae_partial (m : Mem F) (E D : Mdl F) (latent : Nat) (r : MDraws F × MDraws F) (hE : MdlOwn m E) (hD : MdlOwn m D) (cE : Copyable E) (cD : Copyable D)
    (h0 : latent ≠ 0) (hl : latent * 2 = E.out) :
    ∃ m' v, vaeNet m E D latent r = some (m', v) ∧ v.latent = latent ∧ VaeOwn m' v ∧ MdlOwn m' E ∧ MdlOwn m' D ∧ MdlCopied m E m' v.encoder ∧
      MdlCopied m D m' v.decoder ∧ (∀ x, Reads m' (v.ptr x) latent fun _ => 0) ∧ m.next ≤ m'.next ∧ (∀ a, vaeAddr v a → m.next ≤ a) ∧
      (∀ a, ¬ vaeAddr v a → m'.blk a = m.blk a) := by
  have hnd : [VFld.z, .input, .dmean, .dstd].Nodup := by decide
  have hmem : ∀ x, x ∈ [VFld.z, .input, .dmean, .dstd] := fun x => by cases x <;> simp
  obtain ⟨g1, g2, _, _, g5, g6, g7⟩ := buildAll_spec (fun _ => true) (fun _ => (⟨latent, fun _ => 0⟩ : Arr F)) [VFld.z, .input, .dmean, .dstd] m hnd
  have hfr := build_frame (fun _ => true) (fun _ => (⟨latent, fun _ => 0⟩ : Arr F)) m hnd
  obtain ⟨o, rd⟩ := build_owned (fun _ => true) (fun _ => (⟨latent, fun _ => 0⟩ : Arr F)) m hnd
  have hrun : vaeNet m E D latent r = (E.dup (buildAll (fun _ => true) (fun _ => (⟨latent, fun _ => 0⟩ : Arr F)) [VFld.z, .input, .dmean, .dstd] m).1 r.1).bind fun s1 =>
      (D.dup s1.1 r.2).bind fun s2 =>
        some (s2.1, ⟨latent, s1.2, s2.2, (buildAll (fun _ => true) (fun _ => (⟨latent, fun _ => 0⟩ : Arr F)) [VFld.z, .input, .dmean, .dstd] m).2⟩) := by
    unfold vaeNet
    rw [if_pos ⟨h0, hl⟩]
    rfl
  generalize buildAll (fun _ => true) (fun _ => (⟨latent, fun _ => 0⟩ : Arr F)) [VFld.z, .input, .dmean, .dstd] m = s at *
  have oE1 : MdlOwn s.1 E := hE.mono g1 fun a ha => g2 a (hE.live ha).1
  have oD1 : MdlOwn s.1 D := hD.mono g1 fun a ha => g2 a (hD.live ha).1
  obtain ⟨m1, e, e1, oe, oE2, ce, n1, f1, b1, _⟩ := C158_copy_partial s.1 E r.1 oE1 cE
  have k1 : ∀ a, a < s.1.next → m1.blk a = s.1.blk a := fun a ha => b1 a fun h => by
    have := f1 a h
    omega
  have oD2 : MdlOwn m1 D := oD1.mono n1 fun a ha => k1 a (oD1.live ha).1
  obtain ⟨m2, d, e2, od, oD3, cd, n2, f2, b2, _⟩ := C158_copy_partial m1 D r.2 oD2 cD
  have k2 : ∀ a, a < m1.next → m2.blk a = m1.blk a := fun a ha => b2 a fun h => by
    have := f2 a h
    omega
  have k3 : ∀ a, a < s.1.next → m2.blk a = s.1.blk a := fun a ha => by rw [k2 a (by omega), k1 a ha]
  have hlt : ∀ x a, s.2 x = some a → a < s.1.next := fun x a hx => (g5 x a hx).2.2.2.1
  refine ⟨m2, ⟨latent, e, d, s.2⟩, by simp only [hrun, e1, e2, Option.bind_some], rfl, ⟨oe.mono n2 fun a ha => k2 a (oe.live ha).1, od, ⟨fun x a hx => ?_, g7⟩,
    fun x => g6 x (hmem x) rfl, ?_, ?_, ?_⟩, oE2.mono n2 fun a ha => k2 a (oE2.live ha).1, oD3, ?_, ?_, fun x => ?_, by omega, ?_, ?_⟩
  · obtain ⟨h1, A, h2, h3⟩ := o.live x a hx
    exact ⟨by omega, A, by rw [k3 a h1, h2], h3⟩
  · intro a ha ha'
    have := (oe.live ha).1
    have := f2 a ha'
    omega
  · rintro a ha ⟨x, hx⟩
    have := f1 a ha
    have := hlt x a hx
    omega
  · rintro a ha ⟨x, hx⟩
    have := f2 a ha
    have := hlt x a hx
    omega
  · exact mdlKind.copied_mono ce (fun a ha => (g2 a (hE.live ha).1).symm) fun a ha => k2 a (oe.live ha).1
  · exact mdlKind.copied_mono cd (fun a ha => by rw [k1 a (oD1.live ha).1, g2 a (hD.live ha).1]) fun _ _ => rfl
  · obtain ⟨a, A, h1, h2, h3, h4⟩ := rd x (hmem x) rfl
    exact ⟨a, A, h1, by rw [k3 a (hlt x a h1), h2], h3, h4⟩
  · rintro a (ha | ha | ⟨x, hx⟩)
    · have := f1 a ha
      omega
    · have := f2 a ha
      omega
    · exact (g5 x a hx).2.2.1
  · intro a ha
    rw [b2 a fun h => ha (Or.inr (Or.inl h)), b1 a fun h => ha (Or.inl h), hfr a fun x hx => ha (Or.inr (Or.inr ⟨x, hx⟩))]

theorem vae_live {m : Mem F} {v : VaeNet F} (h : VaeOwn m v) {a : Nat} (ha : vaeAddr v a) : a < m.next ∧ m.blk a ≠ none := by
  rcases ha with ha | ha | ⟨x, hx⟩
  · exact h.encoder.live ha
  · exact h.decoder.live ha
  · obtain ⟨h1, A, h2, _⟩ := h.blocks.live x a hx
    exact ⟨h1, by rw [h2]; exact Option.some_ne_none _⟩

/-- **C159 (freeing an auto-encoder).** All its blocks but the latent code `z` are freed, each once, and nothing else. Missing: `z`, see
`C159_vae_free_refuted`. -/
theorem C159_vae_free_partial (m : Mem F) (v : VaeNet F) (h : VaeOwn m v) :
    ∃ m', v.free m = some m' ∧ m'.next = m.next ∧ (∀ a, vaeAddr v a → v.ptr .z ≠ some a → m'.blk a = none) ∧
      ∀ a, ¬ vaeAddr v a → m'.blk a = m.blk a := by
  have hlive : ∀ x a, v.ptr x = some a → m.blk a ≠ none := fun x a hx => (vae_live h (Or.inr (Or.inr ⟨x, hx⟩))).2
  obtain ⟨m1, e1, n1, g1, b1⟩ := freeAll_spec v.ptr h.blocks.inj [.input, .dmean, .dstd] m (by decide) fun x _ a hx => hlive x a hx
  obtain ⟨m2, e2, n2, g2, b2⟩ := C158_free m1 v.encoder (h.encoder.mono n1.ge fun a ha => b1 a fun x _ hx => h.apartE a ha ⟨x, hx⟩)
  obtain ⟨m3, e3, n3, g3, b3⟩ := C158_free m2 v.decoder (h.decoder.mono (by omega) fun a ha => by
    rw [b2 a fun h' => h.apart a h' ha, b1 a fun x _ hx => h.apartD a ha ⟨x, hx⟩])
  refine ⟨m3, by simp only [VaeNet.free, e1, e2, e3, Option.bind_eq_bind, Option.bind_some], by omega, fun a ha hz => ?_, fun a ha => ?_⟩
  · rcases ha with ha | ha | ⟨x, hx⟩
    · rw [b3 a fun h' => h.apart a ha h', g2 a ha]
    · exact g3 a ha
    · rw [b3 a fun h' => h.apartD a h' ⟨x, hx⟩, b2 a fun h' => h.apartE a h' ⟨x, hx⟩]
      refine g1 x ?_ a hx
      cases x
      · exact absurd hx hz
      all_goals simp
  · rw [b3 a fun h' => ha (Or.inr (Or.inl h')), b2 a fun h' => ha (Or.inl h'), b1 a fun x _ hx => ha (Or.inr (Or.inr ⟨x, hx⟩))]

/-- **C159 (freeing an auto-encoder, refuted).** The latent code stays allocated, with its contents. -/
theorem C159_vae_free_refuted (m : Mem F) (v : VaeNet F) (h : VaeOwn m v) :
    ∃ m' a A, v.free m = some m' ∧ v.ptr .z = some a ∧ m'.blk a = some A ∧ A.len = v.latent ∧ m.blk a = some A := by
  obtain ⟨a, ha⟩ := Option.isSome_iff_exists.1 (h.full .z)
  obtain ⟨hl, A, hA, hlen⟩ := h.blocks.live _ a ha
  have hlive : ∀ x a, v.ptr x = some a → m.blk a ≠ none := fun x a hx => (vae_live h (Or.inr (Or.inr ⟨x, hx⟩))).2
  obtain ⟨m1, e1, n1, g1, b1⟩ := freeAll_spec v.ptr h.blocks.inj [.input, .dmean, .dstd] m (by decide) fun x _ a hx => hlive x a hx
  obtain ⟨m2, e2, n2, g2, b2⟩ := C158_free m1 v.encoder (h.encoder.mono n1.ge fun a ha => b1 a fun x _ hx => h.apartE a ha ⟨x, hx⟩)
  obtain ⟨m3, e3, n3, g3, b3⟩ := C158_free m2 v.decoder (h.decoder.mono (by omega) fun a ha => by
    rw [b2 a fun h' => h.apart a h' ha, b1 a fun x _ hx => h.apartD a ha ⟨x, hx⟩])
  refine ⟨m3, a, A, by simp only [VaeNet.free, e1, e2, e3, Option.bind_eq_bind, Option.bind_some], ha, ?_, hlen, hA⟩
  rw [b3 a fun h' => h.apartD a h' ⟨_, ha⟩, b2 a fun h' => h.apartE a h' ⟨_, ha⟩, b1 a, hA]
  intro x hx hxa
  have := h.blocks.inj _ _ a hxa ha
  subst this
  simp at hx

/-- Copy the auto-encoder and free the copy, `n` times. -/
def VaeNet.cycles (v : VaeNet F) : Nat → (Nat → MDraws F × MDraws F) → Mem F → Option (Mem F)
  | 0, _, m => some m
  | n + 1, r, m => do
    let (m, c) ← v.dup m (r 0)
    let m ← c.free m
    v.cycles n (fun i => r (i + 1)) m

/-- **C159 (copies of an auto-encoder, refuted).** Copying an auto-encoder and freeing the copy `n` times leaves `n` more blocks of
the latent size in memory; everything else is as before. -/
theorem C159_vae_leak_refuted (v : VaeNet F) (cE : Copyable v.encoder) (cD : Copyable v.decoder) (h0 : v.latent ≠ 0) (hl : v.latent * 2 = v.encoder.out) :
    ∀ (n : Nat) (r : Nat → MDraws F × MDraws F) (m : Mem F), m.Sane → VaeOwn m v →
      ∃ (m' : Mem F) (l : List Nat), v.cycles n r m = some m' ∧ l.length = n ∧ l.Nodup ∧ (∀ a ∈ l, m.blk a = none ∧ ∃ A, m'.blk a = some A ∧ A.len = v.latent) ∧
        ∀ a, a ∉ l → m'.blk a = m.blk a := by
  intro n
  induction n with
  | zero =>
    intro r m _ _
    exact ⟨m, [], rfl, rfl, List.nodup_nil, fun a ha => by simp at ha, fun _ _ => rfl⟩
  | succ n ih =>
    intro r m hm h
    obtain ⟨m1, c, e1, hc, oc, _, _, _, _, _, n1, f1, b1⟩ := C159_vae_partial m v.encoder v.decoder v.latent (r 0) h.encoder h.decoder cE cD h0 hl
    obtain ⟨m2, e2, n2, g2, b2⟩ := C159_vae_free_partial m1 c oc
    obtain ⟨m2', z, Z, e2', hz, hZ, hlen, _⟩ := C159_vae_free_refuted m1 c oc
    obtain rfl : m2 = m2' := by simpa [e2] using e2'
    have hzf : m.next ≤ z := f1 z (Or.inr (Or.inr ⟨_, hz⟩))
    have hfr : ∀ a, a ≠ z → m2.blk a = m.blk a := fun a ha => by
      by_cases hca : vaeAddr c a
      · rw [g2 a hca fun h' => ha (Option.some.inj (h'.symm.trans hz)), hm a (f1 a hca)]
      · rw [b2 a hca, b1 a hca]
    have hzn : z < m2.next := by
      have := (vae_live oc (Or.inr (Or.inr ⟨_, hz⟩))).1
      omega
    have keep : ∀ a, vaeAddr v a → m2.blk a = m.blk a := fun a ha => hfr a (by have := (vae_live h ha).1; omega)
    obtain ⟨m3, l, e3, hll, hnd, hin, hout⟩ := ih (fun i => r (i + 1)) m2
      (fun a ha => by rw [hfr a (by omega), hm a (by omega)])
      ⟨h.encoder.mono (by omega) fun a ha => keep a (Or.inl ha), h.decoder.mono (by omega) fun a ha => keep a (Or.inr (Or.inl ha)),
        ⟨fun x a hx => by
          obtain ⟨j1, A, j2, j3⟩ := h.blocks.live x a hx
          exact ⟨by omega, A, by rw [keep a (Or.inr (Or.inr ⟨x, hx⟩)), j2], j3⟩, h.blocks.inj⟩, h.full, h.apart, h.apartE, h.apartD⟩
    have hzl : z ∉ l := fun hz' => by
      have := (hin z hz').1
      rw [hZ] at this
      cases this
    refine ⟨m3, z :: l, ?_, by simp [hll], List.nodup_cons.2 ⟨hzl, hnd⟩, fun a ha => ?_, fun a ha => ?_⟩
    · simp only [VaeNet.cycles, VaeNet.dup, e1, e2, Option.bind_eq_bind, Option.bind_some, e3]
    · rcases List.mem_cons.1 ha with rfl | ha'
      · exact ⟨hm a hzf, Z, by rw [hout a hzl, hZ], by rw [hlen, hc]⟩
      · obtain ⟨j1, j2⟩ := hin a ha'
        refine ⟨?_, j2⟩
        rw [← hfr a fun e => hzl (e ▸ ha')]
        exact j1
    · simp only [List.mem_cons, not_or] at ha
      rw [hout a ha.2, hfr a ha.1]

/-! ### Duelling networks -/

theorem dqnOrder_nodup : [DFld.mean, .valueError, .add, .advError, .error, .soft, .softD, .support, .q].Nodup := by decide

omit [LinearOrder F] in
theorem dqnFirst_even [CharZero F] {actions atoms : Nat} (vmin vmax : F) (h : 1 < atoms) : Even atoms vmin vmax (dqnFirst actions atoms vmin vmax .support).get := by
  have hne : ((atoms - 1 : Nat) : F) ≠ 0 := Nat.cast_ne_zero.2 (by omega)
  simp only [dqnFirst, if_true]
  refine ⟨?_, ?_, fun i hi => ?_⟩
  · dsimp only
    rw [if_pos (by omega)]
    simp
  · dsimp only
    rw [if_neg (by omega)]
  · dsimp only
    rw [if_pos (show i < atoms - 1 by omega)]
    by_cases h' : i + 1 < atoms - 1
    · rw [if_pos h', Nat.cast_succ]
      ring
    · rw [if_neg h']
      have : i = atoms - 1 - 1 := by omega
      have hc : (i : F) = ((atoms - 1 : Nat) : F) - 1 := by
        rw [this, Nat.cast_sub (by omega), Nat.cast_one]
      rw [hc]
      field_simp
      ring

/-- **C159 (duelling network).** Five models that pass the checks become a network that owns them: the atoms of its support are
evenly spaced from `v_min` to `v_max`, its other arrays are cleared, it is not a quantile network, and all other memory
is as before. -/
theorem C159_dqn [CharZero F] (check : Nat → Nat → Nat → List (Shape F) → Bool) (m : Mem F) (input actions atoms : Nat) (vmin vmax : F) (models : List (Mdl F))
    (ho : ∀ M ∈ models, MdlOwn m M) (ha : models.Pairwise fun M M' => Disj (mdlAddr M) (mdlAddr M')) (h1 : 0 < input) (h2 : 1 < atoms) (h3 : 0 < actions)
    (h4 : vmin ≤ vmax) (h5 : check input actions atoms (models.map Mdl.shape) = true) :
    ∃ m' d, dqnInit check m input actions atoms vmin vmax models = some (m', d) ∧ DqnOwn m' d ∧ d.input = input ∧ d.actions = actions ∧ d.atoms = atoms ∧
      d.vmin = vmin ∧ d.vmax = vmax ∧ d.qr = false ∧ d.models = models ∧ (∃ s, Reads m' (d.ptr .support) atoms s ∧ Even atoms vmin vmax s) ∧
      (∀ x, x ≠ .support → Reads m' (d.ptr x) (dqnSize actions atoms x) fun _ => 0) ∧ m.next ≤ m'.next ∧ (∀ x a, d.ptr x = some a → m.next ≤ a) ∧
      ∀ a, (∀ x, d.ptr x ≠ some a) → m'.blk a = m.blk a := by
  have hmem : ∀ x, x ∈ [DFld.mean, .valueError, .add, .advError, .error, .soft, .softD, .support, .q] := fun x => by cases x <;> simp
  obtain ⟨g1, g2, _, _, g5, g6, g7⟩ := buildAll_spec (fun _ => true) (dqnFirst actions atoms vmin vmax) _ m dqnOrder_nodup
  have hfr := build_frame (fun _ => true) (dqnFirst actions atoms vmin vmax) m dqnOrder_nodup
  obtain ⟨o, rd⟩ := build_owned (fun _ => true) (dqnFirst actions atoms vmin vmax) m dqnOrder_nodup
  have hrun : dqnInit check m input actions atoms vmin vmax models = some
      ((buildAll (fun _ => true) (dqnFirst actions atoms vmin vmax) [DFld.mean, .valueError, .add, .advError, .error, .soft, .softD, .support, .q] m).1,
      ⟨input, actions, atoms, vmin, vmax, false, models,
        (buildAll (fun _ => true) (dqnFirst actions atoms vmin vmax) [DFld.mean, .valueError, .add, .advError, .error, .soft, .softD, .support, .q] m).2⟩) := by
    unfold dqnInit
    rw [if_pos ⟨h1, h2, h3, h4, h5⟩]
  generalize buildAll (fun _ => true) (dqnFirst actions atoms vmin vmax) [DFld.mean, .valueError, .add, .advError, .error, .soft, .softD, .support, .q] m = s at *
  refine ⟨_, _, hrun, ⟨fun M hM => (ho M hM).mono g1 fun a ha => g2 a ((ho M hM).live ha).1, ⟨o.live, g7⟩, fun x => g6 x (hmem x) rfl, ha, ?_⟩, rfl, rfl, rfl, rfl, rfl, rfl,
    rfl, ⟨_, rd .support (hmem _) rfl, dqnFirst_even vmin vmax h2⟩, fun x hx => ?_, g1, fun x a hx => (g5 x a hx).2.2.1, hfr⟩
  · rintro M hM a ha ⟨x, hx⟩
    have := ((ho M hM).live ha).1
    have := (g5 x a hx).2.2.1
    omega
  · obtain ⟨a, A, j1, j2, j3, j4⟩ := rd x (hmem x) rfl
    refine ⟨a, A, j1, j2, j3, fun i hi => ?_⟩
    rw [j4 i hi]
    simp [dqnFirst, hx]

theorem dqn_live {m : Mem F} {d : Dqn F} (h : DqnOwn m d) {a : Nat} (ha : dqnAddr d a) : a < m.next ∧ m.blk a ≠ none := by
  rcases ha with ⟨M, hM, ha⟩ | ⟨x, hx⟩
  · exact (h.models M hM).live ha
  · obtain ⟨h1, A, h2, _⟩ := h.blocks.live x a hx
    exact ⟨h1, by rw [h2]; exact Option.some_ne_none _⟩

theorem DqnOwn.mono {m m' : Mem F} {d : Dqn F} (h : DqnOwn m d) (hn : m.next ≤ m'.next) (hb : ∀ a, dqnAddr d a → m'.blk a = m.blk a) : DqnOwn m' d := by
  refine ⟨fun M hM => (h.models M hM).mono hn fun a ha => hb a (Or.inl ⟨M, hM, ha⟩), ⟨fun x a hx => ?_, h.blocks.inj⟩, h.full, h.apart, h.apart'⟩
  obtain ⟨j1, A, j2, j3⟩ := h.blocks.live x a hx
  exact ⟨by omega, A, by rw [hb a (Or.inr ⟨x, hx⟩), j2], j3⟩

/-- **C159 (copying a duelling network).** The copy has copies of the five models in their order, the same sizes, range and kind, its own
support and cleared arrays, all in fresh blocks; the original and all other memory are as before. Missing: models with layers that
are only for dropout (`C159_dqn_copy_refuted`). -/
theorem C159_dqn_copy_partial [CharZero F] (check : Nat → Nat → Nat → List (Shape F) → Bool) (m : Mem F) (d : Dqn F) (r : Nat → MDraws F) (h : DqnOwn m d)
    (hc : ∀ M ∈ d.models, Copyable M) (h1 : 0 < d.input) (h2 : 1 < d.atoms) (h3 : 0 < d.actions) (h4 : d.vmin ≤ d.vmax)
    (h5 : check d.input d.actions d.atoms (d.models.map Mdl.shape) = true) :
    ∃ m' c, d.dup check m r = some (m', c) ∧ DqnOwn m' c ∧ DqnOwn m' d ∧ c.input = d.input ∧ c.actions = d.actions ∧ c.atoms = d.atoms ∧ c.vmin = d.vmin ∧
      c.vmax = d.vmax ∧ c.qr = d.qr ∧ List.Forall₂ (fun M C => MdlCopied m M m' C) d.models c.models ∧
      (∃ s, Reads m' (c.ptr .support) d.atoms s ∧ Even d.atoms d.vmin d.vmax s) ∧
      (∀ x, x ≠ .support → Reads m' (c.ptr x) (dqnSize d.actions d.atoms x) fun _ => 0) ∧ m.next ≤ m'.next ∧ (∀ a, dqnAddr c a → m.next ≤ a) ∧
      (∀ a, ¬ dqnAddr c a → m'.blk a = m.blk a) ∧ Disj (dqnAddr d) (dqnAddr c) := by
  obtain ⟨m1, cs, e1, o1, n1, f1, b1, c1⟩ := dupAll_spec mdlKind d.models m r ⟨h.models, h.apart⟩ hc
  have hsh := shapes_eq c1
  obtain ⟨m2, c, e2, o2, k1, k2, k3, k4, k5, _, rfl, sp, z, n2, f2, b2⟩ := C159_dqn check m1 d.input d.actions d.atoms d.vmin d.vmax cs o1.1 o1.2 h1 h2 h3 h4
    (by rw [hsh]; exact h5)
  have q2 : ∀ a, a < m1.next → m2.blk a = m1.blk a := fun a ha => b2 a fun x hx => by
    have := f2 x a hx
    omega
  have fresh : ∀ a, dqnAddr c a → m.next ≤ a := by
    rintro a (⟨M, hM, ha⟩ | ⟨x, hx⟩)
    · exact f1 M hM a ha
    · have := f2 x a hx
      omega
  have fr : ∀ a, ¬ dqnAddr c a → m2.blk a = m.blk a := fun a ha => by
    rw [b2 a fun x hx => ha (Or.inr ⟨x, hx⟩), b1 a fun M hM hx => ha (Or.inl ⟨M, hM, hx⟩)]
  have dis : Disj (dqnAddr d) (dqnAddr c) := fun a ha ha' => by
    have := (dqn_live h ha).1
    have := fresh a ha'
    omega
  refine ⟨m2, { c with qr := d.qr }, ?_, ⟨o2.models, o2.blocks, o2.full, o2.apart, o2.apart'⟩, h.mono (by omega) fun a ha => fr a fun h' => dis a ha h', k1, k2, k3, k4, k5, rfl,
    mdlKind.copiedAll c1 (fun _ _ _ _ => rfl) fun M hM a ha => q2 a (mdlKind.live (o1.1 M hM) ha).1, sp, z, by omega, fresh, fr, dis⟩
  unfold Dqn.dup
  rw [show dupAll Mdl.dup d.models m r = some (m1, c.models) from e1]
  simp only [Option.bind_eq_bind, Option.bind_some, e2]

/-- **C159 (freeing a duelling network).** Each block of its models and each of its arrays is freed exactly once, and nothing else. -/
theorem C159_dqn_free (m : Mem F) (d : Dqn F) (h : DqnOwn m d) :
    ∃ m', d.free m = some m' ∧ m'.next = m.next ∧ (∀ a, dqnAddr d a → m'.blk a = none) ∧ ∀ a, ¬ dqnAddr d a → m'.blk a = m.blk a := by
  obtain ⟨m1, e1, n1, g1, b1⟩ := freeEach_spec mdlKind d.models m ⟨h.models, h.apart⟩
  have ho : Owns m1 d.ptr (dqnSize d.actions d.atoms) := by
    refine ⟨fun x a hx => ?_, h.blocks.inj⟩
    obtain ⟨j1, A, j2, j3⟩ := h.blocks.live x a hx
    exact ⟨by omega, A, by rw [b1 a fun c hc ha => h.apart' c hc a ha ⟨x, hx⟩, j2], j3⟩
  obtain ⟨m2, e2, n2, g2, b2⟩ := free_owned ho (l := [.mean, .add, .soft, .softD, .valueError, .advError, .error, .support, .q]) (by decide) fun x a _ => by
    cases x <;> simp
  refine ⟨m2, ?_, by omega, fun a ha => ?_, fun a ha => ?_⟩
  · unfold Dqn.free
    rw [show freeEach Mdl.free d.models m = some m1 from e1]
    exact e2
  · rcases ha with ⟨c, hc, ha⟩ | ⟨x, hx⟩
    · rw [b2 a fun x hx => h.apart' c hc a ha ⟨x, hx⟩]
      exact g1 c hc a ha
    · exact g2 x a hx
  · rw [b2 a fun x hx => ha (Or.inr ⟨x, hx⟩), b1 a fun c hc hx => ha (Or.inl ⟨c, hc, hx⟩)]

/-- **C159 (independence).** After copying, freeing the original leaves the copy as it was, and freeing the copy leaves the original as it was and
gives back all the memory the copy took. -/
theorem C159_dqn_independent [CharZero F] (check : Nat → Nat → Nat → List (Shape F) → Bool) (m : Mem F) (hm : m.Sane) (d : Dqn F) (r : Nat → MDraws F) (h : DqnOwn m d)
    (hc : ∀ M ∈ d.models, Copyable M) (h1 : 0 < d.input) (h2 : 1 < d.atoms) (h3 : 0 < d.actions) (h4 : d.vmin ≤ d.vmax)
    (h5 : check d.input d.actions d.atoms (d.models.map Mdl.shape) = true) :
    ∃ m' c, d.dup check m r = some (m', c) ∧ (∃ m1, d.free m' = some m1 ∧ DqnOwn m1 c ∧ ∀ a, dqnAddr c a → m1.blk a = m'.blk a) ∧
      ∃ m2, c.free m' = some m2 ∧ DqnOwn m2 d ∧ m2.blk = m.blk := by
  obtain ⟨m', c, e, oc, od, _, _, _, _, _, _, _, _, _, n, fr, b, dis⟩ := C159_dqn_copy_partial check m d r h hc h1 h2 h3 h4 h5
  obtain ⟨m1, e1, n1, _, b1⟩ := C159_dqn_free m' d od
  obtain ⟨m2, e2, n2, g2, b2⟩ := C159_dqn_free m' c oc
  have k1 : ∀ a, dqnAddr c a → m1.blk a = m'.blk a := fun a ha => b1 a fun ha' => dis a ha' ha
  have k2 : m2.blk = m.blk := by
    funext a
    by_cases ha : dqnAddr c a
    · rw [g2 a ha, hm a (fr a ha)]
    · rw [b2 a ha, b a ha]
  exact ⟨m', c, e, ⟨m1, e1, oc.mono n1.ge k1, k1⟩, m2, e2, h.mono (by omega) fun a _ => by rw [k2], k2⟩

/-- **C159 (copying a duelling network, refuted).** With a layer that is only for dropout in any of the models, copying ends the
program. -/
theorem C159_dqn_copy_refuted (check : Nat → Nat → Nat → List (Shape F) → Bool) (m : Mem F) (d : Dqn F) (r : Nat → MDraws F) (M : Mdl F) (hM : M ∈ d.models) (f : Fcl F)
    (hf : f ∈ M.fcls) (ho : f.fl.ff = .onlyDropout) : d.dup check m r = none := by
  have key : ∀ (l : List (Mdl F)) (m : Mem F) (r : Nat → MDraws F), M ∈ l → dupAll Mdl.dup l m r = none := by
    intro l
    induction l with
    | nil => intro m r hf; simp at hf
    | cons g l ih =>
      intro m r hg
      rcases List.mem_cons.1 hg with rfl | hg
      · simp [dupAll, C158_copy_refuted m M (r 0) f hf ho]
      · simp only [dupAll, Option.bind_eq_bind, Option.bind_eq_none_iff]
        intro x _
        rw [ih _ _ hg]
        simp
  unfold Dqn.dup
  rw [key _ _ _ hM]
  rfl

/-! ### Concrete cases -/

theorem MdlCopied.copyable {m m' : Mem F} {M C : Mdl F} (h : MdlCopied m M m' C) (hM : Copyable M) : Copyable C := by
  have hm : ∀ {A : Type} {P : A → A → Prop} {Q : A → Prop} {l l' : List A}, List.Forall₂ P l l' → (∀ a b, P a b → Q a → Q b) → (∀ a ∈ l, Q a) → ∀ b ∈ l', Q b := by
    intro A P Q l l' h hf
    induction h with
    | nil => exact fun _ b hb => by simp at hb
    | cons hx _ ih =>
      intro hl b hb
      rcases List.mem_cons.1 hb with rfl | hb
      · exact hf _ _ hx (hl _ (by simp))
      · exact ih (fun a ha => hl a (by simp [ha])) b hb
  refine ⟨hm h.fcls (fun a b hab => by rw [hab.flags]; exact id) hM.1, hm h.cls (fun a b hab => by rw [hab.flags]; exact id) hM.2.1, hm h.rls ?_ hM.2.2⟩
  rintro a b hab ⟨j1, j2, j3, j4, j5⟩
  obtain ⟨s1, s2, s3, _⟩ := hab.shape
  refine ⟨by rw [s1]; exact j1, by rw [s2]; exact j2, by rw [s3]; exact j3, fun h0 => ?_, hm hab.cls (fun a b hab => by rw [hab.flags]; exact id) j5⟩
  have := hab.cls.length_eq
  rw [h0] at this
  exact j4 (List.length_eq_zero_iff.1 this)

/-- There are memories with any number of separate models, each with three layers of different kinds. -/
theorem demo_models (n : Nat) : ∃ (m : Mem ℚ) (Ms : List (Mdl ℚ)), m.Sane ∧ Ms.length = n + 1 ∧ (∀ M ∈ Ms, MdlOwn m M ∧ Copyable M ∧ M.out = 2 ∧ M.fcls.length = 1) ∧
    Ms.Pairwise fun M M' => Disj (mdlAddr M) (mdlAddr M') := by
  induction n with
  | zero =>
    obtain ⟨m, M, _, o, c, h1, _, _, h4, _⟩ := demo_model
    refine ⟨⟨m.next, fun a => if a < m.next then m.blk a else none⟩, [M], fun a ha => if_neg (by simpa using ha), rfl, fun M' hM' => ?_, List.pairwise_singleton _ _⟩
    rw [List.mem_singleton] at hM'
    subst hM'
    exact ⟨o.mono le_rfl fun a ha => if_pos (o.live ha).1, c, h4, h1⟩
  | succ n ih =>
    obtain ⟨m, Ms, hs, hl, ho, hp⟩ := ih
    match Ms, hl with
    | M :: Ms, hl =>
      obtain ⟨oM, cM, h4, h1⟩ := ho M (by simp)
      obtain ⟨m', C, _, oC, _, cp, hn, fr, b, _⟩ := C158_copy_partial m M ⟨fun _ => FclLife.demoDraws, fun _ _ _ => 0, fun _ _ _ _ => 0⟩ oM cM
      refine ⟨m', C :: M :: Ms, fun a ha => ?_, by simpa using hl, fun M' hM' => ?_, List.pairwise_cons.2 ⟨fun M' hM' a ha ha' => ?_, hp⟩⟩
      · rw [b a fun h => by have := (oC.live h).1; omega, hs a (by omega)]
      · rcases List.mem_cons.1 hM' with rfl | hM'
        · exact ⟨oC, cp.copyable cM, by rw [cp.out, h4], by rw [← cp.fcls.length_eq, h1]⟩
        · obtain ⟨j1, j2⟩ := ho M' hM'
          exact ⟨j1.mono hn fun a ha => b a fun h => by have := (j1.live ha).1; have := fr a h; omega, j2⟩
      · have := ((ho M' hM').1.live ha').1
        have := fr a ha
        omega

/-- Auto-encoders of such models exist; making and freeing copies of them leaks. -/
example : ∃ (m : Mem ℚ) (v : VaeNet ℚ), VaeOwn m v ∧ ∃ (m' : Mem ℚ) (l : List Nat), v.cycles 5 (fun _ => (⟨fun _ => FclLife.demoDraws, fun _ _ _ => 0, fun _ _ _ _ => 0⟩,
    ⟨fun _ => FclLife.demoDraws, fun _ _ _ => 0, fun _ _ _ _ => 0⟩)) m = some m' ∧ l.length = 5 ∧ ∀ a ∈ l, m.blk a = none ∧ m'.blk a ≠ none := by
  obtain ⟨m, Ms, hs, hl, ho, _⟩ := demo_models 1
  match Ms, hl with
  | [E, D], _ =>
    obtain ⟨oE, cE, h4, _⟩ := ho E (by simp)
    obtain ⟨oD, cD, _⟩ := ho D (by simp)
    obtain ⟨m', v, _, hv, ov, _, _, c1, c2, _, _, _, b⟩ := C159_vae_partial m E D 1 (⟨fun _ => FclLife.demoDraws, fun _ _ _ => 0, fun _ _ _ _ => 0⟩,
      ⟨fun _ => FclLife.demoDraws, fun _ _ _ => 0, fun _ _ _ _ => 0⟩) oE oD cE cD (by decide) (by rw [h4])
    obtain ⟨m2, l, e, h1, _, h2, _⟩ := C159_vae_leak_refuted v (c1.copyable cE) (c2.copyable cD) (by rw [hv]; decide) (by rw [hv, c1.out, h4]) 5
      (fun _ => (⟨fun _ => FclLife.demoDraws, fun _ _ _ => 0, fun _ _ _ _ => 0⟩, ⟨fun _ => FclLife.demoDraws, fun _ _ _ => 0, fun _ _ _ _ => 0⟩)) m'
      (fun a ha => by rw [b a fun h => by have := (vae_live ov h).1; omega]; exact hs a (by omega)) ov
    exact ⟨m', v, ov, m2, l, e, h1, fun a ha => ⟨(h2 a ha).1, by obtain ⟨A, hA, _⟩ := (h2 a ha).2; rw [hA]; simp⟩⟩

/-- A duelling network of five such models: it is made, copied, and the copy freed. -/
example : ∃ (m : Mem ℚ) (d : Dqn ℚ), DqnOwn m d ∧ d.models.length = 5 ∧ d.atoms = 51 ∧ ∃ m' c m2,
    d.dup (fun _ _ _ l => l.length = 5) m (fun _ => ⟨fun _ => FclLife.demoDraws, fun _ _ _ => 0, fun _ _ _ _ => 0⟩) = some (m', c) ∧ c.free m' = some m2 ∧ m2.blk = m.blk := by
  obtain ⟨m, Ms, hs, hl, ho, hp⟩ := demo_models 4
  obtain ⟨m1, d, _, od, k1, k2, k3, k4, k5, _, k7, _, _, n1, _, b⟩ := C159_dqn (fun _ _ _ l => l.length = 5) m 3 4 51 (-10) 10 Ms (fun M hM => (ho M hM).1) hp (by decide)
    (by decide) (by decide) (by norm_num) (by simp [hl])
  obtain ⟨m2, c, e, _, m3, e3, _, h3⟩ := C159_dqn_independent (fun _ _ _ l => l.length = 5) m1
    (fun a ha => by rw [b a fun x hx => by have := (dqn_live od (Or.inr ⟨x, hx⟩)).1; omega]; exact hs a (by omega)) d
    (fun _ => ⟨fun _ => FclLife.demoDraws, fun _ _ _ => 0, fun _ _ _ _ => 0⟩) od (by rw [k7]; exact fun M hM => (ho M hM).2.1) (by rw [k1]; decide) (by rw [k3]; decide)
    (by rw [k2]; decide) (by rw [k4, k5]; norm_num) (by simp [k7, hl])
  exact ⟨m1, d, od, by rw [k7, hl], k3, m2, c, m3, e, e3, h3⟩

end LLab.ModelLife
