import Verif.Layers.CompLife

/-!
Pasting whole models: `paste_model` (`/repo/src/model.c`), `paste_rl` (`/repo/src/residual_layers.c`), `paste_vae_model`
(`/repo/src/vae_model.c`) and `paste_dueling_categorical_dqn` (`/repo/src/dueling_categorical_dqn.c`), as used to bring a target
network up to date. Property C160.
-/

namespace LLab.ModelLife

open FclLife (Mem Fcl Reads Draws)
open ConvLife (Cl)
open Heap

variable {F : Type}

/-! ### Model -/

/-- Paste the members of a list over those of another, as many as the first list has; `none` also when the second list ends
before the first. -/
def pasteAll {L : Type} (paste : Mem F → L → L → Option (Mem F × L)) : List L → List L → Mem F → Option (Mem F × List L)
  | [], ds, m => some (m, ds)
  | _ :: _, [], _ => none
  | l :: ls, d :: ds, m => do
    let (m, d) ← paste m l d
    let (m, ds) ← pasteAll paste ls ds m
    some (m, d :: ds)

section
variable [Field F]

/-- `paste_rl` (`/repo/src/residual_layers.c` 569-579). -/
def Rl.paste (m : Mem F) (l d : Rl F) : Option (Mem F × Rl F) := do
  let (m, cls) ← pasteAll Cl.paste l.cls d.cls m
  some (m, { d with cls := cls })

variable [LinearOrder F]

/-- `paste_model` (`/repo/src/model.c` 571-586). -/
def Mdl.paste (m : Mem F) (M D : Mdl F) : Option (Mem F × Mdl F) := do
  let (m, fcls) ← pasteAll Fcl.paste M.fcls D.fcls m
  let (m, cls) ← pasteAll Cl.paste M.cls D.cls m
  let (m, rls) ← pasteAll Rl.paste M.rls D.rls m
  some (m, { D with fcls := fcls, cls := cls, rls := rls })

/-- `paste_vae_model` (`/repo/src/vae_model.c` 101-107). -/
def VaeNet.paste (m : Mem F) (v d : VaeNet F) : Option (Mem F × VaeNet F) := do
  let (m, e) ← v.encoder.paste m d.encoder
  let (m, c) ← v.decoder.paste m d.decoder
  some (m, { d with encoder := e, decoder := c })

/-- `paste_dueling_categorical_dqn` (`/repo/src/dueling_categorical_dqn.c` 776-786). -/
def Dqn.paste (m : Mem F) (d c : Dqn F) : Option (Mem F × Dqn F) := do
  let (m, ms) ← pasteAll Mdl.paste d.models c.models m
  some (m, { c with models := ms, qr := d.qr })

end

/-! ### Specification -/

/-- Pasting `f` over `c` gave `c'`: what training puts into a layer is that of `f` in every array both have, and the other arrays
are as before. -/
structure FclPasted (m : Mem F) (f c : Fcl F) (m' : Mem F) (c' : Fcl F) : Prop where
  flags : c'.fl = c.fl
  ptr : c'.ptr = c.ptr
  k : c'.k = f.k
  learned : ∀ x, x.learned = true → FclLife.Called f.fl x → FclLife.Called c.fl x → ∀ a A b, f.ptr x = some a → m.blk a = some A → c.ptr x = some b →
    Reads m' (c'.ptr x) A.len A.get
  rest : ∀ x, x.learned = false → ∀ a, c.ptr x = some a → m'.blk a = m.blk a

@[inherit_doc FclPasted]
structure ClPasted (m : Mem F) (c d : Cl F) (m' : Mem F) (d' : Cl F) : Prop where
  flags : d'.fl = d.fl
  ptr : d'.ptr = d.ptr
  k : d'.k = c.k
  learned : ∀ x, ConvLife.learned x = true → ConvLife.Called c.fl x → ConvLife.Called d.fl x → (∀ g y, x = .group g y → c.fl.groups = d.fl.groups) →
    ∀ a A e, c.ptr x = some a → m.blk a = some A → d.ptr x = some e → Reads m' (d'.ptr x) A.len A.get
  rest : ∀ x, ConvLife.learned x = false → ∀ a, d.ptr x = some a → m'.blk a = m.blk a

/-- Pasting the residual layer `l` over `d`: its layers one by one, nothing else. -/
structure RlPasted (m : Mem F) (l d : Rl F) (m' : Mem F) (d' : Rl F) : Prop where
  shape : d'.channels = d.channels ∧ d'.rows = d.rows ∧ d'.cols = d.cols ∧ d'.flag = d.flag
  ptr : d'.ptr = d.ptr
  length : d'.cls.length = d.cls.length
  cls : ∀ (i : Nat) c d1 d2, l.cls[i]? = some c → d.cls[i]? = some d1 → d'.cls[i]? = some d2 → ClPasted m c d1 m' d2
  rest : ∀ x a, d.ptr x = some a → m'.blk a = m.blk a

/-- Pasting the model `M` over `D`: its layers one by one, nothing else. -/
structure MdlPasted (m : Mem F) (M D : Mdl F) (m' : Mem F) (D' : Mdl F) : Prop where
  same : D'.layers = D.layers ∧ D'.out = D.out ∧ D'.loss = D.loss ∧ D'.betas = D.betas ∧ D'.ptr = D.ptr
  length : D'.fcls.length = D.fcls.length ∧ D'.cls.length = D.cls.length ∧ D'.rls.length = D.rls.length
  fcls : ∀ (i : Nat) f c c', M.fcls[i]? = some f → D.fcls[i]? = some c → D'.fcls[i]? = some c' → FclPasted m f c m' c'
  cls : ∀ (i : Nat) f c c', M.cls[i]? = some f → D.cls[i]? = some c → D'.cls[i]? = some c' → ClPasted m f c m' c'
  rls : ∀ (i : Nat) f c c', M.rls[i]? = some f → D.rls[i]? = some c → D'.rls[i]? = some c' → RlPasted m f c m' c' ∧ ∀ a, rlAddr c' a ↔ rlAddr c a
  rest : ∀ x a, D.ptr x = some a → m'.blk a = m.blk a

/-- Layers that can be pasted on each other: the same sizes. -/
def FclFit (f c : Fcl F) : Prop := f.fl.input = c.fl.input ∧ f.fl.output = c.fl.output
@[inherit_doc FclFit]
def ClFit (c d : Cl F) : Prop := ConvLife.SameShape c d ∧ (ConvLife.SameGroups c d → c.fl.gdim = d.fl.gdim)
/-- Residual layers with fitting layers. -/
def RlFit (l d : Rl F) : Prop := List.Forall₂ ClFit l.cls d.cls
/-- Models with fitting layers in every position. -/
def MdlFit (M D : Mdl F) : Prop := List.Forall₂ FclFit M.fcls D.fcls ∧ List.Forall₂ ClFit M.cls D.cls ∧ List.Forall₂ RlFit M.rls D.rls

/-! ### Kinds of objects that can be pasted -/

/-- What is used of a kind of objects that can be pasted. -/
structure PasteKind {L R : Type} (K : Kind L R F) where
  fit : L → L → Prop
  paste : Mem F → L → L → Option (Mem F × L)
  Pasted : Mem F → L → L → Mem F → L → Prop
  mono : ∀ {m l d m' d' m0 m1}, Pasted m l d m' d' → (∀ a, K.addr l a → m0.blk a = m.blk a) → (∀ a, K.addr d a → m0.blk a = m.blk a) →
    (∀ a, K.addr d' a → m1.blk a = m'.blk a) → (∀ a, K.addr d' a ↔ K.addr d a) → Pasted m0 l d m1 d'
  spec : ∀ m l d, K.Own m l → K.Own m d → Disj (K.addr l) (K.addr d) → fit l d → ∃ m' d', paste m l d = some (m', d') ∧ m'.next = m.next ∧ K.Own m' d' ∧
    (∀ a, K.addr d' a ↔ K.addr d a) ∧ (∀ a, ¬ K.addr d a → m'.blk a = m.blk a) ∧ Pasted m l d m' d'

section
variable {L R : Type} {K : Kind L R F} (P : PasteKind K)

theorem pasteAll_spec : ∀ (ls ds : List L) (m : Mem F), List.Forall₂ P.fit ls ds → K.All m ls → K.All m ds → (∀ l ∈ ls, ∀ d ∈ ds, Disj (K.addr l) (K.addr d)) →
    ∃ (m' : Mem F) (ds' : List L), pasteAll P.paste ls ds m = some (m', ds') ∧ m'.next = m.next ∧ K.All m' ds' ∧ ds'.length = ds.length ∧
      (∀ a, (∃ d ∈ ds', K.addr d a) ↔ ∃ d ∈ ds, K.addr d a) ∧ (∀ a, (∀ d ∈ ds, ¬ K.addr d a) → m'.blk a = m.blk a) ∧
      ∀ (i : Nat) l d d', ls[i]? = some l → ds[i]? = some d → ds'[i]? = some d' → P.Pasted m l d m' d' ∧ ∀ a, K.addr d' a ↔ K.addr d a := by
  intro ls
  induction ls with
  | nil =>
    intro ds m hf _ hd _
    cases hf
    exact ⟨m, [], rfl, rfl, hd, rfl, fun _ => Iff.rfl, fun _ _ => rfl, fun i l d d' h => by simp at h⟩
  | cons l ls ih =>
    intro ds m hf hl hd hx
    cases hf with
    | @cons _ d _ ds h1 h2 =>
      obtain ⟨m1, d', e1, n1, o1, ad, b1, p1⟩ := P.spec m l d (hl.1 l (by simp)) (hd.1 d (by simp)) (hx l (by simp) d (by simp)) h1
      have hpl := List.pairwise_cons.1 hl.2
      have hpd := List.pairwise_cons.1 hd.2
      have kl : ∀ l' ∈ ls, ∀ a, K.addr l' a → m1.blk a = m.blk a := fun l' hl' a ha => b1 a fun h' => hx l' (by simp [hl']) d (by simp) a ha h'
      have kd : ∀ l' ∈ ds, ∀ a, K.addr l' a → m1.blk a = m.blk a := fun l' hl' a ha => b1 a fun h' => hpd.1 l' hl' a h' ha
      obtain ⟨m2, ds', e2, n2, o2, ln, ad2, b2, p2⟩ := ih ds m1 h2 (Kind.All.mono K ⟨fun l' hl' => hl.1 l' (by simp [hl']), hpl.2⟩ n1.ge kl)
        (Kind.All.mono K ⟨fun l' hl' => hd.1 l' (by simp [hl']), hpd.2⟩ n1.ge kd) fun l' hl' d' hd' => hx l' (by simp [hl']) d' (by simp [hd'])
      have kd' : ∀ a, K.addr d' a → m2.blk a = m1.blk a := fun a ha => b2 a fun d2 hd2 ha2 => hpd.1 d2 hd2 a ((ad a).1 ha) ha2
      refine ⟨m2, d' :: ds', by simp only [pasteAll, e1, e2, Option.bind_eq_bind, Option.bind_some], by omega, ⟨fun x hx' => ?_, List.pairwise_cons.2 ⟨fun x hx' a ha ha' => ?_, o2.2⟩⟩,
        by simp [ln], fun a => ?_, fun a ha => ?_, fun i l0 d0 d0' hi1 hi2 hi3 => ?_⟩
      · rcases List.mem_cons.1 hx' with rfl | hx'
        · exact K.mono o1 n2.ge kd'
        · exact o2.1 x hx'
      · obtain ⟨d2, hd2, ha2⟩ := (ad2 a).1 ⟨x, hx', ha'⟩
        exact hpd.1 d2 hd2 a ((ad a).1 ha) ha2
      · simp only [List.mem_cons, exists_eq_or_imp]
        rw [ad a, ad2 a]
      · rw [b2 a fun d2 hd2 => ha d2 (by simp [hd2]), b1 a (ha d (by simp))]
      · cases i with
        | zero =>
          simp only [List.getElem?_cons_zero, Option.some.injEq] at hi1 hi2 hi3
          subst hi1 hi2 hi3
          exact ⟨P.mono p1 (fun _ _ => rfl) (fun _ _ => rfl) kd' ad, ad⟩
        | succ i =>
          simp only [List.getElem?_cons_succ] at hi1 hi2 hi3
          have hm0 := List.mem_of_getElem? hi2
          have adi := (p2 i l0 d0 d0' hi1 hi2 hi3).2
          exact ⟨P.mono (p2 i l0 d0 d0' hi1 hi2 hi3).1 (fun a ha => (kl l0 (List.mem_of_getElem? hi1) a ha).symm) (fun a ha => (kd d0 hm0 a ha).symm) (fun _ _ => rfl) adi, adi⟩

/-- Pasting over too short a list is out of bounds. -/
theorem pasteAll_short (paste : Mem F → L → L → Option (Mem F × L)) : ∀ (ls ds : List L) (m : Mem F), ds.length < ls.length → pasteAll paste ls ds m = none := by
  intro ls
  induction ls with
  | nil => intro ds m h; simp at h
  | cons l ls ih =>
    intro ds m h
    cases ds with
    | nil => rfl
    | cons d ds =>
      simp only [pasteAll, Option.bind_eq_bind, Option.bind_eq_none_iff]
      intro x _
      rw [ih ds _ (by simpa using h)]
      simp

end

theorem reads_mono {m' m1 : Mem F} {p : Option Nat} {n : Nat} {c : Nat → F} (h : Reads m' p n c) (h1 : ∀ a, p = some a → m1.blk a = m'.blk a) : Reads m1 p n c := by
  obtain ⟨b, B, hb, hB, hlen, hc⟩ := h
  exact ⟨b, B, hb, by rw [h1 b hb, hB], hlen, hc⟩

/-- Fully connected layers. -/
def fclPaste [Field F] [LinearOrder F] : PasteKind (fclKind (F := F)) where
  fit := FclFit
  paste := Fcl.paste
  Pasted := FclPasted
  mono {m l d m' d' m0 m1} h h0 h1 h2 had := by
    refine ⟨h.flags, h.ptr, h.k, fun x hl hc hc' a A b ha hA hb => reads_mono (h.learned x hl hc hc' a A b ha (by rw [← h0 a ⟨x, ha⟩]; exact hA) hb) fun a ha => h2 a ⟨x, ha⟩,
      fun x hl a ha => ?_⟩
    rw [h2 a ((had a).2 ⟨x, ha⟩), h1 a ⟨x, ha⟩, h.rest x hl a ha]
  spec m f c hf hc hap hfit := by
    obtain ⟨m', c', e, k1, k2, k3, oc, of, it, rd, rest, fr⟩ := FclLife.C155_paste m f c hf hc (fun x y a hx hy => hap a ⟨x, hx⟩ ⟨y, hy⟩) hfit.1 hfit.2
    refine ⟨m', c', e, ?_, oc, fun a => by show fclAddr c' a ↔ fclAddr c a; simp only [fclAddr, k2], fun a ha => fr a fun x hx => ha ⟨x, hx⟩, k1, k2, k3,
      fun x hl h1 h2 a A b ha hA hb => ?_, rest⟩
    · have e' := e
      unfold Fcl.paste at e'
      rw [if_neg (by simp [hfit.2]), if_neg (by rw [hfit.1, hfit.2, Nat.mul_comm]; simp)] at e'
      simp only [Option.bind_eq_bind, Option.bind_eq_some_iff, Option.some.injEq, Prod.mk.injEq] at e'
      obtain ⟨m2, e2, rfl, _⟩ := e'
      exact (copies_frame _ _ _ _ e2).1
    · obtain ⟨_, A', hA', hlen⟩ := hf.live x a ha
      rw [hA] at hA'
      obtain rfl := Option.some.inj hA'
      rw [hlen]
      exact rd x hl ((FclLife.allocated_iff _ x).2 h1) ((FclLife.allocated_iff _ x).2 h2) a _ b ha hA hb

/-- Convolutional layers. -/
def clPaste [Field F] : PasteKind (clKind (F := F)) where
  fit := ClFit
  paste := Cl.paste
  Pasted := ClPasted
  mono {m l d m' d' m0 m1} h h0 h1 h2 had := by
    refine ⟨h.flags, h.ptr, h.k, fun x hl hc hc' hg a A b ha hA hb => reads_mono (h.learned x hl hc hc' hg a A b ha (by rw [← h0 a ⟨x, ha⟩]; exact hA) hb) fun a ha => h2 a ⟨x, ha⟩,
      fun x hl a ha => ?_⟩
    rw [h2 a ((had a).2 ⟨x, ha⟩), h1 a ⟨x, ha⟩, h.rest x hl a ha]
  spec m c d hc hd hap hfit := by
    obtain ⟨m', e, oc, od, it, rd, fr⟩ := (ConvLife.C157_paste_partial m c d hc hd fun x y a hx hy => hap a ⟨x, hx⟩ ⟨y, hy⟩).2 hfit.1 hfit.2
    refine ⟨m', { d with k := c.k }, e, ?_, ?_, fun a => Iff.rfl, fun a ha => fr a fun x _ _ _ hx => ha ⟨x, hx⟩, rfl, rfl, rfl,
      fun x hl h1 h2 hg a A b ha hA hb => ?_, fun x hl a ha => fr a fun y hy _ _ hya => ?_⟩
    · have e' := e
      unfold Cl.paste at e'
      rw [if_neg (by rw [hfit.1.1, hfit.1.2]; tauto)] at e'
      simp only [Option.bind_eq_bind, Option.bind_eq_some_iff, Option.some.injEq, Prod.mk.injEq] at e'
      obtain ⟨m2, e2, rfl, _⟩ := e'
      exact (copyAll_frame _ _ _ _ _ e2).1
    · exact (⟨od.owns, od.place, od.kernels, od.groups, od.grads, od.biases⟩ : ConvLife.Own m' { d with k := c.k })
    · obtain ⟨_, A', hA', hlen⟩ := hc.owns.live x a ha
      rw [hA] at hA'
      obtain rfl := Option.some.inj hA'
      rw [hlen]
      exact rd x hl ((ConvLife.has_called _ x).2 h1) ((ConvLife.has_called _ x).2 h2) hg a _ b ha hA hb
    · rw [hd.owns.inj _ _ a hya ha, hl] at hy
      cases hy

/-- Residual layers. -/
def rlPaste [Field F] : PasteKind (rlKind (F := F)) where
  fit := RlFit
  paste := Rl.paste
  Pasted := RlPasted
  mono {m l d m' d' m0 m1} h h0 h1 h2 had := by
    refine ⟨h.shape, h.ptr, h.length, fun i c d1 d2 hc hd hd' => ?_, fun x a ha => ?_⟩
    · have hp := h.cls i c d1 d2 hc hd hd'
      exact clPaste.mono hp (fun a ha => h0 a (Or.inl ⟨c, List.mem_of_getElem? hc, ha⟩)) (fun a ha => h1 a (Or.inl ⟨d1, List.mem_of_getElem? hd, ha⟩))
        (fun a ha => h2 a (Or.inl ⟨d2, List.mem_of_getElem? hd', ha⟩)) fun a => by show clAddr d2 a ↔ clAddr d1 a; simp only [clAddr, hp.ptr]
    · rw [h2 a ((had a).2 (Or.inr ⟨x, ha⟩)), h1 a (Or.inr ⟨x, ha⟩), h.rest x a ha]
  spec m l d hl hd hap hfit := by
    obtain ⟨m', ds', e, n, o, ln, ad, fr, ps⟩ := pasteAll_spec clPaste l.cls d.cls m hfit ⟨hl.cls, hl.apart⟩ ⟨hd.cls, hd.apart⟩
      fun c hc c' hc' a ha ha' => hap a (Or.inl ⟨c, hc, ha⟩) (Or.inl ⟨c', hc', ha'⟩)
    have kp : ∀ x a, d.ptr x = some a → m'.blk a = m.blk a := fun x a hx => fr a fun c hc ha => hd.apart' c hc a ha ⟨x, hx⟩
    have hsz : ({ d with cls := ds' } : Rl F).size = d.size := by
      funext x
      unfold Rl.size
      simp only [ln]
    refine ⟨m', { d with cls := ds' }, ?_, n, ⟨o.1, ⟨fun x a hx => ?_, hd.blocks.inj⟩, hd.place, hd.rows, o.2, fun c hc a ha ⟨x, hx⟩ => ?_⟩, fun a => ?_, fun a ha => ?_,
      ⟨⟨rfl, rfl, rfl, rfl⟩, rfl, ln, fun i c d1 d2 h1 h2 h3 => (ps i c d1 d2 h1 h2 h3).1, kp⟩⟩
    · unfold Rl.paste
      have e' : pasteAll Cl.paste l.cls d.cls m = some (m', ds') := e
      rw [e']
      rfl
    · obtain ⟨h1, A, h2, h3⟩ := hd.blocks.live x a hx
      exact ⟨by omega, A, by rw [kp x a hx, h2], by rw [hsz]; exact h3⟩
    · obtain ⟨c', hc', ha'⟩ := (ad a).1 ⟨c, hc, ha⟩
      exact hd.apart' c' hc' a ha' ⟨x, hx⟩
    · exact or_congr (ad a) Iff.rfl
    · exact fr a fun c hc hca => ha (Or.inl ⟨c, hc, hca⟩)

section
variable [Field F] [LinearOrder F]

/-- Models. -/
def mdlPaste : PasteKind (mdlKind (F := F)) where
  fit := MdlFit
  paste := Mdl.paste
  Pasted := MdlPasted
  mono {m l d m' d' m0 m1} h h0 h1 h2 had := by
    refine ⟨h.same, h.length, fun i c d1 d2 hc hd hd' => ?_, fun i c d1 d2 hc hd hd' => ?_, fun i c d1 d2 hc hd hd' => ?_, fun x a ha => ?_⟩
    · have hp := h.fcls i c d1 d2 hc hd hd'
      exact fclPaste.mono hp (fun a ha => h0 a (Or.inl ⟨c, List.mem_of_getElem? hc, ha⟩)) (fun a ha => h1 a (Or.inl ⟨d1, List.mem_of_getElem? hd, ha⟩))
        (fun a ha => h2 a (Or.inl ⟨d2, List.mem_of_getElem? hd', ha⟩)) fun a => by show fclAddr d2 a ↔ fclAddr d1 a; simp only [fclAddr, hp.ptr]
    · have hp := h.cls i c d1 d2 hc hd hd'
      exact clPaste.mono hp (fun a ha => h0 a (Or.inr (Or.inl ⟨c, List.mem_of_getElem? hc, ha⟩))) (fun a ha => h1 a (Or.inr (Or.inl ⟨d1, List.mem_of_getElem? hd, ha⟩)))
        (fun a ha => h2 a (Or.inr (Or.inl ⟨d2, List.mem_of_getElem? hd', ha⟩))) fun a => by show clAddr d2 a ↔ clAddr d1 a; simp only [clAddr, hp.ptr]
    · have hp := h.rls i c d1 d2 hc hd hd'
      exact ⟨rlPaste.mono hp.1 (fun a ha => h0 a (Or.inr (Or.inr (Or.inl ⟨c, List.mem_of_getElem? hc, ha⟩)))) (fun a ha => h1 a (Or.inr (Or.inr (Or.inl ⟨d1, List.mem_of_getElem? hd, ha⟩))))
        (fun a ha => h2 a (Or.inr (Or.inr (Or.inl ⟨d2, List.mem_of_getElem? hd', ha⟩)))) hp.2, hp.2⟩
    · rw [h2 a ((had a).2 (Or.inr (Or.inr (Or.inr ⟨x, ha⟩)))), h1 a (Or.inr (Or.inr (Or.inr ⟨x, ha⟩))), h.rest x a ha]
  spec m M D hM hD hap hfit := by
    obtain ⟨f1, f2, f3⟩ := hfit
    obtain ⟨a1, a2, a3, a4, a5, a6, a7, a8, a9⟩ := hM.parts
    obtain ⟨b1, b2, b3, b4, b5, b6, b7, b8, b9⟩ := hD.parts
    have iF : ∀ {M : Mdl F} {x a}, x ∈ M.fcls → fclAddr x a → mdlAddr M a := fun hx ha => Or.inl ⟨_, hx, ha⟩
    have iC : ∀ {M : Mdl F} {x a}, x ∈ M.cls → clAddr x a → mdlAddr M a := fun hx ha => Or.inr (Or.inl ⟨_, hx, ha⟩)
    have iR : ∀ {M : Mdl F} {x a}, x ∈ M.rls → rlAddr x a → mdlAddr M a := fun hx ha => Or.inr (Or.inr (Or.inl ⟨_, hx, ha⟩))
    obtain ⟨m1, d1, e1, n1, o1, l1, ad1, fr1, p1⟩ := pasteAll_spec fclPaste M.fcls D.fcls m f1 a1 b1 fun c hc c' hc' a ha ha' => hap a (iF hc ha) (iF hc' ha')
    have g1 : ∀ {x a}, x ∈ M.cls → clAddr x a → m1.blk a = m.blk a := fun hx ha => fr1 _ fun d hd hda => hap _ (iC hx ha) (iF hd hda)
    have g2 : ∀ {x a}, x ∈ D.cls → clAddr x a → m1.blk a = m.blk a := fun hx ha => fr1 _ fun d hd hda => b4 d hd _ hx _ hda ha
    obtain ⟨m2, d2, e2, n2, o2, l2, ad2, fr2, p2⟩ := pasteAll_spec clPaste M.cls D.cls m1 f2 (Kind.All.mono _ a2 n1.ge fun x hx a ha => g1 hx ha)
      (Kind.All.mono _ b2 n1.ge fun x hx a ha => g2 hx ha) fun c hc c' hc' a ha ha' => hap a (iC hc ha) (iC hc' ha')
    have g3 : ∀ {x a}, x ∈ M.rls → rlAddr x a → m2.blk a = m.blk a := fun hx ha => by
      rw [fr2 _ fun d hd hda => hap _ (iR hx ha) (iC hd hda), fr1 _ fun d hd hda => hap _ (iR hx ha) (iF hd hda)]
    have g4 : ∀ {x a}, x ∈ D.rls → rlAddr x a → m2.blk a = m.blk a := fun hx ha => by
      rw [fr2 _ fun d hd hda => b6 d hd _ hx _ hda ha, fr1 _ fun d hd hda => b5 d hd _ hx _ hda ha]
    obtain ⟨m3, d3, e3, n3, o3, l3, ad3, fr3, p3⟩ := pasteAll_spec rlPaste M.rls D.rls m2 f3 (Kind.All.mono _ a3 (by omega) fun x hx a ha => g3 hx ha)
      (Kind.All.mono _ b3 (by omega) fun x hx a ha => g4 hx ha) fun c hc c' hc' a ha ha' => hap a (iR hc ha) (iR hc' ha')
    have h1 : ∀ a, (∃ d ∈ D.fcls, fclAddr d a) → m3.blk a = m1.blk a := fun a ⟨d, hd, ha⟩ => by
      rw [fr3 a fun x hx hxa => b5 d hd x hx a ha hxa, fr2 a fun x hx hxa => b4 d hd x hx a ha hxa]
    have h2 : ∀ a, (∃ d ∈ D.cls, clAddr d a) → m3.blk a = m2.blk a := fun a ⟨d, hd, ha⟩ => fr3 a fun x hx hxa => b6 d hd x hx a ha hxa
    have h3 : ∀ x a, D.ptr x = some a → m3.blk a = m.blk a := fun x a hx => by
      rw [fr3 a fun l hl hla => b9 l hl a hla ⟨x, hx⟩, fr2 a fun l hl hla => b8 l hl a hla ⟨x, hx⟩, fr1 a fun l hl hla => b7 l hl a hla ⟨x, hx⟩]
    have hsz : ({ D with fcls := d1, cls := d2, rls := d3 } : Mdl F).size = D.size := by
      funext x
      unfold Mdl.size
      simp only [l1, l2, l3]
    have nil_iff : ∀ {L : Type} {x y : List L}, x.length = y.length → (x ≠ [] ↔ y ≠ []) := fun h => by
      rw [← List.length_pos_iff, ← List.length_pos_iff, h]
    refine ⟨m3, { D with fcls := d1, cls := d2, rls := d3 }, ?_, by omega, ⟨fun x hx => ?_, fun x hx => ?_, o3.1, ⟨fun x a hx => ?_, hD.blocks.inj⟩, hD.place, ?_, hD.loss, hD.weights, ?_⟩,
      fun a => ?_, fun a ha => ?_, ⟨⟨rfl, rfl, rfl, rfl, rfl⟩, ⟨l1, l2, l3⟩, fun i x y z hx hy hz => ?_, fun i x y z hx hy hz => ?_, fun i x y z hx hy hz => ?_, h3⟩⟩
    · have e1' : pasteAll Fcl.paste M.fcls D.fcls m = some (m1, d1) := e1
      have e2' : pasteAll Cl.paste M.cls D.cls m1 = some (m2, d2) := e2
      have e3' : pasteAll Rl.paste M.rls D.rls m2 = some (m3, d3) := e3
      unfold Mdl.paste
      simp only [e1', e2', e3', Option.bind_eq_bind, Option.bind_some]
    · exact fclKind.mono (o1.1 x hx) (by omega) fun a ha => h1 a ((ad1 a).1 ⟨x, hx, ha⟩)
    · exact clKind.mono (o2.1 x hx) (by omega) fun a ha => h2 a ((ad2 a).1 ⟨x, hx, ha⟩)
    · obtain ⟨k1, A, k2, k3⟩ := hD.blocks.live x a hx
      exact ⟨by omega, A, by rw [h3 x a hx, k2], by rw [hsz]; exact k3⟩
    · obtain ⟨t1, t2, t3⟩ := hD.tabled
      exact ⟨t1.trans (nil_iff l1).symm, t2.trans (nil_iff l2).symm, t3.trans (nil_iff l3).symm⟩
    · refine apart_of o1.2 o2.2 o3.2 (fun f hf c hc a ha hb => ?_) (fun f hf c hc a ha hb => ?_) (fun f hf c hc a ha hb => ?_) (fun f hf a ha hb => ?_)
        (fun f hf a ha hb => ?_) (fun f hf a ha hb => ?_)
      · obtain ⟨x, hx, hxa⟩ := (ad1 a).1 ⟨f, hf, ha⟩
        obtain ⟨y, hy, hya⟩ := (ad2 a).1 ⟨c, hc, hb⟩
        exact b4 x hx y hy a hxa hya
      · obtain ⟨x, hx, hxa⟩ := (ad1 a).1 ⟨f, hf, ha⟩
        obtain ⟨y, hy, hya⟩ := (ad3 a).1 ⟨c, hc, hb⟩
        exact b5 x hx y hy a hxa hya
      · obtain ⟨x, hx, hxa⟩ := (ad2 a).1 ⟨f, hf, ha⟩
        obtain ⟨y, hy, hya⟩ := (ad3 a).1 ⟨c, hc, hb⟩
        exact b6 x hx y hy a hxa hya
      · obtain ⟨x, hx, hxa⟩ := (ad1 a).1 ⟨f, hf, ha⟩
        exact b7 x hx a hxa hb
      · obtain ⟨x, hx, hxa⟩ := (ad2 a).1 ⟨f, hf, ha⟩
        exact b8 x hx a hxa hb
      · obtain ⟨x, hx, hxa⟩ := (ad3 a).1 ⟨f, hf, ha⟩
        exact b9 x hx a hxa hb
    · exact or_congr (ad1 a) (or_congr (ad2 a) (or_congr (ad3 a) Iff.rfl))
    · rw [fr3 a fun x hx hxa => ha (iR hx hxa), fr2 a fun x hx hxa => ha (iC hx hxa), fr1 a fun x hx hxa => ha (iF hx hxa)]
    · obtain ⟨q, qa⟩ := p1 i x y z hx hy hz
      exact fclPaste.mono q (fun _ _ => rfl) (fun _ _ => rfl) (fun a ha => h1 a ⟨y, List.mem_of_getElem? hy, (qa a).1 ha⟩) qa
    · obtain ⟨q, qa⟩ := p2 i x y z hx hy hz
      exact clPaste.mono q (fun a ha => (g1 (List.mem_of_getElem? hx) ha).symm) (fun a ha => (g2 (List.mem_of_getElem? hy) ha).symm)
        (fun a ha => h2 a ⟨y, List.mem_of_getElem? hy, (qa a).1 ha⟩) qa
    · obtain ⟨q, qa⟩ := p3 i x y z hx hy hz
      exact ⟨rlPaste.mono q (fun a ha => (g3 (List.mem_of_getElem? hx) ha).symm) (fun a ha => (g4 (List.mem_of_getElem? hy) ha).symm) (fun _ _ => rfl) qa, qa⟩

/-! ### C160 -/

omit [LinearOrder F] in
/-- A fresh copy fits its source, in both directions. -/
theorem MdlCopied.fit {m m' : Mem F} {M C : Mdl F} (h : MdlCopied m M m' C) : MdlFit M C ∧ MdlFit C M := by
  have cf : ∀ {c d : Cl F}, ClCopied m c m' d → ClFit c d ∧ ClFit d c := fun {c d} h => by
    have e := h.flags
    unfold ClFit ConvLife.SameShape
    rw [e]
    simp
  have ff : ∀ {c d : Fcl F}, FclCopied m c m' d → FclFit c d ∧ FclFit d c := fun {c d} h => by
    have e := h.flags
    unfold FclFit
    rw [e]
    simp
  exact ⟨⟨h.fcls.imp fun _ _ q => (ff q).1, h.cls.imp fun _ _ q => (cf q).1, h.rls.imp fun _ _ q => q.cls.imp fun _ _ q => (cf q).1⟩,
    ⟨h.fcls.flip.imp fun _ _ q => (ff q).2, h.cls.flip.imp fun _ _ q => (cf q).2, h.rls.flip.imp fun _ _ q => q.cls.flip.imp fun _ _ q => (cf q).2⟩⟩

/-- C160, models that fit: `paste_model` puts what the source has learned into the target, layer by layer; the target keeps its blocks, its shape, its
loss and its rates, the source and all memory outside the target stay as they were. -/
theorem C160_paste_partial (m : Mem F) (M D : Mdl F) (hM : MdlOwn m M) (hD : MdlOwn m D) (hap : Disj (mdlAddr M) (mdlAddr D)) (hf : MdlFit M D) :
    ∃ m' D', M.paste m D = some (m', D') ∧ MdlOwn m' D' ∧ MdlOwn m' M ∧ Disj (mdlAddr M) (mdlAddr D') ∧ (∀ a, mdlAddr D' a ↔ mdlAddr D a) ∧
      (∀ a, ¬ mdlAddr D a → m'.blk a = m.blk a) ∧ MdlPasted m M D m' D' := by
  obtain ⟨m', D', e, n, o, ad, fr, p⟩ := mdlPaste.spec m M D hM hD hap hf
  exact ⟨m', D', e, o, hM.mono n.ge fun a ha => fr a fun hd => hap a ha hd, fun a ha hd => hap a ha ((ad a).1 hd), ad, fr, p⟩

/-- C160, a copy can be pasted back: after `copy_model`, however the contents of copy and source change, pasting either on the other works. -/
theorem C160_copy_back (m m0 m' : Mem F) (M C : Mdl F) (hM : MdlOwn m M) (hC : MdlOwn m C) (hap : Disj (mdlAddr M) (mdlAddr C)) (hc : MdlCopied m0 M m' C) :
    (∃ m1 M', C.paste m M = some (m1, M') ∧ MdlOwn m1 M' ∧ MdlPasted m C M m1 M') ∧ ∃ m2 C', M.paste m C = some (m2, C') ∧ MdlOwn m2 C' ∧ MdlPasted m M C m2 C' := by
  obtain ⟨m1, M', e1, o1, _, _, _, _, p1⟩ := C160_paste_partial m C M hC hM (fun a ha hb => hap a hb ha) hc.fit.2
  obtain ⟨m2, C', e2, o2, _, _, _, _, p2⟩ := C160_paste_partial m M C hM hC hap hc.fit.1
  exact ⟨⟨m1, M', e1, o1, p1⟩, m2, C', e2, o2, p2⟩

omit [Field F] [LinearOrder F] in
/-- C160, refuted for a target with fewer layers: nothing is checked, the tables are read out of bounds. -/
theorem C160_short_refuted (m : Mem F) (M D : Mdl F) (h : D.fcls.length < M.fcls.length) : M.paste m D = none := by
  unfold Mdl.paste
  rw [pasteAll_short _ _ _ _ h]
  rfl

omit [Field F] [LinearOrder F] in
/-- C160, refuted for the state of the optimiser: the powers of the rates of Adam in the target are those of the target, although its moments are
those of the source. -/
theorem C160_rates_refuted (m m' : Mem F) (M D D' : Mdl F) (h : M.paste m D = some (m', D')) (hb : M.betas ≠ D.betas) : D'.betas = D.betas ∧ D'.betas ≠ M.betas := by
  unfold Mdl.paste at h
  simp only [Option.bind_eq_bind, Option.bind_eq_some_iff, Option.some.injEq, Prod.mk.injEq] at h
  obtain ⟨_, _, _, _, _, _, _, rfl⟩ := h
  exact ⟨rfl, fun h => hb h.symm⟩

/-- C160, auto-encoders that fit: `paste_vae_model` pastes encoder on encoder and decoder on decoder, and changes nothing else. -/
theorem C160_vae (m : Mem F) (v d : VaeNet F) (hv : VaeOwn m v) (hd : VaeOwn m d) (hap : Disj (vaeAddr v) (vaeAddr d)) (he : MdlFit v.encoder d.encoder)
    (hc : MdlFit v.decoder d.decoder) :
    ∃ m' d', v.paste m d = some (m', d') ∧ VaeOwn m' d' ∧ VaeOwn m' v ∧ d'.latent = d.latent ∧ d'.ptr = d.ptr ∧ MdlPasted m v.encoder d.encoder m' d'.encoder ∧
      MdlPasted m v.decoder d.decoder m' d'.decoder ∧ ∀ a, ¬ mdlAddr d.encoder a → ¬ mdlAddr d.decoder a → m'.blk a = m.blk a := by
  obtain ⟨m1, E, e1, n1, o1, ad1, fr1, p1⟩ := mdlPaste.spec m v.encoder d.encoder hv.encoder hd.encoder (fun a ha hb => hap a (Or.inl ha) (Or.inl hb)) he
  have k1 : ∀ a, mdlAddr v.decoder a → m1.blk a = m.blk a := fun a ha => fr1 a fun hb => hap a (Or.inr (Or.inl ha)) (Or.inl hb)
  have k2 : ∀ a, mdlAddr d.decoder a → m1.blk a = m.blk a := fun a ha => fr1 a fun hb => hd.apart a hb ha
  obtain ⟨m2, C, e2, n2, o2, ad2, fr2, p2⟩ := mdlPaste.spec m1 v.decoder d.decoder (hv.decoder.mono n1.ge k1) (hd.decoder.mono n1.ge k2)
    (fun a ha hb => hap a (Or.inr (Or.inl ha)) (Or.inr (Or.inl hb))) hc
  have k3 : ∀ a, mdlAddr E a → m2.blk a = m1.blk a := fun a ha => fr2 a fun hb => hd.apart a ((ad1 a).1 ha) hb
  have fr : ∀ a, ¬ mdlAddr d.encoder a → ¬ mdlAddr d.decoder a → m2.blk a = m.blk a := fun a h1 h2 => by rw [fr2 a h2, fr1 a h1]
  have kv : ∀ a, vaeAddr v a → m2.blk a = m.blk a := fun a ha => fr a (fun hb => hap a ha (Or.inl hb)) fun hb => hap a ha (Or.inr (Or.inl hb))
  refine ⟨m2, { d with encoder := E, decoder := C }, ?_, ⟨o1.mono n2.ge k3, o2, ⟨fun x a hx => ?_, hd.blocks.inj⟩, hd.full, fun a ha hb => hd.apart a ((ad1 a).1 ha) ((ad2 a).1 hb),
    fun a ha hb => hd.apartE a ((ad1 a).1 ha) hb, fun a ha hb => hd.apartD a ((ad2 a).1 ha) hb⟩, ⟨hv.encoder.mono (by omega) fun a ha => kv a (Or.inl ha),
    hv.decoder.mono (by omega) fun a ha => kv a (Or.inr (Or.inl ha)), ⟨fun x a hx => ?_, hv.blocks.inj⟩, hv.full, hv.apart, hv.apartE, hv.apartD⟩, rfl, rfl, ?_, ?_, fr⟩
  · have e1' : v.encoder.paste m d.encoder = some (m1, E) := e1
    have e2' : v.decoder.paste m1 d.decoder = some (m2, C) := e2
    unfold VaeNet.paste
    simp only [e1', e2', Option.bind_eq_bind, Option.bind_some]
  · obtain ⟨h1, A, h2, h3⟩ := hd.blocks.live x a hx
    exact ⟨by omega, A, by rw [fr a (fun hb => hd.apartE a hb ⟨x, hx⟩) fun hb => hd.apartD a hb ⟨x, hx⟩, h2], h3⟩
  · obtain ⟨h1, A, h2, h3⟩ := hv.blocks.live x a hx
    exact ⟨by omega, A, by rw [kv a (Or.inr (Or.inr ⟨x, hx⟩)), h2], h3⟩
  · exact mdlPaste.mono p1 (fun _ _ => rfl) (fun _ _ => rfl) k3 ad1
  · exact mdlPaste.mono p2 (fun a ha => (k1 a ha).symm) (fun a ha => (k2 a ha).symm) (fun _ _ => rfl) ad2

/-- C160, duelling networks that fit: `paste_dueling_categorical_dqn` pastes the five models one by one and takes over the choice of quantile regression;
support, sizes and the other arrays stay. -/
theorem C160_dqn (m : Mem F) (d c : Dqn F) (hd : DqnOwn m d) (hc : DqnOwn m c) (hap : Disj (dqnAddr d) (dqnAddr c)) (hf : List.Forall₂ MdlFit d.models c.models) :
    ∃ m' c', d.paste m c = some (m', c') ∧ DqnOwn m' c' ∧ DqnOwn m' d ∧ c'.qr = d.qr ∧ c'.ptr = c.ptr ∧
      (c'.input = c.input ∧ c'.actions = c.actions ∧ c'.atoms = c.atoms ∧ c'.vmin = c.vmin ∧ c'.vmax = c.vmax) ∧ c'.models.length = c.models.length ∧
      (∀ (i : Nat) M C C', d.models[i]? = some M → c.models[i]? = some C → c'.models[i]? = some C' → MdlPasted m M C m' C') ∧
      ∀ a, (∀ C ∈ c.models, ¬ mdlAddr C a) → m'.blk a = m.blk a := by
  obtain ⟨m', cs, e, n, o, ln, ad, fr, p⟩ := pasteAll_spec mdlPaste d.models c.models m hf ⟨hd.models, hd.apart⟩ ⟨hc.models, hc.apart⟩
    fun M hM C hC a ha hb => hap a (Or.inl ⟨M, hM, ha⟩) (Or.inl ⟨C, hC, hb⟩)
  have kv : ∀ a, dqnAddr d a → m'.blk a = m.blk a := fun a ha => fr a fun C hC hb => hap a ha (Or.inl ⟨C, hC, hb⟩)
  refine ⟨m', { c with models := cs, qr := d.qr }, ?_, ⟨o.1, ⟨fun x a hx => ?_, hc.blocks.inj⟩, hc.full, o.2, fun M hM a ha hb => ?_⟩,
    ⟨fun M hM => (hd.models M hM).mono n.ge fun a ha => kv a (Or.inl ⟨M, hM, ha⟩), ⟨fun x a hx => ?_, hd.blocks.inj⟩, hd.full, hd.apart, hd.apart'⟩, rfl, rfl, ⟨rfl, rfl, rfl, rfl, rfl⟩, ln,
    fun i M C C' h1 h2 h3 => (p i M C C' h1 h2 h3).1, fr⟩
  · have e' : pasteAll Mdl.paste d.models c.models m = some (m', cs) := e
    unfold Dqn.paste
    simp only [e', Option.bind_eq_bind, Option.bind_some]
  · obtain ⟨h1, A, h2, h3⟩ := hc.blocks.live x a hx
    exact ⟨by omega, A, by rw [fr a fun C hC hb => hc.apart' C hC a hb ⟨x, hx⟩, h2], h3⟩
  · obtain ⟨C, hC, hCa⟩ := (ad a).1 ⟨M, hM, ha⟩
    exact hc.apart' C hC a hCa hb
  · obtain ⟨h1, A, h2, h3⟩ := hd.blocks.live x a hx
    exact ⟨by omega, A, by rw [kv a (Or.inr ⟨x, hx⟩), h2], h3⟩

end

/-- A model with layers of every kind and its copy: each can be pasted on the other. -/
example : ∃ (m : Mem ℚ) (M C : Mdl ℚ), MdlOwn m M ∧ MdlOwn m C ∧ Disj (mdlAddr M) (mdlAddr C) ∧ MdlFit M C ∧ MdlFit C M ∧ M.fcls.length = 1 ∧ M.rls.length = 1 ∧
    (∃ m' C', M.paste m C = some (m', C') ∧ MdlPasted m M C m' C') ∧ (Mdl.mk 0 0 none (0, 0, 0) [] [] [] fun _ => none : Mdl ℚ).fcls.length < M.fcls.length := by
  obtain ⟨m, M, _, o, c, h1, _, h3, _, _⟩ := demo_model
  obtain ⟨m', C, _, oC, n, ne, fr, cp⟩ := mdlKind.dup_spec m M ⟨fun _ => FclLife.demoDraws, fun _ _ _ => 0, fun _ _ _ _ => 0⟩ o c
  have hap : Disj (mdlAddr M) (mdlAddr C) := fun a ha hb => absurd (ne a hb) (by have := (o.live ha).1; omega)
  have oM : MdlOwn m' M := o.mono n fun a ha => fr a fun hb => hap a ha hb
  have hf : MdlFit M C ∧ MdlFit C M := MdlCopied.fit cp
  obtain ⟨m2, C', e, _, _, _, _, _, p⟩ := C160_paste_partial m' M C oM oC hap hf.1
  exact ⟨m', M, C, oM, oC, hap, hf.1, hf.2, h1, h3, ⟨m2, C', e, p⟩, by rw [h1]; decide⟩

end LLab.ModelLife
