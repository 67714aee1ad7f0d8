import Verif.Layers.PasteLife

/-!
Resetting whole models: `reset_model` (`/repo/src/model.c`), `reset_rl` (`/repo/src/residual_layers.c`), `reset_vae_model`
(`/repo/src/vae_model.c`) and `reset_dueling_categorical_dqn` (`/repo/src/dueling_categorical_dqn.c`), as called between two samples.
Property C161.
-/

namespace LLab.ModelLife

open FclLife (Mem Fcl Reads Draws)
open ConvLife (Cl)
open Heap

variable {F : Type}

/-! ### Model -/

/-- Reset the members of a list one after the other. -/
def resetAll {L S : Type} (reset : Mem F → L → S → Option (Mem F × L)) : List L → Mem F → (Nat → S) → Option (Mem F × List L)
  | [], m, _ => some (m, [])
  | l :: ls, m, s => do
    let (m, l) ← reset m l (s 0)
    let (m, ls) ← resetAll reset ls m fun i => s (i + 1)
    some (m, l :: ls)

/-- The external parts of resets: the ranking of scores by `sort` and the used outputs and kernels. -/
structure Sorts (F : Type) where
  rank : Arr F → Nat → F
  outputs : Arr F → Arr F
  kernels : Arr F → Nat → F

section
variable [Field F]

/-- The write loops of `reset_cl_without_learning_parameters` (`/repo/src/convolutional_layers.c` 2002-2053) on the sum layer of a
residual layer, which is convolutional, not for inference only, without normalisation, pooling and scores. -/
def Rl.sumSteps (l : Rl F) : List (Wr RFld F) :=
  ((List.range l.channels).map fun i => ⟨.out (.row .d i), (l.ptr (.out (.tab .d))).isSome, fun _ => 0⟩) ++
  [⟨.out (.vec (.bias .d)), (l.ptr (.out (.vec (.bias .d)))).isSome, fun _ => 0⟩, ⟨.out (.vec .pre), true, fun _ => 0⟩,
    ⟨.out (.vec .post), l.flag != 0, fun _ => 0⟩, ⟨.out (.vec .temp), true, fun _ => 0⟩, ⟨.out (.vec .temp2), true, fun _ => 0⟩,
    ⟨.out (.vec .temp3), true, fun _ => 0⟩, ⟨.out (.vec .error2), true, fun _ => 0⟩]

/-- `reset_rl` (`/repo/src/residual_layers.c` 343-355). -/
def Rl.reset (S : Sorts F) (m : Mem F) (l : Rl F) : Option (Mem F × Rl F) := do
  let (m, cls) ← resetAll (fun m c (_ : Unit) => (c.reset S.rank S.kernels m).map fun m => (m, c)) l.cls m fun _ => ()
  let m ← writeAll l.ptr l.size l.sumSteps m
  some (m, { l with cls := cls })

variable [LinearOrder F]

/-- `reset_model` (`/repo/src/model.c` 684-704). `r` is the new noise of the layers. -/
def Mdl.reset (S : Sorts F) (m : Mem F) (M : Mdl F) (r : Nat → Draws F) : Option (Mem F × Mdl F) := do
  let (m, fcls) ← resetAll (fun m f r => f.reset S.rank S.outputs m r) M.fcls m r
  let (m, cls) ← resetAll (fun m c (_ : Unit) => (c.reset S.rank S.kernels m).map fun m => (m, c)) M.cls m fun _ => ()
  let (m, rls) ← resetAll (fun m l (_ : Unit) => l.reset S m) M.rls m fun _ => ()
  let m ← writeAll M.ptr M.size [⟨.error, (M.ptr .error).isSome, fun _ => 0⟩] m
  some (m, { M with fcls := fcls, cls := cls, rls := rls })

/-- `reset_vae_model` (`/repo/src/vae_model.c` 127-139). -/
def VaeNet.reset (S : Sorts F) (m : Mem F) (v : VaeNet F) (r : (Nat → Draws F) × (Nat → Draws F)) : Option (Mem F × VaeNet F) := do
  let (m, e) ← v.encoder.reset S m r.1
  let (m, d) ← v.decoder.reset S m r.2
  let m ← writeAll v.ptr (fun _ => v.latent) [⟨.dstd, true, fun _ => 0⟩, ⟨.dmean, true, fun _ => 0⟩, ⟨.z, true, fun _ => 0⟩, ⟨.input, true, fun _ => 0⟩] m
  some (m, { v with encoder := e, decoder := d })

/-- `reset_dueling_categorical_dqn` (`/repo/src/dueling_categorical_dqn.c` 697-713). -/
def Dqn.reset (S : Sorts F) (m : Mem F) (d : Dqn F) (r : Nat → Nat → Draws F) : Option (Mem F × Dqn F) := do
  let (m, ms) ← resetAll (fun m M r => M.reset S m r) d.models m r
  let m ← writeAll d.ptr (dqnSize d.actions d.atoms) ([DFld.mean, .valueError, .q, .add, .advError, .error, .soft, .softD].map fun x => ⟨x, true, fun _ => 0⟩) m
  some (m, { d with models := ms })

end

/-! ### Specification -/

section
variable [Zero F]

/-- The layer `f` is ready for a new sample: gradients and what the passes leave behind are cleared, nothing is dropped, new noise
is drawn, and what it has learned is as before. -/
structure FclCleared [One F] (r : Draws F) (m : Mem F) (f : Fcl F) (m' : Mem F) : Prop where
  gradients : ∀ x, x.gradient = true → FclLife.Called f.fl x → Reads m' (f.ptr x) (f.fl.size x) fun _ => 0
  work : ∀ x ∈ [FclLife.Fld.pre, .post, .norm, .temp, .temp2, .temp3, .error2, .tempW, .tempB], FclLife.Called f.fl x → Reads m' (f.ptr x) (f.fl.size x) fun _ => 0
  mask : FclLife.Called f.fl .mask → Reads m' (f.ptr .mask) f.fl.output fun _ => 1
  noise : f.fl.noisy = true → Reads m' (f.ptr .noise) (f.fl.output * f.fl.input) r.noise ∧ Reads m' (f.ptr .noiseB) f.fl.output r.noiseB
  kept : ∀ x, x.learned = true → x.gradient = false → ∀ a, f.ptr x = some a → m'.blk a = m.blk a

@[inherit_doc FclCleared]
structure ClCleared (S : Sorts F) (m : Mem F) (c : Cl F) (m' : Mem F) : Prop where
  cleared : ∀ x, ConvLife.Called c.fl x → ConvLife.cleared x = true → Reads m' (c.ptr x) (c.fl.size x) fun _ => 0
  popup : c.fl.trainsPopup = true → ∃ a A, c.ptr (.vec (.score .val)) = some a ∧ m.blk a = some A ∧ m'.blk a = some A ∧
    Reads m' (c.ptr (.vec .indices)) (c.fl.nk * c.fl.ks) (S.rank A) ∧ Reads m' (c.ptr (.vec .used)) c.fl.nk (S.kernels A) ∧
    ((c.ptr (.vec (.score .d))).isSome → Reads m' (c.ptr (.vec (.score .d))) (c.fl.nk * c.fl.ks) fun _ => 0)
  kept : ∀ x a, c.ptr x = some a → ConvLife.cleared x = false →
    (c.fl.trainsPopup = true → x ∉ [ConvLife.CFld.vec (.score .d), .vec .indices, .vec .used]) → m'.blk a = m.blk a

/-- All layers of the residual layer are ready and the arrays of the sum layer are cleared, the activated sum only if there is an activation. -/
structure RlCleared (S : Sorts F) (m : Mem F) (l : Rl F) (m' : Mem F) : Prop where
  cls : ∀ c ∈ l.cls, ClCleared S m c m'
  sum : ∀ v ∈ [ConvLife.CVec.pre, .temp, .temp2, .temp3, .error2], Reads m' (l.ptr (.out (.vec v))) (l.channels * (l.rows * l.cols)) fun _ => 0
  activated : l.flag ≠ 0 → Reads m' (l.ptr (.out (.vec .post))) (l.channels * (l.rows * l.cols)) fun _ => 0
  gradients : (∀ i, i < l.channels → Reads m' (l.ptr (.out (.row .d i))) l.channels fun _ => 0) ∧ Reads m' (l.ptr (.out (.vec (.bias .d)))) l.channels fun _ => 0
  kept : ∀ x ∈ [RFld.tab, .out (.tab .d)], ∀ a, l.ptr x = some a → m'.blk a = m.blk a

/-- All layers of the model are ready, its error is cleared, the weights of the loss are as before. -/
structure MdlCleared [One F] (S : Sorts F) (r : Nat → Draws F) (m : Mem F) (M : Mdl F) (m' : Mem F) : Prop where
  fcls : ∀ (i : Nat) f, M.fcls[i]? = some f → FclCleared (r i) m f m'
  cls : ∀ c ∈ M.cls, ClCleared S m c m'
  rls : ∀ l ∈ M.rls, RlCleared S m l m'
  error : (M.ptr .error).isSome = true → Reads m' (M.ptr .error) M.out fun _ => 0
  kept : ∀ x a, x ≠ .error → M.ptr x = some a → m'.blk a = m.blk a

end

/-- Nothing is missing in a residual layer. -/
def RlReady (l : Rl F) : Prop := (∀ c ∈ l.cls, ConvLife.Usable c) ∧ ∀ x ∈ rlOrder l.channels, (l.ptr x).isSome = true
/-- Nothing is missing in a model, and no fully connected layer trains its scores. -/
def MdlReady (M : Mdl F) : Prop :=
  (∀ f ∈ M.fcls, FclLife.Full f ∧ f.fl.train ≠ .edge) ∧ (∀ c ∈ M.cls, ConvLife.Usable c) ∧ ∀ l ∈ M.rls, RlReady l

/-! ### Kinds of objects that can be reset -/

/-- What is used of a kind of objects that can be reset. -/
structure ResetKind {L R : Type} (S : Type) (K : Kind L R F) where
  ready : L → Prop
  reset : Mem F → L → S → Option (Mem F × L)
  Clear : S → Mem F → L → Mem F → Prop
  mono : ∀ {s m l m' m0 m1}, Clear s m l m' → (∀ a, K.addr l a → m0.blk a = m.blk a) → (∀ a, K.addr l a → m1.blk a = m'.blk a) → Clear s m0 l m1
  spec : ∀ m l s, K.Own m l → ready l → ∃ m', reset m l s = some (m', l) ∧ m'.next = m.next ∧ K.Own m' l ∧ (∀ a, ¬ K.addr l a → m'.blk a = m.blk a) ∧ Clear s m l m'

section
variable {L R S : Type} {K : Kind L R F} (P : ResetKind S K)

theorem resetAll_spec : ∀ (ls : List L) (m : Mem F) (s : Nat → S), K.All m ls → (∀ l ∈ ls, P.ready l) →
    ∃ m', resetAll P.reset ls m s = some (m', ls) ∧ m'.next = m.next ∧ K.All m' ls ∧ (∀ a, (∀ l ∈ ls, ¬ K.addr l a) → m'.blk a = m.blk a) ∧
      ∀ (i : Nat) l, ls[i]? = some l → P.Clear (s i) m l m' := by
  intro ls
  induction ls with
  | nil =>
    intro m s h _
    exact ⟨m, rfl, rfl, h, fun _ _ => rfl, fun i l h => by simp at h⟩
  | cons l ls ih =>
    intro m s h hr
    obtain ⟨m1, e1, n1, o1, fr1, c1⟩ := P.spec m l (s 0) (h.1 l (by simp)) (hr l (by simp))
    have hp := List.pairwise_cons.1 h.2
    have k1 : ∀ x ∈ ls, ∀ a, K.addr x a → m1.blk a = m.blk a := fun x hx a ha => fr1 a fun h' => hp.1 x hx a h' ha
    obtain ⟨m2, e2, n2, o2, fr2, c2⟩ := ih m1 (fun i => s (i + 1)) (Kind.All.mono K ⟨fun x hx => h.1 x (by simp [hx]), hp.2⟩ n1.ge k1) fun x hx => hr x (by simp [hx])
    have k2 : ∀ a, K.addr l a → m2.blk a = m1.blk a := fun a ha => fr2 a fun x hx hxa => hp.1 x hx a ha hxa
    refine ⟨m2, by simp only [resetAll, e1, e2, Option.bind_eq_bind, Option.bind_some], by omega, ⟨fun x hx => ?_, h.2⟩, fun a ha => ?_, fun i x hx => ?_⟩
    · rcases List.mem_cons.1 hx with rfl | hx
      · exact K.mono o1 n2.ge k2
      · exact o2.1 x hx
    · rw [fr2 a fun x hx => ha x (by simp [hx]), fr1 a (ha l (by simp))]
    · cases i with
      | zero =>
        simp only [List.getElem?_cons_zero, Option.some.injEq] at hx
        subst hx
        exact P.mono c1 (fun _ _ => rfl) k2
      | succ i =>
        simp only [List.getElem?_cons_succ] at hx
        exact P.mono (c2 i x hx) (fun a ha => (k1 x (List.mem_of_getElem? hx) a ha).symm) fun _ _ => rfl

end

theorem writeAll_next {I : Type} (ptr : I → Option Nat) (size : I → Nat) : ∀ (l : List (Wr I F)) {m m' : Mem F}, writeAll ptr size l m = some m' → m'.next = m.next := by
  intro l
  induction l with
  | nil => intro m m' h; obtain rfl := Option.some.inj h; rfl
  | cons s l ih =>
    intro m m' h
    simp only [writeAll, Option.bind_eq_bind, Option.bind_eq_some_iff] at h
    obtain ⟨m1, h1, h2⟩ := h
    rw [ih h2]
    by_cases hs : s.on = true
    · rw [if_pos hs] at h1
      exact (store_frame h1).1
    · rw [if_neg hs] at h1
      obtain rfl := Option.some.inj h1
      rfl

theorem stores_next (f : Fcl F) : ∀ (l : List (FclLife.Step F)) {m m' : Mem F}, FclLife.stores f l m = some m' → m'.next = m.next := by
  intro l
  induction l with
  | nil => intro m m' h; obtain rfl := Option.some.inj h; rfl
  | cons s l ih =>
    intro m m' h
    simp only [FclLife.stores, Option.bind_eq_bind, Option.bind_eq_some_iff] at h
    obtain ⟨m1, h1, h2⟩ := h
    rw [ih h2]
    by_cases hs : s.on = true
    · rw [if_pos hs] at h1
      exact (store_frame h1).1
    · rw [if_neg hs] at h1
      obtain rfl := Option.some.inj h1
      rfl

/-- Fully connected layers that do not train their scores. -/
def fclReset [Field F] [LinearOrder F] (S : Sorts F) : ResetKind (Draws F) (fclKind (F := F)) where
  ready f := FclLife.Full f ∧ f.fl.train ≠ .edge
  reset m f r := f.reset S.rank S.outputs m r
  Clear := FclCleared
  mono {s m l m' m0 m1} h h0 h1 := by
    have up : ∀ {x n c}, Reads m' (l.ptr x) n c → Reads m1 (l.ptr x) n c := fun {x n c} h => reads_mono h fun a ha => h1 a ⟨x, ha⟩
    refine ⟨fun x hx hc => up (h.gradients x hx hc), fun x hx hc => up (h.work x hx hc), fun hc => up (h.mask hc), fun hn => ⟨up (h.noise hn).1, up (h.noise hn).2⟩, fun x hx hg a ha => ?_⟩
    rw [h1 a ⟨x, ha⟩, h.kept x hx hg a ha, h0 a ⟨x, ha⟩]
  spec m f r o hr := by
    obtain ⟨m', e, o', g, k, w, d, n, fr⟩ := FclLife.C155_reset S.rank S.outputs m f r o hr.1 hr.2
    refine ⟨m', e, ?_, o', fun a ha => fr a fun x hx => ha ⟨x, hx⟩, fun x hx hc => g x hx ((FclLife.allocated_iff _ x).2 hc),
      fun x hx hc => w x hx ((FclLife.allocated_iff _ x).2 hc), fun hc => d ?_, n, k⟩
    · unfold Fcl.reset at e
      simp only [Option.bind_eq_bind, Option.bind_eq_some_iff, if_neg hr.2, Option.some.injEq, Prod.mk.injEq] at e
      obtain ⟨m1, e1, rfl, _⟩ := e
      exact stores_next f _ e1
    · have := (FclLife.allocated_iff f.fl .mask).2 hc
      simpa [FclLife.Flags.allocated] using this

/-- Convolutional layers. -/
def clReset [Field F] (S : Sorts F) : ResetKind Unit (clKind (F := F)) where
  ready := ConvLife.Usable
  reset m c _ := (c.reset S.rank S.kernels m).map fun m => (m, c)
  Clear _ := ClCleared S
  mono {s m l m' m0 m1} h h0 h1 := by
    have up : ∀ {x n c}, Reads m' (l.ptr x) n c → Reads m1 (l.ptr x) n c := fun {x n c} h => reads_mono h fun a ha => h1 a ⟨x, ha⟩
    refine ⟨fun x hx hc => up (h.cleared x hx hc), fun hp => ?_, fun x a ha hc hn => ?_⟩
    · obtain ⟨a, A, ha, hA, hA', h2, h3, h4⟩ := h.popup hp
      exact ⟨a, A, ha, by rw [h0 a ⟨_, ha⟩, hA], by rw [h1 a ⟨_, ha⟩, hA'], up h2, up h3, fun hs => up (h4 hs)⟩
    · rw [h1 a ⟨x, ha⟩, h.kept x a ha hc hn, h0 a ⟨x, ha⟩]
  spec m c _ o hr := by
    obtain ⟨m', e, o', g, p, k, fr⟩ := ConvLife.C157_reset S.rank S.kernels m c o hr
    refine ⟨m', by rw [e]; rfl, ?_, o', fun a ha => fr a fun x hx => ha ⟨x, hx⟩, fun x hx hc => g x ((ConvLife.has_called _ x).2 hx) hc, p, k⟩
    unfold Cl.reset at e
    simp only [Option.bind_eq_bind, Option.bind_eq_some_iff] at e
    obtain ⟨m1, e1, e2⟩ := e
    have n1 := writeAll_next _ _ _ e1
    by_cases hp : c.fl.trainsPopup = true
    · rw [if_pos hp] at e2
      simp only [Option.bind_eq_some_iff] at e2
      obtain ⟨_, _, _, _, e3⟩ := e2
      rw [writeAll_next _ _ _ e3, n1]
    · rw [if_neg hp] at e2
      obtain rfl := Option.some.inj e2
      exact n1

/-- Residual layers. -/
def rlReset [Field F] (S : Sorts F) : ResetKind Unit (rlKind (F := F)) where
  ready := RlReady
  reset m l _ := l.reset S m
  Clear _ := RlCleared S
  mono {s m l m' m0 m1} h h0 h1 := by
    have up : ∀ {x n c}, Reads m' (l.ptr x) n c → Reads m1 (l.ptr x) n c := fun {x n c} h => reads_mono h fun a ha => h1 a (Or.inr ⟨x, ha⟩)
    refine ⟨fun c hc => (clReset S).mono (s := ()) (h.cls c hc) (fun a ha => h0 a (Or.inl ⟨c, hc, ha⟩)) fun a ha => h1 a (Or.inl ⟨c, hc, ha⟩), fun v hv => up (h.sum v hv),
      fun hf => up (h.activated hf), ⟨fun i hi => up (h.gradients.1 i hi), up h.gradients.2⟩, fun x hx a ha => ?_⟩
    rw [h1 a (Or.inr ⟨x, ha⟩), h.kept x hx a ha, h0 a (Or.inr ⟨x, ha⟩)]
  spec m l _ o hr := by
    obtain ⟨m1, e1, n1, o1, fr1, c1⟩ := resetAll_spec (clReset S) l.cls m (fun _ => ()) ⟨o.cls, o.apart⟩ hr.1
    have k1 : ∀ x a, l.ptr x = some a → m1.blk a = m.blk a := fun x a hx => fr1 a fun c hc ha => o.apart' c hc a ha ⟨x, hx⟩
    have ow1 : Owns m1 l.ptr l.size := ⟨fun x a hx => by
      obtain ⟨h1, A, h2, h3⟩ := o.blocks.live x a hx
      exact ⟨by omega, A, by rw [k1 x a hx, h2], h3⟩, o.blocks.inj⟩
    have hnd : (l.sumSteps.map Wr.fld).Nodup := by
      unfold Rl.sumSteps
      rw [List.map_append, List.map_map, List.nodup_append]
      refine ⟨List.Nodup.map (fun i j h => by simpa using h) List.nodup_range, by simp only [List.map_cons, List.map_nil]; decide, fun x hx y hy => ?_⟩
      obtain ⟨i, _, rfl⟩ := List.mem_map.1 hx
      simp only [List.map_cons, List.map_nil, List.mem_cons, List.not_mem_nil, or_false] at hy
      rcases hy with rfl | rfl | rfl | rfl | rfl | rfl | rfl <;> simp
    have hmem : ∀ s ∈ l.sumSteps, s.fld ∈ rlOrder l.channels := by
      intro s hs
      simp only [Rl.sumSteps, List.mem_append, List.mem_map, List.mem_range, List.mem_cons, List.not_mem_nil, or_false] at hs
      rcases hs with ⟨i, hi, rfl⟩ | rfl | rfl | rfl | rfl | rfl | rfl | rfl
      · exact List.mem_append.2 (Or.inr (List.mem_map.2 ⟨i, List.mem_range.2 hi, rfl⟩))
      all_goals simp [rlOrder]
    obtain ⟨m2, e2, ow2, n2, fr2, rd⟩ := writeAll_spec l.ptr l.size l.sumSteps m1 ow1 hnd fun s hs _ => hr.2 _ (hmem s hs)
    have k2 : ∀ c ∈ l.cls, ∀ a, clAddr c a → m2.blk a = m1.blk a := fun c hc a ha => fr2 a fun s _ _ hsa => o.apart' c hc a ha ⟨_, hsa⟩
    have ht : (l.ptr (.out (.tab .d))).isSome = true := hr.2 _ (by simp [rlOrder])
    have hb : (l.ptr (.out (.vec (.bias .d)))).isSome = true := hr.2 _ (by simp [rlOrder])
    refine ⟨m2, ?_, by omega, ⟨fun c hc => clKind.mono (o1.1 c hc) n2.ge (k2 c hc), ow2, o.place, o.rows, o.apart, o.apart'⟩, fun a ha => ?_, fun c hc => ?_, fun v hv => ?_, fun hf => ?_,
      ⟨fun i hi => ?_, ?_⟩, fun x hx a ha => ?_⟩
    · have e1' : resetAll (fun m c (_ : Unit) => (c.reset S.rank S.kernels m).map fun m => (m, c)) l.cls m (fun _ => ()) = some (m1, l.cls) := e1
      simp only [Rl.reset, e1', e2, Option.bind_eq_bind, Option.bind_some]
    · rw [fr2 a fun s _ _ hsa => ha (Or.inr ⟨_, hsa⟩), fr1 a fun c hc hca => ha (Or.inl ⟨c, hc, hca⟩)]
    · obtain ⟨i, hi⟩ := List.getElem?_of_mem hc
      exact (clReset S).mono (c1 i c hi) (fun _ _ => rfl) (k2 c hc)
    · simp only [List.mem_cons, List.not_mem_nil, or_false] at hv
      rcases hv with rfl | rfl | rfl | rfl | rfl <;> exact rd ⟨.out (.vec _), true, fun _ => 0⟩ (by simp [Rl.sumSteps]) rfl
    · exact rd ⟨.out (.vec .post), l.flag != 0, fun _ => 0⟩ (by simp [Rl.sumSteps]) (by simpa using hf)
    · exact rd ⟨.out (.row .d i), (l.ptr (.out (.tab .d))).isSome, fun _ => 0⟩ (by simp [Rl.sumSteps, hi]) ht
    · exact rd ⟨.out (.vec (.bias .d)), (l.ptr (.out (.vec (.bias .d)))).isSome, fun _ => 0⟩ (by simp [Rl.sumSteps]) hb
    · rw [fr2 a fun s hs _ hsa => ?_, k1 x a ha]
      have hxs := o.blocks.inj _ _ a hsa ha
      simp only [Rl.sumSteps, List.mem_append, List.mem_map, List.mem_range, List.mem_cons, List.not_mem_nil, or_false] at hs hx
      rcases hs with ⟨i, hi, rfl⟩ | rfl | rfl | rfl | rfl | rfl | rfl | rfl <;> rcases hx with rfl | rfl <;> simp at hxs

section
variable [Field F] [LinearOrder F]

/-- Models. -/
def mdlReset (S : Sorts F) : ResetKind (Nat → Draws F) (mdlKind (F := F)) where
  ready := MdlReady
  reset m M r := M.reset S m r
  Clear := MdlCleared S
  mono {s m M m' m0 m1} h h0 h1 := by
    refine ⟨fun i f hf => (fclReset S).mono (h.fcls i f hf) (fun a ha => h0 a (Or.inl ⟨f, List.mem_of_getElem? hf, ha⟩)) fun a ha => h1 a (Or.inl ⟨f, List.mem_of_getElem? hf, ha⟩),
      fun c hc => (clReset S).mono (s := ()) (h.cls c hc) (fun a ha => h0 a (Or.inr (Or.inl ⟨c, hc, ha⟩))) fun a ha => h1 a (Or.inr (Or.inl ⟨c, hc, ha⟩)),
      fun c hc => (rlReset S).mono (s := ()) (h.rls c hc) (fun a ha => h0 a (Or.inr (Or.inr (Or.inl ⟨c, hc, ha⟩)))) fun a ha => h1 a (Or.inr (Or.inr (Or.inl ⟨c, hc, ha⟩))),
      fun he => reads_mono (h.error he) fun a ha => h1 a (Or.inr (Or.inr (Or.inr ⟨_, ha⟩))), fun x a hx ha => ?_⟩
    rw [h1 a (Or.inr (Or.inr (Or.inr ⟨x, ha⟩))), h.kept x a hx ha, h0 a (Or.inr (Or.inr (Or.inr ⟨x, ha⟩)))]
  spec m M r o hr := by
    obtain ⟨r1, r2, r3⟩ := hr
    obtain ⟨a1, a2, a3, a4, a5, a6, a7, a8, a9⟩ := o.parts
    obtain ⟨m1, e1, n1, o1, fr1, c1⟩ := resetAll_spec (fclReset S) M.fcls m r a1 r1
    have g1 : ∀ c ∈ M.cls, ∀ a, clAddr c a → m1.blk a = m.blk a := fun c hc a ha => fr1 a fun f hf hfa => a4 f hf c hc a hfa ha
    obtain ⟨m2, e2, n2, o2, fr2, c2⟩ := resetAll_spec (clReset S) M.cls m1 (fun _ => ()) (Kind.All.mono _ a2 n1.ge g1) r2
    have g2 : ∀ l ∈ M.rls, ∀ a, rlAddr l a → m2.blk a = m.blk a := fun l hl a ha => by
      rw [fr2 a fun c hc hca => a6 c hc l hl a hca ha, fr1 a fun f hf hfa => a5 f hf l hl a hfa ha]
    obtain ⟨m3, e3, n3, o3, fr3, c3⟩ := resetAll_spec (rlReset S) M.rls m2 (fun _ => ()) (Kind.All.mono _ a3 (by omega) g2) r3
    have g3 : ∀ x a, M.ptr x = some a → m3.blk a = m.blk a := fun x a hx => by
      rw [fr3 a fun l hl hla => a9 l hl a hla ⟨x, hx⟩, fr2 a fun l hl hla => a8 l hl a hla ⟨x, hx⟩, fr1 a fun l hl hla => a7 l hl a hla ⟨x, hx⟩]
    have ow3 : Owns m3 M.ptr M.size := ⟨fun x a hx => by
      obtain ⟨h1, A, h2, h3⟩ := o.blocks.live x a hx
      exact ⟨by omega, A, by rw [g3 x a hx, h2], h3⟩, o.blocks.inj⟩
    obtain ⟨m4, e4, ow4, n4, fr4, rd⟩ := writeAll_spec M.ptr M.size [⟨.error, (M.ptr .error).isSome, fun _ => 0⟩] m3 ow3 (by simp) fun s hs hon => by
      rw [List.mem_singleton] at hs
      subst hs
      exact hon
    have f4 : ∀ a, (∀ x, M.ptr x ≠ some a) → m4.blk a = m3.blk a := fun a ha => fr4 a fun s _ _ => ha _
    have k1 : ∀ f ∈ M.fcls, ∀ a, fclAddr f a → m4.blk a = m1.blk a := fun f hf a ha => by
      rw [f4 a fun x hx => a7 f hf a ha ⟨x, hx⟩, fr3 a fun l hl hla => a5 f hf l hl a ha hla, fr2 a fun c hc hca => a4 f hf c hc a ha hca]
    have k2 : ∀ f ∈ M.cls, ∀ a, clAddr f a → m4.blk a = m2.blk a := fun f hf a ha => by
      rw [f4 a fun x hx => a8 f hf a ha ⟨x, hx⟩, fr3 a fun l hl hla => a6 f hf l hl a ha hla]
    have k3 : ∀ f ∈ M.rls, ∀ a, rlAddr f a → m4.blk a = m3.blk a := fun f hf a ha => f4 a fun x hx => a9 f hf a ha ⟨x, hx⟩
    refine ⟨m4, ?_, by omega, ⟨fun f hf => fclKind.mono (o1.1 f hf) (by omega) (k1 f hf), fun f hf => clKind.mono (o2.1 f hf) (by omega) (k2 f hf),
      fun f hf => rlKind.mono (o3.1 f hf) (by omega) (k3 f hf), ow4, o.place, o.tabled, o.loss, o.weights, o.apart⟩, fun a ha => ?_, fun i f hf => ?_, fun c hc => ?_, fun l hl => ?_, fun he => ?_,
      fun x a hx ha => ?_⟩
    · have e1' : resetAll (fun m f r => f.reset S.rank S.outputs m r) M.fcls m r = some (m1, M.fcls) := e1
      have e2' : resetAll (fun m c (_ : Unit) => (c.reset S.rank S.kernels m).map fun m => (m, c)) M.cls m1 (fun _ => ()) = some (m2, M.cls) := e2
      have e3' : resetAll (fun m l (_ : Unit) => l.reset S m) M.rls m2 (fun _ => ()) = some (m3, M.rls) := e3
      show M.reset S m r = _
      simp only [Mdl.reset, e1', e2', e3', e4, Option.bind_eq_bind, Option.bind_some]
    · rw [f4 a fun x hx => ha (Or.inr (Or.inr (Or.inr ⟨x, hx⟩))), fr3 a fun x hx hxa => ha (Or.inr (Or.inr (Or.inl ⟨x, hx, hxa⟩))), fr2 a fun x hx hxa => ha (Or.inr (Or.inl ⟨x, hx, hxa⟩)),
        fr1 a fun x hx hxa => ha (Or.inl ⟨x, hx, hxa⟩)]
    · exact (fclReset S).mono (c1 i f hf) (fun _ _ => rfl) (k1 f (List.mem_of_getElem? hf))
    · obtain ⟨i, hi⟩ := List.getElem?_of_mem hc
      exact (clReset S).mono (c2 i c hi) (fun a ha => (g1 c hc a ha).symm) (k2 c hc)
    · obtain ⟨i, hi⟩ := List.getElem?_of_mem hl
      exact (rlReset S).mono (c3 i l hi) (fun a ha => (g2 l hl a ha).symm) (k3 l hl)
    · exact rd ⟨.error, (M.ptr .error).isSome, fun _ => 0⟩ (by simp) he
    · rw [fr4 a fun s hs _ hsa => ?_, g3 x a ha]
      rw [List.mem_singleton] at hs
      subst hs
      exact hx (o.blocks.inj _ _ a ha hsa)

/-! ### C161 -/

/-- C161, models whose fully connected layers do not train scores: `reset_model` clears gradients, work arrays and the error of every layer, switches
dropout masks to keep everything, draws new noise, and leaves all that is learned, the tables, the weights of the loss and all other memory as they were; the
model keeps its blocks. -/
theorem C161_model_partial (S : Sorts F) (m : Mem F) (M : Mdl F) (r : Nat → Draws F) (h : MdlOwn m M) (hr : MdlReady M) :
    ∃ m', M.reset S m r = some (m', M) ∧ MdlOwn m' M ∧ MdlCleared S r m M m' ∧ ∀ a, ¬ mdlAddr M a → m'.blk a = m.blk a := by
  obtain ⟨m', e, _, o, fr, c⟩ := (mdlReset S).spec m M r h hr
  exact ⟨m', e, o, c, fr⟩

omit [LinearOrder F] in
/-- C161, copies: a fresh copy can be reset when no fully connected layer trains scores. -/
theorem C161_copy_ready {m m' : Mem F} {M C : Mdl F} (h : MdlCopied m M m' C) (ht : ∀ f ∈ M.fcls, f.fl.train ≠ .edge) : MdlReady C := by
  have some_of : ∀ {p : Option Nat} {n : Nat} {c : Nat → F}, Reads m' p n c → p.isSome = true := fun ⟨a, _, ha, _⟩ => by rw [ha]; rfl
  have back : ∀ {A B : Type} {P : A → B → Prop} {l : List A} {l' : List B}, List.Forall₂ P l l' → ∀ b ∈ l', ∃ a ∈ l, P a b := by
    intro A B P l l' h
    induction h with
    | nil => intro b hb; simp at hb
    | cons h1 _ ih =>
      intro b hb
      rcases List.mem_cons.1 hb with rfl | hb
      · exact ⟨_, by simp, h1⟩
      · obtain ⟨a, ha, hab⟩ := ih b hb
        exact ⟨a, by simp [ha], hab⟩
  have cu : ∀ {c d : Cl F}, ClCopied m c m' d → ConvLife.Usable d := fun {c d} hc x hx _ => hc.full x (by rw [hc.flags] at hx; exact (ConvLife.has_called _ x).1 hx)
  refine ⟨fun f hf => ?_, fun d hd => ?_, fun d hd => ?_⟩
  · obtain ⟨f0, hf0, hc⟩ := back h.fcls f hf
    exact ⟨fun x hx => hc.full x (by rw [hc.flags] at hx; exact (FclLife.allocated_iff _ x).1 hx), by rw [hc.flags]; exact ht f0 hf0⟩
  · obtain ⟨c, _, hc⟩ := back h.cls d hd
    exact cu hc
  · obtain ⟨l, _, hl⟩ := back h.rls d hd
    refine ⟨fun c' hc' => ?_, fun x hx => ?_⟩
    · obtain ⟨c, _, hc⟩ := back hl.cls c' hc'
      exact cu hc
    · rw [rlOrder, List.mem_append, List.mem_map] at hx
      rcases hx with hx | ⟨i, hi, rfl⟩
      · simp only [List.mem_cons, List.not_mem_nil, or_false] at hx
        rcases hx with rfl | rfl | rfl | rfl | rfl | rfl | rfl | rfl | rfl
        · exact hl.tables.1
        · exact hl.tables.2
        · exact some_of hl.gradients.2
        all_goals exact some_of (hl.work _ (by simp))
      · exact some_of (hl.gradients.1 i (by rw [← hl.shape.1]; exact List.mem_range.1 hi))

omit [Field F] [LinearOrder F] in
/-- One member that cannot be reset stops the loop. -/
theorem resetAll_none {L S : Type} (reset : Mem F → L → S → Option (Mem F × L)) : ∀ (ls : List L) (m : Mem F) (s : Nat → S), (∃ l ∈ ls, ∀ m s, reset m l s = none) →
    resetAll reset ls m s = none := by
  intro ls
  induction ls with
  | nil => rintro m s ⟨l, hl, _⟩; simp at hl
  | cons l ls ih =>
    rintro m s ⟨x, hx, h⟩
    simp only [resetAll, Option.bind_eq_bind, Option.bind_eq_none_iff]
    intro y hy
    rcases List.mem_cons.1 hx with rfl | hx
    · rw [h] at hy
      cases hy
    · rw [ih _ _ ⟨x, hx, h⟩]
      simp

omit [LinearOrder F] in
/-- C161, refuted for models stripped for inference: one fully connected layer without its work array makes `reset_model` write through a null
pointer. -/
theorem C161_stripped_refuted (S : Sorts F) (m : Mem F) (M : Mdl F) (r : Nat → Draws F) (f : Fcl F) (hf : f ∈ M.fcls) (ht : f.ptr .temp = none)
    (hz : 0 < f.fl.size .temp) : M.reset S m r = none := by
  unfold Mdl.reset
  rw [resetAll_none _ _ _ _ ⟨f, hf, fun m r => ?_⟩]
  · rfl
  · unfold Fcl.reset
    rw [FclLife.stores_none _ _ m ⟨⟨.temp, true, fun _ => 0⟩, by simp [FclLife.backSteps], rfl, ht, by dsimp only; omega⟩]
    rfl

/-- C161, auto-encoders: `reset_vae_model` resets both models and clears the latent code, the drawn input and both derivatives. -/
theorem C161_vae_partial (S : Sorts F) (m : Mem F) (v : VaeNet F) (r : (Nat → Draws F) × (Nat → Draws F)) (h : VaeOwn m v) (he : MdlReady v.encoder) (hd : MdlReady v.decoder) :
    ∃ m', v.reset S m r = some (m', v) ∧ VaeOwn m' v ∧ MdlCleared S r.1 m v.encoder m' ∧ MdlCleared S r.2 m v.decoder m' ∧
      (∀ x, Reads m' (v.ptr x) v.latent fun _ => 0) ∧ ∀ a, ¬ vaeAddr v a → m'.blk a = m.blk a := by
  obtain ⟨m1, e1, n1, o1, fr1, c1⟩ := (mdlReset S).spec m v.encoder r.1 h.encoder he
  have k1 : ∀ a, mdlAddr v.decoder a → m1.blk a = m.blk a := fun a ha => fr1 a fun hb => h.apart a hb ha
  obtain ⟨m2, e2, n2, o2, fr2, c2⟩ := (mdlReset S).spec m1 v.decoder r.2 (h.decoder.mono n1.ge k1) hd
  have k2 : ∀ x a, v.ptr x = some a → m2.blk a = m.blk a := fun x a hx => by
    rw [fr2 a fun hb => h.apartD a hb ⟨x, hx⟩, fr1 a fun hb => h.apartE a hb ⟨x, hx⟩]
  have ow2 : Owns m2 v.ptr fun _ => v.latent := ⟨fun x a hx => by
    obtain ⟨h1, A, h2, h3⟩ := h.blocks.live x a hx
    exact ⟨by omega, A, by rw [k2 x a hx, h2], h3⟩, h.blocks.inj⟩
  obtain ⟨m3, e3, ow3, n3, fr3, rd⟩ := writeAll_spec v.ptr (fun _ => v.latent)
    [⟨.dstd, true, fun _ => 0⟩, ⟨.dmean, true, fun _ => 0⟩, ⟨.z, true, fun _ => 0⟩, ⟨.input, true, fun _ => 0⟩] m2 ow2 (by simp) fun s _ _ => h.full _
  have k3 : ∀ a, mdlAddr v.encoder a → m3.blk a = m1.blk a := fun a ha => by
    rw [fr3 a fun s _ _ hs => h.apartE a ha ⟨_, hs⟩, fr2 a fun hb => h.apart a ha hb]
  have k4 : ∀ a, mdlAddr v.decoder a → m3.blk a = m2.blk a := fun a ha => fr3 a fun s _ _ hs => h.apartD a ha ⟨_, hs⟩
  refine ⟨m3, ?_, ⟨MdlOwn.mono o1 (by omega) k3, MdlOwn.mono o2 (by omega) k4, ow3, h.full, h.apart, h.apartE, h.apartD⟩, (mdlReset S).mono c1 (fun _ _ => rfl) k3,
    (mdlReset S).mono c2 (fun a ha => (k1 a ha).symm) k4, fun x => ?_, fun a ha => ?_⟩
  · have e1' : v.encoder.reset S m r.1 = some (m1, v.encoder) := e1
    have e2' : v.decoder.reset S m1 r.2 = some (m2, v.decoder) := e2
    simp only [VaeNet.reset, e1', e2', e3, Option.bind_eq_bind, Option.bind_some]
  · exact rd ⟨x, true, fun _ => 0⟩ (by cases x <;> simp) rfl
  · rw [fr3 a fun s _ _ hs => ha (Or.inr (Or.inr ⟨_, hs⟩)), fr2 a fun hb => ha (Or.inr (Or.inl hb)), fr1 a fun hb => ha (Or.inl hb)]

/-- C161, duelling networks: `reset_dueling_categorical_dqn` resets the five models and clears all arrays but the support. -/
theorem C161_dqn_partial (S : Sorts F) (m : Mem F) (d : Dqn F) (r : Nat → Nat → Draws F) (h : DqnOwn m d) (hr : ∀ M ∈ d.models, MdlReady M) :
    ∃ m', d.reset S m r = some (m', d) ∧ DqnOwn m' d ∧ (∀ (i : Nat) M, d.models[i]? = some M → MdlCleared S (r i) m M m') ∧
      (∀ x, x ≠ .support → Reads m' (d.ptr x) (dqnSize d.actions d.atoms x) fun _ => 0) ∧ (∀ a, d.ptr .support = some a → m'.blk a = m.blk a) ∧
      ∀ a, ¬ dqnAddr d a → m'.blk a = m.blk a := by
  obtain ⟨m1, e1, n1, o1, fr1, c1⟩ := resetAll_spec (mdlReset S) d.models m r ⟨h.models, h.apart⟩ hr
  have k1 : ∀ x a, d.ptr x = some a → m1.blk a = m.blk a := fun x a hx => fr1 a fun M hM ha => h.apart' M hM a ha ⟨x, hx⟩
  have ow1 : Owns m1 d.ptr (dqnSize d.actions d.atoms) := ⟨fun x a hx => by
    obtain ⟨h1, A, h2, h3⟩ := h.blocks.live x a hx
    exact ⟨by omega, A, by rw [k1 x a hx, h2], h3⟩, h.blocks.inj⟩
  obtain ⟨m2, e2, ow2, n2, fr2, rd⟩ := writeAll_spec d.ptr (dqnSize d.actions d.atoms)
    ([DFld.mean, .valueError, .q, .add, .advError, .error, .soft, .softD].map fun x => ⟨x, true, fun _ => 0⟩) m1 ow1
    (by rw [List.map_map]; exact (by decide : [DFld.mean, .valueError, .q, .add, .advError, .error, .soft, .softD].Nodup).map fun _ _ h => h) fun s _ _ => h.full _
  have k2 : ∀ M ∈ d.models, ∀ a, mdlAddr M a → m2.blk a = m1.blk a := fun M hM a ha => fr2 a fun s _ _ hs => h.apart' M hM a ha ⟨_, hs⟩
  refine ⟨m2, ?_, ⟨fun M hM => MdlOwn.mono (o1.1 M hM) n2.ge (k2 M hM), ow2, h.full, h.apart, h.apart'⟩, fun i M hM => (mdlReset S).mono (c1 i M hM) (fun _ _ => rfl) (k2 M (List.mem_of_getElem? hM)),
    fun x hx => ?_, fun a ha => ?_, fun a ha => ?_⟩
  · have e1' : resetAll (fun m M r => M.reset S m r) d.models m r = some (m1, d.models) := e1
    simp only [Dqn.reset, e1', e2, Option.bind_eq_bind, Option.bind_some]
  · exact rd ⟨x, true, fun _ => 0⟩ (by cases x <;> simp at hx ⊢) rfl
  · rw [fr2 a fun s hs _ hsa => ?_, k1 _ a ha]
    have := h.blocks.inj _ _ a hsa ha
    obtain ⟨x, hx, rfl⟩ := List.mem_map.1 hs
    dsimp only at this
    subst this
    simp at hx
  · rw [fr2 a fun s _ _ hs => ha (Or.inr ⟨_, hs⟩), fr1 a fun M hM hb => ha (Or.inl ⟨M, hM, hb⟩)]

end

/-- A model with a stripped layer. -/
example : ∃ (M : Mdl ℚ), ∀ (m : Mem ℚ) r, M.reset ⟨fun _ _ => 0, id, fun _ _ => 0⟩ m r = none :=
  ⟨⟨1, 2, none, (0, 0, 0), [⟨FclLife.demoFlags, 0, fun _ => none⟩], [], [], fun _ => none⟩, fun m r => C161_stripped_refuted _ m _ r ⟨FclLife.demoFlags, 0, fun _ => none⟩ (by simp) rfl (by decide)⟩

/-- A model with layers of every kind that can be reset. -/
example : ∃ (m m' : Mem ℚ) (M : Mdl ℚ), MdlOwn m M ∧ MdlReady M ∧ M.fcls.length = 1 ∧ M.cls.length = 1 ∧ M.rls.length = 1 ∧
    M.reset ⟨fun _ _ => 0, id, fun _ _ => 0⟩ m (fun _ => FclLife.demoDraws) = some (m', M) := by
  obtain ⟨m, M, _, o, c, h1, h2, h3, _, _, _, _, ht⟩ := demo_model
  obtain ⟨m', C, _, oC, n, ne, fr, cp⟩ := mdlKind.dup_spec m M ⟨fun _ => FclLife.demoDraws, fun _ _ _ => 0, fun _ _ _ _ => 0⟩ o c
  have cp' : MdlCopied m M m' C := cp
  have hr := C161_copy_ready cp' ht
  obtain ⟨m2, e, _⟩ := C161_model_partial ⟨fun _ _ => 0, id, fun _ _ => 0⟩ m' C (fun _ => FclLife.demoDraws) oC hr
  exact ⟨m', m2, C, oC, hr, by rw [← cp'.fcls.length_eq, h1], by rw [← cp'.cls.length_eq, h2], by rw [← cp'.rls.length_eq, h3], e⟩

end LLab.ModelLife
