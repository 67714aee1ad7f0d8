import Verif.Transf.EncoderReset

/-!
Copies of the encoder and repeated use of one encoder. Property C119.
-/

namespace LLab.Transf

open Finset LLab.Attention LLab.Softmax

theorem copyHeads_run (cp : Sub → Sub) (cnt nh : Nat) (src dst : Heads) (h : cnt ≤ nh) :
    copyHeads cp cnt nh src dst =
      some ⟨fun h => if h < cnt then cp (src.q h) else dst.q h, fun h => if h < cnt then cp (src.k h) else dst.k h,
        fun h => if h < cnt then cp (src.v h) else dst.v h⟩ := by
  have up : ∀ (n : Nat) (f g : Nat → Sub), Function.update (fun h => if h < n then cp (f h) else g h) n (cp (f n)) =
      fun h => if h < n + 1 then cp (f h) else g h := by
    intro n f g
    funext h
    by_cases hh : h = n
    · subst hh
      rw [Function.update_self, if_pos (Nat.lt_succ_self _)]
    · rw [Function.update_of_ne hh]
      by_cases h2 : h < n
      · rw [if_pos h2, if_pos (by omega)]
      · rw [if_neg h2, if_neg (by omega)]
  induction cnt with
  | zero => rfl
  | succ n ih =>
    unfold copyHeads at ih ⊢
    simp only [loop]
    rw [ih (by omega), Option.bind_eq_bind, Option.bind_some, if_pos (by omega)]
    dsimp only
    rw [up, up, up]

theorem L2.copy_run (l : L2) (h : 0 < l.dim) : l.copy = some ⟨l.dim, l.g, l.dg, 1, calloc l.dim, calloc l.dim⟩ := by
  unfold L2.copy L2.make
  rw [if_neg (by omega)]
  rfl

theorem copyNorms_run (n : Nat) (l2 junk : Nat → L2) (h : ∀ i, i < n → 0 < (l2 i).dim) :
    ∃ r, copyNorms n l2 junk = some (if n = 0 then none else some r) ∧
      ∀ i, i < n → r i = ⟨(l2 i).dim, (l2 i).g, (l2 i).dg, 1, calloc (l2 i).dim, calloc (l2 i).dim⟩ := by
  obtain ⟨r, er, hr⟩ := loop_inv (n := n) (s := junk)
    (f := fun i (c : Nat → L2) => do
      let l ← (l2 i).copy
      some (Function.update c i l))
    (fun i (r : Nat → L2) => ∀ j, j < i → r j = ⟨(l2 j).dim, (l2 j).g, (l2 j).dg, 1, calloc (l2 j).dim, calloc (l2 j).dim⟩)
    (fun j hj => absurd hj (Nat.not_lt_zero _)) (by
      intro i hi c hc
      refine ⟨_, by rw [L2.copy_run _ (h i hi)]; rfl, ?_⟩
      intro j hj
      by_cases hji : j = i
      · subst hji
        rw [Function.update_self]
      · rw [Function.update_of_ne hji]
        exact hc j (by omega))
  refine ⟨r, ?_, hr⟩
  unfold copyNorms
  rw [er]
  rfl

/-- The derivatives of two encoders agree. -/
structure Enc.SameGrad (t t' : Enc) : Prop where
  q : ∀ h, h < t.nh → (t'.hd.q h).dθ = (t.hd.q h).dθ
  k : ∀ h, h < t.nh → (t'.hd.k h).dθ = (t.hd.k h).dθ
  v : ∀ h, h < t.nh → (t'.hd.v h).dθ = (t.hd.v h).dθ
  lin : t'.lin.dθ = t.lin.dθ
  m : t'.m.dθ = t.m.dθ
  l2 : ∀ i, i < t.nl2 → (t'.l2 i).dg = (t.l2 i).dg

/-- **C119** (copy). The copy of a well-formed encoder has the same shape,
function, parameters and derivatives, and clean buffers of its own. -/
theorem C119_copy (t : Enc) (n : Nat) (junk : Heads) (junkl : Nat → L2) (wf : t.WF n) (hpos : 0 < t.inputDim)
    (h1 : t.norm1 = true → 0 < t.lin.dout) (h2 : t.norm2 = true → 0 < t.m.dout) :
    ∃ c, t.copy junk junkl = some c ∧ t.Same c ∧ t.SameGrad c ∧ c.WF n ∧ c.Fresh ∧ c.Alloc ∧
      ∀ x, encS c c.params x = encS t t.params x := by
  have hin := wf.hin
  have p3 : 0 < t.vd := by
    rcases Nat.eq_zero_or_pos t.vd with h | h
    · rw [h, Nat.mul_zero] at hin; omega
    · exact h
  have hdim : t.inputDim / (t.nh * t.vd) = t.dim := by
    rw [hin, Nat.mul_assoc]
    exact Nat.mul_div_cancel _ (Nat.mul_pos wf.pos p3)
  have hmod : t.inputDim % t.nh = 0 := by
    rw [hin, show t.dim * t.nh * t.vd = t.nh * (t.dim * t.vd) by ring]
    exact Nat.mul_mod_right _ _
  have hl := wf.hnl2
  have hcase : ∀ i, i < t.nl2 → (i = 0 ∧ t.norm1 = true) ∨ (i = t.nl2 - 1 ∧ t.norm2 = true) := by
    intro i hi
    by_cases e1 : t.norm1 = true
    · by_cases e2 : t.norm2 = true
      · rw [if_pos e1, if_pos e2] at hl
        rcases (by omega : i = 0 ∨ i = t.nl2 - 1) with h | h
        · exact Or.inl ⟨h, e1⟩
        · exact Or.inr ⟨h, e2⟩
      · rw [if_pos e1, if_neg e2] at hl
        exact Or.inl ⟨by omega, e1⟩
    · by_cases e2 : t.norm2 = true
      · exact Or.inr ⟨by rw [if_neg e1, if_pos e2] at hl; omega, e2⟩
      · rw [if_neg e1, if_neg e2] at hl
        omega
  have hdpos : ∀ i, i < t.nl2 → 0 < (t.l2 i).dim := by
    intro i hi
    rcases hcase i hi with ⟨rfl, e⟩ | ⟨rfl, e⟩
    · rw [(wf.hnorm1 e).1]; exact h1 e
    · rw [(wf.hnorm2 e).1]; exact h2 e
  have z1 : t.norm1 = true → 0 < t.nl2 := fun h => by rw [hl, if_pos h]; omega
  have z2 : t.norm2 = true → t.nl2 - 1 < t.nl2 := fun h => by rw [hl, if_pos h]; omega
  have hidx : t.norm2 = true → (if t.norm1 = true then 1 else 0) = t.nl2 - 1 := fun h => by
    rw [hl, if_pos h]; omega
  obtain ⟨r, er, hr⟩ := copyNorms_run t.nl2 t.l2 junkl hdpos
  have hget : ∀ i, i < t.nl2 → (if t.nl2 = 0 then none else some r : Option (Nat → L2)).getD junkl i = r i := by
    intro i hi
    rw [if_neg (by omega)]
    rfl
  have dd : t.dim * t.dim * t.nh = t.nh * t.dim * t.dim := by ring
  have hss : ∀ f g : Nat → Sub, (∀ h, h < t.nh → (f h).din = n ∧ (f h).dout = t.dim * t.vd) →
      sumOut (fun h => if h < t.nh then (f h).copy else g h) t.nh = t.nh * t.dim * t.vd := by
    intro f g hf
    rw [sumOut_eq (d := t.dim * t.vd) fun i hi => by rw [if_pos hi]; exact (hf i hi).2]; ring
  have hsub : ∀ f g : Nat → Sub, ∀ h, h < t.nh → (fun h => if h < t.nh then (f h).copy else g h) h = (f h).copy :=
    fun f g h hh => if_pos hh
  have main : ∃ c, t.copy junk junkl = some c ∧ t.Same c ∧ t.SameGrad c ∧ c.WF n ∧ c.Fresh ∧ c.Alloc := by
    unfold Enc.copy Enc.copyWith
    rw [copyHeads_run Sub.copy t.nh t.nh t.hd junk (le_refl _), Option.bind_eq_bind, Option.bind_some, er,
      Option.bind_eq_bind, Option.bind_some]
    unfold Enc.make
    rw [if_neg, if_neg, if_neg, if_neg (fun h => h hmod), if_neg, if_neg]
    · rw [hdim]
      refine ⟨_, rfl, ⟨rfl, rfl, rfl, rfl, rfl, hl.symm, rfl, rfl, rfl, rfl, rfl, fun h hh => ?_, fun h hh => ?_,
          fun h hh => ?_, Sub.copy_same _, Sub.copy_same _, fun i hi => ?_⟩,
        ⟨fun h hh => ?_, fun h hh => ?_, fun h hh => ?_, rfl, rfl, fun i hi => ?_⟩,
        ⟨wf.pos, wf.kv, fun h hh => ?_, fun h hh => ?_, fun h hh => ?_, wf.hin, wf.hlin, wf.hm, fun h => ⟨(wf.hres1 h).1, if_pos h⟩,
          fun h => ⟨(wf.hres2 h).1, if_pos h⟩, rfl, fun h => ?_, fun h => ?_, dd, dd, rfl, hss _ _ wf.hq, hss _ _ wf.hk,
          hss _ _ wf.hv, dd, dd⟩,
        ⟨fun _ _ => rfl, fun _ _ => rfl, fun _ _ => rfl, fun _ _ => rfl, fun _ _ => rfl, fun _ _ => rfl, fun _ _ => rfl,
          fun i hi u hu => ?_⟩,
        ⟨rfl, fun h => if_pos h⟩⟩
      · dsimp only; rw [if_pos hh]; exact Sub.copy_same _
      · dsimp only; rw [if_pos hh]; exact Sub.copy_same _
      · dsimp only; rw [if_pos hh]; exact Sub.copy_same _
      · dsimp only; rw [hget i hi, hr i hi]; exact ⟨rfl, rfl⟩
      · dsimp only; rw [if_pos hh]; rfl
      · dsimp only; rw [if_pos hh]; rfl
      · dsimp only; rw [if_pos hh]; rfl
      · dsimp only; rw [hget i hi, hr i hi]
      · dsimp only at hh ⊢; rw [if_pos hh]; exact wf.hq h hh
      · dsimp only at hh ⊢; rw [if_pos hh]; exact wf.hk h hh
      · dsimp only at hh ⊢; rw [if_pos hh]; exact wf.hv h hh
      · dsimp only at h ⊢
        rw [hget 0 (z1 h), hr 0 (z1 h)]
        have := (wf.hnorm1 h).1
        exact ⟨this, this, this⟩
      · dsimp only at h ⊢
        rw [← hl, hget _ (z2 h), hr _ (z2 h)]
        have := (wf.hnorm2 h).1
        exact ⟨this, this, this⟩
      · dsimp only at hi ⊢
        rw [← hl] at hi
        rw [hget i hi, hr i hi]
        rfl
    · rintro ⟨a, b⟩
      rw [hidx a, hget _ (z2 a), hr _ (z2 a)] at b
      exact b (wf.hnorm2 a).1
    · rintro ⟨a, b⟩
      rw [hget _ (z1 a), hr _ (z1 a)] at b
      exact b (wf.hnorm1 a).1
    · have := wf.pos
      have := wf.kv
      omega
    · rintro ⟨a, b, c⟩
      have h0 : t.nl2 = 0 := by rw [hl, b, c]; rfl
      rw [if_pos h0] at a
      cases a
    · rintro ⟨a, b⟩
      have : 0 < t.nl2 := by
        rcases b with b | b
        · exact z1 b
        · have := z2 b; omega
      rw [if_neg (by omega)] at a
      cases a
  obtain ⟨c, e, s, g, w, f, a⟩ := main
  exact ⟨c, e, s, g, w, f, a, fun x => s.spec wf.pos wf.hnl2 x⟩

example (junk : Heads) (junkl : Nat → L2) : ∃ c, demo.copy junk junkl = some c ∧ c.WF 4 ∧ c.Fresh :=
  let ⟨c, e, _, _, w, f, _⟩ := C119_copy demo 4 junk junkl demo_wf (by decide) (fun _ => by decide) (fun _ => by decide)
  ⟨c, e, w, f⟩

/-! ### Repeated use -/

theorem Sub.bp_same {s s' : Sub} {x e a b : Arr ℝ} (h : s.bp x e = some (s', a, b)) : s.Same s' := by
  unfold Sub.bp at h
  split at h
  · cases h
    exact ⟨rfl, rfl, rfl, rfl, rfl, rfl, rfl, rfl⟩
  · cases h

theorem loop_out {σ : Type} (P : σ → Prop) {n : Nat} {f : Nat → σ → Option σ} {s s' : σ} (h0 : P s)
    (hs : ∀ i s s', P s → f i s = some s' → P s') (h : loop n f s = some s') : P s' := by
  induction n generalizing s' with
  | zero => cases h; exact h0
  | succ n ih =>
    simp only [loop] at h
    obtain ⟨s1, e1, e2⟩ := Option.bind_eq_some_iff.1 h
    exact hs n s1 s' (ih e1) e2

theorem upd_same {f g : Nat → Sub} {h : Nat} {s : Sub} (hf : ∀ i, (f i).Same (g i)) (hs : (g h).Same s) :
    ∀ i, (f i).Same (Function.update g h s i) := by
  intro i
  by_cases hi : i = h
  · subst hi
    rw [Function.update_self]
    exact (hf i).trans hs
  · rw [Function.update_of_ne hi]
    exact hf i

theorem normBPIf_same {flag : Bool} {nl2 : Nat} {l2 l2' : Nat → L2} {i : Nat} {x e : Arr ℝ}
    (h : normBPIf flag nl2 l2 i x e = some l2') (j : Nat) : (l2' j).dim = (l2 j).dim ∧ (l2' j).g = (l2 j).g := by
  cases flag with
  | false => cases h; exact ⟨rfl, rfl⟩
  | true =>
    unfold normBPIf normBP at h
    dsimp only at h
    split at h
    · obtain ⟨r, -, e2⟩ := Option.bind_eq_some_iff.1 h
      cases e2
      by_cases hj : j = i
      · subst hj; rw [Function.update_self]; exact ⟨rfl, rfl⟩
      · rw [Function.update_of_ne hj]; exact ⟨rfl, rfl⟩
    · cases h

theorem leave_same (flag : Bool) (l2 : Nat → L2) (i : Nat) (e : Arr ℝ) (j : Nat) :
    (leave flag l2 i e j).dim = (l2 j).dim ∧ (leave flag l2 i e j).g = (l2 j).g := by
  cases flag with
  | false => exact ⟨rfl, rfl⟩
  | true =>
    unfold leave
    dsimp only
    by_cases hj : j = i
    · subst hj; rw [Function.update_self]; exact ⟨rfl, rfl⟩
    · rw [Function.update_of_ne hj]; exact ⟨rfl, rfl⟩

/-- The backward pass changes neither shape, function nor parameters. -/
theorem bp_same {t t2 : Enc} {x e ie : Arr ℝ} {n : Nat} (h : t.bp x n e = some (t2, ie)) :
    t.Same t2 ∧ t2.encErr = t.encErr ∧ t2.r1e = t.r1e := by
  unfold Enc.bp at h
  obtain ⟨l2a, ea, h⟩ := Option.bind_eq_some_iff.1 h
  obtain ⟨⟨m', rm1, rm2⟩, em, h⟩ := Option.bind_eq_some_iff.1 h
  obtain ⟨temp, -, h⟩ := Option.bind_eq_some_iff.1 h
  obtain ⟨l2b, eb, h⟩ := Option.bind_eq_some_iff.1 h
  obtain ⟨⟨lin', rl1, rl2⟩, el, h⟩ := Option.bind_eq_some_iff.1 h
  obtain ⟨er, -, h⟩ := Option.bind_eq_some_iff.1 h
  obtain ⟨s, es, h⟩ := Option.bind_eq_some_iff.1 h
  obtain ⟨ie', -, h⟩ := Option.bind_eq_some_iff.1 h
  cases h
  have hh := loop_out (fun s : HState => (∀ i, (t.hd.q i).Same (s.hd.q i)) ∧ (∀ i, (t.hd.k i).Same (s.hd.k i)) ∧
      ∀ i, (t.hd.v i).Same (s.hd.v i))
    ⟨fun _ => Sub.Same.refl _, fun _ => Sub.Same.refl _, fun _ => Sub.Same.refl _⟩ (by
      rintro i s s' ⟨h1, h2, h3⟩ e
      unfold headBP at e
      obtain ⟨⟨q', a, b⟩, eq, e⟩ := Option.bind_eq_some_iff.1 e
      obtain ⟨_, -, e⟩ := Option.bind_eq_some_iff.1 e
      obtain ⟨⟨k', a, b⟩, ek, e⟩ := Option.bind_eq_some_iff.1 e
      obtain ⟨_, -, e⟩ := Option.bind_eq_some_iff.1 e
      obtain ⟨⟨v', a, b⟩, ev, e⟩ := Option.bind_eq_some_iff.1 e
      obtain ⟨_, -, e⟩ := Option.bind_eq_some_iff.1 e
      cases e
      exact ⟨upd_same h1 (Sub.bp_same eq), upd_same h2 (Sub.bp_same ek), upd_same h3 (Sub.bp_same ev)⟩) es
  refine ⟨⟨rfl, rfl, rfl, rfl, rfl, rfl, rfl, rfl, rfl, rfl, rfl, fun h _ => hh.1 h, fun h _ => hh.2.1 h, fun h _ => hh.2.2 h,
    Sub.bp_same el, Sub.bp_same em, fun i _ => ?_⟩, rfl, rfl⟩
  have a1 := normBPIf_same ea i
  have a2 := leave_same t.norm2 l2a (t.nl2 - 1) rm2 i
  have a3 := normBPIf_same eb i
  have a4 := leave_same t.norm1 l2b 0 rl2 i
  exact ⟨a4.1.trans (a3.1.trans (a2.1.trans a1.1)), a4.2.trans (a3.2.trans (a2.2.trans a1.2))⟩

theorem Sub.fed_same (s : Sub) (x : Nat → ℝ) : s.Same (s.fed x) := ⟨rfl, rfl, rfl, rfl, rfl, rfl, rfl, rfl⟩

theorem fwd_same {t t1 : Enc} {x : Arr ℝ} {n : Nat} (F : Fwd t x n t1) :
    t.Same t1 ∧ t1.encErr = t.encErr ∧ t1.r1e = t.r1e := by
  obtain ⟨-, ⟨lin, m, l2, score, soft, att, r1, r2, rfl⟩, attv, attl, softl, softv, linv, av, al, bv, bl, mv, cv, cl,
      outv, outl, l2v, norm1, norm2⟩ := F
  dsimp only at linv mv l2v
  refine ⟨⟨rfl, rfl, rfl, rfl, rfl, rfl, rfl, rfl, rfl, rfl, rfl, fun h hh => ?_, fun h hh => ?_, fun h hh => ?_, ?_, ?_,
    fun i _ => ⟨(l2v i).1, (l2v i).2.1⟩⟩, rfl, rfl⟩
  · show (t.hd.q h).Same (if h < t.nh then _ else _)
    rw [if_pos hh]; exact Sub.fed_same _ _
  · show (t.hd.k h).Same (if h < t.nh then _ else _)
    rw [if_pos hh]; exact Sub.fed_same _ _
  · show (t.hd.v h).Same (if h < t.nh then _ else _)
    rw [if_pos hh]; exact Sub.fed_same _ _
  · show t.lin.Same lin
    rw [linv]; exact Sub.fed_same _ _
  · show t.m.Same m
    rw [mv]; exact Sub.fed_same _ _

/-- One round of use: forward pass, backward pass, reset; the output read in
between, the error of the input and the derivatives before the reset are
returned. -/
noncomputable def Enc.round (t : Enc) (n : Nat) (xe : Arr ℝ × Arr ℝ) : Option (Enc × Arr ℝ × Arr ℝ × Enc) := do
  let t1 ← t.ff xe.1 n
  let r ← t1.bp xe.1 n xe.2
  let t3 ← r.1.reset false
  some (t3, t1.output, r.2, r.1)

/-- Rounds on a list of inputs and errors. -/
noncomputable def Enc.rounds (n : Nat) : List (Arr ℝ × Arr ℝ) → Enc → Option (Enc × List (Arr ℝ × Arr ℝ × Enc))
  | [], t => some (t, [])
  | xe :: l, t => do
    let r ← t.round n xe
    let s ← Enc.rounds n l r.1
    some (s.1, r.2 :: s.2)

/-- What one round must give for the encoder `t`: the output of its function
and the gradient of the pairing with the error, relative to `t0`, the encoder
the round started with. -/
def RoundSpec (t : Enc) (n : Nat) (xe : Arr ℝ × Arr ℝ) (r : Arr ℝ × Arr ℝ × Enc) : Prop :=
  (∀ i, i < t.m.dout → r.1.get i = encS t t.params xe.1.get i) ∧
  ∃ t0 : Enc, t.Same t0 ∧ t0.NoGrad ∧
    ∀ (P : ℝ → Params) (P' : Params) (X : ℝ → Nat → ℝ) (X' : Nat → ℝ) (τ : ℝ),
      t0.PMoves P P' τ → (∀ i, i < n → X τ i = xe.1.get i) → Moves n X X' τ →
      ∃ Y', Moves t.m.dout (fun s => encS t0 (P s) (X s)) Y' τ ∧
        dot t.m.dout xe.2.get Y' = dot n r.2.1.get X' + t0.pair r.2.2 P'

/-- **C119** (repeated use). One encoder used for any number of forward and
backward passes with a reset after each: no undefined behaviour, every output
is the function of the parameters, every round gives the gradient of its own
sample, and nothing leaks from one round to the next. -/
theorem C119_rounds_partial (n : Nat) (l : List (Arr ℝ × Arr ℝ)) (t : Enc) (wf : t.WF n) (al : t.Alloc) (fr : t.Fresh)
    (ng : t.NoGrad) (hr : t.res2 = true → t.res1 = true)
    (hx : ∀ xe ∈ l, n ≤ xe.1.len ∧ t.m.dout ≤ xe.2.len ∧ t.Smooth xe.1.get) :
    ∃ t' out, Enc.rounds n l t = some (t', out) ∧ t.Same t' ∧ t'.NoGrad ∧ List.Forall₂ (RoundSpec t n) l out := by
  induction l generalizing t with
  | nil =>
    exact ⟨t, [], rfl, ⟨rfl, rfl, rfl, rfl, rfl, rfl, rfl, rfl, rfl, rfl, rfl, fun _ _ => Sub.Same.refl _,
      fun _ _ => Sub.Same.refl _, fun _ _ => Sub.Same.refl _, Sub.Same.refl _, Sub.Same.refl _, fun _ _ => ⟨rfl, rfl⟩⟩, ng,
      List.Forall₂.nil⟩
  | cons xe l ih =>
    obtain ⟨h1, h2, sm⟩ := hx xe List.mem_cons_self
    obtain ⟨t1, t2, ie, ef, eo, eb, -, -, wf2, grad⟩ := C118_encoder_gradient_partial t xe.1 n xe.2 wf fr h1 h2 sm
    obtain ⟨t1', ef', F⟩ := ff_run t xe.1 n wf fr h1
      (fun y hy k hk => by
        rw [(sm.lin y hy).loc _ (attS t t.params xe.1.get) (fun i hi => (hy i hi).symm) k hk])
      (fun y hy k hk => by
        rw [(sm.m y hy).loc _ (n1S t t.params xe.1.get) (fun i hi => (hy i hi).symm) k hk])
    obtain rfl : t1 = t1' := Option.some.inj (ef.symm.trans ef')
    obtain ⟨s1, a1, b1⟩ := fwd_same F
    obtain ⟨s2, a2, b2⟩ := bp_same eb
    have s12 := s1.trans s2
    have al2 : t2.Alloc := ⟨by rw [a2, a1, s12.m.dout]; exact al.enc,
      fun h => by rw [b2, b1, s12.lin.dout]; exact al.r1e (s12.res1 ▸ h)⟩
    obtain ⟨t3, e3, wf3, al3, fr3, s3, -, ng3⟩ := C119_reset_partial t2 n wf2 al2
      (fun h => by rw [s12.res1]; exact hr (s12.res2 ▸ h))
    have s := s12.trans s3
    obtain ⟨t', out, e', s', ng', f'⟩ := ih t3 wf3 al3 fr3 ng3 (fun h => by rw [s.res1]; exact hr (s.res2 ▸ h))
      (fun y hy => by
        obtain ⟨c1, c2, c3⟩ := hx y (List.mem_cons_of_mem _ hy)
        exact ⟨c1, by rw [s.m.dout]; exact c2, s.smooth wf.pos wf.hnl2 c3⟩)
    have eR : t.round n xe = some (t3, t1.output, ie, t2) := by
      unfold Enc.round
      rw [ef, Option.bind_eq_bind, Option.bind_some, eb, Option.bind_eq_bind, Option.bind_some, e3]
      rfl
    refine ⟨t', (t1.output, ie, t2) :: out, ?_, s.trans s', ng', List.Forall₂.cons ⟨eo, t, ?_, ng, grad⟩ ?_⟩
    · unfold Enc.rounds
      rw [eR, Option.bind_eq_bind, Option.bind_some, e']
      rfl
    · exact ⟨rfl, rfl, rfl, rfl, rfl, rfl, rfl, rfl, rfl, rfl, rfl, fun _ _ => Sub.Same.refl _,
        fun _ _ => Sub.Same.refl _, fun _ _ => Sub.Same.refl _, Sub.Same.refl _, Sub.Same.refl _, fun _ _ => ⟨rfl, rfl⟩⟩
    · refine f'.imp fun y r hyr => ?_
      obtain ⟨q1, t0, q2, q3, q4⟩ := hyr
      refine ⟨fun i hi => ?_, t0, s.trans q2, q3, ?_⟩
      · rw [q1 i (by rw [s.m.dout]; exact hi), s.spec wf.pos wf.hnl2]
      · rw [s.m.dout] at q4
        exact q4

theorem demo_nograd : demo.NoGrad := ⟨fun _ _ => rfl, fun _ _ => rfl, fun _ _ => rfl, rfl, rfl, fun _ _ => rfl⟩

/-- Non-vacuity: a hundred rounds on the encoder of the example of C118. -/
example (e : Nat → ℝ) : ∃ t' out,
    Enc.rounds 4 (List.replicate 100 (⟨4, fun i => (i : ℝ) + 1⟩, ⟨4, e⟩)) demo = some (t', out) :=
  let ⟨t', out, h, _⟩ := C119_rounds_partial 4 (List.replicate 100 (⟨4, fun i => (i : ℝ) + 1⟩, ⟨4, e⟩)) demo demo_wf demo_alloc
    demo_fresh demo_nograd (fun h => h) (fun xe h => by
      rw [List.eq_of_mem_replicate h]
      exact ⟨le_refl 4, le_refl 4, demo_smooth⟩)
  ⟨t', out, h⟩

end LLab.Transf
