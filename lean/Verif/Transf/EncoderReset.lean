import Verif.Transf.EncoderProps

/-!
Construction, reset and copy of the encoder of the transformer
(`/repo/src/transformer_encoder.c` 54-190, 576-777). Property C119.
-/

namespace LLab.Transf

open Finset LLab.Attention LLab.Softmax

/-! ### Model -/

/-- Sum of the output dimensions of `n` networks. -/
def sumOut (f : Nat → Sub) (n : Nat) : Nat := ∑ h ∈ range n, (f h).dout

/-- `calloc(n, sizeof(float))`. -/
def calloc (n : Nat) : Arr ℝ := ⟨n, fun _ => 0⟩

/-- `transformer_encoder_layer` (`/repo/src/transformer_encoder.c` 54-190);
`none` is `exit(1)`. `l2 = none` is a null pointer; the flags are booleans (the
code maps every other value to "no"). `junk` stands for the null `l2` of the
result. -/
def Enc.make (junk : Nat → L2) (hd : Heads) (m lin : Sub) (l2 : Option (Nat → L2)) (inputDim nh : Nat)
    (res1 norm1 res2 norm2 masked : Bool) (kd vd : Nat) : Option Enc :=
  if l2.isNone = true ∧ (norm1 = true ∨ norm2 = true) then none
  else if l2.isSome = true ∧ norm1 = false ∧ norm2 = false then none
  else if inputDim = 0 ∨ nh = 0 ∨ kd = 0 ∨ vd = 0 then none
  else if inputDim % nh ≠ 0 then none
  else if norm1 = true ∧ (l2.getD junk 0).dim ≠ lin.dout then none
  else if norm2 = true ∧ (l2.getD junk (if norm1 then 1 else 0)).dim ≠ m.dout then none
  else
    let dim := inputDim / (nh * vd)
    some { nh := nh, dim := dim, kd := kd, vd := vd, inputDim := inputDim
           nl2 := (if norm1 then 1 else 0) + if norm2 then 1 else 0
           masked := masked, res1 := res1, norm1 := norm1, res2 := res2, norm2 := norm2
           hd := hd, m := m, lin := lin, l2 := l2.getD junk
           score := calloc (dim * dim * nh), soft := calloc (dim * dim * nh), att := calloc inputDim
           r1 := calloc (if res1 then lin.dout else 0), r1e := calloc (if res1 then lin.dout else 0)
           r2 := calloc (if res2 then m.dout else 0), r2e := calloc (if res2 then m.dout else 0)
           encErr := calloc m.dout
           er := ⟨calloc (sumOut hd.q nh), calloc (sumOut hd.k nh), calloc (sumOut hd.v nh),
             calloc (dim * dim * nh), calloc (dim * dim * nh)⟩ }

/-- `scaled_l2_normalization_layer` (`/repo/src/scaled_l2_norm_layers.c` 34-53). -/
noncomputable def L2.make (n : Nat) : Option L2 :=
  if n = 0 then none else some ⟨n, Real.sqrt n, 0, 1, calloc n, calloc n⟩

/-- `reset_model`, and `reset_model_except_partial_derivatives` when `keep`, of
one network: outputs are zeroed and, unless `keep`, so are the derivatives. -/
def Sub.reset (keep : Bool) (s : Sub) : Sub :=
  { s with dθ := if keep then s.dθ else fun _ => 0, out := calloc s.dout, seen := none }

/-- `reset_scaled_l2_norm` (`/repo/src/scaled_l2_norm_layers.c` 196-205). -/
def L2.reset (l : L2) : Option L2 := do
  let r ← loop l.dim (fun i (r : Arr ℝ × Arr ℝ) => do
    let o ← r.1.write i 0
    let e ← r.2.write i 0
    some (o, e)) (l.out, l.err)
  some { l with dg := 0, out := r.1, err := r.2 }

/-- `set_vector_with_value(0, a, n)` (`/repo/src/utils.c` 1141-1146). -/
def zero (a : Arr ℝ) (n : Nat) : Option (Arr ℝ) := loop n (fun i (a : Arr ℝ) => a.write i 0) a

/-- The two buffers of a residual connection, when the flag is set. -/
def zeroIf (flag : Bool) (a b : Arr ℝ) (n : Nat) : Option (Arr ℝ × Arr ℝ) :=
  match flag with
  | true => do
    let a ← zero a n
    let b ← zero b n
    some (a, b)
  | false => some (a, b)

/-- `reset_transformer_encoder` (`/repo/src/transformer_encoder.c` 639-687) and,
with `keep`, `reset_transformer_encoder_except_partial_derivatives` (736-777),
which differs in the reset of the networks only. For the second residual
connection the code names `residual1_output` and `residual1_output_error`
again. -/
def Enc.reset (keep : Bool) (t : Enc) : Option Enc := do
  let hd ← loop t.nh (fun h (hd : Heads) =>
    some (⟨Function.update hd.q h ((hd.q h).reset keep), Function.update hd.k h ((hd.k h).reset keep),
      Function.update hd.v h ((hd.v h).reset keep)⟩ : Heads)) t.hd
  let l2 ← loop t.nl2 (fun i (l2 : Nat → L2) => do
    let l ← (l2 i).reset
    some (Function.update l2 i l)) t.l2
  let encErr ← zero t.encErr t.m.dout
  let qe ← zero t.er.queryErr (sumOut hd.q t.nh)
  let ke ← zero t.er.keyErr (sumOut hd.k t.nh)
  let ve ← zero t.er.valueErr (sumOut hd.v t.nh)
  let score ← zero t.score (t.dim * t.dim * t.nh)
  let se ← zero t.er.scoreErr (t.dim * t.dim * t.nh)
  let soft ← zero t.soft (t.dim * t.dim * t.nh)
  let soe ← zero t.er.softErr (t.dim * t.dim * t.nh)
  let att ← zero t.att t.inputDim
  let r ← zeroIf t.res1 t.r1 t.r1e t.lin.dout
  let r ← zeroIf t.res2 r.1 r.2 t.m.dout
  some { t with hd := hd, l2 := l2, encErr := encErr, er := ⟨qe, ke, ve, se, soe⟩, score := score, soft := soft,
                att := att, r1 := r.1, r1e := r.2, m := t.m.reset keep, lin := t.lin.reset keep }

/-- `copy_model` of one network: the same parameters and derivatives, new
outputs. -/
def Sub.copy (s : Sub) : Sub := { s with out := calloc s.dout, seen := none }

/-- `copy_scaled_l2_norm` (`/repo/src/scaled_l2_norm_layers.c` 170-182). -/
noncomputable def L2.copy (l : L2) : Option L2 := do
  let c ← L2.make l.dim
  some { c with g := l.g, dg := l.dg }

/-- The loop copying the networks of the heads into arrays of `nh` pointers,
`cnt` rounds. -/
def copyHeads (cp : Sub → Sub) (cnt nh : Nat) (src dst : Heads) : Option Heads :=
  loop cnt (fun h (hd : Heads) =>
    if h < nh then
      some (⟨Function.update hd.q h (cp (src.q h)), Function.update hd.k h (cp (src.k h)),
        Function.update hd.v h (cp (src.v h))⟩ : Heads)
    else none) dst

/-- Copies of the normalisation layers; a null pointer when there are none. -/
noncomputable def copyNorms (n : Nat) (l2 junk : Nat → L2) : Option (Option (Nat → L2)) := do
  let r ← loop n (fun i (c : Nat → L2) => do
    let l ← (l2 i).copy
    some (Function.update c i l)) junk
  some (if n = 0 then none else some r)

/-- `copy_transformer_encoder` (`/repo/src/transformer_encoder.c` 576-599;
`cnt = n_head`) and `copy_transformer_encoder_without_learning_parameters`
(608-630; `cnt = n_head*3`). `junk`, `junkl` are the contents of the fresh
arrays. -/
noncomputable def Enc.copyWith (cp : Sub → Sub) (cnt : Nat) (junk : Heads) (junkl : Nat → L2) (t : Enc) : Option Enc := do
  let hd ← copyHeads cp cnt t.nh t.hd junk
  let l2 ← copyNorms t.nl2 t.l2 junkl
  Enc.make junkl hd (cp t.m) (cp t.lin) l2 t.inputDim t.nh t.res1 t.norm1 t.res2 t.norm2 t.masked t.kd t.vd

/-- `copy_transformer_encoder`. -/
noncomputable def Enc.copy (junk : Heads) (junkl : Nat → L2) (t : Enc) : Option Enc :=
  t.copyWith Sub.copy t.nh junk junkl

/-! ### Specification -/

/-- Two networks of the same shape, function and parameters. -/
structure Sub.Same (s s' : Sub) : Prop where
  din : s'.din = s.din
  dout : s'.dout = s.dout
  np : s'.np = s.np
  f : s'.f = s.f
  back : s'.back = s.back
  grad : s'.grad = s.grad
  after : s'.after = s.after
  θ : s'.θ = s.θ

/-- Two encoders of the same shape, function and parameters; their buffers and
derivatives may differ. -/
structure Enc.Same (t t' : Enc) : Prop where
  nh : t'.nh = t.nh
  dim : t'.dim = t.dim
  kd : t'.kd = t.kd
  vd : t'.vd = t.vd
  inputDim : t'.inputDim = t.inputDim
  nl2 : t'.nl2 = t.nl2
  masked : t'.masked = t.masked
  res1 : t'.res1 = t.res1
  norm1 : t'.norm1 = t.norm1
  res2 : t'.res2 = t.res2
  norm2 : t'.norm2 = t.norm2
  q : ∀ h, h < t.nh → (t.hd.q h).Same (t'.hd.q h)
  k : ∀ h, h < t.nh → (t.hd.k h).Same (t'.hd.k h)
  v : ∀ h, h < t.nh → (t.hd.v h).Same (t'.hd.v h)
  lin : t.lin.Same t'.lin
  m : t.m.Same t'.m
  l2 : ∀ i, i < t.nl2 → (t'.l2 i).dim = (t.l2 i).dim ∧ (t'.l2 i).g = (t.l2 i).g

/-- All derivatives are zero. -/
structure Enc.NoGrad (t : Enc) : Prop where
  q : ∀ h, h < t.nh → (t.hd.q h).dθ = fun _ => 0
  k : ∀ h, h < t.nh → (t.hd.k h).dθ = fun _ => 0
  v : ∀ h, h < t.nh → (t.hd.v h).dθ = fun _ => 0
  lin : t.lin.dθ = fun _ => 0
  m : t.m.dθ = fun _ => 0
  l2 : ∀ i, i < t.nl2 → (t.l2 i).dg = 0

/-- Sizes of the two buffers that only the transformer around the encoder and
the reset use. -/
structure Enc.Alloc (t : Enc) : Prop where
  enc : t.encErr.len = t.m.dout
  r1e : t.res1 = true → t.r1e.len = t.lin.dout

theorem Sub.Same.refl (s : Sub) : s.Same s := ⟨rfl, rfl, rfl, rfl, rfl, rfl, rfl, rfl⟩

theorem Sub.Same.symm {s s' : Sub} (h : s.Same s') : s'.Same s :=
  ⟨h.din.symm, h.dout.symm, h.np.symm, h.f.symm, h.back.symm, h.grad.symm, h.after.symm, h.θ.symm⟩

theorem Sub.Same.trans {s s' s'' : Sub} (h : s.Same s') (h' : s'.Same s'') : s.Same s'' :=
  ⟨h'.din.trans h.din, h'.dout.trans h.dout, h'.np.trans h.np, h'.f.trans h.f, h'.back.trans h.back, h'.grad.trans h.grad,
    h'.after.trans h.after, h'.θ.trans h.θ⟩

theorem Sub.Same.diff {s s' : Sub} (h : s.Same s') {x : Nat → ℝ} (d : s.Diff x) : s'.Diff x := by
  obtain ⟨din, dout, np, f, back, grad, after, θ⟩ := h
  cases s; cases s'
  dsimp only at *
  subst din dout np f back grad after θ
  exact ⟨d.loc, d.adj⟩

theorem Sub.Same.keeps {s s' : Sub} (h : s.Same s') (d : s.Keeps) : s'.Keeps := by
  intro x e i hi
  rw [h.after]
  exact d x e i (h.dout ▸ hi)

theorem Enc.Same.trans {t t' t'' : Enc} (a : t.Same t') (b : t'.Same t'') : t.Same t'' :=
  ⟨b.nh.trans a.nh, b.dim.trans a.dim, b.kd.trans a.kd, b.vd.trans a.vd, b.inputDim.trans a.inputDim, b.nl2.trans a.nl2,
    b.masked.trans a.masked, b.res1.trans a.res1, b.norm1.trans a.norm1, b.res2.trans a.res2, b.norm2.trans a.norm2,
    fun h hh => (a.q h hh).trans (b.q h (a.nh ▸ hh)), fun h hh => (a.k h hh).trans (b.k h (a.nh ▸ hh)),
    fun h hh => (a.v h hh).trans (b.v h (a.nh ▸ hh)), a.lin.trans b.lin, a.m.trans b.m,
    fun i hi => ⟨((b.l2 i (a.nl2 ▸ hi)).1).trans (a.l2 i hi).1, ((b.l2 i (a.nl2 ▸ hi)).2).trans (a.l2 i hi).2⟩⟩

/-! ### Proofs -/

theorem head_lt {n v u : Nat} (hn : 0 < n) : u % (n * v) / v < n := by
  rcases Nat.eq_zero_or_pos v with rfl | hv
  · simpa using hn
  · rw [Nat.div_lt_iff_lt_mul hv]
    exact Nat.mod_lt _ (Nat.mul_pos hn hv)

variable {t t' : Enc}

theorem Enc.Same.att (s : t.Same t') (hn : 0 < t.nh) (x : Nat → ℝ) : attS t' t'.params x = attS t t.params x := by
  funext u
  unfold attS multiAttn
  rw [s.masked, s.dim, s.nh, s.vd]
  have hh : u % (t.nh * t.vd) / t.vd < t.nh := head_lt hn
  show attn _ _ _ ((t'.hd.q _).f (t'.hd.q _).θ x) ((t'.hd.k _).f (t'.hd.k _).θ x) ((t'.hd.v _).f (t'.hd.v _).θ x) _ _ = _
  rw [(s.q _ hh).f, (s.q _ hh).θ, (s.k _ hh).f, (s.k _ hh).θ, (s.v _ hh).f, (s.v _ hh).θ]
  rfl

theorem Enc.Same.r1 (s : t.Same t') (hn : 0 < t.nh) (x : Nat → ℝ) : r1S t' t'.params x = r1S t t.params x := by
  funext i
  unfold r1S
  rw [s.att hn x, s.res1]
  show (if t.res1 = true then x i + t'.lin.f t'.lin.θ _ i else t'.lin.f t'.lin.θ _ i) = _
  rw [s.lin.f, s.lin.θ]
  rfl

theorem Enc.Same.n1 (s : t.Same t') (hn : 0 < t.nh) (h0 : t.norm1 = true → 0 < t.nl2) (x : Nat → ℝ) :
    n1S t' t'.params x = n1S t t.params x := by
  unfold n1S
  rw [s.r1 hn x, s.norm1]
  by_cases hf : t.norm1 = true
  · rw [if_pos hf, if_pos hf, s.lin.dout]
    show scaled _ (t'.l2 0).g _ = scaled _ (t.l2 0).g _
    rw [(s.l2 0 (h0 hf)).2]
  · rw [if_neg hf, if_neg hf]

theorem Enc.Same.r2 (s : t.Same t') (hn : 0 < t.nh) (h0 : t.norm1 = true → 0 < t.nl2) (x : Nat → ℝ) :
    r2S t' t'.params x = r2S t t.params x := by
  funext i
  unfold r2S
  rw [s.n1 hn h0 x, s.res2]
  show (if t.res2 = true then n1S t t.params x i + t'.m.f t'.m.θ _ i else t'.m.f t'.m.θ _ i) = _
  rw [s.m.f, s.m.θ]
  rfl

/-- Encoders of the same shape and parameters compute the same function. -/
theorem Enc.Same.spec (s : t.Same t') (hn : 0 < t.nh)
    (hl : t.nl2 = (if t.norm1 then 1 else 0) + if t.norm2 then 1 else 0) (x : Nat → ℝ) :
    encS t' t'.params x = encS t t.params x := by
  have h0 : t.norm1 = true → 0 < t.nl2 := fun h => by rw [hl, if_pos h]; omega
  unfold encS
  rw [s.r2 hn h0 x, s.norm2]
  by_cases hf : t.norm2 = true
  · rw [if_pos hf, if_pos hf, s.m.dout]
    show scaled _ (t'.l2 (t'.nl2 - 1)).g _ = scaled _ (t.l2 (t.nl2 - 1)).g _
    rw [s.nl2, (s.l2 (t.nl2 - 1) (by rw [hl, if_pos hf]; omega)).2]
  · rw [if_neg hf, if_neg hf]

theorem Enc.Same.smooth (s : t.Same t') (hn : 0 < t.nh)
    (hl : t.nl2 = (if t.norm1 then 1 else 0) + if t.norm2 then 1 else 0) {x : Nat → ℝ} (sm : t.Smooth x) : t'.Smooth x := by
  have h0 : t.norm1 = true → 0 < t.nl2 := fun h => by rw [hl, if_pos h]; omega
  refine ⟨fun h hh => (s.q h (s.nh ▸ hh)).diff (sm.q h (s.nh ▸ hh)), fun h hh => (s.k h (s.nh ▸ hh)).diff (sm.k h (s.nh ▸ hh)),
    fun h hh => (s.v h (s.nh ▸ hh)).diff (sm.v h (s.nh ▸ hh)), fun y hy => s.lin.diff (sm.lin y ?_),
    fun y hy => s.m.diff (sm.m y ?_), fun h => s.lin.keeps (sm.keepLin (s.res1 ▸ h)), fun h => s.m.keeps (sm.keepM (s.res2 ▸ h)),
    fun h => ?_, fun h => ?_⟩
  · rw [s.lin.din, s.att hn x] at hy
    exact hy
  · rw [s.m.din, s.n1 hn h0 x] at hy
    exact hy
  · rw [s.lin.dout, s.r1 hn x]
    exact sm.ne1 (s.norm1 ▸ h)
  · rw [s.m.dout, s.r2 hn h0 x]
    exact sm.ne2 (s.norm2 ▸ h)

theorem zero_run (a : Arr ℝ) (n : Nat) (h : n ≤ a.len) : zero a n = some ⟨a.len, fun k => if k < n then 0 else a.get k⟩ :=
  loop_fill (fun _ => 0) fun i hi b hb _ => Arr.write_eq _ (by omega)

theorem zero_short (a : Arr ℝ) (n : Nat) (h : a.len < n) : zero a n = none := by
  obtain ⟨k, rfl⟩ : ∃ k, n = a.len + 1 + k := ⟨n - a.len - 1, by omega⟩
  induction k with
  | zero =>
    have := zero_run a a.len (le_refl _)
    unfold zero at this ⊢
    show (loop (a.len + 1) _ a) = none
    simp only [loop]
    rw [this]
    show (if a.len < a.len then _ else none) = none
    rw [if_neg (lt_irrefl _)]
  | succ k ih =>
    show (loop (a.len + 1 + k + 1) _ a) = none
    simp only [loop]
    have := ih (by omega)
    unfold zero at this
    rw [this]
    rfl

theorem zeroIf_run (flag : Bool) (a b : Arr ℝ) (n : Nat) (ha : flag = true → n ≤ a.len) (hb : flag = true → n ≤ b.len) :
    ∃ r, zeroIf flag a b n = some r ∧ r.1.len = a.len ∧ r.2.len = b.len := by
  cases flag with
  | false => exact ⟨_, rfl, rfl, rfl⟩
  | true =>
    refine ⟨(⟨a.len, fun k => if k < n then 0 else a.get k⟩, ⟨b.len, fun k => if k < n then 0 else b.get k⟩), ?_, rfl, rfl⟩
    unfold zeroIf
    dsimp only
    rw [zero_run a n (ha rfl), Option.bind_eq_bind, Option.bind_some, zero_run b n (hb rfl)]
    rfl

theorem L2.reset_run (l : L2) (ho : l.out.len = l.dim) (he : l.err.len = l.dim) :
    ∃ l', l.reset = some l' ∧ l'.dim = l.dim ∧ l'.g = l.g ∧ l'.dg = 0 ∧ l'.out.len = l.dim ∧ l'.err.len = l.dim ∧
      ∀ u, u < l.dim → l'.err.get u = 0 := by
  obtain ⟨r, er, h1, h2, h3⟩ := loop_inv (n := l.dim) (s := (l.out, l.err))
    (f := fun i (r : Arr ℝ × Arr ℝ) => do
      let o ← r.1.write i 0
      let e ← r.2.write i 0
      some (o, e))
    (fun i (r : Arr ℝ × Arr ℝ) => r.1.len = l.dim ∧ r.2.len = l.dim ∧ ∀ u, u < i → r.2.get u = 0)
    ⟨ho, he, fun u hu => absurd hu (Nat.not_lt_zero _)⟩ (by
      rintro i hi ⟨o, e⟩ ⟨h1, h2, h3⟩
      dsimp only at h1 h2 h3
      refine ⟨(⟨o.len, Function.update o.get i 0⟩, ⟨e.len, Function.update e.get i 0⟩), ?_, h1, h2, ?_⟩
      · dsimp only
        rw [Arr.write_eq _ (by omega : i < o.len), Arr.write_eq _ (by omega : i < e.len)]
        rfl
      · intro u hu
        show Function.update e.get i 0 u = 0
        by_cases hui : u = i
        · rw [hui, Function.update_self]
        · rw [Function.update_of_ne hui]
          exact h3 u (by omega))
  refine ⟨{ l with dg := 0, out := r.1, err := r.2 }, ?_, rfl, rfl, rfl, h1, h2, h3⟩
  unfold L2.reset
  rw [er]
  rfl

theorem sumOut_eq {f : Nat → Sub} {n d : Nat} (h : ∀ i, i < n → (f i).dout = d) : sumOut f n = n * d := by
  unfold sumOut
  rw [Finset.sum_congr rfl fun i hi => h i (Finset.mem_range.1 hi), Finset.sum_const, Finset.card_range, smul_eq_mul]

theorem resetHeads_run (keep : Bool) (nh : Nat) (hd : Heads) :
    loop nh (fun h (hd : Heads) =>
      some (⟨Function.update hd.q h ((hd.q h).reset keep), Function.update hd.k h ((hd.k h).reset keep),
        Function.update hd.v h ((hd.v h).reset keep)⟩ : Heads)) hd =
    some ⟨fun h => if h < nh then (hd.q h).reset keep else hd.q h, fun h => if h < nh then (hd.k h).reset keep else hd.k h,
      fun h => if h < nh then (hd.v h).reset keep else hd.v h⟩ := by
  have up : ∀ (n : Nat) (f : Nat → Sub), Function.update (fun h => if h < n then (f h).reset keep else f h) n
      ((if n < n then (f n).reset keep else f n).reset keep) = fun h => if h < n + 1 then (f h).reset keep else f h := by
    intro n f
    funext h
    by_cases hh : h = n
    · subst hh
      rw [Function.update_self, if_neg (lt_irrefl _), if_pos (Nat.lt_succ_self _)]
    · rw [Function.update_of_ne hh]
      by_cases h2 : h < n
      · rw [if_pos h2, if_pos (by omega)]
      · rw [if_neg h2, if_neg (by omega)]
  induction nh with
  | zero => rfl
  | succ n ih =>
    simp only [loop]
    rw [ih, Option.bind_eq_bind, Option.bind_some]
    dsimp only
    rw [up, up, up]

theorem Sub.reset_same (keep : Bool) (s : Sub) : s.Same (s.reset keep) := ⟨rfl, rfl, rfl, rfl, rfl, rfl, rfl, rfl⟩

theorem Sub.copy_same (s : Sub) : s.Same s.copy := ⟨rfl, rfl, rfl, rfl, rfl, rfl, rfl, rfl⟩

theorem bind_none {β γ : Type} {x : Option β} {f : β → Option γ} (h : ∀ a, f a = none) : (x >>= f) = none := by
  cases x with
  | none => rfl
  | some a => exact h a

/-- What a reset leaves. -/
theorem reset_run (keep : Bool) (t : Enc) (n : Nat) (wf : t.WF n) (al : t.Alloc) (hr : t.res2 = true → t.res1 = true) :
    ∃ t', t.reset keep = some t' ∧ t'.WF n ∧ t'.Alloc ∧ t'.Fresh ∧ t.Same t' ∧ t'.params = t.params ∧
      (∀ h, h < t.nh → t'.hd.q h = (t.hd.q h).reset keep ∧ t'.hd.k h = (t.hd.k h).reset keep ∧ t'.hd.v h = (t.hd.v h).reset keep) ∧
      t'.m = t.m.reset keep ∧ t'.lin = t.lin.reset keep ∧ (∀ i, i < t.nl2 → (t'.l2 i).dg = 0) := by
  have hd0 : ∀ i, i < t.nl2 → (t.l2 i).out.len = (t.l2 i).dim ∧ (t.l2 i).err.len = (t.l2 i).dim := by
    intro i hi
    have hl := wf.hnl2
    by_cases h1 : t.norm1 = true
    · by_cases h2 : t.norm2 = true
      · rw [if_pos h1, if_pos h2] at hl
        rcases (by omega : i = 0 ∨ i = t.nl2 - 1) with rfl | rfl
        · obtain ⟨a, b, c⟩ := wf.hnorm1 h1
          exact ⟨b.trans a.symm, c.trans a.symm⟩
        · obtain ⟨a, b, c⟩ := wf.hnorm2 h2
          exact ⟨b.trans a.symm, c.trans a.symm⟩
      · rw [if_pos h1, if_neg h2] at hl
        obtain rfl : i = 0 := by omega
        obtain ⟨a, b, c⟩ := wf.hnorm1 h1
        exact ⟨b.trans a.symm, c.trans a.symm⟩
    · by_cases h2 : t.norm2 = true
      · rw [if_neg h1, if_pos h2] at hl
        obtain rfl : i = t.nl2 - 1 := by omega
        obtain ⟨a, b, c⟩ := wf.hnorm2 h2
        exact ⟨b.trans a.symm, c.trans a.symm⟩
      · rw [if_neg h1, if_neg h2] at hl
        omega
  obtain ⟨l2, el2, g1, g2⟩ := loop_inv (n := t.nl2) (s := t.l2)
    (f := fun i (l2 : Nat → L2) => do
      let l ← (l2 i).reset
      some (Function.update l2 i l))
    (fun i (l2 : Nat → L2) => (∀ j, j < i → (l2 j).dim = (t.l2 j).dim ∧ (l2 j).g = (t.l2 j).g ∧ (l2 j).dg = 0 ∧
        (l2 j).out.len = (t.l2 j).dim ∧ (l2 j).err.len = (t.l2 j).dim ∧ ∀ u, u < (t.l2 j).dim → (l2 j).err.get u = 0) ∧
      ∀ j, i ≤ j → l2 j = t.l2 j)
    ⟨fun j hj => absurd hj (Nat.not_lt_zero _), fun _ _ => rfl⟩ (by
      rintro i hi l2 ⟨h1, h2⟩
      obtain ⟨l', e, a⟩ := L2.reset_run (l2 i) (by rw [h2 i (le_refl _)]; exact (hd0 i hi).1)
        (by rw [h2 i (le_refl _)]; exact (hd0 i hi).2)
      rw [h2 i (le_refl _)] at a
      refine ⟨Function.update l2 i l', ?_, ?_, ?_⟩
      · rw [e]
        rfl
      · intro j hj
        by_cases hji : j = i
        · subst hji
          rw [Function.update_self]
          exact a
        · rw [Function.update_of_ne hji]
          exact h1 j (by omega)
      · intro j hj
        rw [Function.update_of_ne (by omega)]
        exact h2 j (by omega))
  set hd' : Heads := ⟨fun h => if h < t.nh then (t.hd.q h).reset keep else t.hd.q h,
    fun h => if h < t.nh then (t.hd.k h).reset keep else t.hd.k h,
    fun h => if h < t.nh then (t.hd.v h).reset keep else t.hd.v h⟩ with hhd
  have hq : ∀ h, h < t.nh → hd'.q h = (t.hd.q h).reset keep := fun h hh => by
    show (if h < t.nh then _ else _) = _
    rw [if_pos hh]
  have hk : ∀ h, h < t.nh → hd'.k h = (t.hd.k h).reset keep := fun h hh => by
    show (if h < t.nh then _ else _) = _
    rw [if_pos hh]
  have hv : ∀ h, h < t.nh → hd'.v h = (t.hd.v h).reset keep := fun h hh => by
    show (if h < t.nh then _ else _) = _
    rw [if_pos hh]
  have sq : sumOut hd'.q t.nh = t.nh * t.dim * t.vd := by
    rw [sumOut_eq (d := t.dim * t.vd) fun i hi => by rw [hq i hi]; exact (wf.hq i hi).2]; ring
  have sk : sumOut hd'.k t.nh = t.nh * t.dim * t.vd := by
    rw [sumOut_eq (d := t.dim * t.vd) fun i hi => by rw [hk i hi]; exact (wf.hk i hi).2]; ring
  have sv : sumOut hd'.v t.nh = t.nh * t.dim * t.vd := by
    rw [sumOut_eq (d := t.dim * t.vd) fun i hi => by rw [hv i hi]; exact (wf.hv i hi).2]; ring
  have dd : t.dim * t.dim * t.nh = t.nh * t.dim * t.dim := by ring
  obtain ⟨r, eR, l1, l1e⟩ := zeroIf_run t.res1 t.r1 t.r1e t.lin.dout (fun h => (wf.hres1 h).2.ge) (fun h => (al.r1e h).ge)
  obtain ⟨r', eR', l2', l2e⟩ := zeroIf_run t.res2 r.1 r.2 t.m.dout
    (fun h => by rw [l1, (wf.hres1 (hr h)).2, (wf.hres2 h).1]) (fun h => by rw [l1e, al.r1e (hr h), (wf.hres2 h).1])
  have run : t.reset keep = some { t with
      hd := hd', l2 := l2, encErr := ⟨t.encErr.len, fun k => if k < t.m.dout then 0 else t.encErr.get k⟩
      er := ⟨⟨t.er.queryErr.len, fun k => if k < sumOut hd'.q t.nh then 0 else t.er.queryErr.get k⟩,
        ⟨t.er.keyErr.len, fun k => if k < sumOut hd'.k t.nh then 0 else t.er.keyErr.get k⟩,
        ⟨t.er.valueErr.len, fun k => if k < sumOut hd'.v t.nh then 0 else t.er.valueErr.get k⟩,
        ⟨t.er.scoreErr.len, fun k => if k < t.dim * t.dim * t.nh then 0 else t.er.scoreErr.get k⟩,
        ⟨t.er.softErr.len, fun k => if k < t.dim * t.dim * t.nh then 0 else t.er.softErr.get k⟩⟩
      score := ⟨t.score.len, fun k => if k < t.dim * t.dim * t.nh then 0 else t.score.get k⟩
      soft := ⟨t.soft.len, fun k => if k < t.dim * t.dim * t.nh then 0 else t.soft.get k⟩
      att := ⟨t.att.len, fun k => if k < t.inputDim then 0 else t.att.get k⟩
      r1 := r'.1, r1e := r'.2, m := t.m.reset keep, lin := t.lin.reset keep } := by
    unfold Enc.reset
    refine (bind_some_of (resetHeads_run keep t.nh t.hd)).trans ?_
    refine (bind_some_of el2).trans ?_
    refine (bind_some_of (zero_run _ _ al.enc.ge)).trans ?_
    refine (bind_some_of (zero_run t.er.queryErr (sumOut hd'.q t.nh) (by rw [sq, wf.hqe]))).trans ?_
    refine (bind_some_of (zero_run t.er.keyErr (sumOut hd'.k t.nh) (by rw [sk, wf.hke]))).trans ?_
    refine (bind_some_of (zero_run t.er.valueErr (sumOut hd'.v t.nh) (by rw [sv, wf.hve]))).trans ?_
    refine (bind_some_of (zero_run _ _ (by rw [dd, wf.hscore]))).trans ?_
    refine (bind_some_of (zero_run _ _ (by rw [dd, wf.hse]))).trans ?_
    refine (bind_some_of (zero_run _ _ (by rw [dd, wf.hsoft]))).trans ?_
    refine (bind_some_of (zero_run _ _ (by rw [dd, wf.hsoe]))).trans ?_
    refine (bind_some_of (zero_run _ _ wf.hatt.ge)).trans ?_
    refine (bind_some_of eR).trans ?_
    exact (bind_some_of eR').trans rfl
  have z1 : t.norm1 = true → 0 < t.nl2 := fun h => by rw [wf.hnl2, if_pos h]; omega
  have z2 : t.norm2 = true → t.nl2 - 1 < t.nl2 := fun h => by rw [wf.hnl2, if_pos h]; omega
  have gg : ∀ i, (l2 i).g = (t.l2 i).g := by
    intro i
    by_cases hi : i < t.nl2
    · exact (g1 i hi).2.1
    · rw [g2 i (by omega)]
  rw [run]
  refine ⟨_, rfl, ⟨wf.pos, wf.kv, fun h hh => ?_, fun h hh => ?_, fun h hh => ?_, wf.hin, wf.hlin, wf.hm, fun h => ?_,
      fun h => wf.hres2 h, wf.hnl2, fun h => ?_, fun h => ?_, wf.hscore, wf.hsoft, wf.hatt, wf.hqe, wf.hke, wf.hve, wf.hse, wf.hsoe⟩,
    ⟨al.enc, fun h => l2e.trans (l1e.trans (al.r1e h))⟩,
    ⟨fun u hu => ?_, fun u hu => if_pos hu, fun u hu => ?_, fun u hu => ?_, fun u hu => ?_, fun u hu => ?_, fun u hu => ?_,
      fun i hi u hu => ?_⟩,
    ⟨rfl, rfl, rfl, rfl, rfl, rfl, rfl, rfl, rfl, rfl, rfl, fun h hh => ?_, fun h hh => ?_, fun h hh => ?_,
      Sub.reset_same _ _, Sub.reset_same _ _, fun i hi => ⟨(g1 i hi).1, (g1 i hi).2.1⟩⟩, ?_,
    fun h hh => ⟨hq h hh, hk h hh, hv h hh⟩, rfl, rfl, fun i hi => (g1 i hi).2.2.1⟩
  · show (hd'.q h).din = n ∧ (hd'.q h).dout = _
    rw [hq h hh]
    exact wf.hq h hh
  · show (hd'.k h).din = n ∧ (hd'.k h).dout = _
    rw [hk h hh]
    exact wf.hk h hh
  · show (hd'.v h).din = n ∧ (hd'.v h).dout = _
    rw [hv h hh]
    exact wf.hv h hh
  · exact ⟨(wf.hres1 h).1, l2'.trans (l1.trans (wf.hres1 h).2)⟩
  · obtain ⟨a, -, -, b, c, -⟩ := g1 0 (z1 h)
    have := (wf.hnorm1 h).1
    exact ⟨a.trans this, b.trans this, c.trans this⟩
  · obtain ⟨a, -, -, b, c, -⟩ := g1 (t.nl2 - 1) (z2 h)
    have := (wf.hnorm2 h).1
    exact ⟨a.trans this, b.trans this, c.trans this⟩
  · exact if_pos (by rw [dd]; exact hu)
  · exact if_pos (by rw [sq]; exact hu)
  · exact if_pos (by rw [sk]; exact hu)
  · exact if_pos (by rw [sv]; exact hu)
  · exact if_pos (by rw [dd]; exact hu)
  · exact if_pos (by rw [dd]; exact hu)
  · obtain ⟨a, -, -, -, -, c⟩ := g1 i hi
    exact c u (a ▸ hu)
  · show (t.hd.q h).Same (hd'.q h)
    rw [hq h hh]
    exact Sub.reset_same _ _
  · show (t.hd.k h).Same (hd'.k h)
    rw [hk h hh]
    exact Sub.reset_same _ _
  · show (t.hd.v h).Same (hd'.v h)
    rw [hv h hh]
    exact Sub.reset_same _ _
  · have p : ∀ (f : Nat → Sub), (fun h => (if h < t.nh then (f h).reset keep else f h).θ) = fun h => (f h).θ := by
      intro f
      funext h
      by_cases hh : h < t.nh
      · rw [if_pos hh]; rfl
      · rw [if_neg hh]
    show Params.mk (fun h => (if h < t.nh then (t.hd.q h).reset keep else t.hd.q h).θ)
      (fun h => (if h < t.nh then (t.hd.k h).reset keep else t.hd.k h).θ)
      (fun h => (if h < t.nh then (t.hd.v h).reset keep else t.hd.v h).θ) t.m.θ t.lin.θ (l2 0).g (l2 (t.nl2 - 1)).g = _
    rw [p, p, p, gg, gg]
    rfl

/-! ### Property C119 -/

/-- **C119** (construction). With networks of matching sizes, and as many tokens
of size `n_head * v_embedding_dimension` as the input dimension says, the
constructor returns a well-formed encoder with clean buffers made of the given
networks; the scales of its normalisation layers are the square roots of their
sizes and have no derivative yet. -/
theorem C119_make (junk : Nat → L2) (hd : Heads) (m lin : Sub) (l2 : Option (Nat → L2)) (dim nh n : Nat)
    (res1 norm1 res2 norm2 masked : Bool) (d : Nat) (hpos : 0 < dim ∧ 0 < nh ∧ 0 < d)
    (hq : ∀ h, h < nh → (hd.q h).din = n ∧ (hd.q h).dout = dim * d)
    (hk : ∀ h, h < nh → (hd.k h).din = n ∧ (hd.k h).dout = dim * d)
    (hv : ∀ h, h < nh → (hd.v h).din = n ∧ (hd.v h).dout = dim * d)
    (hlin : lin.din = dim * nh * d) (hm : m.din = lin.dout) (h1 : res1 = true → lin.dout = n)
    (h2 : res2 = true → m.dout = lin.dout)
    (hnull : l2.isSome = true ↔ norm1 = true ∨ norm2 = true)
    (hn1 : norm1 = true → L2.make lin.dout = some (l2.getD junk 0))
    (hn2 : norm2 = true → L2.make m.dout = some (l2.getD junk (if norm1 then 1 else 0))) :
    ∃ t, Enc.make junk hd m lin l2 (dim * nh * d) nh res1 norm1 res2 norm2 masked d d = some t ∧ t.WF n ∧ t.Fresh ∧
      t.Alloc ∧ t.dim = dim ∧ t.nh = nh ∧ t.hd = hd ∧ t.m = m ∧ t.lin = lin ∧ t.l2 = l2.getD junk ∧
      t.masked = masked ∧ t.res1 = res1 ∧ t.norm1 = norm1 ∧ t.res2 = res2 ∧ t.norm2 = norm2 ∧
      ∀ i, i < t.nl2 → (t.l2 i).dg = 0 ∧ (t.l2 i).g = Real.sqrt (t.l2 i).dim := by
  obtain ⟨p1, p2, p3⟩ := hpos
  have hL : ∀ (k : Nat) (l : L2), L2.make k = some l → l.dim = k ∧ l.out.len = k ∧ l.err.len = k ∧ (∀ u, l.err.get u = 0) ∧ l.dg = 0 ∧ l.g = Real.sqrt l.dim := by
    intro k l h
    unfold L2.make at h
    split at h
    · cases h
    · cases h
      exact ⟨rfl, rfl, rfl, fun _ => rfl, rfl, rfl⟩
  have hdim : dim * nh * d / (nh * d) = dim := by
    rw [Nat.mul_assoc]
    exact Nat.mul_div_cancel _ (Nat.mul_pos p2 p3)
  have hprod : 0 < dim * nh * d := Nat.mul_pos (Nat.mul_pos p1 p2) p3
  have hmod : dim * nh * d % nh = 0 := by
    rw [show dim * nh * d = nh * (dim * d) by ring]
    exact Nat.mul_mod_right _ _
  have dd : dim * dim * nh = nh * dim * dim := by ring
  have hss : ∀ f : Nat → Sub, (∀ h, h < nh → (f h).din = n ∧ (f h).dout = dim * d) → sumOut f nh = nh * dim * d := by
    intro f hf
    rw [sumOut_eq fun i hi => (hf i hi).2]; ring
  unfold Enc.make
  rw [if_neg, if_neg, if_neg, if_neg (fun h => h hmod), if_neg, if_neg]
  · rw [hdim]
    refine ⟨_, rfl, ⟨p2, rfl, hq, hk, hv, rfl, hlin, hm, fun h => ⟨h1 h, ?_⟩, fun h => ⟨h2 h, ?_⟩, rfl, fun h => ?_,
      fun h => ?_, dd, dd, rfl, hss _ hq, hss _ hk, hss _ hv, dd, dd⟩,
      ⟨fun _ _ => rfl, fun _ _ => rfl, fun _ _ => rfl, fun _ _ => rfl, fun _ _ => rfl, fun _ _ => rfl, fun _ _ => rfl,
        fun i hi u hu => ?_⟩,
      ⟨rfl, fun h => ?_⟩, rfl, rfl, rfl, rfl, rfl, rfl, rfl, rfl, rfl, rfl, rfl, fun i hi => ?_⟩
    · show (if res1 = true then lin.dout else 0) = lin.dout
      exact if_pos h
    · show (if res2 = true then m.dout else 0) = m.dout
      exact if_pos h
    · obtain ⟨a, b, c, -⟩ := hL _ _ (hn1 h)
      exact ⟨a, b, c⟩
    · have h' : norm2 = true := h
      have : (if norm1 = true then 1 else 0) + (if norm2 = true then 1 else 0) - 1 = if norm1 = true then 1 else 0 := by
        rw [if_pos h']; omega
      dsimp only
      rw [this]
      obtain ⟨a, b, c, -⟩ := hL _ _ (hn2 h)
      exact ⟨a, b, c⟩
    · dsimp only at hi ⊢
      by_cases e1 : norm1 = true
      · by_cases e2 : norm2 = true
        · rw [if_pos e1, if_pos e2] at hi
          rw [if_pos e1] at hn2
          rcases (by omega : i = 0 ∨ i = 1) with rfl | rfl
          · exact (hL _ _ (hn1 e1)).2.2.2.1 u
          · exact (hL _ _ (hn2 e2)).2.2.2.1 u
        · rw [if_pos e1, if_neg e2] at hi
          obtain rfl : i = 0 := by omega
          exact (hL _ _ (hn1 e1)).2.2.2.1 u
      · by_cases e2 : norm2 = true
        · rw [if_neg e1, if_pos e2] at hi
          rw [if_neg e1] at hn2
          obtain rfl : i = 0 := by omega
          exact (hL _ _ (hn2 e2)).2.2.2.1 u
        · rw [if_neg e1, if_neg e2] at hi
          omega
    · show (if res1 = true then lin.dout else 0) = lin.dout
      exact if_pos h
    · dsimp only at hi ⊢
      by_cases e1 : norm1 = true
      · by_cases e2 : norm2 = true
        · rw [if_pos e1, if_pos e2] at hi
          rw [if_pos e1] at hn2
          rcases (by omega : i = 0 ∨ i = 1) with rfl | rfl
          · exact (hL _ _ (hn1 e1)).2.2.2.2
          · exact (hL _ _ (hn2 e2)).2.2.2.2
        · rw [if_pos e1, if_neg e2] at hi
          obtain rfl : i = 0 := by omega
          exact (hL _ _ (hn1 e1)).2.2.2.2
      · by_cases e2 : norm2 = true
        · rw [if_neg e1, if_pos e2] at hi
          rw [if_neg e1] at hn2
          obtain rfl : i = 0 := by omega
          exact (hL _ _ (hn2 e2)).2.2.2.2
        · rw [if_neg e1, if_neg e2] at hi
          omega
  · rintro ⟨a, b⟩
    exact b (hL _ _ (hn2 a)).1
  · rintro ⟨a, b⟩
    exact b (hL _ _ (hn1 a)).1
  · omega
  · rintro ⟨a, b, c⟩
    rcases hnull.1 a with h | h
    · rw [b] at h; cases h
    · rw [c] at h; cases h
  · rintro ⟨a, b⟩
    have := hnull.2 b
    cases l2
    · cases this
    · cases a

/-- Non-vacuity of `C119_make`: two heads, three tokens, all flags. -/
example (junk : Nat → L2) : ∃ t, Enc.make junk ⟨fun _ => lineNet 6 3 1, fun _ => lineNet 6 3 1, fun _ => lineNet 6 3 1⟩
    (lineNet 6 6 1) (lineNet 6 6 1) (some fun _ => ⟨6, Real.sqrt 6, 0, 1, calloc 6, calloc 6⟩) 6 2 true true true true true 1 1 =
      some t ∧ t.WF 6 ∧ t.Fresh := by
  obtain ⟨t, e, a, b, -⟩ := C119_make junk ⟨fun _ => lineNet 6 3 1, fun _ => lineNet 6 3 1, fun _ => lineNet 6 3 1⟩
    (lineNet 6 6 1) (lineNet 6 6 1) (some fun _ => ⟨6, Real.sqrt 6, 0, 1, calloc 6, calloc 6⟩) 3 2 6 true true true true true 1
    (by decide) (fun _ _ => ⟨rfl, rfl⟩) (fun _ _ => ⟨rfl, rfl⟩) (fun _ _ => ⟨rfl, rfl⟩) rfl rfl (fun _ => rfl) (fun _ => rfl)
    ⟨fun _ => Or.inl rfl, fun _ => rfl⟩
    (fun _ => by unfold L2.make; rw [if_neg (by show ¬ (6 = 0); decide)]; rfl)
    (fun _ => by unfold L2.make; rw [if_neg (by show ¬ (6 = 0); decide)]; rfl)
  exact ⟨t, e, a, b⟩

/-- The constructor does not check that the input splits into whole tokens:
with an input of `6`, two heads and values of size `2` it accepts, and the
attention covers `4` of the `6` cells. -/
theorem C119_tokens_refuted (junk : Nat → L2) (hd : Heads) (m lin : Sub) (masked : Bool) :
    ∃ t, Enc.make junk hd m lin none 6 2 true false true false masked 2 2 = some t ∧ t.dim * t.nh * t.vd = 4 ∧
      t.inputDim = 6 ∧ t.att.len = 6 := ⟨_, rfl, rfl, rfl, rfl⟩

/-- **C119** (reset). When the second residual connection comes with the first,
a reset runs without undefined behaviour and returns an encoder of the same
shape, function and parameters, with clean buffers and no derivatives. Missing:
the second residual connection alone, refuted below. -/
theorem C119_reset_partial (t : Enc) (n : Nat) (wf : t.WF n) (al : t.Alloc) (hr : t.res2 = true → t.res1 = true) :
    ∃ t', t.reset false = some t' ∧ t'.WF n ∧ t'.Alloc ∧ t'.Fresh ∧ t.Same t' ∧ t'.params = t.params ∧ t'.NoGrad := by
  obtain ⟨t', e, a, b, c, d, p, hh, hm, hlin, hl⟩ := reset_run false t n wf al hr
  refine ⟨t', e, a, b, c, d, p, ⟨fun h h' => ?_, fun h h' => ?_, fun h h' => ?_, ?_, ?_, fun i hi => hl i (d.nl2 ▸ hi)⟩⟩
  · rw [(hh h (d.nh ▸ h')).1]; rfl
  · rw [(hh h (d.nh ▸ h')).2.1]; rfl
  · rw [(hh h (d.nh ▸ h')).2.2]; rfl
  · rw [hlin]; rfl
  · rw [hm]; rfl

/-- **C119** (forward pass after a reset). Whatever the state of the buffers, a
reset followed by a forward pass computes the function of the current
parameters: nothing of the past is seen. -/
theorem C119_forget_partial (t : Enc) (n : Nat) (x : Arr ℝ) (wf : t.WF n) (al : t.Alloc) (hr : t.res2 = true → t.res1 = true)
    (hx : n ≤ x.len) (sm : t.Smooth x.get) :
    ∃ t' t1, t.reset false = some t' ∧ t'.ff x n = some t1 ∧
      ∀ i, i < t.m.dout → t1.output.get i = encS t t.params x.get i := by
  obtain ⟨t', e, a, b, c, d, p, -⟩ := C119_reset_partial t n wf al hr
  have sm' := d.smooth wf.pos wf.hnl2 sm
  obtain ⟨t1, ef, F⟩ := ff_run t' x n a c hx
    (fun y hy k hk => by
      rw [(sm'.lin y hy).loc _ (attS t' t'.params x.get) (fun i hi => (hy i hi).symm) k hk])
    (fun y hy k hk => by
      rw [(sm'.m y hy).loc _ (n1S t' t'.params x.get) (fun i hi => (hy i hi).symm) k hk])
  refine ⟨t', t1, e, ef, fun i hi => ?_⟩
  rw [F.outv i (d.m.dout ▸ hi), d.spec wf.pos wf.hnl2]

theorem demo_alloc : demo.Alloc := ⟨rfl, fun _ => rfl⟩

/-- Non-vacuity: the encoder of the example of C118. -/
example : ∃ t' t1, demo.reset false = some t' ∧ t'.ff ⟨4, fun i => (i : ℝ) + 1⟩ 4 = some t1 :=
  let ⟨t', t1, a, b, _⟩ := C119_forget_partial demo 4 ⟨4, fun i => (i : ℝ) + 1⟩ demo_wf demo_alloc (fun h => h) (le_refl 4)
    demo_smooth
  ⟨t', t1, a, b⟩

/-- The reset names `residual1_output` for the second residual connection: with
the second connection and not the first, that pointer is null. Every such
encoder fails. -/
theorem C119_reset_refuted (t : Enc) (keep : Bool) (h1 : t.res1 = false) (h2 : t.res2 = true) (hl : t.r1.len = 0)
    (hm : 0 < t.m.dout) : t.reset keep = none := by
  unfold Enc.reset
  refine bind_none fun hd => bind_none fun l2 => bind_none fun _ => bind_none fun _ => bind_none fun _ =>
    bind_none fun _ => bind_none fun _ => bind_none fun _ => bind_none fun _ => bind_none fun _ => bind_none fun _ => ?_
  rw [h1, h2]
  show (zeroIf true t.r1 t.r1e t.m.dout >>= _) = none
  unfold zeroIf
  dsimp only
  rw [zero_short t.r1 t.m.dout (by omega)]
  rfl

/-- Such an encoder comes out of the constructor. -/
example (junk : Nat → L2) : ∃ t, Enc.make junk ⟨fun _ => lineNet 1 1 1, fun _ => lineNet 1 1 1, fun _ => lineNet 1 1 1⟩
    (lineNet 1 1 1) (lineNet 1 1 1) none 1 1 false false true false false 1 1 = some t ∧ t.reset false = none :=
  ⟨_, rfl, C119_reset_refuted _ _ rfl rfl rfl Nat.one_pos⟩

/-- The variant that is to keep the derivatives keeps those of the networks and
loses those of the scales of the normalisation layers, in every encoder. -/
theorem C119_keep_derivatives_refuted (t : Enc) (n : Nat) (wf : t.WF n) (al : t.Alloc) (hr : t.res2 = true → t.res1 = true) :
    ∃ t', t.reset true = some t' ∧ t'.m.dθ = t.m.dθ ∧ t'.lin.dθ = t.lin.dθ ∧
      (∀ h, h < t.nh → (t'.hd.q h).dθ = (t.hd.q h).dθ ∧ (t'.hd.k h).dθ = (t.hd.k h).dθ ∧ (t'.hd.v h).dθ = (t.hd.v h).dθ) ∧
      ∀ i, i < t.nl2 → (t'.l2 i).dg = 0 := by
  obtain ⟨t', e, -, -, -, -, -, hh, hm, hlin, hl⟩ := reset_run true t n wf al hr
  refine ⟨t', e, by rw [hm]; rfl, by rw [hlin]; rfl, fun h h' => ?_, hl⟩
  obtain ⟨a, b, c⟩ := hh h h'
  rw [a, b, c]
  exact ⟨rfl, rfl, rfl⟩

/-- **C119** (copy without parameters): the loop runs over three times the
number of heads, past the arrays; always undefined behaviour. -/
theorem C119_copy_without_parameters_refuted (t : Enc) (cp : Sub → Sub) (junk : Heads) (junkl : Nat → L2) (h : 0 < t.nh) :
    t.copyWith cp (t.nh * 3) junk junkl = none := by
  have key : ∀ k dst, copyHeads cp (t.nh + 1 + k) t.nh t.hd dst = none := by
    intro k dst
    induction k with
    | zero =>
      unfold copyHeads
      show loop (t.nh + 1) _ dst = none
      simp only [loop]
      refine bind_none fun s => ?_
      rw [if_neg (lt_irrefl _)]
    | succ k ih =>
      unfold copyHeads at ih ⊢
      show loop (t.nh + 1 + k + 1) _ dst = none
      simp only [loop]
      rw [ih]
      rfl
  obtain ⟨k, hk⟩ : ∃ k, t.nh * 3 = t.nh + 1 + k := ⟨t.nh * 3 - (t.nh + 1), by omega⟩
  unfold Enc.copyWith
  rw [hk, key]
  rfl

end LLab.Transf
