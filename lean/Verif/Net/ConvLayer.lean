import Verif.Net.ConvPool

/-!
One convolutional layer forward and backward (`/repo/src/model.c` 1731-2207, 3099-3418,
4282-4866, 5482-6066). Used by `Verif.Net.ConvNet` (property C135).

Modelled: `CONVOLUTION`, `TRANSPOSED_CONVOLUTION` and `NO_CONVOLUTION` (pooling only) layers,
every activation, max, average and no pooling, `FULLY_FEED_FORWARD`, the training modes
`GRADIENT_DESCENT`, `FREEZE_TRAINING` and `FREEZE_BIASES`. Not modelled: normalisation, edge
popup, unused kernels, different paddings for rows and columns. Real arithmetic. `none` is
undefined behaviour or `exit`.
-/

namespace LLab.CNet

open Finset LLab.Chain

/-! ### Model -/

/-- The integer fields of `cl` (`/repo/src/llab_dt.h`); for a layer without a convolution
`rows1 = input_rows`, `cols1 = input_cols` and `channels = n_kernels`. -/
structure Shape where
  kind : Kind
  nk : Nat
  act : Act
  pool : PoolKind
  /-- `pooling_rows`, `pooling_cols` -/
  (pk1 pk2 : Nat)
  /-- `stride2_rows`, `stride2_cols` -/
  (ps1 ps2 : Nat)
  /-- `padding2_rows` -/
  ppad : Nat

namespace Shape

/-- The parameters handed to the pooling functions. -/
def pg (s : Shape) : Pool.PGeom := ⟨s.kind.rows, s.kind.cols, s.pk1, s.pk2, s.ps1, s.ps2, s.ppad⟩

/-- `rows1*cols1`. -/
def A (s : Shape) : Nat := s.kind.size

/-- The cells of one channel of the result: `rows2*cols2`, or `rows1*cols1` without pooling. -/
def B (s : Shape) : Nat := poolSize s.pool s.A s.pg

/-- `convolutional_flag == NO_CONVOLUTION`. -/
def isPass (s : Shape) : Bool :=
  match s.kind with
  | .pass _ _ => true
  | _ => false

/-- The layer that hands its input on (`/repo/src/model.c` 3357, 5485). -/
def ident (s : Shape) : Bool :=
  s.isPass && decide (s.ps2 = 1 ∧ s.ps1 = 1 ∧ s.ppad = 0 ∧ s.pk1 = 1 ∧ s.pk2 = 1)

/-- The numbers going in. -/
def nIn (s : Shape) : Nat := s.kind.nIn s.nk

/-- The numbers coming out. -/
def nOut (s : Shape) : Nat := s.nk * s.B

end Shape

/-- The fields of `cl` used by the two passes (`/repo/src/llab_dt.h`). -/
structure Cl where
  sh : Shape
  mode : Mode
  kernels : Nat → Arr ℝ
  biases : Arr ℝ
  pre : Arr ℝ
  post : Arr ℝ
  pooled : Arr ℝ
  pooltemp : Arr ℝ
  temp : Arr ℝ
  temp3 : Arr ℝ
  error2 : Arr ℝ
  dKernels : Nat → Arr ℝ
  dBiases : Arr ℝ

/-- `convolutional_feed_forward` or `transposed_convolutional_feed_forward` for one kernel. -/
noncomputable def convFF (K : Kind) (x k : Arr ℝ) (b : ℝ) (out : Arr ℝ) : Option (Arr ℝ) :=
  match K with
  | .conv g => Conv.ff g x k b out
  | .tconv g => TConv.ff g x k b out
  | .pass _ _ => none

/-- `convolutional_back_prop` or `transposed_convolutional_back_prop` for one kernel. -/
noncomputable def convBP (K : Kind) (x k e : Arr ℝ) (hasBias : Bool) (s : Arr ℝ × Arr ℝ × ℝ) : Option (Arr ℝ × Arr ℝ × ℝ) :=
  match K with
  | .conv g => Conv.bp g x k e hasBias s
  | .tconv g => TConv.bp g x k e hasBias s
  | .pass _ _ => none

/-- The activation of one channel: row by row inside the padding frame after a convolution
(`/repo/src/model.c` 3239-3290), the whole channel after a transposed convolution (3315-3340,
where `RELU`, `TANH` and `LEAKY_RELU` run over all channels in one call). -/
noncomputable def actChannel (K : Kind) (a : Act) (pre post : Arr ℝ) : Option (Arr ℝ) :=
  match K with
  | .conv g => loopFrom g.pad (g.outI - g.pad) (fun j (post : Arr ℝ) =>
      post.onView (j * g.outJ + g.pad) fun v => actArray a (pre.view (j * g.outJ + g.pad)) v (g.outJ - 2 * g.pad)) post
  | .tconv _ => actArray a pre post K.size
  | .pass _ _ => some post

/-- The convolutions of all kernels. -/
noncomputable def ffKernels (x : Arr ℝ) (c : Cl) : Option (Arr ℝ) :=
  loop c.sh.nk (fun i (pre : Arr ℝ) => pre.onView (i * c.sh.A) fun v =>
    (c.biases.read i).bind fun b => convFF c.sh.kind x (c.kernels i) b v) c.pre

/-- The activation of all channels. -/
noncomputable def ffAct (c : Cl) (pre : Arr ℝ) : Option (Arr ℝ) :=
  if c.sh.act = .none then some c.post
  else loop c.sh.nk (fun i (post : Arr ℝ) => post.onView (i * c.sh.A) (actChannel c.sh.kind c.sh.act (pre.view (i * c.sh.A)))) c.post

/-- The pooling of all channels of `src` into `post_pooling` (`/repo/src/model.c` 3363-3405). -/
noncomputable def ffPool (c : Cl) (src : Arr ℝ) : Option (Arr ℝ) :=
  if c.sh.pool = .none then some c.pooled
  else loop c.sh.nk (fun i (o : Arr ℝ) => o.onView (i * c.sh.B) (poolFF c.sh.pool c.sh.pg (src.view (i * c.sh.A)))) c.pooled

/-- One layer forward: `ff_cl_cl` (`/repo/src/model.c` 3099-3418) and `ff_fcl_cl` (1731-2207),
once the array `x` of the previous layer is chosen. A soft-max ends the program (7293). -/
noncomputable def ffCl (x : Arr ℝ) (c : Cl) : Option Cl :=
  if c.sh.act = .softmax then none
  else if c.sh.ident then some { c with pooltemp := x }
  else if c.sh.isPass then (ffPool c x).bind fun o => some { c with pooled := o }
  else (ffKernels x c).bind fun pre => (ffAct c pre).bind fun post =>
    (ffPool c (if c.sh.act = .none then pre else post)).bind fun o => some { c with pre := pre, post := post, pooled := o }

/-- The array of this layer that the next one reads (`/repo/src/model.c` 3115-3236). -/
def Cl.used (c : Cl) : Arr ℝ :=
  if c.sh.pool ≠ .none then (if c.sh.ident then c.pooltemp else c.pooled)
  else if c.sh.act ≠ .none then c.post else c.pre

/-- The pooling backward, into `temp`; without pooling `temp` is the error array itself
(`/repo/src/model.c` 5489-5548). -/
noncomputable def bpPool (c : Cl) (src e : Arr ℝ) : Option (Arr ℝ) :=
  if c.sh.pool = .none then some e
  else loop c.sh.nk (fun i (t : Arr ℝ) => t.onView (i * c.sh.A) (poolBP c.sh.pool c.sh.pg (src.view (i * c.sh.A)) (e.view (i * c.sh.B)))) c.temp

/-- The activation backward: `temp3` is the derivative and `temp` is multiplied by it in place
(`/repo/src/model.c` 5642-5678). Gives `(temp, temp3)`. -/
noncomputable def bpAct (c : Cl) (t : Arr ℝ) : Option (Arr ℝ × Arr ℝ) :=
  let n := c.sh.nk * c.sh.A
  let go := fun (d : ℝ → ℝ) (src : Arr ℝ) => (Vec.map1D d src c.temp3 n).bind fun t3 =>
    (Vec.zip1D (fun a b => a * b) t3 t t n).bind fun o => some (o, t3)
  match c.sh.act with
  | .none => some (t, c.temp3)
  | .sigmoid => go LLab.Act.dSigmoidGiven c.post
  | .relu => go LLab.Act.dRelu c.pre
  | .elu => go (fun z => LLab.Act.dElu z 1) c.pre
  | .softmax => none
  | .tanh => go LLab.Act.dTanhh c.pre
  | .leaky => go LLab.Act.dLeakyRelu c.pre

/-- The convolutions backward, kernel after kernel (`/repo/src/model.c` 5680-5722); the state is
`(d_kernels, error2, d_biases)`. -/
noncomputable def bpKernels (x t : Arr ℝ) (c : Cl) : Option ((Nat → Arr ℝ) × Arr ℝ × Arr ℝ) :=
  loop c.sh.nk (fun i (s : (Nat → Arr ℝ) × Arr ℝ × Arr ℝ) =>
    if c.mode = .freezeBiases then
      (convBP c.sh.kind x (c.kernels i) (t.view (i * c.sh.A)) false (s.1 i, s.2.1, 0)).bind fun r =>
        some (Function.update s.1 i r.1, r.2.1, s.2.2)
    else (s.2.2.read i).bind fun b =>
      (convBP c.sh.kind x (c.kernels i) (t.view (i * c.sh.A)) true (s.1 i, s.2.1, b)).bind fun r =>
        (s.2.2.write i r.2.2).bind fun db => some (Function.update s.1 i r.1, r.2.1, db))
    (c.dKernels, c.error2, c.dBiases)

/-- One layer backward: `bp_cl_cl` (`/repo/src/model.c` 5482-6066) and `bp_fcl_cl` (4282-4866);
`x` is the array of the previous layer. Gives the layer and the error of its input. Without
pooling the code multiplies the caller's error array in place; the model leaves it as it is. -/
noncomputable def bpCl (x e : Arr ℝ) (c : Cl) : Option (Cl × Arr ℝ) :=
  if c.sh.ident then some (c, e)
  else if c.sh.isPass then (bpPool c x e).bind fun t =>
    some (if c.sh.pool = .none then c else { c with temp := t }, t)
  else (bpPool c (if c.sh.act = .none then c.pre else c.post) e).bind fun t =>
    (bpAct c t).bind fun t => (bpKernels x t.1 c).bind fun s =>
      some ({ c with temp := (if c.sh.pool = .none then c.temp else t.1), temp3 := t.2, dKernels := s.1, error2 := s.2.1, dBiases := s.2.2 }, s.2.1)

/-! ### Specification -/

/-- A convolutional layer as a function. -/
structure CUnit where
  sh : Shape
  /-- `k i q`: cell `q` of kernel `i` -/
  k : Nat → Nat → ℝ
  b : Nat → ℝ

/-- The activation of one number. -/
noncomputable def act1 (a : Act) (v : ℝ) : ℝ := actFn a 1 (fun _ => v) 0

namespace CUnit

/-- The convolutions with all kernels, channel after channel. -/
noncomputable def z (u : CUnit) (x : Nat → ℝ) (p : Nat) : ℝ :=
  u.sh.kind.fn (u.k (p / u.sh.A)) (u.b (p / u.sh.A)) x (p % u.sh.A)

/-- The activation, zero on the padding frames. -/
noncomputable def actv (u : CUnit) (z : Nat → ℝ) (p : Nat) : ℝ :=
  if u.sh.kind.Inner (p % u.sh.A) then act1 u.sh.act (z p) else 0

/-- The pooling of every channel. -/
noncomputable def pools (u : CUnit) (y : Nat → ℝ) (p : Nat) : ℝ :=
  poolFn u.sh.pool u.sh.pg (fun v => y (p / u.sh.B * u.sh.A + v)) (p % u.sh.B)

/-- What is pooled. -/
noncomputable def src (u : CUnit) (x : Nat → ℝ) : Nat → ℝ := if u.sh.isPass then x else u.actv (u.z x)

/-- The layer. -/
noncomputable def fn (u : CUnit) (x : Nat → ℝ) : Nat → ℝ := u.pools (u.src x)

/-- The cells that are constant near the point: the padding frames and the values a `RELU` cuts
off. -/
def Dead (u : CUnit) (x : Nat → ℝ) (p : Nat) : Prop :=
  u.sh.isPass = false ∧ (¬u.sh.kind.Inner (p % u.sh.A) ∨ u.sh.act = .relu ∧ u.z x p < 0)

/-- No rectifier has exactly zero as its argument, and no max pooling has two equal largest
values in a window (except where both are constant) or only values below `-999999`. -/
def Smooth (u : CUnit) (x : Nat → ℝ) : Prop :=
  (u.sh.isPass = false → u.sh.act = .relu ∨ u.sh.act = .leaky ∨ u.sh.act = .elu →
    ∀ p, p < u.sh.nk * u.sh.A → u.sh.kind.Inner (p % u.sh.A) → u.z x p ≠ 0) ∧
  (u.sh.pool = .max → u.sh.ident = false →
    ∀ i, i < u.sh.nk → NoTie u.sh.pg (fun v => u.src x (i * u.sh.A + v)) (fun v => u.Dead x (i * u.sh.A + v)))

end CUnit

/-- The layer of the code as a function. -/
noncomputable def Cl.unit (c : Cl) : CUnit := ⟨c.sh, fun i => (c.kernels i).get, c.biases.get⟩

/-- The sizes fit, the arrays are allocated, and the accumulating ones are cleared, as
`reset_model` leaves them. -/
structure Cl.Ready (c : Cl) : Prop where
  hK : c.sh.kind.Ok
  hpool : PoolOk c.sh.pool c.sh.pg
  hpass : c.sh.isPass = true → c.sh.pool ≠ .none
  hact : c.sh.act ≠ .softmax
  lk : ∀ i, i < c.sh.nk → c.sh.kind.nK ≤ (c.kernels i).len
  lb : c.sh.nk ≤ c.biases.len
  lpre : c.sh.nk * c.sh.A ≤ c.pre.len
  lpost : c.sh.nk * c.sh.A ≤ c.post.len
  lpooled : c.sh.nk * c.sh.B ≤ c.pooled.len
  lt : c.sh.nk * c.sh.A ≤ c.temp.len
  lt3 : c.sh.nk * c.sh.A ≤ c.temp3.len
  le2 : c.sh.nIn ≤ c.error2.len
  ldk : ∀ i, i < c.sh.nk → c.sh.kind.nK ≤ (c.dKernels i).len
  ldb : c.sh.nk ≤ c.dBiases.len
  zpre : ∀ k, k < c.sh.nk * c.sh.A → c.pre.get k = 0
  zpost : ∀ k, k < c.sh.nk * c.sh.A → c.post.get k = 0
  zpooled : ∀ k, k < c.sh.nk * c.sh.B → c.pooled.get k = 0
  zt : ∀ k, k < c.sh.nk * c.sh.A → c.temp.get k = 0
  ze2 : ∀ k, k < c.sh.nIn → c.error2.get k = 0

/-! ### Arrays channel by channel -/

theorem loop_views {nk B : Nat} (f : Nat → Arr ℝ → Option (Arr ℝ)) (a : Arr ℝ) (hlen : nk * B ≤ a.len) (Q : Nat → (Nat → ℝ) → Prop)
    (hQ : ∀ i g g', (∀ u, u < B → g u = g' u) → Q i g → Q i g')
    (h : ∀ i, i < nk → ∀ c : Arr ℝ, B ≤ c.len → (∀ u, u < B → c.get u = a.get (i * B + u)) →
      ∃ o, f i c = some o ∧ Q i o.get ∧ ∀ u, B ≤ u → o.get u = c.get u) :
    ∃ b, loop nk (fun i (s : Arr ℝ) => s.onView (i * B) (f i)) a = some b ∧ b.len = a.len ∧
      (∀ i, i < nk → Q i (fun u => b.get (i * B + u))) ∧ ∀ u, nk * B ≤ u → b.get u = a.get u := by
  obtain ⟨b, e, h1, h2, h3⟩ := loop_inv (n := nk) (f := fun i (s : Arr ℝ) => s.onView (i * B) (f i)) (s := a)
    (fun i s => s.len = a.len ∧ (∀ j, j < i → Q j (fun u => s.get (j * B + u))) ∧ ∀ u, i * B ≤ u → s.get u = a.get u)
    ⟨rfl, fun j hj => absurd hj (Nat.not_lt_zero j), fun _ _ => rfl⟩ (by
      rintro i hi s ⟨s1, s2, s3⟩
      have hiB : i * B + B ≤ nk * B := by rw [← Nat.succ_mul]; exact Nat.mul_le_mul_right B hi
      obtain ⟨o, eo, ho1, ho2⟩ := h i hi (s.view (i * B)) (by simp only [Arr.view_len]; omega)
        (fun u _ => by simp only [Arr.view_get]; exact s3 _ (by omega))
      refine ⟨_, Arr.onView_eq eo, s1, fun j hj => ?_, fun u hu => ?_⟩
      · by_cases hji : j = i
        · subst hji
          refine hQ j _ _ (fun u _ => ?_) ho1
          simp
        · have hlt : j < i := by omega
          have hjB : j * B + B ≤ i * B := by rw [← Nat.succ_mul]; exact Nat.mul_le_mul_right B hlt
          refine hQ j _ _ (fun u hu => ?_) (s2 j hlt)
          simp only
          rw [if_neg (by omega)]
      · rw [Nat.succ_mul] at hu
        simp only
        rw [if_pos (by omega), ho2 _ (by omega)]
        simp only [Arr.view_get]
        rw [Nat.add_sub_cancel' (by omega)]
        exact s3 u (by omega))
  exact ⟨b, e, h1, h2, h3⟩

/-! ### Forward -/

theorem actFn_eq (a : Act) (ha : a ≠ .softmax) (n : Nat) (z : Nat → ℝ) (k : Nat) : actFn a n z k = act1 a (z k) := by
  cases a <;> first | rfl | exact absurd rfl ha

theorem actArray_eq (a : Act) (h0 : a ≠ .none) (ha : a ≠ .softmax) (pre post : Arr ℝ) (n : Nat) (h1 : n ≤ pre.len) (h2 : n ≤ post.len) :
    actArray a pre post n = some ⟨post.len, fun k => if k < n then act1 a (pre.get k) else post.get k⟩ := by
  have hv : ∀ (f : ℝ → ℝ), (∀ v, f v = act1 a v) → Vec.map1D f pre post n =
      some ⟨post.len, fun k => if k < n then act1 a (pre.get k) else post.get k⟩ := by
    intro f hf
    rw [Vec.C64_map f pre post n h1 h2]
    simp only [hf]
  cases a with
  | none => exact absurd rfl h0
  | softmax => exact absurd rfl ha
  | sigmoid => exact hv _ fun v => rfl
  | relu => exact hv _ fun v => (LLab.Act.C20_values v).2.2.2.1
  | tanh => exact hv _ fun v => (LLab.Act.C20_values v).1
  | leaky => exact hv _ fun v => (LLab.Act.C20_values v).2.2.2.2.1
  | elu => exact hv _ fun v => by simp [act1, actFn, LLab.Act.elu]

theorem actChannel_run (K : Kind) (a : Act) (h0 : a ≠ .none) (ha : a ≠ .softmax) (pre post : Arr ℝ) (h1 : K.size ≤ pre.len)
    (h2 : K.size ≤ post.len) (hp : ∀ r c, K ≠ .pass r c) :
    ∃ o, actChannel K a pre post = some o ∧
      (∀ u, u < K.size → o.get u = if K.Inner u then act1 a (pre.get u) else post.get u) ∧ ∀ u, K.size ≤ u → o.get u = post.get u := by
  cases K with
  | pass r c => exact absurd rfl (hp r c)
  | tconv g =>
    refine ⟨_, actArray_eq a h0 ha pre post _ h1 h2, fun u hu => ?_, fun u hu => if_neg (Nat.not_lt.2 hu)⟩
    rw [if_pos (show (Kind.tconv g).Inner u from trivial)]
    exact if_pos hu
  | conv g =>
    have hJ : g.outJ = g.nJ + 2 * g.pad := rfl
    have hI : g.outI = g.nI + 2 * g.pad := rfl
    have hrow : ∀ r, r < g.outI → r * g.outJ + g.outJ ≤ (Kind.conv g).size := by
      intro r hr
      rw [← Nat.succ_mul]
      exact Nat.mul_le_mul_right _ hr
    have hpos : 0 < g.outJ := by
      have : 0 < g.nJ := Nat.succ_pos _
      omega
    obtain ⟨o, e, q1, q2⟩ := loop_inv (n := g.outI - g.pad - g.pad) (f := fun j (post : Arr ℝ) =>
        post.onView ((g.pad + j) * g.outJ + g.pad) fun v => actArray a (pre.view ((g.pad + j) * g.outJ + g.pad)) v (g.outJ - 2 * g.pad)) (s := post)
      (fun i s => s.len = post.len ∧ ∀ u, s.get u = if Inside g.outJ g.pad i g.nJ u then act1 a (pre.get u) else post.get u)
      ⟨rfl, fun u => by rw [if_neg]; rintro ⟨h1, h2, -⟩; omega⟩ (by
        rintro j hj s ⟨s1, s2⟩
        have hr := hrow (g.pad + j) (by omega)
        refine ⟨_, Arr.onView_eq (actArray_eq a h0 ha _ _ _ (by simp only [Arr.view_len]; omega) (by simp only [Arr.view_len]; omega)), s1, fun u => ?_⟩
        have hin : ∀ i, Inside g.outJ g.pad i g.nJ u ↔ g.pad ≤ u / g.outJ ∧ u / g.outJ < g.pad + i ∧ g.pad ≤ u % g.outJ ∧ u % g.outJ < g.pad + g.nJ := fun i => Iff.rfl
        have hdm : u / g.outJ * g.outJ + u % g.outJ = u := by rw [Nat.mul_comm]; exact Nat.div_add_mod u g.outJ
        have hml := Nat.mod_lt u hpos
        dsimp only
        by_cases hc : (g.pad + j) * g.outJ + g.pad ≤ u
        · rw [if_pos hc]
          by_cases hc2 : u - ((g.pad + j) * g.outJ + g.pad) < g.outJ - 2 * g.pad
          · rw [if_pos hc2]
            have hu : u = (g.pad + j) * g.outJ + (g.pad + (u - ((g.pad + j) * g.outJ + g.pad))) := by omega
            obtain ⟨d1, d2⟩ := split_idx (r := g.pad + j) (s := g.pad + (u - ((g.pad + j) * g.outJ + g.pad))) (B := g.outJ) (by omega)
            rw [← hu] at d1 d2
            rw [if_pos ((hin _).2 (by omega))]
            simp only [Arr.view_get]
            rw [Nat.add_sub_cancel' hc]
          · rw [if_neg hc2]
            simp only [Arr.view_get]
            rw [Nat.add_sub_cancel' hc, s2]
            have : ¬Inside g.outJ g.pad (j + 1) g.nJ u ∨ Inside g.outJ g.pad j g.nJ u := by
              by_contra hcon
              rw [not_or, not_not] at hcon
              obtain ⟨c1, c2⟩ := hcon
              obtain ⟨i1, i2, i3, i4⟩ := (hin _).1 c1
              have : u / g.outJ = g.pad + j := by
                by_contra hne
                exact c2 ((hin _).2 ⟨i1, by omega, i3, i4⟩)
              rw [this] at hdm
              omega
            rcases this with hn | hy
            · rw [if_neg hn, if_neg fun h => hn ((hin _).2 (by have := (hin _).1 h; omega))]
            · rw [if_pos hy, if_pos ((hin _).2 (by have := (hin _).1 hy; omega))]
        · rw [if_neg hc, s2]
          have : Inside g.outJ g.pad (j + 1) g.nJ u → Inside g.outJ g.pad j g.nJ u := by
            intro h
            obtain ⟨i1, i2, i3, i4⟩ := (hin _).1 h
            refine (hin _).2 ⟨i1, ?_, i3, i4⟩
            by_contra hne
            have : u / g.outJ = g.pad + j := by omega
            rw [this] at hdm
            omega
          by_cases hy : Inside g.outJ g.pad j g.nJ u
          · rw [if_pos hy, if_pos ((hin _).2 (by have := (hin _).1 hy; omega))]
          · rw [if_neg hy, if_neg fun h => hy (this h)])
    have hn : g.outI - g.pad - g.pad = g.nI := by omega
    rw [hn] at q2
    refine ⟨o, e, fun u _ => q2 u, fun u hu => ?_⟩
    rw [q2 u, if_neg]
    rintro ⟨-, i2, -, -⟩
    have : g.outI * g.outJ ≤ u := hu
    have := (Nat.le_div_iff_mul_le hpos).2 this
    omega

theorem convFF_run (K : Kind) (hK : K.Ok) (nk : Nat) (hp : ∀ r c, K ≠ .pass r c) (x k out : Arr ℝ) (b : ℝ) (hx : K.nIn nk ≤ x.len)
    (hk : K.nK ≤ k.len) (ho : K.size ≤ out.len) (hz : ∀ u, u < K.size → out.get u = 0) :
    ∃ o, convFF K x k b out = some o ∧ (∀ u, u < K.size → o.get u = K.fn k.get b x.get u) ∧ ∀ u, K.size ≤ u → o.get u = out.get u := by
  cases K with
  | pass r c => exact absurd rfl (hp r c)
  | conv g =>
    obtain ⟨o, e, -, h1, h2⟩ := conv_run g hK x k out b hx hk ho hz
    exact ⟨o, e, h1, h2⟩
  | tconv g =>
    obtain ⟨o, e, -, h1, h2⟩ := tconv_run g x k out b hx hk ho hz
    exact ⟨o, e, h1, h2⟩

theorem convBP_run (K : Kind) (hK : K.Ok) (nk : Nat) (hp : ∀ r c, K ≠ .pass r c) (x k e ke ie : Arr ℝ) (bias be : ℝ) (hasBias : Bool)
    (hx : K.nIn nk ≤ x.len) (hk : K.nK ≤ k.len) (he : K.size ≤ e.len) (hke : K.nK ≤ ke.len) (hie : K.nIn nk ≤ ie.len) :
    ∃ ke' ie' be', convBP K x k e hasBias (ke, ie, be) = some (ke', ie', be') ∧ (ke'.len = ke.len ∧ ie'.len = ie.len) ∧
      (∀ q, HasDerivAt (fun t => ∑ u ∈ range K.size, e.get u * K.fn (Function.update k.get q t) bias x.get u) (ke'.get q - ke.get q) (k.get q)) ∧
      (∀ p, HasDerivAt (fun t => ∑ u ∈ range K.size, e.get u * K.fn k.get bias (Function.update x.get p t) u) (ie'.get p - ie.get p) (x.get p)) ∧
      (hasBias = true → HasDerivAt (fun t => ∑ u ∈ range K.size, e.get u * K.fn k.get t x.get u) (be' - be) bias) := by
  cases K with
  | pass r c => exact absurd rfl (hp r c)
  | conv g =>
    obtain ⟨ke', ie', be', e1, h1, h2, h3, h4, -⟩ := Conv.C27_back_prop g hK x k e ke ie bias be hasBias hx hk he hke hie
    refine ⟨ke', ie', be', e1, h1, fun q => ?_, fun p => ?_, fun hb => ?_⟩
    · simpa only [conv_weighted] using h2 q
    · simpa only [conv_weighted] using h3 p
    · simpa only [conv_weighted] using h4 hb
  | tconv g =>
    obtain ⟨ke', ie', be', e1, h1, h2, h3, h4, -⟩ := TConv.C67_backward g x k e ke ie bias be hasBias hx hk he hke hie
    refine ⟨ke', ie', be', e1, h1, fun q => ?_, fun p => ?_, fun hb => ?_⟩
    · simpa only [tconv_weighted] using h2 q
    · simpa only [tconv_weighted] using h3 p
    · simpa only [tconv_weighted] using h4 hb

theorem Shape.not_pass {s : Shape} (h : s.isPass = false) : ∀ r c, s.kind ≠ .pass r c := by
  intro r c hk
  unfold Shape.isPass at h
  rw [hk] at h
  cases h

theorem Shape.pg_in (s : Shape) : s.pg.inI * s.pg.inJ = s.A := rfl

theorem Shape.pg_out (s : Shape) (h : s.pool ≠ .none) : s.pg.outI * s.pg.outJ = s.B := by
  unfold Shape.B poolSize
  rw [if_neg h]

theorem Shape.B_none (s : Shape) (h : s.pool = .none) : s.B = s.A := by
  unfold Shape.B poolSize
  rw [if_pos h]

theorem block_le {nk A i n : Nat} (hi : i < nk) (hn : nk * A ≤ n) : A ≤ n - i * A := by
  have : i * A + A ≤ nk * A := by rw [← Nat.succ_mul]; exact Nat.mul_le_mul_right A hi
  omega

theorem of_blocks {nk A : Nat} {P : Nat → Prop} (h : ∀ i, i < nk → ∀ u, u < A → P (i * A + u)) : ∀ p, p < nk * A → P p := by
  intro p hp
  have hA : 0 < A := by
    rcases Nat.eq_zero_or_pos A with h | h
    · rw [h, Nat.mul_zero] at hp; omega
    · exact h
  have := h (p / A) ((Nat.div_lt_iff_lt_mul hA).2 hp) (p % A) (Nat.mod_lt p hA)
  rwa [Nat.mul_comm (p / A), Nat.div_add_mod] at this

theorem ffKernels_run (x : Arr ℝ) (c : Cl) (hr : c.Ready) (hp : c.sh.isPass = false) (hx : c.sh.nIn ≤ x.len) :
    ∃ pre, ffKernels x c = some pre ∧ pre.len = c.pre.len ∧ ∀ p, p < c.sh.nk * c.sh.A → pre.get p = c.unit.z x.get p := by
  obtain ⟨pre, e, h1, h2, -⟩ := loop_views (nk := c.sh.nk) (B := c.sh.A)
    (fun i v => (c.biases.read i).bind fun b => convFF c.sh.kind x (c.kernels i) b v) c.pre hr.lpre
    (fun i g => ∀ u, u < c.sh.A → g u = c.sh.kind.fn (c.kernels i).get (c.biases.get i) x.get u)
    (fun i g g' hg h u hu => by rw [← hg u hu]; exact h u hu) (by
      intro i hi v hv hz
      have hb := hr.lb
      rw [Arr.read_eq (show i < c.biases.len by omega), Option.bind_some]
      exact convFF_run c.sh.kind hr.hK c.sh.nk (Shape.not_pass hp) x (c.kernels i) v _ hx (hr.lk i hi) hv
        (fun u hu => by rw [hz u hu]; exact hr.zpre _ (Vec.idx_lt hi hu)))
  refine ⟨pre, e, h1, of_blocks fun i hi u hu => ?_⟩
  refine (h2 i hi u hu).trans ?_
  obtain ⟨d1, d2⟩ := split_idx (r := i) hu
  unfold CUnit.z
  show _ = c.sh.kind.fn (c.kernels ((i * c.sh.A + u) / c.sh.A)).get (c.biases.get ((i * c.sh.A + u) / c.sh.A)) x.get ((i * c.sh.A + u) % c.sh.A)
  rw [d1, d2]

theorem ffAct_run (c : Cl) (hr : c.Ready) (hp : c.sh.isPass = false) (pre : Arr ℝ) (hl : c.sh.nk * c.sh.A ≤ pre.len) :
    ∃ post, ffAct c pre = some post ∧ post.len = c.post.len ∧
      (c.sh.act ≠ .none → ∀ p, p < c.sh.nk * c.sh.A → post.get p = c.unit.actv pre.get p) := by
  unfold ffAct
  by_cases h0 : c.sh.act = .none
  · exact ⟨c.post, if_pos h0, rfl, fun h => absurd h0 h⟩
  · rw [if_neg h0]
    obtain ⟨post, e, h1, h2, -⟩ := loop_views (nk := c.sh.nk) (B := c.sh.A)
      (fun i => actChannel c.sh.kind c.sh.act (pre.view (i * c.sh.A))) c.post hr.lpost
      (fun i g => ∀ u, u < c.sh.A → g u = if c.sh.kind.Inner u then act1 c.sh.act (pre.get (i * c.sh.A + u)) else 0)
      (fun i g g' hg h u hu => by rw [← hg u hu]; exact h u hu) (by
        intro i hi v hv hz
        obtain ⟨o, eo, o1, o2⟩ := actChannel_run c.sh.kind c.sh.act h0 hr.hact (pre.view (i * c.sh.A)) v
          (by simp only [Arr.view_len]; exact block_le hi hl) hv (Shape.not_pass hp)
        refine ⟨o, eo, fun u hu => ?_, o2⟩
        rw [o1 u hu, hz u hu, hr.zpost _ (Vec.idx_lt hi hu)]
        rfl)
    refine ⟨post, e, h1, fun _ => of_blocks fun i hi u hu => ?_⟩
    refine (h2 i hi u hu).trans ?_
    obtain ⟨d1, d2⟩ := split_idx (r := i) hu
    show _ = if c.sh.kind.Inner ((i * c.sh.A + u) % c.sh.A) then _ else _
    rw [d2]
    rfl

theorem ffPool_run (c : Cl) (hr : c.Ready) (hp : c.sh.pool ≠ .none) (src : Arr ℝ) (y : Nat → ℝ) (dead : Nat → Prop)
    (hl : c.sh.nk * c.sh.A ≤ src.len) (hy : ∀ p, p < c.sh.nk * c.sh.A → src.get p = y p)
    (hn : c.sh.pool = .max → ∀ i, i < c.sh.nk → NoTie c.sh.pg (fun v => y (i * c.sh.A + v)) (fun v => dead (i * c.sh.A + v))) :
    ∃ o, ffPool c src = some o ∧ o.len = c.pooled.len ∧ ∀ p, p < c.sh.nk * c.sh.B → o.get p = c.unit.pools y p := by
  unfold ffPool
  rw [if_neg hp]
  have hB := c.sh.pg_out hp
  obtain ⟨o, e, h1, h2, -⟩ := loop_views (nk := c.sh.nk) (B := c.sh.B)
    (fun i => poolFF c.sh.pool c.sh.pg (src.view (i * c.sh.A))) c.pooled hr.lpooled
    (fun i g => ∀ u, u < c.sh.B → g u = poolFn c.sh.pool c.sh.pg (fun v => y (i * c.sh.A + v)) u)
    (fun i g g' hg h u hu => by rw [← hg u hu]; exact h u hu) (by
      intro i hi v hv hz
      obtain ⟨o, eo, -, o1, o2⟩ := poolFF_run c.sh.pool c.sh.pg hp hr.hpool (src.view (i * c.sh.A)) v (fun v => y (i * c.sh.A + v))
        (fun v => dead (i * c.sh.A + v)) (by simp only [Arr.view_len, Shape.pg_in]; exact block_le hi hl)
        (fun u hu => by simp only [Arr.view_get]; exact hy _ (Vec.idx_lt hi hu)) (by rw [hB]; exact hv) (fun h => hn h i hi)
        (fun u hu => by rw [hB] at hu; rw [hz u hu]; exact hr.zpooled _ (Vec.idx_lt hi hu))
      rw [hB] at o1 o2
      exact ⟨o, eo, o1, o2⟩)
  refine ⟨o, e, h1, of_blocks fun i hi u hu => ?_⟩
  refine (h2 i hi u hu).trans ?_
  obtain ⟨d1, d2⟩ := split_idx (r := i) hu
  show _ = poolFn c.sh.pool c.sh.pg (fun v => y ((i * c.sh.B + u) / c.sh.B * c.sh.A + v)) ((i * c.sh.B + u) % c.sh.B)
  rw [d1, d2]

/-! ### Backward -/

/-- The derivative of the activation of one number, as the code computes it. -/
noncomputable def dAct (a : Act) (v : ℝ) : ℝ := pulled a 1 (fun _ => v) (fun _ => 1) 0

theorem act1_deriv (a : Act) (v : ℝ) (hk : a = .relu ∨ a = .leaky ∨ a = .elu → v ≠ 0) : HasDerivAt (act1 a) (dAct a v) v := by
  obtain ⟨d, h1, h2⟩ := Pull.act a 1 (fun _ => v) (fun _ => 1) (fun h k _ => hk h) (fun t _ => t) (fun _ => 1) v rfl (fun _ _ => hasDerivAt_id' v)
  have := h1 0 Nat.one_pos
  have e : d 0 = dAct a v := by simpa [dAct] using h2
  rw [e] at this
  exact this

theorem Kind.fn_congr (K : Kind) (hK : K.Ok) (nk : Nat) (k : Nat → ℝ) (b : ℝ) {x y : Nat → ℝ} (h : ∀ i, i < K.nIn nk → x i = y i) {u : Nat}
    (hu : u < K.size) : K.fn k b x u = K.fn k b y u := by
  unfold Kind.fn
  by_cases hi : K.Inner u
  · obtain ⟨T, a, c, hlt, hr⟩ := lin_repr K hK nk u hu hi
    rw [if_pos hi, if_pos hi, hr, hr]
    congr 1
    exact Finset.sum_congr rfl fun τ hτ => by rw [h _ (hlt τ hτ).1]
  · rw [if_neg hi, if_neg hi]

theorem CUnit.z_congr (u : CUnit) (hK : u.sh.kind.Ok) {x y : Nat → ℝ} (h : ∀ i, i < u.sh.nIn → x i = y i) {p : Nat} (hp : p < u.sh.nk * u.sh.A) :
    u.z x p = u.z y p := by
  have hA : 0 < u.sh.A := by
    rcases Nat.eq_zero_or_pos u.sh.A with h | h
    · rw [h, Nat.mul_zero] at hp; omega
    · exact h
  exact u.sh.kind.fn_congr hK u.sh.nk _ _ h (Nat.mod_lt p hA)

theorem CUnit.pools_none (u : CUnit) (h : u.sh.pool = .none) (y : Nat → ℝ) : u.pools y = y := by
  funext p
  unfold CUnit.pools
  rw [h, u.sh.B_none h]
  show y (p / u.sh.A * u.sh.A + p % u.sh.A) = y p
  rw [Nat.mul_comm, Nat.div_add_mod]

theorem bpPool_run (c : Cl) (hr : c.Ready) (src e : Arr ℝ) (y : Nat → ℝ) (dead : Nat → Prop) (hl : c.sh.nk * c.sh.A ≤ src.len)
    (hy : ∀ p, p < c.sh.nk * c.sh.A → src.get p = y p) (he : c.sh.nOut ≤ e.len)
    (hn : c.sh.pool = .max → ∀ i, i < c.sh.nk → NoTie c.sh.pg (fun v => y (i * c.sh.A + v)) (fun v => dead (i * c.sh.A + v))) :
    ∃ t, bpPool c src e = some t ∧ c.sh.nk * c.sh.A ≤ t.len ∧ PullD dead (c.sh.nk * c.sh.A) c.sh.nOut c.unit.pools y e.get t.get := by
  unfold bpPool
  by_cases hp : c.sh.pool = .none
  · have hB := c.sh.B_none hp
    unfold Shape.nOut at he ⊢
    rw [hB] at he ⊢
    refine ⟨e, if_pos hp, he, ?_⟩
    have : c.unit.pools = fun y => y := by funext y; exact c.unit.pools_none hp y
    rw [this]
    exact Pull.toD (Pull.id _ y e.get) dead
  · rw [if_neg hp]
    have hB := c.sh.pg_out hp
    obtain ⟨t, et, h1, h2, -⟩ := loop_views (nk := c.sh.nk) (B := c.sh.A)
      (fun i => poolBP c.sh.pool c.sh.pg (src.view (i * c.sh.A)) (e.view (i * c.sh.B))) c.temp hr.lt
      (fun i g => PullD (fun u => dead (i * c.sh.A + u)) c.sh.A c.sh.B (poolFn c.sh.pool c.sh.pg) (fun u => y (i * c.sh.A + u))
        (fun v => e.get (i * c.sh.B + v)) g)
      (fun i g g' hg h => h.congr (fun _ _ => rfl) fun u hu => (hg u hu).symm) (by
        intro i hi v hv hz
        obtain ⟨o, eo, -, o1, o2⟩ := poolBP_run c.sh.pool c.sh.pg hp hr.hpool (src.view (i * c.sh.A)) (e.view (i * c.sh.B)) v
          (fun v => y (i * c.sh.A + v)) (fun v => dead (i * c.sh.A + v)) (by simp only [Arr.view_len, Shape.pg_in]; exact block_le hi hl)
          (fun u hu => by simp only [Arr.view_get]; exact hy _ (Vec.idx_lt hi hu)) (by rw [hB]; simp only [Arr.view_len]; exact block_le hi he) hv
          (fun h => hn h i hi) (fun u hu => by rw [hz u hu]; exact hr.zt _ (Vec.idx_lt hi hu))
        rw [hB] at o1
        exact ⟨o, eo, o1, o2⟩)
    exact ⟨t, et, by rw [h1]; exact hr.lt, PullD.blocks (poolFn c.sh.pool c.sh.pg) y e.get t.get h2⟩

theorem bpAct_run (c : Cl) (hact : c.sh.act ≠ .softmax) (z : Nat → ℝ) (t : Arr ℝ) (hpre : c.sh.nk * c.sh.A ≤ c.pre.len)
    (hpost : c.sh.nk * c.sh.A ≤ c.post.len) (ht : c.sh.nk * c.sh.A ≤ t.len) (h3 : c.sh.nk * c.sh.A ≤ c.temp3.len)
    (vpre : ∀ p, p < c.sh.nk * c.sh.A → c.pre.get p = z p)
    (vpost : c.sh.act ≠ .none → ∀ p, p < c.sh.nk * c.sh.A → c.post.get p = c.unit.actv z p) :
    ∃ o s, bpAct c t = some (o, s) ∧ c.sh.nk * c.sh.A ≤ o.len ∧
      ∀ p, p < c.sh.nk * c.sh.A → c.sh.kind.Inner (p % c.sh.A) → o.get p = dAct c.sh.act (z p) * t.get p := by
  have go : ∀ (d : ℝ → ℝ) (src : Arr ℝ), c.sh.nk * c.sh.A ≤ src.len → ∃ o s,
      ((Vec.map1D d src c.temp3 (c.sh.nk * c.sh.A)).bind fun t3 =>
        (Vec.zip1D (fun a b => a * b) t3 t t (c.sh.nk * c.sh.A)).bind fun o => some (o, t3)) = some (o, s) ∧ c.sh.nk * c.sh.A ≤ o.len ∧
        ∀ p, p < c.sh.nk * c.sh.A → o.get p = d (src.get p) * t.get p := by
    intro d src hs
    rw [Vec.C64_map d src c.temp3 _ hs h3, Option.bind_some, Vec.zip1D_eq _ _ _ _ _ (by exact h3) ht ht, Option.bind_some]
    refine ⟨_, _, rfl, ht, ?_⟩
    intro k hk
    simp [hk]
  have hd : ∀ (d : ℝ → ℝ), (∀ v, dAct c.sh.act v = d v) → ∃ o s,
      ((Vec.map1D d c.pre c.temp3 (c.sh.nk * c.sh.A)).bind fun t3 =>
        (Vec.zip1D (fun a b => a * b) t3 t t (c.sh.nk * c.sh.A)).bind fun o => some (o, t3)) = some (o, s) ∧ c.sh.nk * c.sh.A ≤ o.len ∧
        ∀ p, p < c.sh.nk * c.sh.A → c.sh.kind.Inner (p % c.sh.A) → o.get p = dAct c.sh.act (z p) * t.get p := by
    intro d hd
    obtain ⟨o, s, e, l, v⟩ := go d c.pre hpre
    refine ⟨o, s, e, l, fun p hp _ => ?_⟩
    rw [v p hp, vpre p hp, hd]
  unfold bpAct
  cases ha : c.sh.act with
  | none => exact ⟨t, c.temp3, rfl, ht, fun p _ _ => by simp [dAct, pulled]⟩
  | softmax => exact absurd ha hact
  | sigmoid =>
    obtain ⟨o, s, e, l, v⟩ := go LLab.Act.dSigmoidGiven c.post hpost
    refine ⟨o, s, e, l, fun p hp hi => ?_⟩
    rw [v p hp, vpost (by rw [ha]; decide) p hp]
    unfold CUnit.actv
    have hi' : c.unit.sh.kind.Inner (p % c.unit.sh.A) := hi
    rw [if_pos hi', show c.unit.sh.act = .sigmoid from ha]
    simp [dAct, pulled, act1, actFn, LLab.Act.sigmoid]
  | relu =>
    obtain ⟨o, s, e, l, v⟩ := hd LLab.Act.dRelu (fun v => by rw [ha]; simp [dAct, pulled])
    rw [ha] at v
    exact ⟨o, s, e, l, v⟩
  | elu =>
    obtain ⟨o, s, e, l, v⟩ := hd (fun z => LLab.Act.dElu z 1) (fun v => by rw [ha]; simp [dAct, pulled])
    rw [ha] at v
    exact ⟨o, s, e, l, v⟩
  | tanh =>
    obtain ⟨o, s, e, l, v⟩ := hd LLab.Act.dTanhh (fun v => by rw [ha]; simp [dAct, pulled])
    rw [ha] at v
    exact ⟨o, s, e, l, v⟩
  | leaky =>
    obtain ⟨o, s, e, l, v⟩ := hd LLab.Act.dLeakyRelu (fun v => by rw [ha]; simp [dAct, pulled])
    rw [ha] at v
    exact ⟨o, s, e, l, v⟩

/-- From the convolutions to the results, along any family with constant frames. -/
theorem CUnit.top_par (u : CUnit) (Zf : ℝ → Nat → ℝ) (t0 a : ℝ) (z t tp e : Nat → ℝ) (D : Nat → Prop)
    (h0 : ∀ p, p < u.sh.nk * u.sh.A → Zf t0 p = z p)
    (hfr : ∀ p, p < u.sh.nk * u.sh.A → ¬u.sh.kind.Inner (p % u.sh.A) → ∀ t, Zf t p = 0)
    (hP : Par (u.sh.nk * u.sh.A) Zf t0 t a)
    (ht : ∀ p, p < u.sh.nk * u.sh.A → u.sh.kind.Inner (p % u.sh.A) → t p = dAct u.sh.act (z p) * tp p)
    (hk : u.sh.act = .relu ∨ u.sh.act = .leaky ∨ u.sh.act = .elu → ∀ p, p < u.sh.nk * u.sh.A → u.sh.kind.Inner (p % u.sh.A) → z p ≠ 0)
    (hD : ∀ p, p < u.sh.nk * u.sh.A → D p → ¬u.sh.kind.Inner (p % u.sh.A) ∨ u.sh.act = .relu ∧ z p < 0)
    (hp : PullD D (u.sh.nk * u.sh.A) u.sh.nOut u.pools (u.actv (Zf t0)) e tp) :
    Par u.sh.nOut (fun t => u.pools (u.actv (Zf t))) t0 e a := by
  obtain ⟨d, hd1, hd2⟩ := hP
  refine hp.par rfl ⟨fun p => if u.sh.kind.Inner (p % u.sh.A) then dAct u.sh.act (z p) * d p else 0, fun p hpl => ?_, ?_⟩ fun p hpl hDp => ?_
  · unfold CUnit.actv
    by_cases hi : u.sh.kind.Inner (p % u.sh.A)
    · simp only [if_pos hi]
      have h1 : HasDerivAt (act1 u.sh.act) (dAct u.sh.act (z p)) (Zf t0 p) := by
        rw [h0 p hpl]
        exact act1_deriv _ _ fun h => hk h p hpl hi
      exact h1.comp t0 (hd1 p hpl)
    · simp only [if_neg hi]
      exact hasDerivAt_const _ _
  · rw [← hd2]
    refine Finset.sum_congr rfl fun p hpm => ?_
    have hpl := Finset.mem_range.1 hpm
    by_cases hi : u.sh.kind.Inner (p % u.sh.A)
    · simp only [if_pos hi]
      rw [ht p hpl hi]
      ring
    · simp only [if_neg hi]
      have : d p = 0 := by
        refine (hd1 p hpl).unique ?_
        have : (fun t => Zf t p) = fun _ => 0 := by funext t; exact hfr p hpl hi t
        rw [this]
        exact hasDerivAt_const _ _
      rw [this, mul_zero, mul_zero]
  · unfold CUnit.actv
    rcases hD p hpl hDp with hi | ⟨ha, hz⟩
    · simp only [if_neg hi]
      exact Filter.Eventually.of_forall fun _ => by trivial
    · by_cases hi : u.sh.kind.Inner (p % u.sh.A)
      · simp only [if_pos hi]
        have hc : ∀ᶠ t in nhds t0, Zf t p < 0 :=
          (hd1 p hpl).continuousAt.eventually_lt continuousAt_const (by rw [h0 p hpl]; exact hz)
        have hrel : ∀ v : ℝ, v < 0 → act1 u.sh.act v = 0 := by
          intro v hv
          rw [ha]
          exact max_eq_right hv.le
        filter_upwards [hc] with t ht
        rw [hrel _ ht, hrel _ (by rw [h0 p hpl]; exact hz)]
      · simp only [if_neg hi]
        exact Filter.Eventually.of_forall fun _ => by trivial

theorem bpKernels_run (x t : Arr ℝ) (y : Nat → ℝ) (c : Cl) (hr : c.Ready) (hp : c.sh.isPass = false) (hx : c.sh.nIn ≤ x.len)
    (hy : ∀ i, i < c.sh.nIn → x.get i = y i) (ht : c.sh.nk * c.sh.A ≤ t.len) :
    ∃ s, ∃ G : Nat → Nat → ℝ, bpKernels x t c = some s ∧ c.sh.nIn ≤ s.2.1.len ∧
      (∀ j, j < c.sh.nk → ∀ p, p < c.sh.nIn → HasDerivAt (fun v => ∑ u ∈ range c.sh.A, t.get (j * c.sh.A + u) *
        c.sh.kind.fn (c.kernels j).get (c.biases.get j) (Function.update y p v) u) (G j p) (y p)) ∧
      (∀ p, p < c.sh.nIn → s.2.1.get p = ∑ j ∈ range c.sh.nk, G j p) ∧
      (∀ j, j < c.sh.nk → ∀ q, HasDerivAt (fun v => ∑ u ∈ range c.sh.A, t.get (j * c.sh.A + u) *
        c.sh.kind.fn (Function.update (c.kernels j).get q v) (c.biases.get j) y u) ((s.1 j).get q - (c.dKernels j).get q) ((c.kernels j).get q)) ∧
      (c.mode ≠ .freezeBiases → ∀ j, j < c.sh.nk → HasDerivAt (fun v => ∑ u ∈ range c.sh.A, t.get (j * c.sh.A + u) *
        c.sh.kind.fn (c.kernels j).get v y u) (s.2.2.get j - c.dBiases.get j) (c.biases.get j)) ∧
      (c.mode = .freezeBiases → s.2.2 = c.dBiases) := by
  have hcong : ∀ (k : Nat → ℝ) (b : ℝ) (u : Nat), u < c.sh.A → c.sh.kind.fn k b x.get u = c.sh.kind.fn k b y u :=
    fun k b u hu => c.sh.kind.fn_congr hr.hK c.sh.nk k b hy hu
  -- one kernel
  have one : ∀ j, j < c.sh.nk → ∀ (hasBias : Bool) (ke ie : Arr ℝ) (be : ℝ), c.sh.kind.nK ≤ ke.len → c.sh.nIn ≤ ie.len →
      ∃ ke' ie' be', convBP c.sh.kind x (c.kernels j) (t.view (j * c.sh.A)) hasBias (ke, ie, be) = some (ke', ie', be') ∧
      (ke'.len = ke.len ∧ ie'.len = ie.len) ∧
      (∀ q, HasDerivAt (fun v => ∑ u ∈ range c.sh.A, t.get (j * c.sh.A + u) *
        c.sh.kind.fn (Function.update (c.kernels j).get q v) (c.biases.get j) y u) (ke'.get q - ke.get q) ((c.kernels j).get q)) ∧
      (∀ p, p < c.sh.nIn → HasDerivAt (fun v => ∑ u ∈ range c.sh.A, t.get (j * c.sh.A + u) *
        c.sh.kind.fn (c.kernels j).get (c.biases.get j) (Function.update y p v) u) (ie'.get p - ie.get p) (y p)) ∧
      (hasBias = true → HasDerivAt (fun v => ∑ u ∈ range c.sh.A, t.get (j * c.sh.A + u) *
        c.sh.kind.fn (c.kernels j).get v y u) (be' - be) (c.biases.get j)) := by
    intro j hj hasBias ke ie be hke hie
    obtain ⟨ke', ie', be', e1, h1, h2, h3, h4⟩ := convBP_run c.sh.kind hr.hK c.sh.nk (Shape.not_pass hp) x (c.kernels j) (t.view (j * c.sh.A))
      ke ie (c.biases.get j) be hasBias hx (hr.lk j hj) (by simp only [Arr.view_len]; exact block_le hj ht) hke hie
    refine ⟨ke', ie', be', e1, h1, fun q => ?_, fun p hpn => ?_, fun hb => ?_⟩
    · refine (h2 q).congr_of_eventuallyEq (Filter.Eventually.of_forall fun v => ?_)
      exact Finset.sum_congr rfl fun u hu => by rw [← hcong _ _ u (Finset.mem_range.1 hu)]; rfl
    · rw [← hy p hpn]
      refine (h3 p).congr_of_eventuallyEq (Filter.Eventually.of_forall fun v => ?_)
      refine Finset.sum_congr rfl fun u hu => ?_
      rw [← c.sh.kind.fn_congr hr.hK c.sh.nk _ _ (x := Function.update x.get p v) ?_ (Finset.mem_range.1 hu)]
      · rfl
      · intro i hi
        by_cases hip : i = p
        · rw [hip, Function.update_self, Function.update_self]
        · rw [Function.update_of_ne hip, Function.update_of_ne hip, hy i hi]
    · refine (h4 hb).congr_of_eventuallyEq (Filter.Eventually.of_forall fun v => ?_)
      exact Finset.sum_congr rfl fun u hu => by rw [← hcong _ _ u (Finset.mem_range.1 hu)]; rfl
  have hG : ∀ j p, ∃ g, j < c.sh.nk → p < c.sh.nIn → HasDerivAt (fun v => ∑ u ∈ range c.sh.A, t.get (j * c.sh.A + u) *
        c.sh.kind.fn (c.kernels j).get (c.biases.get j) (Function.update y p v) u) g (y p) := by
    intro j p
    by_cases hj : j < c.sh.nk
    · by_cases hpn : p < c.sh.nIn
      · obtain ⟨_, _, _, -, -, -, h, -⟩ := one j hj false (c.dKernels j) c.error2 0 (hr.ldk j hj) hr.le2
        exact ⟨_, fun _ _ => h p hpn⟩
      · exact ⟨0, fun _ h => absurd h hpn⟩
    · exact ⟨0, fun h => absurd h hj⟩
  choose G hG using hG
  refine Exists.elim (loop_inv (n := c.sh.nk) (s := (c.dKernels, c.error2, c.dBiases)) (f := fun i (s : (Nat → Arr ℝ) × Arr ℝ × Arr ℝ) =>
    if c.mode = .freezeBiases then
      (convBP c.sh.kind x (c.kernels i) (t.view (i * c.sh.A)) false (s.1 i, s.2.1, 0)).bind fun r =>
        some (Function.update s.1 i r.1, r.2.1, s.2.2)
    else (s.2.2.read i).bind fun b =>
      (convBP c.sh.kind x (c.kernels i) (t.view (i * c.sh.A)) true (s.1 i, s.2.1, b)).bind fun r =>
        (s.2.2.write i r.2.2).bind fun db => some (Function.update s.1 i r.1, r.2.1, db))
    (fun i s => (s.2.1.len = c.error2.len ∧ s.2.2.len = c.dBiases.len) ∧
      (∀ p, p < c.sh.nIn → s.2.1.get p = ∑ j ∈ range i, G j p) ∧
      (∀ j, i ≤ j → s.1 j = c.dKernels j) ∧
      (∀ j, j < i → ∀ q, HasDerivAt (fun v => ∑ u ∈ range c.sh.A, t.get (j * c.sh.A + u) *
        c.sh.kind.fn (Function.update (c.kernels j).get q v) (c.biases.get j) y u) ((s.1 j).get q - (c.dKernels j).get q) ((c.kernels j).get q)) ∧
      (∀ j, i ≤ j → s.2.2.get j = c.dBiases.get j) ∧
      (c.mode ≠ .freezeBiases → ∀ j, j < i → HasDerivAt (fun v => ∑ u ∈ range c.sh.A, t.get (j * c.sh.A + u) *
        c.sh.kind.fn (c.kernels j).get v y u) (s.2.2.get j - c.dBiases.get j) (c.biases.get j)) ∧
      (c.mode = .freezeBiases → s.2.2 = c.dBiases)) ?_ ?_) ?_
  · exact ⟨⟨rfl, rfl⟩, fun p hpn => by simpa using hr.ze2 p hpn, fun _ _ => rfl, fun j hj => absurd hj (Nat.not_lt_zero j), fun _ _ => rfl,
      fun _ j hj => absurd hj (Nat.not_lt_zero j), fun _ => rfl⟩
  · rintro i hi ⟨dk, er, db⟩ ⟨⟨s1, s2⟩, s3, s4, s5, s6, s7, s8⟩
    dsimp only at s1 s2 s3 s4 s5 s6 s7 s8 ⊢
    have hdk : c.sh.kind.nK ≤ (dk i).len := by rw [s4 i (Nat.le_refl i)]; exact hr.ldk i hi
    have her : c.sh.nIn ≤ er.len := by rw [s1]; exact hr.le2
    have herr : ∀ (ie' : Arr ℝ), (∀ p, p < c.sh.nIn → HasDerivAt (fun v => ∑ u ∈ range c.sh.A, t.get (i * c.sh.A + u) *
        c.sh.kind.fn (c.kernels i).get (c.biases.get i) (Function.update y p v) u) (ie'.get p - er.get p) (y p)) →
        ∀ p, p < c.sh.nIn → ie'.get p = ∑ j ∈ range (i + 1), G j p := by
      intro ie' h p hpn
      rw [Finset.sum_range_succ, ← s3 p hpn, ← (h p hpn).unique (hG i p hi hpn)]
      ring
    have hker : ∀ (ke' : Arr ℝ), (∀ q, HasDerivAt (fun v => ∑ u ∈ range c.sh.A, t.get (i * c.sh.A + u) *
        c.sh.kind.fn (Function.update (c.kernels i).get q v) (c.biases.get i) y u) (ke'.get q - (dk i).get q) ((c.kernels i).get q)) →
        (∀ j, i + 1 ≤ j → Function.update dk i ke' j = c.dKernels j) ∧
        ∀ j, j < i + 1 → ∀ q, HasDerivAt (fun v => ∑ u ∈ range c.sh.A, t.get (j * c.sh.A + u) *
          c.sh.kind.fn (Function.update (c.kernels j).get q v) (c.biases.get j) y u)
          ((Function.update dk i ke' j).get q - (c.dKernels j).get q) ((c.kernels j).get q) := by
      intro ke' h
      refine ⟨fun j hj => ?_, fun j hj q => ?_⟩
      · rw [Function.update_of_ne (by omega)]
        exact s4 j (by omega)
      · by_cases hji : j = i
        · subst hji
          rw [Function.update_self, ← s4 j (Nat.le_refl j)]
          exact h q
        · rw [Function.update_of_ne hji]
          exact s5 j (by omega) q
    by_cases hm : c.mode = .freezeBiases
    · rw [if_pos hm]
      obtain ⟨ke', ie', be', e1, ⟨l1, l2⟩, h2, h3, -⟩ := one i hi false (dk i) er 0 hdk her
      rw [e1, Option.bind_some]
      obtain ⟨k1, k2⟩ := hker ke' h2
      exact ⟨_, rfl, ⟨l2.trans s1, s2⟩, herr ie' h3, k1, k2, fun j hj => s6 j (by omega), fun h => absurd hm h, s8⟩
    · rw [if_neg hm]
      have hdb := hr.ldb
      have hil : i < db.len := by omega
      rw [Arr.read_eq hil, Option.bind_some]
      obtain ⟨ke', ie', be', e1, ⟨l1, l2⟩, h2, h3, h4⟩ := one i hi true (dk i) er (db.get i) hdk her
      rw [e1, Option.bind_some, Arr.write_eq _ hil, Option.bind_some]
      obtain ⟨k1, k2⟩ := hker ke' h2
      refine ⟨_, rfl, ⟨l2.trans s1, s2⟩, herr ie' h3, k1, k2, fun j hj => ?_, fun _ j hj => ?_, fun h => absurd h hm⟩
      · dsimp only
        rw [Function.update_of_ne (by omega)]
        exact s6 j (by omega)
      · dsimp only
        by_cases hji : j = i
        · subst hji
          rw [Function.update_self, ← s6 j (Nat.le_refl j)]
          exact h4 rfl
        · rw [Function.update_of_ne hji]
          exact s7 hm j (by omega)
  · rintro s ⟨es, ⟨s1, s2⟩, s3, s4, s5, s6, s7, s8⟩
    exact ⟨s, G, es, by rw [s1]; exact hr.le2, fun j hj p hpn => hG j p hj hpn, s3, s5, s7, s8⟩

/-! ### The layer that hands its input on -/

theorem Shape.ident_iff (s : Shape) : s.ident = true ↔
    ∃ r c, s.kind = .pass r c ∧ s.ps2 = 1 ∧ s.ps1 = 1 ∧ s.ppad = 0 ∧ s.pk1 = 1 ∧ s.pk2 = 1 := by
  unfold Shape.ident Shape.isPass
  cases h : s.kind <;> simp

theorem poolFn_ident (p : PoolKind) (pg : Pool.PGeom) (hok : PoolOk p pg) (hp : p ≠ .none)
    (h : pg.s2 = 1 ∧ pg.s1 = 1 ∧ pg.pad = 0 ∧ pg.kI = 1 ∧ pg.kJ = 1) :
    pg.outI * pg.outJ = pg.inI * pg.inJ ∧ ∀ y v, v < pg.inI * pg.inJ → poolFn p pg y v = y v := by
  obtain ⟨hg, -⟩ := hok hp
  obtain ⟨r, c, k1, k2, s1, s2, pad⟩ := pg
  obtain ⟨rfl, rfl, rfl, rfl, rfl⟩ := h
  have hI : 1 ≤ r := hg.hI
  have hJ : 1 ≤ c := hg.hJ
  have eI : Pool.PGeom.nI ⟨r, c, 1, 1, 1, 1, 0⟩ = r := by unfold Pool.PGeom.nI; dsimp only; rw [Nat.div_one]; omega
  have eJ : Pool.PGeom.nJ ⟨r, c, 1, 1, 1, 1, 0⟩ = c := by unfold Pool.PGeom.nJ; dsimp only; rw [Nat.div_one]; omega
  have oI : Pool.PGeom.outI ⟨r, c, 1, 1, 1, 1, 0⟩ = r := by unfold Pool.PGeom.outI; rw [eI]; rfl
  have oJ : Pool.PGeom.outJ ⟨r, c, 1, 1, 1, 1, 0⟩ = c := by unfold Pool.PGeom.outJ; rw [eJ]; rfl
  refine ⟨by rw [oI, oJ], fun y v hv => ?_⟩
  dsimp only at hv
  have hin : Inside (Pool.PGeom.outJ ⟨r, c, 1, 1, 1, 1, 0⟩) 0 (Pool.PGeom.nI ⟨r, c, 1, 1, 1, 1, 0⟩) (Pool.PGeom.nJ ⟨r, c, 1, 1, 1, 1, 0⟩) v := by
    rw [oJ, eI, eJ]
    refine ⟨Nat.zero_le _, ?_, Nat.zero_le _, ?_⟩
    · rw [Nat.zero_add]; exact (Nat.div_lt_iff_lt_mul (by omega)).2 hv
    · rw [Nat.zero_add]; exact Nat.mod_lt _ (by omega)
  have hw : Pool.win ⟨r, c, 1, 1, 1, 1, 0⟩ (v / c) (v % c) 0 0 = v := by
    simp only [Pool.win, Nat.mul_one, Nat.add_zero]
    rw [Nat.mul_comm]
    exact Nat.div_add_mod v c
  cases p with
  | none => exact absurd rfl hp
  | max =>
    rw [poolFn_max _ hg, if_pos hin, oJ]
    dsimp only
    rw [Nat.sub_zero, Nat.sub_zero]
    unfold Pool.pooled
    have ho : Pool.offs ⟨r, c, 1, 1, 1, 1, 0⟩ = {(0, 0)} := by simp [Pool.offs]
    simp only [ho, Finset.sup'_singleton]
    rw [hw]
  | avg =>
    unfold poolFn
    dsimp only
    rw [if_pos hin, oJ, Nat.sub_zero, Nat.sub_zero]
    unfold Pool.mean
    have ho : Pool.offs ⟨r, c, 1, 1, 1, 1, 0⟩ = {(0, 0)} := by simp [Pool.offs]
    rw [ho, Finset.sum_singleton, hw]
    simp

theorem CUnit.ident_fn (u : CUnit) (hok : PoolOk u.sh.pool u.sh.pg) (hp : u.sh.pool ≠ .none) (hi : u.sh.ident = true) :
    u.sh.nOut = u.sh.nIn ∧ ∀ y p, p < u.sh.nOut → u.fn y p = y p := by
  obtain ⟨r, c, hk, h⟩ := u.sh.ident_iff.1 hi
  obtain ⟨h1, h2⟩ := poolFn_ident u.sh.pool u.sh.pg hok hp h
  have hA : u.sh.A = r * c := by unfold Shape.A Kind.size; rw [hk]; rfl
  have hB : u.sh.B = u.sh.A := by rw [← u.sh.pg_out hp, h1]; rfl
  refine ⟨by unfold Shape.nOut Shape.nIn; rw [hB, hA, hk]; rfl, fun y p hpl => ?_⟩
  have hpass : u.sh.isPass = true := by unfold Shape.isPass; rw [hk]
  unfold CUnit.fn CUnit.src CUnit.pools
  rw [if_pos hpass]
  unfold Shape.nOut at hpl
  have hBp : 0 < u.sh.B := by
    rcases Nat.eq_zero_or_pos u.sh.B with h | h
    · rw [h, Nat.mul_zero] at hpl; omega
    · exact h
  rw [h2 _ _ (by rw [Shape.pg_in, ← hB]; exact Nat.mod_lt _ hBp), ← hB, Nat.mul_comm, Nat.div_add_mod]

/-! ### One layer -/

theorem CUnit.actv_none (u : CUnit) (h : u.sh.act = .none) (x : Nat → ℝ) (p : Nat) : u.actv (u.z x) p = u.z x p := by
  unfold CUnit.actv
  by_cases hi : u.sh.kind.Inner (p % u.sh.A)
  · rw [if_pos hi, h]; rfl
  · rw [if_neg hi]
    unfold CUnit.z Kind.fn
    rw [if_neg hi]

theorem Pull.at_congr {n m : Nat} {F G : (Nat → ℝ) → Nat → ℝ} {x e g : Nat → ℝ} (h : Pull n m F x e g)
    (hf : ∀ x k, k < m → G x k = F x k) : Pull n m G x e g := by
  intro c c' t0 hc hd
  obtain ⟨d, h1, h2⟩ := h c c' t0 hc hd
  refine ⟨d, fun k hk => ?_, h2⟩
  have : (fun t => G (c t) k) = fun t => F (c t) k := by funext t; exact hf _ k hk
  rw [this]
  exact h1 k hk

theorem Par.zero {m : Nat} (f : Nat → ℝ) (t0 : ℝ) (e : Nat → ℝ) : Par m (fun _ => f) t0 e 0 :=
  ⟨fun _ => 0, fun _ _ => hasDerivAt_const _ _, by simp⟩

theorem bind_some_of {α β : Type} {a : Option α} {v : α} {f : α → Option β} (h : a = some v) : a.bind f = f v := by rw [h]; rfl

/-- A parameter that moves one block only. -/
theorem Par.block {nk A i : Nat} (hi : i < nk) {Z : ℝ → Nat → ℝ} {t0 g : ℝ} {t : Nat → ℝ}
    (hc : ∀ j, j < nk → j ≠ i → ∀ u, u < A → ∀ v, Z v (j * A + u) = Z t0 (j * A + u))
    (h : Par A (fun v u => Z v (i * A + u)) t0 (fun u => t (i * A + u)) g) : Par (nk * A) Z t0 t g := by
  obtain ⟨d, h1, h2⟩ := h
  refine ⟨fun p => if p / A = i then d (p % A) else 0, of_blocks fun j hj u hu => ?_, ?_⟩
  · obtain ⟨d1, d2⟩ := split_idx (r := j) hu
    dsimp only
    rw [d1, d2]
    by_cases hji : j = i
    · subst hji
      rw [if_pos rfl]
      exact h1 u hu
    · rw [if_neg hji]
      have : (fun v => Z v (j * A + u)) = fun _ => Z t0 (j * A + u) := by funext v; exact hc j hj hji u hu v
      rw [this]
      exact hasDerivAt_const _ _
  · rw [sum_rows, Finset.sum_eq_single i]
    · rw [← h2]
      refine Finset.sum_congr rfl fun u hu => ?_
      obtain ⟨d1, d2⟩ := split_idx (r := i) (Finset.mem_range.1 hu)
      dsimp only
      rw [d1, d2, if_pos rfl]
    · intro j _ hne
      refine Finset.sum_eq_zero fun u hu => ?_
      obtain ⟨d1, d2⟩ := split_idx (r := j) (Finset.mem_range.1 hu)
      dsimp only
      rw [d1, if_neg hne, mul_zero]
    · intro h
      exact absurd (Finset.mem_range.2 hi) h

theorem CUnit.z_block (u : CUnit) (x : Nat → ℝ) (j v : Nat) (hv : v < u.sh.A) : u.z x (j * u.sh.A + v) = u.sh.kind.fn (u.k j) (u.b j) x v := by
  obtain ⟨d1, d2⟩ := split_idx (r := j) hv
  unfold CUnit.z
  rw [d1, d2]

/-- What one layer does, forward and backward. -/
theorem cl_run (x : Arr ℝ) (y : Nat → ℝ) (c : Cl) (hr : c.Ready) (hx : c.sh.nIn ≤ x.len) (hy : ∀ i, i < c.sh.nIn → x.get i = y i)
    (hs : c.unit.Smooth y) :
    ∃ c', ffCl x c = some c' ∧ c'.sh = c.sh ∧ c.sh.nOut ≤ c'.used.len ∧ (∀ k, k < c.sh.nOut → c'.used.get k = c.unit.fn y k) ∧
    ∀ e : Arr ℝ, c.sh.nOut ≤ e.len → ∃ h err, bpCl x e c' = some (h, err) ∧ c.sh.nIn ≤ err.len ∧
      Pull c.sh.nIn c.sh.nOut c.unit.fn y e.get err.get ∧
      (∀ i, i < c.sh.nk → ∀ q, q < c.sh.kind.nK → Par c.sh.nOut
        (fun v => ({ c.unit with k := Function.update c.unit.k i (Function.update (c.unit.k i) q v) } : CUnit).fn y) (c.unit.k i q) e.get
        ((h.dKernels i).get q - (c.dKernels i).get q)) ∧
      (c.mode ≠ .freezeBiases → ∀ i, i < c.sh.nk → Par c.sh.nOut
        (fun v => ({ c.unit with b := Function.update c.unit.b i v } : CUnit).fn y) (c.unit.b i) e.get
        (h.dBiases.get i - c.dBiases.get i)) ∧
      (c.mode = .freezeBiases → h.dBiases = c.dBiases) := by
  unfold ffCl
  rw [if_neg hr.hact]
  by_cases hid : c.sh.ident = true
  · -- the input handed on
    rw [if_pos hid]
    have hpass : c.sh.isPass = true := by
      unfold Shape.ident at hid
      exact (Bool.and_eq_true_iff.1 hid).1
    have hpool := hr.hpass hpass
    obtain ⟨h1, h2⟩ := c.unit.ident_fn hr.hpool hpool hid
    have h1 : c.sh.nOut = c.sh.nIn := h1
    have hused : ({ c with pooltemp := x } : Cl).used = x := by
      unfold Cl.used
      rw [if_pos hpool, if_pos hid]
    have hnK : c.sh.kind.nK = 0 := by
      obtain ⟨r, cc, hk, -⟩ := c.sh.ident_iff.1 hid
      rw [hk]; rfl
    refine ⟨_, rfl, rfl, by rw [hused, h1]; exact hx, fun k hk => ?_, fun e he => ?_⟩
    · rw [hused, hy k (by omega)]
      exact (h2 y k hk).symm
    · unfold bpCl
      refine ⟨_, e, if_pos hid, by omega, ?_, fun i _ q hq => ?_, fun _ i hi => ?_, fun _ => rfl⟩
      · rw [← h1]
        exact Pull.at_congr (Pull.id _ y e.get) h2
      · rw [hnK] at hq; omega
      · have e0 : ∀ v, ({ c.unit with b := Function.update c.unit.b i v } : CUnit).fn y = c.unit.fn y := by
          intro v
          unfold CUnit.fn CUnit.src
          dsimp only
          rw [if_pos (show c.unit.sh.isPass = true from hpass), if_pos (show c.unit.sh.isPass = true from hpass)]
          rfl
        simp only [e0, sub_self]
        exact Par.zero _ _ _
  · have hid' : c.sh.ident = false := by simpa using hid
    rw [if_neg hid]
    by_cases hpass : c.sh.isPass = true
    · -- pooling alone
      rw [if_pos hpass]
      have hpool := hr.hpass hpass
      have hsrc : c.unit.src y = y := by unfold CUnit.src; exact if_pos hpass
      have hkind : ∃ r cc, c.sh.kind = .pass r cc := by
        unfold Shape.isPass at hpass
        cases hk : c.sh.kind with
        | conv g => rw [hk] at hpass; simp at hpass
        | tconv g => rw [hk] at hpass; simp at hpass
        | pass r cc => exact ⟨r, cc, rfl⟩
      obtain ⟨r, cc, hk⟩ := hkind
      have hin : c.sh.nIn = c.sh.nk * c.sh.A := by unfold Shape.nIn Shape.A Kind.size; rw [hk]; rfl
      have hnK : c.sh.kind.nK = 0 := by rw [hk]; rfl
      have hdead : ∀ p, ¬c.unit.Dead y p := fun p h => by
        have h1 : c.sh.isPass = false := h.1
        rw [hpass] at h1
        simp at h1
      have hn : c.sh.pool = .max → ∀ i, i < c.sh.nk → NoTie c.sh.pg (fun v => y (i * c.sh.A + v)) (fun v => c.unit.Dead y (i * c.sh.A + v)) := by
        intro h i hi
        have := hs.2 h hid' i hi
        rw [hsrc] at this
        exact this
      obtain ⟨o, eo, lo, vo⟩ := ffPool_run c hr hpool x y (c.unit.Dead y) (by omega) (fun p hp => hy p (by omega)) hn
      rw [eo, Option.bind_some]
      have hused : ({ c with pooled := o } : Cl).used = o := by
        unfold Cl.used
        rw [if_pos hpool, if_neg hid]
      refine ⟨_, rfl, rfl, by rw [hused, lo]; exact hr.lpooled, fun k hk => ?_, fun e he => ?_⟩
      · rw [hused, vo k hk]
        unfold CUnit.fn
        rw [hsrc]
      · obtain ⟨t, et, lt, vt⟩ := bpPool_run c hr x e y (c.unit.Dead y) (by omega) (fun p hp => hy p (by omega)) he hn
        unfold bpCl
        dsimp only
        rw [if_neg hid, if_pos hpass, show bpPool { c with pooled := o } x e = bpPool c x e from rfl, et, Option.bind_some, if_neg hpool]
        refine ⟨_, t, rfl, by omega, ?_, fun i _ q hq => ?_, fun _ i hi => ?_, fun _ => rfl⟩
        · rw [hin]
          refine Pull.at_congr (vt.toPull fun p _ => hdead p) fun x k _ => ?_
          unfold CUnit.fn CUnit.src
          rw [if_pos (show c.unit.sh.isPass = true from hpass)]
        · rw [hnK] at hq; omega
        · have e0 : ∀ v, ({ c.unit with b := Function.update c.unit.b i v } : CUnit).fn y = c.unit.fn y := by
            intro v
            unfold CUnit.fn CUnit.src
            dsimp only
            rw [if_pos (show c.unit.sh.isPass = true from hpass), if_pos (show c.unit.sh.isPass = true from hpass)]
            rfl
          simp only [e0, sub_self]
          exact Par.zero _ _ _
    · -- a convolution
      rw [if_neg hpass]
      have hpass' : c.sh.isPass = false := by simpa using hpass
      have hfn : ∀ (u : CUnit) (x : Nat → ℝ), u.sh = c.sh → u.fn x = u.pools (u.actv (u.z x)) := by
        intro u x hu
        unfold CUnit.fn CUnit.src
        rw [hu, if_neg hpass]
      have hsrc : c.unit.src y = c.unit.actv (c.unit.z y) := by unfold CUnit.src; exact if_neg hpass
      obtain ⟨pre, epre, lpre, vpre⟩ := ffKernels_run x c hr hpass' hx
      have vpre : ∀ p, p < c.sh.nk * c.sh.A → pre.get p = c.unit.z y p := fun p hp =>
        (vpre p hp).trans (c.unit.z_congr hr.hK hy hp)
      have hlpre : c.sh.nk * c.sh.A ≤ pre.len := by rw [lpre]; exact hr.lpre
      obtain ⟨post, epost, lpost, vpost⟩ := ffAct_run c hr hpass' pre hlpre
      have hlpost : c.sh.nk * c.sh.A ≤ post.len := by rw [lpost]; exact hr.lpost
      have vpost : c.sh.act ≠ .none → ∀ p, p < c.sh.nk * c.sh.A → post.get p = c.unit.actv (c.unit.z y) p := by
        intro h p hp
        rw [vpost h p hp]
        unfold CUnit.actv
        rw [vpre p hp]
      have hn : c.sh.pool = .max → ∀ i, i < c.sh.nk → NoTie c.sh.pg (fun v => c.unit.actv (c.unit.z y) (i * c.sh.A + v))
          (fun v => c.unit.Dead y (i * c.sh.A + v)) := by
        intro h i hi
        have := hs.2 h hid' i hi
        rw [hsrc] at this
        exact this
      have lsrc : c.sh.nk * c.sh.A ≤ (if c.sh.act = .none then pre else post).len := by split_ifs <;> assumption
      have vsrc : ∀ p, p < c.sh.nk * c.sh.A → (if c.sh.act = .none then pre else post).get p = c.unit.actv (c.unit.z y) p := by
        intro p hp
        by_cases h : c.sh.act = .none
        · rw [if_pos h, vpre p hp]
          exact (c.unit.actv_none h y p).symm
        · rw [if_neg h]
          exact vpost h p hp
      have hpo : ∃ o, ffPool c (if c.sh.act = .none then pre else post) = some o ∧ (c.sh.pool ≠ .none → c.sh.nOut ≤ o.len ∧
          ∀ p, p < c.sh.nOut → o.get p = c.unit.pools (c.unit.actv (c.unit.z y)) p) := by
        by_cases hp : c.sh.pool = .none
        · exact ⟨c.pooled, by unfold ffPool; rw [if_pos hp], fun h => absurd hp h⟩
        · obtain ⟨o, eo, lo, vo⟩ := ffPool_run c hr hp _ _ (c.unit.Dead y) lsrc vsrc hn
          exact ⟨o, eo, fun _ => ⟨by rw [lo]; exact hr.lpooled, vo⟩⟩
      obtain ⟨o, eo, ho⟩ := hpo
      rw [epre, Option.bind_some, epost, Option.bind_some, eo, Option.bind_some]
      have hused : ({ c with pre := pre, post := post, pooled := o } : Cl).used =
          if c.sh.pool ≠ .none then o else if c.sh.act ≠ .none then post else pre := by
        unfold Cl.used
        dsimp only
        rw [if_neg hid]
      refine ⟨_, rfl, rfl, ?_, fun k hk => ?_, fun e he => ?_⟩
      · rw [hused]
        by_cases hp : c.sh.pool = .none
        · rw [if_neg (by simpa using hp)]
          unfold Shape.nOut
          rw [c.sh.B_none hp]
          split_ifs <;> assumption
        · rw [if_pos hp]
          exact (ho hp).1
      · rw [hused, hfn c.unit y rfl]
        by_cases hp : c.sh.pool = .none
        · rw [if_neg (by simpa using hp), c.unit.pools_none hp]
          unfold Shape.nOut at hk
          rw [c.sh.B_none hp] at hk
          have := vsrc k hk
          by_cases ha : c.sh.act = .none
          · rw [if_neg (by simpa using ha)]
            rwa [if_pos ha] at this
          · rw [if_pos ha]
            rwa [if_neg ha] at this
        · rw [if_pos hp]
          exact (ho hp).2 k hk
      · obtain ⟨tp, etp, ltp, vtp⟩ := bpPool_run c hr _ e _ (c.unit.Dead y) lsrc vsrc he hn
        obtain ⟨t, t3, et, lt, vt⟩ := bpAct_run { c with pre := pre, post := post, pooled := o } hr.hact (c.unit.z y) tp hlpre hlpost ltp hr.lt3
          vpre vpost
        obtain ⟨s, G, es, ls, hG, vs, vk, vb, vf⟩ := bpKernels_run x t y c hr hpass' hx hy lt
        unfold bpCl
        dsimp only
        rw [if_neg hid, if_neg hpass]
        refine ⟨{ c with pre := pre, post := post, pooled := o, temp := (if c.sh.pool = .none then c.temp else t), temp3 := t3, dKernels := s.1, error2 := s.2.1, dBiases := s.2.2 }, s.2.1, (bind_some_of etp).trans ((bind_some_of et).trans (bind_some_of es)), ls, ?_, ?_, ?_, vf⟩
        all_goals
          have top := c.unit.top_par (z := c.unit.z y) (t := t.get) (tp := tp.get) (e := e.get) (D := c.unit.Dead y)
        · intro cu cu' t0 hc hd
          have hpull : Pull c.sh.nIn (c.sh.nk * c.sh.A) c.unit.z y t.get (fun p => ∑ j ∈ range c.sh.nk, G j p) :=
            Pull.stack (fun j => c.sh.kind.fn (c.kernels j).get (c.biases.get j)) y t.get G fun j hj =>
              Pull.kind c.sh.kind hr.hK c.sh.nk _ _ y _ (G j) fun p hp => hG j hj p hp
          obtain ⟨d, d1, d2⟩ := hpull cu cu' t0 hc hd
          have := top (fun t => c.unit.z (cu t)) t0 _ (fun p _ => by rw [hc]) (fun p hp hi t => by
            unfold CUnit.z Kind.fn; exact if_neg hi) ⟨d, d1, d2⟩ vt (hs.1 hpass') (fun p _ h => h.2) (by rw [hc]; exact vtp)
          obtain ⟨d', d3, d4⟩ := this
          refine ⟨d', fun k hk => ?_, d4.trans (Finset.sum_congr rfl fun i hi => by rw [vs i (Finset.mem_range.1 hi)])⟩
          simp only [hfn c.unit _ rfl]
          exact d3 k hk
        · intro i hi q hq
          have hex := fun (u : Nat) (hu : u < c.sh.A) => fn_deriv_k c.sh.kind hr.hK (c.kernels i).get (c.biases.get i) y q u hu
          have hblock : ∀ v j u, u < c.sh.A →
              ({ c.unit with k := Function.update c.unit.k i (Function.update (c.unit.k i) q v) } : CUnit).z y (j * c.sh.A + u) =
              c.sh.kind.fn (Function.update c.unit.k i (Function.update (c.unit.k i) q v) j) (c.biases.get j) y u :=
            fun v j u hu => CUnit.z_block _ y j u hu
          have hpar : Par (c.sh.nk * c.sh.A)
              (fun v => ({ c.unit with k := Function.update c.unit.k i (Function.update (c.unit.k i) q v) } : CUnit).z y) (c.unit.k i q) t.get
              ((s.1 i).get q - (c.dKernels i).get q) := by
            refine Par.block hi (fun j hj hji u hu v => ?_) ?_
            · rw [hblock _ j u hu, hblock _ j u hu, Function.update_of_ne hji, Function.update_of_ne hji]
            · choose! d hd using hex
              refine Par.of_weighted (d := d) (fun u hu => ?_) ?_
              · simp only [hblock _ i u hu, Function.update_self]
                exact hd u hu
              · refine (vk i hi q).congr_of_eventuallyEq (Filter.Eventually.of_forall fun v => ?_)
                refine Finset.sum_congr rfl fun u hu => ?_
                rw [hblock _ i u (Finset.mem_range.1 hu), Function.update_self]
                rfl
          have e0 : ({ c.unit with k := Function.update c.unit.k i (Function.update (c.unit.k i) q (c.unit.k i q)) } : CUnit).z y = c.unit.z y := by
            rw [Function.update_eq_self, Function.update_eq_self]
          have := top _ _ _ (fun p _ => by rw [e0]) (fun p hp hi t => by unfold CUnit.z Kind.fn; exact if_neg hi) hpar vt (hs.1 hpass')
            (fun p _ h => h.2) (by rw [e0]; exact vtp)
          simp only [hfn _ _ (show ({ c.unit with k := _ } : CUnit).sh = c.sh from rfl)]
          exact this
        · intro hm i hi
          have hblock : ∀ v j u, u < c.sh.A → ({ c.unit with b := Function.update c.unit.b i v } : CUnit).z y (j * c.sh.A + u) =
              c.sh.kind.fn (c.kernels j).get (Function.update c.unit.b i v j) y u :=
            fun v j u hu => CUnit.z_block _ y j u hu
          have hpar : Par (c.sh.nk * c.sh.A) (fun v => ({ c.unit with b := Function.update c.unit.b i v } : CUnit).z y) (c.unit.b i) t.get
              (s.2.2.get i - c.dBiases.get i) := by
            refine Par.block hi (fun j hj hji u hu v => ?_) ?_
            · rw [hblock _ j u hu, hblock _ j u hu, Function.update_of_ne hji, Function.update_of_ne hji]
            · choose d hd using fun u => fn_deriv_b c.sh.kind (c.kernels i).get (c.biases.get i) y u
              refine Par.of_weighted (d := d) (fun u hu => ?_) ?_
              · simp only [hblock _ i u hu, Function.update_self]
                exact hd u
              · refine (vb hm i hi).congr_of_eventuallyEq (Filter.Eventually.of_forall fun v => ?_)
                refine Finset.sum_congr rfl fun u hu => ?_
                rw [hblock _ i u (Finset.mem_range.1 hu), Function.update_self]
          have e0 : ({ c.unit with b := Function.update c.unit.b i (c.unit.b i) } : CUnit).z y = c.unit.z y := by
            rw [Function.update_eq_self]
          have := top _ _ _ (fun p _ => by rw [e0]) (fun p hp hi t => by unfold CUnit.z Kind.fn; exact if_neg hi) hpar vt (hs.1 hpass')
            (fun p _ h => h.2) (by rw [e0]; exact vtp)
          simp only [hfn _ _ (show ({ c.unit with b := _ } : CUnit).sh = c.sh from rfl)]
          exact this

end LLab.CNet
