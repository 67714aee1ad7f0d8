import Verif.Common.Act
import Verif.Common.Bilinear
import Mathlib.Tactic.Ring

/-!
Convolution of one feature map (`/repo/src/convolutional.c` 47-63, 186-221).
Numbers are elements of a commutative semiring (reals for derivatives).
Properties C26, C27.
-/

namespace LLab.Conv

open Finset

variable {R : Type} [CommSemiring R]

/-- The integer parameters of a convolution. -/
structure Geom where
  /-- `input_i`, `input_j` -/
  (inI inJ : Nat)
  /-- `kernel_i`, `kernel_j` -/
  (kI kJ : Nat)
  /-- `channels` -/
  ch : Nat
  /-- `stride1`, `stride2` -/
  (s1 s2 : Nat)
  /-- `padding` -/
  pad : Nat

namespace Geom

/-- `output_i = (input_i-kernel_i)/stride1 + 1 + 2*padding`
(`/repo/src/convolutional.c` 49). Read for `kernel_i <= input_i`, where the C
division of a non-negative number is the natural one. -/
def outI (g : Geom) : Nat := (g.inI - g.kI) / g.s1 + 1 + 2 * g.pad

/-- `output_j` (`/repo/src/convolutional.c` 50). -/
def outJ (g : Geom) : Nat := (g.inJ - g.kJ) / g.s2 + 1 + 2 * g.pad

/-- Rows of the interior of the output. -/
def nI (g : Geom) : Nat := (g.inI - g.kI) / g.s1 + 1

/-- Columns of the interior of the output. -/
def nJ (g : Geom) : Nat := (g.inJ - g.kJ) / g.s2 + 1

/-- The documented relation between the sizes. -/
structure Ok (g : Geom) : Prop where
  (hI : g.kI ≤ g.inI)
  (hJ : g.kJ ≤ g.inJ)
  (h1 : 0 < g.s1)
  (h2 : 0 < g.s2)

/-- The subscript of `kernel` in the loops. -/
def kIdx (g : Geom) (c i j : Nat) : Nat := c * g.kI * g.kJ + i * g.kJ + j

/-- The subscript of `input` in the loops, at output cell `(oi, oj)`. -/
def xIdx (g : Geom) (oi oj c i j : Nat) : Nat :=
  c * g.inI * g.inJ + i * g.inJ + j + (oj - g.pad) * g.s2 + (oi - g.pad) * g.s1 * g.inJ

end Geom

/-! ### Model -/

/-- `convolutional_feed_forward` (`/repo/src/convolutional.c` 47-63). -/
def ff (g : Geom) (x k : Arr R) (bias : R) (out : Arr R) : Option (Arr R) :=
  loopFrom g.pad (g.outI - g.pad) (fun oi out =>
    loopFrom g.pad (g.outJ - g.pad) (fun oj out => do
      let out ← loop g.ch (fun c out => loop g.kI (fun i out => loop g.kJ (fun j out => do
          let kv ← k.read (g.kIdx c i j)
          let xv ← x.read (g.xIdx oi oj c i j)
          out.addAt (oi * g.outJ + oj) (kv * xv)) out) out) out
      out.addAt (oi * g.outJ + oj) bias) out) out

/-- Error state: `kernel_error`, `input_error`, `*bias_error`. -/
abbrev Errs (R : Type) := Arr R × Arr R × R

/-- Body of the innermost loop of `convolutional_back_prop`
(`/repo/src/convolutional.c` 196-197, 213-214). -/
def bpStep (g : Geom) (x k e : Arr R) (oi oj c i j : Nat) (s : Errs R) : Option (Errs R) := do
  let ev ← e.read (oi * g.outJ + oj)
  let xv ← x.read (g.xIdx oi oj c i j)
  let ke ← s.1.addAt (g.kIdx c i j) (ev * xv)
  let kv ← k.read (g.kIdx c i j)
  let ie ← s.2.1.addAt (g.xIdx oi oj c i j) (kv * ev)
  some (ke, ie, s.2.2)

/-- `convolutional_back_prop` (`/repo/src/convolutional.c` 186-221); `hasBias`
says whether `bias_error != NULL`. -/
def bp (g : Geom) (x k e : Arr R) (hasBias : Bool) (s : Errs R) : Option (Errs R) :=
  if hasBias then
    loopFrom g.pad (g.outI - g.pad) (fun oi s =>
      loopFrom g.pad (g.outJ - g.pad) (fun oj s => do
        let s ← loop g.ch (fun c s => loop g.kI (fun i s => loop g.kJ (fun j s =>
            bpStep g x k e oi oj c i j s) s) s) s
        let ev ← e.read (oi * g.outJ + oj)
        some (s.1, s.2.1, s.2.2 + ev)) s) s
  else
    loopFrom g.pad (g.outI - g.pad) (fun oi s =>
      loopFrom g.pad (g.outJ - g.pad) (fun oj s =>
        loop g.ch (fun c s => loop g.kI (fun i s => loop g.kJ (fun j s =>
            bpStep g x k e oi oj c i j s) s) s) s) s) s

/-! ### Specification -/

/-- Strided cross-correlation at interior cell `(r, s)`:
`Σ kernel[c][i][j] * input[c][r*stride1+i][s*stride2+j] + bias`. -/
def corr (g : Geom) (x k : Nat → R) (bias : R) (r s : Nat) : R :=
  ∑ c ∈ range g.ch, ∑ i ∈ range g.kI, ∑ j ∈ range g.kJ,
    k (ix3 g.kI g.kJ c i j) * x (ix3 g.inI g.inJ c (r * g.s1 + i) (s * g.s2 + j)) + bias

/-- Cell of the output array that holds interior cell `(r, s)`. -/
def cell (g : Geom) (r s : Nat) : Nat := (g.pad + r) * g.outJ + (g.pad + s)

/-- Sum over the interior of upstream error times convolution output. -/
def weighted (g : Geom) (e x k : Nat → R) (bias : R) : R :=
  ∑ r ∈ range g.nI, ∑ s ∈ range g.nJ, e (cell g r s) * corr g x k bias r s

/-! ### Index arithmetic -/

theorem kIdx_lt (g : Geom) {c i j : Nat} (hc : c < g.ch) (hi : i < g.kI) (hj : j < g.kJ) :
    g.kIdx c i j < g.ch * g.kI * g.kJ := ix3_lt hc hi hj

theorem stride_lt {n k s r i : Nat} (hk : k ≤ n) (hr : r < (n - k) / s + 1) (hi : i < k) :
    r * s + i < n := by
  have h1 : r ≤ (n - k) / s := by omega
  have h2 : r * s ≤ n - k := (Nat.mul_le_mul_right s h1).trans (Nat.div_mul_le_self _ _)
  omega

theorem xIdx_eq (g : Geom) (r s c i j : Nat) :
    g.xIdx (g.pad + r) (g.pad + s) c i j = ix3 g.inI g.inJ c (r * g.s1 + i) (s * g.s2 + j) := by
  simp only [Geom.xIdx, ix3, Nat.add_sub_cancel_left]
  ring

theorem xIdx_lt (g : Geom) (hg : g.Ok) {r s c i j : Nat} (hr : r < g.nI) (hs : s < g.nJ)
    (hc : c < g.ch) (hi : i < g.kI) (hj : j < g.kJ) :
    g.xIdx (g.pad + r) (g.pad + s) c i j < g.ch * g.inI * g.inJ := by
  rw [xIdx_eq]
  exact ix3_lt hc (stride_lt hg.hI hr hi) (stride_lt hg.hJ hs hj)

theorem cell_lt (g : Geom) {r s : Nat} (hr : r < g.nI) (hs : s < g.nJ) :
    cell g r s < g.outI * g.outJ := by
  have h1 : g.pad + r < g.outI := by unfold Geom.outI; unfold Geom.nI at hr; omega
  have h2 : g.pad + s < g.outJ := by unfold Geom.outJ; unfold Geom.nJ at hs; omega
  exact Vec.idx_lt h1 h2

theorem cell_inj (g : Geom) {r s r' s' : Nat} (hs : s < g.nJ) (hs' : s' < g.nJ) :
    cell g r s = cell g r' s' ↔ r = r' ∧ s = s' := by
  have h1 : g.pad + s < g.outJ := by unfold Geom.outJ; unfold Geom.nJ at hs; omega
  have h2 : g.pad + s' < g.outJ := by unfold Geom.outJ; unfold Geom.nJ at hs'; omega
  rw [cell, cell, ix2_inj h1 h2]
  omega

theorem loopI (g : Geom) : g.outI - g.pad - g.pad = g.nI := by
  unfold Geom.outI Geom.nI
  generalize (g.inI - g.kI) / g.s1 = y
  omega
theorem loopJ (g : Geom) : g.outJ - g.pad - g.pad = g.nJ := by
  unfold Geom.outJ Geom.nJ
  generalize (g.inJ - g.kJ) / g.s2 = y
  omega

/-! ### Forward -/

theorem ff_eq (g : Geom) (hg : g.Ok) (x k out : Arr R) (bias : R)
    (hx : g.ch * g.inI * g.inJ ≤ x.len) (hk : g.ch * g.kI * g.kJ ≤ k.len)
    (ho : g.outI * g.outJ ≤ out.len) :
    ff g x k bias out = some ⟨out.len, out.get + ∑ r ∈ range g.nI, ∑ s ∈ range g.nJ,
      Pi.single (cell g r s) (corr g x.get k.get bias r s)⟩ := by
  refine loopFrom_act (loopI g) (Arr.mk out.len) _ ?_ out.get
  intro r hr m
  refine loopFrom_act (loopJ g) (Arr.mk out.len) _ ?_ m
  intro s hs m
  have hcell := cell_lt g hr hs
  have h := loop_act (n := g.ch) (Arr.mk out.len) (f := fun c out => loop g.kI (fun i out =>
        loop g.kJ (fun j out => do
          let kv ← k.read (g.kIdx c i j)
          let xv ← x.read (g.xIdx (g.pad + r) (g.pad + s) c i j)
          out.addAt ((g.pad + r) * g.outJ + (g.pad + s)) (kv * xv)) out) out)
      (fun c => ∑ i ∈ range g.kI, ∑ j ∈ range g.kJ, Pi.single (cell g r s)
        (k.get (ix3 g.kI g.kJ c i j) * x.get (ix3 g.inI g.inJ c (r * g.s1 + i) (s * g.s2 + j)))) (by
    intro c hc m
    refine loop_act (Arr.mk out.len) _ ?_ m
    intro i hi m
    refine loop_act (Arr.mk out.len) _ ?_ m
    intro j hj m
    have h1 := kIdx_lt g hc hi hj
    have h2 := xIdx_lt g hg hr hs hc hi hj
    rw [Arr.read_eq (by omega), Arr.read_eq (by omega)]
    simp only [Option.bind_eq_bind, Option.bind_some]
    rw [Arr.addAt_mk _ _ _ (by unfold cell at hcell; omega), xIdx_eq]
    rfl) m
  rw [h]
  simp only [Option.bind_eq_bind, Option.bind_some]
  rw [Arr.addAt_mk _ _ _ (by unfold cell at hcell; omega), add_assoc]
  congr 3
  simp only [corr, Pi.single_add, cell]
  congr 1
  have hs : ∀ (S : Finset Nat) (F : Nat → R) (p : Nat),
      ∑ j ∈ S, (Pi.single p (F j) : Nat → R) = Pi.single p (∑ j ∈ S, F j) :=
    fun S F p => (map_sum (AddMonoidHom.single (fun _ : Nat => R) p) F S).symm
  simp only [hs]

/-- `r < n/s + 1` counts exactly the window positions that fit. -/
theorem fits_iff {n k s r : Nat} (h : k ≤ n) (hs : 0 < s) : r < (n - k) / s + 1 ↔ r * s + k ≤ n := by
  rw [Nat.lt_succ_iff, Nat.le_div_iff_mul_le hs]; omega

/-- **C26, geometry.** The interior of the output has one cell for each
position at which the whole window fits in the input, no more and no fewer, and
the output frames it with `padding` cells on each side. -/
theorem C26_sizes (g : Geom) (hg : g.Ok) :
    (∀ r, r < g.nI ↔ r * g.s1 + g.kI ≤ g.inI) ∧ (∀ s, s < g.nJ ↔ s * g.s2 + g.kJ ≤ g.inJ) ∧
    g.outI = g.pad + g.nI + g.pad ∧ g.outJ = g.pad + g.nJ + g.pad :=
  ⟨fun _ => fits_iff hg.hI hg.h1, fun _ => fits_iff hg.hJ hg.h2,
    by unfold Geom.outI Geom.nI; omega, by unfold Geom.outJ Geom.nJ; omega⟩

example : (⟨7, 7, 3, 2, 1, 2, 3, 1⟩ : Geom).Ok ∧ (⟨7, 7, 3, 2, 1, 2, 3, 1⟩ : Geom).nI = 3 :=
  ⟨⟨by decide, by decide, by decide, by decide⟩, by decide⟩

/-- **C26.** In bounds, every interior cell receives its strided correlation
plus the bias, and every other cell (the padding frame, and anything beyond)
keeps its value. -/
theorem C26_feed_forward (g : Geom) (hg : g.Ok) (x k out : Arr R) (bias : R)
    (hx : g.ch * g.inI * g.inJ ≤ x.len) (hk : g.ch * g.kI * g.kJ ≤ k.len)
    (ho : g.outI * g.outJ ≤ out.len) :
    ∃ out', ff g x k bias out = some out' ∧ out'.len = out.len ∧
      (∀ r s, r < g.nI → s < g.nJ →
        out'.get (cell g r s) = out.get (cell g r s) + corr g x.get k.get bias r s) ∧
      (∀ p, (∀ r s, r < g.nI → s < g.nJ → p ≠ cell g r s) → out'.get p = out.get p) := by
  refine ⟨_, ff_eq g hg x k out bias hx hk ho, rfl, ?_, ?_⟩
  · intro r s hr hs
    simp only [Pi.add_apply, Finset.sum_apply]
    congr 1
    rw [Finset.sum_eq_single r]
    · rw [Finset.sum_eq_single s]
      · simp
      · intro s' hs' hne
        rw [Pi.single_apply, if_neg]
        rw [cell_inj g hs (Finset.mem_range.1 hs')]
        exact fun h => hne h.2.symm
      · intro h; exact absurd (Finset.mem_range.2 hs) h
    · intro r' _ hne
      apply Finset.sum_eq_zero
      intro s' hs'
      rw [Pi.single_apply, if_neg]
      rw [cell_inj g hs (Finset.mem_range.1 hs')]
      exact fun h => hne h.1.symm
    · intro h; exact absurd (Finset.mem_range.2 hr) h
  · intro p hp
    simp only [Pi.add_apply, Finset.sum_apply]
    simp only [Pi.single_apply]
    convert add_zero (out.get p)
    apply Finset.sum_eq_zero
    intro r hr
    apply Finset.sum_eq_zero
    intro s hs
    rw [if_neg]
    exact hp r s (Finset.mem_range.1 hr) (Finset.mem_range.1 hs)

/-- Non-vacuity: a 3×3 image, 2×2 kernel, stride 1, padding 1; the output is
4×4 with a 2×2 interior. -/
example : let g : Geom := ⟨3, 3, 2, 2, 1, 1, 1, 1⟩
    g.Ok ∧ ((ff g (Arr.ofList [1, 2, 3, 4, 5, 6, 7, 8, 9]) (Arr.ofList [1, 0, 0, -1]) 10
      (⟨16, fun _ => 100⟩ : Arr Int)).map fun a => (List.range 16).map a.get) =
      some [100, 100, 100, 100, 100, 106, 106, 100, 100, 106, 106, 100, 100, 100, 100, 100] := by
  refine ⟨⟨by decide, by decide, by decide, by decide⟩, by decide⟩

/-! ### Backward -/

private def act (a b : Nat) (m : (Nat → R) × (Nat → R) × R) : Errs R := (⟨a, m.1⟩, ⟨b, m.2.1⟩, m.2.2)

/-- What the multiply-add step `(r,s,c,i,j)` adds to the error state. -/
private def dStep (g : Geom) (x k e : Nat → R) (r s c i j : Nat) : (Nat → R) × (Nat → R) × R :=
  (Pi.single (ix3 g.kI g.kJ c i j)
      (e (cell g r s) * x (ix3 g.inI g.inJ c (r * g.s1 + i) (s * g.s2 + j))),
   Pi.single (ix3 g.inI g.inJ c (r * g.s1 + i) (s * g.s2 + j))
      (e (cell g r s) * k (ix3 g.kI g.kJ c i j)), 0)

private theorem inner_eq (g : Geom) (hg : g.Ok) (x k e : Arr R) (a b : Nat)
    (hx : g.ch * g.inI * g.inJ ≤ x.len) (hk : g.ch * g.kI * g.kJ ≤ k.len)
    (he : g.outI * g.outJ ≤ e.len) (ha : g.ch * g.kI * g.kJ ≤ a) (hb : g.ch * g.inI * g.inJ ≤ b)
    {r s : Nat} (hr : r < g.nI) (hs : s < g.nJ) (m : (Nat → R) × (Nat → R) × R) :
    loop g.ch (fun c s' => loop g.kI (fun i s' => loop g.kJ (fun j s' =>
      bpStep g x k e (g.pad + r) (g.pad + s) c i j s') s') s') (act a b m) =
    some (act a b (m + ∑ c ∈ range g.ch, ∑ i ∈ range g.kI, ∑ j ∈ range g.kJ,
      dStep g x.get k.get e.get r s c i j)) := by
  refine loop_act (act a b) _ ?_ m
  intro c hc m
  refine loop_act (act a b) _ ?_ m
  intro i hi m
  refine loop_act (act a b) _ ?_ m
  intro j hj m
  have h1 := kIdx_lt g hc hi hj
  have h2 := xIdx_lt g hg hr hs hc hi hj
  have h3 := cell_lt g hr hs
  unfold bpStep
  rw [Arr.read_eq (by unfold cell at h3; omega), Arr.read_eq (by omega), Arr.read_eq (by omega)]
  simp only [Option.bind_eq_bind, Option.bind_some, act]
  rw [Arr.addAt_mk _ _ _ (by omega)]
  simp only [Option.bind_some]
  rw [Arr.addAt_mk _ _ _ (by omega), xIdx_eq]
  simp only [Option.bind_some, dStep, Prod.fst_add, Prod.snd_add, add_zero]
  rw [mul_comm (k.get _)]
  rfl

private theorem bp_eq (g : Geom) (hg : g.Ok) (x k e : Arr R) (hasBias : Bool) (a b : Nat)
    (hx : g.ch * g.inI * g.inJ ≤ x.len) (hk : g.ch * g.kI * g.kJ ≤ k.len)
    (he : g.outI * g.outJ ≤ e.len) (ha : g.ch * g.kI * g.kJ ≤ a) (hb : g.ch * g.inI * g.inJ ≤ b)
    (m : (Nat → R) × (Nat → R) × R) :
    bp g x k e hasBias (act a b m) = some (act a b (m + ∑ r ∈ range g.nI, ∑ s ∈ range g.nJ,
      (∑ c ∈ range g.ch, ∑ i ∈ range g.kI, ∑ j ∈ range g.kJ, dStep g x.get k.get e.get r s c i j +
        (0, 0, if hasBias then e.get (cell g r s) else 0)))) := by
  cases hasBias with
  | true =>
    simp only [bp, if_true]
    refine loopFrom_act (loopI g) (act a b) _ ?_ m
    intro r hr m
    refine loopFrom_act (loopJ g) (act a b) _ ?_ m
    intro s hs m
    have h3 := cell_lt g hr hs
    rw [inner_eq g hg x k e a b hx hk he ha hb hr hs m]
    simp only [Option.bind_eq_bind, Option.bind_some]
    rw [Arr.read_eq (by unfold cell at h3; omega)]
    simp only [Option.bind_some, act, Prod.fst_add, Prod.snd_add, add_zero, add_assoc (m.2.2)]
    rfl
  | false =>
    simp only [bp, Bool.false_eq_true, if_false]
    refine loopFrom_act (loopI g) (act a b) _ ?_ m
    intro r hr m
    refine loopFrom_act (loopJ g) (act a b) _ ?_ m
    intro s hs m
    rw [inner_eq g hg x k e a b hx hk he ha hb hr hs m]
    have h0 : ((0, 0, 0) : (Nat → R) × (Nat → R) × R) = 0 := rfl
    simp [h0]

/-- The multiply-add steps of the convolution. -/
def steps (g : Geom) : Finset (Nat × Nat × Nat × Nat × Nat) :=
  range g.nI ×ˢ range g.nJ ×ˢ range g.ch ×ˢ range g.kI ×ˢ range g.kJ

/-- Output cell, kernel cell and input cell of a step. -/
def oOf (g : Geom) (τ : Nat × Nat × Nat × Nat × Nat) : Nat := cell g τ.1 τ.2.1
/-- Kernel cell of a step. -/
def kOf (g : Geom) (τ : Nat × Nat × Nat × Nat × Nat) : Nat := ix3 g.kI g.kJ τ.2.2.1 τ.2.2.2.1 τ.2.2.2.2
/-- Input cell of a step. -/
def xOf (g : Geom) (τ : Nat × Nat × Nat × Nat × Nat) : Nat :=
  ix3 g.inI g.inJ τ.2.2.1 (τ.1 * g.s1 + τ.2.2.2.1) (τ.2.1 * g.s2 + τ.2.2.2.2)

theorem weighted_steps (g : Geom) (e x k : Nat → R) (bias : R) :
    weighted g e x k bias =
      (∑ r ∈ range g.nI, ∑ s ∈ range g.nJ, e (cell g r s)) * bias +
        ∑ τ ∈ steps g, e (oOf g τ) * (x (xOf g τ) * k (kOf g τ)) := by
  unfold weighted corr steps
  simp only [Finset.sum_product, oOf, xOf, kOf, mul_add, Finset.sum_add_distrib, Finset.mul_sum,
    Finset.sum_mul, mul_comm (k _)]
  exact add_comm _ _

/-- **C27.** The backward pass stays in bounds and adds to the kernel, input
and bias errors the partial derivatives of the error-weighted convolution
output; without a bias error the scalar is untouched. -/
theorem C27_back_prop (g : Geom) (hg : g.Ok) (x k e ke ie : Arr ℝ) (bias be : ℝ) (hasBias : Bool)
    (hx : g.ch * g.inI * g.inJ ≤ x.len) (hk : g.ch * g.kI * g.kJ ≤ k.len)
    (he : g.outI * g.outJ ≤ e.len) (hke : g.ch * g.kI * g.kJ ≤ ke.len)
    (hie : g.ch * g.inI * g.inJ ≤ ie.len) :
    ∃ ke' ie' be', bp g x k e hasBias (ke, ie, be) = some (ke', ie', be') ∧
      (ke'.len = ke.len ∧ ie'.len = ie.len) ∧
      (∀ q, HasDerivAt (fun t => weighted g e.get x.get (Function.update k.get q t) bias)
        (ke'.get q - ke.get q) (k.get q)) ∧
      (∀ p, HasDerivAt (fun t => weighted g e.get (Function.update x.get p t) k.get bias)
        (ie'.get p - ie.get p) (x.get p)) ∧
      (hasBias = true → HasDerivAt (fun t => weighted g e.get x.get k.get t) (be' - be) bias) ∧
      (hasBias = false → be' = be) := by
  have h := bp_eq g hg x k e hasBias ke.len ie.len hx hk he hke hie (ke.get, ie.get, be)
  refine ⟨_, _, _, h, ⟨rfl, rfl⟩, ?_, ?_, ?_, ?_⟩
  · intro q
    simp only [weighted_steps]
    refine (steps_deriv_w (steps g) (oOf g) (xOf g) (kOf g) e.get x.get k.get _ q).congr_deriv ?_
    simp only [Prod.fst_add, Prod.fst_sum, Pi.add_apply, Finset.sum_apply,
      add_zero, add_sub_cancel_left, dStep, Pi.single_apply, steps, Finset.sum_product, oOf, xOf, kOf]
    rfl
  · intro p
    simp only [weighted_steps]
    refine (steps_deriv_x (steps g) (oOf g) (xOf g) (kOf g) e.get x.get k.get _ p).congr_deriv ?_
    simp only [Prod.snd_add, Prod.fst_add, Prod.fst_sum, Prod.snd_sum, Pi.add_apply, Finset.sum_apply,
      add_zero, add_sub_cancel_left, dStep, Pi.single_apply, steps, Finset.sum_product,
      oOf, xOf, kOf]
    rfl
  · intro hb
    simp only [weighted_steps]
    have := ((hasDerivAt_id bias).const_mul (∑ r ∈ range g.nI, ∑ s ∈ range g.nJ, e.get (cell g r s))).add_const
      (∑ τ ∈ steps g, e.get (oOf g τ) * (x.get (xOf g τ) * k.get (kOf g τ)))
    refine this.congr_deriv ?_
    simp [Prod.snd_sum, dStep, hb]
  · intro hb
    simp [Prod.snd_sum, dStep, hb]

/-- Non-vacuity: the same geometry as above, upstream error 1 on the interior. -/
example : let g : Geom := ⟨3, 3, 2, 2, 1, 1, 1, 1⟩
    ((bp g (Arr.ofList [1, 2, 3, 4, 5, 6, 7, 8, 9]) (Arr.ofList [1, 0, 0, -1])
      (⟨16, fun _ => 1⟩ : Arr Int) true (⟨4, fun _ => 0⟩, ⟨9, fun _ => 0⟩, 0)).map
        fun s => ((List.range 4).map s.1.get, (List.range 9).map s.2.1.get, s.2.2)) =
      some ([12, 16, 24, 28], [1, 1, 0, 1, 0, -1, 0, -1, -1], 4) := by decide

end LLab.Conv
