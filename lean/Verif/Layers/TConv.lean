import Verif.Layers.Conv

/-!
Transposed convolution (`/repo/src/convolutional.c` 617-658, 814-865).
Properties C28, C67.
-/

namespace LLab.TConv

open Finset LLab.Conv

variable {R : Type} [CommSemiring R]

/-- The integer parameters; fields as in `Conv.Geom`. -/
structure TGeom where
  /-- `input_i`, `input_j` -/
  (inI inJ : Nat)
  /-- `kernel_i`, `kernel_j` -/
  (kI kJ : Nat)
  /-- `channels` -/
  ch : Nat
  /-- `stride1`, `stride2` -/
  (s1 s2 : Nat)
  /-- `padding` -/
  pad : Nat

namespace TGeom
/-- `output_i = (input_i-1)*stride1+kernel_i` (`/repo/src/convolutional.c` 619),
for `input_i >= 1`. -/
def outI (g : TGeom) : Nat := (g.inI - 1) * g.s1 + g.kI
/-- `output_j` (620). -/
def outJ (g : TGeom) : Nat := (g.inJ - 1) * g.s2 + g.kJ
/-- Subscript `i*output_j + j+oj*stride2+oi*stride1*output_j`. -/
def oIdx (g : TGeom) (oi oj i j : Nat) : Nat := i * g.outJ + j + oj * g.s2 + oi * g.s1 * g.outJ
/-- Subscript `c*input_i*input_j + oi*input_j+oj`. -/
def xIdx (g : TGeom) (c oi oj : Nat) : Nat := c * g.inI * g.inJ + oi * g.inJ + oj
/-- Subscript `c*kernel_i*kernel_j + i*kernel_j + j`. -/
def kIdx (g : TGeom) (c i j : Nat) : Nat := c * g.kI * g.kJ + i * g.kJ + j
/-- Non-empty input. -/
structure Ok (g : TGeom) : Prop where
  (hI : 0 < g.inI)
  (hJ : 0 < g.inJ)
end TGeom

/-! ### Model -/

/-- The scatter loops (`/repo/src/convolutional.c` 622-632 and 639-649). -/
def scatter (g : TGeom) (x k out : Arr R) : Option (Arr R) :=
  loop g.inI (fun oi out => loop g.inJ (fun oj out => loop g.ch (fun c out =>
    loop g.kI (fun i out => loop g.kJ (fun j out => do
      let xv ← x.read (g.xIdx c oi oj)
      let kv ← k.read (g.kIdx c i j)
      out.addAt (g.oIdx oi oj i j) (xv * kv)) out) out) out) out) out

/-- `transposed_convolutional_feed_forward` (`/repo/src/convolutional.c`
617-658). -/
def ff (g : TGeom) (x k : Arr R) (bias : R) (out : Arr R) : Option (Arr R) :=
  if g.pad = 0 then do
    let out ← scatter g x k out
    loop (g.outI * g.outJ) (fun oi out => out.addAt oi bias) out
  else do
    let temp ← scatter g x k ⟨g.outI * g.outJ, fun _ => 0⟩
    loopFrom g.pad (g.outI - g.pad) (fun oi out =>
      loopFrom g.pad (g.outJ - g.pad) (fun oj out => do
        let t ← temp.read (oi * g.outJ + oj)
        out.write ((oi - g.pad) * (g.outJ - 2 * g.pad) + oj - g.pad) (t + bias)) out) out

/-- The gather loops of the backward pass (`/repo/src/convolutional.c` 819-830
and 845-856); the state is `(kernel_error, input_error)`. -/
def gather (g : TGeom) (x k e : Arr R) (s : Arr R × Arr R) : Option (Arr R × Arr R) :=
  loop g.inI (fun oi s => loop g.inJ (fun oj s => loop g.ch (fun c s =>
    loop g.kI (fun i s => loop g.kJ (fun j (s : Arr R × Arr R) => do
      let kv ← k.read (g.kIdx c i j)
      let ev ← e.read (g.oIdx oi oj i j)
      let ie ← s.2.addAt (g.xIdx c oi oj) (kv * ev)
      let xv ← x.read (g.xIdx c oi oj)
      let ke ← s.1.addAt (g.kIdx c i j) (xv * ev)
      some (ke, ie)) s) s) s) s) s

/-- `(*bias_error) += e[oi]` for `oi < output_i*output_j`
(`/repo/src/convolutional.c` 831-835, 857-861). -/
def biasSum (g : TGeom) (e : Arr R) (hasBias : Bool) (be : R) : Option R :=
  if hasBias then loop (g.outI * g.outJ) (fun oi be => do
    let ev ← e.read oi
    some (be + ev)) be
  else some be

/-- The framed copy of the upstream error (`/repo/src/convolutional.c`
839-844). -/
def frame (g : TGeom) (e : Arr R) : Option (Arr R) :=
  loopFrom g.pad (g.outI - g.pad) (fun oi temp =>
    loopFrom g.pad (g.outJ - g.pad) (fun oj temp => do
      let ev ← e.read ((oi - g.pad) * (g.outJ - 2 * g.pad) + oj - g.pad)
      temp.write (oi * g.outJ + oj) ev) temp) ⟨g.outI * g.outJ, fun _ => 0⟩

/-- `transposed_convolutional_back_prop` (`/repo/src/convolutional.c`
814-865). -/
def bp (g : TGeom) (x k e : Arr R) (hasBias : Bool) (s : Arr R × Arr R × R) :
    Option (Arr R × Arr R × R) := do
  let e' ← (if g.pad = 0 then some e else frame g e : Option (Arr R))
  let s' ← gather g x k e' (s.1, s.2.1)
  let be ← biasSum g e' hasBias s.2.2
  some (s'.1, s'.2, be)

/-! ### Specification -/

/-- The full (uncropped) transposed convolution at `(p, q)`: every pair of an
input cell and a kernel cell that lands on `(p, q)` contributes its product. -/
def tconv (g : TGeom) (x k : Nat → R) (p q : Nat) : R :=
  ∑ oi ∈ range g.inI, ∑ oj ∈ range g.inJ, ∑ c ∈ range g.ch, ∑ i ∈ range g.kI, ∑ j ∈ range g.kJ,
    if p = oi * g.s1 + i ∧ q = oj * g.s2 + j then
      x (ix3 g.inI g.inJ c oi oj) * k (ix3 g.kI g.kJ c i j) else 0

/-- Upstream error times output, over the cropped output. -/
def weighted (g : TGeom) (e x k : Nat → R) (bias : R) : R :=
  ∑ p ∈ range (g.outI - 2 * g.pad), ∑ q ∈ range (g.outJ - 2 * g.pad),
    e (p * (g.outJ - 2 * g.pad) + q) * (tconv g x k (g.pad + p) (g.pad + q) + bias)

/-! ### Index arithmetic -/

theorem spread_lt {n k s r i : Nat} (hr : r < n) (hi : i < k) : r * s + i < (n - 1) * s + k := by
  have : r * s ≤ (n - 1) * s := Nat.mul_le_mul_right s (by omega)
  omega

theorem oIdx_eq (g : TGeom) (oi oj i j : Nat) :
    g.oIdx oi oj i j = (oi * g.s1 + i) * g.outJ + (oj * g.s2 + j) := by
  unfold TGeom.oIdx; ring

theorem row_lt (g : TGeom) {oi i : Nat} (h : oi < g.inI) (hi : i < g.kI) : oi * g.s1 + i < g.outI :=
  spread_lt h hi

theorem col_lt (g : TGeom) {oj j : Nat} (h : oj < g.inJ) (hj : j < g.kJ) : oj * g.s2 + j < g.outJ :=
  spread_lt h hj

theorem oIdx_lt (g : TGeom) {oi oj i j : Nat} (h1 : oi < g.inI) (h2 : oj < g.inJ) (hi : i < g.kI)
    (hj : j < g.kJ) : g.oIdx oi oj i j < g.outI * g.outJ := by
  rw [oIdx_eq]
  exact Vec.idx_lt (row_lt g h1 hi) (col_lt g h2 hj)

/-! ### Forward -/

/-- The scatter steps. -/
def steps (g : TGeom) : Finset (Nat × Nat × Nat × Nat × Nat) :=
  range g.inI ×ˢ range g.inJ ×ˢ range g.ch ×ˢ range g.kI ×ˢ range g.kJ
/-- Output cell of a step. -/
def oOf (g : TGeom) (τ : Nat × Nat × Nat × Nat × Nat) : Nat := g.oIdx τ.1 τ.2.1 τ.2.2.2.1 τ.2.2.2.2
/-- Input cell of a step. -/
def xOf (g : TGeom) (τ : Nat × Nat × Nat × Nat × Nat) : Nat := ix3 g.inI g.inJ τ.2.2.1 τ.1 τ.2.1
/-- Kernel cell of a step. -/
def kOf (g : TGeom) (τ : Nat × Nat × Nat × Nat × Nat) : Nat := ix3 g.kI g.kJ τ.2.2.1 τ.2.2.2.1 τ.2.2.2.2

theorem scatter_eq (g : TGeom) (x k out : Arr R)
    (hx : g.ch * g.inI * g.inJ ≤ x.len) (hk : g.ch * g.kI * g.kJ ≤ k.len)
    (ho : g.outI * g.outJ ≤ out.len) :
    scatter g x k out = some ⟨out.len, fun u => out.get u + ∑ τ ∈ steps g,
      if u = oOf g τ then x.get (xOf g τ) * k.get (kOf g τ) else 0⟩ := by
  have h : scatter g x k out = some ⟨out.len, out.get + ∑ oi ∈ range g.inI, ∑ oj ∈ range g.inJ,
      ∑ c ∈ range g.ch, ∑ i ∈ range g.kI, ∑ j ∈ range g.kJ, Pi.single (g.oIdx oi oj i j)
        (x.get (ix3 g.inI g.inJ c oi oj) * k.get (ix3 g.kI g.kJ c i j))⟩ := by
    refine loop_act (Arr.mk out.len) _ ?_ out.get
    intro oi hoi m
    refine loop_act (Arr.mk out.len) _ ?_ m
    intro oj hoj m
    refine loop_act (Arr.mk out.len) _ ?_ m
    intro c hc m
    refine loop_act (Arr.mk out.len) _ ?_ m
    intro i hi m
    refine loop_act (Arr.mk out.len) _ ?_ m
    intro j hj m
    have h1 : g.kIdx c i j < g.ch * g.kI * g.kJ := ix3_lt hc hi hj
    have h2 : g.xIdx c oi oj < g.ch * g.inI * g.inJ := ix3_lt hc hoi hoj
    have h3 := oIdx_lt g hoi hoj hi hj
    rw [Arr.read_eq (by omega), Arr.read_eq (by omega)]
    simp only [Option.bind_eq_bind, Option.bind_some]
    rw [Arr.addAt_mk _ _ _ (by omega)]
    rfl
  rw [h]
  congr 2
  funext u
  simp only [Pi.add_apply, Finset.sum_apply, Pi.single_apply, steps, Finset.sum_product, oOf, xOf, kOf]
  rfl

theorem tconv_steps (g : TGeom) (x k : Nat → R) (p q : Nat) (hq : q < g.outJ) :
    ∑ τ ∈ steps g, (if p * g.outJ + q = oOf g τ then x (xOf g τ) * k (kOf g τ) else 0) =
      tconv g x k p q := by
  unfold steps tconv
  simp only [Finset.sum_product, oOf, xOf, kOf]
  refine Finset.sum_congr rfl fun oi _ => Finset.sum_congr rfl fun oj hoj =>
    Finset.sum_congr rfl fun c _ => Finset.sum_congr rfl fun i _ => Finset.sum_congr rfl fun j hj => ?_
  refine if_congr ?_ rfl rfl
  rw [oIdx_eq]
  exact ix2_inj hq (col_lt g (Finset.mem_range.1 hoj) (Finset.mem_range.1 hj))

/-- **C67, geometry.** The uncropped output is exactly as large as needed: a
row (column) is inside if and only if some input row and kernel row reach it or
go beyond it. -/
theorem C67_sizes (g : TGeom) (hg : g.Ok) (hI : 0 < g.kI) (hJ : 0 < g.kJ) :
    (∀ p, p < g.outI ↔ ∃ oi i, oi < g.inI ∧ i < g.kI ∧ p ≤ oi * g.s1 + i) ∧
    (∀ q, q < g.outJ ↔ ∃ oj j, oj < g.inJ ∧ j < g.kJ ∧ q ≤ oj * g.s2 + j) := by
  obtain ⟨h1, h2⟩ := hg
  constructor
  · refine fun p => ⟨fun h => ⟨g.inI - 1, g.kI - 1, by omega, by omega, ?_⟩, ?_⟩
    · unfold TGeom.outI at h; omega
    · rintro ⟨oi, i, a, b, c⟩
      exact lt_of_le_of_lt c (row_lt g a b)
  · refine fun p => ⟨fun h => ⟨g.inJ - 1, g.kJ - 1, by omega, by omega, ?_⟩, ?_⟩
    · unfold TGeom.outJ at h; omega
    · rintro ⟨oi, i, a, b, c⟩
      exact lt_of_le_of_lt c (col_lt g a b)

example : (⟨2, 2, 3, 3, 1, 2, 2, 0⟩ : TGeom).Ok ∧ (⟨2, 2, 3, 3, 1, 2, 2, 0⟩ : TGeom).outI = 5 :=
  ⟨⟨by decide, by decide⟩, by decide⟩

/-- **C67, forward.** The transposed convolution stays in bounds. Without
padding it adds to each cell of the output the full transposed convolution and
the bias; with padding it stores the central part of it, plus the bias. Nothing past the
output is touched. -/
theorem C67_forward (g : TGeom) (x k out : Arr R) (bias : R)
    (hx : g.ch * g.inI * g.inJ ≤ x.len) (hk : g.ch * g.kI * g.kJ ≤ k.len)
    (ho : (g.outI - 2 * g.pad) * (g.outJ - 2 * g.pad) ≤ out.len) :
    ∃ out', ff g x k bias out = some out' ∧ out'.len = out.len ∧
      (∀ p q, p < g.outI - 2 * g.pad → q < g.outJ - 2 * g.pad →
        out'.get (p * (g.outJ - 2 * g.pad) + q) =
          (if g.pad = 0 then out.get (p * (g.outJ - 2 * g.pad) + q) else 0) +
            tconv g x.get k.get (g.pad + p) (g.pad + q) + bias) ∧
      ∀ u, (g.outI - 2 * g.pad) * (g.outJ - 2 * g.pad) ≤ u → out'.get u = out.get u := by
  unfold ff
  by_cases hp : g.pad = 0
  · rw [if_pos hp]
    simp only [hp, Nat.mul_zero, Nat.sub_zero, if_true, Nat.zero_add] at ho ⊢
    rw [scatter_eq g x k out hx hk ho]
    simp only [Option.bind_eq_bind, Option.bind_some]
    rw [loop_add (fun i u => if u = i then bias else 0)]
    · refine ⟨_, rfl, rfl, fun p q hp' hq => ?_, fun u hu => ?_⟩
      · simp only [Finset.sum_ite_eq, Finset.mem_range, if_pos (Vec.idx_lt hp' hq)]
        rw [tconv_steps g _ _ p q hq]
      · simp only [Finset.sum_ite_eq, Finset.mem_range, if_neg (Nat.not_lt.2 hu), add_zero]
        rw [Finset.sum_eq_zero, add_zero]
        intro τ hτ
        simp only [steps, Finset.mem_product, Finset.mem_range] at hτ
        have := oIdx_lt g hτ.1 hτ.2.1 hτ.2.2.2.1 hτ.2.2.2.2
        rw [if_neg]
        intro h
        rw [h] at hu
        exact absurd this (Nat.not_lt.2 hu)
    · intro i hi b hb
      rw [Arr.addAt_eq' _ (by dsimp only at hb; omega)]
  · rw [if_neg hp, scatter_eq g x k _ hx hk (by simp)]
    simp only [Option.bind_eq_bind, Option.bind_some, zero_add]
    have hA : g.outI - g.pad - g.pad = g.outI - 2 * g.pad := by omega
    have hB : g.outJ - g.pad - g.pad = g.outJ - 2 * g.pad := by omega
    obtain ⟨out', e', h1, h2, h3⟩ := loop2_write (A := g.outI - 2 * g.pad) (B := g.outJ - 2 * g.pad)
      (f := fun r s out => ((⟨g.outI * g.outJ, fun u => ∑ τ ∈ steps g,
          if u = oOf g τ then x.get (xOf g τ) * k.get (kOf g τ) else 0⟩ : Arr R).read
            ((g.pad + r) * g.outJ + (g.pad + s))).bind fun t =>
          out.write ((g.pad + r - g.pad) * (g.outJ - 2 * g.pad) + (g.pad + s) - g.pad) (t + bias))
      (fun r s => r * (g.outJ - 2 * g.pad) + s)
      (fun r s => tconv g x.get k.get (g.pad + r) (g.pad + s) + bias) out
      (by
        intro r hr s hs b hb
        rw [Arr.read_mk _ _ (Vec.idx_lt (by omega) (by omega))]
        simp only [Option.bind_some]
        rw [tconv_steps g _ _ _ _ (by omega)]
        congr 1
        rw [Nat.add_sub_cancel_left]
        omega)
      (by
        intro r hr s hs
        exact lt_of_lt_of_le (Vec.idx_lt hr hs) ho)
      (by
        intro r hr s hs r' hr' s' hs' h
        exact Vec.idx_inj hs hs' h)
    refine ⟨out', ?_, h1, ?_, ?_⟩
    · unfold loopFrom
      rw [hA, hB]
      exact e'
    · intro p q hp' hq
      rw [h2 p hp' q hq, if_neg hp, zero_add]
    · intro u hu
      refine h3 u fun r hr s hs hc => ?_
      have := Vec.idx_lt hr hs
      omega

/-- Non-vacuity: a 2×2 image, 2×2 kernel, stride 1, cropped by 1 to one cell. -/
example : ((ff ⟨2, 2, 2, 2, 1, 1, 1, 1⟩ (Arr.ofList [1, 2, 3, 4]) (Arr.ofList [1, 10, 100, 1000]) 5
    (⟨1, fun _ => 7⟩ : Arr Int)).map fun a => a.get 0) = some 1239 := by decide

/-! ### Backward -/

/-- The upstream error put back in the full frame. -/
def full (g : TGeom) (e : Nat → R) (u : Nat) : R :=
  if (g.pad ≤ u / g.outJ ∧ u / g.outJ < g.outI - g.pad) ∧
      (g.pad ≤ u % g.outJ ∧ u % g.outJ < g.outJ - g.pad) then
    e ((u / g.outJ - g.pad) * (g.outJ - 2 * g.pad) + (u % g.outJ - g.pad)) else 0

theorem full_at (g : TGeom) (e : Nat → R) (p q : Nat) (hq : q < g.outJ) :
    full g e (p * g.outJ + q) = if (g.pad ≤ p ∧ p < g.outI - g.pad) ∧ (g.pad ≤ q ∧ q < g.outJ - g.pad) then
      e ((p - g.pad) * (g.outJ - 2 * g.pad) + (q - g.pad)) else 0 := by
  unfold full
  rw [Nat.mul_comm p, Nat.mul_add_div (by omega), Nat.mul_add_mod, Nat.div_eq_of_lt hq,
    Nat.mod_eq_of_lt hq, Nat.add_zero]

theorem full_zero (g : TGeom) (e : Nat → R) (hp : g.pad = 0) (u : Nat) (hu : u < g.outI * g.outJ) :
    full g e u = e u := by
  have hJ : 0 < g.outJ := by
    rcases Nat.eq_zero_or_pos g.outJ with h | h
    · rw [h] at hu; simp at hu
    · exact h
  have h1 : u / g.outJ < g.outI := Nat.div_lt_of_lt_mul (by rwa [Nat.mul_comm])
  have h2 := Nat.mod_lt u hJ
  unfold full
  simp only [hp, Nat.zero_le, true_and, Nat.sub_zero, Nat.mul_zero]
  rw [if_pos ⟨h1, h2⟩, Nat.div_add_mod']

theorem frame_eq (g : TGeom) (e : Arr R)
    (he : (g.outI - 2 * g.pad) * (g.outJ - 2 * g.pad) ≤ e.len) :
    ∃ t, frame g e = some t ∧ t.len = g.outI * g.outJ ∧
      ∀ u, u < g.outI * g.outJ → t.get u = full g e.get u := by
  have hA : g.outI - g.pad - g.pad = g.outI - 2 * g.pad := by omega
  have hB : g.outJ - g.pad - g.pad = g.outJ - 2 * g.pad := by omega
  obtain ⟨t, e', h1, h2, h3⟩ := loop2_write (A := g.outI - 2 * g.pad) (B := g.outJ - 2 * g.pad)
    (f := fun r s t => (e.read ((g.pad + r - g.pad) * (g.outJ - 2 * g.pad) + (g.pad + s) - g.pad)).bind
      fun ev => t.write ((g.pad + r) * g.outJ + (g.pad + s)) ev)
    (fun r s => (g.pad + r) * g.outJ + (g.pad + s))
    (fun r s => e.get (r * (g.outJ - 2 * g.pad) + s)) ⟨g.outI * g.outJ, fun _ => 0⟩
    (by
      intro r hr s hs b hb
      have h := lt_of_lt_of_le (Vec.idx_lt hr hs) he
      rw [Nat.add_sub_cancel_left]
      have h' : r * (g.outJ - 2 * g.pad) + (g.pad + s) - g.pad = r * (g.outJ - 2 * g.pad) + s := by omega
      rw [h', Arr.read_eq h]
      rfl)
    (by
      intro r hr s hs
      exact Vec.idx_lt (by omega) (by omega))
    (by
      intro r hr s hs r' hr' s' hs' h
      have := Vec.idx_inj (by omega) (by omega) h
      omega)
  refine ⟨t, ?_, h1, ?_⟩
  · unfold frame loopFrom
    rw [hA, hB]
    exact e'
  · intro u hu
    have hJ : 0 < g.outJ := by
      rcases Nat.eq_zero_or_pos g.outJ with h | h
      · rw [h] at hu; simp at hu
      · exact h
    have hue : u / g.outJ * g.outJ + u % g.outJ = u := Nat.div_add_mod' u g.outJ
    unfold full
    split_ifs with h
    · obtain ⟨⟨a1, a2⟩, a3, a4⟩ := h
      have := h2 (u / g.outJ - g.pad) (by omega) (u % g.outJ - g.pad) (by omega)
      rw [Nat.add_sub_cancel' a1, Nat.add_sub_cancel' a3, hue] at this
      exact this
    · apply h3
      intro r hr s hs hc
      apply h
      rw [← hue] at hc
      have := Vec.idx_inj (Nat.mod_lt u hJ) (by omega) hc
      omega

theorem weighted_full (g : TGeom) (e x k : Nat → R) (bias : R) :
    weighted g e x k bias = (∑ u ∈ range (g.outI * g.outJ), full g e u) * bias +
      ∑ τ ∈ steps g, full g e (oOf g τ) * (x (xOf g τ) * k (kOf g τ)) := by
  have h1 : ∑ u ∈ range (g.outI * g.outJ), full g e u * (bias + ∑ τ ∈ steps g,
      if u = oOf g τ then x (xOf g τ) * k (kOf g τ) else 0) = weighted g e x k bias := by
    rw [sum_rows]
    have hw : weighted g e x k bias = ∑ p ∈ range (g.outI - 2 * g.pad),
        (fun y => ∑ q ∈ range (g.outJ - 2 * g.pad), e ((y - g.pad) * (g.outJ - 2 * g.pad) + q) *
          (tconv g x k y (g.pad + q) + bias)) (g.pad + p) := by
      unfold weighted
      simp only [Nat.add_sub_cancel_left]
    rw [hw]
    refine Eq.trans ?_ (sum_window g.outI g.pad (fun y => ∑ q ∈ range (g.outJ - 2 * g.pad),
      e ((y - g.pad) * (g.outJ - 2 * g.pad) + q) * (tconv g x k y (g.pad + q) + bias)))
    refine Finset.sum_congr rfl fun p hp => ?_
    have hin : ∀ q ∈ range g.outJ, full g e (p * g.outJ + q) * (bias + ∑ τ ∈ steps g,
        if p * g.outJ + q = oOf g τ then x (xOf g τ) * k (kOf g τ) else 0) =
        if g.pad ≤ q ∧ q < g.outJ - g.pad then
          (if g.pad ≤ p ∧ p < g.outI - g.pad then
            e ((p - g.pad) * (g.outJ - 2 * g.pad) + (q - g.pad)) * (tconv g x k p q + bias) else 0) else 0 := by
      intro q hq
      have hq' := Finset.mem_range.1 hq
      rw [tconv_steps g x k p q hq', full_at g e p q hq', add_comm bias]
      by_cases ha : g.pad ≤ p ∧ p < g.outI - g.pad <;> by_cases hb : g.pad ≤ q ∧ q < g.outJ - g.pad
      · rw [if_pos ⟨ha, hb⟩, if_pos hb, if_pos ha]
      · rw [if_neg (fun h => hb h.2), if_neg hb, zero_mul]
      · rw [if_neg (fun h => ha h.1), if_pos hb, if_neg ha, zero_mul]
      · rw [if_neg (fun h => hb h.2), if_neg hb, zero_mul]
    rw [Finset.sum_congr rfl hin, sum_window]
    by_cases ha : g.pad ≤ p ∧ p < g.outI - g.pad
    · simp only [if_pos ha]
      refine Finset.sum_congr rfl fun q _ => ?_
      rw [Nat.add_sub_cancel_left]
    · simp [ha]
  rw [← h1, weighted_terms (steps g) (oOf g) (g.outI * g.outJ) _ (full g e) (fun _ => bias), Finset.sum_mul]
  intro τ hτ
  simp only [steps, Finset.mem_product, Finset.mem_range] at hτ
  exact oIdx_lt g hτ.1 hτ.2.1 hτ.2.2.2.1 hτ.2.2.2.2

private def act (a b : Nat) (m : (Nat → R) × (Nat → R)) : Arr R × Arr R := (⟨a, m.1⟩, ⟨b, m.2⟩)

theorem gather_eq (g : TGeom) (x k e ke ie : Arr R)
    (hx : g.ch * g.inI * g.inJ ≤ x.len) (hk : g.ch * g.kI * g.kJ ≤ k.len)
    (he : g.outI * g.outJ ≤ e.len) (hke : g.ch * g.kI * g.kJ ≤ ke.len)
    (hie : g.ch * g.inI * g.inJ ≤ ie.len) :
    gather g x k e (ke, ie) = some
      (⟨ke.len, fun q => ke.get q + ∑ τ ∈ steps g,
        if q = kOf g τ then e.get (oOf g τ) * x.get (xOf g τ) else 0⟩,
       ⟨ie.len, fun p => ie.get p + ∑ τ ∈ steps g,
        if p = xOf g τ then e.get (oOf g τ) * k.get (kOf g τ) else 0⟩) := by
  have h : gather g x k e (act ke.len ie.len (ke.get, ie.get)) = some (act ke.len ie.len
      ((ke.get, ie.get) + ∑ oi ∈ range g.inI, ∑ oj ∈ range g.inJ,
      ∑ c ∈ range g.ch, ∑ i ∈ range g.kI, ∑ j ∈ range g.kJ,
        (Pi.single (ix3 g.kI g.kJ c i j) (e.get (g.oIdx oi oj i j) * x.get (ix3 g.inI g.inJ c oi oj)),
         Pi.single (ix3 g.inI g.inJ c oi oj) (e.get (g.oIdx oi oj i j) * k.get (ix3 g.kI g.kJ c i j))))) := by
    refine loop_act (act ke.len ie.len) _ ?_ _
    intro oi hoi m
    refine loop_act (act ke.len ie.len) _ ?_ m
    intro oj hoj m
    refine loop_act (act ke.len ie.len) _ ?_ m
    intro c hc m
    refine loop_act (act ke.len ie.len) _ ?_ m
    intro i hi m
    refine loop_act (act ke.len ie.len) _ ?_ m
    intro j hj m
    have h1 : g.kIdx c i j < g.ch * g.kI * g.kJ := ix3_lt hc hi hj
    have h2 : g.xIdx c oi oj < g.ch * g.inI * g.inJ := ix3_lt hc hoi hoj
    have h3 := oIdx_lt g hoi hoj hi hj
    rw [Arr.read_eq (by omega), Arr.read_eq (by omega), Arr.read_eq (by omega)]
    simp only [Option.bind_eq_bind, Option.bind_some, act]
    rw [Arr.addAt_mk _ _ _ (by omega)]
    simp only [Option.bind_some]
    rw [Arr.addAt_mk _ _ _ (by omega), mul_comm (k.get _), mul_comm (x.get _)]
    rfl
  refine Eq.trans h ?_
  simp only [act]
  congr 4
  · funext q
    simp only [Prod.fst_add, Prod.fst_sum, Pi.add_apply, Finset.sum_apply, Pi.single_apply, steps,
      Finset.sum_product, oOf, xOf, kOf]
    rfl
  · funext q
    simp only [Prod.snd_add, Prod.snd_sum, Pi.add_apply, Finset.sum_apply, Pi.single_apply, steps,
      Finset.sum_product, oOf, xOf, kOf]
    rfl

theorem biasSum_eq (g : TGeom) (e : Arr R) (he : g.outI * g.outJ ≤ e.len) (hasBias : Bool) (be : R) :
    biasSum g e hasBias be = some (be + if hasBias then ∑ u ∈ range (g.outI * g.outJ), e.get u else 0) := by
  unfold biasSum
  cases hasBias with
  | true =>
    simp only [if_true]
    apply loop_sum
    intro i hi t
    rw [Arr.read_eq (by omega)]
    rfl
  | false => simp

/-- **C67, backward.** Padded or not, the backward pass stays in bounds and
adds to the kernel, input and bias errors the partial derivatives of the
error-weighted (cropped) transposed convolution. -/
theorem C67_backward (g : TGeom) (x k e ke ie : Arr ℝ) (bias be : ℝ) (hasBias : Bool)
    (hx : g.ch * g.inI * g.inJ ≤ x.len) (hk : g.ch * g.kI * g.kJ ≤ k.len)
    (he : (g.outI - 2 * g.pad) * (g.outJ - 2 * g.pad) ≤ e.len)
    (hke : g.ch * g.kI * g.kJ ≤ ke.len) (hie : g.ch * g.inI * g.inJ ≤ ie.len) :
    ∃ ke' ie' be', bp g x k e hasBias (ke, ie, be) = some (ke', ie', be') ∧
      (ke'.len = ke.len ∧ ie'.len = ie.len) ∧
      (∀ q, HasDerivAt (fun t => weighted g e.get x.get (Function.update k.get q t) bias)
        (ke'.get q - ke.get q) (k.get q)) ∧
      (∀ p, HasDerivAt (fun t => weighted g e.get (Function.update x.get p t) k.get bias)
        (ie'.get p - ie.get p) (x.get p)) ∧
      (hasBias = true → HasDerivAt (fun t => weighted g e.get x.get k.get t) (be' - be) bias) ∧
      (hasBias = false → be' = be) := by
  obtain ⟨e', he1, he2, he3⟩ : ∃ e', (if g.pad = 0 then some e else frame g e) = some e' ∧
      g.outI * g.outJ ≤ e'.len ∧ ∀ u, u < g.outI * g.outJ → e'.get u = full g e.get u := by
    by_cases hp : g.pad = 0
    · rw [if_pos hp]
      simp only [hp, Nat.mul_zero, Nat.sub_zero] at he
      exact ⟨e, rfl, he, fun u hu => (full_zero g e.get hp u hu).symm⟩
    · rw [if_neg hp]
      obtain ⟨t, h1, h2, h3⟩ := frame_eq g e he
      exact ⟨t, h1, by omega, h3⟩
  have hbp : bp g x k e hasBias (ke, ie, be) = some
      (⟨ke.len, fun q => ke.get q + ∑ τ ∈ steps g,
        if q = kOf g τ then e'.get (oOf g τ) * x.get (xOf g τ) else 0⟩,
       ⟨ie.len, fun p => ie.get p + ∑ τ ∈ steps g,
        if p = xOf g τ then e'.get (oOf g τ) * k.get (kOf g τ) else 0⟩,
       be + if hasBias then ∑ u ∈ range (g.outI * g.outJ), e'.get u else 0) := by
    unfold bp
    rw [he1]
    simp only [Option.bind_eq_bind, Option.bind_some]
    rw [gather_eq g x k e' ke ie hx hk he2 hke hie]
    simp only [Option.bind_some]
    rw [biasSum_eq g e' he2]
    exact rfl
  have hE : ∀ τ ∈ steps g, e'.get (oOf g τ) = full g e.get (oOf g τ) := by
    intro τ hτ
    apply he3
    simp only [steps, Finset.mem_product, Finset.mem_range] at hτ
    exact oIdx_lt g hτ.1 hτ.2.1 hτ.2.2.2.1 hτ.2.2.2.2
  refine ⟨_, _, _, hbp, ⟨rfl, rfl⟩, ?_, ?_, ?_, ?_⟩
  · intro q
    simp only [weighted_full, add_sub_cancel_left]
    refine (steps_deriv_w (steps g) (oOf g) (xOf g) (kOf g) (full g e.get) x.get k.get _ q).congr_deriv ?_
    refine Finset.sum_congr rfl fun τ hτ => ?_
    rw [hE τ hτ]
  · intro p
    simp only [weighted_full, add_sub_cancel_left]
    refine (steps_deriv_x (steps g) (oOf g) (xOf g) (kOf g) (full g e.get) x.get k.get _ p).congr_deriv ?_
    refine Finset.sum_congr rfl fun τ hτ => ?_
    rw [hE τ hτ]
  · intro hb
    simp only [weighted_full]
    have := ((hasDerivAt_id bias).const_mul (∑ u ∈ range (g.outI * g.outJ), full g e.get u)).add_const
      (∑ τ ∈ steps g, full g e.get (oOf g τ) * (x.get (xOf g τ) * k.get (kOf g τ)))
    refine this.congr_deriv ?_
    simp only [hb, if_true, add_sub_cancel_left, mul_one]
    exact Finset.sum_congr rfl fun u hu => (he3 u (Finset.mem_range.1 hu)).symm
  · intro hb
    simp [hb]

/-- Non-vacuity: the cropped geometry used above. -/
example : ((bp ⟨2, 2, 2, 2, 1, 1, 1, 1⟩ (Arr.ofList [1, 2, 3, 4]) (Arr.ofList [1, 10, 100, 1000])
    (⟨1, fun _ => 2⟩ : Arr Int) true (⟨4, fun _ => 0⟩, ⟨4, fun _ => 0⟩, 0)).map
      fun s => ((List.range 4).map s.1.get, (List.range 4).map s.2.1.get, s.2.2))
    = some ([8, 6, 4, 2], [2000, 200, 20, 2], 2) := by decide

/-! ### Adjointness -/

/-- Kernel of channel `c`. -/
def chan (g : TGeom) (k : Arr R) (c : Nat) : Arr R := ⟨g.kI * g.kJ, fun q => k.get (c * g.kI * g.kJ + q)⟩

/-- The convolution whose transpose is considered: one input channel of the
size of the transposed convolution's output, no padding. -/
def convGeom (g : TGeom) : Conv.Geom := ⟨g.outI, g.outJ, g.kI, g.kJ, 1, g.s1, g.s2, 0⟩

/-- **C28.** Unpadded transposed convolution is the adjoint of convolution:
pairing an arbitrary `y` with the convolutions of `x` (one per kernel channel)
gives the same number as pairing `x` with the transposed convolution of `y`.
Both sides run the modelled C loops from zeroed outputs with bias zero. -/
theorem C28_adjoint (g : TGeom) (hg : g.Ok) (hp : g.pad = 0) (h1 : 0 < g.s1) (h2 : 0 < g.s2)
    (x y k : Arr R) (hx : g.outI * g.outJ ≤ x.len) (hy : g.ch * g.inI * g.inJ ≤ y.len)
    (hk : g.ch * g.kI * g.kJ ≤ k.len) :
    ∃ (a : Nat → Arr R) (b : Arr R),
      (∀ c, c < g.ch → Conv.ff (convGeom g) x (chan g k c) 0 ⟨g.inI * g.inJ, fun _ => 0⟩ = some (a c)) ∧
      ff g y k 0 ⟨g.outI * g.outJ, fun _ => 0⟩ = some b ∧
      ∑ c ∈ range g.ch, ∑ u ∈ range (g.inI * g.inJ), y.get (c * (g.inI * g.inJ) + u) * (a c).get u =
        ∑ u ∈ range (g.outI * g.outJ), x.get u * b.get u := by
  obtain ⟨hI, hJ⟩ := hg
  have nI : (convGeom g).nI = g.inI := by
    simp only [Conv.Geom.nI, convGeom, TGeom.outI, Nat.add_sub_cancel]
    rw [Nat.mul_div_cancel _ h1]; omega
  have nJ : (convGeom g).nJ = g.inJ := by
    simp only [Conv.Geom.nJ, convGeom, TGeom.outJ, Nat.add_sub_cancel]
    rw [Nat.mul_div_cancel _ h2]; omega
  have oI : (convGeom g).outI = g.inI := by
    simp only [Conv.Geom.outI, convGeom, TGeom.outI, Nat.add_sub_cancel]
    rw [Nat.mul_div_cancel _ h1]; omega
  have oJ : (convGeom g).outJ = g.inJ := by
    simp only [Conv.Geom.outJ, convGeom, TGeom.outJ, Nat.add_sub_cancel]
    rw [Nat.mul_div_cancel _ h2]; omega
  have hok : (convGeom g).Ok := ⟨by simp [convGeom, TGeom.outI], by simp [convGeom, TGeom.outJ], h1, h2⟩
  have hconv : ∀ c, ∃ a, Conv.ff (convGeom g) x (chan g k c) 0 ⟨g.inI * g.inJ, fun _ => 0⟩ = some a ∧
      ∀ r s, r < g.inI → s < g.inJ →
        a.get (r * g.inJ + s) = Conv.corr (convGeom g) x.get (chan g k c).get 0 r s := by
    intro c
    obtain ⟨a, e, -, h3, -⟩ := Conv.C26_feed_forward (convGeom g) hok x (chan g k c)
      ⟨g.inI * g.inJ, fun _ => 0⟩ 0 (by simpa [convGeom] using hx) (by simp [convGeom, chan])
      (by rw [oI, oJ])
    refine ⟨a, e, fun r s hr hs => ?_⟩
    have := h3 r s (by rw [nI]; exact hr) (by rw [nJ]; exact hs)
    simp only [Conv.cell, oJ, zero_add] at this
    simpa [convGeom] using this
  choose a ha1 ha2 using hconv
  obtain ⟨b, hb1, -, hb2, -⟩ := C67_forward g y k ⟨g.outI * g.outJ, fun _ => 0⟩ 0 hy hk
    (by rw [hp]; simp)
  refine ⟨a, b, fun c _ => ha1 c, hb1, ?_⟩
  simp only [hp, Nat.mul_zero, Nat.sub_zero, if_true, zero_add, add_zero] at hb2
  -- left-hand side
  have hL : ∀ c ∈ range g.ch, ∑ u ∈ range (g.inI * g.inJ), y.get (c * (g.inI * g.inJ) + u) * (a c).get u =
      ∑ oi ∈ range g.inI, ∑ oj ∈ range g.inJ, ∑ i ∈ range g.kI, ∑ j ∈ range g.kJ,
        x.get (g.oIdx oi oj i j) * (y.get (ix3 g.inI g.inJ c oi oj) * k.get (ix3 g.kI g.kJ c i j)) := by
    intro c _
    rw [sum_rows]
    refine Finset.sum_congr rfl fun oi hoi => Finset.sum_congr rfl fun oj hoj => ?_
    rw [ha2 c oi oj (Finset.mem_range.1 hoi) (Finset.mem_range.1 hoj)]
    simp only [Conv.corr, convGeom, Finset.sum_range_one, add_zero, Finset.mul_sum]
    refine Finset.sum_congr rfl fun i hi => Finset.sum_congr rfl fun j hj => ?_
    have e1 : ix3 g.outI g.outJ 0 (oi * g.s1 + i) (oj * g.s2 + j) = g.oIdx oi oj i j := by
      rw [oIdx_eq]; simp [ix3]
    have e2 : c * (g.inI * g.inJ) + (oi * g.inJ + oj) = ix3 g.inI g.inJ c oi oj := by
      unfold ix3; ring
    have e3 : (chan g k c).get (ix3 g.kI g.kJ 0 i j) = k.get (ix3 g.kI g.kJ c i j) := by
      simp only [chan, ix3]; congr 1; ring
    rw [e1, e2, e3]; ring
  rw [Finset.sum_congr rfl hL]
  -- right-hand side
  have hR : ∀ u ∈ range (g.outI * g.outJ), x.get u * b.get u = x.get u * (0 + ∑ τ ∈ steps g,
      if u = oOf g τ then y.get (xOf g τ) * k.get (kOf g τ) else 0) := by
    intro u hu
    have hu' := Finset.mem_range.1 hu
    have hJ : 0 < g.outJ := by
      rcases Nat.eq_zero_or_pos g.outJ with h | h
      · rw [h] at hu'; simp at hu'
      · exact h
    have hue : u / g.outJ * g.outJ + u % g.outJ = u := Nat.div_add_mod' u g.outJ
    have := hb2 (u / g.outJ) (u % g.outJ) (Nat.div_lt_of_lt_mul (by rwa [Nat.mul_comm])) (Nat.mod_lt u hJ)
    rw [hue] at this
    rw [this, zero_add, ← tconv_steps g _ _ _ _ (Nat.mod_lt u hJ), hue]
  rw [Finset.sum_congr rfl hR, weighted_terms (steps g) (oOf g) (g.outI * g.outJ)]
  · simp only [mul_zero, Finset.sum_const_zero, zero_add, steps, Finset.sum_product, oOf, xOf, kOf]
    rw [Finset.sum_comm]
    refine Finset.sum_congr rfl fun oi _ => ?_
    rw [Finset.sum_comm]
  · intro τ hτ
    simp only [steps, Finset.mem_product, Finset.mem_range] at hτ
    exact oIdx_lt g hτ.1 hτ.2.1 hτ.2.2.2.1 hτ.2.2.2.2

/-- Non-vacuity: two channels, 2×2 input, 2×3 kernel, strides 2 and 1. -/
example : (⟨2, 2, 2, 3, 2, 2, 1, 0⟩ : TGeom).Ok ∧ (⟨2, 2, 2, 3, 2, 2, 1, 0⟩ : TGeom).outI = 4 ∧
    (⟨2, 2, 2, 3, 2, 2, 1, 0⟩ : TGeom).outJ = 4 := ⟨⟨by decide, by decide⟩, rfl, rfl⟩

end LLab.TConv
