import Verif.Common.Loop2
import Verif.Layers.Conv
import Mathlib.Analysis.Calculus.Deriv.Add
import Mathlib.Order.Filter.Finite

/-!
Pooling (`/repo/src/convolutional.c` 453-594). Properties C29, C30.
-/

namespace LLab.Pool

open Finset

variable {α : Type} [Field α] [LinearOrder α]

/-- The integer parameters of the pooling functions. -/
structure PGeom where
  /-- `input_i`, `input_j` -/
  (inI inJ : Nat)
  /-- `sub_pool_i`, `sub_pool_j` -/
  (kI kJ : Nat)
  /-- `stride1`, `stride2` -/
  (s1 s2 : Nat)
  /-- `padding` -/
  pad : Nat

namespace PGeom
/-- `output_i - 2*padding` (`/repo/src/convolutional.c` 455, 459), for
`sub_pool_i <= input_i` and `stride1 > 0`. -/
def nI (g : PGeom) : Nat := (g.inI - g.kI) / g.s1 + 1
/-- `output_j - 2*padding` (456, 460). -/
def nJ (g : PGeom) : Nat := (g.inJ - g.kJ) / g.s2 + 1
/-- `output_i` (455). -/
def outI (g : PGeom) : Nat := g.nI + 2 * g.pad
/-- `output_j` (456). -/
def outJ (g : PGeom) : Nat := g.nJ + 2 * g.pad
/-- Subscript `input_j*(i*stride1+k1) + j*stride2 + k2`. -/
def xIdx (g : PGeom) (i j k1 k2 : Nat) : Nat := g.inJ * (i * g.s1 + k1) + j * g.s2 + k2
/-- Subscript `(padding+i)*output_j+padding+j`. -/
def oIdx (g : PGeom) (i j : Nat) : Nat := (g.pad + i) * g.outJ + g.pad + j
/-- A window of positive size that fits in the input. -/
structure Ok (g : PGeom) : Prop where
  (hI : g.kI ≤ g.inI)
  (hJ : g.kJ ≤ g.inJ)
  (pI : 0 < g.kI)
  (pJ : 0 < g.kJ)
end PGeom

/-! ### Model -/

/-- The window scan (`/repo/src/convolutional.c` 461-466). -/
def scanMax (g : PGeom) (x : Arr α) (i j : Nat) (m : α) : Option α :=
  loop g.kI (fun k1 m => loop g.kJ (fun k2 m => do
    let v ← x.read (g.xIdx i j k1 k2)
    if m < v then some v else some m) m) m

/-- `max_pooling_feed_forward` (`/repo/src/convolutional.c` 453-473); the
state is `(max, output)`. -/
def maxFF (g : PGeom) (x out : Arr α) : Option (α × Arr α) :=
  loop g.nI (fun i st => loop g.nJ (fun j (st : α × Arr α) => do
    let m ← scanMax g x i j st.1
    let out ← st.2.write (g.oIdx i j) m
    some (-999999, out)) st) (-999999, out)

/-- The scan of the backward pass, which also records `(index1, index2)`
(`/repo/src/convolutional.c` 500-511). -/
def scanArg (g : PGeom) (x : Arr α) (i j : Nat) (st : α × Nat × Nat) : Option (α × Nat × Nat) :=
  loop g.kI (fun k1 st => loop g.kJ (fun k2 (st : α × Nat × Nat) => do
    let v ← x.read (g.xIdx i j k1 k2)
    if st.1 < v then some (v, k1, k2) else some st) st) st

/-- The write-back of one window (`/repo/src/convolutional.c` 513-524). -/
def writeArg (g : PGeom) (e : Arr α) (i j a b : Nat) (ie : Arr α) : Option (Arr α) :=
  loop g.kI (fun k1 ie => loop g.kJ (fun k2 ie =>
    if a = k1 ∧ b = k2 then do
      let v ← e.read (g.oIdx i j)
      ie.write (g.xIdx i j k1 k2) v
    else ie.write (g.xIdx i j k1 k2) 0) ie) ie

/-- `max_pooling_back_prop` (`/repo/src/convolutional.c` 492-528); the state is
`((max, index1, index2), input_error)`. `index1` and `index2` are not reset
between windows and `max` is reset to a smaller number than its start value. -/
def maxBP (g : PGeom) (x e ie : Arr α) : Option ((α × Nat × Nat) × Arr α) :=
  loop g.nI (fun i st => loop g.nJ (fun j (st : (α × Nat × Nat) × Arr α) => do
    let s ← scanArg g x i j st.1
    let ie ← writeArg g e i j s.2.1 s.2.2 st.2
    some ((-9999999, s.2.1, s.2.2), ie)) st) ((-999999, 0, 0), ie)

/-- `average_pooling_feed_forward` (`/repo/src/convolutional.c` 545-562); the
state is `(sum, output)`. -/
def avgFF (g : PGeom) (x out : Arr α) : Option (α × Arr α) :=
  loop g.nI (fun i st => loop g.nJ (fun j (st : α × Arr α) => do
    let m ← loop g.kI (fun k1 m => loop g.kJ (fun k2 m => do
      let v ← x.read (g.xIdx i j k1 k2)
      some (m + v)) m) st.1
    let out ← st.2.write (g.oIdx i j) (m / ((g.kI * g.kJ : Nat) : α))
    some (0, out)) st) (0, out)

/-- `average_pooling_back_prop` (`/repo/src/convolutional.c` 580-594). -/
def avgBP (g : PGeom) (e ie : Arr α) : Option (Arr α) :=
  loop g.nI (fun i ie => loop g.nJ (fun j ie =>
    loop g.kI (fun k1 ie => loop g.kJ (fun k2 ie => do
      let v ← e.read (g.oIdx i j)
      ie.write (g.xIdx i j k1 k2) (1 / ((g.kI * g.kJ : Nat) : α) * v)) ie) ie) ie) ie

/-! ### Specification -/

/-- Cell of window `(i, j)` at offset `(k1, k2)`, in row-major order. -/
def win (g : PGeom) (i j k1 k2 : Nat) : Nat := (i * g.s1 + k1) * g.inJ + (j * g.s2 + k2)

/-- Interior output cell `(i, j)` of the padded output, in row-major order. -/
def ocell (g : PGeom) (i j : Nat) : Nat := (g.pad + i) * g.outJ + (g.pad + j)

/-- Offsets inside a window. -/
def offs (g : PGeom) : Finset (Nat × Nat) := range g.kI ×ˢ range g.kJ

/-- Windows do not overlap. -/
def Disjoint (g : PGeom) : Prop := g.kI ≤ g.s1 ∧ g.kJ ≤ g.s2

/-! ### Indices -/

theorem xIdx_eq (g : PGeom) (i j k1 k2 : Nat) : g.xIdx i j k1 k2 = win g i j k1 k2 := by
  unfold PGeom.xIdx win; ring

theorem oIdx_eq (g : PGeom) (i j : Nat) : g.oIdx i j = ocell g i j := by
  unfold PGeom.oIdx ocell; ring

theorem win_lt {g : PGeom} (hg : g.Ok) {i j k1 k2 : Nat} (hi : i < g.nI) (hj : j < g.nJ)
    (h1 : k1 < g.kI) (h2 : k2 < g.kJ) : win g i j k1 k2 < g.inI * g.inJ :=
  Vec.idx_lt (Conv.stride_lt hg.hI hi h1) (Conv.stride_lt hg.hJ hj h2)

theorem ocell_lt (g : PGeom) {i j : Nat} (hi : i < g.nI) (hj : j < g.nJ) :
    ocell g i j < g.outI * g.outJ :=
  Vec.idx_lt (by unfold PGeom.outI; omega) (by unfold PGeom.outJ; omega)

theorem ocell_inj (g : PGeom) {i j i' j' : Nat} (hj : j < g.nJ) (hj' : j' < g.nJ)
    (h : ocell g i j = ocell g i' j') : i = i' ∧ j = j' := by
  have := Vec.idx_inj (by unfold PGeom.outJ; omega) (by unfold PGeom.outJ; omega) h
  omega

theorem spread_inj {s k r r' a b : Nat} (hk : k ≤ s) (ha : a < k) (hb : b < k)
    (h : r * s + a = r' * s + b) : r = r' ∧ a = b :=
  Vec.idx_inj (by omega) (by omega) h

theorem win_inj {g : PGeom} (hg : g.Ok) (hd : Disjoint g) {i j k1 k2 i' j' k1' k2' : Nat}
    (hj : j < g.nJ) (hj' : j' < g.nJ) (h1 : k1 < g.kI) (h2 : k2 < g.kJ) (h1' : k1' < g.kI) (h2' : k2' < g.kJ)
    (h : win g i j k1 k2 = win g i' j' k1' k2') : (i = i' ∧ j = j') ∧ k1 = k1' ∧ k2 = k2' := by
  obtain ⟨a, b⟩ := Vec.idx_inj (Conv.stride_lt hg.hJ hj h2) (Conv.stride_lt hg.hJ hj' h2') h
  obtain ⟨c, d⟩ := spread_inj hd.1 h1 h1' a
  obtain ⟨c', d'⟩ := spread_inj hd.2 h2 h2' b
  exact ⟨⟨c, c'⟩, d, d'⟩

theorem win_inj_in {g : PGeom} (hg : g.Ok) {i j k1 k2 k1' k2' : Nat}
    (hj : j < g.nJ) (h2 : k2 < g.kJ) (h2' : k2' < g.kJ)
    (h : win g i j k1 k2 = win g i j k1' k2') : k1 = k1' ∧ k2 = k2' := by
  have := Vec.idx_inj (Conv.stride_lt hg.hJ hj h2) (Conv.stride_lt hg.hJ hj h2') h
  omega

/-! ### Maximum -/

omit [Field α] in
theorem scanMax_eq {g : PGeom} (hg : g.Ok) (x : Arr α) (hx : g.inI * g.inJ ≤ x.len) {i j : Nat}
    (hi : i < g.nI) (hj : j < g.nJ) (m : α) :
    ∃ m', scanMax g x i j m = some m' ∧ m ≤ m' ∧
      (∀ k1 k2, k1 < g.kI → k2 < g.kJ → x.get (win g i j k1 k2) ≤ m') ∧
      (m' = m ∨ ∃ k1 k2, k1 < g.kI ∧ k2 < g.kJ ∧ x.get (win g i j k1 k2) = m') := by
  obtain ⟨m', e, h1, h2, h3⟩ := loop2_inv (A := g.kI) (B := g.kJ) (st := m)
    (f := fun k1 k2 m => (x.read (g.xIdx i j k1 k2)).bind fun v => if m < v then some v else some m)
    (fun r s m' => m ≤ m' ∧
      (∀ k1 k2, k1 < g.kI → k2 < g.kJ → (k1 < r ∨ (k1 = r ∧ k2 < s)) → x.get (win g i j k1 k2) ≤ m') ∧
      (m' = m ∨ ∃ k1 k2, k1 < g.kI ∧ k2 < g.kJ ∧ x.get (win g i j k1 k2) = m'))
    ⟨le_refl _, by intro k1 k2 _ _ h; omega, Or.inl rfl⟩
    (by
      rintro r hr s hs m' ⟨h1, h2, h3⟩
      have := win_lt hg hi hj hr hs
      rw [xIdx_eq, Arr.read_eq (by omega)]
      simp only [Option.bind_some]
      by_cases hlt : m' < x.get (win g i j r s)
      · rw [if_pos hlt]
        refine ⟨_, rfl, h1.trans hlt.le, ?_, Or.inr ⟨r, s, hr, hs, rfl⟩⟩
        intro k1 k2 hk1 hk2 hk
        by_cases heq : k1 = r ∧ k2 = s
        · obtain ⟨rfl, rfl⟩ := heq; exact le_refl _
        · exact (h2 k1 k2 hk1 hk2 (by omega)).trans hlt.le
      · rw [if_neg hlt]
        refine ⟨_, rfl, h1, ?_, h3⟩
        intro k1 k2 hk1 hk2 hk
        by_cases heq : k1 = r ∧ k2 = s
        · obtain ⟨rfl, rfl⟩ := heq; exact not_lt.1 hlt
        · exact h2 k1 k2 hk1 hk2 (by omega))
    (by
      rintro r hr m' ⟨h1, h2, h3⟩
      exact ⟨h1, fun k1 k2 hk1 hk2 hk => h2 k1 k2 hk1 hk2 (by omega), h3⟩)
  exact ⟨m', e, h1, fun k1 k2 hk1 hk2 => h2 k1 k2 hk1 hk2 (Or.inl hk1), h3⟩

/-- **C29** (partial: the window must contain an element not below the start
value `-999999`). Max pooling stays in bounds; every interior output cell
holds an element of its window at least as large as all others; cells outside
the interior keep their contents.

Full statement: the same without the hypothesis `hlow`; see
`C29_max_pooling_refuted`. -/
theorem C29_max_pooling_partial (g : PGeom) (hg : g.Ok) (x out : Arr α)
    (hx : g.inI * g.inJ ≤ x.len) (ho : g.outI * g.outJ ≤ out.len)
    (hlow : ∀ i j, i < g.nI → j < g.nJ →
      ∃ k1 k2, k1 < g.kI ∧ k2 < g.kJ ∧ -999999 ≤ x.get (win g i j k1 k2)) :
    ∃ m out', maxFF g x out = some (m, out') ∧ out'.len = out.len ∧
      (∀ i j, i < g.nI → j < g.nJ →
        (∃ k1 k2, k1 < g.kI ∧ k2 < g.kJ ∧ out'.get (ocell g i j) = x.get (win g i j k1 k2)) ∧
        ∀ k1 k2, k1 < g.kI → k2 < g.kJ → x.get (win g i j k1 k2) ≤ out'.get (ocell g i j)) ∧
      ∀ u, (∀ i j, i < g.nI → j < g.nJ → u ≠ ocell g i j) → out'.get u = out.get u := by
  obtain ⟨m, out', e, -, h1, h2, h3⟩ := loop2_windows (A := g.nI) (B := g.nJ)
    (f := fun i j (st : α × Arr α) => (scanMax g x i j st.1).bind fun m =>
      (st.2.write (g.oIdx i j) m).bind fun out => some (-999999, out))
    (fun t => t = -999999) (fun i j u => u = ocell g i j)
    (fun i j o => (∃ k1 k2, k1 < g.kI ∧ k2 < g.kJ ∧ o (ocell g i j) = x.get (win g i j k1 k2)) ∧
        ∀ k1 k2, k1 < g.kI → k2 < g.kJ → x.get (win g i j k1 k2) ≤ o (ocell g i j))
    (-999999) out rfl
    (by
      rintro i hi j hj t b rfl hb
      obtain ⟨m', e, h1, h2, h3⟩ := scanMax_eq hg x hx hi hj (-999999)
      have := ocell_lt g hi hj
      dsimp only
      rw [e, Option.bind_some, oIdx_eq, Arr.write_eq _ (by omega), Option.bind_some]
      refine ⟨_, _, rfl, rfl, hb, ⟨?_, ?_⟩, ?_⟩
      · simp only [Function.update_self]
        rcases h3 with h3 | ⟨k1, k2, a, b, c⟩
        · obtain ⟨k1, k2, a, b, c⟩ := hlow i j hi hj
          exact ⟨k1, k2, a, b, le_antisymm (h3.le.trans c) (h2 k1 k2 a b)⟩
        · exact ⟨k1, k2, a, b, c.symm⟩
      · simpa only [Function.update_self] using h2
      · intro u hu
        exact Function.update_of_ne hu _ _)
    (by
      intro r s g1 g2 h hG
      rw [← h _ rfl]
      exact hG)
    (by
      rintro r hr s hs r' hr' s' hs' u rfl h
      exact ocell_inj g hs hs' h)
  exact ⟨m, out', e, h1, fun i j hi hj => h2 i hi j hj,
    fun u hu => h3 u fun i hi j hj => hu i j hi hj⟩

/-- Non-vacuity: 2×2 windows of a 2×4 image, padded. -/
example : ((maxFF ⟨2, 4, 2, 2, 2, 2, 1⟩ (Arr.ofList [1, 7, -3, -4, 5, 2, -9, -2])
    (⟨12, fun _ => 0⟩ : Arr ℚ)).map fun s => (List.range 12).map s.2.get) =
      some [0, 0, 0, 0, 0, 7, -2, 0, 0, 0, 0, 0] := by decide +kernel

/-- **C29** fails for inputs below the start value: the pooled value of a
window filled with `-2000000` is `-999999`, which is not in the window. -/
theorem C29_max_pooling_refuted : ∃ (g : PGeom) (_ : g.Ok) (x out : Arr ℚ),
    g.inI * g.inJ ≤ x.len ∧ g.outI * g.outJ ≤ out.len ∧
    ((maxFF g x out).map fun s => s.2.get (ocell g 0 0)) = some (-999999) ∧
    ∀ k1 k2, k1 < g.kI → k2 < g.kJ → x.get (win g 0 0 k1 k2) ≠ -999999 := by
  refine ⟨⟨1, 1, 1, 1, 1, 1, 0⟩, ⟨by decide, by decide, by decide, by decide⟩,
    ⟨1, fun _ => -2000000⟩, ⟨1, fun _ => 0⟩, by decide, by decide, by decide +kernel, ?_⟩
  intro k1 k2 _ _
  norm_num

/-- **C29, geometry.** There is one interior output cell for each position at
which the whole pooling window fits, and the output frames them with `padding`
cells on each side. -/
theorem C29_sizes (g : PGeom) (hg : g.Ok) (h1 : 0 < g.s1) (h2 : 0 < g.s2) :
    (∀ r, r < g.nI ↔ r * g.s1 + g.kI ≤ g.inI) ∧ (∀ s, s < g.nJ ↔ s * g.s2 + g.kJ ≤ g.inJ) ∧
    g.outI = g.pad + g.nI + g.pad ∧ g.outJ = g.pad + g.nJ + g.pad :=
  ⟨fun _ => Conv.fits_iff hg.hI h1, fun _ => Conv.fits_iff hg.hJ h2,
    by unfold PGeom.outI; omega, by unfold PGeom.outJ; omega⟩

example : (⟨7, 7, 3, 2, 2, 3, 1⟩ : PGeom).Ok ∧ (⟨7, 7, 3, 2, 2, 3, 1⟩ : PGeom).nJ = 2 :=
  ⟨⟨by decide, by decide, by decide, by decide⟩, by decide⟩

/-! ### Backward pass of max pooling -/

omit [Field α] in
theorem scanArg_eq {g : PGeom} (hg : g.Ok) (x : Arr α) (hx : g.inI * g.inJ ≤ x.len) {i j : Nat}
    (hi : i < g.nI) (hj : j < g.nJ) (m : α) (a b : Nat) (ha : a < g.kI) (hb : b < g.kJ) :
    ∃ m' a' b', scanArg g x i j (m, a, b) = some (m', a', b') ∧ a' < g.kI ∧ b' < g.kJ ∧
      (∀ k1 k2, k1 < g.kI → k2 < g.kJ → x.get (win g i j k1 k2) ≤ m') ∧
      ((m' = m ∧ a' = a ∧ b' = b) ∨ x.get (win g i j a' b') = m') := by
  obtain ⟨⟨m', a', b'⟩, e, h1, h1', h2, h3⟩ := loop2_inv (A := g.kI) (B := g.kJ) (st := (m, a, b))
    (f := fun k1 k2 (st : α × Nat × Nat) => (x.read (g.xIdx i j k1 k2)).bind fun v =>
      if st.1 < v then some (v, k1, k2) else some st)
    (fun r s st => st.2.1 < g.kI ∧ st.2.2 < g.kJ ∧
      (∀ k1 k2, k1 < g.kI → k2 < g.kJ → (k1 < r ∨ (k1 = r ∧ k2 < s)) → x.get (win g i j k1 k2) ≤ st.1) ∧
      ((st.1 = m ∧ st.2.1 = a ∧ st.2.2 = b) ∨ x.get (win g i j st.2.1 st.2.2) = st.1))
    ⟨ha, hb, by intro k1 k2 _ _ h; omega, Or.inl ⟨rfl, rfl, rfl⟩⟩
    (by
      rintro r hr s hs ⟨m', a', b'⟩ ⟨h1, h1', h2, h3⟩
      have := win_lt hg hi hj hr hs
      rw [xIdx_eq, Arr.read_eq (by omega)]
      simp only [Option.bind_some]
      dsimp only at h2
      by_cases hlt : m' < x.get (win g i j r s)
      · rw [if_pos hlt]
        refine ⟨_, rfl, hr, hs, ?_, Or.inr rfl⟩
        intro k1 k2 hk1 hk2 hk
        by_cases heq : k1 = r ∧ k2 = s
        · obtain ⟨rfl, rfl⟩ := heq; exact le_refl _
        · exact (h2 k1 k2 hk1 hk2 (by omega)).trans hlt.le
      · rw [if_neg hlt]
        refine ⟨_, rfl, h1, h1', ?_, h3⟩
        intro k1 k2 hk1 hk2 hk
        by_cases heq : k1 = r ∧ k2 = s
        · obtain ⟨rfl, rfl⟩ := heq; exact not_lt.1 hlt
        · exact h2 k1 k2 hk1 hk2 (by omega))
    (by
      rintro r hr st ⟨h1, h1', h2, h3⟩
      exact ⟨h1, h1', fun k1 k2 hk1 hk2 hk => h2 k1 k2 hk1 hk2 (by omega), h3⟩)
  exact ⟨m', a', b', e, h1, h1', fun k1 k2 hk1 hk2 => h2 k1 k2 hk1 hk2 (Or.inl hk1), h3⟩

omit [LinearOrder α] in
theorem writeArg_eq {g : PGeom} (hg : g.Ok) (e ie : Arr α) (he : g.outI * g.outJ ≤ e.len)
    (hie : g.inI * g.inJ ≤ ie.len) {i j : Nat} (hi : i < g.nI) (hj : j < g.nJ) (a b : Nat) :
    ∃ ie', writeArg g e i j a b ie = some ie' ∧ ie'.len = ie.len ∧
      (∀ k1, k1 < g.kI → ∀ k2, k2 < g.kJ → ie'.get (win g i j k1 k2) =
        if a = k1 ∧ b = k2 then e.get (ocell g i j) else 0) ∧
      ∀ u, (∀ k1, k1 < g.kI → ∀ k2, k2 < g.kJ → u ≠ win g i j k1 k2) → ie'.get u = ie.get u := by
  refine loop2_write (fun k1 k2 => win g i j k1 k2)
    (fun k1 k2 => if a = k1 ∧ b = k2 then e.get (ocell g i j) else 0) ie ?_ ?_ ?_
  · intro k1 h1 k2 h2 c hc
    have := ocell_lt g hi hj
    rw [xIdx_eq]
    split_ifs with h
    · rw [oIdx_eq, Arr.read_eq (by omega)]; rfl
    · rfl
  · intro k1 h1 k2 h2
    exact lt_of_lt_of_le (win_lt hg hi hj h1 h2) hie
  · intro k1 h1 k2 h2 k1' h1' k2' h2' h
    exact win_inj_in hg hj h2 h2' h

/-- The backward pass of max pooling, window by window. -/
theorem maxBP_eq (g : PGeom) (hg : g.Ok) (hd : Disjoint g) (x e ie : Arr α)
    (hx : g.inI * g.inJ ≤ x.len) (he : g.outI * g.outJ ≤ e.len) (hie : g.inI * g.inJ ≤ ie.len)
    [IsStrictOrderedRing α] :
    ∃ st ie', maxBP g x e ie = some (st, ie') ∧ ie'.len = ie.len ∧
      (∀ i, i < g.nI → ∀ j, j < g.nJ → ∃ a b, a < g.kI ∧ b < g.kJ ∧
        ((∃ k1 k2, k1 < g.kI ∧ k2 < g.kJ ∧ -999999 < x.get (win g i j k1 k2)) →
          ∀ k1 k2, k1 < g.kI → k2 < g.kJ → x.get (win g i j k1 k2) ≤ x.get (win g i j a b)) ∧
        ∀ k1, k1 < g.kI → ∀ k2, k2 < g.kJ → ie'.get (win g i j k1 k2) =
          if a = k1 ∧ b = k2 then e.get (ocell g i j) else 0) ∧
      ∀ u, (∀ i, i < g.nI → ∀ j, j < g.nJ → ∀ k1, k1 < g.kI → ∀ k2, k2 < g.kJ → u ≠ win g i j k1 k2) →
        ie'.get u = ie.get u := by
  have hneg : (-9999999 : α) ≤ -999999 := by norm_num
  obtain ⟨m, ie', h0, -, h1, h2, h3⟩ := loop2_windows (A := g.nI) (B := g.nJ)
    (f := fun i j (st : (α × Nat × Nat) × Arr α) => (scanArg g x i j st.1).bind fun s =>
      (writeArg g e i j s.2.1 s.2.2 st.2).bind fun ie => some ((-9999999, s.2.1, s.2.2), ie))
    (fun t => t.1 ≤ -999999 ∧ t.2.1 < g.kI ∧ t.2.2 < g.kJ)
    (fun i j u => ∃ k1, k1 < g.kI ∧ ∃ k2, k2 < g.kJ ∧ u = win g i j k1 k2)
    (fun i j o => ∃ a b, a < g.kI ∧ b < g.kJ ∧
        ((∃ k1 k2, k1 < g.kI ∧ k2 < g.kJ ∧ -999999 < x.get (win g i j k1 k2)) →
          ∀ k1 k2, k1 < g.kI → k2 < g.kJ → x.get (win g i j k1 k2) ≤ x.get (win g i j a b)) ∧
        ∀ k1, k1 < g.kI → ∀ k2, k2 < g.kJ → o (win g i j k1 k2) =
          if a = k1 ∧ b = k2 then e.get (ocell g i j) else 0)
    (-999999, 0, 0) ie ⟨le_refl _, hg.pI, hg.pJ⟩
    (by
      rintro i hi j hj ⟨m, a, b⟩ c ⟨hm, ha, hb⟩ hc
      obtain ⟨m', a', b', e1, f1, f2, f3, f4⟩ := scanArg_eq hg x hx hi hj m a b ha hb
      obtain ⟨c', e2, g1, g2, g3⟩ := writeArg_eq hg e c he (by omega) hi hj a' b'
      dsimp only
      rw [e1, Option.bind_some, e2, Option.bind_some]
      refine ⟨_, _, rfl, ⟨hneg, f1, f2⟩, by omega, ⟨a', b', f1, f2, ?_, g2⟩, ?_⟩
      · rintro ⟨k1, k2, h1, h2, h3⟩ k1' k2' h1' h2'
        rcases f4 with ⟨h4, -⟩ | h4
        · have := f3 k1 k2 h1 h2
          rw [h4] at this
          exact absurd (h3.trans_le (this.trans hm)) (lt_irrefl _)
        · rw [h4]; exact f3 k1' k2' h1' h2'
      · intro u hu
        exact g3 u fun k1 h1 k2 h2 h => hu ⟨k1, h1, k2, h2, h⟩)
    (by
      rintro r s g1 g2 h ⟨a, b, ha, hb, hm, hG⟩
      refine ⟨a, b, ha, hb, hm, fun k1 h1 k2 h2 => ?_⟩
      rw [← h _ ⟨k1, h1, k2, h2, rfl⟩]
      exact hG k1 h1 k2 h2)
    (by
      rintro r hr s hs r' hr' s' hs' u ⟨k1, h1, k2, h2, rfl⟩ ⟨k1', h1', k2', h2', h⟩
      exact (win_inj hg hd hs hs' h1 h2 h1' h2' h).1)
  refine ⟨m, ie', h0, h1, h2, ?_⟩
  intro u hu
  apply h3
  rintro i hi j hj ⟨k1, h1, k2, h2, rfl⟩
  exact hu i hi j hj k1 h1 k2 h2 rfl

/-- Closed form of the error written by max pooling: each window sends its
upstream error to one of its cells, which holds its maximum. -/
theorem maxBP_closed (g : PGeom) (hg : g.Ok) (hd : Disjoint g) (x e ie : Arr α)
    (hx : g.inI * g.inJ ≤ x.len) (he : g.outI * g.outJ ≤ e.len) (hie : g.inI * g.inJ ≤ ie.len)
    (h0 : ∀ u, u < g.inI * g.inJ → ie.get u = 0) [IsStrictOrderedRing α] :
    ∃ (st : α × Nat × Nat) (ie' : Arr α) (a b : Nat → Nat → Nat),
      maxBP g x e ie = some (st, ie') ∧ ie'.len = ie.len ∧
      (∀ i, i < g.nI → ∀ j, j < g.nJ → a i j < g.kI ∧ b i j < g.kJ ∧
        ((∃ k1 k2, k1 < g.kI ∧ k2 < g.kJ ∧ -999999 < x.get (win g i j k1 k2)) →
          ∀ k1 k2, k1 < g.kI → k2 < g.kJ →
            x.get (win g i j k1 k2) ≤ x.get (win g i j (a i j) (b i j)))) ∧
      (∀ u, u < g.inI * g.inJ → ie'.get u = ∑ i ∈ range g.nI, ∑ j ∈ range g.nJ,
        if u = win g i j (a i j) (b i j) then e.get (ocell g i j) else 0) ∧
      ∀ u, g.inI * g.inJ ≤ u → ie'.get u = ie.get u := by
  obtain ⟨st, ie', e1, h1, h2, h3⟩ := maxBP_eq g hg hd x e ie hx he hie
  have : ∀ i j, ∃ a b, i < g.nI → j < g.nJ → (a < g.kI ∧ b < g.kJ ∧
        ((∃ k1 k2, k1 < g.kI ∧ k2 < g.kJ ∧ -999999 < x.get (win g i j k1 k2)) →
          ∀ k1 k2, k1 < g.kI → k2 < g.kJ → x.get (win g i j k1 k2) ≤ x.get (win g i j a b)) ∧
        ∀ k1, k1 < g.kI → ∀ k2, k2 < g.kJ → ie'.get (win g i j k1 k2) =
          if a = k1 ∧ b = k2 then e.get (ocell g i j) else 0) := by
    intro i j
    by_cases hi : i < g.nI
    · by_cases hj : j < g.nJ
      · obtain ⟨a, b, h⟩ := h2 i hi j hj
        exact ⟨a, b, fun _ _ => h⟩
      · exact ⟨0, 0, fun _ h => absurd h hj⟩
    · exact ⟨0, 0, fun h => absurd h hi⟩
  choose a b hab using this
  refine ⟨st, ie', a, b, e1, h1, fun i hi j hj => ?_, ?_, fun u hu => h3 u fun i hi j hj k1 hk1 k2 hk2 h => ?_⟩
  · obtain ⟨p1, p2, p3, -⟩ := hab i j hi hj
    exact ⟨p1, p2, p3⟩
  rotate_left
  · have := win_lt hg hi hj hk1 hk2
    omega
  intro u hu
  by_cases hin : ∃ i, i < g.nI ∧ ∃ j, j < g.nJ ∧ ∃ k1, k1 < g.kI ∧ ∃ k2, k2 < g.kJ ∧ u = win g i j k1 k2
  · obtain ⟨i, hi, j, hj, k1, hk1, k2, hk2, rfl⟩ := hin
    obtain ⟨p1, p2, p3, p4⟩ := hab i j hi hj
    rw [p4 k1 hk1 k2 hk2, Finset.sum_eq_single i, Finset.sum_eq_single j]
    · by_cases hh : a i j = k1 ∧ b i j = k2
      · rw [if_pos hh, hh.1, hh.2, if_pos rfl]
      · rw [if_neg hh, if_neg]
        intro hc
        exact hh ((win_inj_in hg hj hk2 p2 hc).imp Eq.symm Eq.symm)
    · intro j' hj' hne
      rw [if_neg]
      intro hc
      obtain ⟨q1, q2, -⟩ := hab i j' hi (Finset.mem_range.1 hj')
      exact hne (win_inj hg hd hj (Finset.mem_range.1 hj') hk1 hk2 q1 q2 hc).1.2.symm
    · intro hc; exact absurd (Finset.mem_range.2 hj) hc
    · intro i' hi' hne
      refine Finset.sum_eq_zero fun j' hj' => ?_
      rw [if_neg]
      intro hc
      obtain ⟨q1, q2, -⟩ := hab i' j' (Finset.mem_range.1 hi') (Finset.mem_range.1 hj')
      exact hne (win_inj hg hd hj (Finset.mem_range.1 hj') hk1 hk2 q1 q2 hc).1.1.symm
    · intro hc; exact absurd (Finset.mem_range.2 hi) hc
  · rw [h3 u (fun i hi j hj k1 h1 k2 h2 h => hin ⟨i, hi, j, hj, k1, h1, k2, h2, h⟩), h0 u hu]
    refine (Finset.sum_eq_zero fun i hi => Finset.sum_eq_zero fun j hj => ?_).symm
    rw [if_neg]
    intro hc
    obtain ⟨q1, q2, -⟩ := hab i j (Finset.mem_range.1 hi) (Finset.mem_range.1 hj)
    exact hin ⟨i, Finset.mem_range.1 hi, j, Finset.mem_range.1 hj, _, q1, _, q2, hc⟩

/-- **C30, conservation for max pooling** (partial: windows that do not
overlap). Starting from a zeroed error image, the error written sums to the sum
of the upstream error over the interior output cells.

Full statement: the same without `hd`; see `C30_max_overlap_refuted`. -/
theorem C30_max_conservation_partial (g : PGeom) (hg : g.Ok) (hd : Disjoint g) (x e ie : Arr α)
    (hx : g.inI * g.inJ ≤ x.len) (he : g.outI * g.outJ ≤ e.len) (hie : g.inI * g.inJ ≤ ie.len)
    (h0 : ∀ u, u < g.inI * g.inJ → ie.get u = 0) [IsStrictOrderedRing α] :
    ∃ st ie', maxBP g x e ie = some (st, ie') ∧ ie'.len = ie.len ∧
      ∑ u ∈ range (g.inI * g.inJ), ie'.get u =
        ∑ i ∈ range g.nI, ∑ j ∈ range g.nJ, e.get (ocell g i j) := by
  obtain ⟨st, ie', a, b, e1, h1, h2, h3, -⟩ := maxBP_closed g hg hd x e ie hx he hie h0
  refine ⟨st, ie', e1, h1, ?_⟩
  rw [Finset.sum_congr rfl fun u hu => h3 u (Finset.mem_range.1 hu), Finset.sum_comm]
  refine Finset.sum_congr rfl fun i hi => ?_
  rw [Finset.sum_comm]
  refine Finset.sum_congr rfl fun j hj => ?_
  obtain ⟨q1, q2, -⟩ := h2 i (Finset.mem_range.1 hi) j (Finset.mem_range.1 hj)
  rw [Finset.sum_ite_eq', if_pos]
  exact Finset.mem_range.2 (win_lt hg (Finset.mem_range.1 hi) (Finset.mem_range.1 hj) q1 q2)

/-- The maximum of window `(i, j)`. -/
noncomputable def pooled (g : PGeom) (hg : g.Ok) (x : Nat → ℝ) (i j : Nat) : ℝ :=
  (offs g).sup' ⟨(0, 0), by simp [offs, hg.pI, hg.pJ]⟩ fun k => x (win g i j k.1 k.2)

theorem pooled_deriv (g : PGeom) (hg : g.Ok) (x : Nat → ℝ) (i j a b p : Nat) (ha : a < g.kI) (hb : b < g.kJ)
    (hmax : ∀ k1 k2, k1 < g.kI → k2 < g.kJ → win g i j k1 k2 ≠ win g i j a b →
      x (win g i j k1 k2) < x (win g i j a b)) :
    HasDerivAt (fun t => pooled g hg (Function.update x p t) i j)
      (if p = win g i j a b then 1 else 0) (x p) := by
  have hc : ∀ q, HasDerivAt (fun t => Function.update x p t q) (if p = q then 1 else 0) (x p) := by
    intro q
    by_cases h : p = q
    · subst h
      simp only [Function.update_self, if_true]
      exact hasDerivAt_id _
    · simp only [Function.update_of_ne (Ne.symm h), if_neg h]
      exact hasDerivAt_const _ _
  have hself : ∀ q, Function.update x p (x p) q = x q := by
    intro q; rw [Function.update_eq_self]
  refine (hc (win g i j a b)).congr_of_eventuallyEq ?_
  have hev : ∀ᶠ t in nhds (x p), ∀ k ∈ offs g,
      Function.update x p t (win g i j k.1 k.2) ≤ Function.update x p t (win g i j a b) := by
    rw [Filter.eventually_all_finset]
    rintro ⟨k1, k2⟩ hk
    simp only [offs, Finset.mem_product, Finset.mem_range] at hk
    by_cases heq : win g i j k1 k2 = win g i j a b
    · simp only [heq, le_refl]; exact Filter.Eventually.of_forall fun _ => trivial
    · have := hmax k1 k2 hk.1 hk.2 heq
      refine (((hc (win g i j k1 k2)).continuousAt.eventually_lt (hc (win g i j a b)).continuousAt
        ?_)).mono fun t ht => ht.le
      rw [hself, hself]; exact this
  refine hev.mono fun t ht => ?_
  refine le_antisymm (Finset.sup'_le _ _ ht) ?_
  exact Finset.le_sup' (fun k : Nat × Nat => Function.update x p t (win g i j k.1 k.2))
    (by simp [offs, ha, hb] : (a, b) ∈ offs g)

/-- **C30, gradient for max pooling** (partial: windows that do not overlap,
and in each a single largest value above `-999999`). Starting from a zeroed
error image, the backward pass writes the partial derivatives of the
error-weighted window maxima. -/
theorem C30_max_gradient_partial (g : PGeom) (hg : g.Ok) (hd : Disjoint g) (x e ie : Arr ℝ)
    (hx : g.inI * g.inJ ≤ x.len) (he : g.outI * g.outJ ≤ e.len) (hie : g.inI * g.inJ ≤ ie.len)
    (h0 : ∀ u, u < g.inI * g.inJ → ie.get u = 0)
    (huniq : ∀ i j, i < g.nI → j < g.nJ → ∃ a b, a < g.kI ∧ b < g.kJ ∧ -999999 < x.get (win g i j a b) ∧
      ∀ k1 k2, k1 < g.kI → k2 < g.kJ → (k1, k2) ≠ (a, b) →
        x.get (win g i j k1 k2) < x.get (win g i j a b)) :
    ∃ st ie', maxBP g x e ie = some (st, ie') ∧ ie'.len = ie.len ∧
      ∀ p, p < g.inI * g.inJ →
        HasDerivAt (fun t => ∑ i ∈ range g.nI, ∑ j ∈ range g.nJ,
          e.get (ocell g i j) * pooled g hg (Function.update x.get p t) i j) (ie'.get p) (x.get p) := by
  obtain ⟨st, ie', a, b, e1, h1, h2, h3, -⟩ := maxBP_closed g hg hd x e ie hx he hie h0
  refine ⟨st, ie', e1, h1, fun p hp => ?_⟩
  rw [h3 p hp]
  refine HasDerivAt.fun_sum fun i hi => HasDerivAt.fun_sum fun j hj => ?_
  have hi' := Finset.mem_range.1 hi
  have hj' := Finset.mem_range.1 hj
  obtain ⟨q1, q2, q3⟩ := h2 i hi' j hj'
  obtain ⟨a', b', r1, r2, r3, r4⟩ := huniq i j hi' hj'
  have hmx := q3 ⟨a', b', r1, r2, r3⟩ a' b' r1 r2
  have hab : (a i j, b i j) = (a', b') := by
    by_contra hne
    exact absurd hmx (not_le.2 (r4 _ _ q1 q2 hne))
  obtain ⟨rfl, rfl⟩ := Prod.mk.inj hab
  refine ((pooled_deriv g hg x.get i j _ _ p q1 q2 ?_).const_mul (e.get (ocell g i j))).congr_deriv ?_
  · intro k1 k2 hk1 hk2 hne
    refine r4 k1 k2 hk1 hk2 fun hc => hne ?_
    rw [(Prod.mk.inj hc).1, (Prod.mk.inj hc).2]
  · split_ifs <;> simp

/-- Non-vacuity: two windows of a 2×4 image. -/
example : ((maxBP ⟨2, 4, 2, 2, 2, 2, 0⟩ (Arr.ofList [1, 7, -3, -4, 5, 2, -9, -2])
    (Arr.ofList [10, 20]) (⟨8, fun _ => 0⟩ : Arr ℚ)).map fun s => (List.range 8).map s.2.get) =
      some [0, 10, 0, 0, 0, 0, 0, 20] := by decide +kernel

/-- **C30** fails for overlapping windows: a 1×3 image with its maximum in
both 1×2 windows of stride 1 and upstream error `(1, 1)` gets total error 1. -/
theorem C30_max_overlap_refuted : ∃ (g : PGeom) (_ : g.Ok) (x e ie : Arr ℚ),
    g.inI * g.inJ ≤ x.len ∧ g.outI * g.outJ ≤ e.len ∧ g.inI * g.inJ ≤ ie.len ∧
    (∀ u, ie.get u = 0) ∧
    ((maxBP g x e ie).map fun s => ∑ u ∈ range (g.inI * g.inJ), s.2.get u) = some 1 ∧
    ∑ i ∈ range g.nI, ∑ j ∈ range g.nJ, e.get (ocell g i j) = 2 := by
  refine ⟨⟨1, 3, 1, 2, 1, 1, 0⟩, ⟨by decide, by decide, by decide, by decide⟩,
    Arr.ofList [0, 5, 0], ⟨2, fun _ => 1⟩, ⟨3, fun _ => 0⟩, by decide, by decide, by decide,
    fun _ => rfl, by decide +kernel, by decide +kernel⟩

/-! ### Average pooling -/

omit [LinearOrder α] in
/-- Average pooling stays in bounds and writes the mean of each window. -/
theorem C30_average_forward (g : PGeom) (hg : g.Ok) (x out : Arr α)
    (hx : g.inI * g.inJ ≤ x.len) (ho : g.outI * g.outJ ≤ out.len) :
    ∃ m out', avgFF g x out = some (m, out') ∧ out'.len = out.len ∧
      (∀ i j, i < g.nI → j < g.nJ → out'.get (ocell g i j) =
        (∑ k1 ∈ range g.kI, ∑ k2 ∈ range g.kJ, x.get (win g i j k1 k2)) / ((g.kI * g.kJ : Nat) : α)) ∧
      ∀ u, (∀ i j, i < g.nI → j < g.nJ → u ≠ ocell g i j) → out'.get u = out.get u := by
  obtain ⟨m, out', e, -, h1, h2, h3⟩ := loop2_windows (A := g.nI) (B := g.nJ)
    (f := fun i j (st : α × Arr α) => (loop g.kI (fun k1 m => loop g.kJ (fun k2 m =>
        (x.read (g.xIdx i j k1 k2)).bind fun v => some (m + v)) m) st.1).bind fun m =>
      (st.2.write (g.oIdx i j) (m / ((g.kI * g.kJ : Nat) : α))).bind fun out => some (0, out))
    (fun t => t = 0) (fun i j u => u = ocell g i j)
    (fun i j o => o (ocell g i j) =
        (∑ k1 ∈ range g.kI, ∑ k2 ∈ range g.kJ, x.get (win g i j k1 k2)) / ((g.kI * g.kJ : Nat) : α))
    0 out rfl
    (by
      rintro i hi j hj t b rfl hb
      have hsum : loop g.kI (fun k1 m => loop g.kJ (fun k2 m =>
          (x.read (g.xIdx i j k1 k2)).bind fun v => some (m + v)) m) 0 =
          some (0 + ∑ k1 ∈ range g.kI, ∑ k2 ∈ range g.kJ, x.get (win g i j k1 k2)) := by
        refine loop_act id _ ?_ (0 : α)
        intro k1 h1 m
        refine loop_act id _ ?_ m
        intro k2 h2 m
        have := win_lt hg hi hj h1 h2
        rw [xIdx_eq, Arr.read_eq (by omega)]
        rfl
      have := ocell_lt g hi hj
      dsimp only
      rw [hsum, Option.bind_some, oIdx_eq, Arr.write_eq _ (by omega), Option.bind_some]
      refine ⟨_, _, rfl, rfl, hb, ?_, ?_⟩
      · simp only [Function.update_self, zero_add]
      · intro u hu
        exact Function.update_of_ne hu _ _)
    (by
      intro r s g1 g2 h hG
      rw [← h _ rfl]
      exact hG)
    (by
      rintro r hr s hs r' hr' s' hs' u rfl h
      exact ocell_inj g hs hs' h)
  exact ⟨m, out', e, h1, fun i j hi hj => h2 i hi j hj,
    fun u hu => h3 u fun i hi j hj => hu i j hi hj⟩

/-- The mean of window `(i, j)`. -/
noncomputable def mean (g : PGeom) (x : Nat → ℝ) (i j : Nat) : ℝ :=
  (∑ k ∈ offs g, x (win g i j k.1 k.2)) / ((g.kI * g.kJ : Nat) : ℝ)

omit [LinearOrder α] in
/-- Closed form of the error written by average pooling. -/
theorem avgBP_closed (g : PGeom) (hg : g.Ok) (hd : Disjoint g) (e ie : Arr α)
    (he : g.outI * g.outJ ≤ e.len) (hie : g.inI * g.inJ ≤ ie.len)
    (h0 : ∀ u, u < g.inI * g.inJ → ie.get u = 0) :
    ∃ ie' : Arr α, avgBP g e ie = some ie' ∧ ie'.len = ie.len ∧
      (∀ u, u < g.inI * g.inJ → ie'.get u = ∑ i ∈ range g.nI, ∑ j ∈ range g.nJ, ∑ k ∈ offs g,
        if u = win g i j k.1 k.2 then e.get (ocell g i j) / ((g.kI * g.kJ : Nat) : α) else 0) ∧
      ∀ u, g.inI * g.inJ ≤ u → ie'.get u = ie.get u := by
  obtain ⟨_, ie', e1, -, h1, h2, h3⟩ := loop2_windows (A := g.nI) (B := g.nJ)
    (f := fun i j (st : Unit × Arr α) => (loop g.kI (fun k1 ie => loop g.kJ (fun k2 ie =>
        (e.read (g.oIdx i j)).bind fun v =>
          ie.write (g.xIdx i j k1 k2) (1 / ((g.kI * g.kJ : Nat) : α) * v)) ie) st.2).bind fun b => some ((), b))
    (fun _ => True)
    (fun i j u => ∃ k1, k1 < g.kI ∧ ∃ k2, k2 < g.kJ ∧ u = win g i j k1 k2)
    (fun i j o => ∀ k1, k1 < g.kI → ∀ k2, k2 < g.kJ → o (win g i j k1 k2) =
      e.get (ocell g i j) / ((g.kI * g.kJ : Nat) : α)) () ie trivial
    (by
      rintro i hi j hj ⟨⟩ c - hc
      have := ocell_lt g hi hj
      obtain ⟨c', e2, g1, g2, g3⟩ := loop2_write (A := g.kI) (B := g.kJ)
        (f := fun k1 k2 ie => (e.read (g.oIdx i j)).bind fun v =>
          ie.write (g.xIdx i j k1 k2) (1 / ((g.kI * g.kJ : Nat) : α) * v))
        (fun k1 k2 => win g i j k1 k2)
        (fun k1 k2 => e.get (ocell g i j) / ((g.kI * g.kJ : Nat) : α)) c
        (by
          intro k1 h1 k2 h2 d hd'
          rw [xIdx_eq, oIdx_eq, Arr.read_eq (by omega), Option.bind_some]
          congr 1
          rw [one_div, mul_comm, div_eq_mul_inv])
        (by
          intro k1 h1 k2 h2
          have := win_lt hg hi hj h1 h2
          omega)
        (by
          intro k1 h1 k2 h2 k1' h1' k2' h2' h
          exact win_inj_in hg hj h2 h2' h)
      dsimp only
      rw [e2, Option.bind_some]
      refine ⟨_, _, rfl, trivial, by omega, g2, ?_⟩
      intro u hu
      exact g3 u fun k1 h1 k2 h2 h => hu ⟨k1, h1, k2, h2, h⟩)
    (by
      rintro r s g1 g2 h hG k1 h1 k2 h2
      rw [← h _ ⟨k1, h1, k2, h2, rfl⟩]
      exact hG k1 h1 k2 h2)
    (by
      rintro r hr s hs r' hr' s' hs' u ⟨k1, h1, k2, h2, rfl⟩ ⟨k1', h1', k2', h2', h⟩
      exact (win_inj hg hd hs hs' h1 h2 h1' h2' h).1)
  refine ⟨ie', ?_, h1, ?_, fun u hu => h3 u fun i hi j hj ⟨k1, hk1, k2, hk2, h⟩ => ?_⟩
  rotate_left 2
  · have := win_lt hg hi hj hk1 hk2
    omega
  · have hL : ∀ (B : Nat) (F : Nat → Arr α → Option (Arr α)) (b : Arr α),
        loop B (fun s (st : Unit × Arr α) => (F s st.2).bind fun b => some ((), b)) ((), b) =
          (loop B F b).map fun b => ((), b) := by
      intro B F
      induction B with
      | zero => intro b; rfl
      | succ n ih =>
        intro b
        simp only [loop, ih, Option.bind_eq_bind]
        cases loop n F b with
        | none => rfl
        | some v => simp only [Option.map_some, Option.bind_some]; cases F n v <;> rfl
    have hL2 : ∀ (A B : Nat) (F : Nat → Nat → Arr α → Option (Arr α)) (b : Arr α),
        loop A (fun r st => loop B (fun s (st : Unit × Arr α) => (F r s st.2).bind fun b => some ((), b)) st)
          ((), b) = (loop A (fun r b => loop B (F r) b) b).map fun b => ((), b) := by
      intro A B F b
      rw [← hL A (fun r b => loop B (F r) b) b]
      refine loop_congr fun r _ st => ?_
      obtain ⟨⟨⟩, c⟩ := st
      rw [hL]
      cases loop B (F r) c <;> rfl
    have := (hL2 g.nI g.nJ _ ie).symm.trans e1
    rw [Option.map_eq_some_iff] at this
    obtain ⟨w, hw, hw'⟩ := this
    cases hw'
    exact hw
  · intro u hu
    by_cases hin : ∃ i, i < g.nI ∧ ∃ j, j < g.nJ ∧ ∃ k1, k1 < g.kI ∧ ∃ k2, k2 < g.kJ ∧ u = win g i j k1 k2
    · obtain ⟨i, hi, j, hj, k1, hk1, k2, hk2, rfl⟩ := hin
      rw [h2 i hi j hj k1 hk1 k2 hk2, Finset.sum_eq_single i, Finset.sum_eq_single j,
        Finset.sum_eq_single (k1, k2)]
      · rw [if_pos rfl]
      · rintro ⟨c1, c2⟩ hc hne
        simp only [offs, Finset.mem_product, Finset.mem_range] at hc
        rw [if_neg]
        intro h
        have := win_inj_in hg hj hk2 hc.2 h
        exact hne (by rw [this.1, this.2])
      · intro hc
        exact absurd (by simp [offs, hk1, hk2]) hc
      · intro j' hj' hne
        refine Finset.sum_eq_zero fun k hk => ?_
        simp only [offs, Finset.mem_product, Finset.mem_range] at hk
        rw [if_neg]
        intro hc
        exact hne (win_inj hg hd hj (Finset.mem_range.1 hj') hk1 hk2 hk.1 hk.2 hc).1.2.symm
      · intro hc; exact absurd (Finset.mem_range.2 hj) hc
      · intro i' hi' hne
        refine Finset.sum_eq_zero fun j' hj' => Finset.sum_eq_zero fun k hk => ?_
        simp only [offs, Finset.mem_product, Finset.mem_range] at hk
        rw [if_neg]
        intro hc
        exact hne (win_inj hg hd hj (Finset.mem_range.1 hj') hk1 hk2 hk.1 hk.2 hc).1.1.symm
      · intro hc; exact absurd (Finset.mem_range.2 hi) hc
    · rw [h3 u (fun i hi j hj ⟨k1, h1, k2, h2, h⟩ => hin ⟨i, hi, j, hj, k1, h1, k2, h2, h⟩), h0 u hu]
      refine (Finset.sum_eq_zero fun i hi => Finset.sum_eq_zero fun j hj =>
        Finset.sum_eq_zero fun k hk => ?_).symm
      simp only [offs, Finset.mem_product, Finset.mem_range] at hk
      rw [if_neg]
      intro hc
      exact hin ⟨i, Finset.mem_range.1 hi, j, Finset.mem_range.1 hj, _, hk.1, _, hk.2, hc⟩

/-- **C30, gradient for average pooling** (partial: windows that do not
overlap). Starting from a zeroed error image, the backward pass writes the
partial derivatives of the error-weighted window means, which sum to the sum of
the upstream error.

Full statement: the same without `hd`; see `C30_average_overlap_refuted`. -/
theorem C30_average_gradient_partial (g : PGeom) (hg : g.Ok) (hd : Disjoint g) (x : Nat → ℝ) (e ie : Arr ℝ)
    (he : g.outI * g.outJ ≤ e.len) (hie : g.inI * g.inJ ≤ ie.len)
    (h0 : ∀ u, u < g.inI * g.inJ → ie.get u = 0) :
    ∃ ie', avgBP g e ie = some ie' ∧ ie'.len = ie.len ∧
      (∀ p, p < g.inI * g.inJ →
        HasDerivAt (fun t => ∑ i ∈ range g.nI, ∑ j ∈ range g.nJ,
          e.get (ocell g i j) * mean g (Function.update x p t) i j) (ie'.get p) (x p)) ∧
      ∑ u ∈ range (g.inI * g.inJ), ie'.get u = ∑ i ∈ range g.nI, ∑ j ∈ range g.nJ, e.get (ocell g i j) := by
  obtain ⟨ie', e1, h1, h2, -⟩ := avgBP_closed g hg hd e ie he hie h0
  refine ⟨ie', e1, h1, fun p hp => ?_, ?_⟩
  · rw [h2 p hp]
    refine HasDerivAt.fun_sum fun i hi => HasDerivAt.fun_sum fun j hj => ?_
    unfold mean
    have hk : ∀ k ∈ offs g, HasDerivAt (fun t => Function.update x p t (win g i j k.1 k.2))
        (if p = win g i j k.1 k.2 then 1 else 0) (x p) := by
      intro k _
      by_cases h : p = win g i j k.1 k.2
      · subst h
        simp only [Function.update_self, if_true]
        exact hasDerivAt_id _
      · simp only [Function.update_of_ne (Ne.symm h), if_neg h]
        exact hasDerivAt_const _ _
    refine (((HasDerivAt.fun_sum hk).div_const ((g.kI * g.kJ : Nat) : ℝ)).const_mul
      (e.get (ocell g i j))).congr_deriv ?_
    rw [Finset.sum_div, Finset.mul_sum]
    refine Finset.sum_congr rfl fun k _ => ?_
    split_ifs
    · rw [mul_one_div]
    · simp
  · rw [Finset.sum_congr rfl fun u hu => h2 u (Finset.mem_range.1 hu), Finset.sum_comm]
    refine Finset.sum_congr rfl fun i hi => ?_
    rw [Finset.sum_comm]
    refine Finset.sum_congr rfl fun j hj => ?_
    rw [Finset.sum_comm]
    have : ∀ k ∈ offs g, ∑ u ∈ range (g.inI * g.inJ), (if u = win g i j k.1 k.2 then
        e.get (ocell g i j) / ((g.kI * g.kJ : Nat) : ℝ) else 0) =
        e.get (ocell g i j) / ((g.kI * g.kJ : Nat) : ℝ) := by
      intro k hk
      simp only [offs, Finset.mem_product, Finset.mem_range] at hk
      rw [Finset.sum_ite_eq', if_pos]
      exact Finset.mem_range.2 (win_lt hg (Finset.mem_range.1 hi) (Finset.mem_range.1 hj) hk.1 hk.2)
    rw [Finset.sum_congr rfl this, Finset.sum_const, offs, Finset.card_product, Finset.card_range,
      Finset.card_range, nsmul_eq_mul]
    have hne : ((g.kI * g.kJ : Nat) : ℝ) ≠ 0 := Nat.cast_ne_zero.2 (Nat.mul_pos hg.pI hg.pJ).ne'
    field_simp

/-- Non-vacuity: a 2×2 image in one window. -/
example : ((avgBP ⟨2, 2, 2, 2, 2, 2, 0⟩ (Arr.ofList [8]) (⟨4, fun _ => 0⟩ : Arr ℚ)).map
    fun s => (List.range 4).map s.get) = some [2, 2, 2, 2] := by decide +kernel

/-- **C30** fails for overlapping average windows: 1×2 windows of stride 1 on a
1×3 image with upstream error `(1, 1)` write total error 3/2. -/
theorem C30_average_overlap_refuted : ∃ (g : PGeom) (_ : g.Ok) (e ie : Arr ℚ),
    g.outI * g.outJ ≤ e.len ∧ g.inI * g.inJ ≤ ie.len ∧ (∀ u, ie.get u = 0) ∧
    ((avgBP g e ie).map fun s => ∑ u ∈ range (g.inI * g.inJ), s.get u) = some (3 / 2) ∧
    ∑ i ∈ range g.nI, ∑ j ∈ range g.nJ, e.get (ocell g i j) = 2 := by
  refine ⟨⟨1, 3, 1, 2, 1, 1, 0⟩, ⟨by decide, by decide, by decide, by decide⟩,
    ⟨2, fun _ => 1⟩, ⟨3, fun _ => 0⟩, by decide, by decide,
    fun _ => rfl, by decide +kernel, by decide +kernel⟩

end LLab.Pool
