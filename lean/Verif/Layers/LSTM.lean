import Verif.Common.Mat
import Verif.Common.Bilinear
import Verif.Math.Activations
import Verif.Math.Vector

/-!
The LSTM cell, forward pass (`/repo/src/recurrent.c` 45-93). Properties C36, C70.

Gate numbering of the code: `0` forget, `1` input, `2` output, `3` candidate.
-/

namespace LLab.LSTM

open Finset LLab.Act

/-! ### Model -/

/-- Four statements `a[0][k] += v0; …; a[3][k] += v3`. -/
def add4 (a : Mat ℝ) (k : Nat) (v : Nat → ℝ) : Option (Mat ℝ) := do
  let a ← a.addAt 0 k (v 0)
  let a ← a.addAt 1 k (v 1)
  let a ← a.addAt 2 k (v 2)
  a.addAt 3 k (v 3)

/-- Reading `a[0][k], …, a[3][k]`. -/
def read4 (a : Mat ℝ) (k : Nat) : Option (Nat → ℝ) := do
  let v0 ← a.read 0 k
  let v1 ← a.read 1 k
  let v2 ← a.read 2 k
  let v3 ← a.read 3 k
  some (fun g => if g = 0 then v0 else if g = 1 then v1 else if g = 2 then v2 else v3)

/-- `for(j < n) z[g][i] += w[g][i*n+j]*x[j]` for the four gates at once
(`/repo/src/recurrent.c` 55-60 with the inputs, 61-66 with the recurrent state). -/
def gateRow (n i : Nat) (w : Mat ℝ) (x : Arr ℝ) (z : Mat ℝ) : Option (Mat ℝ) :=
  loop n (fun j (z : Mat ℝ) => do
    let wv ← read4 w (i * n + j)
    let xv ← x.read j
    add4 z i (fun g => wv g * xv)) z

/-- What one cell evaluation writes: pre-activations, cell state, hidden state;
and the array `out_up` filled by the caller. -/
structure Cell where
  (z : Mat ℝ)
  (cell hidden out : Arr ℝ)

/-- `lstm_ff` (`/repo/src/recurrent.c` 45-93). The `malloc`ed gate arrays are
written at `i` just before being read at `i`, so they are local values here. -/
noncomputable def lstmFF (n m : Nat) (x h c : Arr ℝ) (w u b : Mat ℝ) (st : Cell) : Option Cell :=
  loop m (fun i (st : Cell) => do
    let z ← gateRow n i w x st.z
    let z ← gateRow m i u h z
    let bv ← read4 b i
    let z ← add4 z i bv
    let zv ← read4 z i
    let cv ← c.read i
    let cell ← st.cell.write i (tanhh (zv 3) * sigmoid (zv 1) + cv * sigmoid (zv 0))
    let ct ← cell.read i
    let hidden ← st.hidden.write i (sigmoid (zv 2) * tanhh ct)
    some { st with z := z, cell := cell, hidden := hidden }) st

/-! ### Lemmas -/

theorem add4_eq (a : Mat ℝ) (k : Nat) (v : Nat → ℝ) (hr : a.rows = 4) (hk : k < a.cols) :
    ∃ a', add4 a k v = some a' ∧ a'.rows = 4 ∧ a'.cols = a.cols ∧
      ∀ g, g < 4 → ∀ c, a'.get g c = a.get g c + if c = k then v g else 0 := by
  obtain ⟨rows, cols, f⟩ := a
  dsimp only at hr hk
  subst hr
  refine ⟨⟨4, cols, f + Pi.single 0 (Pi.single k (v 0)) + Pi.single 1 (Pi.single k (v 1)) +
    Pi.single 2 (Pi.single k (v 2)) + Pi.single 3 (Pi.single k (v 3))⟩, ?_, rfl, rfl, ?_⟩
  · unfold add4
    rw [Mat.addAt_mk _ (by omega) hk]
    simp only [Option.bind_eq_bind, Option.bind_some]
    rw [Mat.addAt_mk _ (by omega) hk]
    simp only [Option.bind_some]
    rw [Mat.addAt_mk _ (by omega) hk]
    simp only [Option.bind_some]
    rw [Mat.addAt_mk _ (by omega) hk]
  · intro g hg c
    dsimp only
    have : g = 0 ∨ g = 1 ∨ g = 2 ∨ g = 3 := by omega
    rcases this with rfl | rfl | rfl | rfl <;>
      simp [Pi.single_apply]

theorem read4_eq (a : Mat ℝ) (k : Nat) (hr : a.rows = 4) (hk : k < a.cols) :
    ∃ v, read4 a k = some v ∧ ∀ g, g < 4 → v g = a.get g k := by
  refine ⟨fun g => if g = 0 then a.get 0 k else if g = 1 then a.get 1 k else if g = 2 then a.get 2 k else a.get 3 k,
    ?_, ?_⟩
  · unfold read4
    rw [Mat.read_eq (by omega) hk, Mat.read_eq (by omega) hk, Mat.read_eq (by omega) hk, Mat.read_eq (by omega) hk]
    rfl
  · intro g hg
    have : g = 0 ∨ g = 1 ∨ g = 2 ∨ g = 3 := by omega
    rcases this with rfl | rfl | rfl | rfl <;> simp

theorem gateRow_eq (n i : Nat) (w : Mat ℝ) (x : Arr ℝ) (z : Mat ℝ) (hw : w.rows = 4) (hwc : i * n + n ≤ w.cols)
    (hx : n ≤ x.len) (hz : z.rows = 4) (hi : i < z.cols) :
    ∃ z', gateRow n i w x z = some z' ∧ z'.rows = 4 ∧ z'.cols = z.cols ∧
      ∀ g, g < 4 → ∀ c, z'.get g c = z.get g c + if c = i then ∑ j ∈ range n, w.get g (i * n + j) * x.get j else 0 := by
  obtain ⟨z', e, h1, h2, h3⟩ := loop_inv (n := n) (s := z)
    (f := fun j (z : Mat ℝ) => (read4 w (i * n + j)).bind fun wv => (x.read j).bind fun xv =>
      add4 z i (fun g => wv g * xv))
    (fun k q => q.rows = 4 ∧ q.cols = z.cols ∧
      ∀ g, g < 4 → ∀ c, q.get g c = z.get g c + if c = i then ∑ j ∈ range k, w.get g (i * n + j) * x.get j else 0)
    ⟨hz, rfl, by intro g _ c; simp⟩
    (by
      rintro k hk q ⟨h1, h2, h3⟩
      obtain ⟨v, ev, hv⟩ := read4_eq w (i * n + k) hw (by omega)
      rw [ev, Arr.read_eq (by omega)]
      simp only [Option.bind_some]
      obtain ⟨q', eq, d1, d2, d3⟩ := add4_eq q i (fun g => v g * x.get k) h1 (by omega)
      refine ⟨q', eq, d1, by omega, fun g hg c => ?_⟩
      rw [d3 g hg c, h3 g hg c, hv g hg]
      by_cases hc : c = i
      · simp only [hc, if_true, Finset.sum_range_succ]; ring
      · simp [hc])
  exact ⟨z', e, h1, h2, h3⟩

/-- The pre-activation of gate `g` of unit `i`. -/
noncomputable def pre (n m : Nat) (z0 : Nat → Nat → ℝ) (w u b : Nat → Nat → ℝ) (x h : Nat → ℝ) (g i : Nat) : ℝ :=
  z0 g i + ∑ j ∈ range n, w g (i * n + j) * x j + ∑ j ∈ range m, u g (i * m + j) * h j + b g i

theorem row_le {a n k : Nat} (h : a < n) : a * k + k ≤ n * k := by
  calc a * k + k = (a + 1) * k := by ring
    _ ≤ n * k := Nat.mul_le_mul_right _ h

theorem lstmFF_eq (n m : Nat) (x h c : Arr ℝ) (w u b : Mat ℝ) (st : Cell)
    (hx : n ≤ x.len) (hh : m ≤ h.len) (hc : m ≤ c.len) (hw : w.rows = 4 ∧ m * n ≤ w.cols)
    (hu : u.rows = 4 ∧ m * m ≤ u.cols) (hb : b.rows = 4 ∧ m ≤ b.cols) (hz : st.z.rows = 4 ∧ m ≤ st.z.cols)
    (hcell : m ≤ st.cell.len) (hhid : m ≤ st.hidden.len) :
    ∃ st', lstmFF n m x h c w u b st = some st' ∧
      (st'.z.rows = 4 ∧ st'.z.cols = st.z.cols ∧ st'.cell.len = st.cell.len ∧ st'.hidden.len = st.hidden.len ∧
        st'.out = st.out) ∧
      ∀ i, i < m →
        (∀ g, g < 4 → st'.z.get g i = pre n m st.z.get w.get u.get b.get x.get h.get g i) ∧
        st'.cell.get i = tanhh (st'.z.get 3 i) * sigmoid (st'.z.get 1 i) + c.get i * sigmoid (st'.z.get 0 i) ∧
        st'.hidden.get i = sigmoid (st'.z.get 2 i) * tanhh (st'.cell.get i) := by
  obtain ⟨st', e, ⟨d1, d2, d3, d4, d5⟩, h1⟩ := loop_inv (n := m) (s := st)
    (f := fun i (st : Cell) => (gateRow n i w x st.z).bind fun z => (gateRow m i u h z).bind fun z =>
      (read4 b i).bind fun bv => (add4 z i bv).bind fun z => (read4 z i).bind fun zv => (c.read i).bind fun cv =>
      (st.cell.write i (tanhh (zv 3) * sigmoid (zv 1) + cv * sigmoid (zv 0))).bind fun cell =>
      (cell.read i).bind fun ct => (st.hidden.write i (sigmoid (zv 2) * tanhh ct)).bind fun hidden =>
      some { st with z := z, cell := cell, hidden := hidden })
    (fun k q => (q.z.rows = 4 ∧ q.z.cols = st.z.cols ∧ q.cell.len = st.cell.len ∧ q.hidden.len = st.hidden.len ∧
        q.out = st.out) ∧
      ∀ i, i < m →
        (∀ g, g < 4 → q.z.get g i = if i < k then pre n m st.z.get w.get u.get b.get x.get h.get g i
          else st.z.get g i) ∧ (i < k →
        q.cell.get i = tanhh (q.z.get 3 i) * sigmoid (q.z.get 1 i) + c.get i * sigmoid (q.z.get 0 i) ∧
        q.hidden.get i = sigmoid (q.z.get 2 i) * tanhh (q.cell.get i)))
    ⟨⟨hz.1, rfl, rfl, rfl, rfl⟩, by intro i _; simp⟩
    (by
      rintro k hk q ⟨⟨a1, a2, a3, a4, a5⟩, hq⟩
      have hkn := row_le (k := n) hk
      have hkm := row_le (k := m) hk
      obtain ⟨z1, e1, r1, c1, g1⟩ := gateRow_eq n k w x q.z hw.1 (by omega) hx a1 (by omega)
      obtain ⟨z2, e2, r2, c2, g2⟩ := gateRow_eq m k u h z1 hu.1 (by omega) hh r1 (by omega)
      obtain ⟨bv, eb, gb⟩ := read4_eq b k hb.1 (by omega)
      obtain ⟨z3, e3, r3, c3, g3⟩ := add4_eq z2 k bv r2 (by omega)
      obtain ⟨zv, ez, gz⟩ := read4_eq z3 k r3 (by omega)
      have hz3 : ∀ g, g < 4 → ∀ i, i < m → z3.get g i =
          if i = k then pre n m st.z.get w.get u.get b.get x.get h.get g i else q.z.get g i := by
        intro g hg i hi
        rw [g3 g hg i, g2 g hg i, g1 g hg i]
        by_cases hik : i = k
        · subst hik
          have := (hq i hi).1 g hg
          simp only [lt_irrefl, if_false] at this
          simp only [if_true, this, gb g hg]
          unfold pre
          ring
        · simp [hik]
      refine ⟨⟨z3, ⟨q.cell.len, Function.update q.cell.get k
          (tanhh (zv 3) * sigmoid (zv 1) + c.get k * sigmoid (zv 0))⟩,
        ⟨q.hidden.len, Function.update q.hidden.get k (sigmoid (zv 2) *
          tanhh (tanhh (zv 3) * sigmoid (zv 1) + c.get k * sigmoid (zv 0)))⟩, q.out⟩, ?_,
        ⟨r3, by dsimp only; omega, a3, a4, a5⟩, ?_⟩
      · refine (bind_some_of e1).trans ?_
        refine (bind_some_of e2).trans ?_
        refine (bind_some_of eb).trans ?_
        refine (bind_some_of e3).trans ?_
        refine (bind_some_of ez).trans ?_
        rw [Arr.read_eq (by omega)]
        simp only [Option.bind_some]
        rw [Arr.write_eq _ (by omega)]
        simp only [Option.bind_some]
        rw [Arr.read_eq (by dsimp only; omega)]
        simp only [Option.bind_some, Function.update_self]
        rw [Arr.write_eq _ (by omega)]
        rfl
      · intro i hi
        dsimp only
        by_cases hik : i = k
        · subst hik
          refine ⟨fun g hg => by rw [hz3 g hg i hi, if_pos rfl, if_pos (by omega)], fun _ => ?_⟩
          rw [Function.update_self, Function.update_self, gz 0 (by omega), gz 1 (by omega), gz 2 (by omega),
            gz 3 (by omega)]
          exact ⟨rfl, rfl⟩
        · rw [Function.update_of_ne hik, Function.update_of_ne hik]
          refine ⟨fun g hg => ?_, fun hik' => ?_⟩
          · rw [hz3 g hg i hi, if_neg hik, (hq i hi).1 g hg]
            exact if_congr (by omega) rfl rfl
          · rw [hz3 0 (by omega) i hi, hz3 1 (by omega) i hi, hz3 2 (by omega) i hi, hz3 3 (by omega) i hi,
              if_neg hik, if_neg hik, if_neg hik, if_neg hik]
            exact (hq i hi).2 (by omega))
  refine ⟨st', e, ⟨d1, d2, d3, d4, d5⟩, fun i hi => ⟨fun g hg => ?_, (h1 i hi).2 hi⟩⟩
  rw [(h1 i hi).1 g hg, if_pos hi]

/-- **C70.** `lstm_ff` computes the LSTM equations: with
`z_g = z_g + W_g x + U_g h + b_g`, forget, input and output gates `σ(z_0)`,
`σ(z_1)`, `σ(z_2)` and candidate `tanh(z_3)`, the new cell is
`σ(z_1)·tanh(z_3) + σ(z_0)·c` and the new hidden state `σ(z_2)·tanh(cell)`,
in every coordinate and without leaving the arrays. -/
theorem C70_lstm_forward (n m : Nat) (x h c : Arr ℝ) (w u b : Mat ℝ) (st : Cell)
    (hx : n ≤ x.len) (hh : m ≤ h.len) (hc : m ≤ c.len) (hw : w.rows = 4 ∧ m * n ≤ w.cols)
    (hu : u.rows = 4 ∧ m * m ≤ u.cols) (hb : b.rows = 4 ∧ m ≤ b.cols) (hz : st.z.rows = 4 ∧ m ≤ st.z.cols)
    (hcell : m ≤ st.cell.len) (hhid : m ≤ st.hidden.len) :
    ∃ st', lstmFF n m x h c w u b st = some st' ∧ ∀ i, i < m →
      (∀ g, g < 4 → st'.z.get g i = st.z.get g i + ∑ j ∈ range n, w.get g (i * n + j) * x.get j +
        ∑ j ∈ range m, u.get g (i * m + j) * h.get j + b.get g i) ∧
      st'.cell.get i = sigmoid (st'.z.get 1 i) * tanhh (st'.z.get 3 i) + sigmoid (st'.z.get 0 i) * c.get i ∧
      st'.hidden.get i = sigmoid (st'.z.get 2 i) * tanhh (st'.cell.get i) := by
  obtain ⟨st', e, -, h⟩ := lstmFF_eq n m x h c w u b st hx hh hc hw hu hb hz hcell hhid
  refine ⟨st', e, fun i hi => ⟨(h i hi).1, ?_, (h i hi).2.2⟩⟩
  rw [(h i hi).2.1]; ring

/-- Non-vacuity: one unit, one input, weight `2` and input `3` on the forget gate. -/
example : ∃ st', lstmFF 1 1 ⟨1, fun _ => 3⟩ ⟨1, fun _ => 0⟩ ⟨1, fun _ => 1⟩
    ⟨4, 1, fun g _ => if g = 0 then 2 else 0⟩ ⟨4, 1, fun _ _ => 0⟩ ⟨4, 1, fun _ _ => 1⟩
    ⟨⟨4, 1, fun _ _ => 0⟩, ⟨1, fun _ => 0⟩, ⟨1, fun _ => 0⟩, ⟨1, fun _ => 0⟩⟩ = some st' ∧ st'.z.get 0 0 = 7 := by
  obtain ⟨st', e, h⟩ := C70_lstm_forward 1 1 ⟨1, fun _ => 3⟩ ⟨1, fun _ => 0⟩ ⟨1, fun _ => 1⟩
    ⟨4, 1, fun g _ => if g = 0 then 2 else 0⟩ ⟨4, 1, fun _ _ => 0⟩ ⟨4, 1, fun _ _ => 1⟩
    ⟨⟨4, 1, fun _ _ => 0⟩, ⟨1, fun _ => 0⟩, ⟨1, fun _ => 0⟩, ⟨1, fun _ => 0⟩⟩
    (by simp) (by simp) (by simp) (by simp) (by simp) (by simp) (by simp) (by simp) (by simp)
  refine ⟨st', e, ?_⟩
  rw [(h 0 (by omega)).1 0 (by omega)]
  norm_num

/-! ### Bounds -/

/-- One step keeps hidden components inside `(-1, 1)` and moves each cell
component to less than one more than its old size. -/
theorem lstm_step_bounds (n m : Nat) (x h c : Arr ℝ) (w u b : Mat ℝ) (st : Cell)
    (hx : n ≤ x.len) (hh : m ≤ h.len) (hc : m ≤ c.len) (hw : w.rows = 4 ∧ m * n ≤ w.cols)
    (hu : u.rows = 4 ∧ m * m ≤ u.cols) (hb : b.rows = 4 ∧ m ≤ b.cols) (hz : st.z.rows = 4 ∧ m ≤ st.z.cols)
    (hcell : m ≤ st.cell.len) (hhid : m ≤ st.hidden.len) :
    ∃ st', lstmFF n m x h c w u b st = some st' ∧
      (st'.cell.len = st.cell.len ∧ st'.hidden.len = st.hidden.len) ∧
      ∀ i, i < m → |st'.hidden.get i| < 1 ∧ |st'.cell.get i| < 1 + |c.get i| := by
  obtain ⟨st', e, ⟨-, -, d1, d2, -⟩, h⟩ := lstmFF_eq n m x h c w u b st hx hh hc hw hu hb hz hcell hhid
  refine ⟨st', e, ⟨d1, d2⟩, fun i hi => ?_⟩
  obtain ⟨-, hcl, hhd⟩ := h i hi
  have tb : ∀ y, |tanhh y| < 1 := fun y => abs_lt.2 ⟨neg_one_lt_tanhh y, tanhh_lt_one y⟩
  have sb : ∀ y, |sigmoid y| < 1 := fun y => by rw [abs_of_pos (sigmoid_pos y)]; exact sigmoid_lt_one y
  constructor
  · rw [hhd, abs_mul]
    exact mul_lt_one_of_nonneg_of_lt_one_left (abs_nonneg _) (sb _) (tb _).le
  · rw [hcl]
    refine (abs_add_le _ _).trans_lt ?_
    rw [abs_mul, abs_mul]
    have h1 : |tanhh (st'.z.get 3 i)| * |sigmoid (st'.z.get 1 i)| < 1 :=
      mul_lt_one_of_nonneg_of_lt_one_left (abs_nonneg _) (tb _) (sb _).le
    have h2 : |c.get i| * |sigmoid (st'.z.get 0 i)| ≤ |c.get i| * 1 :=
      mul_le_mul_of_nonneg_left (sb _).le (abs_nonneg _)
    linarith

/-- One time step's data: input, weights, and the (already allocated) arrays to
fill. The weights may differ from step to step. -/
structure Step where
  (x : Arr ℝ)
  (w u b : Mat ℝ)
  (buf : Cell)

/-- A sequence of `lstm_ff` calls, each on the hidden and cell state left by the
previous one (`/repo/src/rmodel.c` 565-597, one layer, no dropout). -/
noncomputable def runSteps (n m : Nat) : List Step → Arr ℝ → Arr ℝ → Option (Arr ℝ × Arr ℝ)
  | [], h, c => some (h, c)
  | s :: rest, h, c => do
    let r ← lstmFF n m s.x h c s.w s.u s.b s.buf
    runSteps n m rest r.hidden r.cell

/-- The sizes `lstm_ff` relies on. -/
def Step.Sized (n m : Nat) (s : Step) : Prop :=
  n ≤ s.x.len ∧ (s.w.rows = 4 ∧ m * n ≤ s.w.cols) ∧ (s.u.rows = 4 ∧ m * m ≤ s.u.cols) ∧
    (s.b.rows = 4 ∧ m ≤ s.b.cols) ∧ (s.buf.z.rows = 4 ∧ m ≤ s.buf.z.cols) ∧ m ≤ s.buf.cell.len ∧ m ≤ s.buf.hidden.len

theorem runSteps_bounds (n m : Nat) (steps : List Step) (h c : Arr ℝ) (hh : m ≤ h.len) (hc : m ≤ c.len)
    (hs : ∀ s ∈ steps, s.Sized n m) :
    ∃ h' c', runSteps n m steps h c = some (h', c') ∧ ∀ i, i < m →
      (steps ≠ [] → |h'.get i| < 1) ∧ |c'.get i| ≤ |c.get i| + steps.length := by
  induction steps generalizing h c with
  | nil => exact ⟨h, c, rfl, by intro i _; simp⟩
  | cons s rest ih =>
    obtain ⟨a1, a2, a3, a4, a5, a6, a7⟩ := hs s (by simp)
    obtain ⟨st', e, ⟨d1, d2⟩, hb⟩ := lstm_step_bounds n m s.x h c s.w s.u s.b s.buf a1 hh hc a2 a3 a4 a5 a6 a7
    obtain ⟨h', c', e', hb'⟩ := ih st'.hidden st'.cell (by omega) (by omega) (fun t ht => hs t (by simp [ht]))
    refine ⟨h', c', ?_, fun i hi => ⟨fun _ => ?_, ?_⟩⟩
    · unfold runSteps
      exact (bind_some_of e).trans e'
    · cases rest with
      | nil =>
        simp only [runSteps, Option.some.injEq, Prod.mk.injEq] at e'
        rw [← e'.1]
        exact (hb i hi).1
      | cons r rs => exact (hb' i hi).1 (by simp)
    · have := (hb' i hi).2
      have := (hb i hi).2
      simp only [List.length_cons, Nat.cast_add, Nat.cast_one]
      linarith

/-- **C36.** For every sequence of inputs and weights of any length `t ≥ 1`,
starting from any state, each hidden component ends strictly inside `(-1, 1)`
and from a zero cell state each cell component is at most `t` in absolute
value. -/
theorem C36_lstm_bounded (n m : Nat) (steps : List Step) (h c : Arr ℝ) (hh : m ≤ h.len) (hc : m ≤ c.len)
    (hs : ∀ s ∈ steps, s.Sized n m) (hne : steps ≠ []) (h0 : ∀ i, i < m → c.get i = 0) :
    ∃ h' c', runSteps n m steps h c = some (h', c') ∧ ∀ i, i < m →
      -1 < h'.get i ∧ h'.get i < 1 ∧ |c'.get i| ≤ steps.length := by
  obtain ⟨h', c', e, hb⟩ := runSteps_bounds n m steps h c hh hc hs
  refine ⟨h', c', e, fun i hi => ?_⟩
  obtain ⟨b1, b2⟩ := hb i hi
  obtain ⟨b3, b4⟩ := abs_lt.1 (b1 hne)
  refine ⟨b3, b4, ?_⟩
  rwa [h0 i hi, abs_zero, zero_add] at b2

/-- Non-vacuity: two steps of a one-unit cell. -/
example : ∃ h' c', runSteps 1 1 (List.replicate 2 ⟨⟨1, fun _ => 3⟩, ⟨4, 1, fun _ _ => 2⟩, ⟨4, 1, fun _ _ => 5⟩,
    ⟨4, 1, fun _ _ => 1⟩, ⟨⟨4, 1, fun _ _ => 0⟩, ⟨1, fun _ => 0⟩, ⟨1, fun _ => 0⟩, ⟨1, fun _ => 0⟩⟩⟩)
    ⟨1, fun _ => 0⟩ ⟨1, fun _ => 0⟩ = some (h', c') ∧ |c'.get 0| ≤ 2 := by
  obtain ⟨h', c', e, h⟩ := C36_lstm_bounded 1 1 (List.replicate 2 ⟨⟨1, fun _ => 3⟩, ⟨4, 1, fun _ _ => 2⟩,
    ⟨4, 1, fun _ _ => 5⟩, ⟨4, 1, fun _ _ => 1⟩,
    ⟨⟨4, 1, fun _ _ => 0⟩, ⟨1, fun _ => 0⟩, ⟨1, fun _ => 0⟩, ⟨1, fun _ => 0⟩⟩⟩)
    ⟨1, fun _ => 0⟩ ⟨1, fun _ => 0⟩ (by simp) (by simp)
    (by intro s hs; rw [List.eq_of_mem_replicate hs]; simp [Step.Sized]) (by simp) (by simp)
  exact ⟨h', c', e, by simpa using (h 0 (by omega)).2.2⟩

end LLab.LSTM
