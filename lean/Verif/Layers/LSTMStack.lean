import Verif.Layers.BPTT
import Verif.Layers.LSTMStackMath
import Verif.Layers.LSTMPopup

/-!
Stacked LSTM layers unrolled over a window: `ff_rmodel_lstm` (`/repo/src/rmodel.c` 553-662),
`bp_rmodel_lstm` (803-1041) in plain training, and the branches of `lstm_bp`
(`/repo/src/recurrent.c` 183-560) the layers below the top use. Property C144.
-/

namespace LLab.LSTM

open Finset LLab.Act

/-! ### Model -/

/-- The selections of an edge-popup layer. -/
structure Selection where
  (wa ua wIdx uIdx : Mat Nat)
  (k : ℚ)

/-- The fields of one `lstm` the passes read (`/repo/src/llab.h`, `lstm`), with the hidden and
cell state `hidden_states[j], cell_states[j]` the call gets for it. `popup` is set when
`feed_forward_flag` is `EDGE_POPUP`. -/
structure Layer where
  (n m : Nat)
  (maskR maskU h0 c0 : Arr ℝ)
  (w u b : Mat ℝ)
  (residual : Bool)
  (popup : Option Selection)

/-- `sum1D(a,b,a,m)` (`/repo/src/math_functions.c` 859-864). -/
def addArr (m : Nat) (a b : Arr ℝ) : Option (Arr ℝ) :=
  loop m (fun i (a : Arr ℝ) => do
    let v ← b.read i
    a.addAt i v) a

/-- What layer `j` reads in step `i`: the model input, or the output handed up by the layer
below (`input_model[i]` or `lstms[j-1]->out_up[i]`, `/repo/src/rmodel.c` 649-652, 845-1033). -/
def inputOf (x : Mat ℝ) (accs : Arr (Arr Cell)) (j i : Nat) : Option (Arr ℝ) :=
  if j = 0 then rowOf x i else (accs.read (j - 1)).bind fun a => (a.read i).bind fun s => some s.out

/-- The cell of layer `j` in step `i`. An edge-popup layer above the first gets the initial
cell state in every step (`/repo/src/rmodel.c` 632). -/
noncomputable def cellFF (l : Layer) (j i : Nat) (x h c : Arr ℝ) (cur : Cell) : Option Cell :=
  match l.popup with
  | none => lstmFF l.n l.m x h c l.w l.u l.b cur
  | some p => LSTMPopup.lstmFFPopup p.wa p.ua p.wIdx p.uIdx l.n l.m p.k x h (if j ≠ 0 ∧ i ≠ 0 then l.c0 else c) l.w l.u cur

/-- The residual connection (`/repo/src/rmodel.c` 649-652). -/
def residualOut (l : Layer) (x : Mat ℝ) (accs : Arr (Arr Cell)) (j i : Nat) (o : Arr ℝ) : Option (Arr ℝ) :=
  if l.residual then (inputOf x accs j i).bind fun v => addArr l.m o v else some o

/-- The input of layer `j` in the forward pass: the model input or the local `dropout_output`
of the layer below (`/repo/src/rmodel.c` 583, 596, 616, 630). -/
def ffInput (x : Mat ℝ) (o : Arr ℝ) (j i : Nat) : Option (Arr ℝ) := if j = 0 then rowOf x i else some o

/-- One iteration of `ff_rmodel_lstm`: layer `j` in step `i` (`/repo/src/rmodel.c` 566-656).
The masks are the already drawn dropout masks; the second component is the local
`dropout_output`. -/
noncomputable def ffStep (layers : Arr Layer) (x : Mat ℝ) (i j : Nat) (s : Arr (Arr Cell) × Arr ℝ) :
    Option (Arr (Arr Cell) × Arr ℝ) := do
  let l ← layers.read j
  let a ← s.1.read j
  let prev ← prevOf l.h0 l.c0 a i
  let hm ← dropArr l.m l.maskR prev.1
  let inp ← ffInput x s.2 j i
  let cur ← a.read i
  let c ← cellFF l j i inp hm prev.2 cur
  let o ← dropArr l.m l.maskU c.hidden
  let o ← residualOut l x s.1 j i o
  let a' ← a.write i { c with out := o }
  let accs ← s.1.write j a'
  some (accs, o)

/-- `ff_rmodel_lstm` (`/repo/src/rmodel.c` 553-662): `accs` holds, for every layer, the arrays
`lstm_z, lstm_cell, lstm_hidden, out_up` of every step. -/
noncomputable def stackFF (T L : Nat) (layers : Arr Layer) (x : Mat ℝ) (accs : Arr (Arr Cell)) :
    Option (Arr (Arr Cell) × Arr ℝ) :=
  loop T (fun i s => loop L (fun j s => ffStep layers x i j s) s) (accs, ⟨0, fun _ => 0⟩)

/-- The error of the layer above added to `dy`: without a mask with flag `1`
(`/repo/src/recurrent.c` 354-364), times the mask of the upward connection with flag `3`
(488-500). `mUp` is `output_size_up`; rows of `w_up` are `output_size` apart. -/
noncomputable def addUp (m mUp : Nat) (w z d : Mat ℝ) (mask : Option (Arr ℝ)) (dy : Arr ℝ) : Option (Arr ℝ) :=
  loop mUp (fun i dy => loop m (fun j (dy : Arr ℝ) => do
    let dv ← read4 d i
    let zv ← read4 z i
    let wv ← read4 w (i * m + j)
    let k ← (mask.map fun a => a.read j).getD (some 1)
    let dy ← dy.addAt j (dv 0 * dSigmoid (zv 0) * wv 0 * k)
    let dy ← dy.addAt j (dv 1 * dSigmoid (zv 1) * wv 1 * k)
    let dy ← dy.addAt j (dv 2 * dSigmoid (zv 2) * wv 2 * k)
    dy.addAt j (dv 3 * sigmoid (zv 1) * dTanhh (zv 3) * wv 3 * k)) dy) dy

/-- `dy[i] *= dropout_mask[i]` (`/repo/src/recurrent.c` 372); the code does it just before
the unit uses `dy[i]`, the only use. -/
def maskDy (m : Nat) (mask dy : Arr ℝ) : Option (Arr ℝ) :=
  loop m (fun i (dy : Arr ℝ) => do
    let v ← dy.read i
    let k ← mask.read i
    dy.write i (v * k)) dy

/-- What `bp_rmodel_lstm` passes of the layer above: size, weights, pre-activations of the
step, and the gate errors `matrix[j+1]`. -/
structure Up where
  (m : Nat)
  (w z d : Mat ℝ)

/-- The `dy` the rest of `lstm_bp` works with, for the four flags: `up` is given to the layers
below the top (flags `1` and `3`), `plus` in all steps but the last (flags `2` and `3`)
(`/repo/src/recurrent.c` 299, 351-372, 408-419, 473-502). -/
noncomputable def stackDy (m : Nat) (up : Option Up) (plus : Option (Mat ℝ × Mat ℝ)) (u : Mat ℝ)
    (maskU maskR dy : Arr ℝ) : Option (Arr ℝ) :=
  match up with
  | none => totalDy m plus u maskR dy
  | some v =>
    match plus with
    | none => (addUp m v.m v.w v.z v.d none dy).bind fun dy => maskDy m maskU dy
    | some (zp, dp) => (addRecurrent m u zp dp maskR dy).bind fun dy => addUp m v.m v.w v.z v.d (some maskU) dy

/-- `dx` before the call: the masked error for the top layer, otherwise zeros, plus `dz` when
the layer above is residual (`/repo/src/rmodel.c` 821-823, 843-845 and 962-964, 982-984). -/
def startDx (L : Nat) (layers : Arr Layer) (err : Mat ℝ) (dz : Arr ℝ) (l : Layer) (j t : Nat) : Option (Arr ℝ) :=
  if j = L - 1 then (rowOf err t).bind fun e => dropArr l.m l.maskU e
  else (layers.read (j + 1)).bind fun a =>
    if a.residual then addArr l.m ⟨l.m, fun _ => 0⟩ dz else some ⟨l.m, fun _ => 0⟩

/-- The arguments for the layer above (`/repo/src/rmodel.c` 838, 893, 922). -/
def upOf (L : Nat) (layers : Arr Layer) (accs : Arr (Arr Cell)) (gs : Arr Grads) (j t : Nat) : Option (Option Up) :=
  if j = L - 1 then some none
  else (layers.read (j + 1)).bind fun a => (accs.read (j + 1)).bind fun q => (q.read t).bind fun c =>
    (gs.read (j + 1)).bind fun G => some (some ⟨a.m, a.w, c.z, G.dfioc⟩)

/-- One iteration of `bp_rmodel_lstm`: layer `L-1-jj` in step `T-1-k`
(`/repo/src/rmodel.c` 820-953 and 961-1039). `st.1` holds the gradients of every layer and
`matrix`; `st.2` is `dz`, a copy of the `dx` the call has changed. Plain training; without
`input_error` (C72). -/
noncomputable def bpStep (T L : Nat) (layers : Arr Layer) (x err : Mat ℝ) (accs : Arr (Arr Cell)) (k jj : Nat)
    (st : Arr Grads × Arr ℝ) : Option (Arr Grads × Arr ℝ) := do
  let l ← layers.read (L - 1 - jj)
  let a ← accs.read (L - 1 - jj)
  let G ← st.1.read (L - 1 - jj)
  let dx ← startDx L layers err st.2 l (L - 1 - jj) (T - 1 - k)
  let prev ← prevOf l.h0 l.c0 a (T - 1 - k)
  let hm ← dropArr l.m l.maskR prev.1
  let xr ← inputOf x accs (L - 1 - jj) (T - 1 - k)
  let cur ← a.read (T - 1 - k)
  let plus ← plusOf T (T - 1 - k) a G.dfioc
  let up ← upOf L layers accs st.1 (L - 1 - jj) (T - 1 - k)
  let dy ← stackDy l.m up plus l.u l.maskU l.maskR dx
  let G' ← bpUnits l.n l.m plus cur.z dy xr cur.cell hm prev.2 G
  let gs ← st.1.write (L - 1 - jj) G'
  some (gs, dy)

/-- `bp_rmodel_lstm` (`/repo/src/rmodel.c` 803-1041). -/
noncomputable def stackBP (T L : Nat) (layers : Arr Layer) (x err : Mat ℝ) (accs : Arr (Arr Cell))
    (gs : Arr Grads) : Option (Arr Grads × Arr ℝ) :=
  loop T (fun k st => loop L (fun jj st => bpStep T L layers x err accs k jj st) st) (gs, ⟨0, fun _ => 0⟩)

/-! ### Small steps -/

theorem addUp_eq (m mUp : Nat) (w z d : Mat ℝ) (mask : Option (Arr ℝ)) (dy : Arr ℝ)
    (hw : w.rows = 4 ∧ mUp * m ≤ w.cols) (hz : z.rows = 4 ∧ mUp ≤ z.cols) (hd : d.rows = 4 ∧ mUp ≤ d.cols)
    (hm : ∀ a, mask = some a → m ≤ a.len) (hy : m ≤ dy.len) :
    ∃ dy', addUp m mUp w z d mask dy = some dy' ∧ dy'.len = dy.len ∧
      ∀ j, j < m → dy'.get j = dy.get j + (∑ i ∈ range mUp, ∑ g ∈ range 4,
        gateErr z.get d.get g i * w.get g (i * m + j)) * (mask.map fun a => a.get j).getD 1 := by
  obtain ⟨K, hK⟩ : ∃ K : Nat → ℝ, K = fun j => (mask.map fun a => a.get j).getD 1 := ⟨_, rfl⟩
  have hmask : ∀ j, j < m → (mask.map fun a => a.read j).getD (some 1) = some (K j) := by
    intro j hj
    rw [hK]
    rcases mask with _ | a
    · rfl
    · simp only [Option.map_some, Option.getD_some]
      exact Arr.read_eq (by have := hm a rfl; omega)
  obtain ⟨dy', e, h1, h2⟩ := loop2_inv (A := mUp) (B := m) (st := dy)
    (f := fun i j (dy : Arr ℝ) => (read4 d i).bind fun dv => (read4 z i).bind fun zv =>
      (read4 w (i * m + j)).bind fun wv => ((mask.map fun a => a.read j).getD (some 1)).bind fun k =>
      (dy.addAt j (dv 0 * dSigmoid (zv 0) * wv 0 * k)).bind fun dy =>
      (dy.addAt j (dv 1 * dSigmoid (zv 1) * wv 1 * k)).bind fun dy =>
      (dy.addAt j (dv 2 * dSigmoid (zv 2) * wv 2 * k)).bind fun dy =>
      dy.addAt j (dv 3 * sigmoid (zv 1) * dTanhh (zv 3) * wv 3 * k))
    (fun r s q => q.len = dy.len ∧ ∀ j, j < m → q.get j = dy.get j +
      (∑ i ∈ range (if j < s then r + 1 else r), ∑ g ∈ range 4,
        gateErr z.get d.get g i * w.get g (i * m + j)) * K j)
    ⟨rfl, by intro j _; simp⟩
    (by
      rintro r hr s hs q ⟨h1, h2⟩
      have := row_le (k := m) hr
      obtain ⟨dv, ed, gd⟩ := read4_eq d r hd.1 (by omega)
      obtain ⟨zv, ez, gz⟩ := read4_eq z r hz.1 (by omega)
      obtain ⟨wv, eu, gu⟩ := read4_eq w (r * m + s) hw.1 (by omega)
      refine ⟨⟨q.len, fun j => if j = s then q.get s + dv 0 * dSigmoid (zv 0) * wv 0 * K s +
        dv 1 * dSigmoid (zv 1) * wv 1 * K s + dv 2 * dSigmoid (zv 2) * wv 2 * K s +
        dv 3 * sigmoid (zv 1) * dTanhh (zv 3) * wv 3 * K s else q.get j⟩, ?_, h1, ?_⟩
      · refine (bind_some_of ed).trans ((bind_some_of ez).trans ((bind_some_of eu).trans
          ((bind_some_of (hmask s hs)).trans ?_)))
        rw [Arr.addAt_eq' _ (by omega)]
        simp only [Option.bind_some]
        rw [Arr.addAt_eq' _ (by dsimp only; omega)]
        simp only [Option.bind_some]
        rw [Arr.addAt_eq' _ (by dsimp only; omega)]
        simp only [Option.bind_some]
        rw [Arr.addAt_eq' _ (by dsimp only; omega)]
        congr 2
        funext j
        by_cases hj : j = s
        · subst hj; simp
        · simp [hj]
      · intro j hj
        dsimp only
        by_cases hjs : j = s
        · subst hjs
          have := h2 j hj
          simp only [lt_irrefl, if_false] at this
          rw [if_pos rfl, if_pos (by omega), Finset.sum_range_succ, this]
          simp only [Finset.sum_range_succ _ 3, Finset.sum_range_succ _ 2, Finset.sum_range_succ _ 1,
            Finset.sum_range_succ _ 0, Finset.sum_range_zero, gateErr, gd 0 (by omega),
            gd 1 (by omega), gd 2 (by omega), gd 3 (by omega), gz 0 (by omega), gz 1 (by omega), gz 2 (by omega),
            gz 3 (by omega), gu 0 (by omega), gu 1 (by omega), gu 2 (by omega), gu 3 (by omega)]
          simp
          ring
        · rw [if_neg hjs, h2 j hj]
          congr 4
          exact if_congr (by omega) rfl rfl)
    (by
      rintro r hr q ⟨h1, h2⟩
      refine ⟨h1, fun j hj => ?_⟩
      rw [h2 j hj, if_pos hj, if_neg (by omega)])
  refine ⟨dy', e, h1, fun j hj => ?_⟩
  rw [h2 j hj, hK]
  simp

theorem maskDy_eq (m : Nat) (mask dy : Arr ℝ) (hm : m ≤ mask.len) (hy : m ≤ dy.len) :
    ∃ dy', maskDy m mask dy = some dy' ∧ dy'.len = dy.len ∧ ∀ j, j < m → dy'.get j = dy.get j * mask.get j := by
  obtain ⟨o, e, h1, h2, -⟩ := loop_inv (n := m) (s := dy)
    (f := fun i (o : Arr ℝ) => (o.read i).bind fun v => (mask.read i).bind fun k => o.write i (v * k))
    (fun k o => o.len = dy.len ∧ (∀ i, i < k → o.get i = dy.get i * mask.get i) ∧ ∀ i, k ≤ i → o.get i = dy.get i)
    ⟨rfl, by intro i hi; omega, fun _ _ => rfl⟩
    (by
      rintro k hk o ⟨h1, h2, h3⟩
      rw [Arr.read_eq (by omega), Arr.read_eq (by omega)]
      simp only [Option.bind_some]
      rw [Arr.write_eq _ (by omega)]
      refine ⟨_, rfl, h1, fun i hi => ?_, fun i hi => ?_⟩
      · dsimp only
        by_cases hik : i = k
        · subst hik; rw [Function.update_self, h3 i le_rfl]
        · rw [Function.update_of_ne hik]; exact h2 i (by omega)
      · dsimp only
        rw [Function.update_of_ne (by omega)]; exact h3 i (by omega))
  exact ⟨o, e, h1, h2⟩

/-- What comes from the next step. -/
noncomputable def recPart (m : Nat) (plus : Option (Mat ℝ × Mat ℝ)) (u : Mat ℝ) (maskR : Arr ℝ) (j : Nat) : ℝ :=
  match plus with
  | none => 0
  | some q => backH m u.get maskR.get q.1.get q.2.get j

/-- What `stackDy` adds: `E` is the error of the layer above on the outputs of this one. -/
theorem stackDy_eq (m : Nat) (up : Option Up) (plus : Option (Mat ℝ × Mat ℝ)) (u : Mat ℝ) (maskU maskR dy : Arr ℝ)
    (hv : ∀ v, up = some v → (v.w.rows = 4 ∧ v.m * m ≤ v.w.cols) ∧ (v.z.rows = 4 ∧ v.m ≤ v.z.cols) ∧
      (v.d.rows = 4 ∧ v.m ≤ v.d.cols))
    (hp : ∀ q, plus = some q → (q.1.rows = 4 ∧ m ≤ q.1.cols) ∧ (q.2.rows = 4 ∧ m ≤ q.2.cols))
    (hu : u.rows = 4 ∧ m * m ≤ u.cols) (hU : m ≤ maskU.len) (hR : m ≤ maskR.len) (hdy : m ≤ dy.len) :
    ∃ dy', stackDy m up plus u maskU maskR dy = some dy' ∧ dy'.len = dy.len ∧ ∀ j, j < m →
      dy'.get j = (match up with
        | none => dy.get j
        | some v => (if plus.isSome then dy.get j else dy.get j * maskU.get j) +
            (∑ i ∈ range v.m, ∑ g ∈ range 4, gateErr v.z.get v.d.get g i * v.w.get g (i * m + j)) * maskU.get j) +
        recPart m plus u maskR j := by
  rcases up with _ | v <;> rcases plus with _ | ⟨zp, dp⟩
  · exact ⟨dy, rfl, rfl, fun j _ => by simp [recPart]⟩
  · obtain ⟨h1, h2⟩ := hp (zp, dp) rfl
    exact addRecurrent_eq m u zp dp maskR dy hu h1 h2 hR hdy
  · obtain ⟨h1, h2, h3⟩ := hv v rfl
    obtain ⟨d1, e1, l1, g1⟩ := addUp_eq m v.m v.w v.z v.d none dy h1 h2 h3 (by simp) hdy
    obtain ⟨d2, e2, l2, g2⟩ := maskDy_eq m maskU d1 hU (by omega)
    refine ⟨d2, (bind_some_of e1).trans e2, by omega, fun j hj => ?_⟩
    rw [g2 j hj, g1 j hj]
    simp [recPart]
    ring
  · obtain ⟨h1, h2, h3⟩ := hv v rfl
    obtain ⟨h4, h5⟩ := hp (zp, dp) rfl
    obtain ⟨d1, e1, l1, g1⟩ := addRecurrent_eq m u zp dp maskR dy hu h4 h5 hR hdy
    obtain ⟨d2, e2, l2, g2⟩ := addUp_eq m v.m v.w v.z v.d (some maskU) d1 h1 h2 h3
      (by rintro a h; cases h; exact hU) (by omega)
    refine ⟨d2, (bind_some_of e1).trans e2, by omega, fun j hj => ?_⟩
    rw [g2 j hj, g1 j hj]
    simp [recPart]
    ring

/-! ### The forward pass -/

/-- The arrays of one layer over a window of `T` steps have the sizes `recurrent` gives
them. -/
structure Layer.Ok (T : Nat) (l : Layer) (a : Arr Cell) : Prop where
  maskR : l.m ≤ l.maskR.len
  maskU : l.m ≤ l.maskU.len
  h0 : l.m ≤ l.h0.len
  c0 : l.m ≤ l.c0.len
  w : l.w.rows = 4 ∧ l.m * l.n ≤ l.w.cols
  u : l.u.rows = 4 ∧ l.m * l.m ≤ l.u.cols
  b : l.b.rows = 4 ∧ l.m ≤ l.b.cols
  len : a.len = T
  cells : ∀ t, t < T → (a.get t).Sized l.m

/-- A stack of `L` plain layers (no residual connection, no edge-popup), each reading as many
values as the one below hands up. -/
structure StackOk (T L : Nat) (layers : Arr Layer) (x : Mat ℝ) (accs : Arr (Arr Cell)) : Prop where
  pos : 0 < L
  lenL : layers.len = L
  lenA : accs.len = L
  inp : T ≤ x.rows ∧ (layers.get 0).n ≤ x.cols
  link : ∀ j, j + 1 < L → (layers.get (j + 1)).n = (layers.get j).m
  plain : ∀ j, j < L → (layers.get j).residual = false ∧ (layers.get j).popup = none
  ok : ∀ j, j < L → (layers.get j).Ok T (accs.get j)

/-- The layer as the equations see it. -/
def lpOf (l : Layer) (a : Arr Cell) : LP :=
  ⟨l.n, l.m, fun t => (a.get t).z.get, l.maskR.get, l.maskU.get, l.h0.get, l.c0.get, l.w.get, l.u.get, l.b.get⟩

/-- The stack as the equations see it. -/
def lpsOf (layers : Arr Layer) (accs : Arr (Arr Cell)) (j : Nat) : LP := lpOf (layers.get j) (accs.get j)

/-- Step `t` of layer `j` holds the values of the equations. -/
def StackHolds (layers : Arr Layer) (x : Mat ℝ) (accs : Arr (Arr Cell)) (j t : Nat) (s : Cell) : Prop :=
  Holds (layers.get j).m (layers.get j).maskU.get
    ((lpsOf layers accs j).pr (stackIn (lpsOf layers accs) x.get j))
    ((lpsOf layers accs j).st (stackIn (lpsOf layers accs) x.get j)) t s

theorem stackFF_eq (T L : Nat) (layers : Arr Layer) (x : Mat ℝ) (accs : Arr (Arr Cell))
    (hs : StackOk T L layers x accs) :
    ∃ accs' o, stackFF T L layers x accs = some (accs', o) ∧ accs'.len = L ∧
      ∀ j, j < L → (accs'.get j).len = T ∧ ∀ t, t < T → StackHolds layers x accs j t ((accs'.get j).get t) := by
  obtain ⟨⟨q, o⟩, e, h1, h2, -, -⟩ := loop2_inv (A := T) (B := L) (st := (accs, (⟨0, fun _ => 0⟩ : Arr ℝ)))
    (f := fun i j s => ffStep layers x i j s)
    (fun i j s => s.1.len = L ∧
      (∀ l, l < L → (s.1.get l).len = T ∧ ∀ t, t < T → (t < i ∨ t = i ∧ l < j) →
        StackHolds layers x accs l t ((s.1.get l).get t)) ∧
      (∀ l, l < L → ∀ t, (i < t ∨ t = i ∧ j ≤ l) → (s.1.get l).get t = (accs.get l).get t) ∧
      (0 < j → (layers.get (j - 1)).m ≤ s.2.len ∧ ∀ p, p < (layers.get (j - 1)).m →
        s.2.get p = stackIn (lpsOf layers accs) x.get j i p))
    ⟨hs.lenA, fun l hl => ⟨(hs.ok l hl).len, fun t _ h => by omega⟩, fun _ _ _ _ => rfl, fun h => by omega⟩
    (by
      rintro i hi j hj ⟨q, o⟩ ⟨h1, h2, h3, h4⟩
      dsimp only at h1 h2 h3 h4
      have ok := hs.ok j hj
      obtain ⟨hres, hpop⟩ := hs.plain j hj
      obtain ⟨l2, H2⟩ := h2 j hj
      obtain ⟨pr, epr, lp1, lp2, gp⟩ := prevOf_eq (layers.get j).m i (layers.get j).maskU.get
        ((lpsOf layers accs j).pr (stackIn (lpsOf layers accs) x.get j))
        ((lpsOf layers accs j).st (stackIn (lpsOf layers accs) x.get j)) (layers.get j).h0 (layers.get j).c0 (q.get j)
        ok.h0 ok.c0 rfl (fun t ht => H2 t (by omega) (Or.inl ht)) i le_rfl (by omega)
      obtain ⟨hm, ehm, lhm, ghm⟩ := dropArr_eq (layers.get j).m (layers.get j).maskR pr.1 ok.maskR lp1
      obtain ⟨inp, einp, linp, ginp⟩ : ∃ inp, ffInput x o j i = some inp ∧
          (layers.get j).n ≤ inp.len ∧ ∀ p, p < (layers.get j).n →
            inp.get p = stackIn (lpsOf layers accs) x.get j i p := by
        unfold ffInput
        by_cases h0 : j = 0
        · subst h0
          refine ⟨⟨x.cols, x.get i⟩, ?_, hs.inp.2, fun p _ => rfl⟩
          rw [if_pos rfl]
          unfold rowOf
          rw [if_pos (by have := hs.inp.1; omega)]
        · obtain ⟨a1, a2⟩ := h4 (by omega)
          have hlk := hs.link (j - 1) (by omega)
          rw [show j - 1 + 1 = j by omega] at hlk
          exact ⟨o, by rw [if_neg h0], by omega, fun p hp => a2 p (by omega)⟩
      obtain ⟨c1, c2, c3⟩ := ok.cells i hi
      rw [← h3 j hj i (Or.inr ⟨rfl, le_rfl⟩)] at c1 c2 c3
      obtain ⟨s, es, ⟨d1, d2, d3, d4, d5⟩, gs⟩ := lstmFF_eq (layers.get j).n (layers.get j).m inp hm pr.2
        (layers.get j).w (layers.get j).u (layers.get j).b ((q.get j).get i) linp
        (by omega) lp2 ok.w ok.u ok.b c1 c2 c3
      obtain ⟨oo, eo, lo, go⟩ := dropArr_eq (layers.get j).m (layers.get j).maskU s.hidden ok.maskU (by omega)
      have hz : ∀ p, p < (layers.get j).m → ∀ g, g < 4 → s.z.get g p =
          (lpsOf layers accs j).pr (stackIn (lpsOf layers accs) x.get j) i g p := by
        intro p hp g hg
        rw [(gs p hp).1 g hg, h3 j hj i (Or.inr ⟨rfl, le_rfl⟩)]
        exact pre_congr (fun k hk => by rw [ghm k hk, (gp k hk).1]; rfl) (fun k hk => ginp k hk) g p
      have hc : ∀ p, p < (layers.get j).m → s.cell.get p =
          ((lpsOf layers accs j).st (stackIn (lpsOf layers accs) x.get j) (i + 1)).2 p := by
        intro p hp
        rw [(gs p hp).2.1, hz p hp 3 (by omega), hz p hp 1 (by omega), hz p hp 0 (by omega), (gp p hp).2]
        rfl
      have hh : ∀ p, p < (layers.get j).m → s.hidden.get p =
          ((lpsOf layers accs j).st (stackIn (lpsOf layers accs) x.get j) (i + 1)).1 p := by
        intro p hp
        rw [(gs p hp).2.2, hz p hp 2 (by omega), hc p hp]
        rfl
      refine ⟨(⟨q.len, Function.update q.get j
        ⟨(q.get j).len, Function.update (q.get j).get i { s with out := oo }⟩⟩, oo), ?_, h1, ?_, ?_, ?_⟩
      · unfold ffStep
        rw [Arr.read_eq (by have := hs.lenL; omega)]
        refine (bind_some_of rfl).trans ?_
        rw [Arr.read_eq (by dsimp only; omega)]
        refine (bind_some_of rfl).trans ((bind_some_of epr).trans ((bind_some_of ehm).trans
          ((bind_some_of einp).trans ?_)))
        rw [Arr.read_eq (by dsimp only; omega)]
        refine (bind_some_of rfl).trans ?_
        unfold cellFF residualOut
        rw [hpop, hres]
        refine (bind_some_of es).trans ((bind_some_of eo).trans ((bind_some_of rfl).trans ?_))
        rw [Arr.write_eq _ (by dsimp only; omega)]
        refine (bind_some_of rfl).trans ?_
        rw [Arr.write_eq _ (by dsimp only; omega)]
        rfl
      · intro l hl
        dsimp only
        by_cases hlj : l = j
        · subst hlj
          rw [Function.update_self]
          refine ⟨l2, fun t ht hcase => ?_⟩
          dsimp only
          by_cases hti : t = i
          · subst hti
            rw [Function.update_self]
            refine ⟨⟨⟨d1, by dsimp only; omega⟩, by dsimp only; omega, by dsimp only; omega⟩, by dsimp only; omega,
              fun p hp => ⟨hz p hp, hc p hp, hh p hp, ?_⟩⟩
            dsimp only
            rw [go p hp, hh p hp]
          · rw [Function.update_of_ne hti]
            exact H2 t ht (by omega)
        · rw [Function.update_of_ne hlj]
          exact ⟨(h2 l hl).1, fun t ht hcase => (h2 l hl).2 t ht (by omega)⟩
      · intro l hl t hcase
        dsimp only
        by_cases hlj : l = j
        · subst hlj
          rw [Function.update_self]
          dsimp only
          rw [Function.update_of_ne (by omega)]
          exact h3 l hl t (by omega)
        · rw [Function.update_of_ne hlj]
          exact h3 l hl t (by omega)
      · intro _
        rw [Nat.add_sub_cancel]
        refine ⟨by dsimp only; omega, fun p hp => ?_⟩
        dsimp only
        rw [go p hp, hh p hp]
        rfl)
    (by
      rintro i hi ⟨q, o⟩ ⟨h1, h2, h3, -⟩
      refine ⟨h1, fun l hl => ⟨(h2 l hl).1, fun t ht h => (h2 l hl).2 t ht (by omega)⟩,
        fun l hl t h => h3 l hl t (by omega), fun h => by omega⟩)
  exact ⟨q, o, e, h1, fun j hj => ⟨(h2 j hj).1, fun t ht => (h2 j hj).2 t ht (Or.inl ht)⟩⟩

/-! ### The backward pass -/

/-- The adjoints of layer `j` in step `T-1-κ`. -/
noncomputable def stackAd (T L : Nat) (layers : Arr Layer) (x err : Mat ℝ) (accs : Arr (Arr Cell)) (j : Nat) :
    Nat → Nat → Nat → ℝ :=
  (lpsOf layers accs j).ad (stackIn (lpsOf layers accs) x.get j) T
    (outErr (lpsOf layers accs) x.get T L err.get (L - 1 - j))

/-- The pre-activations of layer `j`. -/
noncomputable def stackPr (layers : Arr Layer) (x : Mat ℝ) (accs : Arr (Arr Cell)) (j : Nat) : Nat → Nat → Nat → ℝ :=
  (lpsOf layers accs j).pr (stackIn (lpsOf layers accs) x.get j)

/-- The states of layer `j`. -/
noncomputable def stackSt (layers : Arr Layer) (x : Mat ℝ) (accs : Arr (Arr Cell)) (j : Nat) :
    Nat → (Nat → ℝ) × (Nat → ℝ) :=
  (lpsOf layers accs j).st (stackIn (lpsOf layers accs) x.get j)

/-- The gradients of layer `j` after `c` of its steps. -/
def LayerDone (T L : Nat) (layers : Arr Layer) (x err : Mat ℝ) (accs : Arr (Arr Cell)) (j c : Nat) (G G' : Grads) :
    Prop :=
  G'.Sized (layers.get j).n (layers.get j).m ∧
  (0 < c → (G'.dfioc.rows = 4 ∧ G'.dfioc.cols = (layers.get j).m) ∧ ∀ g, g < 4 → ∀ i, i < (layers.get j).m →
    G'.dfioc.get g i = stackAd T L layers x err accs j (c - 1) g i) ∧
  ∀ g, g < 4 → ∀ p, p < (layers.get j).m →
    (∀ q, q < (layers.get j).n → G'.dw.get g (p * (layers.get j).n + q) = G.dw.get g (p * (layers.get j).n + q) +
      ∑ κ ∈ range c, gateErr (stackPr layers x accs j (T - 1 - κ)) (stackAd T L layers x err accs j κ) g p *
        stackIn (lpsOf layers accs) x.get j (T - 1 - κ) q) ∧
    (∀ q, q < (layers.get j).m → G'.du.get g (p * (layers.get j).m + q) = G.du.get g (p * (layers.get j).m + q) +
      ∑ κ ∈ range c, gateErr (stackPr layers x accs j (T - 1 - κ)) (stackAd T L layers x err accs j κ) g p *
        ((layers.get j).maskR.get q * (stackSt layers x accs j (T - 1 - κ)).1 q)) ∧
    G'.db.get g p = G.db.get g p +
      ∑ κ ∈ range c, gateErr (stackPr layers x accs j (T - 1 - κ)) (stackAd T L layers x err accs j κ) g p

theorem stackAd_eq (T L : Nat) (layers : Arr Layer) (x err : Mat ℝ) (accs : Arr (Arr Cell)) (j : Nat) :
    stackAd T L layers x err accs j = adj (layers.get j).m T (layers.get j).u.get (layers.get j).maskR.get
      (stackPr layers x accs j) (fun t => (stackSt layers x accs j t).2) (fun t i => (layers.get j).maskU.get i *
        outErr (lpsOf layers accs) x.get T L err.get (L - 1 - j) t i) := rfl

theorem outErr_up (T L : Nat) (layers : Arr Layer) (x err : Mat ℝ) (accs : Arr (Arr Cell)) (j t : Nat)
    (hj : j + 1 < L) (q : Nat) :
    outErr (lpsOf layers accs) x.get T L err.get (L - 1 - j) t q =
      ∑ i ∈ range (layers.get (j + 1)).m, ∑ g ∈ range 4,
        gateErr (stackPr layers x accs (j + 1) t) (stackAd T L layers x err accs (j + 1) (T - 1 - t)) g i *
          (layers.get (j + 1)).w.get g (i * (layers.get (j + 1)).n + q) := by
  obtain ⟨d, hd⟩ : ∃ d, L - 1 - j = d + 1 := ⟨L - 1 - j - 1, by omega⟩
  rw [hd]
  have hj' : L - 1 - d = j + 1 := by omega
  have hd' : L - 1 - (j + 1) = d := by omega
  unfold stackPr stackAd
  rw [hd']
  show (lpsOf layers accs (L - 1 - d)).inErr _ T _ t q = _
  rw [hj']
  rfl

theorem bpStep_eq (T L : Nat) (hT : 2 ≤ T) (layers : Arr Layer) (x err : Mat ℝ) (accs accs' : Arr (Arr Cell))
    (gs : Arr Grads) (hs : StackOk T L layers x accs) (he : T ≤ err.rows ∧ (layers.get (L - 1)).m ≤ err.cols)
    (hl : accs'.len = L)
    (hacc : ∀ j, j < L → (accs'.get j).len = T ∧ ∀ t, t < T → StackHolds layers x accs j t ((accs'.get j).get t))
    (k jj j : Nat) (hk : k < T) (hjj : jj < L) (hj : L - 1 - jj = j) (st : Arr Grads × Arr ℝ) (hst : st.1.len = L)
    (hown : LayerDone T L layers x err accs j k (gs.get j) (st.1.get j))
    (hup : j + 1 < L → LayerDone T L layers x err accs (j + 1) (k + 1) (gs.get (j + 1)) (st.1.get (j + 1))) :
    ∃ G' dz, bpStep T L layers x err accs' k jj st = some (⟨st.1.len, Function.update st.1.get j G'⟩, dz) ∧
      LayerDone T L layers x err accs j (k + 1) (gs.get j) G' := by
  have hjL : j < L := by omega
  have ok := hs.ok j hjL
  obtain ⟨lacc, Hacc⟩ := hacc j hjL
  obtain ⟨h1, h2, h3⟩ := hown
  -- the error the call starts from
  obtain ⟨dx, edx, ldx, gdx⟩ : ∃ dx, startDx L layers err st.2 (layers.get j) j (T - 1 - k) = some dx ∧
      (layers.get j).m ≤ dx.len ∧ ∀ q, q < (layers.get j).m →
        dx.get q = if j = L - 1 then (layers.get j).maskU.get q * err.get (T - 1 - k) q else 0 := by
    unfold startDx
    by_cases hjt : j = L - 1
    · obtain ⟨dx, edx, ldx, gdx⟩ := dropArr_eq (layers.get j).m (layers.get j).maskU
        ⟨err.cols, err.get (T - 1 - k)⟩ ok.maskU (by rw [hjt]; exact he.2)
      refine ⟨dx, ?_, by omega, fun q hq => ?_⟩
      · rw [if_pos hjt]
        unfold rowOf
        rw [if_pos (by omega)]
        exact (bind_some_of rfl).trans edx
      · rw [if_pos hjt, gdx q hq]
    · refine ⟨⟨(layers.get j).m, fun _ => 0⟩, ?_, le_rfl, fun q hq => ?_⟩
      · rw [if_neg hjt, Arr.read_eq (by have := hs.lenL; omega)]
        refine (bind_some_of rfl).trans ?_
        rw [(hs.plain (j + 1) (by omega)).1]
        rfl
      · rw [if_neg hjt]
  obtain ⟨pr, epr, lp1, lp2, gp⟩ := prevOf_eq (layers.get j).m T (layers.get j).maskU.get
    (stackPr layers x accs j) (stackSt layers x accs j) (layers.get j).h0 (layers.get j).c0 (accs'.get j)
    ok.h0 ok.c0 rfl (fun t ht => Hacc t ht) (T - 1 - k) (by omega) (by omega)
  obtain ⟨hm, ehm, lhm, ghm⟩ := dropArr_eq (layers.get j).m (layers.get j).maskR pr.1 ok.maskR lp1
  obtain ⟨xr, exr, lxr, gxr⟩ : ∃ xr, inputOf x accs' j (T - 1 - k) = some xr ∧ (layers.get j).n ≤ xr.len ∧
      ∀ q, q < (layers.get j).n → xr.get q = stackIn (lpsOf layers accs) x.get j (T - 1 - k) q := by
    unfold inputOf
    by_cases h0 : j = 0
    · subst h0
      refine ⟨⟨x.cols, x.get (T - 1 - k)⟩, ?_, hs.inp.2, fun p _ => rfl⟩
      rw [if_pos rfl]
      unfold rowOf
      rw [if_pos (by have := hs.inp.1; omega)]
    · obtain ⟨i, rfl⟩ : ∃ i, j = i + 1 := ⟨j - 1, by omega⟩
      obtain ⟨la, Ha⟩ := hacc i (by omega)
      obtain ⟨-, lo, Hb⟩ := Ha (T - 1 - k) (by omega)
      have hlk := hs.link i (by omega)
      refine ⟨((accs'.get i).get (T - 1 - k)).out, ?_, by omega, fun p hp => (Hb p (by omega)).2.2.2⟩
      rw [if_neg (by omega), Nat.add_sub_cancel, Arr.read_eq (by omega)]
      refine (bind_some_of rfl).trans ?_
      rw [Arr.read_eq (by omega)]
      rfl
  obtain ⟨⟨c1, c2, c3⟩, -, c4⟩ := Hacc (T - 1 - k) (by omega)
  obtain ⟨plus, hplus⟩ : ∃ plus, plus =
    (if k = 0 then none else some (((accs'.get j).get (T - 1 - (k - 1))).z, (st.1.get j).dfioc)) := ⟨_, rfl⟩
  have hplusOk : ∀ q, plus = some q → (q.1.rows = 4 ∧ (layers.get j).m ≤ q.1.cols) ∧
      (q.2.rows = 4 ∧ (layers.get j).m ≤ q.2.cols) := by
    intro q hq
    by_cases hk0 : k = 0
    · rw [if_pos hk0] at hplus; rw [hplus] at hq; cases hq
    · rw [if_neg hk0] at hplus
      rw [hplus] at hq
      cases hq
      obtain ⟨⟨hz, -, -⟩, -, -⟩ := Hacc (T - 1 - (k - 1)) (by omega)
      obtain ⟨⟨hd1, hd2⟩, -⟩ := h2 (by omega)
      exact ⟨hz, hd1, by dsimp only; omega⟩
  obtain ⟨up, hupd⟩ : ∃ up, up = (if j = L - 1 then none else some (⟨(layers.get (j + 1)).m, (layers.get (j + 1)).w,
    ((accs'.get (j + 1)).get (T - 1 - k)).z, (st.1.get (j + 1)).dfioc⟩ : Up)) := ⟨_, rfl⟩
  have eup : upOf L layers accs' st.1 j (T - 1 - k) = some up := by
    unfold upOf
    by_cases hjt : j = L - 1
    · rw [if_pos hjt] at hupd
      rw [if_pos hjt, hupd]
    · rw [if_neg hjt] at hupd
      have := (hacc (j + 1) (by omega)).1
      rw [if_neg hjt, hupd, Arr.read_eq (by have := hs.lenL; omega)]
      refine (bind_some_of rfl).trans ?_
      rw [Arr.read_eq (by omega)]
      refine (bind_some_of rfl).trans ?_
      rw [Arr.read_eq (by omega)]
      refine (bind_some_of rfl).trans ?_
      rw [Arr.read_eq (by omega)]
      rfl
  have hupOk : ∀ v, up = some v → (v.w.rows = 4 ∧ v.m * (layers.get j).m ≤ v.w.cols) ∧
      (v.z.rows = 4 ∧ v.m ≤ v.z.cols) ∧ (v.d.rows = 4 ∧ v.m ≤ v.d.cols) := by
    intro v hv
    by_cases hjt : j = L - 1
    · rw [if_pos hjt] at hupd; rw [hupd] at hv; cases hv
    · rw [if_neg hjt] at hupd
      rw [hupd] at hv
      cases hv
      have hlk := hs.link j (by omega)
      have hw := (hs.ok (j + 1) (by omega)).w
      rw [hlk] at hw
      obtain ⟨⟨hz, -, -⟩, -, -⟩ := (hacc (j + 1) (by omega)).2 (T - 1 - k) (by omega)
      obtain ⟨-, hd, -⟩ := hup (by omega)
      obtain ⟨⟨hd1, hd2⟩, -⟩ := hd (by omega)
      exact ⟨hw, hz, hd1, by dsimp only; omega⟩
  obtain ⟨dy, edy, ldy, gdy⟩ := stackDy_eq (layers.get j).m up plus (layers.get j).u (layers.get j).maskU
    (layers.get j).maskR dx hupOk hplusOk ok.u ok.maskU ok.maskR ldx
  -- the total error of the hidden state
  have hdy : ∀ q, q < (layers.get j).m → dy.get q = (layers.get j).maskU.get q *
      outErr (lpsOf layers accs) x.get T L err.get (L - 1 - j) (T - 1 - k) q +
      recPart (layers.get j).m plus (layers.get j).u (layers.get j).maskR q := by
    intro q hq
    rw [gdy q hq]
    congr 1
    by_cases hjt : j = L - 1
    · rw [if_pos hjt] at hupd
      subst hupd
      dsimp only
      rw [gdx q hq, if_pos hjt, show L - 1 - j = 0 by omega]
      rfl
    · rw [if_neg hjt] at hupd
      subst hupd
      dsimp only
      have hdx0 : (if plus.isSome = true then dx.get q else dx.get q * (layers.get j).maskU.get q) = 0 := by
        rw [gdx q hq, if_neg hjt, zero_mul, ite_self]
      rw [hdx0, zero_add, mul_comm, outErr_up T L layers x err accs j (T - 1 - k) (by omega)]
      congr 1
      obtain ⟨-, -, Hu⟩ := (hacc (j + 1) (by omega)).2 (T - 1 - k) (by omega)
      obtain ⟨-, hd, -⟩ := hup (by omega)
      obtain ⟨-, hd⟩ := hd (by omega)
      refine Finset.sum_congr rfl fun i hi => Finset.sum_congr rfl fun g _ => ?_
      have hi := Finset.mem_range.1 hi
      rw [hs.link j (by omega), show T - 1 - (T - 1 - k) = k by omega]
      congr 1
      exact gateErr_congr (fun g hg => (Hu i hi).1 g hg) (fun g hg => hd g hg i hi) g
  obtain ⟨G', eG, l1, l2, g1⟩ := bpUnits_eq (layers.get j).n (layers.get j).m plus
    ((accs'.get j).get (T - 1 - k)).z dy xr ((accs'.get j).get (T - 1 - k)).cell hm pr.2 (st.1.get j) h1 hplusOk c1
    (by omega) lxr c2 (by omega) lp2 dy.get (fun _ _ => rfl) _ rfl
  have hDA : ∀ g, g < 4 → ∀ i, i < (layers.get j).m → gateD ((accs'.get j).get (T - 1 - k)).z.get
      ((accs'.get j).get (T - 1 - k)).cell.get pr.2.get dy.get (carryOf plus) g i =
      stackAd T L layers x err accs j k g i := by
    intro g hg i hi
    rw [stackAd_eq]
    rcases k with _ | k
    · rw [if_pos rfl] at hplus
      subst hplus
      refine gateD_congr (fun g hg => (c4 i hi).1 g hg) ?_ (gp i hi).2 ?_ rfl g
      · rw [(c4 i hi).2.1, show T - 1 - 0 + 1 = T by omega]; rfl
      · rw [hdy i hi]
        exact add_zero _
    · rw [if_neg (by omega), Nat.add_sub_cancel] at hplus
      subst hplus
      obtain ⟨-, hd⟩ := h2 (by omega)
      rw [Nat.add_sub_cancel, stackAd_eq] at hd
      obtain ⟨-, -, c4'⟩ := Hacc (T - 1 - k) (by omega)
      refine gateD_congr (fun g hg => (c4 i hi).1 g hg) ?_ (gp i hi).2 ?_ ?_ g
      · rw [(c4 i hi).2.1, show T - 1 - (k + 1) + 1 = T - 1 - k by omega]; rfl
      · rw [hdy i hi]
        refine congrArg₂ _ rfl ?_
        exact backH_congr (fun g hg i hi => (c4' i hi).1 g hg) hd i
      · show backC _ _ i = backC _ _ i
        unfold backC
        rw [hd 3 (by omega) i hi, (c4' i hi).1 0 (by omega)]
        rfl
  have hE : ∀ g, ∀ i, i < (layers.get j).m → gateErr ((accs'.get j).get (T - 1 - k)).z.get
      (gateD ((accs'.get j).get (T - 1 - k)).z.get ((accs'.get j).get (T - 1 - k)).cell.get pr.2.get dy.get
        (carryOf plus)) g i =
      gateErr (stackPr layers x accs j (T - 1 - k)) (stackAd T L layers x err accs j k) g i := fun g i hi =>
    gateErr_congr (fun g hg => (c4 i hi).1 g hg) (fun g hg => hDA g hg i hi) g
  refine ⟨G', dy, ?_, l1, fun _ => ⟨l2, fun g hg i hi => ?_⟩, fun g hg p hp => ?_⟩
  · unfold bpStep
    rw [hj, Arr.read_eq (by have := hs.lenL; omega)]
    refine (bind_some_of rfl).trans ?_
    rw [Arr.read_eq (by omega)]
    refine (bind_some_of rfl).trans ?_
    rw [Arr.read_eq (by omega)]
    refine (bind_some_of rfl).trans ((bind_some_of edx).trans ((bind_some_of epr).trans ((bind_some_of ehm).trans
      ((bind_some_of exr).trans ?_))))
    rw [Arr.read_eq (by omega)]
    refine (bind_some_of rfl).trans ?_
    rw [plusOf_eq T k hT hk _ lacc, ← hplus]
    refine (bind_some_of rfl).trans ((bind_some_of eup).trans ((bind_some_of edy).trans ((bind_some_of eG).trans ?_)))
    rw [Arr.write_eq _ (by omega)]
    rfl
  · rw [(g1 g hg i hi).2.2.2, Nat.add_sub_cancel]
    exact hDA g hg i hi
  · obtain ⟨i1, i2, i3⟩ := h3 g hg p hp
    obtain ⟨j1, j2, j3, -⟩ := g1 g hg p hp
    refine ⟨fun q hq => ?_, fun q hq => ?_, ?_⟩
    · rw [j1 q hq, i1 q hq, hE g p hp, Finset.sum_range_succ, add_assoc, gxr q hq]
    · rw [j2 q hq, i2 q hq, hE g p hp, Finset.sum_range_succ, add_assoc, ghm q hq, (gp q hq).1]
    · rw [j3, i3, hE g p hp, Finset.sum_range_succ, add_assoc]

theorem stackBP_eq (T L : Nat) (hT : 2 ≤ T) (layers : Arr Layer) (x err : Mat ℝ) (accs accs' : Arr (Arr Cell))
    (gs : Arr Grads) (hs : StackOk T L layers x accs) (he : T ≤ err.rows ∧ (layers.get (L - 1)).m ≤ err.cols)
    (hl : accs'.len = L)
    (hacc : ∀ j, j < L → (accs'.get j).len = T ∧ ∀ t, t < T → StackHolds layers x accs j t ((accs'.get j).get t))
    (hg : gs.len = L) (hgs : ∀ j, j < L → (gs.get j).Sized (layers.get j).n (layers.get j).m) :
    ∃ gs' dz, stackBP T L layers x err accs' gs = some (gs', dz) ∧ gs'.len = L ∧
      ∀ j, j < L → LayerDone T L layers x err accs j T (gs.get j) (gs'.get j) := by
  obtain ⟨⟨q, o⟩, e, h1, h2⟩ := loop2_inv (A := T) (B := L) (st := (gs, (⟨0, fun _ => 0⟩ : Arr ℝ)))
    (f := fun k jj s => bpStep T L layers x err accs' k jj s)
    (fun k jj s => s.1.len = L ∧ ∀ j, j < L →
      LayerDone T L layers x err accs j (if L - 1 - j < jj then k + 1 else k) (gs.get j) (s.1.get j))
    ⟨hg, fun j hj => ⟨hgs j hj, fun h => by simp at h, fun g _ p _ => ⟨fun q _ => by simp, fun q _ => by simp, by simp⟩⟩⟩
    (by
      rintro k hk jj hjj st ⟨h1, h2⟩
      have hown := h2 (L - 1 - jj) (by omega)
      rw [if_neg (by omega)] at hown
      obtain ⟨G', dz, e, hG⟩ := bpStep_eq T L hT layers x err accs accs' gs hs he hl hacc k jj (L - 1 - jj) hk hjj rfl
        st h1 hown (fun h => by
          have := h2 (L - 1 - jj + 1) h
          rw [if_pos (by omega)] at this
          exact this)
      refine ⟨_, e, h1, fun j hj => ?_⟩
      dsimp only
      by_cases hjj' : j = L - 1 - jj
      · subst hjj'
        rw [Function.update_self, if_pos (by omega)]
        exact hG
      · rw [Function.update_of_ne hjj']
        have := h2 j hj
        by_cases hlt : L - 1 - j < jj
        · rw [if_pos hlt] at this
          rw [if_pos (by omega)]
          exact this
        · rw [if_neg hlt] at this
          rw [if_neg (by omega)]
          exact this)
    (by
      rintro k hk st ⟨h1, h2⟩
      refine ⟨h1, fun j hj => ?_⟩
      have := h2 j hj
      rw [if_pos (by omega)] at this
      rw [if_neg (by omega)]
      exact this)
  refine ⟨q, o, e, h1, fun j hj => ?_⟩
  have := h2 j hj
  rw [if_neg (by omega)] at this
  exact this

/-! ### C144 -/

/-- The stack with other parameters in layer `j`. -/
def setPar (layers : Arr Layer) (j : Nat) (w u b : Mat ℝ) : Arr Layer :=
  { layers with get := Function.update layers.get j { layers.get j with w := w, u := u, b := b } }

/-- `F` is the sum, over all steps and outputs of the top layer, of the output weighted with
the error. -/
def StackLoss (T L : Nat) (layers : Arr Layer) (x err : Mat ℝ) (accs : Arr (Arr Cell)) (F : ℝ) : Prop :=
  ∃ accs' o, stackFF T L layers x accs = some (accs', o) ∧
    F = ∑ t ∈ range T, ∑ i ∈ range (layers.get (L - 1)).m, err.get t i * ((accs'.get (L - 1)).get t).out.get i

theorem setPar_get (layers : Arr Layer) (j : Nat) (w u b : Mat ℝ) (l : Nat) :
    ((setPar layers j w u b).get l).n = (layers.get l).n ∧ ((setPar layers j w u b).get l).m = (layers.get l).m := by
  unfold setPar
  by_cases h : l = j
  · subst h; simp
  · simp [Function.update_of_ne h]

theorem lpsOf_setPar (layers : Arr Layer) (j : Nat) (w u b : Mat ℝ) (accs : Arr (Arr Cell)) :
    lpsOf (setPar layers j w u b) accs = fun l => (lpsOf layers accs l).withP
      (if l = j then w.get else (layers.get l).w.get) (if l = j then u.get else (layers.get l).u.get)
      (if l = j then b.get else (layers.get l).b.get) := by
  funext l
  unfold lpsOf setPar
  by_cases h : l = j
  · subst h; simp [lpOf, LP.withP]
  · simp [h, lpOf, LP.withP]

theorem setPar_self (layers : Arr Layer) (j : Nat) :
    setPar layers j (layers.get j).w (layers.get j).u (layers.get j).b = layers := by
  unfold setPar
  obtain ⟨n, f⟩ := layers
  dsimp only
  rw [Function.update_eq_self]

theorem stackLoss_hasDerivAt (T L : Nat) (hT : 1 ≤ T) (layers : Arr Layer) (x err : Mat ℝ) (accs : Arr (Arr Cell))
    (j : Nat) (hj : j < L) (W U B : ℝ → Mat ℝ) (hs : ∀ s, StackOk T L (setPar layers j (W s) (U s) (B s)) x accs)
    (W' U' B' : Nat → Nat → ℝ) (s0 : ℝ)
    (hW : ∀ g k, HasDerivAt (fun s => (W s).get g k) (W' g k) s0)
    (hU : ∀ g k, HasDerivAt (fun s => (U s).get g k) (U' g k) s0)
    (hB : ∀ g k, HasDerivAt (fun s => (B s).get g k) (B' g k) s0)
    (h0 : W s0 = (layers.get j).w ∧ U s0 = (layers.get j).u ∧ B s0 = (layers.get j).b) :
    ∃ F : ℝ → ℝ, (∀ s, StackLoss T L (setPar layers j (W s) (U s) (B s)) x err accs (F s)) ∧
      HasDerivAt F (∑ κ ∈ range T, ∑ i ∈ range (layers.get j).m, ∑ g ∈ range 4,
        gateErr (stackPr layers x accs j (T - 1 - κ)) (stackAd T L layers x err accs j κ) g i *
          explicit (layers.get j).n (layers.get j).m W' U' B' (stackIn (lpsOf layers accs) x.get j (T - 1 - κ))
            (fun q => (layers.get j).maskR.get q * (stackSt layers x accs j (T - 1 - κ)).1 q) g i) s0 := by
  refine ⟨fun s => ∑ t ∈ range T, ∑ i ∈ range (layers.get (L - 1)).m, err.get t i *
    stackIn (lpsOf (setPar layers j (W s) (U s) (B s)) accs) x.get L t i, fun s => ?_, ?_⟩
  · obtain ⟨accs', o, e, -, h⟩ := stackFF_eq T L _ x accs (hs s)
    refine ⟨accs', o, e, ?_⟩
    dsimp only
    rw [(setPar_get layers j (W s) (U s) (B s) (L - 1)).2]
    refine Finset.sum_congr rfl fun t ht => Finset.sum_congr rfl fun i hi => ?_
    obtain ⟨-, -, h⟩ := (h (L - 1) (by omega)).2 t (Finset.mem_range.1 ht)
    rw [(h i (by rw [(setPar_get layers j (W s) (U s) (B s) (L - 1)).2]; exact Finset.mem_range.1 hi)).2.2.2]
    obtain ⟨K, rfl⟩ : ∃ K, L = K + 1 := ⟨L - 1, by omega⟩
    rfl
  · have hls : lpsOf layers accs = fun l => (lpsOf layers accs l).withP
        (if l = j then (W s0).get else (layers.get l).w.get) (if l = j then (U s0).get else (layers.get l).u.get)
        (if l = j then (B s0).get else (layers.get l).b.get) := by
      rw [← lpsOf_setPar, h0.1, h0.2.1, h0.2.2, setPar_self]
    have hsplit : ∀ (A : ℝ → Mat ℝ) (A' : Nat → Nat → ℝ) (C : Nat → Nat → Nat → ℝ),
        (∀ g k, HasDerivAt (fun s => (A s).get g k) (A' g k) s0) → ∀ l g k,
        HasDerivAt (fun s => (if l = j then (A s).get else C l) g k) ((if l = j then A' else fun _ _ => 0) g k) s0 := by
      intro A A' C hA l g k
      by_cases h : l = j
      · simp only [if_pos h]; exact hA g k
      · simp only [if_neg h]; exact hasDerivAt_const _ _
    have hd := stackIn_hasDerivAt (lpsOf layers accs)
      (fun s l => if l = j then (W s).get else (layers.get l).w.get)
      (fun s l => if l = j then (U s).get else (layers.get l).u.get)
      (fun s l => if l = j then (B s).get else (layers.get l).b.get)
      (fun l => if l = j then W' else fun _ _ => 0) (fun l => if l = j then U' else fun _ _ => 0)
      (fun l => if l = j then B' else fun _ _ => 0) (fun _ => x.get) (fun _ _ => 0) s0
      (hsplit W W' (fun l => (layers.get l).w.get) hW) (hsplit U U' (fun l => (layers.get l).u.get) hU)
      (hsplit B B' (fun l => (layers.get l).b.get) hB) (fun _ _ => hasDerivAt_const _ _) L
    rw [← hls] at hd
    have hpair := stack_pair (lpsOf layers accs) x.get T L hT err.get (fun l => if l = j then W' else fun _ _ => 0)
      (fun l => if l = j then U' else fun _ _ => 0) (fun l => if l = j then B' else fun _ _ => 0) (fun _ _ => 0)
      (fun l hl => by
        have := (hs s0).link l hl
        rw [(setPar_get _ _ _ _ _ _).1, (setPar_get _ _ _ _ _ _).2] at this
        exact this) L le_rfl
    rw [Nat.sub_self] at hpair
    have hz : ∀ t q, stackIn' (lpsOf layers accs) x.get (fun l => if l = j then W' else fun _ _ => 0)
      (fun l => if l = j then U' else fun _ _ => 0) (fun l => if l = j then B' else fun _ _ => 0) (fun _ _ => 0) 0 t q
      = 0 := fun _ _ => rfl
    simp only [hz, mul_zero, Finset.sum_const_zero, add_zero] at hpair
    have hpair2 := hpair.trans (Finset.sum_eq_single_of_mem (L - 1 - j) (Finset.mem_range.2 (by omega)) (by
      intro d hd hne
      have hd := Finset.mem_range.1 hd
      simp only [if_neg (show ¬ L - 1 - d = j by omega)]
      unfold LP.param explicit
      simp only [zero_mul, Finset.sum_const_zero, add_zero, mul_zero]))
    rw [show L - 1 - (L - 1 - j) = j by omega] at hpair2
    simp only [if_true] at hpair2
    refine HasDerivAt.congr_deriv (f' := ∑ t ∈ range T, ∑ i ∈ range (layers.get (L - 1)).m, err.get t i *
      stackIn' (lpsOf layers accs) x.get (fun l => if l = j then W' else fun _ _ => 0)
        (fun l => if l = j then U' else fun _ _ => 0) (fun l => if l = j then B' else fun _ _ => 0)
        (fun _ _ => 0) L t i) ?_ hpair2
    refine HasDerivAt.fun_sum fun t _ => HasDerivAt.fun_sum fun i _ => HasDerivAt.const_mul _ ?_
    have := hd t i
    simp only [lpsOf_setPar]
    exact this

theorem setPar_ok (T L : Nat) (layers : Arr Layer) (x : Mat ℝ) (accs : Arr (Arr Cell)) (hs : StackOk T L layers x accs)
    (j : Nat) (w u b : Mat ℝ)
    (hw : w.rows = (layers.get j).w.rows ∧ w.cols = (layers.get j).w.cols)
    (hu : u.rows = (layers.get j).u.rows ∧ u.cols = (layers.get j).u.cols)
    (hb : b.rows = (layers.get j).b.rows ∧ b.cols = (layers.get j).b.cols) :
    StackOk T L (setPar layers j w u b) x accs := by
  refine ⟨hs.pos, hs.lenL, hs.lenA, ?_, ?_, ?_, ?_⟩
  · rw [(setPar_get layers j w u b 0).1]; exact hs.inp
  · intro l hl
    rw [(setPar_get layers j w u b _).1, (setPar_get layers j w u b _).2]
    exact hs.link l hl
  · intro l hl
    unfold setPar
    by_cases h : l = j
    · subst h
      simp only [Function.update_self]
      exact hs.plain l hl
    · simp only [Function.update_of_ne h]
      exact hs.plain l hl
  · intro l hl
    have ok := hs.ok l hl
    unfold setPar
    by_cases h : l = j
    · subst h
      simp only [Function.update_self]
      exact ⟨ok.maskR, ok.maskU, ok.h0, ok.c0, by rw [hw.1, hw.2]; exact ok.w, by rw [hu.1, hu.2]; exact ok.u,
        by rw [hb.1, hb.2]; exact ok.b, ok.len, ok.cells⟩
    · simp only [Function.update_of_ne h]
      exact ok

/-- **C144 (partial).** Training a stack of LSTM layers over a window of at least two steps:
after a forward and a backward pass, the change of every entry of the gradient arrays of the
input weights, the recurrent weights and the biases of *every layer* is exactly the
derivative, with respect to that parameter, of the error-weighted sum of the outputs of the
top layer in all steps.

What is missing: windows of one step (`C71_window_one_refuted`), residual connections
(`C144_residual_refuted`) and edge-popup layers (`C144_popup_cell_refuted`). -/
theorem C144_stack_gradient_partial (T L : Nat) (hT : 2 ≤ T) (layers : Arr Layer) (x err : Mat ℝ)
    (accs : Arr (Arr Cell)) (gs : Arr Grads) (hs : StackOk T L layers x accs)
    (he : T ≤ err.rows ∧ (layers.get (L - 1)).m ≤ err.cols) (hg : gs.len = L)
    (hgs : ∀ j, j < L → (gs.get j).Sized (layers.get j).n (layers.get j).m) :
    ∃ accs' o gs' dz, stackFF T L layers x accs = some (accs', o) ∧
      stackBP T L layers x err accs' gs = some (gs', dz) ∧
      ∀ j, j < L → ∀ g, g < 4 → ∀ p, p < (layers.get j).m →
        (∀ q, q < (layers.get j).n → ∃ F : ℝ → ℝ,
          (∀ s, StackLoss T L (setPar layers j (setAt (layers.get j).w g (p * (layers.get j).n + q) s)
            (layers.get j).u (layers.get j).b) x err accs (F s)) ∧
          HasDerivAt F ((gs'.get j).dw.get g (p * (layers.get j).n + q) - (gs.get j).dw.get g (p * (layers.get j).n + q))
            ((layers.get j).w.get g (p * (layers.get j).n + q))) ∧
        (∀ q, q < (layers.get j).m → ∃ F : ℝ → ℝ,
          (∀ s, StackLoss T L (setPar layers j (layers.get j).w
            (setAt (layers.get j).u g (p * (layers.get j).m + q) s) (layers.get j).b) x err accs (F s)) ∧
          HasDerivAt F ((gs'.get j).du.get g (p * (layers.get j).m + q) - (gs.get j).du.get g (p * (layers.get j).m + q))
            ((layers.get j).u.get g (p * (layers.get j).m + q))) ∧
        ∃ F : ℝ → ℝ,
          (∀ s, StackLoss T L (setPar layers j (layers.get j).w (layers.get j).u (setAt (layers.get j).b g p s))
            x err accs (F s)) ∧
          HasDerivAt F ((gs'.get j).db.get g p - (gs.get j).db.get g p) ((layers.get j).b.get g p) := by
  obtain ⟨accs', o, e1, l1, h1⟩ := stackFF_eq T L layers x accs hs
  obtain ⟨gs', dz, e2, -, h2⟩ := stackBP_eq T L hT layers x err accs accs' gs hs he l1 h1 hg hgs
  refine ⟨accs', o, gs', dz, e1, e2, fun j hj g hg p hp => ?_⟩
  obtain ⟨-, -, h2⟩ := h2 j hj
  obtain ⟨i1, i2, i3⟩ := h2 g hg p hp
  refine ⟨fun q hq => ?_, fun q hq => ?_, ?_⟩
  · obtain ⟨F, hF, hd⟩ := stackLoss_hasDerivAt T L (by omega) layers x err accs j hj
      (fun s => setAt (layers.get j).w g (p * (layers.get j).n + q) s) (fun _ => (layers.get j).u)
      (fun _ => (layers.get j).b)
      (fun s => setPar_ok T L layers x accs hs j _ _ _ ⟨rfl, rfl⟩ ⟨rfl, rfl⟩ ⟨rfl, rfl⟩) _ _ _
      ((layers.get j).w.get g (p * (layers.get j).n + q)) (setAt_hasDerivAt _ g (p * (layers.get j).n + q) _)
      (fun _ _ => hasDerivAt_const _ _) (fun _ _ => hasDerivAt_const _ _) ⟨setAt_self _ _ _, rfl, rfl⟩
    refine ⟨F, hF, hd.congr_deriv ?_⟩
    rw [i1 q hq, add_sub_cancel_left]
    refine Finset.sum_congr rfl fun κ _ => pick_sum _ _ _ g p hg hp _ fun g' i _ => ?_
    simp only [explicit, zero_mul, Finset.sum_const_zero, add_zero]
    exact row_pick _ p q hq g' g i _
  · obtain ⟨F, hF, hd⟩ := stackLoss_hasDerivAt T L (by omega) layers x err accs j hj
      (fun _ => (layers.get j).w) (fun s => setAt (layers.get j).u g (p * (layers.get j).m + q) s)
      (fun _ => (layers.get j).b)
      (fun s => setPar_ok T L layers x accs hs j _ _ _ ⟨rfl, rfl⟩ ⟨rfl, rfl⟩ ⟨rfl, rfl⟩) _ _ _
      ((layers.get j).u.get g (p * (layers.get j).m + q)) (fun _ _ => hasDerivAt_const _ _)
      (setAt_hasDerivAt _ g (p * (layers.get j).m + q) _)
      (fun _ _ => hasDerivAt_const _ _) ⟨rfl, setAt_self _ _ _, rfl⟩
    refine ⟨F, hF, hd.congr_deriv ?_⟩
    rw [i2 q hq, add_sub_cancel_left]
    refine Finset.sum_congr rfl fun κ _ => pick_sum _ _ _ g p hg hp _ fun g' i _ => ?_
    simp only [explicit, zero_mul, Finset.sum_const_zero, add_zero, zero_add]
    exact row_pick _ p q hq g' g i _
  · obtain ⟨F, hF, hd⟩ := stackLoss_hasDerivAt T L (by omega) layers x err accs j hj
      (fun _ => (layers.get j).w) (fun _ => (layers.get j).u) (fun s => setAt (layers.get j).b g p s)
      (fun s => setPar_ok T L layers x accs hs j _ _ _ ⟨rfl, rfl⟩ ⟨rfl, rfl⟩ ⟨rfl, rfl⟩) _ _ _
      ((layers.get j).b.get g p) (fun _ _ => hasDerivAt_const _ _) (fun _ _ => hasDerivAt_const _ _)
      (setAt_hasDerivAt _ g p _) ⟨rfl, rfl, setAt_self _ _ _⟩
    refine ⟨F, hF, hd.congr_deriv ?_⟩
    rw [i3, add_sub_cancel_left]
    refine Finset.sum_congr rfl fun κ _ => (pick_sum _ _ _ g p hg hp 1 fun g' i _ => ?_).trans (mul_one _)
    simp only [explicit, zero_mul, Finset.sum_const_zero, zero_add]

/-! ### A stack that meets the hypotheses -/

/-- A layer of one unit and one input with all parameters `1`. -/
def exLayer (res : Bool) : Layer :=
  ⟨1, 1, ⟨1, fun _ => 1⟩, ⟨1, fun _ => 1⟩, ⟨1, fun _ => 0⟩, ⟨1, fun _ => 0⟩, ⟨4, 1, fun _ _ => 1⟩, ⟨4, 1, fun _ _ => 1⟩,
    ⟨4, 1, fun _ _ => 1⟩, res, none⟩

def exCell : Cell := ⟨⟨4, 1, fun _ _ => 0⟩, ⟨1, fun _ => 0⟩, ⟨1, fun _ => 0⟩, ⟨1, fun _ => 0⟩⟩

def exGrads : Grads := ⟨⟨4, 1, fun _ _ => 0⟩, ⟨4, 1, fun _ _ => 0⟩, ⟨4, 1, fun _ _ => 0⟩, ⟨4, 1, fun _ _ => 1⟩⟩

theorem exGrads_sized : exGrads.Sized 1 1 := ⟨⟨rfl, le_rfl⟩, ⟨rfl, le_rfl⟩, ⟨rfl, le_rfl⟩⟩

theorem exStack_ok : StackOk 2 3 ⟨3, fun _ => exLayer false⟩ ⟨2, 1, fun t _ => t⟩ ⟨3, fun _ => ⟨2, fun _ => exCell⟩⟩ :=
  ⟨by decide, rfl, rfl, ⟨le_rfl, le_rfl⟩, fun _ _ => rfl, fun _ _ => ⟨rfl, rfl⟩, fun _ _ =>
    ⟨le_rfl, le_rfl, le_rfl, le_rfl, ⟨rfl, le_rfl⟩, ⟨rfl, le_rfl⟩, ⟨rfl, le_rfl⟩, rfl,
      fun _ _ => ⟨⟨rfl, le_rfl⟩, le_rfl, le_rfl⟩⟩⟩

/-- The hypotheses of `C144_stack_gradient_partial` are met by three layers over two steps. -/
example : ∃ accs' o gs' dz, stackFF 2 3 ⟨3, fun _ => exLayer false⟩ ⟨2, 1, fun t _ => t⟩
      ⟨3, fun _ => ⟨2, fun _ => exCell⟩⟩ = some (accs', o) ∧
    stackBP 2 3 ⟨3, fun _ => exLayer false⟩ ⟨2, 1, fun t _ => t⟩ ⟨2, 1, fun _ _ => 1⟩ accs' ⟨3, fun _ => exGrads⟩ =
      some (gs', dz) := by
  obtain ⟨accs', o, gs', dz, h1, h2, -⟩ := C144_stack_gradient_partial 2 3 le_rfl ⟨3, fun _ => exLayer false⟩
    ⟨2, 1, fun t _ => t⟩ ⟨2, 1, fun _ _ => 1⟩ ⟨3, fun _ => ⟨2, fun _ => exCell⟩⟩ ⟨3, fun _ => exGrads⟩ exStack_ok
    ⟨le_rfl, le_rfl⟩ rfl (fun _ _ => exGrads_sized)
  exact ⟨accs', o, gs', dz, h1, h2⟩

/-! ### Residual connections -/

/-- **C144 fails with residual connections.** The output of a residual top layer is its masked
hidden state plus the output of the layer below, so the derivative of the error-weighted sum
of the outputs of a step in the latter, along the residual connection, is the error itself.
In every step but the last of the window the code gives the layer below another value: the
error times the mask of the *upper* layer, plus everything the upper layer gets from its next
step. -/
theorem C144_residual_refuted (T L : Nat) (hL : 2 ≤ L) (layers : Arr Layer) (x err : Mat ℝ)
    (accs : Arr (Arr Cell)) (k : Nat) (hk0 : 0 < k) (hk : k < T) (st : Arr Grads × Arr ℝ)
    (hlen : layers.len = L ∧ accs.len = L ∧ st.1.len = L)
    (hres : (layers.get (L - 1)).residual = true) (hm : (layers.get (L - 1)).m = (layers.get (L - 2)).m)
    (ok : (layers.get (L - 1)).Ok T (accs.get (L - 1)))
    (he : T ≤ err.rows ∧ (layers.get (L - 1)).m ≤ err.cols)
    (hG : (st.1.get (L - 1)).Sized (layers.get (L - 1)).n (layers.get (L - 1)).m)
    (hd : (st.1.get (L - 1)).dfioc.rows = 4 ∧ (layers.get (L - 1)).m ≤ (st.1.get (L - 1)).dfioc.cols)
    (hbelow : (accs.get (L - 2)).len = T ∧ (layers.get (L - 1)).n ≤ ((accs.get (L - 2)).get (T - 1 - k)).out.len) :
    ∃ gs' dz dx, bpStep T L layers x err accs k 0 st = some (gs', dz) ∧
      startDx L layers err dz (layers.get (L - 2)) (L - 2) (T - 1 - k) = some dx ∧
      ∀ q, q < (layers.get (L - 2)).m → dx.get q =
        (layers.get (L - 1)).maskU.get q * err.get (T - 1 - k) q +
          backH (layers.get (L - 1)).m (layers.get (L - 1)).u.get (layers.get (L - 1)).maskR.get
            ((accs.get (L - 1)).get (T - k)).z.get (st.1.get (L - 1)).dfioc.get q := by
  obtain ⟨hl1, hl2, hl3⟩ := hlen
  have hj : L - 1 - 0 = L - 1 := Nat.sub_zero _
  obtain ⟨c1, c2, c3⟩ := ok.cells (T - 1 - k) (by omega)
  obtain ⟨z1, z2, z3⟩ := ok.cells (T - k) (by omega)
  obtain ⟨dx, edx, ldx, gdx⟩ := dropArr_eq (layers.get (L - 1)).m (layers.get (L - 1)).maskU
    ⟨err.cols, err.get (T - 1 - k)⟩ ok.maskU he.2
  obtain ⟨pr, epr, lp1, lp2⟩ : ∃ pr, prevOf (layers.get (L - 1)).h0 (layers.get (L - 1)).c0 (accs.get (L - 1))
      (T - 1 - k) = some pr ∧ (layers.get (L - 1)).m ≤ pr.1.len ∧ (layers.get (L - 1)).m ≤ pr.2.len := by
    unfold prevOf
    by_cases h : T - 1 - k = 0
    · exact ⟨_, by rw [if_pos h], ok.h0, ok.c0⟩
    · obtain ⟨-, p2, p3⟩ := ok.cells (T - 1 - k - 1) (by omega)
      refine ⟨(((accs.get (L - 1)).get (T - 1 - k - 1)).hidden, ((accs.get (L - 1)).get (T - 1 - k - 1)).cell), ?_, p3, p2⟩
      rw [if_neg h, Arr.read_eq (by have := ok.len; omega)]
      rfl
  obtain ⟨hmA, ehm, lhm, -⟩ := dropArr_eq (layers.get (L - 1)).m (layers.get (L - 1)).maskR pr.1 ok.maskR lp1
  have eplus : plusOf T (T - 1 - k) (accs.get (L - 1)) (st.1.get (L - 1)).dfioc =
      some (some (((accs.get (L - 1)).get (T - k)).z, (st.1.get (L - 1)).dfioc)) := by
    rw [plusOf_eq T k (by omega) hk _ ok.len, if_neg (by omega), show T - 1 - (k - 1) = T - k by omega]
  have hp : ∀ q, some (((accs.get (L - 1)).get (T - k)).z, (st.1.get (L - 1)).dfioc) = some q →
      (q.1.rows = 4 ∧ (layers.get (L - 1)).m ≤ q.1.cols) ∧ (q.2.rows = 4 ∧ (layers.get (L - 1)).m ≤ q.2.cols) := by
    rintro q h; cases h; exact ⟨z1, hd⟩
  obtain ⟨dy, edy, ldy, gdy⟩ := stackDy_eq (layers.get (L - 1)).m none
    (some (((accs.get (L - 1)).get (T - k)).z, (st.1.get (L - 1)).dfioc)) (layers.get (L - 1)).u
    (layers.get (L - 1)).maskU (layers.get (L - 1)).maskR dx (by simp) hp ok.u ok.maskU ok.maskR (by omega)
  obtain ⟨G', eG, -⟩ := bpUnits_eq (layers.get (L - 1)).n (layers.get (L - 1)).m
    (some (((accs.get (L - 1)).get (T - k)).z, (st.1.get (L - 1)).dfioc))
    ((accs.get (L - 1)).get (T - 1 - k)).z dy ((accs.get (L - 2)).get (T - 1 - k)).out
    ((accs.get (L - 1)).get (T - 1 - k)).cell hmA pr.2 (st.1.get (L - 1)) hG hp c1
    (by omega) hbelow.2 c2 (by omega) lp2 dy.get (fun _ _ => rfl) _ rfl
  obtain ⟨dxl, exl, lxl, gxl⟩ : ∃ dxl, addArr (layers.get (L - 2)).m
      (⟨(layers.get (L - 2)).m, fun _ => 0⟩ : Arr ℝ) dy = some dxl ∧ True ∧
      ∀ q, q < (layers.get (L - 2)).m → dxl.get q = dy.get q := by
    obtain ⟨o, e, h1, h2, -⟩ := loop_inv (n := (layers.get (L - 2)).m)
      (s := (⟨(layers.get (L - 2)).m, fun _ => 0⟩ : Arr ℝ))
      (f := fun i (a : Arr ℝ) => (dy.read i).bind fun v => a.addAt i v)
      (fun k o => o.len = (layers.get (L - 2)).m ∧ (∀ i, i < k → o.get i = dy.get i) ∧ ∀ i, k ≤ i → o.get i = 0)
      ⟨rfl, by intro i hi; omega, fun _ _ => rfl⟩
      (by
        rintro k hk o ⟨h1, h2, h3⟩
        rw [Arr.read_eq (by omega)]
        simp only [Option.bind_some]
        rw [Arr.addAt_eq _ (by omega)]
        refine ⟨_, rfl, h1, fun i hi => ?_, fun i hi => ?_⟩
        · dsimp only
          by_cases hik : i = k
          · subst hik; rw [Function.update_self, h3 i le_rfl, zero_add]
          · rw [Function.update_of_ne hik]; exact h2 i (by omega)
        · dsimp only
          rw [Function.update_of_ne (by omega)]; exact h3 i (by omega))
    exact ⟨o, e, trivial, h2⟩
  refine ⟨⟨st.1.len, Function.update st.1.get (L - 1) G'⟩, dy, dxl, ?_, ?_, fun q hq => ?_⟩
  · unfold bpStep
    rw [hj, Arr.read_eq (by omega)]
    refine (bind_some_of rfl).trans ?_
    rw [Arr.read_eq (by omega)]
    refine (bind_some_of rfl).trans ?_
    rw [Arr.read_eq (by omega)]
    refine (bind_some_of rfl).trans ?_
    have edx' : startDx L layers err st.2 (layers.get (L - 1)) (L - 1) (T - 1 - k) = some dx := by
      unfold startDx rowOf
      rw [if_pos rfl, if_pos (by omega)]
      exact edx
    have exr : inputOf x accs (L - 1) (T - 1 - k) = some ((accs.get (L - 2)).get (T - 1 - k)).out := by
      unfold inputOf
      rw [if_neg (by omega), show L - 1 - 1 = L - 2 by omega, Arr.read_eq (by omega)]
      refine (bind_some_of rfl).trans ?_
      rw [Arr.read_eq (by omega)]
      rfl
    refine (bind_some_of edx').trans ((bind_some_of epr).trans ((bind_some_of ehm).trans
      ((bind_some_of exr).trans ?_)))
    rw [Arr.read_eq (by have := ok.len; omega)]
    refine (bind_some_of rfl).trans ((bind_some_of eplus).trans ?_)
    have eup : upOf L layers accs st.1 (L - 1) (T - 1 - k) = some none := by
      unfold upOf
      rw [if_pos rfl]
    refine (bind_some_of eup).trans ((bind_some_of edy).trans ((bind_some_of eG).trans ?_))
    rw [Arr.write_eq _ (by omega)]
    rfl
  · unfold startDx
    rw [if_neg (by omega), Arr.read_eq (by omega)]
    refine (bind_some_of rfl).trans ?_
    rw [show L - 2 + 1 = L - 1 by omega, hres, if_pos rfl]
    exact exl
  · rw [gxl q hq, gdy q (by omega)]
    dsimp only
    rw [gdx q (by omega)]
    rfl

/-- A case where the value differs from the error: two layers, masks all `1`, the first of two
steps, no error on the first step. -/
example : ∃ gs' dz dx, bpStep 2 2 ⟨2, fun j => exLayer (j = 1)⟩ ⟨2, 1, fun _ _ => 0⟩ ⟨2, 1, fun _ _ => 0⟩
      ⟨2, fun _ => ⟨2, fun _ => exCell⟩⟩ 1 0 (⟨2, fun _ => exGrads⟩, ⟨0, fun _ => 0⟩) = some (gs', dz) ∧
    startDx 2 ⟨2, fun j => exLayer (j = 1)⟩ ⟨2, 1, fun _ _ => 0⟩ dz (exLayer false) 0 0 = some dx ∧ dx.get 0 ≠ 0 := by
  obtain ⟨gs', dz, dx, h1, h2, h3⟩ := C144_residual_refuted 2 2 le_rfl ⟨2, fun j => exLayer (j = 1)⟩
    ⟨2, 1, fun _ _ => 0⟩ ⟨2, 1, fun _ _ => 0⟩ ⟨2, fun _ => ⟨2, fun _ => exCell⟩⟩ 1 one_pos (by omega)
    (⟨2, fun _ => exGrads⟩, ⟨0, fun _ => 0⟩) ⟨rfl, rfl, rfl⟩ rfl rfl
    ⟨le_rfl, le_rfl, le_rfl, le_rfl, ⟨rfl, le_rfl⟩, ⟨rfl, le_rfl⟩, ⟨rfl, le_rfl⟩, rfl,
      fun _ _ => ⟨⟨rfl, le_rfl⟩, le_rfl, le_rfl⟩⟩ ⟨le_rfl, le_rfl⟩ exGrads_sized ⟨rfl, le_rfl⟩ ⟨rfl, le_rfl⟩
  refine ⟨gs', dz, dx, h1, h2, ?_⟩
  rw [h3 0 one_pos]
  have hs : (0 : ℝ) < sigmoid 0 := by unfold sigmoid; positivity
  have hd : (0 : ℝ) < dSigmoid 0 := by
    unfold dSigmoid
    have : sigmoid 0 < 1 := by unfold sigmoid; norm_num
    exact mul_pos hs (by linarith)
  simp [exLayer, exCell, exGrads, backH, gateErr, Finset.sum_range_succ]
  have ht : (0 : ℝ) ≤ dTanhh 0 := by
    unfold dTanhh tanhh
    simp
  have := mul_nonneg hs.le ht
  exact ne_of_gt (by linarith)

/-! ### Edge-popup layers above the first -/

/-- The stored steps with another cell state in step `i` of layer `j`. -/
def setCell (accs : Arr (Arr Cell)) (j i : Nat) (c : Arr ℝ) : Arr (Arr Cell) :=
  ⟨accs.len, Function.update accs.get j ⟨(accs.get j).len, Function.update (accs.get j).get i
    { (accs.get j).get i with cell := c }⟩⟩

/-- **C144 fails for edge-popup layers above the first.** From the second step on, what such a
layer computes does not depend on the cell state its previous step left: replacing that by
anything changes nothing. (It is given the cell state of the start of the window again.) -/
theorem C144_popup_cell_refuted (layers : Arr Layer) (x : Mat ℝ) (i j : Nat) (hi : 0 < i) (hj : 0 < j)
    (p : Selection) (hp : (layers.get j).popup = some p) (accs : Arr (Arr Cell)) (o c : Arr ℝ) :
    (ffStep layers x i j (setCell accs j (i - 1) c, o)).map (fun r => (r.1.get j).get i) =
      (ffStep layers x i j (accs, o)).map (fun r => (r.1.get j).get i) := by
  unfold ffStep
  simp only [Option.bind_eq_bind]
  by_cases h1 : j < layers.len
  · rw [Arr.read_eq h1]
    by_cases h2 : j < accs.len
    · have h2' : (setCell accs j (i - 1) c).read j = some ⟨(accs.get j).len, Function.update (accs.get j).get (i - 1)
          { (accs.get j).get (i - 1) with cell := c }⟩ := by
        rw [Arr.read_eq (a := setCell accs j (i - 1) c) h2]
        unfold setCell
        simp
      rw [h2', Arr.read_eq h2]
      simp only [Option.bind_some]
      unfold prevOf
      rw [if_neg (by omega), if_neg (by omega)]
      by_cases h3 : i - 1 < (accs.get j).len
      · rw [Arr.read_eq (by exact h3), Arr.read_eq h3]
        simp only [Option.bind_some, Function.update_self]
        have hri : (⟨(accs.get j).len, Function.update (accs.get j).get (i - 1)
            { (accs.get j).get (i - 1) with cell := c }⟩ : Arr Cell).read i = (accs.get j).read i := by
          unfold Arr.read
          dsimp only
          rw [Function.update_of_ne (by omega)]
        have hc : ∀ a b d, cellFF (layers.get j) j i a b c d =
            cellFF (layers.get j) j i a b ((accs.get j).get (i - 1)).cell d := by
          intro a b d
          unfold cellFF
          rw [hp]
          dsimp only
          rw [if_pos ⟨by omega, by omega⟩, if_pos ⟨by omega, by omega⟩]
        have hr : ∀ o, residualOut (layers.get j) x (setCell accs j (i - 1) c) j i o =
            residualOut (layers.get j) x accs j i o := by
          intro o
          have e : inputOf x (setCell accs j (i - 1) c) j i = inputOf x accs j i := by
            unfold inputOf setCell Arr.read
            have hj0 : ¬ j = 0 := by omega
            simp only [if_neg hj0]
            rw [Function.update_of_ne (by omega)]
          unfold residualOut
          rw [e]
        simp only [hr, Option.map_bind, Function.comp_def]
        rw [hri]
        simp only [hc]
        refine congrArg _ (funext fun h => congrArg _ (funext fun u => congrArg _ (funext fun d =>
          congrArg _ (funext fun e => congrArg _ (funext fun v => congrArg _ (funext fun w => ?_))))))
        by_cases h4 : i < (accs.get j).len
        · simp [Arr.write, setCell, h2, h4]
        · simp [Arr.write, setCell, h4]
      · simp [Arr.read, h3]
    · simp [Arr.read, setCell, h2]
  · simp [Arr.read, h1]

/-- A layer of two units and one input with half of its weights selected. -/
noncomputable def exPopup : Layer :=
  ⟨1, 2, ⟨2, fun _ => 1⟩, ⟨2, fun _ => 1⟩, ⟨2, fun _ => 0⟩, ⟨2, fun _ => 0⟩, ⟨4, 2, fun _ _ => 1⟩, ⟨4, 4, fun _ _ => 1⟩,
    ⟨4, 2, fun _ _ => 1⟩, false, some ⟨LSTMPopup.exFlags, LSTMPopup.exFlags, LSTMPopup.exW, LSTMPopup.exU, 1 / 2⟩⟩

/-- The step `C144_popup_cell_refuted` speaks of runs to its end, whatever cell state `v` the step
before left. -/
example (v : ℝ) : ∃ r, ffStep ⟨2, fun _ => exPopup⟩ ⟨2, 1, fun _ _ => 1⟩ 1 1
    (⟨2, fun _ => ⟨2, fun _ => ⟨⟨4, 2, fun _ _ => 0⟩, ⟨2, fun _ => v⟩, ⟨2, fun _ => 0⟩, ⟨2, fun _ => 0⟩⟩⟩⟩,
      ⟨2, fun _ => 1⟩) = some r := by
  obtain ⟨hm, ehm, lhm, -⟩ := dropArr_eq 2 (⟨2, fun _ => 1⟩ : Arr ℝ) ⟨2, fun _ => 0⟩ le_rfl le_rfl
  obtain ⟨c, ec, -, lc, -⟩ := LSTMPopup.C143_forward_partial LSTMPopup.exFlags LSTMPopup.exFlags LSTMPopup.exW LSTMPopup.exU
    1 2 (1 / 2) (by norm_num) ⟨2, fun _ => 1⟩ hm ⟨2, fun _ => 0⟩ ⟨4, 2, fun _ _ => 1⟩ ⟨4, 4, fun _ _ => 1⟩
    ⟨⟨4, 2, fun _ _ => 0⟩, ⟨2, fun _ => v⟩, ⟨2, fun _ => 0⟩, ⟨2, fun _ => 0⟩⟩
    (by decide) (by omega) le_rfl ⟨rfl, le_rfl⟩ ⟨rfl, le_rfl⟩ ⟨rfl, le_rfl⟩ le_rfl le_rfl LSTMPopup.exW_order
    LSTMPopup.exU_order ⟨rfl, le_rfl⟩ ⟨rfl, le_rfl⟩ (fun g _ i _ => Or.inl one_ne_zero)
  obtain ⟨o, eo, -⟩ := dropArr_eq 2 (⟨2, fun _ => 1⟩ : Arr ℝ) c.hidden le_rfl (le_of_eq lc.symm)
  refine ⟨(⟨2, Function.update (fun _ => ⟨2, fun _ => ⟨⟨4, 2, fun _ _ => 0⟩, ⟨2, fun _ => v⟩, ⟨2, fun _ => 0⟩, ⟨2, fun _ => 0⟩⟩⟩)
    1 ⟨2, Function.update (fun _ => ⟨⟨4, 2, fun _ _ => 0⟩, ⟨2, fun _ => v⟩, ⟨2, fun _ => 0⟩, ⟨2, fun _ => 0⟩⟩) 1
      { c with out := o }⟩⟩, o), ?_⟩
  unfold ffStep
  refine (bind_some_of rfl).trans ((bind_some_of rfl).trans ((bind_some_of rfl).trans ((bind_some_of ehm).trans
    ((bind_some_of rfl).trans ((bind_some_of rfl).trans ((bind_some_of ec).trans ((bind_some_of eo).trans
      ((bind_some_of rfl).trans ((bind_some_of rfl).trans ((bind_some_of rfl).trans rfl))))))))))

end LLab.LSTM
