import Verif.Layers.BPTTMath

/-!
One LSTM layer unrolled over a window: `ff_rmodel_lstm` (`/repo/src/rmodel.c`
553-662), `bp_rmodel_lstm` (`/repo/src/rmodel.c` 801-1041) with one layer, plain
training (no edge-popup, no residual), and `lstm_bp` (`/repo/src/recurrent.c`
183-560) for its flags `0` and `2`, the only ones one layer uses. Property C71.
-/

namespace LLab.LSTM

open Finset LLab.Act

/-! ### Model -/

/-- `a[i]` of a `float**`. -/
def rowOf (a : Mat ℝ) (i : Nat) : Option (Arr ℝ) := if i < a.rows then some ⟨a.cols, a.get i⟩ else none

/-- `get_dropout_array` into a fresh array of `m` cells (`/repo/src/utils.c` 48-54). -/
def dropArr (m : Nat) (mask inp : Arr ℝ) : Option (Arr ℝ) :=
  loop m (fun i (o : Arr ℝ) => do
    let k ← mask.read i
    let v ← inp.read i
    o.write i (k * v)) ⟨m, fun _ => 0⟩

/-- The hidden and cell state a step starts from: the arguments of the call for
step `0`, the stored arrays of the previous step otherwise
(`/repo/src/rmodel.c` 577-597). -/
def prevOf (h0 c0 : Arr ℝ) (acc : Arr Cell) (t : Nat) : Option (Arr ℝ × Arr ℝ) :=
  if t = 0 then some (h0, c0) else (acc.read (t - 1)).bind fun s => some (s.hidden, s.cell)

/-- `ff_rmodel_lstm` for one layer (`/repo/src/rmodel.c` 553-662): masks are the
already drawn dropout masks. `acc` holds `lstm_z, lstm_cell, lstm_hidden, out_up`
of every step. -/
noncomputable def rnnFF (T n m : Nat) (maskR maskU : Arr ℝ) (x : Mat ℝ) (h0 c0 : Arr ℝ) (w u b : Mat ℝ)
    (acc : Arr Cell) : Option (Arr Cell) :=
  loop T (fun t (acc : Arr Cell) => do
    let prev ← prevOf h0 c0 acc t
    let hm ← dropArr m maskR prev.1
    let xr ← rowOf x t
    let cur ← acc.read t
    let s ← lstmFF n m xr hm prev.2 w u b cur
    let o ← dropArr m maskU s.hidden
    acc.write t { s with out := o }) acc

/-- `a[0][k] = v0; …; a[3][k] = v3`. -/
def write4 (a : Mat ℝ) (k : Nat) (v : Nat → ℝ) : Option (Mat ℝ) := do
  let a ← a.write 0 k (v 0)
  let a ← a.write 1 k (v 1)
  let a ← a.write 2 k (v 2)
  a.write 3 k (v 3)

/-- Flag `2` of `lstm_bp`: the error of the next step added to `dy`
(`/repo/src/recurrent.c` 411-419). -/
noncomputable def addRecurrent (m : Nat) (u zp dp : Mat ℝ) (maskPlus : Arr ℝ) (dy : Arr ℝ) : Option (Arr ℝ) :=
  loop m (fun i dy => loop m (fun j (dy : Arr ℝ) => do
    let d ← read4 dp i
    let z ← read4 zp i
    let uv ← read4 u (i * m + j)
    let k ← maskPlus.read j
    let dy ← dy.addAt j (d 0 * dSigmoid (z 0) * uv 0 * k)
    let dy ← dy.addAt j (d 1 * dSigmoid (z 1) * uv 1 * k)
    let dy ← dy.addAt j (d 2 * dSigmoid (z 2) * uv 2 * k)
    dy.addAt j (d 3 * sigmoid (z 1) * dTanhh (z 3) * uv 3 * k)) dy) dy

/-- What `lstm_bp` accumulates and returns. -/
structure Grads where
  (dw du db dfioc : Mat ℝ)

/-- `for(j < n) dw_g[i*n+j] += G_g*x[j]` for the four gates
(`/repo/src/recurrent.c` 319-329, 330-339). The order of the four statements is
irrelevant: they go to different arrays. -/
def gradRow (n i : Nat) (G : Nat → ℝ) (x : Arr ℝ) (a : Mat ℝ) : Option (Mat ℝ) :=
  loop n (fun j (a : Mat ℝ) => do
    let xv ← x.read j
    add4 a (i * n + j) (fun g => G g * xv)) a

/-- The pre-activation errors of one unit as the code computes them
(`/repo/src/recurrent.c` 303-345). -/
noncomputable def unitG (zv : Nat → ℝ) (df di d_o dc : ℝ) (g : Nat) : ℝ :=
  if g = 0 then df * dSigmoid (zv 0)
  else if g = 1 then di * dSigmoidGiven (sigmoid (zv 1))
  else if g = 2 then d_o * dSigmoid (zv 2)
  else dc * sigmoid (zv 1) * dTanhh (zv 3)

/-- The `dy` the rest of the call works with: flag `2` adds the error of the next
step first (`/repo/src/recurrent.c` 408-419), flag `0` does not. -/
noncomputable def totalDy (m : Nat) (plus : Option (Mat ℝ × Mat ℝ)) (u : Mat ℝ) (maskPlus dy : Arr ℝ) :
    Option (Arr ℝ) :=
  match plus with
  | none => some dy
  | some (zp, dp) => addRecurrent m u zp dp maskPlus dy

/-- The extra summand of `dc_t[i]`: `dc_plus[i]*sigmoid(z_f_plus[i])` with flag `2`
(`/repo/src/recurrent.c` 428), nothing with flag `0` (310). -/
noncomputable def cellCarry (plus : Option (Mat ℝ × Mat ℝ)) (i : Nat) : Option ℝ :=
  match plus with
  | none => some 0
  | some (zp, dp) => (read4 dp i).bind fun d => (read4 zp i).bind fun zf => some (d 3 * sigmoid (zf 0))

/-- The loop over the units, the same in the four branches of `lstm_bp` up to the
summand of `dc_t` (`/repo/src/recurrent.c` 299-348, 366-405, 422-462, 511-556). The returned
`df_t, di_t, do_t, dc_t` are fresh `malloc`ed arrays, every cell of which is
written; they start as zeros here. -/
noncomputable def bpUnits (n m : Nat) (plus : Option (Mat ℝ × Mat ℝ)) (z : Mat ℝ)
    (dy x ct hm cm : Arr ℝ) (st : Grads) : Option Grads :=
  loop m (fun i (st : Grads) => do
    let zv ← read4 z i
    let dyv ← dy.read i
    let ctv ← ct.read i
    let cmv ← cm.read i
    let carry ← cellCarry plus i
    let d_o := dyv * tanhh ctv
    let dc := dyv * sigmoid (zv 2) * dTanhh ctv + carry
    let di := dc * tanhh (zv 3)
    let df := dc * cmv
    let dw ← gradRow n i (unitG zv df di d_o dc) x st.dw
    let du ← gradRow m i (unitG zv df di d_o dc) hm st.du
    let db ← add4 st.db i (unitG zv df di d_o dc)
    let dfioc ← write4 st.dfioc i (fun g => if g = 0 then df else if g = 1 then di else if g = 2 then d_o else dc)
    some ⟨dw, du, db, dfioc⟩) { st with dfioc := ⟨4, m, fun _ _ => 0⟩ }

/-- `lstm_bp` with flag `0` (`plus = none`, `/repo/src/recurrent.c` 299-348) or
flag `2` (`plus = some (z_plus, dfioc_plus)`, 408-463). -/
noncomputable def lstmBP (n m : Nat) (plus : Option (Mat ℝ × Mat ℝ)) (maskPlus : Arr ℝ) (u z : Mat ℝ)
    (dy x ct hm cm : Arr ℝ) (st : Grads) : Option Grads := do
  let dy ← totalDy m plus u maskPlus dy
  bpUnits n m plus z dy x ct hm cm st

/-- The `z_plus, dfioc_plus` arguments `bp_rmodel_lstm` passes for step `i`
(`/repo/src/rmodel.c` 868-877 for `i > 0`, 995-999 for `i = 0`): for `i = 0` the
slot `lstm_z[1]` is read whatever the window. -/
def plusOf (T i : Nat) (acc : Arr Cell) (dfioc : Mat ℝ) : Option (Option (Mat ℝ × Mat ℝ)) :=
  if i = 0 then (acc.read 1).bind fun s => some (if T = 1 then none else some (s.z, dfioc))
  else if i = T - 1 then some none
  else (acc.read (i + 1)).bind fun s => some (some (s.z, dfioc))

/-- The first `K` iterations of the loop of `bp_rmodel_lstm` over the steps
`window-1, window-2, …, 0`, for one layer (`/repo/src/rmodel.c` 801-1041), without
the input error. -/
noncomputable def rnnBPn (K T n m : Nat) (maskR maskU : Arr ℝ) (x : Mat ℝ) (h0 c0 : Arr ℝ) (u : Mat ℝ) (err : Mat ℝ)
    (acc : Arr Cell) (st : Grads) : Option Grads :=
  loop K (fun k (st : Grads) => do
    let e ← rowOf err (T - 1 - k)
    let dx ← dropArr m maskU e
    let prev ← prevOf h0 c0 acc (T - 1 - k)
    let hm ← dropArr m maskR prev.1
    let xr ← rowOf x (T - 1 - k)
    let cur ← acc.read (T - 1 - k)
    let plus ← plusOf T (T - 1 - k) acc st.dfioc
    lstmBP n m plus maskR u cur.z dx xr cur.cell hm prev.2 st) st

/-- `bp_rmodel_lstm` for one layer (`/repo/src/rmodel.c` 801-1041): all the
steps. -/
noncomputable def rnnBP (T n m : Nat) (maskR maskU : Arr ℝ) (x : Mat ℝ) (h0 c0 : Arr ℝ) (u : Mat ℝ) (err : Mat ℝ)
    (acc : Arr Cell) (st : Grads) : Option Grads :=
  rnnBPn T T n m maskR maskU x h0 c0 u err acc st

/-! ### Small steps -/

theorem dropArr_eq (m : Nat) (mask inp : Arr ℝ) (hm : m ≤ mask.len) (hi : m ≤ inp.len) :
    ∃ o, dropArr m mask inp = some o ∧ o.len = m ∧ ∀ i, i < m → o.get i = mask.get i * inp.get i := by
  obtain ⟨o, e, h1, h2⟩ := loop_inv (n := m) (s := (⟨m, fun _ => 0⟩ : Arr ℝ))
    (f := fun i (o : Arr ℝ) => (mask.read i).bind fun k => (inp.read i).bind fun v => o.write i (k * v))
    (fun k o => o.len = m ∧ ∀ i, i < k → o.get i = mask.get i * inp.get i)
    ⟨rfl, by intro i hi; omega⟩
    (by
      rintro k hk o ⟨h1, h2⟩
      rw [Arr.read_eq (by omega), Arr.read_eq (by omega)]
      simp only [Option.bind_some]
      rw [Arr.write_eq _ (by omega)]
      refine ⟨_, rfl, h1, fun i hi => ?_⟩
      dsimp only
      by_cases hik : i = k
      · subst hik; rw [Function.update_self]
      · rw [Function.update_of_ne hik]; exact h2 i (by omega))
  exact ⟨o, e, h1, h2⟩

theorem write4_eq (a : Mat ℝ) (k : Nat) (v : Nat → ℝ) (hr : a.rows = 4) (hk : k < a.cols) :
    ∃ a', write4 a k v = some a' ∧ a'.rows = 4 ∧ a'.cols = a.cols ∧
      ∀ g, g < 4 → ∀ c, a'.get g c = if c = k then v g else a.get g c := by
  obtain ⟨rows, cols, f⟩ := a
  dsimp only at hr hk
  subst hr
  unfold write4
  rw [Mat.write_eq _ (by dsimp only; omega) hk]
  simp only [Option.bind_eq_bind, Option.bind_some]
  rw [Mat.write_eq _ (by dsimp only; omega) hk]
  simp only [Option.bind_some]
  rw [Mat.write_eq _ (by dsimp only; omega) hk]
  simp only [Option.bind_some]
  rw [Mat.write_eq _ (by dsimp only; omega) hk]
  refine ⟨_, rfl, rfl, rfl, ?_⟩
  intro g hg c
  dsimp only
  have : g = 0 ∨ g = 1 ∨ g = 2 ∨ g = 3 := by omega
  rcases this with rfl | rfl | rfl | rfl <;> simp

theorem gradRow_eq (n i m : Nat) (hi : i < m) (G : Nat → ℝ) (x : Arr ℝ) (a : Mat ℝ) (ha : a.rows = 4)
    (hac : m * n ≤ a.cols) (hx : n ≤ x.len) :
    ∃ a', gradRow n i G x a = some a' ∧ a'.rows = 4 ∧ a'.cols = a.cols ∧
      ∀ g, g < 4 → ∀ p q, q < n →
        a'.get g (p * n + q) = a.get g (p * n + q) + if p = i then G g * x.get q else 0 := by
  have hrow := row_le (k := n) hi
  obtain ⟨a', e, h1, h2, h3⟩ := loop_inv (n := n) (s := a)
    (f := fun j (a : Mat ℝ) => (x.read j).bind fun xv => add4 a (i * n + j) (fun g => G g * xv))
    (fun k b => b.rows = 4 ∧ b.cols = a.cols ∧ ∀ g, g < 4 → ∀ p q, q < n →
        b.get g (p * n + q) = a.get g (p * n + q) + if p = i ∧ q < k then G g * x.get q else 0)
    ⟨ha, rfl, by intro g _ p q _; simp⟩
    (by
      rintro k hk b ⟨h1, h2, h3⟩
      rw [Arr.read_eq (by omega)]
      simp only [Option.bind_some]
      obtain ⟨b', eb, d1, d2, d3⟩ := add4_eq b (i * n + k) (fun g => G g * x.get k) h1 (by omega)
      refine ⟨b', eb, d1, by omega, fun g hg p q hq => ?_⟩
      rw [d3 g hg, h3 g hg p q hq]
      by_cases hpk : p * n + q = i * n + k
      · obtain ⟨rfl, rfl⟩ := Vec.idx_inj hq hk hpk
        simp
      · rw [if_neg hpk, add_zero]
        refine congrArg _ (if_congr ?_ rfl rfl)
        constructor
        · rintro ⟨rfl, h⟩; exact ⟨rfl, by omega⟩
        · rintro ⟨rfl, h⟩
          refine ⟨rfl, ?_⟩
          by_contra hc
          exact hpk (by congr 1; omega))
  refine ⟨a', e, h1, h2, fun g hg p q hq => ?_⟩
  rw [h3 g hg p q hq]
  exact congrArg _ (if_congr (by simp [hq]) rfl rfl)

theorem addRecurrent_eq (m : Nat) (u zp dp : Mat ℝ) (maskPlus dy : Arr ℝ) (hu : u.rows = 4 ∧ m * m ≤ u.cols)
    (hz : zp.rows = 4 ∧ m ≤ zp.cols) (hd : dp.rows = 4 ∧ m ≤ dp.cols) (hm : m ≤ maskPlus.len) (hy : m ≤ dy.len) :
    ∃ dy', addRecurrent m u zp dp maskPlus dy = some dy' ∧ dy'.len = dy.len ∧
      ∀ j, j < m → dy'.get j = dy.get j + backH m u.get maskPlus.get zp.get dp.get j := by
  obtain ⟨dy', e, h1, h2⟩ := loop2_inv (A := m) (B := m) (st := dy)
    (f := fun i j (dy : Arr ℝ) => (read4 dp i).bind fun d => (read4 zp i).bind fun z =>
      (read4 u (i * m + j)).bind fun uv => (maskPlus.read j).bind fun k =>
      (dy.addAt j (d 0 * dSigmoid (z 0) * uv 0 * k)).bind fun dy =>
      (dy.addAt j (d 1 * dSigmoid (z 1) * uv 1 * k)).bind fun dy =>
      (dy.addAt j (d 2 * dSigmoid (z 2) * uv 2 * k)).bind fun dy =>
      dy.addAt j (d 3 * sigmoid (z 1) * dTanhh (z 3) * uv 3 * k))
    (fun r s q => q.len = dy.len ∧ ∀ j, j < m → q.get j = dy.get j +
      ∑ i ∈ range (if j < s then r + 1 else r), ∑ g ∈ range 4,
        gateErr zp.get dp.get g i * u.get g (i * m + j) * maskPlus.get j)
    ⟨rfl, by intro j _; simp⟩
    (by
      rintro r hr s hs q ⟨h1, h2⟩
      have := row_le (k := m) hr
      obtain ⟨d, ed, gd⟩ := read4_eq dp r hd.1 (by omega)
      obtain ⟨z, ez, gz⟩ := read4_eq zp r hz.1 (by omega)
      obtain ⟨uv, eu, gu⟩ := read4_eq u (r * m + s) hu.1 (by omega)
      refine ⟨⟨q.len, fun j => if j = s then q.get s + d 0 * dSigmoid (z 0) * uv 0 * maskPlus.get s +
        d 1 * dSigmoid (z 1) * uv 1 * maskPlus.get s + d 2 * dSigmoid (z 2) * uv 2 * maskPlus.get s +
        d 3 * sigmoid (z 1) * dTanhh (z 3) * uv 3 * maskPlus.get s else q.get j⟩, ?_, h1, ?_⟩
      · refine (bind_some_of ed).trans ((bind_some_of ez).trans ((bind_some_of eu).trans ?_))
        rw [Arr.read_eq (by omega)]
        simp only [Option.bind_some]
        rw [Arr.addAt_eq' _ (by omega)]
        simp only [Option.bind_some]
        rw [Arr.addAt_eq' _ (by dsimp only; omega)]
        simp only [Option.bind_some]
        rw [Arr.addAt_eq' _ (by dsimp only; omega)]
        simp only [Option.bind_some]
        rw [Arr.addAt_eq' _ (by dsimp only; omega)]
        congr 2
        funext j
        by_cases hj : j = s
        · subst hj; simp
        · simp [hj]
      · intro j hj
        dsimp only
        by_cases hjs : j = s
        · subst hjs
          have := h2 j hj
          simp only [lt_irrefl, if_false] at this
          rw [if_pos rfl, if_pos (by omega), Finset.sum_range_succ, this]
          simp only [Finset.sum_range_succ _ 3, Finset.sum_range_succ _ 2, Finset.sum_range_succ _ 1,
            Finset.sum_range_succ _ 0, Finset.sum_range_zero, gateErr, gd 0 (by omega),
            gd 1 (by omega), gd 2 (by omega), gd 3 (by omega), gz 0 (by omega), gz 1 (by omega), gz 2 (by omega),
            gz 3 (by omega), gu 0 (by omega), gu 1 (by omega), gu 2 (by omega), gu 3 (by omega)]
          simp
          ring
        · rw [if_neg hjs, h2 j hj, show (if j < s then r + 1 else r) = (if j < s + 1 then r + 1 else r) from
            if_congr (by omega) rfl rfl])
    (by
      rintro r hr q ⟨h1, h2⟩
      refine ⟨h1, fun j hj => ?_⟩
      rw [h2 j hj, if_pos hj]
      simp only [Nat.not_lt_zero, if_false])
  refine ⟨dy', e, h1, fun j hj => ?_⟩
  rw [h2 j hj]
  simp only [Nat.not_lt_zero, if_false]
  rfl

theorem unitG_eq (z : Nat → Nat → ℝ) (zv : Nat → ℝ) (ct cm dh carry : Nat → ℝ) (i : Nat)
    (hz : ∀ g, g < 4 → zv g = z g i) (g : Nat) (hg : g < 4) :
    unitG zv ((dh i * sigmoid (zv 2) * dTanhh (ct i) + carry i) * cm i)
      ((dh i * sigmoid (zv 2) * dTanhh (ct i) + carry i) * tanhh (zv 3)) (dh i * tanhh (ct i))
      (dh i * sigmoid (zv 2) * dTanhh (ct i) + carry i) g = gateErr z (gateD z ct cm dh carry) g i := by
  have h0 := hz 0 (by omega)
  have h1 := hz 1 (by omega)
  have h2 := hz 2 (by omega)
  have h3 := hz 3 (by omega)
  have : g = 0 ∨ g = 1 ∨ g = 2 ∨ g = 3 := by omega
  rcases this with rfl | rfl | rfl | rfl <;>
    simp [unitG, gateErr, gateD, h0, h1, h2, h3, dSigmoidGiven, dSigmoid]

/-- The cell-state error coming from the next step. -/
noncomputable def carryOf (plus : Option (Mat ℝ × Mat ℝ)) (i : Nat) : ℝ :=
  match plus with
  | none => 0
  | some (zp, dp) => backC zp.get dp.get i

/-- The hidden-state error of a step: its own, plus what the next step sends back. -/
noncomputable def dhOf (m : Nat) (plus : Option (Mat ℝ × Mat ℝ)) (u : Mat ℝ) (mask dy : Arr ℝ) (j : Nat) : ℝ :=
  dy.get j + match plus with
  | none => 0
  | some (zp, dp) => backH m u.get mask.get zp.get dp.get j

/-- Sizes of the gradient arrays. -/
def Grads.Sized (n m : Nat) (st : Grads) : Prop :=
  (st.dw.rows = 4 ∧ m * n ≤ st.dw.cols) ∧ (st.du.rows = 4 ∧ m * m ≤ st.du.cols) ∧ (st.db.rows = 4 ∧ m ≤ st.db.cols)

theorem bpUnits_eq (n m : Nat) (plus : Option (Mat ℝ × Mat ℝ)) (z : Mat ℝ)
    (dyA x ct hm cm : Arr ℝ) (st : Grads) (hs : st.Sized n m)
    (hp : ∀ q, plus = some q → (q.1.rows = 4 ∧ m ≤ q.1.cols) ∧ (q.2.rows = 4 ∧ m ≤ q.2.cols))
    (hz : z.rows = 4 ∧ m ≤ z.cols)
    (lA : m ≤ dyA.len) (hx : n ≤ x.len) (hct : m ≤ ct.len) (hhm : m ≤ hm.len) (hcm : m ≤ cm.len)
    (dh : Nat → ℝ) (gA : ∀ j, j < m → dyA.get j = dh j) (D : Nat → Nat → ℝ)
    (hD : D = gateD z.get ct.get cm.get dh (carryOf plus)) :
    ∃ st', bpUnits n m plus z dyA x ct hm cm st = some st' ∧ st'.Sized n m ∧
      (st'.dfioc.rows = 4 ∧ st'.dfioc.cols = m) ∧
      ∀ g, g < 4 → ∀ p, p < m →
        (∀ q, q < n → st'.dw.get g (p * n + q) = st.dw.get g (p * n + q) + gateErr z.get D g p * x.get q) ∧
        (∀ q, q < m → st'.du.get g (p * m + q) = st.du.get g (p * m + q) + gateErr z.get D g p * hm.get q) ∧
        st'.db.get g p = st.db.get g p + gateErr z.get D g p ∧ st'.dfioc.get g p = D g p := by
  have hcarry : ∀ i, i < m → cellCarry plus i = some (carryOf plus i) := by
    intro i hi
    rcases plus with _ | ⟨zp, dp⟩
    · rfl
    · obtain ⟨h1, h2⟩ := hp (zp, dp) rfl
      obtain ⟨d, ed, gd⟩ := read4_eq dp i h2.1 (by dsimp only at h2; omega)
      obtain ⟨zf, ez, gz⟩ := read4_eq zp i h1.1 (by dsimp only at h1; omega)
      refine (bind_some_of ed).trans ((bind_some_of ez).trans ?_)
      rw [gd 3 (by omega), gz 0 (by omega)]
      rfl
  obtain ⟨hsw, hsu, hsb⟩ := hs
  obtain ⟨st', e, h1, h2, h3⟩ := loop_inv (n := m) (s := ({ st with dfioc := ⟨4, m, fun _ _ => 0⟩ } : Grads))
    (f := fun i (st : Grads) => (read4 z i).bind fun zv => (dyA.read i).bind fun dyv => (ct.read i).bind fun ctv =>
      (cm.read i).bind fun cmv => (cellCarry plus i).bind fun carry =>
      (gradRow n i (unitG zv ((dyv * sigmoid (zv 2) * dTanhh ctv + carry) * cmv)
        ((dyv * sigmoid (zv 2) * dTanhh ctv + carry) * tanhh (zv 3)) (dyv * tanhh ctv)
        (dyv * sigmoid (zv 2) * dTanhh ctv + carry)) x st.dw).bind fun dw =>
      (gradRow m i (unitG zv ((dyv * sigmoid (zv 2) * dTanhh ctv + carry) * cmv)
        ((dyv * sigmoid (zv 2) * dTanhh ctv + carry) * tanhh (zv 3)) (dyv * tanhh ctv)
        (dyv * sigmoid (zv 2) * dTanhh ctv + carry)) hm st.du).bind fun du =>
      (add4 st.db i (unitG zv ((dyv * sigmoid (zv 2) * dTanhh ctv + carry) * cmv)
        ((dyv * sigmoid (zv 2) * dTanhh ctv + carry) * tanhh (zv 3)) (dyv * tanhh ctv)
        (dyv * sigmoid (zv 2) * dTanhh ctv + carry))).bind fun db =>
      (write4 st.dfioc i (fun g => if g = 0 then (dyv * sigmoid (zv 2) * dTanhh ctv + carry) * cmv
        else if g = 1 then (dyv * sigmoid (zv 2) * dTanhh ctv + carry) * tanhh (zv 3)
        else if g = 2 then dyv * tanhh ctv else dyv * sigmoid (zv 2) * dTanhh ctv + carry)).bind fun dfioc =>
      some ⟨dw, du, db, dfioc⟩)
    (fun k q => q.Sized n m ∧ (q.dfioc.rows = 4 ∧ q.dfioc.cols = m) ∧ ∀ g, g < 4 → ∀ p, p < m →
        (∀ c, c < n → q.dw.get g (p * n + c) = st.dw.get g (p * n + c) +
          if p < k then gateErr z.get D g p * x.get c else 0) ∧
        (∀ c, c < m → q.du.get g (p * m + c) = st.du.get g (p * m + c) +
          if p < k then gateErr z.get D g p * hm.get c else 0) ∧
        q.db.get g p = st.db.get g p + (if p < k then gateErr z.get D g p else 0) ∧
        (p < k → q.dfioc.get g p = D g p))
    ⟨⟨hsw, hsu, hsb⟩, ⟨rfl, rfl⟩, by
      intro g _ p _
      refine ⟨fun c _ => by simp, fun c _ => by simp, by simp, fun h => by omega⟩⟩
    (by
      rintro k hk q ⟨⟨qw, qu, qb⟩, qf, h3⟩
      obtain ⟨zv, ez, gz⟩ := read4_eq z k hz.1 (by omega)
      have hun := fun g hg => unitG_eq z.get zv ct.get cm.get dh (carryOf plus) k gz g hg
      rw [← hD, ← gA k hk] at hun
      generalize hG : unitG zv _ _ _ _ = G at hun
      obtain ⟨dw', ew, w1, w2, w3⟩ := gradRow_eq n k m hk G x q.dw qw.1 qw.2 hx
      obtain ⟨du', eu, u1, u2, u3⟩ := gradRow_eq m k m hk G hm q.du qu.1 qu.2 hhm
      obtain ⟨db', eb, b1, b2, b3⟩ := add4_eq q.db k G qb.1 (by omega)
      obtain ⟨df', ef, f1, f2, f3⟩ := write4_eq q.dfioc k (fun g => D g k) qf.1 (by omega)
      refine ⟨⟨dw', du', db', df'⟩, ?_, ⟨⟨w1, by dsimp only; omega⟩, ⟨u1, by dsimp only; omega⟩,
        ⟨b1, by dsimp only; omega⟩⟩, ⟨f1, by dsimp only; omega⟩, ?_⟩
      · refine (bind_some_of ez).trans ?_
        rw [Arr.read_eq (by omega), Arr.read_eq (by omega), Arr.read_eq (by omega)]
        simp only [Option.bind_some]
        refine (bind_some_of (hcarry k hk)).trans ?_
        rw [hG]
        refine (bind_some_of ew).trans ((bind_some_of eu).trans ((bind_some_of eb).trans ?_))
        refine bind_some_of (Eq.trans (congrArg _ ?_) ef)
        funext g
        rw [hD, gA k hk]
        simp only [gateD, gz 2 (by omega), gz 3 (by omega)]
      · intro g hg p hp'
        obtain ⟨i1, i2, i3, i4⟩ := h3 g hg p hp'
        dsimp only
        refine ⟨fun c hc => ?_, fun c hc => ?_, ?_, fun h => ?_⟩
        · rw [w3 g hg p c hc, i1 c hc, hun g hg]
          rcases lt_trichotomy p k with h | h | h
          · rw [if_pos h, if_neg (by omega), if_pos (by omega), add_zero]
          · subst h; simp
          · rw [if_neg (by omega), if_neg (by omega), if_neg (by omega)]; simp
        · rw [u3 g hg p c hc, i2 c hc, hun g hg]
          rcases lt_trichotomy p k with h | h | h
          · rw [if_pos h, if_neg (by omega), if_pos (by omega), add_zero]
          · subst h; simp
          · rw [if_neg (by omega), if_neg (by omega), if_neg (by omega)]; simp
        · rw [b3 g hg, i3, hun g hg]
          rcases lt_trichotomy p k with h | h | h
          · rw [if_pos h, if_neg (by omega), if_pos (by omega), add_zero]
          · subst h; simp
          · rw [if_neg (by omega), if_neg (by omega), if_neg (by omega)]; simp
        · rw [f3 g hg]
          by_cases hpk : p = k
          · subst hpk; rw [if_pos rfl]
          · rw [if_neg hpk]; exact i4 (by omega))
  refine ⟨st', ?_, h1, h2, fun g hg p hp' => ?_⟩
  · exact e
  · obtain ⟨i1, i2, i3, i4⟩ := h3 g hg p hp'
    refine ⟨fun c hc => ?_, fun c hc => ?_, ?_, i4 hp'⟩
    · rw [i1 c hc, if_pos hp']
    · rw [i2 c hc, if_pos hp']
    · rw [i3, if_pos hp']

theorem lstmBP_eq (n m : Nat) (plus : Option (Mat ℝ × Mat ℝ)) (mask : Arr ℝ) (u z : Mat ℝ)
    (dy x ct hm cm : Arr ℝ) (st : Grads) (hs : st.Sized n m)
    (hp : ∀ q, plus = some q → (q.1.rows = 4 ∧ m ≤ q.1.cols) ∧ (q.2.rows = 4 ∧ m ≤ q.2.cols))
    (hmask : m ≤ mask.len) (hu : u.rows = 4 ∧ m * m ≤ u.cols) (hz : z.rows = 4 ∧ m ≤ z.cols)
    (hdy : m ≤ dy.len) (hx : n ≤ x.len) (hct : m ≤ ct.len) (hhm : m ≤ hm.len) (hcm : m ≤ cm.len)
    (D : Nat → Nat → ℝ)
    (hD : D = gateD z.get ct.get cm.get (dhOf m plus u mask dy) (carryOf plus)) :
    ∃ st', lstmBP n m plus mask u z dy x ct hm cm st = some st' ∧ st'.Sized n m ∧
      (st'.dfioc.rows = 4 ∧ st'.dfioc.cols = m) ∧
      ∀ g, g < 4 → ∀ p, p < m →
        (∀ q, q < n → st'.dw.get g (p * n + q) = st.dw.get g (p * n + q) + gateErr z.get D g p * x.get q) ∧
        (∀ q, q < m → st'.du.get g (p * m + q) = st.du.get g (p * m + q) + gateErr z.get D g p * hm.get q) ∧
        st'.db.get g p = st.db.get g p + gateErr z.get D g p ∧ st'.dfioc.get g p = D g p := by
  obtain ⟨dyA, eA, lA, gA⟩ : ∃ dyA, totalDy m plus u mask dy = some dyA ∧ dyA.len = dy.len ∧
      ∀ j, j < m → dyA.get j = dhOf m plus u mask dy j := by
    rcases plus with _ | ⟨zp, dp⟩
    · exact ⟨dy, rfl, rfl, fun j _ => by simp [dhOf]⟩
    · obtain ⟨h1, h2⟩ := hp (zp, dp) rfl
      exact addRecurrent_eq m u zp dp mask dy hu h1 h2 hmask hdy
  obtain ⟨st', e, h⟩ := bpUnits_eq n m plus z dyA x ct hm cm st hs hp hz (by omega) hx hct hhm hcm _ gA D hD
  exact ⟨st', (bind_some_of eA).trans e, h⟩

/-! ### The forward pass -/

/-- Sizes of the arrays of one step. -/
def Cell.Sized (m : Nat) (s : Cell) : Prop :=
  (s.z.rows = 4 ∧ m ≤ s.z.cols) ∧ m ≤ s.cell.len ∧ m ≤ s.hidden.len

/-- Sizes of the arrays one layer of `m` units with `n` inputs is called with, over
`T` steps: what `recurrent` and `ff_rmodel_lstm`'s callers allocate. -/
structure Sizes (T n m : Nat) (maskR maskU : Arr ℝ) (x : Mat ℝ) (h0 c0 : Arr ℝ) (w u b : Mat ℝ) (acc : Arr Cell) :
    Prop where
  maskR : m ≤ maskR.len
  maskU : m ≤ maskU.len
  x : T ≤ x.rows ∧ n ≤ x.cols
  h0 : m ≤ h0.len
  c0 : m ≤ c0.len
  w : w.rows = 4 ∧ m * n ≤ w.cols
  u : u.rows = 4 ∧ m * m ≤ u.cols
  b : b.rows = 4 ∧ m ≤ b.cols
  len : acc.len = T
  cells : ∀ t, t < T → (acc.get t).Sized m

/-- A stored step holds the values of the unrolled layer. -/
def Holds (m : Nat) (maskU : Nat → ℝ) (P : Nat → Nat → Nat → ℝ) (S : Nat → (Nat → ℝ) × (Nat → ℝ)) (t : Nat)
    (s : Cell) : Prop :=
  s.Sized m ∧ m ≤ s.out.len ∧ ∀ i, i < m → (∀ g, g < 4 → s.z.get g i = P t g i) ∧ s.cell.get i = (S (t + 1)).2 i ∧
    s.hidden.get i = (S (t + 1)).1 i ∧ s.out.get i = maskU i * (S (t + 1)).1 i

theorem prevOf_eq (m k : Nat) (maskU : Nat → ℝ) (P : Nat → Nat → Nat → ℝ) (S : Nat → (Nat → ℝ) × (Nat → ℝ))
    (h0 c0 : Arr ℝ) (acc : Arr Cell) (hh : m ≤ h0.len) (hc : m ≤ c0.len) (hS : S 0 = (h0.get, c0.get))
    (hacc : ∀ t, t < k → Holds m maskU P S t (acc.get t)) (t : Nat) (ht : t ≤ k) (hl : t ≤ acc.len) :
    ∃ pr, prevOf h0 c0 acc t = some pr ∧ m ≤ pr.1.len ∧ m ≤ pr.2.len ∧
      ∀ i, i < m → pr.1.get i = (S t).1 i ∧ pr.2.get i = (S t).2 i := by
  rcases t with _ | t
  · refine ⟨(h0, c0), rfl, hh, hc, fun i _ => ?_⟩
    rw [hS]; exact ⟨rfl, rfl⟩
  · obtain ⟨⟨h1, h2, h3⟩, -, h4⟩ := hacc t (by omega)
    refine ⟨((acc.get t).hidden, (acc.get t).cell), ?_, h3, h2, fun i hi => ?_⟩
    · unfold prevOf
      rw [if_neg (by omega), Nat.add_sub_cancel, Arr.read_eq (by omega)]
      rfl
    · exact ⟨(h4 i hi).2.2.1, (h4 i hi).2.1⟩

theorem pre_congr {n m : Nat} {z0 : Nat → Nat → ℝ} {W U B : Nat → Nat → ℝ} {x x' h h' : Nat → ℝ}
    (hh : ∀ j, j < m → h j = h' j) (hx : ∀ j, j < n → x j = x' j) (g i : Nat) :
    pre n m z0 W U B x h g i = pre n m z0 W U B x' h' g i := by
  unfold pre
  rw [Finset.sum_congr rfl fun j hj => by rw [hx j (Finset.mem_range.1 hj)],
    Finset.sum_congr (s₁ := range m) rfl fun j hj => by rw [hh j (Finset.mem_range.1 hj)]]

theorem rnnFF_eq (T n m : Nat) (maskR maskU : Arr ℝ) (x : Mat ℝ) (h0 c0 : Arr ℝ) (w u b : Mat ℝ) (acc : Arr Cell)
    (hs : Sizes T n m maskR maskU x h0 c0 w u b acc) :
    ∃ acc', rnnFF T n m maskR maskU x h0 c0 w u b acc = some acc' ∧ acc'.len = T ∧
      ∀ t, t < T → Holds m maskU.get
        (preAt n m (fun t => (acc.get t).z.get) x.get maskR.get h0.get c0.get w.get u.get b.get)
        (states n m (fun t => (acc.get t).z.get) x.get maskR.get h0.get c0.get w.get u.get b.get) t (acc'.get t) := by
  obtain ⟨acc', e, h1, h2, h3⟩ := loop_inv (n := T) (s := acc)
    (f := fun t (acc : Arr Cell) => (prevOf h0 c0 acc t).bind fun prev => (dropArr m maskR prev.1).bind fun hm =>
      (rowOf x t).bind fun xr => (acc.read t).bind fun cur => (lstmFF n m xr hm prev.2 w u b cur).bind fun s =>
      (dropArr m maskU s.hidden).bind fun o => acc.write t { s with out := o })
    (fun k q => q.len = T ∧ (∀ t, t < k → Holds m maskU.get
        (preAt n m (fun t => (acc.get t).z.get) x.get maskR.get h0.get c0.get w.get u.get b.get)
        (states n m (fun t => (acc.get t).z.get) x.get maskR.get h0.get c0.get w.get u.get b.get) t (q.get t)) ∧
      ∀ t, k ≤ t → q.get t = acc.get t)
    ⟨hs.len, fun t ht => by omega, fun t _ => rfl⟩
    (by
      rintro k hk q ⟨h1, h2, h3⟩
      obtain ⟨pr, epr, lp1, lp2, gp⟩ := prevOf_eq m k maskU.get _ _ h0 c0 q hs.h0 hs.c0 rfl h2 k le_rfl (by omega)
      obtain ⟨hm, ehm, lhm, ghm⟩ := dropArr_eq m maskR pr.1 hs.maskR lp1
      obtain ⟨c1, c2, c3⟩ := hs.cells k hk
      rw [← h3 k le_rfl] at c1 c2 c3
      obtain ⟨s, es, ⟨d1, d2, d3, d4, d5⟩, gs⟩ := lstmFF_eq n m ⟨x.cols, x.get k⟩ hm pr.2 w u b (q.get k) hs.x.2
        (by omega) lp2 hs.w hs.u hs.b c1 c2 c3
      obtain ⟨o, eo, lo, go⟩ := dropArr_eq m maskU s.hidden hs.maskU (by omega)
      refine ⟨⟨q.len, Function.update q.get k { s with out := o }⟩, ?_, h1, ?_, ?_⟩
      · refine (bind_some_of epr).trans ((bind_some_of ehm).trans ?_)
        unfold rowOf
        rw [if_pos (by have := hs.x.1; omega)]
        refine (bind_some_of rfl).trans ?_
        rw [Arr.read_eq (by omega)]
        refine (bind_some_of rfl).trans ((bind_some_of es).trans ((bind_some_of eo).trans ?_))
        rw [Arr.write_eq _ (by omega)]
      · intro t ht
        by_cases htk : t = k
        · subst htk
          dsimp only
          rw [Function.update_self]
          have hz : ∀ i, i < m → ∀ g, g < 4 → s.z.get g i = preAt n m (fun t => (acc.get t).z.get) x.get maskR.get
              h0.get c0.get w.get u.get b.get t g i := by
            intro i hi g hg
            rw [(gs i hi).1 g hg, h3 t le_rfl]
            exact pre_congr (fun j hj => by rw [ghm j hj, (gp j hj).1]) (fun _ _ => rfl) g i
          have hc : ∀ i, i < m → s.cell.get i = (states n m (fun t => (acc.get t).z.get) x.get maskR.get
              h0.get c0.get w.get u.get b.get (t + 1)).2 i := by
            intro i hi
            rw [(gs i hi).2.1, hz i hi 3 (by omega), hz i hi 1 (by omega), hz i hi 0 (by omega), (gp i hi).2]
            rfl
          have hh : ∀ i, i < m → s.hidden.get i = (states n m (fun t => (acc.get t).z.get) x.get maskR.get
              h0.get c0.get w.get u.get b.get (t + 1)).1 i := by
            intro i hi
            rw [(gs i hi).2.2, hz i hi 2 (by omega), hc i hi]
            rfl
          refine ⟨⟨⟨d1, by dsimp only; omega⟩, by dsimp only; omega, by dsimp only; omega⟩, by dsimp only; omega,
            fun i hi => ⟨hz i hi, hc i hi, hh i hi, ?_⟩⟩
          dsimp only
          rw [go i hi, hh i hi]
        · dsimp only
          rw [Function.update_of_ne htk]
          exact h2 t (by omega)
      · intro t ht
        dsimp only
        rw [Function.update_of_ne (by omega)]
        exact h3 t (by omega))
  exact ⟨acc', e, h1, h2⟩

/-! ### The backward pass -/

theorem gateErr_congr {z z' D D' : Nat → Nat → ℝ} {i : Nat} (hz : ∀ g, g < 4 → z g i = z' g i)
    (hD : ∀ g, g < 4 → D g i = D' g i) (g : Nat) : gateErr z D g i = gateErr z' D' g i := by
  unfold gateErr
  rw [hz 0 (by omega), hz 1 (by omega), hz 2 (by omega), hz 3 (by omega), hD 0 (by omega), hD 1 (by omega),
    hD 2 (by omega), hD 3 (by omega)]

theorem gateD_congr {z z' : Nat → Nat → ℝ} {ct ct' cm cm' dh dh' carry carry' : Nat → ℝ} {i : Nat}
    (hz : ∀ g, g < 4 → z g i = z' g i) (h1 : ct i = ct' i) (h2 : cm i = cm' i) (h3 : dh i = dh' i)
    (h4 : carry i = carry' i) (g : Nat) : gateD z ct cm dh carry g i = gateD z' ct' cm' dh' carry' g i := by
  unfold gateD
  rw [hz 2 (by omega), hz 3 (by omega), h1, h2, h3, h4]

theorem backH_congr {m : Nat} {U : Nat → Nat → ℝ} {mask : Nat → ℝ} {z z' D D' : Nat → Nat → ℝ}
    (hz : ∀ g, g < 4 → ∀ i, i < m → z g i = z' g i) (hD : ∀ g, g < 4 → ∀ i, i < m → D g i = D' g i) (j : Nat) :
    backH m U mask z D j = backH m U mask z' D' j := by
  unfold backH
  refine Finset.sum_congr rfl fun i hi => Finset.sum_congr rfl fun g _ => ?_
  have hi := Finset.mem_range.1 hi
  rw [gateErr_congr (fun g hg => hz g hg i hi) (fun g hg => hD g hg i hi) g]

theorem plusOf_eq (T k : Nat) (hT : 2 ≤ T) (hk : k < T) (acc : Arr Cell) (hl : acc.len = T) (dfioc : Mat ℝ) :
    plusOf T (T - 1 - k) acc dfioc =
      some (if k = 0 then none else some ((acc.get (T - 1 - (k - 1))).z, dfioc)) := by
  unfold plusOf
  by_cases h0 : T - 1 - k = 0
  · rw [if_pos h0, Arr.read_eq (by omega), if_neg (by omega), show T - 1 - (k - 1) = 1 by omega]
    simp only [Option.bind_some]
    rw [if_neg (by omega)]
  · rw [if_neg h0]
    by_cases hk0 : k = 0
    · rw [if_pos (by omega), if_pos hk0]
    · rw [if_neg (by omega), if_neg hk0, Arr.read_eq (by omega), show T - 1 - k + 1 = T - 1 - (k - 1) by omega]
      rfl

theorem rnnBP_eq (T n m : Nat) (hT : 2 ≤ T) (maskR maskU : Arr ℝ) (x : Mat ℝ) (h0 c0 : Arr ℝ) (u err : Mat ℝ)
    (acc : Arr Cell) (st : Grads) (P : Nat → Nat → Nat → ℝ) (S : Nat → (Nat → ℝ) × (Nat → ℝ))
    (hmR : m ≤ maskR.len) (hmU : m ≤ maskU.len) (hx : T ≤ x.rows ∧ n ≤ x.cols) (hh : m ≤ h0.len) (hc : m ≤ c0.len)
    (hu : u.rows = 4 ∧ m * m ≤ u.cols) (he : T ≤ err.rows ∧ m ≤ err.cols) (hl : acc.len = T)
    (hS : S 0 = (h0.get, c0.get)) (hacc : ∀ t, t < T → Holds m maskU.get P S t (acc.get t)) (hst : st.Sized n m)
    (A : Nat → Nat → Nat → ℝ)
    (hA : A = adj m T u.get maskR.get P (fun t => (S t).2) (fun t i => maskU.get i * err.get t i)) :
    ∃ st', rnnBP T n m maskR maskU x h0 c0 u err acc st = some st' ∧ st'.Sized n m ∧
      ∀ g, g < 4 → ∀ p, p < m →
        (∀ q, q < n → st'.dw.get g (p * n + q) = st.dw.get g (p * n + q) +
          ∑ κ ∈ range T, gateErr (P (T - 1 - κ)) (A κ) g p * x.get (T - 1 - κ) q) ∧
        (∀ q, q < m → st'.du.get g (p * m + q) = st.du.get g (p * m + q) +
          ∑ κ ∈ range T, gateErr (P (T - 1 - κ)) (A κ) g p * (maskR.get q * (S (T - 1 - κ)).1 q)) ∧
        st'.db.get g p = st.db.get g p + ∑ κ ∈ range T, gateErr (P (T - 1 - κ)) (A κ) g p := by
  obtain ⟨st', e, h1, -, h2⟩ := loop_inv (n := T) (s := st)
    (f := fun k (st : Grads) => (rowOf err (T - 1 - k)).bind fun e => (dropArr m maskU e).bind fun dx =>
      (prevOf h0 c0 acc (T - 1 - k)).bind fun prev => (dropArr m maskR prev.1).bind fun hm =>
      (rowOf x (T - 1 - k)).bind fun xr => (acc.read (T - 1 - k)).bind fun cur =>
      (plusOf T (T - 1 - k) acc st.dfioc).bind fun plus =>
      lstmBP n m plus maskR u cur.z dx xr cur.cell hm prev.2 st)
    (fun k s => s.Sized n m ∧
      (0 < k → (s.dfioc.rows = 4 ∧ s.dfioc.cols = m) ∧ ∀ g, g < 4 → ∀ i, i < m → s.dfioc.get g i = A (k - 1) g i) ∧
      ∀ g, g < 4 → ∀ p, p < m →
        (∀ q, q < n → s.dw.get g (p * n + q) = st.dw.get g (p * n + q) +
          ∑ κ ∈ range k, gateErr (P (T - 1 - κ)) (A κ) g p * x.get (T - 1 - κ) q) ∧
        (∀ q, q < m → s.du.get g (p * m + q) = st.du.get g (p * m + q) +
          ∑ κ ∈ range k, gateErr (P (T - 1 - κ)) (A κ) g p * (maskR.get q * (S (T - 1 - κ)).1 q)) ∧
        s.db.get g p = st.db.get g p + ∑ κ ∈ range k, gateErr (P (T - 1 - κ)) (A κ) g p)
    ⟨hst, fun h => by omega, fun g _ p _ => ⟨fun q _ => by simp, fun q _ => by simp, by simp⟩⟩
    (by
      rintro k hk s ⟨h1, h2, h3⟩
      obtain ⟨dx, edx, ldx, gdx⟩ := dropArr_eq m maskU ⟨err.cols, err.get (T - 1 - k)⟩ hmU he.2
      obtain ⟨pr, epr, lp1, lp2, gp⟩ := prevOf_eq m T maskU.get P S h0 c0 acc hh hc hS hacc (T - 1 - k) (by omega)
        (by omega)
      obtain ⟨hm, ehm, lhm, ghm⟩ := dropArr_eq m maskR pr.1 hmR lp1
      obtain ⟨⟨c1, c2, c3⟩, -, c4⟩ := hacc (T - 1 - k) (by omega)
      obtain ⟨plus, hplus⟩ : ∃ plus, plus =
        (if k = 0 then none else some ((acc.get (T - 1 - (k - 1))).z, s.dfioc)) := ⟨_, rfl⟩
      obtain ⟨s', es, l1, l2, g1⟩ := lstmBP_eq n m plus maskR u (acc.get (T - 1 - k)).z dx
        ⟨x.cols, x.get (T - 1 - k)⟩ (acc.get (T - 1 - k)).cell hm pr.2 s h1
        (by
          intro q hq
          by_cases hk0 : k = 0
          · rw [if_pos hk0] at hplus; rw [hplus] at hq; cases hq
          · rw [if_neg hk0] at hplus
            rw [hplus] at hq
            cases hq
            obtain ⟨⟨hz, -, -⟩, -, -⟩ := hacc (T - 1 - (k - 1)) (by omega)
            obtain ⟨⟨hd1, hd2⟩, -⟩ := h2 (by omega)
            exact ⟨hz, hd1, by dsimp only; omega⟩)
        hmR hu c1 (by omega) hx.2 c2 (by omega) lp2 _ rfl
      have hDA : ∀ g, g < 4 → ∀ i, i < m → gateD (acc.get (T - 1 - k)).z.get (acc.get (T - 1 - k)).cell.get pr.2.get
          (dhOf m plus u maskR dx) (carryOf plus) g i = A k g i := by
        intro g hg i hi
        rw [hA]
        rcases k with _ | k
        · rw [if_pos rfl] at hplus
          subst hplus
          refine gateD_congr (fun g hg => (c4 i hi).1 g hg) ?_ (gp i hi).2 ?_ rfl g
          · rw [(c4 i hi).2.1, show T - 1 - 0 + 1 = T by omega]
          · simp only [dhOf, add_zero]
            exact gdx i hi
        · rw [if_neg (by omega), Nat.add_sub_cancel] at hplus
          subst hplus
          obtain ⟨-, hd⟩ := h2 (by omega)
          rw [Nat.add_sub_cancel, hA] at hd
          obtain ⟨-, -, c4'⟩ := hacc (T - 1 - k) (by omega)
          refine gateD_congr (fun g hg => (c4 i hi).1 g hg) ?_ (gp i hi).2 ?_ ?_ g
          · rw [(c4 i hi).2.1, show T - 1 - (k + 1) + 1 = T - 1 - k by omega]
          · refine congrArg₂ _ (gdx i hi) ?_
            exact backH_congr (fun g hg i hi => (c4' i hi).1 g hg) hd i
          · show backC _ _ i = backC _ _ i
            unfold backC
            rw [hd 3 (by omega) i hi, (c4' i hi).1 0 (by omega)]
      have hE : ∀ g, ∀ i, i < m → gateErr (acc.get (T - 1 - k)).z.get (gateD (acc.get (T - 1 - k)).z.get
          (acc.get (T - 1 - k)).cell.get pr.2.get (dhOf m plus u maskR dx) (carryOf plus)) g i =
          gateErr (P (T - 1 - k)) (A k) g i := fun g i hi =>
        gateErr_congr (fun g hg => (c4 i hi).1 g hg) (fun g hg => hDA g hg i hi) g
      refine ⟨s', ?_, l1, fun _ => ⟨l2, fun g hg i hi => ?_⟩, fun g hg p hp => ?_⟩
      · unfold rowOf
        rw [if_pos (by omega), if_pos (by omega)]
        refine (bind_some_of rfl).trans ((bind_some_of edx).trans ((bind_some_of epr).trans ((bind_some_of ehm).trans
          ((bind_some_of rfl).trans ?_))))
        rw [Arr.read_eq (by omega)]
        refine (bind_some_of rfl).trans ?_
        rw [plusOf_eq T k hT hk acc hl, ← hplus]
        exact (bind_some_of rfl).trans es
      · rw [(g1 g hg i hi).2.2.2, Nat.add_sub_cancel]
        exact hDA g hg i hi
      · obtain ⟨i1, i2, i3⟩ := h3 g hg p hp
        obtain ⟨j1, j2, j3, -⟩ := g1 g hg p hp
        refine ⟨fun q hq => ?_, fun q hq => ?_, ?_⟩
        · rw [j1 q hq, i1 q hq, hE g p hp, Finset.sum_range_succ, add_assoc]
        · rw [j2 q hq, i2 q hq, hE g p hp, Finset.sum_range_succ, add_assoc, ghm q hq, (gp q hq).1]
        · rw [j3, i3, hE g p hp, Finset.sum_range_succ, add_assoc])
  exact ⟨st', e, h1, h2⟩

/-! ### C71 -/

/-- `L` is the sum, over all steps and outputs, of the output weighted with the
error, for the given parameters. -/
def Loss (T n m : Nat) (maskR maskU : Arr ℝ) (x : Mat ℝ) (h0 c0 : Arr ℝ) (err : Mat ℝ) (acc : Arr Cell)
    (w u b : Mat ℝ) (L : ℝ) : Prop :=
  ∃ acc', rnnFF T n m maskR maskU x h0 c0 w u b acc = some acc' ∧
    L = ∑ t ∈ range T, ∑ i ∈ range m, err.get t i * (acc'.get t).out.get i

/-- The array with one cell set. -/
def setAt (a : Mat ℝ) (g k : Nat) (v : ℝ) : Mat ℝ :=
  { a with get := Function.update a.get g (Function.update (a.get g) k v) }

theorem loss_hasDerivAt (T n m : Nat) (hT : 1 ≤ T) (maskR maskU : Arr ℝ) (x : Mat ℝ) (h0 c0 : Arr ℝ) (err : Mat ℝ)
    (acc : Arr Cell) (W U B : ℝ → Mat ℝ) (hs : ∀ s, Sizes T n m maskR maskU x h0 c0 (W s) (U s) (B s) acc)
    (W' U' B' : Nat → Nat → ℝ) (s0 : ℝ)
    (hW : ∀ g k, HasDerivAt (fun s => (W s).get g k) (W' g k) s0)
    (hU : ∀ g k, HasDerivAt (fun s => (U s).get g k) (U' g k) s0)
    (hB : ∀ g k, HasDerivAt (fun s => (B s).get g k) (B' g k) s0)
    (P : Nat → Nat → Nat → ℝ) (S : Nat → (Nat → ℝ) × (Nat → ℝ))
    (hP : P = preAt n m (fun t => (acc.get t).z.get) x.get maskR.get h0.get c0.get (W s0).get (U s0).get (B s0).get)
    (hS : S = states n m (fun t => (acc.get t).z.get) x.get maskR.get h0.get c0.get (W s0).get (U s0).get
      (B s0).get)
    (A : Nat → Nat → Nat → ℝ)
    (hA : A = adj m T (U s0).get maskR.get P (fun t => (S t).2) (fun t i => maskU.get i * err.get t i)) :
    ∃ F : ℝ → ℝ, (∀ s, Loss T n m maskR maskU x h0 c0 err acc (W s) (U s) (B s) (F s)) ∧
      HasDerivAt F (∑ κ ∈ range T, ∑ i ∈ range m, ∑ g ∈ range 4, gateErr (P (T - 1 - κ)) (A κ) g i *
        explicit n m W' U' B' (x.get (T - 1 - κ)) (fun j => maskR.get j * (S (T - 1 - κ)).1 j) g i) s0 := by
  refine ⟨fun s => ∑ t ∈ range T, ∑ i ∈ range m, (maskU.get i * err.get t i) *
    (states n m (fun t => (acc.get t).z.get) x.get maskR.get h0.get c0.get (W s).get (U s).get (B s).get (t + 1)).1 i,
    fun s => ?_, ?_⟩
  · obtain ⟨acc', e, -, h⟩ := rnnFF_eq T n m maskR maskU x h0 c0 (W s) (U s) (B s) acc (hs s)
    refine ⟨acc', e, Finset.sum_congr rfl fun t ht => Finset.sum_congr rfl fun i hi => ?_⟩
    obtain ⟨-, -, h⟩ := h t (Finset.mem_range.1 ht)
    rw [(h i (Finset.mem_range.1 hi)).2.2.2]
    ring
  · have hpair := bptt_pair n m (fun t => (acc.get t).z.get) x.get maskR.get h0.get c0.get (W s0).get (U s0).get
      (B s0).get W' U' B' T hT (fun t i => maskU.get i * err.get t i)
    rw [← hP, ← hS, ← hA] at hpair
    rw [← hpair]
    refine HasDerivAt.fun_sum fun t _ => HasDerivAt.fun_sum fun i _ => HasDerivAt.const_mul _ ?_
    exact (states_hasDerivAt n m (fun t => (acc.get t).z.get) x.get maskR.get h0.get c0.get
      (fun s => (W s).get) (fun s => (U s).get) (fun s => (B s).get) W' U' B' s0 hW hU hB (t + 1)).1 i

theorem setAt_hasDerivAt (a : Mat ℝ) (g0 k0 : Nat) (s0 : ℝ) (g k : Nat) :
    HasDerivAt (fun s => (setAt a g0 k0 s).get g k) (if g = g0 ∧ k = k0 then 1 else 0) s0 := by
  unfold setAt
  by_cases hg : g = g0
  · subst hg
    by_cases hk : k = k0
    · subst hk
      simp only [Function.update_self, and_self, if_true]
      exact hasDerivAt_id _
    · simp only [Function.update_self, Function.update_of_ne hk, hk, and_false, if_false]
      exact hasDerivAt_const _ _
  · simp only [Function.update_of_ne hg, hg, false_and, if_false]
    exact hasDerivAt_const _ _

theorem setAt_self (a : Mat ℝ) (g k : Nat) : setAt a g k (a.get g k) = a := by
  obtain ⟨r, c, f⟩ := a
  unfold setAt
  dsimp only
  rw [Function.update_eq_self, Function.update_eq_self]

/-- Selecting one parameter from the sum over all units and gates. -/
theorem pick_sum (m : Nat) (E X : Nat → Nat → ℝ) (g0 p : Nat) (hg : g0 < 4) (hp : p < m)
    (Y : ℝ) (hX : ∀ g i, i < m → X g i = if g = g0 ∧ i = p then Y else 0) :
    ∑ i ∈ range m, ∑ g ∈ range 4, E g i * X g i = E g0 p * Y := by
  rw [Finset.sum_eq_single_of_mem p (Finset.mem_range.2 hp), Finset.sum_eq_single_of_mem g0 (Finset.mem_range.2 hg)]
  · rw [hX g0 p hp, if_pos ⟨rfl, rfl⟩]
  · intro g _ hne
    rw [hX g p hp, if_neg (by rintro ⟨h, -⟩; exact hne h), mul_zero]
  · intro i hi hne
    refine Finset.sum_eq_zero fun g _ => ?_
    rw [hX g i (Finset.mem_range.1 hi), if_neg (by rintro ⟨-, h⟩; exact hne h), mul_zero]

theorem row_pick (n p q : Nat) (hq : q < n) (g g0 i : Nat) (v : Nat → ℝ) :
    ∑ j ∈ range n, (if g = g0 ∧ i * n + j = p * n + q then (1 : ℝ) else 0) * v j =
      if g = g0 ∧ i = p then v q else 0 := by
  by_cases h : g = g0 ∧ i = p
  · obtain ⟨rfl, rfl⟩ := h
    rw [Finset.sum_eq_single_of_mem q (Finset.mem_range.2 hq)]
    · simp
    · intro j hj hne
      rw [if_neg (by rintro ⟨-, h⟩; omega), zero_mul]
  · rw [if_neg h]
    refine Finset.sum_eq_zero fun j hj => ?_
    rw [if_neg, zero_mul]
    rintro ⟨h1, h2⟩
    exact h ⟨h1, (Vec.idx_inj (Finset.mem_range.1 hj) hq h2).1⟩

/-- **C71 (partial).** Training one LSTM layer over a window of at least two steps:
after a forward and a backward pass, the change of every entry of the gradient
arrays of the input weights, the recurrent weights and the biases (of all four
gates) is exactly the derivative, with respect to that parameter, of the
error-weighted sum of the outputs of all steps.

What is missing: windows of one step (`C71_window_one_refuted`), several layers,
residual and edge-popup modes, and group-normalised layers. -/
theorem C71_bptt_gradient_partial (T n m : Nat) (hT : 2 ≤ T) (maskR maskU : Arr ℝ) (x : Mat ℝ) (h0 c0 : Arr ℝ)
    (w u b err : Mat ℝ) (acc : Arr Cell) (st : Grads) (hs : Sizes T n m maskR maskU x h0 c0 w u b acc)
    (he : T ≤ err.rows ∧ m ≤ err.cols) (hst : st.Sized n m) :
    ∃ acc' st', rnnFF T n m maskR maskU x h0 c0 w u b acc = some acc' ∧
      rnnBP T n m maskR maskU x h0 c0 u err acc' st = some st' ∧
      ∀ g, g < 4 → ∀ p, p < m →
        (∀ q, q < n → ∃ F : ℝ → ℝ,
          (∀ s, Loss T n m maskR maskU x h0 c0 err acc (setAt w g (p * n + q) s) u b (F s)) ∧
          HasDerivAt F (st'.dw.get g (p * n + q) - st.dw.get g (p * n + q)) (w.get g (p * n + q))) ∧
        (∀ q, q < m → ∃ F : ℝ → ℝ,
          (∀ s, Loss T n m maskR maskU x h0 c0 err acc w (setAt u g (p * m + q) s) b (F s)) ∧
          HasDerivAt F (st'.du.get g (p * m + q) - st.du.get g (p * m + q)) (u.get g (p * m + q))) ∧
        ∃ F : ℝ → ℝ,
          (∀ s, Loss T n m maskR maskU x h0 c0 err acc w u (setAt b g p s) (F s)) ∧
          HasDerivAt F (st'.db.get g p - st.db.get g p) (b.get g p) := by
  obtain ⟨acc', e1, l1, h1⟩ := rnnFF_eq T n m maskR maskU x h0 c0 w u b acc hs
  obtain ⟨st', e2, -, h2⟩ := rnnBP_eq T n m hT maskR maskU x h0 c0 u err acc' st _ _ hs.maskR hs.maskU hs.x hs.h0
    hs.c0 hs.u he l1 rfl h1 hst _ rfl
  refine ⟨acc', st', e1, e2, fun g hg p hp => ⟨fun q hq => ?_, fun q hq => ?_, ?_⟩⟩
  · obtain ⟨F, hF, hd⟩ := loss_hasDerivAt T n m (by omega) maskR maskU x h0 c0 err acc
      (fun s => setAt w g (p * n + q) s) (fun _ => u) (fun _ => b) (fun s => { hs with w := hs.w }) _ _ _
      (w.get g (p * n + q)) (setAt_hasDerivAt w g (p * n + q) _) (fun _ _ => hasDerivAt_const _ _)
      (fun _ _ => hasDerivAt_const _ _) _ _ rfl rfl _ rfl
    refine ⟨F, hF, hd.congr_deriv ?_⟩
    rw [setAt_self, (h2 g hg p hp).1 q hq, add_sub_cancel_left]
    refine Finset.sum_congr rfl fun κ _ => pick_sum m _ _ g p hg hp _ fun g' i _ => ?_
    simp only [explicit, zero_mul, Finset.sum_const_zero, add_zero]
    exact row_pick n p q hq g' g i _
  · obtain ⟨F, hF, hd⟩ := loss_hasDerivAt T n m (by omega) maskR maskU x h0 c0 err acc
      (fun _ => w) (fun s => setAt u g (p * m + q) s) (fun _ => b) (fun s => { hs with u := hs.u }) _ _ _
      (u.get g (p * m + q)) (fun _ _ => hasDerivAt_const _ _) (setAt_hasDerivAt u g (p * m + q) _)
      (fun _ _ => hasDerivAt_const _ _) _ _ rfl rfl _ rfl
    refine ⟨F, hF, hd.congr_deriv ?_⟩
    rw [setAt_self, (h2 g hg p hp).2.1 q hq, add_sub_cancel_left]
    refine Finset.sum_congr rfl fun κ _ => pick_sum m _ _ g p hg hp _ fun g' i _ => ?_
    simp only [explicit, zero_mul, Finset.sum_const_zero, add_zero, zero_add]
    exact row_pick m p q hq g' g i _
  · obtain ⟨F, hF, hd⟩ := loss_hasDerivAt T n m (by omega) maskR maskU x h0 c0 err acc
      (fun _ => w) (fun _ => u) (fun s => setAt b g p s) (fun s => { hs with b := hs.b }) _ _ _
      (b.get g p) (fun _ _ => hasDerivAt_const _ _) (fun _ _ => hasDerivAt_const _ _)
      (setAt_hasDerivAt b g p _) _ _ rfl rfl _ rfl
    refine ⟨F, hF, hd.congr_deriv ?_⟩
    rw [setAt_self, (h2 g hg p hp).2.2, add_sub_cancel_left]
    refine Finset.sum_congr rfl fun κ _ => (pick_sum m _ _ g p hg hp 1 fun g' i _ => ?_).trans (mul_one _)
    simp only [explicit, zero_mul, Finset.sum_const_zero, zero_add]

/-- The hypotheses are met by a two-input, one-unit layer over two steps. -/
example : Sizes 2 2 1 ⟨1, fun _ => 1⟩ ⟨1, fun _ => 1⟩ ⟨2, 2, fun _ _ => 1⟩ ⟨1, fun _ => 0⟩ ⟨1, fun _ => 0⟩
    ⟨4, 2, fun _ _ => 1⟩ ⟨4, 1, fun _ _ => 1⟩ ⟨4, 1, fun _ _ => 1⟩
    ⟨2, fun _ => ⟨⟨4, 1, fun _ _ => 0⟩, ⟨1, fun _ => 0⟩, ⟨1, fun _ => 0⟩, ⟨1, fun _ => 0⟩⟩⟩ :=
  ⟨le_rfl, le_rfl, ⟨le_rfl, le_rfl⟩, le_rfl, le_rfl, ⟨rfl, le_rfl⟩, ⟨rfl, le_rfl⟩, ⟨rfl, le_rfl⟩, rfl,
    fun _ _ => ⟨⟨rfl, le_rfl⟩, le_rfl, le_rfl⟩⟩

/-- **C71 fails for a window of one step.** The backward pass of the first step reads
the pre-activations of step `1` whatever the window, and the layer only has as many
slots as the window (`/repo/src/recurrent_layers.c` 109, `/repo/src/rmodel.c`
999). -/
theorem C71_window_one_refuted (n m : Nat) (maskR maskU : Arr ℝ) (x : Mat ℝ) (h0 c0 : Arr ℝ)
    (w u b err : Mat ℝ) (acc : Arr Cell) (st : Grads) (hs : Sizes 1 n m maskR maskU x h0 c0 w u b acc) :
    ∃ acc', rnnFF 1 n m maskR maskU x h0 c0 w u b acc = some acc' ∧
      rnnBP 1 n m maskR maskU x h0 c0 u err acc' st = none := by
  obtain ⟨acc', e1, l1, h1⟩ := rnnFF_eq 1 n m maskR maskU x h0 c0 w u b acc hs
  refine ⟨acc', e1, ?_⟩
  have hp : ∀ d, plusOf 1 0 acc' d = none := by
    intro d
    simp [plusOf, Arr.read, l1]
  unfold rnnBP rnnBPn
  simp only [loop, Nat.sub_self, hp, Option.bind_eq_bind, Option.bind_none, Option.bind_some]
  simp

end LLab.LSTM
