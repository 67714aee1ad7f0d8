import Verif.Layers.BPTT
import Verif.Layers.EdgePopup

/-!
The LSTM cell in edge-popup mode: `lstm_ff_edge_popup` (`/repo/src/recurrent.c`
112-164) and `lstm_bp_edge_popup` (586-1002). Property C143.
-/

namespace LLab.LSTMPopup

open Finset LLab.Act LLab.LSTM LLab.EdgePopup

/-! ### Model -/

/-- First position of the ranking the forward loops visit: `i = size2 - k_percentage*size2`
truncated to `int` (`/repo/src/recurrent.c` 122, 128). Rounding of the float
expression is not modelled. -/
def startF (T : Nat) (k : ℚ) : Nat := ⌊(T : ℚ) - k * T⌋₊

/-- First position of the ranking the backward loops visit: `size2 = T*k_percentage`
truncated (`/repo/src/recurrent.c` 596-597). -/
def startB (T : Nat) (k : ℚ) : Nat := ⌊(T : ℚ) * k⌋₊

/-- `z[g][idx[g][i]/n] += w[g][idx[g][i]]*x[idx[g][i]%n]` for the four gates and the
positions `start ≤ i < T` (`/repo/src/recurrent.c` 122-127 with the inputs, 128-133 with
the recurrent state). -/
def gateSel (n T start : Nat) (idx : Mat Nat) (w : Mat ℝ) (x : Arr ℝ) (z : Mat ℝ) : Option (Mat ℝ) :=
  loopFrom start T (fun i z => loop 4 (fun g (z : Mat ℝ) => do
    let q ← idx.read g i
    let wv ← w.read g q
    let xv ← x.read (q % n)
    z.addAt g (q / n) (wv * xv)) z) z

/-- The value of a gate array at `i` when it is read: written only if one of the two
flags is set, otherwise the cell of the `malloc`ed array is uninitialised
(`/repo/src/recurrent.c` 137-144). -/
def gateVal (wa ua : Mat Nat) (z : Mat ℝ) (g i : Nat) (f : ℝ → ℝ) : Option ℝ := do
  let a ← wa.read g i
  let b ← ua.read g i
  let v ← z.read g i
  if a ≠ 0 ∨ b ≠ 0 then some (f v) else none

/-- The loop over the units (`/repo/src/recurrent.c` 135-158). -/
noncomputable def cellLoop (wa ua : Mat Nat) (m : Nat) (c : Arr ℝ) (st : Cell) : Option Cell :=
  loop m (fun i (st : Cell) => do
    let f ← gateVal wa ua st.z 0 i sigmoid
    let it ← gateVal wa ua st.z 1 i sigmoid
    let o ← gateVal wa ua st.z 2 i sigmoid
    let zc ← gateVal wa ua st.z 3 i tanhh
    let cv ← c.read i
    let cell ← st.cell.write i (zc * it + cv * f)
    let ct ← cell.read i
    let hidden ← st.hidden.write i (o * tanhh ct)
    some { st with cell := cell, hidden := hidden }) st

/-- `lstm_ff_edge_popup` (`/repo/src/recurrent.c` 112-164): `wa, ua` the active flags,
`wIdx, uIdx` the rankings. The biases are an argument of the C function that its body never reads. -/
noncomputable def lstmFFPopup (wa ua wIdx uIdx : Mat Nat) (n m : Nat) (k : ℚ) (x h c : Arr ℝ) (w u : Mat ℝ)
    (st : Cell) : Option Cell := do
  let z ← gateSel n (m * n) (startF (m * n) k) wIdx w x st.z
  let z ← gateSel m (m * m) (startF (m * m) k) uIdx u h z
  cellLoop wa ua m c { st with z := z }

/-- The error of gate `g` in unit `a` of the structure behind (the layer above or the next
step), as the code multiplies it (`/repo/src/recurrent.c` 757-767, 830-841, 905-935). -/
noncomputable def behindErr (d z : Mat ℝ) (g a : Nat) : Option ℝ := do
  let dv ← d.read g a
  let zv ← z.read g a
  if g = 3 then do
    let zi ← z.read 1 a
    some (dv * sigmoid zi * dTanhh zv)
  else some (dv * dSigmoid zv)

/-- The condition under which gate `g` of unit `a` behind passes its error on; `act` are the
flags of the weights in question, `oth` those of the other weight array. -/
def passes (act oth : Mat Nat) (g a : Nat) : Option Bool := do
  let v ← act.read g a
  if g = 3 then do
    let p ← act.read 1 a
    let q ← oth.read 1 a
    some ((p ≠ 0 ∨ q ≠ 0) ∧ v ≠ 0)
  else some (v ≠ 0)

/-- Errors of the structure behind added to `dy` (`/repo/src/recurrent.c` 755-771 flag 1,
829-844 flag 2, 904-936 flag 3): the positions `start ≤ i < T` of the rankings. Flag 1 has no
factor per summand; there `mask` is all ones. -/
noncomputable def addBehind (m T start : Nat) (act oth idx : Mat Nat) (w z d : Mat ℝ) (mask dy : Arr ℝ) :
    Option (Arr ℝ) :=
  loopFrom start T (fun i dy => loop 4 (fun g (dy : Arr ℝ) => do
    let q ← idx.read g i
    let b ← passes act oth g (q / m)
    if b then do
      let e ← behindErr d z g (q / m)
      let wv ← w.read g q
      let k ← mask.read (q % m)
      dy.addAt (q % m) (e * wv * k)
    else some dy) dy) dy

/-- `d_scores_g[i*n+j] += w_g[i*n+j]*G_g*x[j]` for the four gates (`/repo/src/recurrent.c`
722-731, 733-742). -/
def scoreRow (n i : Nat) (G : Nat → ℝ) (w : Mat ℝ) (x : Arr ℝ) (a : Mat ℝ) : Option (Mat ℝ) :=
  loop n (fun j (a : Mat ℝ) => do
    let xv ← x.read j
    let wv ← read4 w (i * n + j)
    add4 a (i * n + j) (fun g => wv g * G g * xv)) a

/-- What the backward function accumulates and returns: `d_w_scores, d_u_scores` and the fresh
`df_t, di_t, do_t, dc_t`. -/
structure Scores where
  (sw su dfioc : Mat ℝ)

/-- The factors of one unit: a factor is `0` unless the flag of the input weights is set
(`/repo/src/recurrent.c` 700-720); `temp5 = sigmoid(z_i)` too. -/
noncomputable def unitP (wav : Nat → Nat) (zv : Nat → ℝ) (df di d_o dc : ℝ) (g : Nat) : ℝ :=
  if g = 0 then df * (if wav 0 ≠ 0 then dSigmoid (zv 0) else 0)
  else if g = 1 then di * (if wav 1 ≠ 0 then dSigmoidGiven (sigmoid (zv 1)) else 0)
  else if g = 2 then d_o * (if wav 2 ≠ 0 then dSigmoid (zv 2) else 0)
  else dc * (if wav 1 ≠ 0 then sigmoid (zv 1) else 0) * (if wav 3 ≠ 0 then dTanhh (zv 3) else 0)

/-- `a[0][i], …, a[3][i]` of an `int**`. -/
def read4n (a : Mat Nat) (i : Nat) : Option (Nat → Nat) := do
  let v0 ← a.read 0 i
  let v1 ← a.read 1 i
  let v2 ← a.read 2 i
  let v3 ← a.read 3 i
  some (fun g => if g = 0 then v0 else if g = 1 then v1 else if g = 2 then v2 else v3)

/-- The loop over the units, the same in the four branches (`/repo/src/recurrent.c` 694-746,
774-822, 847-896, 939-989). `dc_t` has no summand from the next step. -/
noncomputable def unitLoop (wa : Mat Nat) (n m : Nat) (w u z : Mat ℝ) (dy x ct hm cm : Arr ℝ) (st : Scores) :
    Option Scores :=
  loop m (fun i (st : Scores) => do
    let zv ← read4 z i
    let wav ← read4n wa i
    let dyv ← dy.read i
    let ctv ← ct.read i
    let cmv ← cm.read i
    let d_o := dyv * tanhh ctv
    let dc := dyv * sigmoid (zv 2) * dTanhh ctv
    let di := dc * tanhh (zv 3)
    let df := dc * cmv
    let sw ← scoreRow n i (unitP wav zv df di d_o dc) w x st.sw
    let su ← scoreRow m i (unitP wav zv df di d_o dc) u hm st.su
    let dfioc ← write4 st.dfioc i (fun g => if g = 0 then df else if g = 1 then di else if g = 2 then d_o else dc)
    some ⟨sw, su, dfioc⟩) { st with dfioc := ⟨4, m, fun _ _ => 0⟩ }

/-- A structure behind: flags, ranking, weights, pre-activations and gate errors. -/
structure Behind where
  (act oth idx : Mat Nat)
  (w z d : Mat ℝ)

/-- `dy[i] *= dropout_mask[i]` (`/repo/src/recurrent.c` 776; only flag 1). -/
noncomputable def maskDy (m : Nat) (mask dy : Arr ℝ) : Option (Arr ℝ) :=
  loop m (fun i (dy : Arr ℝ) => do
    let k ← mask.read i
    let v ← dy.read i
    dy.write i (v * k)) dy

/-- The `dy` the unit loop works with. `up`: the layer above with its output size (flags 1, 3),
`plus`: the next step (flags 2, 3). One `k` serves both loops (`/repo/src/recurrent.c` 596-597).
In flag 1 the factors `dropout_mask` come after all the errors, in flag 3 with each summand. -/
noncomputable def popupDy (m mUp : Nat) (k : ℚ) (up plus : Option Behind) (mask maskPlus dy : Arr ℝ) :
    Option (Arr ℝ) :=
  match up, plus with
  | none, none => some dy
  | some b, none => do
    let dy ← addBehind m (m * mUp) (startB (m * mUp) k) b.act b.oth b.idx b.w b.z b.d ⟨m, fun _ => 1⟩ dy
    maskDy m mask dy
  | none, some p => addBehind m (m * m) (startB (m * m) k) p.act p.oth p.idx p.w p.z p.d maskPlus dy
  | some b, some p => do
    let dy ← addBehind m (m * mUp) (startB (m * mUp) k) b.act b.oth b.idx b.w b.z b.d mask dy
    addBehind m (m * m) (startB (m * m) k) p.act p.oth p.idx p.w p.z p.d maskPlus dy

/-- `lstm_bp_edge_popup` (`/repo/src/recurrent.c` 586-1002). -/
noncomputable def lstmBPPopup (wa : Mat Nat) (n m mUp : Nat) (k : ℚ) (up plus : Option Behind) (mask maskPlus : Arr ℝ)
    (w u z : Mat ℝ) (dy x ct hm cm : Arr ℝ) (st : Scores) : Option Scores := do
  let dy ← popupDy m mUp k up plus mask maskPlus dy
  unitLoop wa n m w u z dy x ct hm cm st

/-! ### Forward -/

/-- Row `g` of a ranking. -/
abbrev rowN (a : Mat Nat) (g : Nat) : Arr Nat := ⟨a.cols, a.get g⟩

/-- Every gate's row of the index matrix is a ranking of `T` weights. -/
def IsOrder4 (idx : Mat Nat) (T : Nat) : Prop := idx.rows = 4 ∧ ∀ g, g < 4 → IsOrder (rowN idx g) T

/-- The weights of the four gates with every non-selected one replaced by zero. -/
noncomputable def restrict4 (idx : Mat Nat) (T last : Nat) (w : Nat → Nat → ℝ) (g : Nat) : Nat → ℝ :=
  restrict (idx.get g) T last (w g)

theorem gateSel_eq (n m start : Nat) (hs : start ≤ m * n) (idx : Mat Nat) (w : Mat ℝ) (x : Arr ℝ) (z : Mat ℝ)
    (hi : IsOrder4 idx (m * n)) (hw : w.rows = 4 ∧ m * n ≤ w.cols) (hx : n ≤ x.len) (hz : z.rows = 4 ∧ m ≤ z.cols) :
    ∃ z', gateSel n (m * n) start idx w x z = some z' ∧ z'.rows = 4 ∧ z'.cols = z.cols ∧
      ∀ g, g < 4 → ∀ a, a < m → z'.get g a = z.get g a +
        ∑ j ∈ range n, restrict4 idx (m * n) (m * n - start) w.get g (a * n + j) * x.get j := by
  obtain ⟨r, cl, z⟩ := z
  obtain ⟨rfl, hz2⟩ := hz
  dsimp only at hz2 ⊢
  have hrun : gateSel n (m * n) start idx w x ⟨4, cl, z⟩ = some ⟨4, cl, z +
      ∑ τ ∈ range (m * n - start), ∑ g ∈ range 4, Pi.single g (Pi.single (idx.get g (start + τ) / n)
        (w.get g (idx.get g (start + τ)) * x.get (idx.get g (start + τ) % n)))⟩ := by
    refine loopFrom_act rfl (Mat.mk 4 cl) _ (fun τ hτ m₁ => ?_) z
    refine loop_act (Mat.mk 4 cl) _ (fun g hg m₂ => ?_) m₁
    obtain ⟨h1, h2⟩ := hi
    obtain ⟨h3, h4, h5⟩ := h2 g hg
    have hlt := h4 (start + τ) (by omega)
    dsimp only at h3 hlt
    have hn : 0 < n := by
      rcases Nat.eq_zero_or_pos n with h0 | h0
      · subst h0; simp at hlt
      · exact h0
    rw [Mat.read_eq (by omega) (by omega)]
    simp only [Option.bind_eq_bind, Option.bind_some]
    rw [Mat.read_eq (by omega) (by omega)]
    simp only [Option.bind_some]
    rw [Arr.read_eq (by have := Nat.mod_lt (idx.get g (start + τ)) hn; omega)]
    simp only [Option.bind_some]
    exact Mat.addAt_mk _ hg (by
      have : idx.get g (start + τ) / n < m := Nat.div_lt_of_lt_mul (by rw [Nat.mul_comm]; exact hlt)
      omega)
  refine ⟨_, hrun, rfl, rfl, fun g hg a ha => ?_⟩
  dsimp only
  rw [Pi.add_apply, Pi.add_apply]
  congr 1
  have h := restrict_row (rowN idx g) n m (m * n - start) (by omega) (hi.2 g hg) x.get (w.get g) a
  rw [if_pos ha] at h
  simp only [FC.affine, add_zero] at h
  refine Eq.trans ?_ h
  simp only [Finset.sum_apply]
  refine Finset.sum_congr rfl fun τ _ => ?_
  rw [Finset.sum_eq_single g]
  · rw [Pi.single_eq_same, Pi.single_apply]
    have : m * n - (m * n - start) = start := by omega
    rw [this]
    split_ifs <;> ring
  · intro b _ hb
    rw [Pi.single_eq_of_ne (Ne.symm hb), Pi.zero_apply]
  · intro h0; exact absurd (Finset.mem_range.mpr hg) h0

/-- A gate of unit `i` is active: one of its two flags is set. -/
def Active (wa ua : Mat Nat) (g i : Nat) : Prop := wa.get g i ≠ 0 ∨ ua.get g i ≠ 0

theorem gateVal_eq (wa ua : Mat Nat) (z : Mat ℝ) (g i : Nat) (f : ℝ → ℝ) (hwa : g < wa.rows ∧ i < wa.cols)
    (hua : g < ua.rows ∧ i < ua.cols) (hz : g < z.rows ∧ i < z.cols) (h : Active wa ua g i) :
    gateVal wa ua z g i f = some (f (z.get g i)) := by
  unfold gateVal
  rw [Mat.read_eq hwa.1 hwa.2, Mat.read_eq hua.1 hua.2, Mat.read_eq hz.1 hz.2]
  simp only [Option.bind_eq_bind, Option.bind_some]
  exact if_pos h

theorem gateVal_none (wa ua : Mat Nat) (z : Mat ℝ) (g i : Nat) (f : ℝ → ℝ) (h : ¬ Active wa ua g i) :
    gateVal wa ua z g i f = none := by
  unfold gateVal Mat.read
  unfold Active at h
  split_ifs <;> simp_all

theorem cellLoop_eq (wa ua : Mat Nat) (m : Nat) (c : Arr ℝ) (st : Cell) (hwa : wa.rows = 4 ∧ m ≤ wa.cols)
    (hua : ua.rows = 4 ∧ m ≤ ua.cols) (hz : st.z.rows = 4 ∧ m ≤ st.z.cols) (hc : m ≤ c.len) (hcell : m ≤ st.cell.len)
    (hhid : m ≤ st.hidden.len) (hact : ∀ g, g < 4 → ∀ i, i < m → Active wa ua g i) :
    ∃ st', cellLoop wa ua m c st = some st' ∧ st'.z = st.z ∧ st'.out = st.out ∧ st'.cell.len = st.cell.len ∧
      st'.hidden.len = st.hidden.len ∧ ∀ i, i < m →
        st'.cell.get i = tanhh (st.z.get 3 i) * sigmoid (st.z.get 1 i) + c.get i * sigmoid (st.z.get 0 i) ∧
        st'.hidden.get i = sigmoid (st.z.get 2 i) * tanhh (st'.cell.get i) := by
  obtain ⟨st', e, h1, h2, h3, h4, h5⟩ := loop_inv (n := m) (s := st)
    (f := fun i (st : Cell) => (gateVal wa ua st.z 0 i sigmoid).bind fun f => (gateVal wa ua st.z 1 i sigmoid).bind
      fun it => (gateVal wa ua st.z 2 i sigmoid).bind fun o => (gateVal wa ua st.z 3 i tanhh).bind fun zc =>
      (c.read i).bind fun cv => (st.cell.write i (zc * it + cv * f)).bind fun cell => (cell.read i).bind fun ct =>
      (st.hidden.write i (o * tanhh ct)).bind fun hidden => some { st with cell := cell, hidden := hidden })
    (fun k q => q.z = st.z ∧ q.out = st.out ∧ q.cell.len = st.cell.len ∧ q.hidden.len = st.hidden.len ∧ ∀ i, i < k →
      q.cell.get i = tanhh (st.z.get 3 i) * sigmoid (st.z.get 1 i) + c.get i * sigmoid (st.z.get 0 i) ∧
        q.hidden.get i = sigmoid (st.z.get 2 i) * tanhh (q.cell.get i))
    ⟨rfl, rfl, rfl, rfl, fun i hi => by omega⟩
    (by
      rintro k hk q ⟨a1, a2, a3, a4, a5⟩
      rw [a1, gateVal_eq wa ua st.z 0 k _ (by omega) (by omega) (by omega) (hact 0 (by omega) k hk),
        gateVal_eq wa ua st.z 1 k _ (by omega) (by omega) (by omega) (hact 1 (by omega) k hk),
        gateVal_eq wa ua st.z 2 k _ (by omega) (by omega) (by omega) (hact 2 (by omega) k hk),
        gateVal_eq wa ua st.z 3 k _ (by omega) (by omega) (by omega) (hact 3 (by omega) k hk), Arr.read_eq (by omega)]
      simp only [Option.bind_some]
      rw [Arr.write_eq _ (by omega)]
      simp only [Option.bind_some]
      rw [Arr.read_eq (by dsimp only; omega)]
      simp only [Option.bind_some, Function.update_self]
      rw [Arr.write_eq _ (by omega)]
      refine ⟨_, rfl, rfl, a2, a3, a4, fun i hi => ?_⟩
      dsimp only
      by_cases hik : i = k
      · subst hik; rw [Function.update_self, Function.update_self]; exact ⟨rfl, rfl⟩
      · rw [Function.update_of_ne hik, Function.update_of_ne hik]; exact a5 i (by omega))
  exact ⟨st', e, h1, h2, h3, h4, h5⟩

theorem startF_le (T : Nat) (k : ℚ) (hk : 0 ≤ k) : startF T k ≤ T := by
  unfold startF
  have h : (T : ℚ) - k * T ≤ T := by nlinarith [Nat.cast_nonneg (α := ℚ) T]
  exact (Nat.floor_le_floor h).trans (by simp)

/-- How many of the top-ranked weights the forward pass uses. -/
def usedF (T : Nat) (k : ℚ) : Nat := T - startF T k

/-- C143. If every gate of every unit has one of its flags set, the forward pass of an edge-popup
LSTM cell computes the LSTM equations with the weights outside the selected part of the ranking
replaced by zero and no biases. -/
theorem C143_forward_partial (wa ua wIdx uIdx : Mat Nat) (n m : Nat) (k : ℚ) (hk : 0 ≤ k) (x h c : Arr ℝ)
    (w u : Mat ℝ) (st : Cell) (hx : n ≤ x.len) (hh : m ≤ h.len) (hc : m ≤ c.len) (hw : w.rows = 4 ∧ m * n ≤ w.cols)
    (hu : u.rows = 4 ∧ m * m ≤ u.cols) (hz : st.z.rows = 4 ∧ m ≤ st.z.cols) (hcell : m ≤ st.cell.len)
    (hhid : m ≤ st.hidden.len) (hwi : IsOrder4 wIdx (m * n)) (hui : IsOrder4 uIdx (m * m))
    (hwa : wa.rows = 4 ∧ m ≤ wa.cols) (hua : ua.rows = 4 ∧ m ≤ ua.cols)
    (hact : ∀ g, g < 4 → ∀ i, i < m → Active wa ua g i) :
    ∃ st', lstmFFPopup wa ua wIdx uIdx n m k x h c w u st = some st' ∧ st'.cell.len = st.cell.len ∧
      st'.hidden.len = st.hidden.len ∧ ∀ i, i < m →
      (∀ g, g < 4 → st'.z.get g i = pre n m st.z.get (restrict4 wIdx (m * n) (usedF (m * n) k) w.get)
        (restrict4 uIdx (m * m) (usedF (m * m) k) u.get) (fun _ _ => 0) x.get h.get g i) ∧
      st'.cell.get i = tanhh (st'.z.get 3 i) * sigmoid (st'.z.get 1 i) + c.get i * sigmoid (st'.z.get 0 i) ∧
      st'.hidden.get i = sigmoid (st'.z.get 2 i) * tanhh (st'.cell.get i) := by
  obtain ⟨z1, e1, r1, c1, g1⟩ := gateSel_eq n m _ (startF_le (m * n) k hk) wIdx w x st.z hwi hw hx hz
  obtain ⟨z2, e2, r2, c2, g2⟩ := gateSel_eq m m _ (startF_le (m * m) k hk) uIdx u h z1 hui hu hh ⟨r1, by omega⟩
  obtain ⟨st', e, h1, h2, h4, h5, h3⟩ := cellLoop_eq wa ua m c { st with z := z2 } hwa hua
    ⟨r2, by dsimp only; omega⟩ hc hcell hhid hact
  refine ⟨st', ?_, h4, h5, fun i hi => ?_⟩
  · unfold lstmFFPopup
    refine (bind_some_of e1).trans ?_
    exact (bind_some_of e2).trans e
  · dsimp only at h1
    refine ⟨fun g hg => ?_, ?_⟩
    · rw [h1, g2 g hg i hi, g1 g hg i hi]
      simp [pre, usedF]
    · have := h3 i hi
      rw [h1]
      exact this

theorem cellLoop_none (wa ua : Mat Nat) (m : Nat) (c : Arr ℝ) (g i : Nat) (hg : g < 4) (hi : i < m)
    (hact : ¬ Active wa ua g i) : ∀ st : Cell, cellLoop wa ua m c st = none := by
  induction m with
  | zero => omega
  | succ m ih =>
    intro st
    unfold cellLoop
    simp only [loop]
    by_cases him : i = m
    · subst him
      match hl : loop i (fun i (st : Cell) => do
          let f ← gateVal wa ua st.z 0 i sigmoid
          let it ← gateVal wa ua st.z 1 i sigmoid
          let o ← gateVal wa ua st.z 2 i sigmoid
          let zc ← gateVal wa ua st.z 3 i tanhh
          let cv ← c.read i
          let cell ← st.cell.write i (zc * it + cv * f)
          let ct ← cell.read i
          let hidden ← st.hidden.write i (o * tanhh ct)
          some { st with cell := cell, hidden := hidden }) st with
      | none => rfl
      | some q =>
        simp only [Option.bind_eq_bind, Option.bind_some]
        have : g = 0 ∨ g = 1 ∨ g = 2 ∨ g = 3 := by omega
        rcases this with rfl | rfl | rfl | rfl <;>
          simp [gateVal_none _ _ _ _ _ _ hact]
    · have := ih (by omega) st
      unfold cellLoop at this
      rw [this]
      rfl

/-- C143. If both flags of some gate of some unit are zero, which `k_percentage` below one brings
about, the forward pass reads an uninitialised cell whatever the inputs and weights. -/
theorem C143_uninitialised_refuted (wa ua wIdx uIdx : Mat Nat) (n m : Nat) (k : ℚ) (x h c : Arr ℝ) (w u : Mat ℝ)
    (st : Cell) (g i : Nat) (hg : g < 4) (hi : i < m) (hw : wa.get g i = 0) (hu : ua.get g i = 0) :
    lstmFFPopup wa ua wIdx uIdx n m k x h c w u st = none := by
  unfold lstmFFPopup
  match gateSel n (m * n) (startF (m * n) k) wIdx w x st.z with
  | none => rfl
  | some z1 =>
    simp only [Option.bind_eq_bind, Option.bind_some]
    match gateSel m (m * m) (startF (m * m) k) uIdx u h z1 with
    | none => rfl
    | some z2 => exact cellLoop_none wa ua m c g i hg hi (by unfold Active; omega) _

/-! ### Scores -/

theorem read4n_eq (a : Mat Nat) (k : Nat) (hr : a.rows = 4) (hk : k < a.cols) :
    ∃ v, read4n a k = some v ∧ ∀ g, g < 4 → v g = a.get g k := by
  refine ⟨fun g => if g = 0 then a.get 0 k else if g = 1 then a.get 1 k else if g = 2 then a.get 2 k else a.get 3 k,
    ?_, ?_⟩
  · unfold read4n
    rw [Mat.read_eq (by omega) hk, Mat.read_eq (by omega) hk, Mat.read_eq (by omega) hk, Mat.read_eq (by omega) hk]
    rfl
  · intro g hg
    have : g = 0 ∨ g = 1 ∨ g = 2 ∨ g = 3 := by omega
    rcases this with rfl | rfl | rfl | rfl <;> simp

theorem scoreRow_eq (n i m : Nat) (hi : i < m) (G : Nat → ℝ) (w : Mat ℝ) (x : Arr ℝ) (a : Mat ℝ) (ha : a.rows = 4)
    (hac : m * n ≤ a.cols) (hw : w.rows = 4 ∧ m * n ≤ w.cols) (hx : n ≤ x.len) :
    ∃ a', scoreRow n i G w x a = some a' ∧ a'.rows = 4 ∧ a'.cols = a.cols ∧
      ∀ g, g < 4 → ∀ p q, q < n →
        a'.get g (p * n + q) = a.get g (p * n + q) + if p = i then w.get g (p * n + q) * G g * x.get q else 0 := by
  have hrow := row_le (k := n) hi
  obtain ⟨a', e, h1, h2, h3⟩ := loop_inv (n := n) (s := a)
    (f := fun j (a : Mat ℝ) => (x.read j).bind fun xv => (read4 w (i * n + j)).bind fun wv =>
      add4 a (i * n + j) (fun g => wv g * G g * xv))
    (fun k b => b.rows = 4 ∧ b.cols = a.cols ∧ ∀ g, g < 4 → ∀ p q, q < n →
      b.get g (p * n + q) = a.get g (p * n + q) +
        if p = i ∧ q < k then w.get g (p * n + q) * G g * x.get q else 0)
    ⟨ha, rfl, by intro g _ p q _; simp⟩
    (by
      rintro k hk b ⟨h1, h2, h3⟩
      obtain ⟨wv, ew, gw⟩ := read4_eq w (i * n + k) hw.1 (by omega)
      rw [Arr.read_eq (by omega), ew]
      simp only [Option.bind_some]
      obtain ⟨b', eb, d1, d2, d3⟩ := add4_eq b (i * n + k) (fun g => wv g * G g * x.get k) h1 (by omega)
      refine ⟨b', eb, d1, by omega, fun g hg p q hq => ?_⟩
      rw [d3 g hg _, h3 g hg p q hq]
      by_cases hpq : p * n + q = i * n + k
      · have hh := Vec.idx_inj hq hk hpq
        obtain ⟨rfl, rfl⟩ := hh
        rw [if_neg (by omega), if_pos rfl, if_pos (by omega), gw g hg]
        ring
      · rw [if_neg hpq, add_zero]
        congr 1
        by_cases h : p = i ∧ q < k
        · rw [if_pos h, if_pos (by omega)]
        · rw [if_neg h, if_neg]
          rintro ⟨rfl, h'⟩
          have hqk : q ≠ k := fun hh => hpq (by rw [hh])
          exact h ⟨rfl, by omega⟩)
  refine ⟨a', e, h1, h2, fun g hg p q hq => ?_⟩
  rw [h3 g hg p q hq]
  congr 1
  exact if_congr (by constructor <;> (intro h; simp_all)) rfl rfl

/-- Sizes of the arrays of `Scores`. -/
def Scores.Sized (st : Scores) (n m : Nat) : Prop :=
  (st.sw.rows = 4 ∧ m * n ≤ st.sw.cols) ∧ (st.su.rows = 4 ∧ m * m ≤ st.su.cols)

/-- The error in the pre-activation of gate `g` of unit `p` as the code weighs it. -/
noncomputable def popErr (wa : Nat → Nat → Nat) (z D : Nat → Nat → ℝ) (g p : Nat) : ℝ :=
  unitP (fun g => wa g p) (fun g => z g p) (D 0 p) (D 1 p) (D 2 p) (D 3 p) g

theorem unitLoop_eq (wa : Mat Nat) (n m : Nat) (w u z : Mat ℝ) (dy x ct hm cm : Arr ℝ) (st : Scores)
    (hs : st.Sized n m) (hwa : wa.rows = 4 ∧ m ≤ wa.cols) (hw : w.rows = 4 ∧ m * n ≤ w.cols)
    (hu : u.rows = 4 ∧ m * m ≤ u.cols) (hz : z.rows = 4 ∧ m ≤ z.cols)
    (hdy : m ≤ dy.len) (hx : n ≤ x.len) (hct : m ≤ ct.len) (hhm : m ≤ hm.len) (hcm : m ≤ cm.len)
    (D : Nat → Nat → ℝ) (hD : D = gateD z.get ct.get cm.get dy.get (fun _ => 0)) :
    ∃ st', unitLoop wa n m w u z dy x ct hm cm st = some st' ∧ st'.Sized n m ∧ ∀ g, g < 4 → ∀ p, p < m →
      (∀ q, q < n → st'.sw.get g (p * n + q) = st.sw.get g (p * n + q) +
        w.get g (p * n + q) * popErr wa.get z.get D g p * x.get q) ∧
      (∀ q, q < m → st'.su.get g (p * m + q) = st.su.get g (p * m + q) +
        u.get g (p * m + q) * popErr wa.get z.get D g p * hm.get q) ∧
      st'.dfioc.get g p = D g p := by
  obtain ⟨st', e, h1, -, h2⟩ := loop_inv (n := m) (s := { st with dfioc := ⟨4, m, fun _ _ => 0⟩ })
    (f := fun i (st : Scores) => (read4 z i).bind fun zv => (read4n wa i).bind fun wav => (dy.read i).bind fun dyv =>
      (ct.read i).bind fun ctv => (cm.read i).bind fun cmv =>
      (scoreRow n i (unitP wav zv (dyv * sigmoid (zv 2) * dTanhh ctv * cmv)
        (dyv * sigmoid (zv 2) * dTanhh ctv * tanhh (zv 3)) (dyv * tanhh ctv) (dyv * sigmoid (zv 2) * dTanhh ctv))
        w x st.sw).bind fun sw =>
      (scoreRow m i (unitP wav zv (dyv * sigmoid (zv 2) * dTanhh ctv * cmv)
        (dyv * sigmoid (zv 2) * dTanhh ctv * tanhh (zv 3)) (dyv * tanhh ctv) (dyv * sigmoid (zv 2) * dTanhh ctv))
        u hm st.su).bind fun su =>
      (write4 st.dfioc i (fun g => if g = 0 then dyv * sigmoid (zv 2) * dTanhh ctv * cmv
        else if g = 1 then dyv * sigmoid (zv 2) * dTanhh ctv * tanhh (zv 3)
        else if g = 2 then dyv * tanhh ctv else dyv * sigmoid (zv 2) * dTanhh ctv)).bind fun dfioc =>
      some ⟨sw, su, dfioc⟩)
    (fun k q => q.Sized n m ∧ (q.dfioc.rows = 4 ∧ q.dfioc.cols = m) ∧ ∀ g, g < 4 → ∀ p, p < m →
      (∀ j, j < n → q.sw.get g (p * n + j) = st.sw.get g (p * n + j) +
        if p < k then w.get g (p * n + j) * popErr wa.get z.get D g p * x.get j else 0) ∧
      (∀ j, j < m → q.su.get g (p * m + j) = st.su.get g (p * m + j) +
        if p < k then u.get g (p * m + j) * popErr wa.get z.get D g p * hm.get j else 0) ∧
      (p < k → q.dfioc.get g p = D g p))
    ⟨hs, ⟨rfl, rfl⟩, by
      intro g _ p _
      refine ⟨fun j _ => ?_, fun j _ => ?_, fun h => by omega⟩ <;> simp⟩
    (by
      rintro k hk q ⟨⟨⟨a1, a2⟩, a3, a4⟩, ⟨a5, a6⟩, hq⟩
      obtain ⟨zv, ez, gz⟩ := read4_eq z k hz.1 (by omega)
      obtain ⟨wav, ewa, gwa⟩ := read4n_eq wa k hwa.1 (by omega)
      rw [ez, ewa, Arr.read_eq (by omega), Arr.read_eq (by omega), Arr.read_eq (by omega)]
      simp only [Option.bind_some]
      have hG : ∀ g, g < 4 → unitP wav zv (dy.get k * sigmoid (zv 2) * dTanhh (ct.get k) * cm.get k)
          (dy.get k * sigmoid (zv 2) * dTanhh (ct.get k) * tanhh (zv 3)) (dy.get k * tanhh (ct.get k))
          (dy.get k * sigmoid (zv 2) * dTanhh (ct.get k)) g = popErr wa.get z.get D g k := by
        intro g hg
        unfold popErr unitP
        rw [hD]
        simp only [gz 0 (by omega), gz 1 (by omega), gz 2 (by omega), gz 3 (by omega), gwa 0 (by omega),
          gwa 1 (by omega), gwa 2 (by omega), gwa 3 (by omega), gateD, add_zero, if_true, one_ne_zero, if_false,
          show ¬ (2 : ℕ) = 0 by omega, show ¬ (2 : ℕ) = 1 by omega, show ¬ (3 : ℕ) = 0 by omega,
          show ¬ (3 : ℕ) = 1 by omega, show ¬ (3 : ℕ) = 2 by omega]
      obtain ⟨s1, e1, b1, b2, b3⟩ := scoreRow_eq n k m hk _ w x q.sw a1 a2 hw hx
      obtain ⟨s2, e2, d1, d2, d3⟩ := scoreRow_eq m k m hk _ u hm q.su a3 a4 hu hhm
      obtain ⟨s3, e3, f1, f2, f3⟩ := write4_eq q.dfioc k (fun g =>
        if g = 0 then dy.get k * sigmoid (zv 2) * dTanhh (ct.get k) * cm.get k
        else if g = 1 then dy.get k * sigmoid (zv 2) * dTanhh (ct.get k) * tanhh (zv 3)
        else if g = 2 then dy.get k * tanhh (ct.get k) else dy.get k * sigmoid (zv 2) * dTanhh (ct.get k)) a5 (by omega)
      refine ⟨⟨s1, s2, s3⟩, ?_, ⟨⟨b1, by dsimp only; omega⟩, d1, by dsimp only; omega⟩,
        ⟨f1, by dsimp only; omega⟩, fun g hg p hp => ⟨fun j hj => ?_, fun j hj => ?_, fun hpk => ?_⟩⟩
      · refine (bind_some_of e1).trans ?_
        refine (bind_some_of e2).trans ?_
        exact bind_some_of e3
      · dsimp only
        rw [b3 g hg p j hj, (hq g hg p hp).1 j hj, hG g hg]
        by_cases hpk : p = k
        · subst hpk; rw [if_neg (by omega), if_pos rfl, if_pos (by omega), add_zero]
        · rw [if_neg hpk, add_zero]
          exact congrArg _ (if_congr (by omega) rfl rfl)
      · dsimp only
        rw [d3 g hg p j hj, (hq g hg p hp).2.1 j hj, hG g hg]
        by_cases hpk : p = k
        · subst hpk; rw [if_neg (by omega), if_pos rfl, if_pos (by omega), add_zero]
        · rw [if_neg hpk, add_zero]
          exact congrArg _ (if_congr (by omega) rfl rfl)
      · dsimp only
        rw [f3 g hg p]
        by_cases hpk' : p = k
        · subst hpk'
          rw [if_pos rfl, hD]
          simp only [gateD, add_zero, gz 2 (by omega), gz 3 (by omega)]
        · rw [if_neg hpk']
          exact (hq g hg p hp).2.2 (by omega))
  refine ⟨st', e, h1, fun g hg p hp => ⟨fun q hq => ?_, fun q hq => ?_, ?_⟩⟩
  · rw [((h2 g hg p hp).1 q hq), if_pos hp]
  · rw [((h2 g hg p hp).2.1 q hq), if_pos hp]
  · exact (h2 g hg p hp).2.2 hp

theorem popErr_active (wa : Nat → Nat → Nat) (z D : Nat → Nat → ℝ) (g p : Nat) (h : ∀ g, g < 4 → wa g p ≠ 0) :
    popErr wa z D g p = gateErr z D g p := by
  unfold popErr unitP gateErr
  rw [if_pos (h 0 (by omega)), if_pos (h 1 (by omega)), if_pos (h 1 (by omega)), if_pos (h 2 (by omega)),
    if_pos (h 3 (by omega))]
  rfl

/-- The outputs of one LSTM cell with given weights and no biases, from the definition of the
cell. -/
noncomputable def hid (n m : Nat) (z0 W U : Nat → Nat → ℝ) (x h c : Nat → ℝ) (i : Nat) : ℝ :=
  sigmoid (pre n m z0 W U (fun _ _ => 0) x h 2 i) * tanhh (tanhh (pre n m z0 W U (fun _ _ => 0) x h 3 i) *
    sigmoid (pre n m z0 W U (fun _ _ => 0) x h 1 i) + c i * sigmoid (pre n m z0 W U (fun _ _ => 0) x h 0 i))

/-- `f` with its value at `(g₀, p₀)` replaced by `s`. -/
noncomputable def put (f : Nat → Nat → ℝ) (g₀ p₀ : Nat) (s : ℝ) (g p : Nat) : ℝ := if g = g₀ ∧ p = p₀ then s else f g p

theorem put_self (f : Nat → Nat → ℝ) (g₀ p₀ : Nat) : put f g₀ p₀ (f g₀ p₀) = f := by
  funext g p
  unfold put
  split_ifs with h
  · rw [h.1, h.2]
  · rfl

theorem put_deriv (w f : Nat → Nat → ℝ) (g₀ p₀ : Nat) (s₀ : ℝ) (g p : Nat) :
    HasDerivAt (fun s => w g p * put f g₀ p₀ s g p) (put (fun _ _ => 0) g₀ p₀ (w g₀ p₀) g p) s₀ := by
  unfold put
  by_cases h : g = g₀ ∧ p = p₀
  · simp only [if_pos h]
    obtain ⟨rfl, rfl⟩ := h
    simpa using (hasDerivAt_id s₀).const_mul (w g p)
  · simp only [if_neg h]
    exact hasDerivAt_const _ _

theorem hid_states (n m : Nat) (z0 W U : Nat → Nat → ℝ) (x h c : Nat → ℝ) (i : Nat) :
    (states n m (fun _ => z0) (fun _ => x) (fun _ => 1) h c W U (fun _ _ => 0) 1).1 i = hid n m z0 W U x h c i := by
  simp only [states, one_mul, hid]

section
variable (n m : Nat) (z0 w u fw fu : Nat → Nat → ℝ) (dy x h c : Nat → ℝ)

/-- Gate errors of a single step with given pre-activations and cell state. -/
noncomputable def stepErr (z : Nat → Nat → ℝ) (ct cm dy : Nat → ℝ) : Nat → Nat → ℝ :=
  gateErr z (gateD z ct cm dy (fun _ => 0))

/-- The derivative of the weighted outputs along a curve of weights. -/
theorem hid_curve (W U : ℝ → Nat → Nat → ℝ) (W' U' : Nat → Nat → ℝ) (s₀ : ℝ)
    (hW : ∀ g k, HasDerivAt (fun s => W s g k) (W' g k) s₀) (hU : ∀ g k, HasDerivAt (fun s => U s g k) (U' g k) s₀)
    (z : Nat → Nat → ℝ) (ct : Nat → ℝ)
    (hz : ∀ g, g < 4 → ∀ i, i < m → z g i = pre n m z0 (W s₀) (U s₀) (fun _ _ => 0) x h g i)
    (hct : ∀ i, i < m → ct i = tanhh (z 3 i) * sigmoid (z 1 i) + c i * sigmoid (z 0 i)) :
    HasDerivAt (fun s => ∑ i ∈ range m, dy i * hid n m z0 (W s) (U s) x h c i)
      (∑ i ∈ range m, ∑ g ∈ range 4, stepErr z ct c dy g i *
        (∑ j ∈ range n, W' g (i * n + j) * x j + ∑ j ∈ range m, U' g (i * m + j) * h j)) s₀ := by
  have h1 := (states_hasDerivAt n m (fun _ => z0) (fun _ => x) (fun _ => 1) h c W U (fun _ _ _ => 0) W' U'
    (fun _ _ => 0) s₀ hW hU (fun _ _ => hasDerivAt_const _ _) 1).1
  have h2 := step_pair n m (fun _ => z0) (fun _ => x) (fun _ => 1) h c (W s₀) (U s₀) (fun _ _ => 0) W' U'
    (fun _ _ => 0) 0 dy (fun _ => 0)
  have h3 := HasDerivAt.fun_sum (u := range m) (fun i _ => (h1 i).const_mul (dy i))
  simp only [hid_states] at h3
  refine h3.congr_deriv ?_
  simp only [zero_mul, Finset.sum_const_zero, add_zero, zero_add] at h2
  rw [h2]
  have hT1 : ∀ j, (tangents n m (fun _ => z0) (fun _ => x) (fun _ => 1) h c (W s₀) (U s₀) (fun _ _ => 0) W' U'
    (fun _ _ => 0) 0).1 j = 0 := fun j => rfl
  have hT2 : ∀ j, (tangents n m (fun _ => z0) (fun _ => x) (fun _ => 1) h c (W s₀) (U s₀) (fun _ _ => 0) W' U'
    (fun _ _ => 0) 0).2 j = 0 := fun j => rfl
  simp only [hT1, hT2, mul_zero, Finset.sum_const_zero, add_zero]
  refine Finset.sum_congr rfl fun i hi => Finset.sum_congr rfl fun g hg => ?_
  have hi := Finset.mem_range.mp hi
  have hg := Finset.mem_range.mp hg
  have hzP : ∀ g, g < 4 → z g i = preAt n m (fun _ => z0) (fun _ => x) (fun _ => 1) h c (W s₀) (U s₀) (fun _ _ => 0) 0
      g i := by
    intro g hg
    rw [hz g hg i hi]
    simp only [preAt, states, one_mul]
  have hC : ct i = (states n m (fun _ => z0) (fun _ => x) (fun _ => 1) h c (W s₀) (U s₀) (fun _ _ => 0) 1).2 i := by
    rw [hct i hi, hz 3 (by omega) i hi, hz 1 (by omega) i hi, hz 0 (by omega) i hi]
    simp only [states, one_mul]
  congr 1
  · unfold stepErr gateErr gateD
    rw [hzP 0 (by omega), hzP 1 (by omega), hzP 2 (by omega), hzP 3 (by omega), hC]
    rfl
  · simp only [explicit, states, one_mul, add_zero]

theorem put_row (k g₀ a b g i : Nat) (hb : b < k) (v : ℝ) (y : Nat → ℝ) :
    ∑ j ∈ range k, put (fun _ _ => 0) g₀ (a * k + b) v g (i * k + j) * y j = if g = g₀ ∧ i = a then v * y b else 0 := by
  unfold put
  by_cases h : g = g₀ ∧ i = a
  · obtain ⟨rfl, rfl⟩ := h
    rw [if_pos ⟨rfl, rfl⟩, Finset.sum_eq_single b]
    · simp
    · intro j _ hj
      rw [if_neg (by rintro ⟨_, h⟩; omega), zero_mul]
    · intro hb'; exact absurd (Finset.mem_range.mpr hb) hb'
  · rw [if_neg h]
    refine Finset.sum_eq_zero fun j hj => ?_
    rw [if_neg, zero_mul]
    rintro ⟨h1, h2⟩
    exact h ⟨h1, (Vec.idx_inj (Finset.mem_range.mp hj) hb h2).1⟩

theorem pick (g₀ a : Nat) (hg : g₀ < 4) (ha : a < m) (E : Nat → Nat → ℝ) (v : ℝ) :
    ∑ i ∈ range m, ∑ g ∈ range 4, E g i * (if g = g₀ ∧ i = a then v else 0) = E g₀ a * v := by
  rw [Finset.sum_eq_single a, Finset.sum_eq_single g₀]
  · rw [if_pos ⟨rfl, rfl⟩]
  · intro g _ h; rw [if_neg (by rintro ⟨h1, _⟩; exact h h1), mul_zero]
  · intro h; exact absurd (Finset.mem_range.mpr hg) h
  · intro i _ h
    exact Finset.sum_eq_zero fun g _ => by rw [if_neg (by rintro ⟨_, h1⟩; exact h h1), mul_zero]
  · intro h; exact absurd (Finset.mem_range.mpr ha) h

/-- Derivative of the weighted outputs in a factor on an input weight. -/
theorem hid_deriv_w (z : Nat → Nat → ℝ) (ct : Nat → ℝ)
    (hz : ∀ g, g < 4 → ∀ i, i < m → z g i = pre n m z0 (fun g p => w g p * fw g p) (fun g p => u g p * fu g p)
      (fun _ _ => 0) x h g i)
    (hct : ∀ i, i < m → ct i = tanhh (z 3 i) * sigmoid (z 1 i) + c i * sigmoid (z 0 i))
    (g a b : Nat) (hg : g < 4) (ha : a < m) (hb : b < n) :
    HasDerivAt (fun s => ∑ i ∈ range m, dy i * hid n m z0 (fun g' p => w g' p * put fw g (a * n + b) s g' p)
        (fun g p => u g p * fu g p) x h c i)
      (w g (a * n + b) * stepErr z ct c dy g a * x b) (fw g (a * n + b)) := by
  have hc := hid_curve n m z0 dy x h c (fun s g' p => w g' p * put fw g (a * n + b) s g' p)
    (fun _ g p => u g p * fu g p) _ (fun _ _ => 0) (fw g (a * n + b)) (put_deriv w fw g (a * n + b) _)
    (fun g k => hasDerivAt_const _ _) z ct (by simpa only [put_self] using hz) hct
  refine hc.congr_deriv ?_
  simp only [put_row _ _ _ _ _ _ hb, zero_mul, Finset.sum_const_zero, add_zero]
  rw [pick m g a hg ha (stepErr z ct c dy)]
  ring

/-- Derivative of the weighted outputs in a factor on a recurrent weight. -/
theorem hid_deriv_u (z : Nat → Nat → ℝ) (ct : Nat → ℝ)
    (hz : ∀ g, g < 4 → ∀ i, i < m → z g i = pre n m z0 (fun g p => w g p * fw g p) (fun g p => u g p * fu g p)
      (fun _ _ => 0) x h g i)
    (hct : ∀ i, i < m → ct i = tanhh (z 3 i) * sigmoid (z 1 i) + c i * sigmoid (z 0 i))
    (g a b : Nat) (hg : g < 4) (ha : a < m) (hb : b < m) :
    HasDerivAt (fun s => ∑ i ∈ range m, dy i * hid n m z0 (fun g p => w g p * fw g p)
        (fun g' p => u g' p * put fu g (a * m + b) s g' p) x h c i)
      (u g (a * m + b) * stepErr z ct c dy g a * h b) (fu g (a * m + b)) := by
  have hc := hid_curve n m z0 dy x h c (fun _ g p => w g p * fw g p)
    (fun s g' p => u g' p * put fu g (a * m + b) s g' p) (fun _ _ => 0) _ (fu g (a * m + b))
    (fun g k => hasDerivAt_const _ _) (put_deriv u fu g (a * m + b) _)
    z ct (by simpa only [put_self] using hz) hct
  refine hc.congr_deriv ?_
  simp only [put_row _ _ _ _ _ _ hb, zero_mul, Finset.sum_const_zero, zero_add]
  rw [pick m g a hg ha (stepErr z ct c dy)]
  ring

end

/-- The selected weights are the weights times the `0/1` factors of the ranking. -/
theorem restrict4_factor (idx : Mat Nat) (T last : Nat) (w : Nat → Nat → ℝ) (g p : Nat) :
    restrict4 idx T last w g p = w g p * restrict4 idx T last (fun _ _ => 1) g p := by
  unfold restrict4 EdgePopup.restrict
  split_ifs <;> simp

/-- C143. The last cell of a window (flag 0), every input-weight flag of every unit set: what
`lstm_bp_edge_popup` adds to the score errors of the input weights and of the recurrent weights is
the derivative of `∑ dy_i * hidden_i` in the factor that multiplies that weight, at the factors
(0 or 1) the forward pass used. -/
theorem C143_scores_partial (wa : Mat Nat) (n m mUp : Nat) (k : ℚ) (mask maskPlus : Arr ℝ) (w u z : Mat ℝ)
    (dy x ct hm cm : Arr ℝ) (st : Scores) (hs : st.Sized n m) (hwa : wa.rows = 4 ∧ m ≤ wa.cols)
    (hw : w.rows = 4 ∧ m * n ≤ w.cols) (hu : u.rows = 4 ∧ m * m ≤ u.cols) (hz : z.rows = 4 ∧ m ≤ z.cols)
    (hdy : m ≤ dy.len) (hx : n ≤ x.len) (hct : m ≤ ct.len) (hhm : m ≤ hm.len) (hcm : m ≤ cm.len)
    (hact : ∀ g, g < 4 → ∀ i, i < m → wa.get g i ≠ 0) (z0 fw fu : Nat → Nat → ℝ)
    (hz' : ∀ g, g < 4 → ∀ i, i < m → z.get g i = pre n m z0 (fun g p => w.get g p * fw g p)
      (fun g p => u.get g p * fu g p) (fun _ _ => 0) x.get hm.get g i)
    (hct' : ∀ i, i < m → ct.get i = tanhh (z.get 3 i) * sigmoid (z.get 1 i) + cm.get i * sigmoid (z.get 0 i)) :
    ∃ st', lstmBPPopup wa n m mUp k none none mask maskPlus w u z dy x ct hm cm st = some st' ∧
      ∀ g, g < 4 → ∀ a, a < m →
      (∀ b, b < n → HasDerivAt (fun s => ∑ i ∈ range m, dy.get i * hid n m z0
          (fun g' p => w.get g' p * put fw g (a * n + b) s g' p) (fun g p => u.get g p * fu g p) x.get hm.get cm.get i)
        (st'.sw.get g (a * n + b) - st.sw.get g (a * n + b)) (fw g (a * n + b))) ∧
      (∀ b, b < m → HasDerivAt (fun s => ∑ i ∈ range m, dy.get i * hid n m z0
          (fun g p => w.get g p * fw g p) (fun g' p => u.get g' p * put fu g (a * m + b) s g' p) x.get hm.get cm.get i)
        (st'.su.get g (a * m + b) - st.su.get g (a * m + b)) (fu g (a * m + b))) := by
  obtain ⟨st', e, -, h⟩ := unitLoop_eq wa n m w u z dy x ct hm cm st hs hwa hw hu hz hdy hx hct hhm hcm _ rfl
  refine ⟨st', e, fun g hg a ha => ⟨fun b hb => ?_, fun b hb => ?_⟩⟩
  · rw [((h g hg a ha).1 b hb), add_sub_cancel_left, popErr_active _ _ _ _ _ (fun g hg => hact g hg a ha)]
    exact hid_deriv_w n m z0 w.get u.get fw fu dy.get x.get hm.get cm.get z.get ct.get hz' hct' g a b hg ha hb
  · rw [((h g hg a ha).2.1 b hb), add_sub_cancel_left, popErr_active _ _ _ _ _ (fun g hg => hact g hg a ha)]
    exact hid_deriv_u n m z0 w.get u.get fw fu dy.get x.get hm.get cm.get z.get ct.get hz' hct' g a b hg ha hb

/-- C143. A unit whose four input-weight flags are zero (all its selected weights are recurrent)
gets no score errors at all, although the derivative in the factor on a recurrent weight of its
output gate is not zero. -/
theorem C143_recurrent_only_refuted (wa : Mat Nat) (n m mUp : Nat) (k : ℚ) (mask maskPlus : Arr ℝ) (w u z : Mat ℝ)
    (dy x ct hm cm : Arr ℝ) (st : Scores) (hs : st.Sized n m) (hwa : wa.rows = 4 ∧ m ≤ wa.cols)
    (hw : w.rows = 4 ∧ m * n ≤ w.cols) (hu : u.rows = 4 ∧ m * m ≤ u.cols) (hz : z.rows = 4 ∧ m ≤ z.cols)
    (hdy : m ≤ dy.len) (hx : n ≤ x.len) (hct : m ≤ ct.len) (hhm : m ≤ hm.len) (hcm : m ≤ cm.len)
    (z0 fw fu : Nat → Nat → ℝ)
    (hz' : ∀ g, g < 4 → ∀ i, i < m → z.get g i = pre n m z0 (fun g p => w.get g p * fw g p)
      (fun g p => u.get g p * fu g p) (fun _ _ => 0) x.get hm.get g i)
    (hct' : ∀ i, i < m → ct.get i = tanhh (z.get 3 i) * sigmoid (z.get 1 i) + cm.get i * sigmoid (z.get 0 i))
    (a b : Nat) (ha : a < m) (hb : b < m) (hna : ∀ g, g < 4 → wa.get g a = 0)
    (h1 : dy.get a ≠ 0) (h2 : u.get 2 (a * m + b) ≠ 0) (h3 : hm.get b ≠ 0) (h4 : tanhh (ct.get a) ≠ 0) :
    ∃ st', lstmBPPopup wa n m mUp k none none mask maskPlus w u z dy x ct hm cm st = some st' ∧
      (∀ g, g < 4 → ∀ q, q < m → st'.su.get g (a * m + q) = st.su.get g (a * m + q)) ∧
      ∃ d, d ≠ 0 ∧ HasDerivAt (fun s => ∑ i ∈ range m, dy.get i * hid n m z0
          (fun g p => w.get g p * fw g p) (fun g' p => u.get g' p * put fu 2 (a * m + b) s g' p) x.get hm.get cm.get i)
        d (fu 2 (a * m + b)) := by
  obtain ⟨st', e, -, h⟩ := unitLoop_eq wa n m w u z dy x ct hm cm st hs hwa hw hu hz hdy hx hct hhm hcm _ rfl
  refine ⟨st', e, fun g hg q hq => ?_, _, ?_,
    hid_deriv_u n m z0 w.get u.get fw fu dy.get x.get hm.get cm.get z.get ct.get hz' hct' 2 a b (by omega) ha hb⟩
  · rw [(h g hg a ha).2.1 q hq]
    have : popErr wa.get z.get (gateD z.get ct.get cm.get dy.get fun _ => 0) g a = 0 := by
      unfold popErr unitP
      simp [hna 0 (by omega), hna 1 (by omega), hna 2 (by omega), hna 3 (by omega)]
    rw [this]; ring
  · have hp := sigmoid_pos (z.get 2 a)
    have hl := sigmoid_lt_one (z.get 2 a)
    have hd : dSigmoid (z.get 2 a) ≠ 0 := by
      unfold dSigmoid
      exact mul_ne_zero hp.ne' (by linarith)
    have : stepErr z.get ct.get cm.get dy.get 2 a = dy.get a * tanhh (ct.get a) * dSigmoid (z.get 2 a) := by
      simp [stepErr, gateErr, gateD]
    rw [this]
    exact mul_ne_zero (mul_ne_zero h2 (mul_ne_zero (mul_ne_zero h1 h4) hd)) h3

/-! ### Errors from the layer above and from the next step -/

theorem passes_active (act oth : Mat Nat) (g a : Nat) (hg : g < 4) (h1 : act.rows = 4 ∧ a < act.cols)
    (h2 : oth.rows = 4 ∧ a < oth.cols) (h : ∀ g, g < 4 → act.get g a ≠ 0) : passes act oth g a = some true := by
  unfold passes
  rw [Mat.read_eq (by omega) h1.2, Mat.read_eq (by omega) h1.2, Mat.read_eq (by omega) h2.2]
  simp only [Option.bind_eq_bind, Option.bind_some]
  split_ifs
  · simp [h 1 (by omega), h g hg]
  · simp [h g hg]

theorem behindErr_eq (d z : Mat ℝ) (g a : Nat) (hg : g < 4) (hd : d.rows = 4 ∧ a < d.cols)
    (hz : z.rows = 4 ∧ a < z.cols) : behindErr d z g a = some (gateErr z.get d.get g a) := by
  unfold behindErr
  rw [Mat.read_eq (by omega) hd.2, Mat.read_eq (by omega) hz.2, Mat.read_eq (by omega) hz.2]
  simp only [Option.bind_eq_bind, Option.bind_some]
  have : g = 0 ∨ g = 1 ∨ g = 2 ∨ g = 3 := by omega
  rcases this with rfl | rfl | rfl | rfl <;> simp [gateErr]

/-- What is added to `dy` when all flags of the `M` units behind are set: the errors through the
weights at the positions `start ≤ i` of the rankings. -/
theorem addBehind_eq (m M start : Nat) (hs : start ≤ M * m) (act oth idx : Mat Nat) (w z d : Mat ℝ) (mask dy : Arr ℝ)
    (hi : IsOrder4 idx (M * m)) (h1 : act.rows = 4 ∧ M ≤ act.cols) (h2 : oth.rows = 4 ∧ M ≤ oth.cols)
    (hact : ∀ g, g < 4 → ∀ a, a < M → act.get g a ≠ 0) (hw : w.rows = 4 ∧ M * m ≤ w.cols)
    (hz : z.rows = 4 ∧ M ≤ z.cols) (hd : d.rows = 4 ∧ M ≤ d.cols) (hm : m ≤ mask.len) (hdy : m ≤ dy.len) :
    ∃ dy', addBehind m (M * m) start act oth idx w z d mask dy = some dy' ∧ dy'.len = dy.len ∧
      ∀ j, j < m → dy'.get j = dy.get j + ∑ a ∈ range M, ∑ g ∈ range 4,
        gateErr z.get d.get g a * restrict4 idx (M * m) (M * m - start) w.get g (a * m + j) * mask.get j := by
  classical
  obtain ⟨len, dy⟩ := dy
  dsimp only at hdy ⊢
  have hrun : addBehind m (M * m) start act oth idx w z d mask ⟨len, dy⟩ = some ⟨len, dy +
      ∑ τ ∈ range (M * m - start), ∑ g ∈ range 4, Pi.single (idx.get g (start + τ) % m)
        (gateErr z.get d.get g (idx.get g (start + τ) / m) * w.get g (idx.get g (start + τ)) *
          mask.get (idx.get g (start + τ) % m))⟩ := by
    refine loopFrom_act rfl (Arr.mk len) _ (fun τ hτ m₁ => ?_) dy
    refine loop_act (Arr.mk len) _ (fun g hg m₂ => ?_) m₁
    obtain ⟨h3, h4⟩ := hi
    obtain ⟨h5, h6, h7⟩ := h4 g hg
    have hlt := h6 (start + τ) (by omega)
    dsimp only at h5 hlt
    have hm0 : 0 < m := by
      rcases Nat.eq_zero_or_pos m with h0 | h0
      · subst h0; simp at hlt
      · exact h0
    have hq : idx.get g (start + τ) / m < M := Nat.div_lt_of_lt_mul (by rw [Nat.mul_comm]; exact hlt)
    have hr := Nat.mod_lt (idx.get g (start + τ)) hm0
    rw [Mat.read_eq (by omega) (by omega)]
    simp only [Option.bind_eq_bind, Option.bind_some]
    rw [passes_active act oth g _ hg ⟨h1.1, by omega⟩ ⟨h2.1, by omega⟩ (fun g hg => hact g hg _ hq)]
    simp only [Option.bind_some, if_true]
    rw [behindErr_eq d z g _ hg ⟨hd.1, by omega⟩ ⟨hz.1, by omega⟩]
    simp only [Option.bind_some]
    rw [Mat.read_eq (by omega) (by omega)]
    simp only [Option.bind_some]
    rw [Arr.read_eq (by omega)]
    simp only [Option.bind_some]
    exact Arr.addAt_mk _ _ _ (by omega)
  refine ⟨_, hrun, rfl, fun j hj => ?_⟩
  dsimp only
  rw [Pi.add_apply]
  congr 1
  simp only [Finset.sum_apply]
  rw [Finset.sum_comm, Finset.sum_comm (s := range M)]
  refine Finset.sum_congr rfl fun g hg => ?_
  have hg := Finset.mem_range.mp hg
  have hsel := selected_sum (rowN idx g) (M * m) (M * m - start) (by omega) (hi.2 g hg)
    (fun q => (if j = q % m then gateErr z.get d.get g (q / m) * w.get g q * mask.get (q % m) else 0 : ℝ))
  have hst : M * m - (M * m - start) = start := by omega
  rw [hst] at hsel
  refine Eq.trans (Finset.sum_congr rfl fun τ _ => ?_) (hsel.trans ?_)
  · rw [Pi.single_apply]
  · rw [sum_rows]
    refine Finset.sum_congr rfl fun a _ => ?_
    rw [Finset.sum_eq_single j]
    · unfold restrict4 EdgePopup.restrict
      have e1 : (a * m + j) / m = a := by
        rw [Nat.mul_comm, Nat.mul_add_div (by omega), Nat.div_eq_of_lt hj, Nat.add_zero]
      have e2 : (a * m + j) % m = j := by rw [Nat.mul_comm, Nat.mul_add_mod, Nat.mod_eq_of_lt hj]
      rw [e1, e2, if_pos rfl]
      by_cases hS : Selected (idx.get g) (M * m) (M * m - start) (a * m + j)
      · rw [if_pos hS, if_pos hS]
      · rw [if_neg hS, if_neg hS]; ring
    · intro i hi' hne
      have e2 : (a * m + i) % m = i := by
        rw [Nat.mul_comm, Nat.mul_add_mod, Nat.mod_eq_of_lt (Finset.mem_range.mp hi')]
      rw [e2, if_neg (Ne.symm hne), ite_self]
    · intro h; exact absurd (Finset.mem_range.mpr hj) h

/-- Well-formed data of a structure behind with `M` units, each with all its flags set. -/
def Behind.Ok (b : Behind) (M m : Nat) : Prop :=
  IsOrder4 b.idx (M * m) ∧ (b.act.rows = 4 ∧ M ≤ b.act.cols) ∧ (b.oth.rows = 4 ∧ M ≤ b.oth.cols) ∧
  (∀ g, g < 4 → ∀ a, a < M → b.act.get g a ≠ 0) ∧ (b.w.rows = 4 ∧ M * m ≤ b.w.cols) ∧
  (b.z.rows = 4 ∧ M ≤ b.z.cols) ∧ (b.d.rows = 4 ∧ M ≤ b.d.cols)

theorem startB_le (T : Nat) (k : ℚ) (hk : k ≤ 1) : startB T k ≤ T := by
  unfold startB
  have h : (T : ℚ) * k ≤ T := by nlinarith [Nat.cast_nonneg (α := ℚ) T]
  exact (Nat.floor_le_floor h).trans (by simp)

/-- C143. A next step is there and no layer above (flag 2), all its flags set: `dy` grows by what
flows back through the recurrent weights, but through those from position `⌊m²k⌋` of the ranking on;
the forward pass uses those from position `⌊m² - m²k⌋` on. The two agree only if the positions do
(hypothesis `hpos`; `k = 1/2` with even `m`). Then the gate errors follow from the step equations
without the error that reaches the cell state directly. -/
theorem C143_next_step_partial (wa : Mat Nat) (n m mUp : Nat) (k : ℚ) (hk : k ≤ 1) (p : Behind) (mask maskPlus : Arr ℝ)
    (w z : Mat ℝ) (dy x ct hm cm : Arr ℝ) (st : Scores) (hs : st.Sized n m) (hwa : wa.rows = 4 ∧ m ≤ wa.cols)
    (hw : w.rows = 4 ∧ m * n ≤ w.cols) (hz : z.rows = 4 ∧ m ≤ z.cols)
    (hdy : m ≤ dy.len) (hx : n ≤ x.len) (hct : m ≤ ct.len) (hhm : m ≤ hm.len) (hcm : m ≤ cm.len)
    (hmp : m ≤ maskPlus.len) (hp : p.Ok m m) (hpos : startB (m * m) k = startF (m * m) k) :
    ∃ st', lstmBPPopup wa n m mUp k none (some p) mask maskPlus w p.w z dy x ct hm cm st = some st' ∧
      ∀ g, g < 4 → ∀ i, i < m → st'.dfioc.get g i = gateD z.get ct.get cm.get
        (fun j => dy.get j + backH m (restrict4 p.idx (m * m) (usedF (m * m) k) p.w.get) maskPlus.get p.z.get p.d.get j)
        (fun _ => 0) g i := by
  obtain ⟨o1, o2, o3, o4, o5, o6, o7⟩ := hp
  obtain ⟨dy', e1, l1, g1⟩ := addBehind_eq m m _ (startB_le (m * m) k hk) p.act p.oth p.idx p.w p.z p.d maskPlus dy
    o1 o2 o3 o4 o5 o6 o7 hmp hdy
  obtain ⟨st', e, -, h⟩ := unitLoop_eq wa n m w p.w z dy' x ct hm cm st hs hwa hw o5 hz (by omega) hx hct hhm hcm _ rfl
  refine ⟨st', ?_, fun g hg i hi => ?_⟩
  · unfold lstmBPPopup
    exact (bind_some_of e1).trans e
  · rw [(h g hg i hi).2.2]
    have : dy'.get i = dy.get i +
        backH m (restrict4 p.idx (m * m) (usedF (m * m) k) p.w.get) maskPlus.get p.z.get p.d.get i := by
      rw [g1 i hi, hpos]
      rfl
    simp only [gateD, this]

/-- C143. The layer above is there and no next step (flag 1), all its flags set: the errors come
through its weights from position `⌊T k⌋` of its rankings on, then the dropout factors apply. -/
theorem C143_layer_above_partial (m mUp : Nat) (k : ℚ) (hk : k ≤ 1) (b : Behind) (mask maskPlus dy : Arr ℝ)
    (hb : b.Ok mUp m) (hmask : m ≤ mask.len) (hdy : m ≤ dy.len) (hpos : startB (mUp * m) k = startF (mUp * m) k) :
    ∃ dy', popupDy m mUp k (some b) none mask maskPlus dy = some dy' ∧ ∀ j, j < m →
      dy'.get j = (dy.get j + ∑ a ∈ range mUp, ∑ g ∈ range 4, gateErr b.z.get b.d.get g a *
        restrict4 b.idx (mUp * m) (usedF (mUp * m) k) b.w.get g (a * m + j)) * mask.get j := by
  obtain ⟨o1, o2, o3, o4, o5, o6, o7⟩ := hb
  obtain ⟨dy', e1, l1, g1⟩ := addBehind_eq m mUp _ (startB_le (mUp * m) k hk) b.act b.oth b.idx b.w b.z b.d
    ⟨m, fun _ => 1⟩ dy o1 o2 o3 o4 o5 o6 o7 le_rfl hdy
  obtain ⟨dy2, e2, l2, g2⟩ := loop_inv (n := m) (s := dy')
    (f := fun i (dy : Arr ℝ) => (mask.read i).bind fun k => (dy.read i).bind fun v => dy.write i (v * k))
    (fun k q => q.len = dy'.len ∧ ∀ j, q.get j = if j < k then dy'.get j * mask.get j else dy'.get j)
    ⟨rfl, fun j => by simp⟩
    (by
      rintro i hi q ⟨h1, h2⟩
      rw [Arr.read_eq (by omega), Arr.read_eq (by omega)]
      simp only [Option.bind_some]
      rw [Arr.write_eq _ (by omega)]
      refine ⟨_, rfl, h1, fun j => ?_⟩
      dsimp only
      by_cases hj : j = i
      · subst hj; rw [Function.update_self, h2, if_neg (by omega), if_pos (by omega)]
      · rw [Function.update_of_ne hj, h2]
        exact if_congr (by omega) rfl rfl)
  refine ⟨dy2, ?_, fun j hj => ?_⟩
  · unfold popupDy
    rw [Nat.mul_comm m mUp]
    exact (bind_some_of e1).trans e2
  · rw [g2 j, if_pos hj, g1 j hj, hpos]
    simp only [mul_one]
    rfl

theorem addBehind_empty (m T : Nat) (act oth idx : Mat Nat) (w z d : Mat ℝ) (mask dy : Arr ℝ) :
    addBehind m T (startB T 1) act oth idx w z d mask dy = some dy := by
  unfold addBehind startB loopFrom
  simp [loop]

/-- C143. With `k_percentage = 1` the forward pass uses every weight, but the backward pass takes
nothing from the next step, whatever its errors: the call with a next step is the call without. With both a layer above and a
next step, neither contributes. -/
theorem C143_all_weights_refuted (wa : Mat Nat) (n m mUp : Nat) (p : Behind) (mask maskPlus : Arr ℝ)
    (w u z : Mat ℝ) (dy x ct hm cm : Arr ℝ) (st : Scores) :
    (∀ T, usedF T 1 = T) ∧
    lstmBPPopup wa n m mUp 1 none (some p) mask maskPlus w u z dy x ct hm cm st =
      lstmBPPopup wa n m mUp 1 none none mask maskPlus w u z dy x ct hm cm st ∧
    ∀ b : Behind, popupDy m mUp 1 (some b) (some p) mask maskPlus dy = some dy := by
  refine ⟨fun T => by simp [usedF, startF], ?_, fun b => ?_⟩
  · unfold lstmBPPopup
    have h : popupDy m mUp 1 none (some p) mask maskPlus dy = popupDy m mUp 1 none none mask maskPlus dy :=
      addBehind_empty _ _ _ _ _ _ _ _ _ _
    rw [h]
  · unfold popupDy
    simp only [Option.bind_eq_bind]
    rw [addBehind_empty]
    exact addBehind_empty _ _ _ _ _ _ _ _ _ _

/-- C143. The error that the next step leaves on the cell state does not reach the previous one: with
zero recurrent weights and no error from outside, plain training gives `dc_t = dc_plus * sigmoid(z_f)`,
edge-popup training gives zero. -/
theorem C143_cell_state_refuted (wa : Mat Nat) (n m mUp : Nat) (k : ℚ) (hk : k ≤ 1) (p : Behind) (mask maskPlus : Arr ℝ)
    (w z : Mat ℝ) (dy x ct hm cm : Arr ℝ) (st : Scores) (gst : Grads) (hs : st.Sized n m) (hgs : gst.Sized n m)
    (hwa : wa.rows = 4 ∧ m ≤ wa.cols) (hw : w.rows = 4 ∧ m * n ≤ w.cols) (hz : z.rows = 4 ∧ m ≤ z.cols)
    (hdy : m ≤ dy.len) (hx : n ≤ x.len) (hct : m ≤ ct.len) (hhm : m ≤ hm.len) (hcm : m ≤ cm.len)
    (hmp : m ≤ maskPlus.len) (hp : p.Ok m m) (hu0 : ∀ g q, p.w.get g q = 0) (hdy0 : ∀ j, dy.get j = 0)
    (i : Nat) (hi : i < m) (hdc : p.d.get 3 i ≠ 0) :
    ∃ st' g', lstmBPPopup wa n m mUp k none (some p) mask maskPlus w p.w z dy x ct hm cm st = some st' ∧
      lstmBP n m (some (p.z, p.d)) maskPlus p.w z dy x ct hm cm gst = some g' ∧
      st'.dfioc.get 3 i = 0 ∧ g'.dfioc.get 3 i = p.d.get 3 i * sigmoid (p.z.get 0 i) ∧ g'.dfioc.get 3 i ≠ 0 := by
  obtain ⟨o1, o2, o3, o4, o5, o6, o7⟩ := hp
  obtain ⟨dy', e1, l1, g1⟩ := addBehind_eq m m _ (startB_le (m * m) k hk) p.act p.oth p.idx p.w p.z p.d maskPlus dy
    o1 o2 o3 o4 o5 o6 o7 hmp hdy
  obtain ⟨st', e, -, h⟩ := unitLoop_eq wa n m w p.w z dy' x ct hm cm st hs hwa hw o5 hz (by omega) hx hct hhm hcm _ rfl
  obtain ⟨g', e', -, -, h'⟩ := lstmBP_eq n m (some (p.z, p.d)) maskPlus p.w z dy x ct hm cm gst hgs
    (by rintro q ⟨⟩; exact ⟨o6, o7⟩) hmp o5 hz hdy hx hct hhm hcm _ rfl
  have hR : ∀ g q, restrict4 p.idx (m * m) (m * m - startB (m * m) k) p.w.get g q = 0 := by
    intro g q
    unfold restrict4 EdgePopup.restrict
    rw [hu0, ite_self]
  have hdy' : dy'.get i = 0 := by
    rw [g1 i hi, hdy0]
    simp [hR]
  have hg3 : g'.dfioc.get 3 i = p.d.get 3 i * sigmoid (p.z.get 0 i) := by
    rw [(h' 3 (by omega) i hi).2.2.2]
    simp [gateD, dhOf, carryOf, backH, backC, hu0, hdy0]
  refine ⟨st', g', ?_, e', ?_, hg3, ?_⟩
  · unfold lstmBPPopup
    exact (bind_some_of e1).trans e
  · rw [(h 3 (by omega) i hi).2.2]
    simp [gateD, hdy']
  · rw [hg3]
    exact mul_ne_zero hdc (sigmoid_pos _).ne'

/-! ### Concrete cases -/

/-- Two units, one input, flags all set: rankings `1, 0` for the input weights and `3, 2, 1, 0` for
the recurrent ones. -/
def exFlags : Mat Nat := ⟨4, 2, fun _ _ => 1⟩

/-- Ranking of the two input weights. -/
def exW : Mat Nat := ⟨4, 2, fun _ p => 1 - p⟩

/-- Ranking of the four recurrent weights. -/
def exU : Mat Nat := ⟨4, 4, fun _ p => 3 - p⟩

theorem exW_order : IsOrder4 exW (2 * 1) := by
  refine ⟨rfl, fun g _ => ⟨le_rfl, ?_, ?_⟩⟩
  · intro p hp; show 1 - p < 2; omega
  · intro p p' hp hp' h; change 1 - p = 1 - p' at h; omega

theorem exU_order : IsOrder4 exU (2 * 2) := by
  refine ⟨rfl, fun g _ => ⟨le_rfl, ?_, ?_⟩⟩
  · intro p hp; show 3 - p < 4; omega
  · intro p p' hp hp' h; change 3 - p = 3 - p' at h; omega

/-- Half the weights: the positions the two directions start from coincide. -/
theorem exPos : startB (2 * 2) (1 / 2) = startF (2 * 2) (1 / 2) := by
  unfold startB startF; norm_num

example : usedF (2 * 2) (1 / 2) = 2 ∧ usedF (2 * 1) (1 / 2) = 1 ∧ startB 4 1 = 4 ∧ startF 4 1 = 0 := by
  unfold usedF startF startB
  norm_num

/-- The hypotheses of `C143_forward_partial` are met with half of the weights selected. -/
noncomputable example (x h c : ℝ) (w : Nat → Nat → ℝ) : ∃ st', lstmFFPopup exFlags exFlags exW exU 1 2 (1 / 2)
    ⟨1, fun _ => x⟩ ⟨2, fun _ => h⟩ ⟨2, fun _ => c⟩ ⟨4, 2, w⟩ ⟨4, 4, w⟩ ⟨⟨4, 2, fun _ _ => 0⟩, ⟨2, fun _ => 0⟩, ⟨2, fun _ => 0⟩, ⟨2, fun _ => 0⟩⟩ =
    some st' := by
  obtain ⟨st', e, -⟩ := C143_forward_partial exFlags exFlags exW exU 1 2 (1 / 2) (by norm_num) ⟨1, fun _ => x⟩
    ⟨2, fun _ => h⟩ ⟨2, fun _ => c⟩ ⟨4, 2, w⟩ ⟨4, 4, w⟩
    ⟨⟨4, 2, fun _ _ => 0⟩, ⟨2, fun _ => 0⟩, ⟨2, fun _ => 0⟩, ⟨2, fun _ => 0⟩⟩
    le_rfl le_rfl le_rfl ⟨rfl, le_rfl⟩ ⟨rfl, le_rfl⟩ ⟨rfl, le_rfl⟩ le_rfl le_rfl exW_order exU_order
    ⟨rfl, le_rfl⟩ ⟨rfl, le_rfl⟩ (fun g _ i _ => Or.inl one_ne_zero)
  exact ⟨st', e⟩

/-- A next step that meets `Behind.Ok`, with an error on its cell state. -/
noncomputable def exBehind (w : ℝ) : Behind :=
  ⟨exFlags, exFlags, exU, ⟨4, 4, fun _ _ => w⟩, ⟨4, 2, fun _ _ => 0⟩, ⟨4, 2, fun _ _ => 1⟩⟩

theorem exBehind_ok (w : ℝ) : (exBehind w).Ok 2 2 :=
  ⟨exU_order, ⟨rfl, le_rfl⟩, ⟨rfl, le_rfl⟩, fun _ _ _ _ => one_ne_zero, ⟨rfl, le_rfl⟩, ⟨rfl, le_rfl⟩, ⟨rfl, le_rfl⟩⟩

/-- The hypotheses of `C143_next_step_partial` and of `C143_cell_state_refuted` are met. -/
example : ∃ st' g', lstmBPPopup exFlags 1 2 0 (1 / 2) none (some (exBehind 0)) ⟨2, fun _ => 1⟩ ⟨2, fun _ => 1⟩
    ⟨4, 2, fun _ _ => 1⟩ (exBehind 0).w ⟨4, 2, fun _ _ => 0⟩ ⟨2, fun _ => 0⟩ ⟨1, fun _ => 1⟩ ⟨2, fun _ => 0⟩
    ⟨2, fun _ => 0⟩ ⟨2, fun _ => 0⟩ ⟨⟨4, 2, fun _ _ => 0⟩, ⟨4, 4, fun _ _ => 0⟩, ⟨4, 2, fun _ _ => 0⟩⟩ = some st' ∧
    lstmBP 1 2 (some ((exBehind 0).z, (exBehind 0).d)) ⟨2, fun _ => 1⟩ (exBehind 0).w ⟨4, 2, fun _ _ => 0⟩
      ⟨2, fun _ => 0⟩ ⟨1, fun _ => 1⟩ ⟨2, fun _ => 0⟩ ⟨2, fun _ => 0⟩ ⟨2, fun _ => 0⟩
      ⟨⟨4, 2, fun _ _ => 0⟩, ⟨4, 4, fun _ _ => 0⟩, ⟨4, 2, fun _ _ => 0⟩, ⟨4, 2, fun _ _ => 0⟩⟩ = some g' ∧
    st'.dfioc.get 3 0 = 0 ∧ g'.dfioc.get 3 0 ≠ 0 := by
  obtain ⟨st', g', h1, h2, h3, -, h5⟩ := C143_cell_state_refuted exFlags 1 2 0 (1 / 2) (by norm_num) (exBehind 0)
    ⟨2, fun _ => 1⟩ ⟨2, fun _ => 1⟩
    ⟨4, 2, fun _ _ => 1⟩ ⟨4, 2, fun _ _ => 0⟩ ⟨2, fun _ => 0⟩ ⟨1, fun _ => 1⟩ ⟨2, fun _ => 0⟩
    ⟨2, fun _ => 0⟩ ⟨2, fun _ => 0⟩ ⟨⟨4, 2, fun _ _ => 0⟩, ⟨4, 4, fun _ _ => 0⟩, ⟨4, 2, fun _ _ => 0⟩⟩
    ⟨⟨4, 2, fun _ _ => 0⟩, ⟨4, 4, fun _ _ => 0⟩, ⟨4, 2, fun _ _ => 0⟩, ⟨4, 2, fun _ _ => 0⟩⟩
    ⟨⟨rfl, by decide⟩, rfl, by decide⟩ ⟨⟨rfl, by decide⟩, ⟨rfl, by decide⟩, rfl, by decide⟩ (by decide)
    ⟨rfl, by decide⟩ ⟨rfl, by decide⟩ le_rfl le_rfl le_rfl le_rfl le_rfl le_rfl (exBehind_ok 0) (fun _ _ => rfl)
    (fun _ => rfl) 0 (by decide) one_ne_zero
  exact ⟨st', g', h1, h2, h3, h5⟩

example : ∃ st', lstmBPPopup exFlags 1 2 0 (1 / 2) none (some (exBehind 1)) ⟨2, fun _ => 1⟩ ⟨2, fun _ => 1⟩
    ⟨4, 2, fun _ _ => 1⟩ (exBehind 1).w ⟨4, 2, fun _ _ => 0⟩ ⟨2, fun _ => 0⟩ ⟨1, fun _ => 1⟩ ⟨2, fun _ => 0⟩
    ⟨2, fun _ => 0⟩ ⟨2, fun _ => 0⟩ ⟨⟨4, 2, fun _ _ => 0⟩, ⟨4, 4, fun _ _ => 0⟩, ⟨4, 2, fun _ _ => 0⟩⟩ = some st' := by
  obtain ⟨st', h1, -⟩ := C143_next_step_partial exFlags 1 2 0 (1 / 2) (by norm_num) (exBehind 1)
    ⟨2, fun _ => 1⟩ ⟨2, fun _ => 1⟩
    ⟨4, 2, fun _ _ => 1⟩ ⟨4, 2, fun _ _ => 0⟩ ⟨2, fun _ => 0⟩ ⟨1, fun _ => 1⟩ ⟨2, fun _ => 0⟩
    ⟨2, fun _ => 0⟩ ⟨2, fun _ => 0⟩ ⟨⟨4, 2, fun _ _ => 0⟩, ⟨4, 4, fun _ _ => 0⟩, ⟨4, 2, fun _ _ => 0⟩⟩
    ⟨⟨rfl, by decide⟩, rfl, by decide⟩ (by decide)
    ⟨rfl, by decide⟩ ⟨rfl, by decide⟩ le_rfl le_rfl le_rfl le_rfl le_rfl le_rfl (exBehind_ok 1) exPos
  exact ⟨st', h1⟩

example : ∃ dy', popupDy 2 2 (1 / 2) (some (exBehind 1)) none ⟨2, fun _ => 1⟩ ⟨2, fun _ => 1⟩ ⟨2, fun _ => 1⟩ =
    some dy' := by
  obtain ⟨dy', h1, -⟩ := C143_layer_above_partial 2 2 (1 / 2) (by norm_num) (exBehind 1) ⟨2, fun _ => 1⟩
    ⟨2, fun _ => 1⟩ ⟨2, fun _ => 1⟩ (exBehind_ok 1) le_rfl le_rfl exPos
  exact ⟨dy', h1⟩

/-- The hypotheses of `C143_scores_partial` (flags set) and of `C143_recurrent_only_refuted` (flags
zero) are met by a cell that has seen one forward step. -/
noncomputable def exZ : Nat → Nat → ℝ :=
  pre 1 2 (fun _ _ => 0) (fun _ _ => 1 * 1) (fun _ _ => 1 * 1) (fun _ _ => 0) (fun _ => 1) (fun _ => 1)

noncomputable def exCt (i : Nat) : ℝ := tanhh (exZ 3 i) * sigmoid (exZ 1 i) + 0 * sigmoid (exZ 0 i)

theorem tanhh_pos {v : ℝ} (h : 0 < v) : 0 < tanhh v := by
  unfold tanhh
  have : 1 < Real.exp (2 * v) := by rw [Real.one_lt_exp_iff]; linarith
  exact div_pos (by linarith) (by linarith)

example (f : Nat) : ∃ st', lstmBPPopup ⟨4, 2, fun _ _ => f⟩ 1 2 0 1 none none ⟨2, fun _ => 1⟩ ⟨2, fun _ => 1⟩
    ⟨4, 2, fun _ _ => 1⟩ ⟨4, 4, fun _ _ => 1⟩ ⟨4, 2, exZ⟩ ⟨2, fun _ => 1⟩ ⟨1, fun _ => 1⟩ ⟨2, exCt⟩ ⟨2, fun _ => 1⟩
    ⟨2, fun _ => 0⟩ ⟨⟨4, 2, fun _ _ => 0⟩, ⟨4, 4, fun _ _ => 0⟩, ⟨4, 2, fun _ _ => 0⟩⟩ = some st' := by
  rcases Nat.eq_zero_or_pos f with h | h
  · obtain ⟨st', e, -⟩ := C143_recurrent_only_refuted ⟨4, 2, fun _ _ => f⟩ 1 2 0 1 ⟨2, fun _ => 1⟩ ⟨2, fun _ => 1⟩
      ⟨4, 2, fun _ _ => 1⟩ ⟨4, 4, fun _ _ => 1⟩ ⟨4, 2, exZ⟩ ⟨2, fun _ => 1⟩ ⟨1, fun _ => 1⟩ ⟨2, exCt⟩ ⟨2, fun _ => 1⟩
      ⟨2, fun _ => 0⟩ ⟨⟨4, 2, fun _ _ => 0⟩, ⟨4, 4, fun _ _ => 0⟩, ⟨4, 2, fun _ _ => 0⟩⟩
      ⟨⟨rfl, by decide⟩, rfl, by decide⟩ ⟨rfl, le_rfl⟩ ⟨rfl, by decide⟩ ⟨rfl, by decide⟩ ⟨rfl, le_rfl⟩ le_rfl le_rfl
      le_rfl le_rfl le_rfl (fun _ _ => 0) (fun _ _ => 1) (fun _ _ => 1) (fun _ _ _ _ => rfl) (fun _ _ => rfl) 1 0
      (by decide) (by decide) (fun _ _ => h) one_ne_zero one_ne_zero one_ne_zero (by
        have hz : exZ 3 1 = 3 := by simp [exZ, pre]; norm_num
        refine (tanhh_pos ?_).ne'
        show 0 < tanhh (exZ 3 1) * sigmoid (exZ 1 1) + 0 * sigmoid (exZ 0 1)
        rw [hz, zero_mul, add_zero]
        exact mul_pos (tanhh_pos (by norm_num)) (sigmoid_pos _))
    exact ⟨st', e⟩
  · obtain ⟨st', e, -⟩ := C143_scores_partial ⟨4, 2, fun _ _ => f⟩ 1 2 0 1 ⟨2, fun _ => 1⟩ ⟨2, fun _ => 1⟩
      ⟨4, 2, fun _ _ => 1⟩ ⟨4, 4, fun _ _ => 1⟩ ⟨4, 2, exZ⟩ ⟨2, fun _ => 1⟩ ⟨1, fun _ => 1⟩ ⟨2, exCt⟩ ⟨2, fun _ => 1⟩
      ⟨2, fun _ => 0⟩ ⟨⟨4, 2, fun _ _ => 0⟩, ⟨4, 4, fun _ _ => 0⟩, ⟨4, 2, fun _ _ => 0⟩⟩
      ⟨⟨rfl, by decide⟩, rfl, by decide⟩ ⟨rfl, le_rfl⟩ ⟨rfl, by decide⟩ ⟨rfl, by decide⟩ ⟨rfl, le_rfl⟩ le_rfl le_rfl
      le_rfl le_rfl le_rfl (fun _ _ _ _ => h.ne') (fun _ _ => 0) (fun _ _ => 1) (fun _ _ => 1) (fun _ _ _ _ => rfl)
      (fun _ _ => rfl)
    exact ⟨st', e⟩

end LLab.LSTMPopup
