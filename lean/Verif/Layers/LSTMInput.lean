import Verif.Layers.BPTT

/-!
The input error of the LSTM: `lstm_dinput` (`/repo/src/rmodel.c` 1365-1500), called
by `bp_rmodel_lstm` after each step of the first layer (1038-1042). Property C72.
-/

namespace LLab.LSTM

open Finset LLab.Act

/-! ### Model -/

/-- What `lstm_dinput` takes as the pre-activation error of gate `g` of a unit with
pre-activations `zv` and gate errors `dv` (`/repo/src/rmodel.c` 1379-1393 for the
candidate, 1418-1424, 1443-1449, 1472-1478 for the others). -/
noncomputable def dinputCoef (zv dv : Nat → ℝ) (g : Nat) : ℝ :=
  if g = 3 then sigmoid (zv 1) * dv 3 * dSigmoidGiven (sigmoid (zv 3)) else dv g * dSigmoid (zv g)

/-- One gate: `temp3` is zeroed, filled by the double loop, and added to `ret_err`
(`/repo/src/rmodel.c` 1395-1401, 1411 and the three copies of it). The vector `temp`
is computed on the fly. -/
noncomputable def dinputGate (n m g : Nat) (w z dfioc : Mat ℝ) (ret : Arr ℝ) : Option (Arr ℝ) := do
  let t3 ← loop m (fun k t3 => loop n (fun k2 (t3 : Arr ℝ) => do
    let zv ← read4 z k
    let dv ← read4 dfioc k
    let wv ← w.read g (k * n + k2)
    t3.write k2 (wv * dinputCoef zv dv g)) t3) (⟨n, fun _ => 0⟩ : Arr ℝ)
  loop n (fun k2 (ret : Arr ℝ) => do
    let v ← t3.read k2
    ret.addAt k2 v) ret

/-- `lstm_dinput` outside the edge-popup modes, all units active
(`/repo/src/rmodel.c` 1365-1500). -/
noncomputable def lstmDinput (n m : Nat) (w z dfioc : Mat ℝ) : Option (Arr ℝ) := do
  let r ← dinputGate n m 3 w z dfioc (⟨n, fun _ => 0⟩ : Arr ℝ)
  let r ← dinputGate n m 2 w z dfioc r
  let r ← dinputGate n m 1 w z dfioc r
  dinputGate n m 0 w z dfioc r

/-- `input_error[window-1-k]` as `bp_rmodel_lstm` computes it: the gate errors of the
step right after its backward pass, and the stored pre-activations of the step
(`/repo/src/rmodel.c` 1038-1039). -/
noncomputable def rnnInputError (k T n m : Nat) (maskR maskU : Arr ℝ) (x : Mat ℝ) (h0 c0 : Arr ℝ) (w u err : Mat ℝ)
    (acc : Arr Cell) (st : Grads) : Option (Arr ℝ) := do
  let st ← rnnBPn (k + 1) T n m maskR maskU x h0 c0 u err acc st
  let cur ← acc.read (T - 1 - k)
  lstmDinput n m w cur.z st.dfioc

/-! ### What it computes -/

theorem dinputGate_eq (n m g : Nat) (hm : 0 < m) (hg : g < 4) (w z dfioc : Mat ℝ) (ret : Arr ℝ)
    (hw : w.rows = 4 ∧ m * n ≤ w.cols)
    (hz : z.rows = 4 ∧ m ≤ z.cols) (hd : dfioc.rows = 4 ∧ m ≤ dfioc.cols) (hr : n ≤ ret.len) :
    ∃ r, dinputGate n m g w z dfioc ret = some r ∧ r.len = ret.len ∧ ∀ q, q < n →
      r.get q = ret.get q + w.get g ((m - 1) * n + q) *
        dinputCoef (fun g => z.get g (m - 1)) (fun g => dfioc.get g (m - 1)) g := by
  have hcoef : ∀ zv dv : Nat → ℝ, ∀ k, (∀ g, g < 4 → zv g = z.get g k) → (∀ g, g < 4 → dv g = dfioc.get g k) →
      dinputCoef zv dv g = dinputCoef (fun g => z.get g k) (fun g => dfioc.get g k) g := by
    intro zv dv k h1 h2
    unfold dinputCoef
    rw [h1 1 (by omega), h1 3 (by omega), h2 3 (by omega), h1 g hg, h2 g hg]
  obtain ⟨t3, e, h1, h2⟩ := loop2_inv (A := m) (B := n) (st := (⟨n, fun _ => 0⟩ : Arr ℝ))
    (f := fun k k2 (t3 : Arr ℝ) => (read4 z k).bind fun zv => (read4 dfioc k).bind fun dv =>
      (w.read g (k * n + k2)).bind fun wv => t3.write k2 (wv * dinputCoef zv dv g))
    (fun r s t => t.len = n ∧ ∀ q, q < n →
      (q < s → t.get q = w.get g (r * n + q) * dinputCoef (fun g => z.get g r) (fun g => dfioc.get g r) g) ∧
      (s ≤ q → 0 < r → t.get q = w.get g ((r - 1) * n + q) *
        dinputCoef (fun g => z.get g (r - 1)) (fun g => dfioc.get g (r - 1)) g))
    ⟨rfl, fun q _ => ⟨fun h => by omega, fun _ h => by omega⟩⟩
    (by
      rintro r hr' s hs t ⟨h1, h2⟩
      have := row_le (k := n) hr'
      obtain ⟨zv, ez, gz⟩ := read4_eq z r hz.1 (by omega)
      obtain ⟨dv, ed, gd⟩ := read4_eq dfioc r hd.1 (by omega)
      refine ⟨⟨t.len, Function.update t.get s (w.get g (r * n + s) * dinputCoef zv dv g)⟩, ?_, h1, ?_⟩
      · refine (bind_some_of ez).trans ((bind_some_of ed).trans ?_)
        rw [Mat.read_eq (by omega) (by omega)]
        refine (bind_some_of rfl).trans ?_
        rw [Arr.write_eq _ (by omega)]
      · intro q hq
        dsimp only
        by_cases hqs : q = s
        · subst hqs
          rw [Function.update_self, hcoef zv dv r gz gd]
          exact ⟨fun _ => rfl, fun h => by omega⟩
        · rw [Function.update_of_ne hqs]
          exact ⟨fun h => (h2 q hq).1 (by omega), fun h => (h2 q hq).2 (by omega)⟩)
    (by
      rintro r hr' t ⟨h1, h2⟩
      refine ⟨h1, fun q hq => ⟨fun h => by omega, fun _ _ => ?_⟩⟩
      rw [Nat.add_sub_cancel]
      exact (h2 q hq).1 hq)
  obtain ⟨r, er, l1, l2⟩ := loop_inv (n := n) (s := ret)
    (f := fun k2 (ret : Arr ℝ) => (t3.read k2).bind fun v => ret.addAt k2 v)
    (fun k r => r.len = ret.len ∧ ∀ q, q < n → r.get q = ret.get q + if q < k then t3.get q else 0)
    ⟨rfl, fun q _ => by simp⟩
    (by
      rintro k hk r ⟨l1, l2⟩
      rw [Arr.read_eq (by omega)]
      simp only [Option.bind_some]
      rw [Arr.addAt_eq' _ (by omega)]
      refine ⟨_, rfl, l1, fun q hq => ?_⟩
      dsimp only
      by_cases hqk : q = k
      · subst hqk
        rw [l2 q hq]
        simp
      · rw [if_neg hqk, l2 q hq, add_zero]
        exact congrArg _ (if_congr (by omega) rfl rfl))
  refine ⟨r, (bind_some_of e).trans er, l1, fun q hq => ?_⟩
  rw [l2 q hq, if_pos hq, (h2 q hq).2 (by omega) hm]

/-- The returned input error only involves the last unit of the layer. -/
theorem lstmDinput_eq (n m : Nat) (hm : 0 < m) (w z dfioc : Mat ℝ) (hw : w.rows = 4 ∧ m * n ≤ w.cols)
    (hz : z.rows = 4 ∧ m ≤ z.cols) (hd : dfioc.rows = 4 ∧ m ≤ dfioc.cols) :
    ∃ r, lstmDinput n m w z dfioc = some r ∧ r.len = n ∧ ∀ q, q < n →
      r.get q = ∑ g ∈ range 4, w.get g ((m - 1) * n + q) *
        dinputCoef (fun g => z.get g (m - 1)) (fun g => dfioc.get g (m - 1)) g := by
  obtain ⟨r3, e3, l3, g3⟩ := dinputGate_eq n m 3 hm (by omega) w z dfioc ⟨n, fun _ => 0⟩ hw hz hd le_rfl
  obtain ⟨r2, e2, l2, g2⟩ := dinputGate_eq n m 2 hm (by omega) w z dfioc r3 hw hz hd (by dsimp only at l3; omega)
  obtain ⟨r1, e1, l1, g1⟩ := dinputGate_eq n m 1 hm (by omega) w z dfioc r2 hw hz hd (by dsimp only at l3; omega)
  obtain ⟨r0, e0, l0, g0⟩ := dinputGate_eq n m 0 hm (by omega) w z dfioc r1 hw hz hd (by dsimp only at l3; omega)
  refine ⟨r0, (bind_some_of e3).trans ((bind_some_of e2).trans ((bind_some_of e1).trans e0)),
    by dsimp only at l3; omega, fun q hq => ?_⟩
  rw [g0 q hq, g1 q hq, g2 q hq, g3 q hq]
  simp only [Finset.sum_range_succ, Finset.sum_range_zero]
  ring

/-! ### C72 -/

/-- The layer of the counterexample: one input, two units; only the output gate of
unit `0` looks at the input; the candidate bias is `1`; two steps. -/
def cexW : Mat ℝ := ⟨4, 2, fun g k => if g = 2 ∧ k = 0 then 1 else 0⟩
def cexU : Mat ℝ := ⟨4, 4, fun _ _ => 0⟩
def cexB : Mat ℝ := ⟨4, 2, fun g _ => if g = 3 then 1 else 0⟩
def cexX : Mat ℝ := ⟨2, 1, fun _ _ => 0⟩
def cexMask : Arr ℝ := ⟨2, fun _ => 1⟩
def cexZero : Arr ℝ := ⟨2, fun _ => 0⟩
def cexErr : Mat ℝ := ⟨2, 2, fun t i => if t = 1 ∧ i = 0 then 1 else 0⟩
def cexAcc : Arr Cell := ⟨2, fun _ => ⟨⟨4, 2, fun _ _ => 0⟩, ⟨2, fun _ => 0⟩, ⟨2, fun _ => 0⟩, ⟨2, fun _ => 0⟩⟩⟩
def cexGrads : Grads := ⟨⟨4, 2, fun _ _ => 0⟩, ⟨4, 4, fun _ _ => 0⟩, ⟨4, 2, fun _ _ => 0⟩, ⟨4, 2, fun _ _ => 0⟩⟩

theorem cex_sizes (x : Mat ℝ) (hx : 2 ≤ x.rows ∧ 1 ≤ x.cols) :
    Sizes 2 1 2 cexMask cexMask x cexZero cexZero cexW cexU cexB cexAcc :=
  ⟨le_rfl, le_rfl, hx, le_rfl, le_rfl, ⟨rfl, le_rfl⟩, ⟨rfl, le_rfl⟩, ⟨rfl, le_rfl⟩, rfl,
    fun _ _ => ⟨⟨rfl, le_rfl⟩, le_rfl, le_rfl⟩⟩

theorem tanhh_pos {x : ℝ} (hx : 0 < x) : 0 < tanhh x := by
  unfold tanhh
  have h1 : 1 < Real.exp (2 * x) := Real.one_lt_exp_iff.2 (by linarith)
  exact div_pos (by linarith) (by linarith)

/-- **C72 is false.** In the two-unit layer above, the weighted output depends on the
input of the last step with a positive derivative, and the input error the backward
pass returns for that step is `0`: each unit's contribution overwrites the previous
one's, and the last unit has no error. -/
theorem C72_input_error_refuted :
    ∃ acc' r, rnnFF 2 1 2 cexMask cexMask cexX cexZero cexZero cexW cexU cexB cexAcc = some acc' ∧
      rnnInputError 0 2 1 2 cexMask cexMask cexX cexZero cexZero cexW cexU cexErr acc' cexGrads = some r ∧
      r.get 0 = 0 ∧
      ∃ (F : ℝ → ℝ) (d : ℝ), 0 < d ∧
        (∀ s, Loss 2 1 2 cexMask cexMask (setAt cexX 1 0 s) cexZero cexZero cexErr cexAcc cexW cexU cexB (F s)) ∧
        HasDerivAt F d (cexX.get 1 0) := by
  obtain ⟨acc', e1, l1, h1⟩ := rnnFF_eq 2 1 2 cexMask cexMask cexX cexZero cexZero cexW cexU cexB cexAcc
    (cex_sizes cexX ⟨le_rfl, le_rfl⟩)
  obtain ⟨⟨c1, c2, c3⟩, -, c4⟩ := h1 1 (by omega)
  obtain ⟨dx, edx, ldx, gdx⟩ := dropArr_eq 2 cexMask ⟨2, cexErr.get 1⟩ le_rfl le_rfl
  obtain ⟨pr, epr, lp1, lp2, gp⟩ := prevOf_eq 2 2 cexMask.get _ _ cexZero cexZero acc' le_rfl le_rfl rfl h1 1 (by omega)
    (by omega)
  obtain ⟨hm, ehm, lhm, ghm⟩ := dropArr_eq 2 cexMask pr.1 le_rfl lp1
  obtain ⟨s', es, -, ⟨d1, d2⟩, g1⟩ := lstmBP_eq 1 2 none cexMask cexU (acc'.get 1).z dx ⟨1, cexX.get 1⟩
    (acc'.get 1).cell hm pr.2 cexGrads ⟨⟨rfl, le_rfl⟩, ⟨rfl, le_rfl⟩, ⟨rfl, le_rfl⟩⟩ (fun q h => by cases h)
    le_rfl ⟨rfl, le_rfl⟩ c1 (by omega) le_rfl c2 (by omega) lp2 _ rfl
  have hdz : ∀ g, g < 4 → s'.dfioc.get g 1 = 0 := by
    intro g hg
    rw [(g1 g hg 1 (by omega)).2.2.2]
    have : dx.get 1 = 0 := by rw [gdx 1 (by omega)]; simp [cexErr]
    simp [gateD, dhOf, carryOf, this]
  obtain ⟨r, er, lr, gr⟩ := lstmDinput_eq 1 2 (by omega) cexW (acc'.get 1).z s'.dfioc ⟨rfl, le_rfl⟩ c1
    ⟨d1, by omega⟩
  have hbp : rnnBPn 1 2 1 2 cexMask cexMask cexX cexZero cexZero cexU cexErr acc' cexGrads = some s' := by
    unfold rnnBPn
    simp only [loop, Option.bind_eq_bind, Option.bind_some]
    refine (bind_some_of (show rowOf cexErr 1 = some ⟨2, cexErr.get 1⟩ from rfl)).trans ?_
    refine (bind_some_of edx).trans ((bind_some_of epr).trans ((bind_some_of ehm).trans ?_))
    refine (bind_some_of (show rowOf cexX 1 = some ⟨1, cexX.get 1⟩ from rfl)).trans ?_
    refine (bind_some_of (Arr.read_eq (a := acc') (i := 1) (by omega))).trans ?_
    refine (bind_some_of (plusOf_eq 2 0 (by omega) (by omega) acc' l1 _)).trans ?_
    exact es
  refine ⟨acc', r, e1, ?_, ?_, ?_⟩
  · refine (bind_some_of hbp).trans ?_
    exact (bind_some_of (Arr.read_eq (a := acc') (i := 1) (by omega))).trans er
  · rw [gr 0 (by omega)]
    refine Finset.sum_eq_zero fun g hg => ?_
    have hg := Finset.mem_range.1 hg
    unfold dinputCoef
    simp only [Nat.reduceSub]
    rw [hdz 3 (by omega), hdz g hg]
    split_ifs <;> ring
  · have hc : 0 < tanhh 1 * sigmoid 0 + tanhh 1 * sigmoid 0 * sigmoid 0 := by
      have h1 := tanhh_pos one_pos
      have h2 := sigmoid_pos 0
      positivity
    refine ⟨fun s => sigmoid s * tanhh (tanhh 1 * sigmoid 0 + tanhh 1 * sigmoid 0 * sigmoid 0),
      dSigmoid 0 * tanhh (tanhh 1 * sigmoid 0 + tanhh 1 * sigmoid 0 * sigmoid 0), ?_, fun s => ?_, ?_⟩
    · refine mul_pos ?_ (tanhh_pos hc)
      unfold dSigmoid
      have h1 := sigmoid_pos 0
      have h2 := sigmoid_lt_one 0
      exact mul_pos h1 (by linarith)
    · obtain ⟨a, ea, -, ha⟩ := rnnFF_eq 2 1 2 cexMask cexMask (setAt cexX 1 0 s) cexZero cexZero cexW cexU cexB cexAcc
        (cex_sizes _ ⟨le_rfl, le_rfl⟩)
      refine ⟨a, ea, ?_⟩
      obtain ⟨-, -, h⟩ := ha 1 (by omega)
      have h := (h 0 (by omega)).2.2.2
      simp only [Finset.sum_range_succ, Finset.sum_range_zero, h]
      simp [cexErr, cexMask, states, pre, cexAcc, setAt, cexX, cexW, cexU, cexB, cexZero]
    · exact (C20_sigmoid 0).mul_const _

end LLab.LSTM
