import Verif.Train.Update
import Mathlib.Analysis.Calculus.Deriv.Pow
import Mathlib.Analysis.Calculus.Deriv.Add
import Mathlib.Analysis.Calculus.Deriv.Mul

/-!
L2 regularisation: `ridge_regression` and the four `add_l2_*` functions.
Property C77.

Only the arrays these functions touch are modelled. `float`/`double` differences are
not modelled; `n` is the number of weights after its conversion to `int`.
-/

namespace LLab.Regularize

open LLab.Update (Mode loop_mul loop3_flat)
open Finset

/-- `ridge_regression(&d[i], w[j], lambda, n)` (`/repo/src/utils.c` 95-97). -/
noncomputable def ridge (lam : ℝ) (n : Nat) (w : Arr ℝ) (j : Nat) (d : Arr ℝ) (i : Nat) : Option (Arr ℝ) :=
  (w.read j).bind fun x => d.addAt i (lam / n * x)

/-- `ridge_regression(&d[k][q], w[k][q], lambda, n)` (`/repo/src/utils.c` 95-97). -/
noncomputable def ridgeM (lam : ℝ) (n : Nat) (w : Mat ℝ) (d : Mat ℝ) (k q : Nat) : Option (Mat ℝ) :=
  (w.read k q).bind fun x => d.addAt k q (lam / n * x)

/-! ### Fully-connected layers -/

/-- The arrays of an `fcl` used here. -/
structure RFcl where
  input : Nat
  output : Nat
  mode : Mode
  w : Arr ℝ
  dw : Arr ℝ
  ds : Arr ℝ

/-- `add_l2_fully_connected_layer` for one layer (`/repo/src/regularization.c`
139-160). -/
noncomputable def regFcl (lam : ℝ) (n : Nat) (f : RFcl) : Option RFcl :=
  if f.mode = .gradientDescent then
    (loop f.output (fun j d => loop f.input (fun k d =>
      ridge lam n f.w (j * f.input + k) d (j * f.input + k)) d) f.dw).bind fun d => some { f with dw := d }
  else if f.mode = .edgePopup then
    (loop f.output (fun j d => loop f.input (fun k d =>
      ridge lam n f.w (j * f.input + k) d (j * f.input + k)) d) f.ds).bind fun d => some { f with ds := d }
  else some f

/-! ### Convolutional and residual layers -/

/-- A group normalisation's `gamma`. -/
structure RBn where
  dim : Nat
  gamma : Arr ℝ
  dgamma : Arr ℝ

/-- The arrays of a `cl` used here; `conv` is `convolutional_flag == CONVOLUTION ||
TRANSPOSED_CONVOLUTION`, `gn` the group normalisations (empty without the flag). -/
structure RCl where
  nk : Nat
  ch : Nat
  kr : Nat
  kc : Nat
  conv : Bool
  mode : Mode
  w : Mat ℝ
  dw : Mat ℝ
  ds : Arr ℝ
  gn : List RBn

/-- The loop over one group normalisation. -/
noncomputable def regBn (lam : ℝ) (n : Nat) (b : RBn) : Option RBn :=
  (loop b.dim (fun u d => ridge lam n b.gamma u d u) b.dgamma).bind fun d => some { b with dgamma := d }

/-- Reading `w[k][q]` and adding to `d_scores[k]`. -/
noncomputable def ridgeScore (lam : ℝ) (n : Nat) (w : Mat ℝ) (k q : Nat) (d : Arr ℝ) : Option (Arr ℝ) :=
  (w.read k q).bind fun x => d.addAt k (lam / n * x)

/-- `add_l2_convolutional_layer` for one layer (`/repo/src/regularization.c` 87-127,
`first = 0`) and `add_l2_residual_layer` for one inner layer (37-76, where the scores
start at `first = (int)(n_kernels*k_percentage)`). -/
noncomputable def regCl (lam : ℝ) (n : Nat) (first : Nat) (f : RCl) : Option RCl :=
  if f.conv = true then
    if f.mode = .gradientDescent then
      (loop f.nk (fun k d => loop f.ch (fun u d => loop f.kr (fun z d => loop f.kc (fun w d =>
        ridgeM lam n f.w d k (u * f.kr * f.kc + z * f.kc + w)) d) d) d) f.dw).bind fun d =>
        (f.gn.mapM (regBn lam n)).bind fun g => some { f with dw := d, gn := g }
    else if f.mode = .edgePopup then
      (loopFrom first f.nk (fun k d => loop f.ch (fun u d => loop f.kr (fun z d => loop f.kc (fun w d =>
        ridgeScore lam n f.w k (u * f.kr * f.kc + z * f.kc + w) d) d) d) d) f.ds).bind fun d =>
        some { f with ds := d }
    else some f
  else some f

/-! ### LSTM layers -/

/-- The arrays of an `lstm` used here. -/
structure RLstm where
  input : Nat
  output : Nat
  mode : Mode
  w : Mat ℝ
  u : Mat ℝ
  dw : Mat ℝ
  du : Mat ℝ
  dws : Mat ℝ
  dus : Mat ℝ

/-- The two inner loops of `add_l2_lstm_layer` for gate `k`. -/
noncomputable def regGate (lam : ℝ) (n : Nat) (l : RLstm) (k : Nat) (d : Mat ℝ × Mat ℝ) : Option (Mat ℝ × Mat ℝ) :=
  (loop (l.output * l.input) (fun q a => ridgeM lam n l.w a k q) d.1).bind fun a =>
    (loop (l.output * l.output) (fun q b => ridgeM lam n l.u b k q) d.2).bind fun b => some (a, b)

/-- `add_l2_lstm_layer` for one layer (`/repo/src/regularization.c` 172-197). -/
noncomputable def regLstm (lam : ℝ) (n : Nat) (l : RLstm) : Option RLstm :=
  if l.mode = .gradientDescent then
    (loop 4 (regGate lam n l) (l.dw, l.du)).bind fun d => some { l with dw := d.1, du := d.2 }
  else if l.mode = .edgePopup then
    (loop 4 (regGate lam n l) (l.dws, l.dus)).bind fun d => some { l with dws := d.1, dus := d.2 }
  else some l

/-! ### Specification -/

/-- The penalty `λ/(2n)·Σ w²` of one array. -/
noncomputable def penalty (lam : ℝ) (n : Nat) (len : Nat) (w : Nat → ℝ) : ℝ := lam / (2 * n) * ∑ k ∈ range len, w k ^ 2

/-- `d'` is `d` plus the gradient of the penalty of the first `len` entries of `w`;
the other entries of `d` are unchanged. -/
def AddsPenalty (lam : ℝ) (n len : Nat) (w : Nat → ℝ) (d d' : Nat → ℝ) : Prop :=
  ∀ k, if k < len then HasDerivAt (fun t => penalty lam n len (Function.update w k t)) (d' k - d k) (w k) else d' k = d k

theorem penalty_deriv (lam : ℝ) (n len : Nat) (w : Nat → ℝ) (k : Nat) (hk : k < len) :
    HasDerivAt (fun t => penalty lam n len (Function.update w k t)) (lam / n * w k) (w k) := by
  unfold penalty
  have e : (fun t => lam / (2 * n) * ∑ j ∈ range len, (Function.update w k t) j ^ 2) =
      fun t => lam / (2 * n) * (t ^ 2 + ∑ j ∈ (range len).erase k, w j ^ 2) := by
    funext t
    rw [← Finset.add_sum_erase _ _ (mem_range.2 hk), Function.update_self]
    congr 2
    refine Finset.sum_congr rfl fun j hj => ?_
    rw [Function.update_of_ne (Finset.ne_of_mem_erase hj)]
  rw [e]
  have h := HasDerivAt.const_mul (lam / (2 * n)) ((hasDerivAt_pow 2 (w k)).add_const (∑ j ∈ (range len).erase k, w j ^ 2))
  have e2 : lam / (2 * n) * (((2 : Nat) : ℝ) * w k ^ (2 - 1)) = lam / n * w k := by
    rcases Nat.eq_zero_or_pos n with h0 | h0
    · subst h0
      simp
    · have : (n : ℝ) ≠ 0 := by positivity
      field_simp
      simp
  rw [e2] at h
  exact h

theorem adds_of (lam : ℝ) (n len : Nat) (w d d' : Nat → ℝ) (h : ∀ k, d' k = d k + if k < len then lam / n * w k else 0) :
    AddsPenalty lam n len w d d' := by
  intro k
  split_ifs with hk
  · have := penalty_deriv lam n len w k hk
    rwa [h k, if_pos hk, add_sub_cancel_left]
  · rw [h k, if_neg hk, add_zero]

/-! ### Loops -/

theorem ridge_all (lam : ℝ) (n len : Nat) (w d : Arr ℝ) (h1 : len ≤ w.len) (h2 : len ≤ d.len) :
    loop len (fun i d => ridge lam n w i d i) d =
      some ⟨d.len, fun k => d.get k + if k < len then lam / n * w.get k else 0⟩ := by
  rw [loop_add fun i k => if k = i then lam / n * w.get i else 0]
  · congr 2
    funext k
    rw [Finset.sum_ite_eq]
    simp only [mem_range]
  · intro i hi b hb
    refine (bind_some_of (Arr.read_eq (by omega))).trans ?_
    exact Arr.addAt_eq' _ (by omega)

/-- The matrix with the first `r` rows and the first `s` cells of row `r` done. -/
noncomputable def doneM (lam : ℝ) (n C : Nat) (w d : Mat ℝ) (r s : Nat) : Mat ℝ :=
  ⟨d.rows, d.cols, fun i j => d.get i j + if (i < r ∨ i = r ∧ j < s) ∧ j < C then lam / n * w.get i j else 0⟩

theorem ridgeM_done (lam : ℝ) (n C : Nat) (w d : Mat ℝ) (r s : Nat) (hs : s < C) (h1 : r < w.rows) (h2 : C ≤ w.cols)
    (h3 : r < d.rows) (h4 : C ≤ d.cols) :
    ridgeM lam n w (doneM lam n C w d r s) r s = some (doneM lam n C w d r (s + 1)) := by
  refine (bind_some_of (Mat.read_eq h1 (by omega))).trans ?_
  refine (Mat.addAt_mk _ h3 (by omega)).trans ?_
  unfold doneM
  congr 2
  funext i j
  simp only [Pi.add_apply]
  by_cases hi : i = r
  · subst hi
    rw [Pi.single_eq_same]
    by_cases hj : j = s
    · subst hj
      rw [Pi.single_eq_same, if_neg (by omega), if_pos (by omega), add_zero]
    · rw [Pi.single_eq_of_ne hj, add_zero]
      congr 1
      exact if_congr (by omega) rfl rfl
  · rw [Pi.single_eq_of_ne hi]
    simp only [Pi.zero_apply, add_zero]
    congr 1
    exact if_congr (by omega) rfl rfl

theorem doneM_row (lam : ℝ) (n C : Nat) (w d : Mat ℝ) (r : Nat) :
    doneM lam n C w d r C = doneM lam n C w d (r + 1) 0 := by
  unfold doneM
  congr 1
  funext i j
  congr 1
  exact if_congr (by omega) rfl rfl

theorem doneM_zero (lam : ℝ) (n C : Nat) (w d : Mat ℝ) : doneM lam n C w d 0 0 = d := by
  unfold doneM
  cases d
  simp

theorem row_done (lam : ℝ) (n C : Nat) (w d : Mat ℝ) (r : Nat) (h1 : r < w.rows) (h2 : C ≤ w.cols)
    (h3 : r < d.rows) (h4 : C ≤ d.cols) :
    loop C (fun q d => ridgeM lam n w d r q) (doneM lam n C w d r 0) = some (doneM lam n C w d (r + 1) 0) := by
  obtain ⟨d', e, hd⟩ := loop_inv (σ := Mat ℝ) (n := C) (s := doneM lam n C w d r 0)
    (f := fun q d => ridgeM lam n w d r q) (fun q st => st = doneM lam n C w d r q) rfl (by
      rintro q hq _ rfl
      exact ⟨_, ridgeM_done lam n C w d r q hq h1 h2 h3 h4, rfl⟩)
  rw [e, hd, doneM_row]

/-! ### Theorems -/

/-- Allocation of an `fcl`. -/
def RFcl.Ok (f : RFcl) : Prop :=
  f.w.len = f.output * f.input ∧ f.dw.len = f.output * f.input ∧ f.ds.len = f.output * f.input

/-- **C77, fully-connected layers (partial: see the refutations).** With plain
training the gradient of `λ/(2n)·Σ w²` is added to the weight gradients, with
edge-popup training to the score gradients, exactly once per weight; nothing else
changes. -/
theorem C77_fcl_partial (lam : ℝ) (n : Nat) (_hn : 0 < n) (f : RFcl) (h : f.Ok) : ∃ f', regFcl lam n f = some f' ∧
    f' = { f with dw := f'.dw, ds := f'.ds } ∧ f'.Ok ∧
    (f.mode = .gradientDescent → AddsPenalty lam n (f.output * f.input) f.w.get f.dw.get f'.dw.get ∧ f'.ds = f.ds) ∧
    (f.mode = .edgePopup → AddsPenalty lam n (f.output * f.input) f.w.get f.ds.get f'.ds.get ∧ f'.dw = f.dw) ∧
    (f.mode = .freezeTraining → f' = f) := by
  obtain ⟨h1, h2, h3⟩ := h
  unfold regFcl
  rw [loop_mul f.output f.input (fun i d => ridge lam n f.w i d i),
    loop_mul f.output f.input (fun i d => ridge lam n f.w i d i), ridge_all _ _ _ _ _ (by omega) (by omega),
    ridge_all _ _ _ _ _ (by omega) (by omega)]
  cases hm : f.mode
  case freezeTraining => exact ⟨f, by simp, by simp [← hm], ⟨h1, h2, h3⟩, by simp, by simp, by simp⟩
  case freezeBiases => exact ⟨f, by simp, by simp [← hm], ⟨h1, h2, h3⟩, by simp, by simp, by simp⟩
  case gradientDescent =>
    refine ⟨_, if_pos rfl, rfl, ⟨h1, h2, h3⟩, fun _ => ⟨adds_of _ _ _ _ _ _ fun k => rfl, rfl⟩, by simp, by simp⟩
  case edgePopup =>
    refine ⟨_, (if_neg (by simp)).trans (if_pos rfl), rfl, ⟨h1, h2, h3⟩, by simp,
      fun _ => ⟨adds_of _ _ _ _ _ _ fun k => rfl, rfl⟩, by simp⟩

example : RFcl.Ok ⟨2, 3, .gradientDescent, ⟨6, fun k => k⟩, ⟨6, fun _ => 0⟩, ⟨6, fun _ => 0⟩⟩ := ⟨rfl, rfl, rfl⟩

/-- Allocation of a `cl`. -/
structure RCl.Ok (f : RCl) : Prop where
  w : f.w.rows = f.nk ∧ f.w.cols = f.ch * f.kr * f.kc
  dw : f.dw.rows = f.nk ∧ f.dw.cols = f.ch * f.kr * f.kc
  ds : f.ds.len = f.nk * (f.ch * f.kr * f.kc)
  gn : ∀ b ∈ f.gn, b.gamma.len = b.dim ∧ b.dgamma.len = b.dim

theorem regBn_eq (lam : ℝ) (n : Nat) (b : RBn) (h : b.gamma.len = b.dim ∧ b.dgamma.len = b.dim) :
    ∃ b', regBn lam n b = some b' ∧ b' = { b with dgamma := b'.dgamma } ∧ b'.dgamma.len = b.dim ∧
      AddsPenalty lam n b.dim b.gamma.get b.dgamma.get b'.dgamma.get := by
  unfold regBn
  rw [ridge_all _ _ _ _ _ (by omega) (by omega)]
  exact ⟨_, rfl, rfl, h.2, adds_of _ _ _ _ _ _ fun k => rfl⟩

/-- **C77, convolutional and residual layers (partial).** With plain training the
penalty gradient is added once to every kernel weight gradient and to every group
normalisation's scale gradient; nothing else changes. -/
theorem C77_cl_partial (lam : ℝ) (n : Nat) (_hn : 0 < n) (first : Nat) (f : RCl) (h : f.Ok) (hc : f.conv = true)
    (hm : f.mode = .gradientDescent) : ∃ f', regCl lam n first f = some f' ∧
    f' = { f with dw := f'.dw, gn := f'.gn } ∧ f'.dw.rows = f.nk ∧ f'.dw.cols = f.ch * f.kr * f.kc ∧
    (∀ k, k < f.nk → AddsPenalty lam n (f.ch * f.kr * f.kc) (f.w.get k) (f.dw.get k) (f'.dw.get k)) ∧
    List.Forall₂ (fun b b' => b' = { b with dgamma := b'.dgamma } ∧ b'.dgamma.len = b.dim ∧
      AddsPenalty lam n b.dim b.gamma.get b.dgamma.get b'.dgamma.get) f.gn f'.gn := by
  unfold regCl
  rw [if_pos hc, if_pos hm]
  obtain ⟨g, eg, hg⟩ := Update.mapM_forall (regBn lam n) (fun b b' => b' = { b with dgamma := b'.dgamma } ∧
    b'.dgamma.len = b.dim ∧ AddsPenalty lam n b.dim b.gamma.get b.dgamma.get b'.dgamma.get) f.gn
    fun b hb => regBn_eq lam n b (h.gn b hb)
  obtain ⟨d, ed, hd⟩ := loop_inv (σ := Mat ℝ) (n := f.nk) (s := f.dw)
    (f := fun k d => loop f.ch (fun u d => loop f.kr (fun z d => loop f.kc (fun w d =>
        ridgeM lam n f.w d k (u * f.kr * f.kc + z * f.kc + w)) d) d) d)
    (fun k st => st = doneM lam n (f.ch * f.kr * f.kc) f.w f.dw k 0) (doneM_zero _ _ _ _ _).symm (by
      rintro k hk _ rfl
      refine ⟨_, ?_, rfl⟩
      rw [loop3_flat f.ch f.kr f.kc (fun q d => ridgeM lam n f.w d k q)]
      exact row_done _ _ _ _ _ _ (by have := h.w.1; omega) (le_of_eq h.w.2.symm) (by have := h.dw.1; omega)
        (le_of_eq h.dw.2.symm))
  refine ⟨_, (bind_some_of ed).trans ((bind_some_of eg).trans rfl), rfl, ?_, ?_, ?_, hg⟩
  · rw [hd]; exact h.dw.1
  · rw [hd]; exact h.dw.2
  · intro k hk
    rw [hd]
    refine adds_of _ _ _ _ _ _ fun q => ?_
    show f.dw.get k q + _ = _
    congr 1
    exact if_congr (by omega) rfl rfl

/-- Allocation of an `lstm`. -/
structure RLstm.Ok (l : RLstm) : Prop where
  w : l.w.rows = 4 ∧ l.w.cols = l.output * l.input
  u : l.u.rows = 4 ∧ l.u.cols = l.output * l.output
  dw : l.dw.rows = 4 ∧ l.dw.cols = l.output * l.input
  du : l.du.rows = 4 ∧ l.du.cols = l.output * l.output
  dws : l.dws.rows = 4 ∧ l.dws.cols = l.output * l.input
  dus : l.dus.rows = 4 ∧ l.dus.cols = l.output * l.output

/-- Every row gets its penalty gradient. -/
def AddsRows (lam : ℝ) (n : Nat) (w d d' : Mat ℝ) : Prop :=
  d'.rows = d.rows ∧ d'.cols = d.cols ∧ ∀ k, k < w.rows → AddsPenalty lam n w.cols (w.get k) (d.get k) (d'.get k)

theorem gates (lam : ℝ) (n : Nat) (l : RLstm) (a b : Mat ℝ) (hw : l.w.rows = 4 ∧ l.w.cols = l.output * l.input)
    (hu : l.u.rows = 4 ∧ l.u.cols = l.output * l.output) (ha : a.rows = 4 ∧ a.cols = l.output * l.input)
    (hb : b.rows = 4 ∧ b.cols = l.output * l.output) :
    ∃ a' b', loop 4 (regGate lam n l) (a, b) = some (a', b') ∧ AddsRows lam n l.w a a' ∧ AddsRows lam n l.u b b' := by
  obtain ⟨d, ed, hd⟩ := loop_inv (σ := Mat ℝ × Mat ℝ) (n := 4) (s := (a, b)) (f := regGate lam n l)
    (fun k st => st = (doneM lam n (l.output * l.input) l.w a k 0, doneM lam n (l.output * l.output) l.u b k 0))
    (by rw [doneM_zero, doneM_zero]) (by
      rintro k hk _ rfl
      refine ⟨_, ?_, rfl⟩
      refine (bind_some_of (row_done _ _ _ _ _ _ (by omega) (by omega) (by omega) (by omega))).trans ?_
      exact bind_some_of (row_done _ _ _ _ _ _ (by omega) (by omega) (by omega) (by omega)))
  refine ⟨doneM lam n (l.output * l.input) l.w a 4 0, doneM lam n (l.output * l.output) l.u b 4 0,
    ed.trans (by rw [hd]), ⟨rfl, rfl, fun k hk => ?_⟩, rfl, rfl, fun k hk => ?_⟩
  · refine adds_of _ _ _ _ _ _ fun q => ?_
    show a.get k q + _ = _
    congr 1
    exact if_congr (by omega) rfl rfl
  · refine adds_of _ _ _ _ _ _ fun q => ?_
    show b.get k q + _ = _
    congr 1
    exact if_congr (by omega) rfl rfl

/-- **C77, LSTM layers (partial).** -/
theorem C77_lstm_partial (lam : ℝ) (n : Nat) (_hn : 0 < n) (l : RLstm) (h : l.Ok) : ∃ l', regLstm lam n l = some l' ∧
    (l.mode = .gradientDescent → l' = { l with dw := l'.dw, du := l'.du } ∧
      AddsRows lam n l.w l.dw l'.dw ∧ AddsRows lam n l.u l.du l'.du) ∧
    (l.mode = .edgePopup → l' = { l with dws := l'.dws, dus := l'.dus } ∧
      AddsRows lam n l.w l.dws l'.dws ∧ AddsRows lam n l.u l.dus l'.dus) ∧
    (l.mode = .freezeTraining → l' = l) := by
  unfold regLstm
  cases hm : l.mode
  case freezeTraining => exact ⟨l, by simp, by simp, by simp, by simp⟩
  case freezeBiases => exact ⟨l, by simp, by simp, by simp, by simp⟩
  case gradientDescent =>
    obtain ⟨a, b, e, h1, h2⟩ := gates lam n l l.dw l.du h.w h.u h.dw h.du
    exact ⟨_, (if_pos rfl).trans (bind_some_of e), fun _ => ⟨rfl, h1, h2⟩, by simp, by simp⟩
  case edgePopup =>
    obtain ⟨a, b, e, h1, h2⟩ := gates lam n l l.dws l.dus h.w h.u h.dws h.dus
    exact ⟨_, ((if_neg (by simp)).trans (if_pos rfl)).trans (bind_some_of e), by simp, fun _ => ⟨rfl, h1, h2⟩, by simp⟩

/-- **C77, refuted for frozen biases.** Layers whose weights are trained but whose
biases are frozen get no regularisation at all. -/
theorem C77_freeze_biases_refuted (lam : ℝ) (n first : Nat) (f : RFcl) (c : RCl) (l : RLstm) (hf : f.mode = .freezeBiases)
    (hc : c.mode = .freezeBiases) (hl : l.mode = .freezeBiases) :
    regFcl lam n f = some f ∧ regCl lam n first c = some c ∧ regLstm lam n l = some l := by
  refine ⟨?_, ?_, ?_⟩
  · unfold regFcl
    rw [hf]
    simp
  · unfold regCl
    rw [hc]
    simp
  · unfold regLstm
    rw [hl]
    simp

/-- **C77, refuted for edge-popup convolutional layers.** One kernel with two
weights 1 and 2, `λ/n = 1`: the score gradients become (3, 0) instead of (1, 2). -/
theorem C77_cl_scores_refuted : ∃ f f' : RCl, f.Ok ∧ f.conv = true ∧ f.mode = .edgePopup ∧ regCl 1 1 0 f = some f' ∧
    f.w.get 0 1 = 2 ∧ f.ds.get 0 = 0 ∧ f.ds.get 1 = 0 ∧ f'.ds.get 0 = 3 ∧ f'.ds.get 1 = 0 := by
  let f : RCl := ⟨1, 1, 1, 2, true, .edgePopup, ⟨1, 2, fun _ q => q + 1⟩, ⟨1, 2, fun _ _ => 0⟩, ⟨2, fun _ => 0⟩, []⟩
  have hok : f.Ok := ⟨⟨rfl, rfl⟩, ⟨rfl, rfl⟩, rfl, by simp [f]⟩
  have e : regCl 1 1 0 f = some { f with ds := ⟨2, fun k => if k = 0 then 3 else 0⟩ } := by
    unfold regCl
    rw [if_pos rfl, if_neg (by simp [f]), if_pos rfl]
    refine bind_some_of (a := (⟨2, fun k => if k = 0 then 3 else 0⟩ : Arr ℝ)) ?_
    simp only [f, loopFrom, loop, ridgeScore, Mat.read, Arr.addAt, Arr.read, Arr.write, Option.bind_eq_bind, Option.bind_some]
    norm_num
    funext k
    by_cases hk : k = 0
    · subst hk
      norm_num
    · simp [hk]
  refine ⟨f, _, hok, rfl, rfl, e, ?_, rfl, rfl, ?_, ?_⟩
  · simp [f]; norm_num
  · simp
  · simp

end LLab.Regularize
