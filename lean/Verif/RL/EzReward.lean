import Verif.Common.Loop
import Verif.Common.Loop2
import Mathlib.Tactic.Linarith

/-!
The reward prediction of an EfficientZero model (`/repo/src/efficientzeromodel.c` 313-334, 364-447,
638-775): a network `R` per time step, a stack of LSTM layers `S` over the window, a network `T` per
time step. Which copy is given which array, and how many steps are run. Property C146.
-/

namespace LLab.EzReward

/-! ### Model -/

/-- The three parts as functions: `R`, `T` of one step, `S w` of `w` steps; `Rb x e`, `Tb x e` and
`Sb w xs es` are the errors their backward passes return. The vectors are abstract; what the
networks compute is C84 and C71. `zero` is what a reset leaves in an output array. -/
structure Nets (V : Type) where
  R : V → V
  T : V → V
  S : Nat → (Nat → V) → Nat → V
  Rb : V → V → V
  Tb : V → V → V
  Sb : Nat → (Nat → V) → (Nat → V) → Nat → V
  zero : V

/-- The part of the state these functions use. `reward`, `temporal` are the output layers of
`batch_reward_prediction_model` and `batch_reward_prediction_temporal_model`; `up` is `out_up` of the
last layer of `reward_prediction_rmodel`; `window` and `cells` are the window of that model and of its
layers; `one`, `oneT` are the output layers of `reward_prediction_model` and of
`reward_prediction_temporal_model`; `rm` are the `out_up` of the copies. -/
structure St (V : Type) where
  lstmWindow : Nat
  window : Nat
  cells : List Nat
  reward : Arr V
  up : Arr V
  temporal : Arr V
  one : V
  oneT : V
  rm : Arr (Arr V)

/-- `model_tensor_input_ff_multicore_opt` on `n` copies (`/repo/src/multi_core_model.c` 172-196). -/
def perCopy {V : Type} (n : Nat) (f : V → V) (ins outs : Arr V) : Option (Arr V) :=
  loop n (fun i (o : Arr V) => (ins.read i).bind fun x => o.write i (f x)) outs

/-- `model_tensor_input_bp_multicore_opt` on `n` copies: the returned errors. -/
def perCopyBp {V : Type} (n : Nat) (f : V → V → V) (ins es outs : Arr V) : Option (Arr V) :=
  loop n (fun i (o : Arr V) => (ins.read i).bind fun x => (es.read i).bind fun e => o.write i (f x e)) outs

/-- `input_rmodel` (`/repo/src/efficientzeromodel.c` 373-375). -/
def gather {V : Type} (zero : V) (W base : Nat) (reward : Arr V) : Option (Arr V) :=
  loop W (fun j (b : Arr V) => (reward.read (base + j)).bind fun v => b.write j v) ⟨W, fun _ => zero⟩

/-- `ff_rmodel` (`/repo/src/rmodel.c` 1964-2000): `window` steps are run and written. -/
def runStack {V : Type} (S : Nat → (Nat → V) → Nat → V) (window : Nat) (ins up : Arr V) : Option (Arr V) :=
  loop window (fun j (u : Arr V) => (ins.read j).bind fun _ => u.write j (S window ins.get j)) up

/-- `efficientzero_ff_reward_prediction` (`/repo/src/efficientzeromodel.c` 364-382). -/
def ffWindow {V : Type} (N : Nets V) (inputs : Arr V) (s : St V) : Option (St V) :=
  (perCopy s.lstmWindow N.R inputs s.reward).bind fun rw =>
    (gather N.zero s.lstmWindow 0 rw).bind fun ins =>
      (runStack N.S s.window ins s.up).bind fun up =>
        (perCopy s.lstmWindow N.T up s.temporal).bind fun t => some { s with reward := rw, up := up, temporal := t }

/-- `bp_rmodel` fills the first `window` pointers of `input_error`; the others stay unset. -/
def stackErrors {V : Type} (Sb : Nat → (Nat → V) → (Nat → V) → Nat → V) (window : Nat) (ins es : Arr V) (out : Arr (Option V)) :
    Option (Arr (Option V)) :=
  loop window (fun j (o : Arr (Option V)) => (ins.read j).bind fun _ => (es.read j).bind fun _ =>
    o.write j (some (Sb window ins.get es.get j))) out

/-- The backward pass of the reward copies; a copy given an unset pointer is undefined behaviour. -/
def lastBp {V : Type} (n : Nat) (f : V → V → V) (ins : Arr V) (es : Arr (Option V)) (outs : Arr V) : Option (Arr V) :=
  loop n (fun i (o : Arr V) => (ins.read i).bind fun x => (es.read i).bind fun e => e.bind fun e => o.write i (f x e)) outs

/-- `free_matrix(temp_errors2, layers)` on an array of `W` arrays (`/repo/src/efficientzeromodel.c`
411): beyond the array it frees what it finds, otherwise `W - layers` arrays are never freed. -/
def freeErrors (W layers : Nat) : Option Nat := if W < layers then none else some (W - layers)

/-- `efficientzero_bp_reward_prediction` (`/repo/src/efficientzeromodel.c` 384-415): the returned
errors and the number of arrays lost. -/
def bpWindow {V : Type} (N : Nets V) (inputs errors : Arr V) (s : St V) : Option (Arr V × Nat) :=
  (perCopyBp s.lstmWindow N.Tb s.up errors ⟨s.lstmWindow, fun _ => N.zero⟩).bind fun te =>
    (gather N.zero s.lstmWindow 0 s.reward).bind fun ins =>
      (stackErrors N.Sb s.window ins te ⟨s.lstmWindow, fun _ => none⟩).bind fun te2 =>
        (lastBp s.lstmWindow N.Rb inputs te2 ⟨s.lstmWindow, fun _ => N.zero⟩).bind fun ret =>
          (freeErrors s.lstmWindow s.cells.length).bind fun lost => some (ret, lost)

/-- `efficientzero_ff_reward_prediction_single_cell` (`/repo/src/efficientzeromodel.c` 313-334). The
hidden and cell states handed in are part of `S1`. -/
def ffSingle {V : Type} (N : Nets V) (S1 : V → V) (x : V) (s : St V) : Option (St V) :=
  (s.up.write 0 (S1 (N.R x))).bind fun up => (up.read 0).bind fun u =>
    some { s with one := N.R x, up := up, oneT := N.T u, window := s.lstmWindow, cells := s.cells.map fun _ => s.lstmWindow }

/-- `efficientzero_reset_only_for_ff_reward_prediction_single_cell`
(`/repo/src/efficientzeromodel.c` 435-447). The window of the model is set to 1 and left there. -/
def resetSingle {V : Type} (N : Nets V) (s : St V) : Option (St V) :=
  (s.up.write 0 N.zero).bind fun up =>
    some { s with one := N.zero, oneT := N.zero, up := up, window := 1, cells := s.cells.map fun _ => s.lstmWindow }

/-- `efficientzero_reset_only_for_ff_reward_prediction` (`/repo/src/efficientzeromodel.c` 426-433);
the LSTM layers reset all the steps of their own window. -/
def resetWindow {V : Type} (N : Nets V) (s : St V) : Option (St V) :=
  (loop s.lstmWindow (fun i (o : Arr V) => o.write i N.zero) s.reward).bind fun rw =>
    (loop s.lstmWindow (fun i (o : Arr V) => o.write i N.zero) s.temporal).bind fun t =>
      (loop (s.cells.getLastD 0) (fun i (o : Arr V) => o.write i N.zero) s.up).bind fun up =>
        some { s with reward := rw, temporal := t, up := up }

/-- The calls on one model. -/
inductive Op (V : Type) where
  | single (S1 : V → V) (x : V)
  | resetSingle
  | window (inputs : Arr V)
  | resetWindow

/-- One call. -/
def Op.run {V : Type} (N : Nets V) : Op V → St V → Option (St V)
  | .single S1 x, s => ffSingle N S1 x s
  | .resetSingle, s => LLab.EzReward.resetSingle N s
  | .window inputs, s => ffWindow N inputs s
  | .resetWindow, s => LLab.EzReward.resetWindow N s

/-- Calls one after another. -/
def runs {V : Type} (N : Nets V) : List (Op V) → St V → Option (St V)
  | [], s => some s
  | o :: os, s => (o.run N s).bind (runs N os)

/-- `input_rmodel` of the batch version (`/repo/src/efficientzeromodel.c` 646-657, 704-715): the window
of sample `i` is read from copy `i*threads` on, as in the code. -/
def gatherOpt {V : Type} (zero : V) (k W : Nat) (reward : Arr V) : Option (Arr (Arr V)) :=
  loop k (fun i (a : Arr (Arr V)) => (gather zero W (i * k) reward).bind fun b => a.write i b) ⟨k, fun _ => ⟨0, fun _ => zero⟩⟩

/-- `ff_rmodel_lstm_multicore_opt`, one sample per copy. -/
def stacksOpt {V : Type} (S : Nat → (Nat → V) → Nat → V) (k W : Nat) (ins : Arr (Arr V)) (rm : Arr (Arr V)) : Option (Arr (Arr V)) :=
  loop k (fun i (a : Arr (Arr V)) => (ins.read i).bind fun x => (a.read i).bind fun u => (runStack S W x u).bind fun u' => a.write i u') rm

/-- `rmodel_output` (`/repo/src/efficientzeromodel.c` 661-666, 717-722). -/
def outputsOpt {V : Type} (zero : V) (k W : Nat) (rm : Arr (Arr V)) : Option (Arr V) :=
  loop k (fun i (a : Arr V) => loop W (fun j (a : Arr V) => (rm.read i).bind fun u => (u.read j).bind fun v => a.write (i * W + j) v) a)
    ⟨k * W, fun _ => zero⟩

/-- `efficientzero_ff_reward_prediction_opt` (`/repo/src/efficientzeromodel.c` 638-677). -/
def ffOpt {V : Type} (N : Nets V) (threads batch : Nat) (inputs : Arr V) (s : St V) : Option (St V) :=
  (perCopy (s.lstmWindow * min threads batch) N.R inputs s.reward).bind fun rw =>
    (gatherOpt N.zero (min threads batch) s.lstmWindow rw).bind fun ins =>
      (stacksOpt N.S (min threads batch) s.lstmWindow ins s.rm).bind fun rm =>
        (outputsOpt N.zero (min threads batch) s.lstmWindow rm).bind fun outs =>
          (perCopy (s.lstmWindow * min threads batch) N.T outs s.temporal).bind fun t =>
            some { s with reward := rw, rm := rm, temporal := t }

/-- `bp_rmodel_lstm_multicore_opt` and `ret_error3` (`/repo/src/efficientzeromodel.c` 726-737). -/
def stackErrorsOpt {V : Type} (N : Nets V) (k W : Nat) (ins : Arr (Arr V)) (te : Arr V) : Option (Arr V) :=
  loop k (fun i (a : Arr V) => loop W (fun j (a : Arr V) => (ins.read i).bind fun x => (te.read (i * W + j)).bind fun _ =>
    a.write (i * W + j) (N.Sb W x.get (fun j => te.get (i * W + j)) j)) a) ⟨k * W, fun _ => N.zero⟩

/-- `efficientzero_bp_reward_prediction_opt` (`/repo/src/efficientzeromodel.c` 679-760). -/
def bpOpt {V : Type} (N : Nets V) (threads batch : Nat) (inputs errors : Arr V) (s : St V) : Option (Arr V) :=
  (gatherOpt N.zero (min threads batch) s.lstmWindow s.reward).bind fun ins =>
    (outputsOpt N.zero (min threads batch) s.lstmWindow s.rm).bind fun outs =>
      (perCopyBp (s.lstmWindow * min threads batch) N.Tb outs errors ⟨min threads batch * s.lstmWindow, fun _ => N.zero⟩).bind fun te =>
        (stackErrorsOpt N (min threads batch) s.lstmWindow ins te).bind fun te3 =>
          perCopyBp (s.lstmWindow * min threads batch) N.Rb inputs te3 ⟨min threads batch * s.lstmWindow, fun _ => N.zero⟩

/-! ### Specification -/

/-- Reading only the steps it runs. -/
def Nets.Local {V : Type} (N : Nets V) : Prop :=
  (∀ w a b, (∀ j, j < w → a j = b j) → ∀ j, j < w → N.S w a j = N.S w b j) ∧
  ∀ w a b c d, (∀ j, j < w → a j = b j) → (∀ j, j < w → c j = d j) → ∀ j, j < w → N.Sb w a c j = N.Sb w b d j

/-- The prediction for step `j` of a window of `W` inputs. -/
def predict {V : Type} (N : Nets V) (W : Nat) (xs : Nat → V) (j : Nat) : V :=
  N.T (N.S W (fun j => N.R (xs j)) j)

/-- The error at input `j` of a window of `W` inputs, for the errors `es` at the predictions. -/
def backward {V : Type} (N : Nets V) (W : Nat) (xs es : Nat → V) (j : Nat) : V :=
  N.Rb (xs j) (N.Sb W (fun j => N.R (xs j)) (fun j => N.Tb (N.S W (fun j => N.R (xs j)) j) (es j)) j)

/-- As `init_efficientzero_model` makes it, with the window the model was given. -/
structure St.Ok {V : Type} (batch : Nat) (s : St V) : Prop where
  two : 2 ≤ s.lstmWindow
  cells : ∀ c, c ∈ s.cells → c = s.lstmWindow
  ne : s.cells ≠ []
  reward : s.reward.len = batch * s.lstmWindow
  temporal : s.temporal.len = batch * s.lstmWindow
  up : s.up.len = s.lstmWindow
  pos : 0 < batch

/-! ### Proofs -/

theorem perCopy_eq {V : Type} (n : Nat) (f : V → V) (ins outs : Arr V) (hi : n ≤ ins.len) (ho : n ≤ outs.len) :
    perCopy n f ins outs = some ⟨outs.len, fun k => if k < n then f (ins.get k) else outs.get k⟩ := by
  refine loop_fill (fun k => f (ins.get k)) fun i hik b hb _ => ?_
  rw [Arr.read_eq (by omega), Option.bind_some, Arr.write_eq _ (by omega)]

theorem perCopy_len {V : Type} {f : V → V} {ins : Arr V} : ∀ {n : Nat} {outs r : Arr V}, perCopy n f ins outs = some r → r.len = outs.len
  | 0, _, _, h => by cases h; rfl
  | n + 1, outs, r, h => by
    simp only [perCopy, loop, Option.bind_eq_bind, Option.bind_eq_some_iff] at h
    obtain ⟨t, e, x, -, h⟩ := h
    have := perCopy_len (n := n) (f := f) (ins := ins) e
    unfold Arr.write at h
    by_cases hl : n < t.len
    · rw [if_pos hl] at h
      cases h
      exact this
    · rw [if_neg hl] at h
      cases h

theorem perCopyBp_eq {V : Type} (n : Nat) (f : V → V → V) (ins es outs : Arr V) (hi : n ≤ ins.len) (he : n ≤ es.len) (ho : n ≤ outs.len) :
    perCopyBp n f ins es outs = some ⟨outs.len, fun k => if k < n then f (ins.get k) (es.get k) else outs.get k⟩ := by
  refine loop_fill (fun k => f (ins.get k) (es.get k)) fun i hik b hb _ => ?_
  rw [Arr.read_eq (by omega), Option.bind_some, Arr.read_eq (by omega), Option.bind_some, Arr.write_eq _ (by omega)]

theorem gather_eq {V : Type} (zero : V) (W base : Nat) (reward : Arr V) (h : base + W ≤ reward.len) :
    gather zero W base reward = some ⟨W, fun j => if j < W then reward.get (base + j) else zero⟩ := by
  refine loop_fill (fun j => reward.get (base + j)) fun i hik b hb _ => ?_
  rw [Arr.read_eq (by omega), Option.bind_some, Arr.write_eq _ (by rw [hb]; exact hik)]

theorem runStack_eq {V : Type} (S : Nat → (Nat → V) → Nat → V) (w : Nat) (ins up : Arr V) (hi : w ≤ ins.len) (hu : w ≤ up.len) :
    runStack S w ins up = some ⟨up.len, fun j => if j < w then S w ins.get j else up.get j⟩ := by
  refine loop_fill (fun j => S w ins.get j) fun i hik b hb _ => ?_
  rw [Arr.read_eq (by omega), Option.bind_some, Arr.write_eq _ (by omega)]

theorem zeros_eq {V : Type} (n : Nat) (z : V) (a : Arr V) (h : n ≤ a.len) :
    loop n (fun i (o : Arr V) => o.write i z) a = some ⟨a.len, fun k => if k < n then z else a.get k⟩ := by
  refine loop_fill (fun _ => z) fun i hik b hb _ => ?_
  rw [Arr.write_eq _ (by omega)]

/-! ### One window -/

/-- What the call does, whatever the window of the stack is. -/
theorem ffWindow_eq {V : Type} (N : Nets V) (batch : Nat) (inputs : Arr V) (s : St V) (h : s.Ok batch) (hw : s.window ≤ s.lstmWindow)
    (hi : s.lstmWindow ≤ inputs.len) :
    ∃ s', ffWindow N inputs s = some s' ∧ s'.Ok batch ∧ s'.lstmWindow = s.lstmWindow ∧ s'.window = s.window ∧ s'.cells = s.cells ∧
      (∀ j, j < s.lstmWindow → s'.reward.get j = N.R (inputs.get j)) ∧
      (∀ j, j < s.lstmWindow → s'.up.get j = if j < s.window then
        N.S s.window (fun j => if j < s.lstmWindow then N.R (inputs.get j) else N.zero) j else s.up.get j) ∧
      ∀ j, j < s.lstmWindow → s'.temporal.get j = N.T (s'.up.get j) := by
  have hb := Nat.le_mul_of_pos_left s.lstmWindow h.pos
  have l1 : s.lstmWindow ≤ s.reward.len := by rw [h.reward]; exact hb
  have l2 : s.lstmWindow ≤ s.temporal.len := by rw [h.temporal]; exact hb
  have e1 := perCopy_eq s.lstmWindow N.R inputs s.reward hi l1
  have e2 := gather_eq N.zero s.lstmWindow 0 ⟨s.reward.len, fun k => if k < s.lstmWindow then N.R (inputs.get k) else s.reward.get k⟩
    (by simpa using l1)
  have e3 := runStack_eq N.S s.window ⟨s.lstmWindow, fun j => if j < s.lstmWindow then
    (if 0 + j < s.lstmWindow then N.R (inputs.get (0 + j)) else s.reward.get (0 + j)) else N.zero⟩ s.up hw (by rw [h.up]; exact hw)
  have e4 := perCopy_eq s.lstmWindow N.T ⟨s.up.len, fun j => if j < s.window then N.S s.window (fun j => if j < s.lstmWindow then
    (if 0 + j < s.lstmWindow then N.R (inputs.get (0 + j)) else s.reward.get (0 + j)) else N.zero) j else s.up.get j⟩ s.temporal
    (by rw [h.up]) l2
  have hf : (fun j => if j < s.lstmWindow then (if 0 + j < s.lstmWindow then N.R (inputs.get (0 + j)) else s.reward.get (0 + j)) else N.zero) =
      fun j => if j < s.lstmWindow then N.R (inputs.get j) else N.zero := by
    funext j
    by_cases hj : j < s.lstmWindow
    · simp only [if_pos hj, Nat.zero_add]
    · simp only [if_neg hj]
  have key : ffWindow N inputs s = some { s with
      reward := ⟨s.reward.len, fun k => if k < s.lstmWindow then N.R (inputs.get k) else s.reward.get k⟩,
      up := ⟨s.up.len, fun j => if j < s.window then N.S s.window (fun j => if j < s.lstmWindow then
        (if 0 + j < s.lstmWindow then N.R (inputs.get (0 + j)) else s.reward.get (0 + j)) else N.zero) j else s.up.get j⟩,
      temporal := ⟨s.temporal.len, fun k => if k < s.lstmWindow then N.T (if k < s.window then N.S s.window (fun j => if j < s.lstmWindow then
        (if 0 + j < s.lstmWindow then N.R (inputs.get (0 + j)) else s.reward.get (0 + j)) else N.zero) k else s.up.get k) else s.temporal.get k⟩ } := by
    unfold ffWindow
    rw [e1, Option.bind_some, e2, Option.bind_some, e3, Option.bind_some, e4, Option.bind_some]
  refine ⟨_, key, ⟨h.two, h.cells, h.ne, h.reward, h.temporal, h.up, h.pos⟩, rfl, rfl, rfl, fun j hj => ?_, fun j hj => ?_, fun j hj => ?_⟩
  · exact if_pos hj
  · dsimp only
    rw [hf]
  · dsimp only
    rw [if_pos hj]

/-- **C146 (partial), one window.** While the window of the stack is the window of the model: the
prediction of every step is `T` of the stack's output on `R` of the inputs. Missing: after
`resetSingle` the window is 1 (`C146_window_refuted`). -/
theorem C146_window_partial {V : Type} (N : Nets V) (hN : N.Local) (batch : Nat) (inputs : Arr V) (s : St V) (h : s.Ok batch)
    (hw : s.window = s.lstmWindow) (hi : s.lstmWindow ≤ inputs.len) :
    ∃ s', ffWindow N inputs s = some s' ∧
      ∀ j, j < s.lstmWindow → s'.temporal.get j = predict N s.lstmWindow inputs.get j := by
  obtain ⟨s', e, -, -, -, -, -, h5, h6⟩ := ffWindow_eq N batch inputs s h hw.le hi
  refine ⟨s', e, fun j hj => ?_⟩
  rw [h6 j hj, h5 j hj, hw, if_pos hj]
  unfold predict
  refine congrArg N.T (hN.1 _ _ _ (fun q hq => ?_) j hj)
  exact if_pos hq

/-- **C146 (partial), backward over one window.** After the forward pass the backward pass returns the
error of the composition for every step; `lstm_window` minus the number of layers arrays are never
freed. Missing: more layers than steps, and after `resetSingle` (`C146_window_bp_refuted`). -/
theorem C146_window_bp_partial {V : Type} (N : Nets V) (hN : N.Local) (batch : Nat) (inputs errors : Arr V) (s : St V) (h : s.Ok batch)
    (hw : s.window = s.lstmWindow) (hi : s.lstmWindow ≤ inputs.len) (he : s.lstmWindow ≤ errors.len) (hl : s.cells.length ≤ s.lstmWindow) :
    ∃ s' ret, ffWindow N inputs s = some s' ∧ bpWindow N inputs errors s' = some (ret, s.lstmWindow - s.cells.length) ∧
      ∀ j, j < s.lstmWindow → ret.get j = backward N s.lstmWindow inputs.get errors.get j := by
  obtain ⟨s', e, ok, w1, w2, w3, h4, h5, h6⟩ := ffWindow_eq N batch inputs s h hw.le hi
  have hb := Nat.le_mul_of_pos_left s.lstmWindow h.pos
  have l1 : s.lstmWindow ≤ s'.reward.len := by rw [ok.reward, w1]; exact hb
  have e1 := perCopyBp_eq s.lstmWindow N.Tb s'.up errors ⟨s.lstmWindow, fun _ => N.zero⟩ (by rw [ok.up, w1]) he le_rfl
  have e2 := gather_eq N.zero s.lstmWindow 0 s'.reward (by simpa using l1)
  have e3 : stackErrors N.Sb s.lstmWindow ⟨s.lstmWindow, fun j => if j < s.lstmWindow then s'.reward.get (0 + j) else N.zero⟩
      ⟨s.lstmWindow, fun k => if k < s.lstmWindow then N.Tb (s'.up.get k) (errors.get k) else N.zero⟩ ⟨s.lstmWindow, fun _ => none⟩ =
      some ⟨s.lstmWindow, fun j => if j < s.lstmWindow then some (N.Sb s.lstmWindow
        (fun j => if j < s.lstmWindow then s'.reward.get (0 + j) else N.zero)
        (fun k => if k < s.lstmWindow then N.Tb (s'.up.get k) (errors.get k) else N.zero) j) else none⟩ := by
    refine loop_fill (fun j => some (N.Sb s.lstmWindow (fun j => if j < s.lstmWindow then s'.reward.get (0 + j) else N.zero)
        (fun k => if k < s.lstmWindow then N.Tb (s'.up.get k) (errors.get k) else N.zero) j)) fun i hik b hb' _ => ?_
    rw [Arr.read_eq (by exact hik), Option.bind_some, Arr.read_eq (by exact hik), Option.bind_some, Arr.write_eq _ (by rw [hb']; exact hik)]
  have e4 : lastBp s.lstmWindow N.Rb inputs ⟨s.lstmWindow, fun j => if j < s.lstmWindow then some (N.Sb s.lstmWindow
        (fun j => if j < s.lstmWindow then s'.reward.get (0 + j) else N.zero)
        (fun k => if k < s.lstmWindow then N.Tb (s'.up.get k) (errors.get k) else N.zero) j) else none⟩ ⟨s.lstmWindow, fun _ => N.zero⟩ =
      some ⟨s.lstmWindow, fun j => if j < s.lstmWindow then N.Rb (inputs.get j) (N.Sb s.lstmWindow
        (fun j => if j < s.lstmWindow then s'.reward.get (0 + j) else N.zero)
        (fun k => if k < s.lstmWindow then N.Tb (s'.up.get k) (errors.get k) else N.zero) j) else N.zero⟩ := by
    refine loop_fill (fun j => N.Rb (inputs.get j) (N.Sb s.lstmWindow (fun j => if j < s.lstmWindow then s'.reward.get (0 + j) else N.zero)
        (fun k => if k < s.lstmWindow then N.Tb (s'.up.get k) (errors.get k) else N.zero) j)) fun i hik b hb' _ => ?_
    rw [Arr.read_eq (by omega), Option.bind_some, Arr.read_eq (by exact hik), Option.bind_some]
    dsimp only
    rw [if_pos hik, Option.bind_some, Arr.write_eq _ (by rw [hb']; exact hik)]
  have e5 : freeErrors s.lstmWindow s.cells.length = some (s.lstmWindow - s.cells.length) := if_neg (by omega)
  refine ⟨s', ⟨s.lstmWindow, fun j => if j < s.lstmWindow then N.Rb (inputs.get j) (N.Sb s.lstmWindow
        (fun j => if j < s.lstmWindow then s'.reward.get (0 + j) else N.zero)
        (fun k => if k < s.lstmWindow then N.Tb (s'.up.get k) (errors.get k) else N.zero) j) else N.zero⟩, e, ?_, ?_⟩
  · unfold bpWindow
    rw [w1, w2, w3, hw, e1, Option.bind_some, e2, Option.bind_some, e3, Option.bind_some, e4, Option.bind_some, e5, Option.bind_some]
  · intro j hj
    dsimp only
    rw [if_pos hj]
    unfold backward
    refine congrArg (N.Rb (inputs.get j)) (hN.2 _ _ _ _ _ (fun q hq => ?_) (fun q hq => ?_) j hj)
    · rw [if_pos hq, Nat.zero_add, h4 q hq]
    · rw [if_pos hq, h5 q hq, hw, if_pos hq]
      congr 1
      exact hN.1 _ _ _ (fun r hr => if_pos hr) q hq

/-- The last call on one step, if any. -/
def lastSingle {V : Type} : List (Op V) → Option Bool
  | [] => none
  | .single _ _ :: os => some ((lastSingle os).getD true)
  | .resetSingle :: os => some ((lastSingle os).getD false)
  | _ :: os => lastSingle os

theorem Op.run_window {V : Type} (N : Nets V) (o : Op V) (s s' : St V) (h : o.run N s = some s') :
    s'.lstmWindow = s.lstmWindow ∧ s'.window = (match o with
      | .single _ _ => s.lstmWindow
      | .resetSingle => 1
      | _ => s.window) := by
  cases o with
  | single S1 x =>
    simp only [Op.run, ffSingle, Option.bind_eq_some_iff] at h
    obtain ⟨_, -, _, -, h⟩ := h
    cases h
    exact ⟨rfl, rfl⟩
  | resetSingle =>
    simp only [Op.run, LLab.EzReward.resetSingle, Option.bind_eq_some_iff] at h
    obtain ⟨_, -, h⟩ := h
    cases h
    exact ⟨rfl, rfl⟩
  | window inputs =>
    simp only [Op.run, ffWindow, Option.bind_eq_some_iff] at h
    obtain ⟨_, -, _, -, _, -, _, -, h⟩ := h
    cases h
    exact ⟨rfl, rfl⟩
  | resetWindow =>
    simp only [Op.run, LLab.EzReward.resetWindow, Option.bind_eq_some_iff] at h
    obtain ⟨_, -, _, -, _, -, h⟩ := h
    cases h
    exact ⟨rfl, rfl⟩

/-- **C146, history.** After every sequence of calls on a new model: the stack runs 1 step if the last
call for one step was its reset, and the window of the model otherwise. -/
theorem C146_history {V : Type} (N : Nets V) : ∀ (os : List (Op V)) (s s' : St V), runs N os s = some s' →
    s'.lstmWindow = s.lstmWindow ∧ s'.window = (match lastSingle os with
      | none => s.window
      | some true => s.lstmWindow
      | some false => 1)
  | [], s, s', h => by
    cases h
    exact ⟨rfl, rfl⟩
  | o :: os, s, s', h => by
    simp only [runs, Option.bind_eq_some_iff] at h
    obtain ⟨t, e1, e2⟩ := h
    obtain ⟨a1, a2⟩ := Op.run_window N o s t e1
    obtain ⟨b1, b2⟩ := C146_history N os t s' e2
    refine ⟨b1.trans a1, ?_⟩
    rw [b2, a1, a2]
    cases o <;> simp only [lastSingle]
    all_goals (cases lastSingle os with
      | none => rfl
      | some b => cases b <;> rfl)

/-- **C146 (refuted, window).** After the reset for one step the prediction of every later step is what
it was before the call: whatever the networks and whatever the inputs. -/
theorem C146_window_refuted {V : Type} (N : Nets V) (batch : Nat) (s : St V) (h : s.Ok batch) (inputs : Arr V) (hi : s.lstmWindow ≤ inputs.len) :
    ∃ s1 s2, resetSingle N s = some s1 ∧ ffWindow N inputs s1 = some s2 ∧
      ∀ j, 0 < j → j < s.lstmWindow → s2.temporal.get j = N.T (s.up.get j) := by
  have hu : 0 < s.up.len := by rw [h.up]; have := h.two; omega
  have e : resetSingle N s = some ⟨s.lstmWindow, 1, s.cells.map fun _ => s.lstmWindow, s.reward, ⟨s.up.len, Function.update s.up.get 0 N.zero⟩, s.temporal,
      N.zero, N.zero, s.rm⟩ := by
    unfold resetSingle
    rw [Arr.write_eq _ hu, Option.bind_some]
  have ok : St.Ok batch (⟨s.lstmWindow, 1, s.cells.map fun _ => s.lstmWindow, s.reward, ⟨s.up.len, Function.update s.up.get 0 N.zero⟩, s.temporal,
      N.zero, N.zero, s.rm⟩ : St V) :=
    ⟨h.two, by simp, by simpa using h.ne, h.reward, h.temporal, h.up, h.pos⟩
  obtain ⟨s', e', -, -, -, -, -, h5, h6⟩ := ffWindow_eq N batch inputs _ ok (by have := h.two; dsimp only; omega) hi
  refine ⟨_, s', e, e', fun j h0 hj => ?_⟩
  rw [h6 j hj, h5 j hj]
  dsimp only
  rw [if_neg (by omega), Function.update_of_ne (by omega)]

theorem loop_none_at {σ : Type} {f : Nat → σ → Option σ} {i : Nat} : ∀ {n : Nat} {s : σ}, i < n → (∀ s, f i s = none) → loop n f s = none
  | 0, _, h, _ => by omega
  | n + 1, s, h, hf => by
    rw [loop]
    by_cases hi : i = n
    · subst hi
      cases loop i f s with
      | none => rfl
      | some t => exact hf t
    · rw [loop_none_at (by omega) hf]
      rfl

/-- **C146 (refuted, backward).** After the reset for one step the backward pass over the window is
undefined for all inputs and errors: the errors of the steps after the first are never set. -/
theorem C146_window_bp_refuted {V : Type} (N : Nets V) (s : St V) (hw : s.window = 1) (h2 : 2 ≤ s.lstmWindow) (inputs errors : Arr V) :
    bpWindow N inputs errors s = none := by
  unfold bpWindow
  cases h1 : perCopyBp s.lstmWindow N.Tb s.up errors ⟨s.lstmWindow, fun _ => N.zero⟩ with
  | none => rfl
  | some te =>
    cases h2' : gather N.zero s.lstmWindow 0 s.reward with
    | none => rfl
    | some ins =>
      rw [Option.bind_some, Option.bind_some, hw]
      cases h3 : stackErrors N.Sb 1 ins te ⟨s.lstmWindow, fun _ => none⟩ with
      | none => rfl
      | some te2 =>
        have hu : te2.get 1 = none := by
          have h3' : ((ins.read 0).bind fun _ => (te.read 0).bind fun _ =>
            (⟨s.lstmWindow, fun _ => none⟩ : Arr (Option V)).write 0 (some (N.Sb 1 ins.get te.get 0))) = some te2 := h3
          simp only [Option.bind_eq_some_iff] at h3'
          replace h3 := h3'
          obtain ⟨_, -, _, -, h3⟩ := h3
          rw [Arr.write_eq _ (by dsimp only; omega)] at h3
          cases h3
          rfl
        rw [Option.bind_some]
        have : lastBp s.lstmWindow N.Rb inputs te2 ⟨s.lstmWindow, fun _ => N.zero⟩ = none := by
          refine loop_none_at (i := 1) (by omega) fun o => ?_
          cases inputs.read 1 with
          | none => rfl
          | some x =>
            rw [Option.bind_some]
            unfold Arr.read
            by_cases hl : 1 < te2.len
            · rw [if_pos hl, Option.bind_some, hu]
              rfl
            · rw [if_neg hl]
              rfl
        rw [this]
        rfl

/-- More LSTM layers than steps: the backward pass frees pointers outside its array. -/
theorem C146_free_refuted {V : Type} (N : Nets V) (s : St V) (hl : s.lstmWindow < s.cells.length) (inputs errors : Arr V) :
    bpWindow N inputs errors s = none := by
  have hf : freeErrors s.lstmWindow s.cells.length = none := if_pos hl
  unfold bpWindow
  rw [hf]
  cases perCopyBp s.lstmWindow N.Tb s.up errors ⟨s.lstmWindow, fun _ => N.zero⟩ with
  | none => rfl
  | some te =>
    rw [Option.bind_some]
    cases gather N.zero s.lstmWindow 0 s.reward with
    | none => rfl
    | some ins =>
      rw [Option.bind_some]
      cases stackErrors N.Sb s.window ins te ⟨s.lstmWindow, fun _ => none⟩ with
      | none => rfl
      | some te2 =>
        rw [Option.bind_some]
        cases lastBp s.lstmWindow N.Rb inputs te2 ⟨s.lstmWindow, fun _ => N.zero⟩ <;> rfl

/-! ### A batch -/

theorem div_row {B j : Nat} (r : Nat) (hj : j < B) : (r * B + j) / B = r ∧ (r * B + j) % B = j := by
  have hB : 0 < B := by omega
  constructor
  · rw [Nat.mul_comm, Nat.mul_add_div hB, Nat.div_eq_of_lt hj, Nat.add_zero]
  · rw [Nat.mul_comm, Nat.mul_add_mod, Nat.mod_eq_of_lt hj]

theorem fill2 {V : Type} (A B : Nat) (v : Nat → Nat → V) (f : Nat → Nat → Arr V → Option (Arr V)) (a : Arr V) (hl : A * B ≤ a.len)
    (h : ∀ i, i < A → ∀ j, j < B → ∀ b : Arr V, b.len = a.len → f i j b = b.write (i * B + j) (v i j)) :
    ∃ r, loop A (fun i st => loop B (fun j st => f i j st) st) a = some r ∧ r.len = a.len ∧
      ∀ i, i < A → ∀ j, j < B → r.get (i * B + j) = v i j := by
  obtain ⟨r, e, h1, h2⟩ := loop2_inv (A := A) (B := B) (f := f) (st := a)
    (fun r s st => st.len = a.len ∧ ∀ q, q < r * B + s → st.get q = v (q / B) (q % B))
    ⟨rfl, fun q hq => by simp at hq⟩
    (fun r hr s hs st hst => by
      have hlt : r * B + s < A * B := by
        have := Nat.mul_le_mul_right B (show r + 1 ≤ A from hr)
        rw [Nat.succ_mul] at this
        omega
      refine ⟨⟨st.len, Function.update st.get (r * B + s) (v r s)⟩, ?_, hst.1, fun q hq => ?_⟩
      · rw [h r hr s hs st hst.1, Arr.write_eq _ (by rw [hst.1]; omega)]
      · by_cases hq' : q = r * B + s
        · subst hq'
          rw [(div_row r hs).1, (div_row r hs).2]
          exact Function.update_self _ _ _
        · rw [show (⟨st.len, Function.update st.get (r * B + s) (v r s)⟩ : Arr V).get q = st.get q from Function.update_of_ne hq' _ _]
          exact hst.2 q (by omega))
    (fun r hr st hst => by
      refine ⟨hst.1, fun q hq => hst.2 q ?_⟩
      rw [Nat.succ_mul] at hq
      omega)
  refine ⟨r, e, h1, fun i hi j hj => ?_⟩
  have hlt : i * B + j < A * B + 0 := by
    have := Nat.mul_le_mul_right B (show i + 1 ≤ A from hi)
    rw [Nat.succ_mul] at this
    omega
  rw [h2 _ hlt, (div_row i hj).1, (div_row i hj).2]

theorem gatherOpt_eq {V : Type} (zero : V) (k W : Nat) (reward : Arr V) (h : ∀ i, i < k → i * k + W ≤ reward.len) :
    gatherOpt zero k W reward = some ⟨k, fun i => if i < k then
      ⟨W, fun j => if j < W then reward.get (i * k + j) else zero⟩ else ⟨0, fun _ => zero⟩⟩ := by
  refine loop_fill (fun i => (⟨W, fun j => if j < W then reward.get (i * k + j) else zero⟩ : Arr V)) fun i hik b hb _ => ?_
  rw [gather_eq zero W (i * k) reward (h i hik), Option.bind_some, Arr.write_eq _ (by rw [hb]; exact hik)]

theorem stacksOpt_eq {V : Type} (S : Nat → (Nat → V) → Nat → V) (k W : Nat) (ins rm : Arr (Arr V)) (hi : k ≤ ins.len) (hr : k ≤ rm.len)
    (h : ∀ i, i < k → W ≤ (ins.get i).len ∧ W ≤ (rm.get i).len) :
    stacksOpt S k W ins rm = some ⟨rm.len, fun i => if i < k then
      ⟨(rm.get i).len, fun j => if j < W then S W (ins.get i).get j else (rm.get i).get j⟩ else rm.get i⟩ := by
  refine loop_fill (fun i => (⟨(rm.get i).len, fun j => if j < W then S W (ins.get i).get j else (rm.get i).get j⟩ : Arr V))
    fun i hik b hb hg => ?_
  rw [Arr.read_eq (by omega), Option.bind_some, Arr.read_eq (by omega), Option.bind_some, hg i le_rfl,
    runStack_eq S W _ _ (h i hik).1 (h i hik).2, Option.bind_some, Arr.write_eq _ (by omega)]

theorem outputsOpt_eq {V : Type} (zero : V) (k W : Nat) (rm : Arr (Arr V)) (hr : k ≤ rm.len) (h : ∀ i, i < k → W ≤ (rm.get i).len) :
    ∃ r, outputsOpt zero k W rm = some r ∧ r.len = k * W ∧ ∀ i, i < k → ∀ j, j < W → r.get (i * W + j) = (rm.get i).get j := by
  refine fill2 k W (fun i j => (rm.get i).get j) _ ⟨k * W, fun _ => zero⟩ le_rfl fun i hi j hj b _ => ?_
  rw [Arr.read_eq (by omega), Option.bind_some, Arr.read_eq (by have := h i hi; omega), Option.bind_some]

/-- As made for `batch` samples, the copies of the stack too. -/
structure St.OkBatch {V : Type} (batch : Nat) (s : St V) : Prop extends St.Ok batch s where
  rm : s.rm.len = batch
  rms : ∀ i, i < batch → (s.rm.get i).len = s.lstmWindow

theorem row_lt {k W i j : Nat} (hi : i < k) (hj : j < W) : i * W + j < W * k := by
  have := Nat.mul_le_mul_right W (show i + 1 ≤ k from hi)
  rw [Nat.succ_mul, Nat.mul_comm k W] at this
  omega

/-- **C146, what a batch reads.** If the copies `i*threads + j` exist, the window of sample `i` starts
at copy `i*threads`, not at `i*lstm_window`. -/
theorem C146_opt_reads {V : Type} (N : Nets V) (hN : N.Local) (threads batch : Nat) (inputs : Arr V) (s : St V) (h : s.OkBatch batch)
    (hi : s.lstmWindow * min threads batch ≤ inputs.len)
    (hr : ∀ i, i < min threads batch → i * min threads batch + s.lstmWindow ≤ batch * s.lstmWindow) :
    ∃ s', ffOpt N threads batch inputs s = some s' ∧ s'.lstmWindow = s.lstmWindow ∧ s'.OkBatch batch ∧
      (∀ q, s'.reward.get q = if q < s.lstmWindow * min threads batch then N.R (inputs.get q) else s.reward.get q) ∧
      (∀ i, i < min threads batch → ∀ j, j < s.lstmWindow →
        (s'.rm.get i).get j = N.S s.lstmWindow (fun j => s'.reward.get (i * min threads batch + j)) j) ∧
      ∀ i, i < min threads batch → ∀ j, j < s.lstmWindow → s'.temporal.get (i * s.lstmWindow + j) = N.T ((s'.rm.get i).get j) := by
  generalize hk : min threads batch = k at *
  have kb : k ≤ batch := by omega
  have hkw : s.lstmWindow * k ≤ batch * s.lstmWindow := by
    rw [Nat.mul_comm]
    exact Nat.mul_le_mul_right _ kb
  have e1 := perCopy_eq (s.lstmWindow * k) N.R inputs s.reward hi (by rw [h.reward]; exact hkw)
  have e2 := gatherOpt_eq N.zero k s.lstmWindow ⟨s.reward.len, fun q => if q < s.lstmWindow * k then N.R (inputs.get q) else s.reward.get q⟩
    (fun i hik => by dsimp only; rw [h.reward]; exact hr i hik)
  obtain ⟨ins, hins⟩ : ∃ ins : Arr (Arr V), ins = ⟨k, fun i => if i < k then
      ⟨s.lstmWindow, fun j => if j < s.lstmWindow then (if i * k + j < s.lstmWindow * k then N.R (inputs.get (i * k + j)) else
        s.reward.get (i * k + j)) else N.zero⟩ else ⟨0, fun _ => N.zero⟩⟩ := ⟨_, rfl⟩
  have insl : k ≤ ins.len := by rw [hins]
  have insg : ∀ i, i < k → ins.get i = ⟨s.lstmWindow, fun j => if j < s.lstmWindow then (if i * k + j < s.lstmWindow * k then
      N.R (inputs.get (i * k + j)) else s.reward.get (i * k + j)) else N.zero⟩ := by
    intro i hik
    rw [hins]
    exact if_pos hik
  have e2' : gatherOpt N.zero k s.lstmWindow ⟨s.reward.len, fun q => if q < s.lstmWindow * k then N.R (inputs.get q) else s.reward.get q⟩ = some ins := by
    rw [e2, hins]
  have e3 := stacksOpt_eq N.S k s.lstmWindow ins s.rm insl (by rw [h.rm]; exact kb) (fun i hik => by
    rw [insg i hik, h.rms i (by omega)]
    exact ⟨le_rfl, le_rfl⟩)
  obtain ⟨rm, hrm⟩ : ∃ rm : Arr (Arr V), rm = ⟨s.rm.len, fun i => if i < k then
      ⟨(s.rm.get i).len, fun j => if j < s.lstmWindow then N.S s.lstmWindow (ins.get i).get j else (s.rm.get i).get j⟩ else s.rm.get i⟩ := ⟨_, rfl⟩
  rw [← hrm] at e3
  have rml : rm.len = batch := by rw [hrm]; exact h.rm
  have rmg : ∀ i, i < batch → (rm.get i).len = s.lstmWindow := by
    intro i hib
    rw [hrm]
    dsimp only
    by_cases hik : i < k
    · rw [if_pos hik]
      exact h.rms i hib
    · rw [if_neg hik]
      exact h.rms i hib
  obtain ⟨outs, e4, ol, og⟩ := outputsOpt_eq N.zero k s.lstmWindow rm (by rw [rml]; exact kb) (fun i hik => by rw [rmg i (by omega)])
  have e5 := perCopy_eq (s.lstmWindow * k) N.T outs s.temporal (by rw [ol, Nat.mul_comm]) (by rw [h.temporal]; exact hkw)
  have key : ffOpt N threads batch inputs s = some { s with
      reward := ⟨s.reward.len, fun q => if q < s.lstmWindow * k then N.R (inputs.get q) else s.reward.get q⟩, rm := rm,
      temporal := ⟨s.temporal.len, fun q => if q < s.lstmWindow * k then N.T (outs.get q) else s.temporal.get q⟩ } := by
    unfold ffOpt
    rw [hk, e1, Option.bind_some, e2', Option.bind_some, e3, Option.bind_some, e4, Option.bind_some, e5, Option.bind_some]
  refine ⟨_, key, rfl, ⟨⟨h.two, h.cells, h.ne, h.reward, h.temporal, h.up, h.pos⟩, rml, rmg⟩, fun q => rfl, fun i hik j hj => ?_, fun i hik j hj => ?_⟩
  · dsimp only
    rw [hrm]
    dsimp only
    rw [if_pos hik]
    dsimp only
    rw [if_pos hj, insg i hik]
    exact hN.1 _ _ _ (fun q hq => by dsimp only; rw [if_pos hq]) j hj
  · dsimp only
    rw [if_pos (row_lt hik hj), og i hik j hj]

/-- The two cases in which the windows start where they should. -/
theorem same_start {k W i : Nat} (h : k = 1 ∨ k = W) (hi : i < k) : i * k = i * W := by
  rcases h with rfl | rfl
  · obtain rfl : i = 0 := by omega
    simp
  · rfl

/-- **C146 (partial), a batch.** When one sample is predicted, or as many samples as the window has
steps: every prediction is `T` of the stack's output on `R` of the inputs of its own sample. Missing:
every other number of samples (`C146_opt_outside_refuted`, `C146_opt_overlap_refuted`). -/
theorem C146_opt_partial {V : Type} (N : Nets V) (hN : N.Local) (threads batch : Nat) (inputs : Arr V) (s : St V) (h : s.OkBatch batch)
    (hi : s.lstmWindow * min threads batch ≤ inputs.len) (hk : min threads batch = 1 ∨ min threads batch = s.lstmWindow) :
    ∃ s', ffOpt N threads batch inputs s = some s' ∧ ∀ i, i < min threads batch → ∀ j, j < s.lstmWindow →
      s'.temporal.get (i * s.lstmWindow + j) = predict N s.lstmWindow (fun j => inputs.get (i * s.lstmWindow + j)) j := by
  obtain ⟨s', e, -, -, h1, h2, h3⟩ := C146_opt_reads N hN threads batch inputs s h hi (fun i hik => by
    rw [same_start hk hik]
    have := Nat.mul_le_mul_right s.lstmWindow (show i + 1 ≤ batch by omega)
    rw [Nat.succ_mul] at this
    exact this)
  refine ⟨s', e, fun i hik j hj => ?_⟩
  rw [h3 i hik j hj, h2 i hik j hj]
  unfold predict
  refine congrArg N.T (hN.1 _ _ _ (fun q hq => ?_) j hj)
  rw [h1, same_start hk hik, if_pos (row_lt hik hq)]

/-- **C146 (partial), backward over a batch.** In the same two cases the backward pass after the
forward pass returns the error of the composition for every step of every sample. -/
theorem C146_opt_bp_partial {V : Type} (N : Nets V) (hN : N.Local) (threads batch : Nat) (inputs errors : Arr V) (s : St V) (h : s.OkBatch batch)
    (hi : s.lstmWindow * min threads batch ≤ inputs.len) (he : s.lstmWindow * min threads batch ≤ errors.len)
    (hk : min threads batch = 1 ∨ min threads batch = s.lstmWindow) :
    ∃ s' ret, ffOpt N threads batch inputs s = some s' ∧ bpOpt N threads batch inputs errors s' = some ret ∧
      ∀ i, i < min threads batch → ∀ j, j < s.lstmWindow → ret.get (i * s.lstmWindow + j) =
        backward N s.lstmWindow (fun j => inputs.get (i * s.lstmWindow + j)) (fun j => errors.get (i * s.lstmWindow + j)) j := by
  have hstart : ∀ i, i < min threads batch → i * min threads batch + s.lstmWindow ≤ batch * s.lstmWindow := fun i hik => by
    rw [same_start hk hik]
    have := Nat.mul_le_mul_right s.lstmWindow (show i + 1 ≤ batch by omega)
    rw [Nat.succ_mul] at this
    exact this
  obtain ⟨s', e, w, ok, h1, h2, -⟩ := C146_opt_reads N hN threads batch inputs s h hi hstart
  generalize hkd : min threads batch = k at *
  have kb : k ≤ batch := by omega
  have e1 := gatherOpt_eq N.zero k s.lstmWindow s'.reward (fun i hik => by rw [ok.reward, w]; exact hstart i hik)
  obtain ⟨outs, e2, ol, og⟩ := outputsOpt_eq N.zero k s.lstmWindow s'.rm (by rw [ok.rm]; exact kb) (fun i hik => by rw [ok.rms i (by omega), w])
  have e3 := perCopyBp_eq (s.lstmWindow * k) N.Tb outs errors ⟨k * s.lstmWindow, fun _ => N.zero⟩ (by rw [ol, Nat.mul_comm]) he (by
    dsimp only; rw [Nat.mul_comm])
  obtain ⟨te, hte⟩ : ∃ te : Arr V, te = ⟨k * s.lstmWindow, fun q => if q < s.lstmWindow * k then N.Tb (outs.get q) (errors.get q) else N.zero⟩ := ⟨_, rfl⟩
  have e3' : perCopyBp (s.lstmWindow * k) N.Tb outs errors ⟨k * s.lstmWindow, fun _ => N.zero⟩ = some te := by rw [e3, hte]
  have tel : te.len = k * s.lstmWindow := by rw [hte]
  have teg : ∀ i, i < k → ∀ j, j < s.lstmWindow → te.get (i * s.lstmWindow + j) = N.Tb ((s'.rm.get i).get j) (errors.get (i * s.lstmWindow + j)) := by
    intro i hik j hj
    rw [hte]
    dsimp only
    rw [if_pos (row_lt hik hj), og i hik j hj]
  obtain ⟨te3, e4, tl, tg⟩ := fill2 k s.lstmWindow (fun i j => N.Sb s.lstmWindow
      (fun j => if j < s.lstmWindow then s'.reward.get (i * k + j) else N.zero) (fun j => te.get (i * s.lstmWindow + j)) j)
    (fun i j (a : Arr V) => ((⟨k, fun i => if i < k then ⟨s.lstmWindow, fun j => if j < s.lstmWindow then s'.reward.get (i * k + j) else N.zero⟩
      else ⟨0, fun _ => N.zero⟩⟩ : Arr (Arr V)).read i).bind fun x => (te.read (i * s.lstmWindow + j)).bind fun _ =>
      a.write (i * s.lstmWindow + j) (N.Sb s.lstmWindow x.get (fun j => te.get (i * s.lstmWindow + j)) j)) ⟨k * s.lstmWindow, fun _ => N.zero⟩ le_rfl
    (fun i hik j hj b _ => by
      rw [Arr.read_eq (by exact hik), Option.bind_some, Arr.read_eq (by rw [tel, Nat.mul_comm k]; exact row_lt hik hj), Option.bind_some]
      dsimp only
      rw [if_pos hik])
  have e5 := perCopyBp_eq (s.lstmWindow * k) N.Rb inputs te3 ⟨k * s.lstmWindow, fun _ => N.zero⟩ hi (by rw [tl, Nat.mul_comm]) (by
    dsimp only; rw [Nat.mul_comm])
  refine ⟨s', ⟨k * s.lstmWindow, fun q => if q < s.lstmWindow * k then N.Rb (inputs.get q) (te3.get q) else N.zero⟩, e, ?_, fun i hik j hj => ?_⟩
  · unfold bpOpt stackErrorsOpt
    rw [hkd, w, e1, Option.bind_some, e2, Option.bind_some, e3', Option.bind_some, e4, Option.bind_some, e5]
  · dsimp only
    rw [if_pos (row_lt hik hj), tg i hik j hj]
    unfold backward
    refine congrArg (N.Rb _) (hN.2 _ _ _ _ _ (fun q hq => ?_) (fun q hq => ?_) j hj)
    · rw [if_pos hq, h1, same_start hk hik, if_pos (row_lt hik hq)]
    · rw [teg i hik q hq, h2 i hik q hq]
      congr 1
      refine hN.1 _ _ _ (fun r hr => ?_) q hq
      rw [h1, same_start hk hik, if_pos (row_lt hik hr)]

/-- **C146 (refuted, more samples than steps).** A full batch of more samples than the window has steps:
the last sample's window lies outside the array of copies, for all networks and inputs. -/
theorem C146_opt_outside_refuted {V : Type} (N : Nets V) (batch : Nat) (inputs : Arr V) (s : St V) (h : s.OkBatch batch)
    (hb : s.lstmWindow < batch) : ffOpt N batch batch inputs s = none := by
  unfold ffOpt
  rw [Nat.min_self]
  cases h1 : perCopy (s.lstmWindow * batch) N.R inputs s.reward with
  | none => rfl
  | some rw' =>
    have hl : rw'.len = s.reward.len := by
      exact perCopy_len h1
    have : gatherOpt N.zero batch s.lstmWindow rw' = none := by
      refine loop_none_at (i := batch - 1) (by have := h.two; omega) fun a => ?_
      have hg : gather N.zero s.lstmWindow ((batch - 1) * batch) rw' = none := by
        refine loop_none_at (i := s.lstmWindow - 1) (by have := h.two; omega) fun b => ?_
        have hout : ¬ (batch - 1) * batch + (s.lstmWindow - 1) < rw'.len := by
          rw [hl, h.reward]
          obtain ⟨d, hd⟩ : ∃ d, batch = s.lstmWindow + 1 + d := ⟨batch - (s.lstmWindow + 1), by omega⟩
          have h2 := h.two
          obtain ⟨w, hw⟩ : ∃ w, s.lstmWindow = w + 2 := ⟨s.lstmWindow - 2, by omega⟩
          rw [hd, hw]
          have e1 : w + 2 + 1 + d - 1 = w + 2 + d := by omega
          have e2 : w + 2 - 1 = w + 1 := by omega
          rw [e1, e2]
          nlinarith
        unfold Arr.read
        rw [if_neg hout]
        rfl
      rw [hg]
      rfl
    rw [Option.bind_some, this]
    rfl

/-- The networks that only pass on what they are given. -/
def passOn : Nets Int := ⟨id, id, fun _ xs j => xs j, fun _ e => e, fun _ e => e, fun _ _ es j => es j, 0⟩

theorem passOn_local : passOn.Local :=
  ⟨fun _ _ _ h j hj => h j hj, fun _ _ _ _ _ _ h j hj => h j hj⟩

/-- **C146 (refuted, fewer samples than steps).** For every number of samples from 2 to one less than
the window: with networks that pass on their input, the first prediction of the second sample is an
input of the first sample. -/
theorem C146_opt_overlap_refuted (batch : Nat) (s : St Int) (h : s.OkBatch batch) (hb : 2 ≤ batch) (hw : batch < s.lstmWindow) :
    ∃ s', ffOpt passOn batch batch ⟨s.lstmWindow * batch, fun q => (q : Int)⟩ s = some s' ∧
      s'.temporal.get (1 * s.lstmWindow + 0) = (batch : Int) ∧
      predict passOn s.lstmWindow (fun j => ((1 * s.lstmWindow + j : Nat) : Int)) 0 = (s.lstmWindow : Int) ∧
      s'.temporal.get (1 * s.lstmWindow + 0) ≠ predict passOn s.lstmWindow (fun j => ((1 * s.lstmWindow + j : Nat) : Int)) 0 := by
  obtain ⟨s', e, -, -, h1, h2, h3⟩ := C146_opt_reads passOn passOn_local batch batch ⟨s.lstmWindow * batch, fun q => (q : Int)⟩ s h
    (by rw [Nat.min_self]) (fun i hi => by
      rw [Nat.min_self] at hi ⊢
      have a1 := Nat.mul_le_mul_left i hw.le
      have a2 := Nat.mul_le_mul_right s.lstmWindow (show i + 1 ≤ batch from hi)
      rw [Nat.succ_mul] at a2
      omega)
  rw [Nat.min_self] at h1 h2 h3
  have hv : s'.temporal.get (1 * s.lstmWindow + 0) = (batch : Int) := by
    rw [h3 1 (by omega) 0 (by omega), h2 1 (by omega) 0 (by omega)]
    show s'.reward.get (1 * batch + 0) = _
    rw [h1, if_pos (by nlinarith)]
    simp [passOn]
  have hp : predict passOn s.lstmWindow (fun j => ((1 * s.lstmWindow + j : Nat) : Int)) 0 = (s.lstmWindow : Int) := by
    simp [predict, passOn]
  refine ⟨s', e, hv, hp, ?_⟩
  rw [hv, hp]
  exact_mod_cast hw.ne

/-- A model with a window of 3 made for 2 threads. -/
def demo : St Int := ⟨3, 3, [3, 3], ⟨6, fun _ => 0⟩, ⟨3, fun _ => 7⟩, ⟨6, fun _ => 0⟩, 0, 0, ⟨2, fun _ => ⟨3, fun _ => 0⟩⟩⟩

theorem demo_ok : demo.OkBatch 2 where
  two := by decide
  cells := by decide
  ne := by decide
  reward := rfl
  temporal := rfl
  up := rfl
  pos := by decide
  rm := rfl
  rms i _ := rfl

example : ∃ s', ffWindow passOn ⟨3, fun q => (q : Int) + 10⟩ demo = some s' ∧ s'.temporal.get 2 = 12 := by
  obtain ⟨s', e, h⟩ := C146_window_partial passOn passOn_local 2 ⟨3, fun q => (q : Int) + 10⟩ demo demo_ok.toOk rfl le_rfl
  exact ⟨s', e, (h 2 (by decide)).trans (by simp [predict, passOn])⟩

example : ∃ s' ret, ffWindow passOn ⟨3, fun _ => 1⟩ demo = some s' ∧ bpWindow passOn ⟨3, fun _ => 1⟩ ⟨3, fun q => (q : Int)⟩ s' = some (ret, 1) := by
  obtain ⟨s', ret, e1, e2, -⟩ := C146_window_bp_partial passOn passOn_local 2 ⟨3, fun _ => 1⟩ ⟨3, fun q => (q : Int)⟩ demo demo_ok.toOk rfl
    le_rfl le_rfl (by decide)
  exact ⟨s', ret, e1, e2⟩

/-- Predictions of steps 1 and 2 after the reset for one step: what was in the stack. -/
example : ∃ s1 s2, resetSingle passOn demo = some s1 ∧ ffWindow passOn ⟨3, fun q => (q : Int) + 10⟩ s1 = some s2 ∧ s2.temporal.get 2 = 7 := by
  obtain ⟨s1, s2, e1, e2, h⟩ := C146_window_refuted passOn 2 demo demo_ok.toOk ⟨3, fun q => (q : Int) + 10⟩ le_rfl
  exact ⟨s1, s2, e1, e2, h 2 (by decide) (by decide)⟩

example : ∃ s', runs passOn [.single id 1, .resetWindow, .resetSingle, .window ⟨3, fun _ => 1⟩] demo = some s' ∧ s'.window = 1 := ⟨_, rfl, rfl⟩

example : ∃ s', ffOpt passOn 1 2 ⟨3, fun q => (q : Int)⟩ demo = some s' := by
  obtain ⟨s', e, -⟩ := C146_opt_partial passOn passOn_local 1 2 ⟨3, fun q => (q : Int)⟩ demo demo_ok le_rfl (Or.inl rfl)
  exact ⟨s', e⟩

example : ∃ s', ffOpt passOn 2 2 ⟨6, fun q => (q : Int)⟩ demo = some s' ∧ s'.temporal.get 3 = 2 := by
  obtain ⟨s', e, h, -⟩ := C146_opt_overlap_refuted 2 demo demo_ok (by decide) (by decide)
  exact ⟨s', e, h⟩

/-- A window of 2 and a batch of 3. -/
example : ffOpt passOn 3 3 ⟨6, fun q => (q : Int)⟩ ⟨2, 2, [2], ⟨6, fun _ => 0⟩, ⟨2, fun _ => 7⟩, ⟨6, fun _ => 0⟩, 0, 0, ⟨3, fun _ => ⟨2, fun _ => 0⟩⟩⟩ = none :=
  C146_opt_outside_refuted passOn 3 _ _ ⟨⟨by decide, by decide, by decide, rfl, rfl, rfl, by decide⟩, rfl, fun _ _ => rfl⟩ (by decide)

end LLab.EzReward
