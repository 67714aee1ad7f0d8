import Verif.Net.Chain
import Verif.Math.Losses
import Mathlib.Tactic.IntervalCases

/-!
Properties C84, C85 and C86: the gradient of a whole model of fully connected layers, the
training step for one sample, and dropout at test time. The model is in `Verif.Net.Chain`.
-/

namespace LLab.Chain

open Finset

/-- `output_layer` (`/repo/src/model.c` 275-285): the array of the last layer, `dropout_temp` with
dropout. -/
def outputLayer (x : Arr ℝ) : List Fcl → Arr ℝ
  | [] => x
  | [f] => f.used
  | _ :: f :: fs => outputLayer x (f :: fs)

theorem lastUsed_eq (x : Arr ℝ) : ∀ (gs : List Fcl), lastUsed x gs = outputLayer x gs
  | [] => rfl
  | [_] => rfl
  | f :: g :: gs => by
    have ih := lastUsed_eq f.used (g :: gs)
    have hi : ∀ (x y : Arr ℝ) (gs : List Fcl), gs ≠ [] → outputLayer x gs = outputLayer y gs := by
      intro x y gs hne
      induction gs with
      | nil => exact absurd rfl hne
      | cons a as ih' =>
        cases as with
        | nil => rfl
        | cons b bs => exact ih' (by simp)
    exact ih.trans (hi _ _ _ (by simp))

/-! ### C84 -/

/-- What a backward pass must leave behind for the objective `J` of the network `us` at the
input `x`: `err` is the derivative of `J` in every input, and the accumulators of every layer
have grown, from `fs` to `hs`, by the derivative of `J` in every weight and in every bias
(nothing for the biases of a layer in mode `FREEZE_BIASES`). -/
def IsGradient (us : List Unit) (n : Nat) (x : Nat → ℝ) (J : List Unit → (Nat → ℝ) → ℝ) (fs hs : List Fcl) (err : Arr ℝ) : Prop :=
  hs.length = fs.length ∧
  (∀ i, i < n → HasDerivAt (fun v => J us (Function.update x i v)) (err.get i) (x i)) ∧
  ∀ l f h u, fs[l]? = some f → hs[l]? = some h → us[l]? = some u →
    (∀ q, q < f.output * f.input →
      HasDerivAt (fun v => J (us.set l { u with w := Function.update u.w q v }) x)
        (h.dWeights.get q - f.dWeights.get q) (f.weights.get q)) ∧
    (f.mode ≠ .freezeBiases → ∀ q, q < f.output →
      HasDerivAt (fun v => J (us.set l { u with b := Function.update u.b q v }) x)
        (h.dBiases.get q - f.dBiases.get q) (f.biases.get q)) ∧
    (f.mode = .freezeBiases → ∀ q, h.dBiases.get q = f.dBiases.get q)

/-- **C84.** A model of fully connected layers with any activations, with or without dropout,
in the state `reset_model` leaves: the forward pass is defined and its last array holds the
network function; then for every separable loss whose derivative at the outputs is the error
passed in, the backward pass is defined, adds to every weight's and every bias's accumulator
exactly the derivative of the loss in that weight or bias, and returns the derivative in
every input. -/
theorem C84_model_gradient (draws : Nat → Nat → Bool) (n : Nat) (x : Arr ℝ) (fs : List Fcl)
    (hr : ∀ f, f ∈ fs → f.Ready ∧ f.drop ≠ .test) (hf : Fits n fs) (hx : n ≤ x.len)
    (hk : NoKink (units draws 0 fs) x.get) :
    ∃ gs, ffModel draws n x fs = some gs ∧ outDim n (units draws 0 fs) ≤ (lastUsed x gs).len ∧
      lastUsed x gs = outputLayer x gs ∧
      (∀ k, k < outDim n (units draws 0 fs) → (lastUsed x gs).get k = net (units draws 0 fs) x.get k) ∧
      ∀ (e : Arr ℝ) (ℓ : Nat → ℝ → ℝ), outDim n (units draws 0 fs) ≤ e.len →
        (∀ o, o < outDim n (units draws 0 fs) → HasDerivAt (ℓ o) (e.get o) (net (units draws 0 fs) x.get o)) →
        ∃ hs err, bpModel e x gs = some (hs, err) ∧
          IsGradient (units draws 0 fs) n x.get (fun us x => ∑ o ∈ range (outDim n (units draws 0 fs)), ℓ o (net us x o)) fs hs err := by
  have main : ∃ gs, ffModel draws n x fs = some gs ∧ Ran draws x 0 fs gs := by
    cases fs with
    | nil => exact ⟨[], rfl, rfl⟩
    | cons f fs =>
      obtain ⟨h1, h2, h3⟩ := hf
      obtain ⟨hr1, hr2⟩ := hr f (List.mem_cons_self ..)
      have hx' : f.input ≤ x.len := by omega
      obtain ⟨pre, post, mask, dt, ef, -⟩ := ffLayer_run x (draws 0) f hr1 hr2 hx'
      obtain ⟨ho, hd, hl', -, -⟩ := layer_run x x.get (draws 0) f _ hr1 hr2 hx' (fun _ _ => rfl) ef
      obtain ⟨gs, e1, e2⟩ := ffFrom_ran draws fs { f with pre := pre, post := post, mask := mask, dropTemp := dt } 1 hr2 hl'
        (fun g hg => hr g (List.mem_cons_of_mem _ hg)) h3
      refine ⟨_, ?_, _, gs, rfl, ef, e2⟩
      simp only [ffModel]
      rw [if_neg (by rintro ⟨h, h'⟩; exact h' (h2 h)), if_neg (by omega), ef, Option.bind_some, e1, Option.bind_some]
  obtain ⟨gs, egs, hran⟩ := main
  obtain ⟨r1, r2, r3⟩ := model_run draws fs gs 0 n x x.get hran hr hf hx (fun _ _ => rfl) hk
  refine ⟨gs, egs, r1, lastUsed_eq x gs, r2, fun e ℓ he hl => ?_⟩
  obtain ⟨hs, err, eb, len, -, hpull, hgr⟩ := r3 e he
  refine ⟨hs, err, eb, len, fun i hi => ?_, fun l f h u h1 h2 h3 => ?_⟩
  · have hp : Par n (fun v => Function.update x.get i v) (x.get i) err.get (err.get i) := by
      refine ⟨fun k => if k = i then 1 else 0, fun k _ => ?_, ?_⟩
      · by_cases hki : k = i
        · subst hki
          simp only [Function.update_self, if_true]
          exact hasDerivAt_id' (x.get k)
        · simpa [Function.update_of_ne hki, hki] using hasDerivAt_const (x.get i) (x.get k)
      · rw [Finset.sum_eq_single i]
        · simp
        · intro b _ hne
          simp [hne]
        · intro h
          exact absurd (Finset.mem_range.2 hi) h
    refine (hpull.par (by rw [Function.update_eq_self]) hp).loss ℓ fun o ho => ?_
    rw [Function.update_eq_self]
    exact hl o ho
  · obtain ⟨g1, g2, g3⟩ := hgr l f h u h1 h2 h3
    have hset : ∀ v : Unit, v = u → (units draws 0 fs).set l v = units draws 0 fs := by
      intro v hv
      rw [hv]
      obtain ⟨hlt, hget⟩ := List.getElem?_eq_some_iff.1 h3
      rw [← hget]
      exact List.set_getElem_self hlt
    have hu : u.w = f.weights.get ∧ u.b = f.biases.get := by
      have : ∀ (fs : List Fcl) (i l : Nat), fs[l]? = some f → (units draws i fs)[l]? = some u → ∃ d, u = f.unit d := by
        intro fs
        induction fs with
        | nil => intro i l h; simp at h
        | cons a as ih =>
          intro i l h h'
          cases l with
          | zero =>
            obtain rfl : a = f := by simpa using h
            obtain rfl : a.unit (draws i) = u := by simpa [units] using h'
            exact ⟨_, rfl⟩
          | succ l => exact ih (i + 1) l h h'
      obtain ⟨d, rfl⟩ := this fs 0 l h1 h3
      exact ⟨rfl, rfl⟩
    refine ⟨fun q hq => ?_, fun hm q hq => ?_, g3⟩
    · rw [← hu.1]
      refine (g1 q hq).loss ℓ fun o ho => ?_
      rw [hset _ (by rw [Function.update_eq_self])]
      exact hl o ho
    · rw [← hu.2]
      refine (g2 hm q hq).loss ℓ fun o ho => ?_
      rw [hset _ (by rw [Function.update_eq_self])]
      exact hl o ho

/-! ### C85 -/

/-- `error_flag` (`/repo/src/llab.h`), the losses of `compute_model_error` computed element by
element. -/
inductive LossFlag where
  | mse | crossEntropy | focal | huber1 | huber2 | kl | entropy
deriving DecidableEq

/-- The element of the error written by `compute_model_error` (`/repo/src/model.c` 9462-9483)
for the prediction `p` and the target `y`; `t1`, `t2`, `g` are `error_threshold1`,
`error_threshold2` and `error_gamma`. -/
noncomputable def lossBack (L : LossFlag) (t1 t2 g p y : ℝ) : ℝ :=
  match L with
  | .mse => Loss.dMse p y
  | .crossEntropy => Loss.dCrossEntropy p y
  | .focal => Loss.dFocal p y g
  | .huber1 => Loss.dHuber p y t1
  | .huber2 => Loss.dModHuber p y t1 t2
  | .kl => Loss.dKl p y
  | .entropy => Loss.dEntropy p

/-- The loss of `compute_model_error_only_for_ff` (`/repo/src/model.c` 9485-9500). -/
noncomputable def lossFn (L : LossFlag) (t1 t2 g p y : ℝ) : ℝ :=
  match L with
  | .mse => Loss.mse p y
  | .crossEntropy => Loss.crossEntropy p y
  | .focal => Loss.focal p y g
  | .huber1 => Loss.huber p y t1
  | .huber2 => Loss.modHuber p y t1 t2
  | .kl => Loss.kl p y
  | .entropy => Loss.entropy p

/-- The class weights on the error (`/repo/src/model.c` 9462-9483): `alpha` is `error_alpha` when
it is set. -/
noncomputable def weigh (alpha : Option (Arr ℝ)) (m : Nat) (y e : Arr ℝ) : Option (Arr ℝ) :=
  match alpha with
  | none => some e
  | some a => loop m (fun i (e : Arr ℝ) => do
      let t ← y.read i
      if t ≠ 0 then do
        let v ← e.read i
        let w ← a.read i
        e.write i (v * w)
      else some e) e

/-- `ff_error_bp_model_once` (`/repo/src/model.c` 9523-9536) for a model of fully connected
layers; `alpha` is `error_alpha` when it is set. -/
noncomputable def ffErrorBp (draws : Nat → Nat → Bool) (L : LossFlag) (t1 t2 g : ℝ) (alpha : Option (Arr ℝ))
    (n m : Nat) (x y error : Arr ℝ) (fs : List Fcl) : Option (List Fcl × Arr ℝ) :=
  (ffModel draws n x fs).bind fun gs =>
    (Vec.zip1D (lossBack L t1 t2 g) (outputLayer x gs) y error m).bind fun e =>
      (weigh alpha m y e).bind fun e => bpModel e x gs

/-- The points where the losses are differentiable. -/
def Smooth (L : LossFlag) (p y : ℝ) : Prop :=
  match L with
  | .mse => True
  | .crossEntropy | .focal => 0 < p ∧ p < 1
  | .huber1 => False
  | .huber2 => y * p ≠ -1
  | .kl => 0 < p ∧ 0 < y
  | .entropy => 0 < p

theorem loss_deriv (L : LossFlag) (t1 t2 g p y : ℝ) (h : Smooth L p y) :
    HasDerivAt (fun p => lossFn L t1 t2 g p y) (lossBack L t1 t2 g p y) p := by
  cases L with
  | mse => exact Loss.C21_mse p y
  | crossEntropy => exact Loss.C21_cross_entropy p y h.1 h.2
  | focal => exact Loss.C21_focal p y g h.1 h.2
  | huber1 => exact h.elim
  | huber2 => exact (Loss.C21_modified_huber p y t1 t2).1 h
  | kl => exact Loss.C21_kl p y h.1 h.2
  | entropy => exact Loss.C21_entropy p h

/-- The class weight of output `o`: `alpha` where the target is not zero. -/
noncomputable def classWeight (alpha : Option (Arr ℝ)) (y : Nat → ℝ) (o : Nat) : ℝ :=
  match alpha with
  | none => 1
  | some a => if y o ≠ 0 then a.get o else 1

theorem weigh_run (alpha : Option (Arr ℝ)) (m : Nat) (y e : Arr ℝ) (hy : m ≤ y.len) (he : m ≤ e.len)
    (ha : ∀ a, alpha = some a → m ≤ a.len) :
    ∃ e', weigh alpha m y e = some e' ∧ m ≤ e'.len ∧ ∀ o, o < m → e'.get o = classWeight alpha y.get o * e.get o := by
  cases alpha with
  | none => exact ⟨e, rfl, he, fun o _ => by simp [classWeight]⟩
  | some a =>
    have hl := ha a rfl
    refine ⟨⟨e.len, fun k => if k < m then (if y.get k ≠ 0 then e.get k * a.get k else e.get k) else e.get k⟩, ?_, he, fun o ho => ?_⟩
    · unfold weigh
      apply loop_fill (v := fun k => if y.get k ≠ 0 then e.get k * a.get k else e.get k)
      intro i hi c hc hk
      have h1 : i < c.len := by omega
      rw [Arr.read_eq (show i < y.len by omega)]
      by_cases hz : y.get i = 0
      · simp only [hz, ne_eq, not_true_eq_false, if_false, Option.bind_eq_bind, Option.bind_some]
        rw [← hk i (le_refl _), Function.update_eq_self]
      · simp [hz, Arr.read_eq h1, Arr.read_eq (show i < a.len by omega), Arr.write_eq _ h1, hk i (le_refl _)]
    · simp only [ho, if_true, classWeight]
      split_ifs <;> ring

theorem step_run (draws : Nat → Nat → Bool) (L : LossFlag) (t1 t2 g : ℝ) (alpha : Option (Arr ℝ)) (n m : Nat) (x y error : Arr ℝ)
    (fs : List Fcl) (hr : ∀ f, f ∈ fs → f.Ready ∧ f.drop ≠ .test) (hf : Fits n fs) (hx : n ≤ x.len)
    (hk : NoKink (units draws 0 fs) x.get)
    (hm : outDim n (units draws 0 fs) = m) (hy : m ≤ y.len) (he : m ≤ error.len) (ha : ∀ a, alpha = some a → m ≤ a.len)
    (ℓ : Nat → ℝ → ℝ) (hℓ : ∀ o, o < m → HasDerivAt (ℓ o)
      (classWeight alpha y.get o * lossBack L t1 t2 g (net (units draws 0 fs) x.get o) (y.get o)) (net (units draws 0 fs) x.get o)) :
    ∃ hs err, ffErrorBp draws L t1 t2 g alpha n m x y error fs = some (hs, err) ∧
      IsGradient (units draws 0 fs) n x.get (fun us x => ∑ o ∈ range m, ℓ o (net us x o)) fs hs err := by
  obtain ⟨gs, e1, h1, h2, h3, h4⟩ := C84_model_gradient draws n x fs hr hf hx hk
  rw [hm] at h1 h3 h4
  rw [h2] at h1 h3
  unfold ffErrorBp
  rw [e1, Option.bind_some, Vec.zip1D_eq _ _ _ _ _ h1 hy he, Option.bind_some]
  obtain ⟨e', e2, h5, h6⟩ := weigh_run alpha m y ⟨error.len, fun k => if k < m then
    lossBack L t1 t2 g ((outputLayer x gs).get k) (y.get k) else error.get k⟩ hy he ha
  rw [e2, Option.bind_some]
  refine h4 e' ℓ h5 fun o ho => ?_
  rw [h6 o ho]
  dsimp only
  rw [if_pos ho, h3 o ho]
  exact hℓ o ho

/-- **C85.** One training step on one sample, `ff_error_bp_model_once`, for a model of fully
connected layers: with the mean squared error, cross entropy,
focal, modified Huber, Kullback-Leibler and entropy losses, with or without class weights,
the accumulators grow by the gradient of the weighted loss of the network's output against
the target. -/
theorem C85_step (draws : Nat → Nat → Bool) (L : LossFlag) (t1 t2 g : ℝ) (alpha : Option (Arr ℝ)) (n m : Nat) (x y error : Arr ℝ)
    (fs : List Fcl) (hr : ∀ f, f ∈ fs → f.Ready ∧ f.drop ≠ .test) (hf : Fits n fs) (hx : n ≤ x.len)
    (hk : NoKink (units draws 0 fs) x.get)
    (hm : outDim n (units draws 0 fs) = m) (hy : m ≤ y.len) (he : m ≤ error.len) (ha : ∀ a, alpha = some a → m ≤ a.len)
    (hs : ∀ o, o < m → Smooth L (net (units draws 0 fs) x.get o) (y.get o)) :
    ∃ hs err, ffErrorBp draws L t1 t2 g alpha n m x y error fs = some (hs, err) ∧
      IsGradient (units draws 0 fs) n x.get
        (fun us x => ∑ o ∈ range m, classWeight alpha y.get o * lossFn L t1 t2 g (net us x o) (y.get o)) fs hs err :=
  step_run draws L t1 t2 g alpha n m x y error fs hr hf hx hk hm hy he ha
    (fun o p => classWeight alpha y.get o * lossFn L t1 t2 g p (y.get o))
    fun o ho => (loss_deriv L t1 t2 g _ _ (hs o ho)).const_mul _

/-- **C85, Huber loss (partial).** With `HUBER1_LOSS` the accumulators grow by the gradient of
*minus* the loss. -/
theorem C85_huber_partial (draws : Nat → Nat → Bool) (t1 t2 g : ℝ) (alpha : Option (Arr ℝ)) (n m : Nat) (x y error : Arr ℝ)
    (fs : List Fcl) (hr : ∀ f, f ∈ fs → f.Ready ∧ f.drop ≠ .test) (hf : Fits n fs) (hx : n ≤ x.len)
    (hk : NoKink (units draws 0 fs) x.get)
    (hm : outDim n (units draws 0 fs) = m) (hy : m ≤ y.len) (he : m ≤ error.len) (ha : ∀ a, alpha = some a → m ≤ a.len)
    (ht : 0 < t1) :
    ∃ hs err, ffErrorBp draws .huber1 t1 t2 g alpha n m x y error fs = some (hs, err) ∧
      IsGradient (units draws 0 fs) n x.get
        (fun us x => ∑ o ∈ range m, -(classWeight alpha y.get o * lossFn .huber1 t1 t2 g (net us x o) (y.get o))) fs hs err :=
  step_run draws .huber1 t1 t2 g alpha n m x y error fs hr hf hx hk hm hy he ha
    (fun o p => -(classWeight alpha y.get o * lossFn .huber1 t1 t2 g p (y.get o)))
    fun o _ => by
      have := ((Loss.C21_huber_partial (net (units draws 0 fs) x.get o) (y.get o) t1 ht).const_mul (classWeight alpha y.get o)).neg
      exact this.congr_deriv (by simp [lossBack])

/-! ### A concrete model -/

/-- Two inputs, a leaky layer of two units with dropout, then one sigmoid unit. -/
noncomputable def demoHidden : Fcl where
  input := 2
  output := 2
  act := .leaky
  drop := .train
  threshold := 1 / 4
  mode := .descent
  weights := Arr.ofList [1, 2, 3, -1]
  biases := Arr.ofList [1, -9]
  active := Arr.ofList [1, 1]
  pre := Arr.ofList [0, 0]
  post := Arr.ofList [0, 0]
  mask := Arr.ofList [1, 1]
  dropTemp := Arr.ofList [1, 1]
  temp := Arr.ofList [0, 0]
  temp3 := Arr.ofList [0, 0]
  error2 := Arr.ofList [0, 0]
  dWeights := Arr.ofList [7, 0, 0, 0]
  dBiases := Arr.ofList [0, 0]

/-- The second layer. -/
noncomputable def demoOut : Fcl where
  input := 2
  output := 1
  act := .sigmoid
  drop := .off
  threshold := 0
  mode := .freezeBiases
  weights := Arr.ofList [1, 2]
  biases := Arr.ofList [1]
  active := Arr.ofList [1]
  pre := Arr.ofList [0]
  post := Arr.ofList [0]
  mask := Arr.ofList [1]
  dropTemp := Arr.ofList [1]
  temp := Arr.ofList [0]
  temp3 := Arr.ofList [0]
  error2 := Arr.ofList [0, 0]
  dWeights := Arr.ofList [0, 0]
  dBiases := Arr.ofList [0]

theorem demoHidden_ready : demoHidden.Ready := by
  constructor <;> simp only [demoHidden, Arr.ofList] <;> first
    | (simp; done)
    | (intro k hk; interval_cases k <;> simp)

theorem demoOut_ready : demoOut.Ready := by
  constructor <;> simp only [demoOut, Arr.ofList] <;> first
    | (simp; done)
    | (intro k hk; interval_cases k <;> simp)

theorem demo_hyps : (∀ f, f ∈ [demoHidden, demoOut] → f.Ready ∧ f.drop ≠ .test) ∧ Fits 2 [demoHidden, demoOut] ∧
    NoKink (units (fun _ k => k == 1) 0 [demoHidden, demoOut]) (Arr.ofList [(1 : ℝ), 2]).get ∧
    outDim 2 (units (fun _ k => k == 1) 0 [demoHidden, demoOut]) = 1 := by
  refine ⟨?_, ?_, ?_, ?_⟩
  · intro f hf
    simp only [List.mem_cons, List.not_mem_nil, or_false] at hf
    rcases hf with rfl | rfl
    · exact ⟨demoHidden_ready, by decide⟩
    · exact ⟨demoOut_ready, by decide⟩
  · exact ⟨rfl, (fun h => by cases h), rfl, (fun _ => rfl), trivial⟩
  · refine ⟨fun _ k hk => ?_, fun h => ?_, trivial⟩
    · have hk : k < 2 := hk
      interval_cases k <;> norm_num [Unit.z, Fcl.unit, demoHidden, Arr.ofList, Finset.sum_range_succ]
    · rcases h with h | h | h <;> cases h
  · rfl

example : ∃ hs err, ffErrorBp (fun _ k => k == 1) .mse 0 0 0 none 2 1 (Arr.ofList [1, 2]) (Arr.ofList [1]) (Arr.ofList [0])
    [demoHidden, demoOut] = some (hs, err) ∧ IsGradient (units (fun _ k => k == 1) 0 [demoHidden, demoOut]) 2 (Arr.ofList [(1 : ℝ), 2]).get
      (fun us x => ∑ o ∈ range 1, classWeight none (Arr.ofList [(1 : ℝ)]).get o *
        lossFn .mse 0 0 0 (net us x o) ((Arr.ofList [(1 : ℝ)]).get o)) [demoHidden, demoOut] hs err :=
  C85_step _ .mse 0 0 0 none 2 1 _ _ _ _ demo_hyps.1 demo_hyps.2.1 (by simp [Arr.ofList]) demo_hyps.2.2.1 demo_hyps.2.2.2
    (by simp [Arr.ofList]) (by simp [Arr.ofList]) (fun a h => by cases h) (fun _ _ => trivial)

/-- One input, one unit without activation. -/
noncomputable def demoOne : Fcl where
  input := 1
  output := 1
  act := .none
  drop := .off
  threshold := 0
  mode := .descent
  weights := Arr.ofList [1]
  biases := Arr.ofList [0]
  active := Arr.ofList [1]
  pre := Arr.ofList [0]
  post := Arr.ofList [0]
  mask := Arr.ofList [1]
  dropTemp := Arr.ofList [1]
  temp := Arr.ofList [0]
  temp3 := Arr.ofList [0]
  error2 := Arr.ofList [0]
  dWeights := Arr.ofList [0]
  dBiases := Arr.ofList [0]

theorem demoOne_ready : demoOne.Ready := by
  constructor <;> simp [demoOne, Arr.ofList]

/-- **C85 is refuted for the Huber loss.** One linear unit with weight 1 on the input 1 and
target 0: the step runs, and what it accumulates is not the gradient of the Huber loss. -/
theorem C85_huber_refuted : ∃ hs err,
    ffErrorBp (fun _ _ => false) .huber1 2 0 0 none 1 1 (Arr.ofList [1]) (Arr.ofList [0]) (Arr.ofList [0]) [demoOne] = some (hs, err) ∧
    ¬ IsGradient (units (fun _ _ => false) 0 [demoOne]) 1 (Arr.ofList [(1 : ℝ)]).get
      (fun us x => ∑ o ∈ range 1, classWeight none (Arr.ofList [(0 : ℝ)]).get o *
        lossFn .huber1 2 0 0 (net us x o) ((Arr.ofList [(0 : ℝ)]).get o)) [demoOne] hs err := by
  obtain ⟨hs, err, e1, -, h2, -⟩ := C85_huber_partial (fun _ _ => false) 2 0 0 none 1 1 (Arr.ofList [1]) (Arr.ofList [0]) (Arr.ofList [0])
    [demoOne] (by
      intro f hf
      obtain rfl : f = demoOne := by simpa using hf
      exact ⟨demoOne_ready, by simp [demoOne]⟩) ⟨rfl, fun _ => rfl, trivial⟩ (by simp [Arr.ofList])
    ⟨(fun h => by rcases h with h | h | h <;> cases h), trivial⟩
    rfl (by simp [Arr.ofList]) (by simp [Arr.ofList]) (fun a h => by cases h) (by norm_num)
  refine ⟨hs, err, e1, ?_⟩
  rintro ⟨-, h3, -⟩
  have ha := h2 0 (by norm_num)
  have hb := h3 0 (by norm_num)
  have hJ : (fun v => ∑ o ∈ range 1, classWeight none (Arr.ofList [(0 : ℝ)]).get o * lossFn .huber1 2 0 0
      (net (units (fun _ _ => false) 0 [demoOne]) (Function.update (Arr.ofList [(1 : ℝ)]).get 0 v) o) ((Arr.ofList [(0 : ℝ)]).get o)) =
      fun v => Loss.huber v 0 2 := by
    funext v
    simp [classWeight, lossFn, units, net, Unit.fn, Unit.z, Fcl.unit, demoOne, actFn, Arr.ofList]
  have hN : (fun v => ∑ o ∈ range 1, -(classWeight none (Arr.ofList [(0 : ℝ)]).get o * lossFn .huber1 2 0 0
      (net (units (fun _ _ => false) 0 [demoOne]) (Function.update (Arr.ofList [(1 : ℝ)]).get 0 v) o) ((Arr.ofList [(0 : ℝ)]).get o))) =
      fun v => -Loss.huber v 0 2 := by
    funext v
    simp [classWeight, lossFn, units, net, Unit.fn, Unit.z, Fcl.unit, demoOne, actFn, Arr.ofList]
  simp only [] at ha hb
  rw [hN] at ha
  rw [hJ] at hb
  have h1 : (Arr.ofList [(1 : ℝ)]).get 0 = 1 := by simp [Arr.ofList]
  rw [h1] at ha hb
  have hin := Loss.huber_inner 1 0 2 (by norm_num)
  have u1 := hb.unique hin
  have u2 := ha.unique hin.neg
  rw [u1] at u2
  norm_num at u2

/-! ### C86 -/

theorem loop_none {σ : Type} {f : Nat → σ → Option σ} {i : Nat} : ∀ {n : Nat} {s : σ}, i < n → (∀ s, f i s = none) → loop n f s = none
  | 0, _, h, _ => absurd h (by omega)
  | n + 1, s, h, hf => by
    simp only [loop, Option.bind_eq_bind]
    by_cases hi : i < n
    · rw [loop_none hi hf]; rfl
    · obtain rfl : i = n := by omega
      cases loop i f s with
      | none => rfl
      | some t => exact hf t

/-- **C86, training.** In training a unit that is drawn hands over zero and one that is not
hands over its result (for a cleared mask of ones). -/
theorem C86_train (x : Arr ℝ) (draw : Nat → Bool) (f f2 : Fcl) (hr : f.Ready) (hd : f.drop = .train) (hx : f.input ≤ x.len)
    (hm : ∀ k, k < f.output → f.mask.get k = 1) :
    ∃ f' a, ffLayer x draw f = some f' ∧ handOver f' f2 = some a ∧
      ∀ k, k < f.output → f'.result.get k = actFn f.act f.output ((f.unit draw).z x.get) k ∧
        a.get k = if draw k then 0 else f'.result.get k := by
  obtain ⟨pre, post, mask, dt, ef, lpre, lpost, lmask, ldt, vpre, vpost, vmask, vused⟩ := ffLayer_run x draw f hr (by rw [hd]; decide) hx
  refine ⟨_, dt, ef, ?_, fun k hk => ?_⟩
  · simp [handOver, hd]
  · have hres : (if f.act = .none then pre else post).get k = actFn f.act f.output ((f.unit draw).z x.get) k := by
      by_cases h : f.act = .none
      · rw [if_pos h, vpre k hk, h]; rfl
      · rw [if_neg h, vpost h k hk]
    have hu := vused k hk
    rw [if_neg (by rw [hd]; decide)] at hu
    refine ⟨hres, ?_⟩
    refine hu.trans ?_
    simp only [Unit.fn]
    rw [show (Fcl.result { f with pre := pre, post := post, mask := mask, dropTemp := dt }).get k =
      actFn f.act f.output ((f.unit draw).z x.get) k from hres]
    simp only [Fcl.unit, hd, if_true, hm k hk]
    split_ifs <;> simp

/-- **C86, test time (partial).** A layer with an activation hands over its result times the
dropout threshold, that is, times the probability that a unit is *dropped*. -/
theorem C86_test_partial (f1 f2 : Fcl) (hd : f1.drop = .test) (ha : f1.act ≠ .none) (h1 : f2.input ≤ f1.post.len)
    (h2 : f2.input ≤ f1.dropTemp.len) :
    ∃ a, handOver f1 f2 = some a ∧ ∀ k, k < f2.input → a.get k = f1.threshold * f1.result.get k := by
  unfold handOver
  rw [hd]
  dsimp only
  rw [if_neg ha, Vec.C64_map _ _ _ _ h1 h2]
  refine ⟨_, rfl, fun k hk => ?_⟩
  simp [hk, Fcl.result, ha, mul_comm]

/-- **C86 is refuted.** Users rely on the test-time value being the mean of the training
values. A training unit hands over zero with probability `threshold` and its result otherwise,
so the mean is `(1 - threshold) * result`; the test-time value is that only when the result is
zero or the threshold is one half. -/
theorem C86_mean_refuted (f1 f2 : Fcl) (hd : f1.drop = .test) (ha : f1.act ≠ .none) (h1 : f2.input ≤ f1.post.len)
    (h2 : f2.input ≤ f1.dropTemp.len) (a : Arr ℝ) (h : handOver f1 f2 = some a) (k : Nat) (hk : k < f2.input) :
    a.get k = f1.threshold * 0 + (1 - f1.threshold) * f1.result.get k ↔ f1.result.get k = 0 ∨ f1.threshold = 1 / 2 := by
  obtain ⟨b, e, v⟩ := C86_test_partial f1 f2 hd ha h1 h2
  rw [h] at e
  cases e
  rw [v k hk]
  constructor
  · intro h
    by_cases h0 : f1.result.get k = 0
    · exact Or.inl h0
    · refine Or.inr ?_
      have : (2 * f1.threshold - 1) * f1.result.get k = 0 := by linarith
      rcases mul_eq_zero.1 this with h | h
      · linarith
      · exact absurd h h0
  · rintro (h | h)
    · rw [h]; ring
    · rw [h]; ring

/-- **C86 is refuted without activation.** The next layer then receives its own cleared
`pre_activation`: whatever the layer computed, it hands over zeros. -/
theorem C86_no_activation_refuted (f1 f2 : Fcl) (hd : f1.drop = .test) (ha : f1.act = .none) (h1 : f2.input ≤ f2.pre.len)
    (h2 : f2.input ≤ f1.dropTemp.len) (h0 : ∀ k, k < f2.input → f2.pre.get k = 0) :
    ∃ a, handOver f1 f2 = some a ∧ ∀ k, k < f2.input → a.get k = 0 := by
  unfold handOver
  rw [hd]
  dsimp only
  rw [if_pos ha, Vec.C64_map _ _ _ _ h1 h2]
  refine ⟨_, rfl, fun k hk => ?_⟩
  simp [hk, h0 k hk]

/-- **C86 is refuted without activation.** When the next layer has fewer outputs than inputs
the code reads past the end of the next layer's `pre_activation`. -/
theorem C86_out_of_bounds_refuted (f1 f2 : Fcl) (hd : f1.drop = .test) (ha : f1.act = .none) (h : f2.pre.len < f2.input) :
    handOver f1 f2 = none := by
  unfold handOver
  rw [hd]
  dsimp only
  rw [if_pos ha]
  exact loop_none (i := f2.pre.len) h fun o => by rw [Arr.read, if_neg (lt_irrefl _)]; rfl

example : (demoHidden.drop = .train ∧ ∀ k, k < demoHidden.output → demoHidden.mask.get k = 1) ∧
    ({ demoHidden with drop := .test } : Fcl).drop = .test ∧ demoHidden.act ≠ .none ∧ demoOut.input ≤ demoHidden.post.len ∧
    demoOut.input ≤ demoHidden.dropTemp.len ∧ demoHidden.threshold ≠ 1 / 2 ∧
    demoOut.pre.len < demoOut.input := by
  refine ⟨⟨rfl, ?_⟩, rfl, by decide, ?_, ?_, ?_, ?_⟩
  · intro k hk
    have hk : k < 2 := hk
    interval_cases k <;> simp [demoHidden, Arr.ofList]
  all_goals norm_num [demoHidden, demoOut, Arr.ofList]

end LLab.Chain
