import Verif.Net.ConvLayer
import Verif.Net.ChainProps

/-!
Property C135: the gradient of a whole network of convolutional and fully connected layers in any
order. The layers are modelled in `Verif.Net.Chain` and `Verif.Net.ConvLayer`.
-/

namespace LLab.CNet

open Finset LLab.Chain

/-! ### Model -/

/-- An entry of `sla` with its layer: `FCLS` or `CLS` (residual blocks are not modelled). -/
inductive Layer where
  | fc (f : Fcl)
  | cl (c : Cl)

namespace Layer

/-- The numbers a layer reads. -/
def input : Layer → Nat
  | fc f => f.input
  | cl c => c.sh.nIn

/-- The numbers a layer gives. -/
def output : Layer → Nat
  | fc f => f.output
  | cl c => c.sh.nOut

/-- The array the next layer reads. -/
def used : Layer → Arr ℝ
  | fc f => f.used
  | cl c => c.used

/-- `activation_flag == SOFTMAX`. -/
def soft : Layer → Prop
  | fc f => f.act = .softmax
  | cl c => c.sh.act = .softmax

instance (l : Layer) : Decidable l.soft := by
  cases l <;> unfold soft <;> infer_instance

/-- One layer forward: `ff_fcl_fcl`, `ff_cl_fcl`, `ff_fcl_cl`, `ff_cl_cl` once the array `x` of the
previous layer is chosen. `DROPOUT_TEST` is not modelled here (C86). -/
noncomputable def ff (x : Arr ℝ) (draw : Nat → Bool) : Layer → Option Layer
  | fc f => if f.drop = .test then none else (ffLayer x draw f).map fc
  | cl c => (ffCl x c).map cl

/-- One layer backward: `bp_fcl_fcl`, `bp_cl_fcl`, `bp_fcl_cl`, `bp_cl_cl`. -/
noncomputable def bp (x e : Arr ℝ) : Layer → Option (Layer × Arr ℝ)
  | fc f => (bpLayer x e f).map fun h => (fc h, h.error2)
  | cl c => (bpCl x e c).map fun r => (cl r.1, r.2)

end Layer

/-- `model_tensor_input_ff` (`/repo/src/model.c` 7154-7461), one layer in each row of `sla`: a
soft-max before the last layer and a size mismatch (1732, 2740, 3100) end the program. The first
layer reads the input through a made-up convolutional layer whose result is `x`. -/
noncomputable def ffNet (draws : Nat → Nat → Bool) : Nat → Arr ℝ → Nat → List Layer → Option (List Layer)
  | _, _, _, [] => some []
  | dim, x, i, l :: ls =>
    if l.soft ∧ ls ≠ [] then none
    else if dim ≠ l.input then none
    else (l.ff x (draws i)).bind fun l' => (ffNet draws l'.output l'.used (i + 1) ls).bind fun ls' => some (l' :: ls')

/-- `model_tensor_input_bp` (`/repo/src/model.c` 8079-8392): the layers from the last to the first;
gives the layers and the error of the input. -/
noncomputable def bpNet (e : Arr ℝ) : Arr ℝ → List Layer → Option (List Layer × Arr ℝ)
  | _, [] => some ([], e)
  | x, l :: ls => (bpNet e l.used ls).bind fun r => (l.bp x r.2).bind fun s => some (s.1 :: r.1, s.2)

/-- `output_layer` (`/repo/src/model.c` 271-315), the array of the last layer; a last layer that
only hands its input on ends the program when the model is made (290). -/
def outArray (x : Arr ℝ) : List Layer → Arr ℝ
  | [] => x
  | l :: ls => outArray l.used ls

/-! ### Specification -/

/-- A layer as a function. -/
inductive Spec where
  | fc (u : Chain.Unit)
  | cl (u : CUnit)

namespace Spec

/-- The layer. -/
noncomputable def fn : Spec → (Nat → ℝ) → Nat → ℝ
  | fc u => u.fn
  | cl u => u.fn

/-- The numbers a layer gives. -/
def output : Spec → Nat
  | fc u => u.output
  | cl u => u.sh.nOut

/-- The layer is differentiable at `x`: no rectifier at zero, no tie in a max pooling. -/
def Smooth : Spec → (Nat → ℝ) → Prop
  | fc u, x => u.act = .relu ∨ u.act = .leaky ∨ u.act = .elu → ∀ k, k < u.output → u.z x k ≠ 0
  | cl u, x => u.Smooth x

end Spec

/-- The whole network. -/
noncomputable def cnet : List Spec → (Nat → ℝ) → Nat → ℝ
  | [], x => x
  | u :: us, x => cnet us (u.fn x)

/-- The number of outputs. -/
def outSize (n : Nat) : List Spec → Nat
  | [] => n
  | u :: us => outSize u.output us

/-- Every layer is differentiable at the point it is given. -/
def SmoothAt : List Spec → (Nat → ℝ) → Prop
  | [], _ => True
  | u :: us, x => u.Smooth x ∧ SmoothAt us (u.fn x)

/-- The layer of the code as a function, for given draws of the dropout. -/
noncomputable def Layer.spec (draw : Nat → Bool) : Layer → Spec
  | .fc f => .fc (f.unit draw)
  | .cl c => .cl c.unit

/-- The layers as functions. -/
noncomputable def specs (draws : Nat → Nat → Bool) : Nat → List Layer → List Spec
  | _, [] => []
  | i, l :: ls => l.spec (draws i) :: specs draws (i + 1) ls

/-- The arrays of a layer are allocated and cleared, as `reset_model` leaves them. -/
def Layer.Ready : Layer → Prop
  | .fc f => f.Ready ∧ f.drop ≠ .test
  | .cl c => c.Ready

/-- Consecutive layers fit, and only the last one may be a soft-max. -/
def FitsAll : Nat → List Layer → Prop
  | _, [] => True
  | n, l :: ls => l.input = n ∧ (l.soft → ls = []) ∧ FitsAll l.output ls

/-- The accumulators have grown from `l` to `h` by the derivatives of the objective `J` (a function
of this layer) in every weight and every bias at `u`. -/
def Grown (J : Spec → ℝ) : Layer → Layer → Spec → Prop
  | .fc f, .fc h, .fc u =>
    (∀ q, q < f.output * f.input →
      HasDerivAt (fun v => J (.fc { u with w := Function.update u.w q v })) (h.dWeights.get q - f.dWeights.get q) (u.w q)) ∧
    (f.mode ≠ .freezeBiases → ∀ q, q < f.output →
      HasDerivAt (fun v => J (.fc { u with b := Function.update u.b q v })) (h.dBiases.get q - f.dBiases.get q) (u.b q)) ∧
    (f.mode = .freezeBiases → ∀ q, h.dBiases.get q = f.dBiases.get q)
  | .cl c, .cl h, .cl u =>
    (∀ i, i < c.sh.nk → ∀ q, q < c.sh.kind.nK →
      HasDerivAt (fun v => J (.cl { u with k := Function.update u.k i (Function.update (u.k i) q v) }))
        ((h.dKernels i).get q - (c.dKernels i).get q) (u.k i q)) ∧
    (c.mode ≠ .freezeBiases → ∀ i, i < c.sh.nk →
      HasDerivAt (fun v => J (.cl { u with b := Function.update u.b i v })) (h.dBiases.get i - c.dBiases.get i) (u.b i)) ∧
    (c.mode = .freezeBiases → ∀ q, h.dBiases.get q = c.dBiases.get q)
  | _, _, _ => False

/-- What a backward pass must leave behind for the objective `J` of the network `us` at the input
`x`: `err` is the derivative of `J` in every input, and the accumulators of every layer have grown,
from `fs` to `hs`, by the derivative of `J` in every parameter. -/
def IsGradientOf (us : List Spec) (n : Nat) (x : Nat → ℝ) (J : List Spec → (Nat → ℝ) → ℝ) (fs hs : List Layer) (err : Arr ℝ) : Prop :=
  hs.length = fs.length ∧
  (∀ i, i < n → HasDerivAt (fun v => J us (Function.update x i v)) (err.get i) (x i)) ∧
  ∀ l f h u, fs[l]? = some f → hs[l]? = some h → us[l]? = some u → Grown (fun s => J (us.set l s) x) f h u

/-! ### Proof -/

/-- `Grown` for all results at once, weighted by `e`. -/
def GrownP (m : Nat) (F : Spec → Nat → ℝ) (e : Nat → ℝ) : Layer → Layer → Spec → Prop
  | .fc f, .fc h, .fc u =>
    (∀ q, q < f.output * f.input →
      Par m (fun v => F (.fc { u with w := Function.update u.w q v })) (u.w q) e (h.dWeights.get q - f.dWeights.get q)) ∧
    (f.mode ≠ .freezeBiases → ∀ q, q < f.output →
      Par m (fun v => F (.fc { u with b := Function.update u.b q v })) (u.b q) e (h.dBiases.get q - f.dBiases.get q)) ∧
    (f.mode = .freezeBiases → ∀ q, h.dBiases.get q = f.dBiases.get q)
  | .cl c, .cl h, .cl u =>
    (∀ i, i < c.sh.nk → ∀ q, q < c.sh.kind.nK →
      Par m (fun v => F (.cl { u with k := Function.update u.k i (Function.update (u.k i) q v) })) (u.k i q) e
        ((h.dKernels i).get q - (c.dKernels i).get q)) ∧
    (c.mode ≠ .freezeBiases → ∀ i, i < c.sh.nk →
      Par m (fun v => F (.cl { u with b := Function.update u.b i v })) (u.b i) e (h.dBiases.get i - c.dBiases.get i)) ∧
    (c.mode = .freezeBiases → ∀ q, h.dBiases.get q = c.dBiases.get q)
  | _, _, _ => False

/-- A change of the parameter that keeps the derivatives. -/
theorem GrownP.map {m m' : Nat} {F F' : Spec → Nat → ℝ} {e e' : Nat → ℝ} {l h : Layer} {u : Spec} (hg : GrownP m F e l h u)
    (hm : ∀ (s : ℝ → Spec) (t0 a : ℝ), s t0 = u → Par m (fun v => F (s v)) t0 e a → Par m' (fun v => F' (s v)) t0 e' a) :
    GrownP m' F' e' l h u := by
  cases l <;> cases h <;> cases u <;> try exact hg.elim
  · obtain ⟨h1, h2, h3⟩ := hg
    exact ⟨fun q hq => hm _ _ _ (by rw [Function.update_eq_self]) (h1 q hq), fun hf q hq => hm _ _ _ (by rw [Function.update_eq_self]) (h2 hf q hq), h3⟩
  · obtain ⟨h1, h2, h3⟩ := hg
    exact ⟨fun i hi q hq => hm _ _ _ (by rw [Function.update_eq_self, Function.update_eq_self]) (h1 i hi q hq),
      fun hf q hq => hm _ _ _ (by rw [Function.update_eq_self]) (h2 hf q hq), h3⟩

theorem GrownP.loss {m : Nat} {F : Spec → Nat → ℝ} {e : Nat → ℝ} {l h : Layer} {u : Spec} (hg : GrownP m F e l h u) (ℓ : Nat → ℝ → ℝ)
    (hl : ∀ o, o < m → HasDerivAt (ℓ o) (e o) (F u o)) : Grown (fun s => ∑ o ∈ range m, ℓ o (F s o)) l h u := by
  cases l <;> cases h <;> cases u <;> try exact hg.elim
  · obtain ⟨h1, h2, h3⟩ := hg
    exact ⟨fun q hq => (h1 q hq).loss ℓ fun o ho => by rw [Function.update_eq_self]; exact hl o ho,
      fun hf q hq => (h2 hf q hq).loss ℓ fun o ho => by rw [Function.update_eq_self]; exact hl o ho, h3⟩
  · obtain ⟨h1, h2, h3⟩ := hg
    exact ⟨fun i hi q hq => (h1 i hi q hq).loss ℓ fun o ho => by rw [Function.update_eq_self, Function.update_eq_self]; exact hl o ho,
      fun hf q hq => (h2 hf q hq).loss ℓ fun o ho => by rw [Function.update_eq_self]; exact hl o ho, h3⟩

/-- What one layer does, forward and backward. -/
theorem layer_step (x : Arr ℝ) (y : Nat → ℝ) (draw : Nat → Bool) (l : Layer) (hr : l.Ready) (hx : l.input ≤ x.len)
    (hy : ∀ i, i < l.input → x.get i = y i) (hs : (l.spec draw).Smooth y) :
    ∃ l', l.ff x draw = some l' ∧ l'.output = l.output ∧ l.output ≤ l'.used.len ∧ (∀ k, k < l.output → l'.used.get k = (l.spec draw).fn y k) ∧
    ∀ e : Arr ℝ, l.output ≤ e.len → ∃ h err, l'.bp x e = some (h, err) ∧ l.input ≤ err.len ∧
      Pull l.input l.output (l.spec draw).fn y e.get err.get ∧ GrownP l.output (fun s => s.fn y) e.get l h (l.spec draw) := by
  cases l with
  | cl c =>
    obtain ⟨c', e1, h1, h2, h3, h4⟩ := cl_run x y c hr hx hy hs
    refine ⟨.cl c', by unfold Layer.ff; dsimp only; rw [e1]; rfl, by unfold Layer.output; dsimp only; rw [h1], h2, h3, fun e he => ?_⟩
    obtain ⟨h, err, e2, h5, h6, h7, h8, h9⟩ := h4 e he
    exact ⟨.cl h, err, by unfold Layer.bp; dsimp only; rw [e2]; rfl, h5, h6, h7, h8, fun hm q => by rw [h9 hm]⟩
  | fc f =>
    obtain ⟨hr1, hr2⟩ := hr
    obtain ⟨pre, post, mask, dt, ef, -⟩ := ffLayer_run x draw f hr1 hr2 hx
    obtain ⟨ho, -, hl', hv, hb⟩ := layer_run x y draw f _ hr1 hr2 hx hy ef
    refine ⟨.fc _, by unfold Layer.ff; dsimp only; rw [if_neg hr2, ef]; rfl, ho, hl', hv, fun e he => ?_⟩
    obtain ⟨h, eh, lh, ve, vw, vb, vf⟩ := hb e he
    have hk : (f.unit draw).act = .relu ∨ (f.unit draw).act = .leaky ∨ (f.unit draw).act = .elu →
        ∀ k, k < (f.unit draw).output → (f.unit draw).z y k ≠ 0 := hs
    refine ⟨.fc h, h.error2, by unfold Layer.bp; dsimp only; rw [eh]; rfl, lh, ((f.unit draw).pull y e.get hk).congr (fun _ _ => rfl) ve, ?_⟩
    refine ⟨fun q hq => ?_, fun hm q hq => ?_, vf⟩
    · have hn : 0 < f.input := by
        rcases Nat.eq_zero_or_pos f.input with h | h
        · rw [h, Nat.mul_zero] at hq; omega
        · exact h
      have hp : Par f.output (fun v => ({ (f.unit draw) with w := Function.update (f.unit draw).w q v } : Chain.Unit).z y)
          ((f.unit draw).w q) (pulled f.act f.output ((f.unit draw).z y) (fun k => (f.unit draw).scale k * e.get k))
          (h.dWeights.get q - f.dWeights.get q) := by
        refine ⟨_, fun k _ => (f.unit draw).deriv_w y q k hq, ?_⟩
        rw [vw q hq, Finset.sum_eq_single (q / f.input)]
        · exact congrArg _ (if_pos rfl)
        · intro b _ hne
          exact (congrArg _ (if_neg hne)).trans (mul_zero _)
        · intro h
          exact absurd (Finset.mem_range.2 ((Nat.div_lt_iff_lt_mul hn).2 hq)) h
      have h0 : ({ (f.unit draw) with w := Function.update (f.unit draw).w q ((f.unit draw).w q) } : Chain.Unit).z y =
          (f.unit draw).z y := by rw [Function.update_eq_self]
      exact ((f.unit draw).pull_top _ e.get hk).par h0 hp
    · have hp : Par f.output (fun v => ({ (f.unit draw) with b := Function.update (f.unit draw).b q v } : Chain.Unit).z y)
          ((f.unit draw).b q) (pulled f.act f.output ((f.unit draw).z y) (fun k => (f.unit draw).scale k * e.get k))
          (h.dBiases.get q - f.dBiases.get q) := by
        refine ⟨_, fun k _ => (f.unit draw).deriv_b y q k, ?_⟩
        rw [vb hm q hq, Finset.sum_eq_single q]
        · rw [if_pos rfl, mul_one]
        · intro b _ hne
          rw [if_neg hne, mul_zero]
        · intro h
          exact absurd (Finset.mem_range.2 hq) h
      have h0 : ({ (f.unit draw) with b := Function.update (f.unit draw).b q ((f.unit draw).b q) } : Chain.Unit).z y =
          (f.unit draw).z y := by rw [Function.update_eq_self]
      exact ((f.unit draw).pull_top _ e.get hk).par h0 hp

theorem Layer.spec_output (l : Layer) (draw : Nat → Bool) : (l.spec draw).output = l.output := by cases l <;> rfl

theorem net_run (draws : Nat → Nat → Bool) : ∀ (fs : List Layer) (i n : Nat) (x : Arr ℝ) (y : Nat → ℝ), (∀ f, f ∈ fs → f.Ready) →
    FitsAll n fs → n ≤ x.len → (∀ i, i < n → x.get i = y i) → SmoothAt (specs draws i fs) y →
    ∃ gs, ffNet draws n x i fs = some gs ∧ outSize n (specs draws i fs) ≤ (outArray x gs).len ∧
    (∀ k, k < outSize n (specs draws i fs) → (outArray x gs).get k = cnet (specs draws i fs) y k) ∧
    ∀ e : Arr ℝ, outSize n (specs draws i fs) ≤ e.len → ∃ hs err, bpNet e x gs = some (hs, err) ∧ hs.length = fs.length ∧ n ≤ err.len ∧
      Pull n (outSize n (specs draws i fs)) (cnet (specs draws i fs)) y e.get err.get ∧
      ∀ l f h u, fs[l]? = some f → hs[l]? = some h → (specs draws i fs)[l]? = some u →
        GrownP (outSize n (specs draws i fs)) (fun s => cnet ((specs draws i fs).set l s) y) e.get f h u
  | [], i, n, x, y, _, _, hx, hy, _ => by
    refine ⟨[], rfl, hx, hy, fun e he => ⟨[], e, rfl, rfl, he, Pull.id n y e.get, ?_⟩⟩
    intro l f h u h1
    simp at h1
  | f :: fs, i, n, x, y, hr, hf, hx, hy, hk => by
    obtain ⟨rfl, h2, h3⟩ := hf
    obtain ⟨hk1, hk2⟩ := hk
    obtain ⟨f', ef, ho, hl', hv, hb⟩ := layer_step x y (draws i) f (hr f (List.mem_cons_self ..)) hx hy hk1
    obtain ⟨gs, eg, r1, r2, r3⟩ := net_run draws fs (i + 1) f.output f'.used ((f.spec (draws i)).fn y)
      (fun g hg => hr g (List.mem_cons_of_mem _ hg)) h3 hl' hv hk2
    have hos : outSize f.input (specs draws i (f :: fs)) = outSize f.output (specs draws (i + 1) fs) := by
      show outSize (f.spec (draws i)).output _ = _
      rw [Layer.spec_output]
    rw [hos]
    refine ⟨f' :: gs, ?_, r1, r2, fun e he => ?_⟩
    · unfold ffNet
      rw [if_neg (by rintro ⟨h, h'⟩; exact h' (h2 h)), if_neg (by simp), ef, Option.bind_some, ho, eg, Option.bind_some]
    · obtain ⟨hs, err, eb, len, lerr, hpull, hgr⟩ := r3 e he
      obtain ⟨h, err', eh, lh, hp, hg⟩ := hb err lerr
      refine ⟨h :: hs, err', ?_, by simp [len], lh, hp.comp hpull, ?_⟩
      · unfold bpNet
        rw [eb, Option.bind_some]
        dsimp only
        rw [eh, Option.bind_some]
      · intro l g h' u h1 h2 h3
        cases l with
        | succ l => exact hgr l g h' u h1 h2 h3
        | zero =>
          obtain rfl : f = g := by simpa using h1
          obtain rfl : h = h' := by simpa using h2
          obtain rfl : f.spec (draws i) = u := by simpa [specs] using h3
          exact hg.map fun s t0 a hs0 hpar => hpull.par (F := fun v => (s v).fn y) (by rw [hs0]) hpar

/-! ### C135 -/

/-- **C135.** A network of convolutional, transposed convolutional, pooling and fully connected
layers in any order, in the state `reset_model` leaves: the forward pass is defined and its last
array holds the network function; then for every separable loss whose derivative at the outputs is
the error passed in, the backward pass is defined, adds to the accumulator of every kernel cell,
every weight and every bias exactly the derivative of the loss in it, and returns the derivative in
every input. -/
theorem C135_gradient (draws : Nat → Nat → Bool) (n : Nat) (x : Arr ℝ) (fs : List Layer) (hr : ∀ f, f ∈ fs → f.Ready)
    (hf : FitsAll n fs) (hx : n ≤ x.len) (hk : SmoothAt (specs draws 0 fs) x.get) :
    ∃ gs, ffNet draws n x 0 fs = some gs ∧ outSize n (specs draws 0 fs) ≤ (outArray x gs).len ∧
      (∀ k, k < outSize n (specs draws 0 fs) → (outArray x gs).get k = cnet (specs draws 0 fs) x.get k) ∧
      ∀ (e : Arr ℝ) (ℓ : Nat → ℝ → ℝ), outSize n (specs draws 0 fs) ≤ e.len →
        (∀ o, o < outSize n (specs draws 0 fs) → HasDerivAt (ℓ o) (e.get o) (cnet (specs draws 0 fs) x.get o)) →
        ∃ hs err, bpNet e x gs = some (hs, err) ∧
          IsGradientOf (specs draws 0 fs) n x.get
            (fun us x => ∑ o ∈ range (outSize n (specs draws 0 fs)), ℓ o (cnet us x o)) fs hs err := by
  obtain ⟨gs, egs, r1, r2, r3⟩ := net_run draws fs 0 n x x.get hr hf hx (fun _ _ => rfl) hk
  refine ⟨gs, egs, r1, r2, fun e ℓ he hl => ?_⟩
  obtain ⟨hs, err, eb, len, -, hpull, hgr⟩ := r3 e he
  refine ⟨hs, err, eb, len, fun i hi => ?_, fun l f h u h1 h2 h3 => ?_⟩
  · have hp : Par n (fun v => Function.update x.get i v) (x.get i) err.get (err.get i) := by
      refine ⟨fun k => if k = i then 1 else 0, fun k _ => ?_, ?_⟩
      · by_cases hki : k = i
        · subst hki
          simp only [Function.update_self, if_true]
          exact hasDerivAt_id' (x.get k)
        · simpa [Function.update_of_ne hki, hki] using hasDerivAt_const (x.get i) (x.get k)
      · rw [Finset.sum_eq_single i]
        · simp
        · intro b _ hne
          simp [hne]
        · intro h
          exact absurd (Finset.mem_range.2 hi) h
    refine (hpull.par (by rw [Function.update_eq_self]) hp).loss ℓ fun o ho => ?_
    rw [Function.update_eq_self]
    exact hl o ho
  · refine (hgr l f h u h1 h2 h3).loss ℓ fun o ho => ?_
    obtain ⟨hlt, hget⟩ := List.getElem?_eq_some_iff.1 h3
    rw [← hget, List.set_getElem_self hlt]
    exact hl o ho

/-- `ff_error_bp_model_once` (`/repo/src/model.c` 9523-9536) for such a network; `alpha` is
`error_alpha` when it is set. -/
noncomputable def ffErrorBpNet (draws : Nat → Nat → Bool) (L : LossFlag) (t1 t2 g : ℝ) (alpha : Option (Arr ℝ))
    (n m : Nat) (x y error : Arr ℝ) (fs : List Layer) : Option (List Layer × Arr ℝ) :=
  (ffNet draws n x 0 fs).bind fun gs =>
    (Vec.zip1D (lossBack L t1 t2 g) (outArray x gs) y error m).bind fun e =>
      (weigh alpha m y e).bind fun e => bpNet e x gs

/-- **C135, one training step.** With the mean squared error, cross entropy, focal, modified Huber,
Kullback-Leibler and entropy losses, with or without class weights, one step on one sample adds to
the accumulators the gradient of the weighted loss of the network's output against the target. -/
theorem C135_step (draws : Nat → Nat → Bool) (L : LossFlag) (t1 t2 g : ℝ) (alpha : Option (Arr ℝ)) (n m : Nat) (x y error : Arr ℝ)
    (fs : List Layer) (hr : ∀ f, f ∈ fs → f.Ready) (hf : FitsAll n fs) (hx : n ≤ x.len) (hk : SmoothAt (specs draws 0 fs) x.get)
    (hm : outSize n (specs draws 0 fs) = m) (hy : m ≤ y.len) (he : m ≤ error.len) (ha : ∀ a, alpha = some a → m ≤ a.len)
    (hs : ∀ o, o < m → Chain.Smooth L (cnet (specs draws 0 fs) x.get o) (y.get o)) :
    ∃ hs err, ffErrorBpNet draws L t1 t2 g alpha n m x y error fs = some (hs, err) ∧
      IsGradientOf (specs draws 0 fs) n x.get
        (fun us x => ∑ o ∈ range m, classWeight alpha y.get o * lossFn L t1 t2 g (cnet us x o) (y.get o)) fs hs err := by
  obtain ⟨gs, e1, h1, h3, h4⟩ := C135_gradient draws n x fs hr hf hx hk
  rw [hm] at h1 h3 h4
  unfold ffErrorBpNet
  rw [e1, Option.bind_some, Vec.zip1D_eq _ _ _ _ _ h1 hy he, Option.bind_some]
  obtain ⟨e', e2, h5, h6⟩ := weigh_run alpha m y ⟨error.len, fun k => if k < m then
    lossBack L t1 t2 g ((outArray x gs).get k) (y.get k) else error.get k⟩ hy he ha
  rw [e2, Option.bind_some]
  refine h4 e' (fun o p => classWeight alpha y.get o * lossFn L t1 t2 g p (y.get o)) h5 fun o ho => ?_
  rw [h6 o ho]
  dsimp only
  rw [if_pos ho, h3 o ho]
  exact (loss_deriv L t1 t2 g _ _ (hs o ho)).const_mul _

/-! ### A concrete network -/

/-- A 3x3 image, one 2x2 kernel, a rectifier with a slope, a 2x2 max pooling with a frame of one
cell. -/
noncomputable def demoCl : Cl where
  sh := ⟨.conv ⟨3, 3, 2, 2, 1, 1, 1, 0⟩, 1, .leaky, .max, 2, 2, 2, 2, 1⟩
  mode := .descent
  kernels := fun _ => Arr.ofList [1, 2, 0, 0]
  biases := Arr.ofList [1]
  pre := Arr.ofList [0, 0, 0, 0]
  post := Arr.ofList [0, 0, 0, 0]
  pooled := Arr.ofList [0, 0, 0, 0, 0, 0, 0, 0, 0]
  pooltemp := Arr.ofList []
  temp := Arr.ofList [0, 0, 0, 0]
  temp3 := Arr.ofList [0, 0, 0, 0]
  error2 := Arr.ofList [0, 0, 0, 0, 0, 0, 0, 0, 0]
  dKernels := fun _ => Arr.ofList [5, 0, 0, 0]
  dBiases := Arr.ofList [0]

/-- The fully connected layer after it. -/
noncomputable def demoFc : Fcl where
  input := 9
  output := 1
  act := .sigmoid
  drop := .off
  threshold := 0
  mode := .descent
  weights := Arr.ofList [1, 1, 1, 1, 2, 1, 1, 1, 1]
  biases := Arr.ofList [1]
  active := Arr.ofList [1]
  pre := Arr.ofList [0]
  post := Arr.ofList [0]
  mask := Arr.ofList [1]
  dropTemp := Arr.ofList [1]
  temp := Arr.ofList [0]
  temp3 := Arr.ofList [0]
  error2 := Arr.ofList [0, 0, 0, 0, 0, 0, 0, 0, 0]
  dWeights := Arr.ofList [0, 0, 0, 0, 0, 0, 0, 0, 0]
  dBiases := Arr.ofList [0]

theorem demoCl_ready : demoCl.Ready where
  hK := ⟨by decide, by decide, by decide, by decide⟩
  hpool := fun _ => ⟨⟨by decide, by decide, by decide, by decide⟩, by decide, by decide⟩
  hpass := fun h => by cases h
  hact := by decide
  lk := fun _ _ => Nat.le_refl 4
  lb := by decide
  lpre := by decide
  lpost := by decide
  lpooled := by decide
  lt := by decide
  lt3 := by decide
  le2 := by decide
  ldk := fun _ _ => Nat.le_refl 4
  ldb := by decide
  zpre := fun k hk => by
    have hk : k < 4 := hk
    interval_cases k <;> rfl
  zpost := fun k hk => by
    have hk : k < 4 := hk
    interval_cases k <;> rfl
  zpooled := fun k hk => by
    have hk : k < 9 := hk
    interval_cases k <;> rfl
  zt := fun k hk => by
    have hk : k < 4 := hk
    interval_cases k <;> rfl
  ze2 := fun k hk => by
    have hk : k < 9 := hk
    interval_cases k <;> rfl

theorem demoFc_ready : demoFc.Ready := by
  constructor <;> simp only [demoFc, Arr.ofList] <;> first
    | (simp; done)
    | (intro k hk; interval_cases k <;> simp)

/-- The image. -/
noncomputable def demoImage : Arr ℝ := Arr.ofList [1, 2, 3, 4, 5, 6, 7, 8, 9]

theorem demo_src (p : Nat) (hp : p < 4) : demoCl.unit.z demoImage.get p = [6, 9, 15, 18].getD p 0 ∧
    demoCl.unit.src demoImage.get p = [6, 9, 15, 18].getD p 0 := by
  have hz : ∀ p, p < 4 → demoCl.unit.z demoImage.get p = [6, 9, 15, 18].getD p 0 := by
    intro p hp
    interval_cases p <;>
      norm_num [CUnit.z, Cl.unit, demoCl, Shape.A, Kind.size, Kind.rows, Kind.cols, Kind.fn, Kind.Inner, Inside, Kind.lin, Conv.Geom.outI,
        Conv.Geom.outJ, Conv.Geom.nI, Conv.Geom.nJ, Conv.corr, ix3, demoImage, Arr.ofList, Finset.sum_range_succ]
  refine ⟨hz p hp, ?_⟩
  have hs : demoCl.unit.src demoImage.get p = demoCl.unit.actv (demoCl.unit.z demoImage.get) p := rfl
  rw [hs]
  unfold CUnit.actv
  rw [hz p hp, if_pos (by interval_cases p <;> decide)]
  show max _ _ = _
  interval_cases p <;> norm_num

theorem demo_net : (∀ f, f ∈ [Layer.cl demoCl, .fc demoFc] → f.Ready) ∧ FitsAll 9 [Layer.cl demoCl, .fc demoFc] ∧
    SmoothAt (specs (fun _ _ => false) 0 [Layer.cl demoCl, .fc demoFc]) demoImage.get ∧
    outSize 9 (specs (fun _ _ => false) 0 [Layer.cl demoCl, .fc demoFc]) = 1 := by
  refine ⟨?_, ?_, ?_, rfl⟩
  · intro f hf
    simp only [List.mem_cons, List.not_mem_nil, or_false] at hf
    rcases hf with rfl | rfl
    · exact demoCl_ready
    · exact ⟨demoFc_ready, by decide⟩
  · exact ⟨rfl, (fun h => by cases h), rfl, (fun _ => rfl), trivial⟩
  · refine ⟨⟨fun _ _ p hp _ => ?_, fun _ _ i hi => ?_⟩, fun h => ?_, trivial⟩
    · have hp : p < 4 := hp
      rw [(demo_src p hp).1]
      interval_cases p <;> norm_num
    · have hi : i < 1 := hi
      obtain rfl : i = 0 := by omega
      intro i j hi hj
      have hi : i < 1 := hi
      have hj : j < 1 := hj
      obtain rfl : i = 0 := by omega
      obtain rfl : j = 0 := by omega
      have hw : ∀ a b, a < 2 → b < 2 → demoCl.unit.src demoImage.get (0 * demoCl.unit.sh.A + Pool.win demoCl.unit.sh.pg 0 0 a b) =
          [6, 9, 15, 18].getD (2 * a + b) 0 := by
        intro a b ha hb
        have : 0 * demoCl.unit.sh.A + Pool.win demoCl.unit.sh.pg 0 0 a b = 2 * a + b := by
          interval_cases a <;> interval_cases b <;> rfl
        rw [this]
        exact (demo_src _ (by omega)).2
      refine ⟨⟨0, 0, by decide, by decide, ?_⟩, ?_⟩
      · dsimp only
        rw [hw 0 0 (by decide) (by decide)]
        norm_num
      · intro a b a' b' ha hb ha' hb' hne _ heq
        have ha : a < 2 := ha
        have hb : b < 2 := hb
        have ha' : a' < 2 := ha'
        have hb' : b' < 2 := hb'
        exfalso
        dsimp only at heq
        rw [hw a b ha hb, hw a' b' ha' hb'] at heq
        interval_cases a <;> interval_cases b <;> interval_cases a' <;> interval_cases b' <;> first
          | exact hne rfl
          | norm_num at heq
    · rcases h with h | h | h <;> cases h

example : ∃ hs err, ffErrorBpNet (fun _ _ => false) .mse 0 0 0 none 9 1 demoImage (Arr.ofList [1]) (Arr.ofList [0])
    [.cl demoCl, .fc demoFc] = some (hs, err) ∧ IsGradientOf (specs (fun _ _ => false) 0 [.cl demoCl, .fc demoFc]) 9 demoImage.get
      (fun us x => ∑ o ∈ range 1, classWeight none (Arr.ofList [(1 : ℝ)]).get o *
        lossFn .mse 0 0 0 (cnet us x o) ((Arr.ofList [(1 : ℝ)]).get o)) [.cl demoCl, .fc demoFc] hs err :=
  C135_step _ .mse 0 0 0 none 9 1 _ _ _ _ demo_net.1 demo_net.2.1 (by simp [demoImage, Arr.ofList]) demo_net.2.2.1 demo_net.2.2.2
    (by simp [Arr.ofList]) (by simp [Arr.ofList]) (fun a h => by cases h) (fun _ _ => trivial)

end LLab.CNet
