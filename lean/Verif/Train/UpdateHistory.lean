import Verif.Train.UpdateLstm
import Verif.Train.Regularize

/-!
Training over many updates: gradients arrive, `update_model`
(`/repo/src/update.c` 1019-1062) makes one step, `update_training_parameters`
advances the running powers of the betas. Property C42: the parameters after any
number of updates are given in closed form by the gradients seen so far, for each
of the five algorithms.
-/

namespace LLab.Update

open LLab.Optim Finset

/-! ### Specification: the step of each algorithm as a function of the gradients -/

/-- The algorithm and its constants. -/
inductive Algo where
  | nesterov (lr m : ℝ)
  | adam (lr b1 b2 eps : ℝ)
  | radam (lr b1 b2 eps : ℝ)
  | diffGrad (lr b1 b2 eps : ℝ)
  | adamod (lr b1 b2 b3 eps : ℝ)

/-- Exponential moving average of the first `n` values of `x`, from zero. -/
noncomputable def ema (b : ℝ) (x : Nat → ℝ) (n : Nat) : ℝ := (1 - b) * ∑ i ∈ range n, b ^ (n - 1 - i) * x i

/-- Bias-corrected moving average. -/
noncomputable def hat (b : ℝ) (x : Nat → ℝ) (n : Nat) : ℝ := ema b x n / (1 - b ^ n)

/-- Length of the approximated moving average in the limit (RAdam). -/
noncomputable def rhoInf (b2 : ℝ) : ℝ := 2 / (1 - b2) - 1

/-- Length of the approximated moving average after `n` steps (RAdam). -/
noncomputable def rho (b2 : ℝ) (n : Nat) : ℝ := rhoInf b2 - 2 * n * b2 ^ n / (1 - b2 ^ n)

/-- What step number `k` (from 0) subtracts from a parameter whose averaged gradients
were `x 0, x 1, …`. -/
noncomputable def Algo.delta : Algo → (Nat → ℝ) → Nat → ℝ
  | .nesterov lr m, x, k => (1 + m) * lr * x k + m ^ 2 * (lr * ∑ i ∈ range k, m ^ (k - 1 - i) * x i)
  | .adam lr b1 b2 eps, x, k => lr * hat b1 x (k + 1) / (Real.sqrt (hat b2 (fun i => x i ^ 2) (k + 1)) + eps)
  | .radam lr b1 b2 eps, x, k =>
    if rho b2 (k + 1) > 4 then
      lr * Real.sqrt (((rho b2 (k + 1) - 4) * (rho b2 (k + 1) - 2) * rhoInf b2) / ((rhoInf b2 - 4) * (rhoInf b2 - 2) * rho b2 (k + 1))) *
        hat b1 x (k + 1) * (Real.sqrt (1 - b2 ^ (k + 1)) / (Real.sqrt (ema b2 (fun i => x i ^ 2) (k + 1)) + eps))
    else lr * hat b1 x (k + 1)
  | .diffGrad lr b1 b2 eps, x, k =>
    1 / (1 + Real.exp (-|(if k = 0 then 0 else x (k - 1)) - x k|)) *
      (lr * hat b1 x (k + 1) / (Real.sqrt (hat b2 (fun i => x i ^ 2) (k + 1)) + eps))
  | .adamod lr b1 b2 b3 eps, x, k =>
    min (lr / (Real.sqrt (hat b2 (fun i => x i ^ 2) (k + 1)) + eps))
      (ema b3 (fun j => lr / (Real.sqrt (hat b2 (fun i => x i ^ 2) (j + 1)) + eps)) (k + 1)) * hat b1 x (k + 1)

/-- The parameter after `n` updates. -/
noncomputable def Algo.value (a : Algo) (p0 : ℝ) (x : Nat → ℝ) (n : Nat) : ℝ := p0 - ∑ k ∈ range n, a.delta x k

/-! ### Model -/

/-- The two betas of the model (`beta1_adam`, `beta2_adam`). -/
def Algo.betas : Algo → ℝ × ℝ
  | .nesterov _ _ => (0, 0)
  | .adam _ b1 b2 _ => (b1, b2)
  | .radam _ b1 b2 _ => (b1, b2)
  | .diffGrad _ b1 b2 _ => (b1, b2)
  | .adamod _ b1 b2 _ _ => (b1, b2)

/-- `b1`, `b2` and `t` before update number `n`: they start at the betas and 1
(`/repo/src/rainbow.c` 246-272, `/repo/src/policy_gradient.c` 84) and
`update_training_parameters` (`/repo/src/update.c` 1363-1367) is called after every
update. -/
noncomputable def Algo.clock (a : Algo) : Nat → Clock
  | 0 => ⟨a.betas.1, a.betas.2, 1⟩
  | n + 1 => tick a.betas.1 a.betas.2 (a.clock n)

/-- The dispatch of `update_model` (`/repo/src/update.c` 1033-1060): which arguments
reach the update functions. -/
noncomputable def Algo.opt (a : Algo) (c : Clock) : Opt :=
  match a with
  | .nesterov lr m => .nesterov lr m
  | .adam lr b1 b2 eps => .adam lr b1 b2 c.bb1 c.bb2 eps
  | .radam lr b1 b2 eps => .radam lr b1 b2 c.bb1 c.bb2 eps c.t
  | .diffGrad lr b1 b2 eps => .diffGrad lr b1 b2 c.bb1 c.bb2 eps
  | .adamod lr b1 b2 b3 eps => .adamod lr b1 b2 b3 c.bb1 c.bb2 eps

/-- A parameter over `n` updates with gradients `g 0, g 1, …` (sums over the batch). -/
noncomputable def cellRun (B : ℝ) (a : Algo) (g : Nat → ℝ) (c : Cell) : Nat → Cell
  | 0 => c
  | n + 1 => stepCell B (a.opt (a.clock n)) (g n) (cellRun B a g c n)

/-- No optimiser state yet. -/
def Cell.Fresh (c : Cell) : Prop := c.d1 = 0 ∧ c.d2 = 0 ∧ c.d3 = 0

theorem clock_eq (a : Algo) (n : Nat) : a.clock n = ⟨a.betas.1 ^ (n + 1), a.betas.2 ^ (n + 1), n + 1⟩ := by
  induction n with
  | zero => simp [Algo.clock]
  | succ n ih =>
    rw [Algo.clock, ih]
    simp only [tick, pow_succ]

theorem ema_zero (b : ℝ) (x : Nat → ℝ) : ema b x 0 = 0 := by simp [ema]

theorem geo_succ (b : ℝ) (x : Nat → ℝ) (n : Nat) :
    ∑ i ∈ range (n + 1), b ^ (n + 1 - 1 - i) * x i = b * (∑ i ∈ range n, b ^ (n - 1 - i) * x i) + x n := by
  rw [Finset.sum_range_succ, Finset.mul_sum]
  congr 1
  · refine Finset.sum_congr rfl fun i hi => ?_
    have hi := Finset.mem_range.1 hi
    rw [show n + 1 - 1 - i = (n - 1 - i) + 1 by omega, pow_succ]
    ring
  · simp

theorem ema_succ (b : ℝ) (x : Nat → ℝ) (n : Nat) : ema b x (n + 1) = b * ema b x n + (1 - b) * x n := by
  unfold ema
  rw [geo_succ]
  ring

theorem value_succ (a : Algo) (p0 : ℝ) (x : Nat → ℝ) (n : Nat) : a.value p0 x (n + 1) = a.value p0 x n - a.delta x n := by
  unfold Algo.value
  rw [Finset.sum_range_succ]
  ring

/-- One parameter over any gradient history. -/
theorem cellRun_value (B : ℝ) (a : Algo) (g : Nat → ℝ) (c : Cell) (hc : c.Fresh) (n : Nat) :
    (cellRun B a g c n).p = a.value c.p (fun k => g k / B) n := by
  obtain ⟨h1, h2, h3⟩ := hc
  set x : Nat → ℝ := fun k => g k / B with hx
  have hv0 : ∀ a : Algo, a.value c.p x 0 = c.p := fun a => by simp [Algo.value]
  cases a with
  | nesterov lr m =>
    have key : ∀ n, (cellRun B (.nesterov lr m) g c n).p = (Algo.nesterov lr m).value c.p x n ∧
        (cellRun B (.nesterov lr m) g c n).d1 = -(lr * ∑ i ∈ range n, m ^ (n - 1 - i) * x i) := by
      intro n
      induction n with
      | zero => exact ⟨by rw [hv0]; rfl, by simp [cellRun, h1]⟩
      | succ n ih =>
        obtain ⟨e1, e2⟩ := ih
        rw [cellRun, value_succ]
        simp only [Algo.opt, stepCell, nesterov, e1, e2, Algo.delta]
        rw [geo_succ]
        constructor
        · simp only [hx]; ring
        · simp only [hx]; ring
    exact (key n).1
  | adam lr b1 b2 eps =>
    have key : ∀ n, (cellRun B (.adam lr b1 b2 eps) g c n).p = (Algo.adam lr b1 b2 eps).value c.p x n ∧
        (cellRun B (.adam lr b1 b2 eps) g c n).d1 = ema b1 x n ∧
        (cellRun B (.adam lr b1 b2 eps) g c n).d2 = ema b2 (fun i => x i ^ 2) n := by
      intro n
      induction n with
      | zero => exact ⟨by rw [hv0]; rfl, by simp [cellRun, h1, ema], by simp [cellRun, h2, ema]⟩
      | succ n ih =>
        obtain ⟨e1, e2, e3⟩ := ih
        rw [cellRun, value_succ, clock_eq]
        simp only [Algo.opt, stepCell, adam, e1, e2, e3, Algo.delta, hat, ema_succ, Algo.betas, hx, sq, mul_div_assoc]
        exact ⟨trivial, trivial, trivial⟩
    exact (key n).1
  | radam lr b1 b2 eps =>
    have key : ∀ n, (cellRun B (.radam lr b1 b2 eps) g c n).p = (Algo.radam lr b1 b2 eps).value c.p x n ∧
        (cellRun B (.radam lr b1 b2 eps) g c n).d1 = ema b1 x n ∧
        (cellRun B (.radam lr b1 b2 eps) g c n).d2 = ema b2 (fun i => x i ^ 2) n := by
      intro n
      induction n with
      | zero => exact ⟨by rw [hv0]; rfl, by simp [cellRun, h1, ema], by simp [cellRun, h2, ema]⟩
      | succ n ih =>
        obtain ⟨e1, e2, e3⟩ := ih
        have er : pT b2 (b2 ^ (n + 1)) (n + 1) = rho b2 (n + 1) := by
          unfold pT rho pInf rhoInf
          rfl
        have ei : pInf b2 = rhoInf b2 := rfl
        rw [cellRun, value_succ, clock_eq]
        simp only [Algo.opt, stepCell, radam, e1, e2, e3, Algo.delta, Algo.betas, er, ei]
        refine ⟨?_, ?_, ?_⟩
        · split_ifs
          · simp only [rectify, hat, ema_succ, hx, sq]
          · simp only [hat, ema_succ, hx]
        · split_ifs <;> simp only [ema_succ, hx]
        · split_ifs <;> simp only [ema_succ, hx, sq]
    exact (key n).1
  | diffGrad lr b1 b2 eps =>
    have key : ∀ n, (cellRun B (.diffGrad lr b1 b2 eps) g c n).p = (Algo.diffGrad lr b1 b2 eps).value c.p x n ∧
        (cellRun B (.diffGrad lr b1 b2 eps) g c n).d1 = ema b1 x n ∧
        (cellRun B (.diffGrad lr b1 b2 eps) g c n).d2 = ema b2 (fun i => x i ^ 2) n ∧
        (cellRun B (.diffGrad lr b1 b2 eps) g c n).d3 = if n = 0 then 0 else x (n - 1) := by
      intro n
      induction n with
      | zero => exact ⟨by rw [hv0]; rfl, by simp [cellRun, h1, ema], by simp [cellRun, h2, ema], by simp [cellRun, h3]⟩
      | succ n ih =>
        obtain ⟨e1, e2, e3, e4⟩ := ih
        rw [cellRun, value_succ, clock_eq]
        simp only [Algo.opt, stepCell, diffGrad, e1, e2, e3, e4, Algo.delta, hat, ema_succ, Algo.betas, absSigmoid, sq]
        refine ⟨?_, by simp [hx], by simp [hx], by simp [hx]⟩
        simp only [hx, one_div]
        ring
    exact (key n).1
  | adamod lr b1 b2 b3 eps =>
    have key : ∀ n, (cellRun B (.adamod lr b1 b2 b3 eps) g c n).p = (Algo.adamod lr b1 b2 b3 eps).value c.p x n ∧
        (cellRun B (.adamod lr b1 b2 b3 eps) g c n).d1 = ema b1 x n ∧
        (cellRun B (.adamod lr b1 b2 b3 eps) g c n).d2 = ema b2 (fun i => x i ^ 2) n ∧
        (cellRun B (.adamod lr b1 b2 b3 eps) g c n).d3 =
          ema b3 (fun j => lr / (Real.sqrt (hat b2 (fun i => x i ^ 2) (j + 1)) + eps)) n := by
      intro n
      induction n with
      | zero => exact ⟨by rw [hv0]; rfl, by simp [cellRun, h1, ema], by simp [cellRun, h2, ema], by simp [cellRun, h3, ema]⟩
      | succ n ih =>
        obtain ⟨e1, e2, e3, e4⟩ := ih
        rw [cellRun, value_succ, clock_eq]
        simp only [Algo.opt, stepCell, Optim.adamod, e1, e2, e3, e4, Algo.delta, Algo.betas]
        have ev : (b2 * ema b2 (fun i => x i ^ 2) n + (1 - b2) * (g n / B * (g n / B))) / (1 - b2 ^ (n + 1)) =
            hat b2 (fun i => x i ^ 2) (n + 1) := by
          unfold hat
          rw [ema_succ]
          simp only [hx, sq]
        have em : (b1 * ema b1 x n + (1 - b1) * (g n / B)) / (1 - b1 ^ (n + 1)) = hat b1 x (n + 1) := by
          unfold hat
          rw [ema_succ]
        rw [ev, em]
        refine ⟨?_, by rw [ema_succ], by rw [ema_succ]; simp only [hx, sq], by rw [ema_succ]⟩
        rw [ema_succ b3]
        congr 2
        split_ifs with h
        · exact (min_eq_right h.le).symm
        · exact (min_eq_left (not_lt.1 h)).symm
    exact (key n).1

/-! ### A layer over many updates -/

/-- The array `A` is `A0` after `n` updates with gradient arrays `G 0, G 1, …`. -/
def Follows (B : ℝ) (a : Algo) (on : Prop) [Decidable on] (len : Nat) (G : Nat → Arr ℝ) (A0 A : Arr Cell) (n : Nat) : Prop :=
  A.len = A0.len ∧ ∀ q, A.get q = if on ∧ q < len then cellRun B a (fun k => (G k).get q) (A0.get q) n else A0.get q

theorem follows_zero (B : ℝ) (a : Algo) (on : Prop) [Decidable on] (len : Nat) (G : Nat → Arr ℝ) (A : Arr Cell) :
    Follows B a on len G A A 0 := ⟨rfl, fun q => by simp [cellRun]⟩

theorem follows_succ {B : ℝ} {a : Algo} {on : Prop} [Decidable on] {len : Nat} {G : Nat → Arr ℝ} {A0 A A' : Arr Cell} {n : Nat}
    (h : Follows B a on len G A0 A n) (hm : Moved B (a.opt (a.clock n)) (if on then 1 else 0) len (G n) A A') :
    Follows B a on len G A0 A' (n + 1) := by
  refine ⟨hm.1.trans h.1, fun q => ?_⟩
  rw [hm.2 q, h.2 q]
  by_cases h1 : on <;> by_cases h2 : q < len
  · simp [h1, h2, cellRun]
  · simp [h2]
  · simp [h1]
  · simp [h1]

/-- The parameters of `A` are the closed form for the gradients seen (trained) or
unchanged (not trained). -/
def Trained (B : ℝ) (a : Algo) (on : Prop) [Decidable on] (len : Nat) (G : Nat → Arr ℝ) (A0 A : Arr Cell) (n : Nat) : Prop :=
  A.len = A0.len ∧ ∀ q, q < len →
    (A.get q).p = if on then a.value (A0.get q).p (fun k => (G k).get q / B) n else (A0.get q).p

/-- Every cell of the array is without optimiser state. -/
def FreshArr (A : Arr Cell) : Prop := ∀ q, (A.get q).Fresh

theorem follows_trained {B : ℝ} {a : Algo} {on : Prop} [Decidable on] {len : Nat} {G : Nat → Arr ℝ} {A0 A : Arr Cell} {n : Nat}
    (h : Follows B a on len G A0 A n) (hf : FreshArr A0) : Trained B a on len G A0 A n := by
  refine ⟨h.1, fun q hq => ?_⟩
  rw [h.2 q]
  by_cases h1 : on
  · rw [if_pos ⟨h1, hq⟩, if_pos h1]
    exact cellRun_value B a _ _ (hf q) n
  · rw [if_neg (fun h => h1 h.1), if_neg h1]

/-- The gradients a backward pass leaves in a fully-connected layer. -/
structure FclGrads where
  dw : Arr ℝ
  dnw : Arr ℝ
  dsc : Arr ℝ
  db : Arr ℝ
  dnb : Arr ℝ
  dgamma : Arr ℝ
  dbeta : Arr ℝ

/-- The layer with these gradients. -/
def Fcl.withGrads (f : Fcl) (g : FclGrads) : Fcl :=
  { f with dw := g.dw, dnw := g.dnw, dsc := g.dsc, db := g.db, dnb := g.dnb,
           ln := { f.ln with dgamma := g.dgamma, dbeta := g.dbeta } }

/-- `n` rounds: gradients, update, next clock. -/
noncomputable def trainFcl (B : ℝ) (a : Algo) (g : Nat → FclGrads) (f : Fcl) : Nat → Option Fcl
  | 0 => some f
  | n + 1 => (trainFcl B a g f n).bind fun f' => fclUpdate B (a.opt (a.clock n)) (f'.withGrads (g n))

/-- Gradient arrays of the right sizes. -/
structure FclGrads.Fits (g : FclGrads) (f : Fcl) : Prop where
  dw : g.dw.len = f.output * f.input
  dnw : g.dnw.len = f.output * f.input
  dsc : g.dsc.len = f.output * f.input
  db : g.db.len = f.output
  dnb : g.dnb.len = f.output
  dgamma : g.dgamma.len = f.ln.dim
  dbeta : g.dbeta.len = f.ln.dim

/-- A layer that has never been updated. -/
structure Fcl.Fresh (f : Fcl) : Prop where
  w : FreshArr f.w
  nw : FreshArr f.nw
  sc : FreshArr f.sc
  b : FreshArr f.b
  nb : FreshArr f.nb
  gamma : FreshArr f.ln.gamma
  beta : FreshArr f.ln.beta

theorem normB_opt (B : ℝ) (a : Algo) (c d : Clock) : normB B (a.opt c) = normB B (a.opt d) := by
  cases a <;> rfl

/-- What the invariant says of a layer after `n` rounds. -/
structure FclFollows (B : ℝ) (a : Algo) (g : Nat → FclGrads) (f f' : Fcl) (n : Nat) : Prop where
  w : Follows B a (f.live ∧ (f.mode = .gradientDescent ∨ f.mode = .freezeBiases)) (f.output * f.input) (fun k => (g k).dw) f.w f'.w n
  nw : Follows B a (f.live ∧ (f.mode = .gradientDescent ∨ f.mode = .freezeBiases) ∧ f.noisy) (f.output * f.input) (fun k => (g k).dnw) f.nw f'.nw n
  sc : Follows B a (f.live ∧ f.mode = .edgePopup) (f.output * f.input) (fun k => (g k).dsc) f.sc f'.sc n
  b : Follows B a (f.live ∧ f.mode = .gradientDescent) f.output (fun k => (g k).db) f.b f'.b n
  nb : Follows B a (f.live ∧ f.mode = .gradientDescent ∧ f.noisy) f.output (fun k => (g k).dnb) f.nb f'.nb n
  gamma : Follows (normB B (a.opt (a.clock 0))) a (f.live ∧ f.layerNorm ∧ f.ln.mode = .gradientDescent) f.ln.dim (fun k => (g k).dgamma) f.ln.gamma f'.ln.gamma n
  beta : Follows (normB B (a.opt (a.clock 0))) a (f.live ∧ f.layerNorm ∧ f.ln.mode = .gradientDescent) f.ln.dim (fun k => (g k).dbeta) f.ln.beta f'.ln.beta n
  same : f'.mode = f.mode ∧ f'.onlyDropout = f.onlyDropout ∧ f'.noisy = f.noisy ∧ f'.layerNorm = f.layerNorm ∧
    f'.input = f.input ∧ f'.output = f.output ∧ f'.ln.mode = f.ln.mode ∧ f'.ln.dim = f.ln.dim

theorem trainFcl_follows (B : ℝ) (a : Algo) (g : Nat → FclGrads) (f : Fcl) (h : f.WF) (hg : ∀ k, (g k).Fits f) (n : Nat) :
    ∃ f', trainFcl B a g f n = some f' ∧ FclFollows B a g f f' n := by
  induction n with
  | zero =>
    exact ⟨f, rfl, follows_zero .., follows_zero .., follows_zero .., follows_zero .., follows_zero .., follows_zero ..,
      follows_zero .., rfl, rfl, rfl, rfl, rfl, rfl, rfl, rfl⟩
  | succ n ih =>
    obtain ⟨f1, e, F⟩ := ih
    obtain ⟨s1, s2, s3, s4, s5, s6, s7, s8⟩ := F.same
    have G := hg n
    have wf : (f1.withGrads (g n)).WF := by
      refine ⟨?_, ?_, ?_, ?_, ?_, ?_, ?_, ?_, ?_, ?_, ?_, ?_, ?_, ?_⟩
      · simp only [Fcl.withGrads, s5, s6]; exact F.w.1.trans h.w
      · simp only [Fcl.withGrads, s5, s6]; exact G.dw
      · simp only [Fcl.withGrads, s5, s6]; exact F.nw.1.trans h.nw
      · simp only [Fcl.withGrads, s5, s6]; exact G.dnw
      · simp only [Fcl.withGrads, s5, s6]; exact F.sc.1.trans h.sc
      · simp only [Fcl.withGrads, s5, s6]; exact G.dsc
      · simp only [Fcl.withGrads, s6]; exact F.b.1.trans h.b
      · simp only [Fcl.withGrads, s6]; exact G.db
      · simp only [Fcl.withGrads, s6]; exact F.nb.1.trans h.nb
      · simp only [Fcl.withGrads, s6]; exact G.dnb
      · simp only [Fcl.withGrads, s8]; exact F.gamma.1.trans h.ln.gamma
      · simp only [Fcl.withGrads, s8]; exact G.dgamma
      · simp only [Fcl.withGrads, s8]; exact F.beta.1.trans h.ln.beta
      · simp only [Fcl.withGrads, s8]; exact G.dbeta
    obtain ⟨f2, e2, M⟩ := C42_fcl B (a.opt (a.clock n)) (f1.withGrads (g n)) wf
    have r := M.rest
    have hB := normB_opt B a (a.clock n) (a.clock 0)
    refine ⟨f2, (bind_some_of e).trans e2, ?_⟩
    have live : (f1.withGrads (g n)).live ↔ f.live := by
      simp only [Fcl.live, Fcl.withGrads, s1, s2]
    have m1 := M.w
    have m2 := M.nw
    have m3 := M.sc
    have m4 := M.b
    have m5 := M.nb
    obtain ⟨m6, m7, m8, m9, _, _⟩ := M.ln
    rw [hB] at m6 m7
    simp only [live] at m1 m2 m3 m4 m5 m6 m7
    simp only [Fcl.withGrads, s1, s3, s4, s5, s6, s7, s8] at m1 m2 m3 m4 m5 m6 m7 m8 m9
    refine ⟨follows_succ F.w m1, follows_succ F.nw m2, follows_succ F.sc m3, follows_succ F.b m4, follows_succ F.nb m5,
      follows_succ F.gamma ?_, follows_succ F.beta ?_, ?_⟩
    · convert m6 using 1
      by_cases c1 : f.ln.mode = .gradientDescent <;> simp [c1]
    · convert m7 using 1
      by_cases c1 : f.ln.mode = .gradientDescent <;> simp [c1]
    · rw [r]
      exact ⟨s1, s2, s3, s4, s5, s6, m8, m9⟩

/-- **C42 over histories, fully-connected layers.** A fresh layer trained for any
number of updates, on any gradients: every trained parameter is the closed form of
its algorithm for the gradients of that parameter averaged over the batch, every other
parameter is what it was. (Normalisation parameters average over the batch except with
Nesterov, see `C42_layer_norm_batch_refuted`.) -/
theorem C42_fcl_history (B : ℝ) (a : Algo) (g : Nat → FclGrads) (f : Fcl) (h : f.WF) (hf : f.Fresh)
    (hg : ∀ k, (g k).Fits f) (n : Nat) :
    ∃ f', trainFcl B a g f n = some f' ∧
      Trained B a (f.live ∧ (f.mode = .gradientDescent ∨ f.mode = .freezeBiases)) (f.output * f.input) (fun k => (g k).dw) f.w f'.w n ∧
      Trained B a (f.live ∧ (f.mode = .gradientDescent ∨ f.mode = .freezeBiases) ∧ f.noisy) (f.output * f.input) (fun k => (g k).dnw) f.nw f'.nw n ∧
      Trained B a (f.live ∧ f.mode = .edgePopup) (f.output * f.input) (fun k => (g k).dsc) f.sc f'.sc n ∧
      Trained B a (f.live ∧ f.mode = .gradientDescent) f.output (fun k => (g k).db) f.b f'.b n ∧
      Trained B a (f.live ∧ f.mode = .gradientDescent ∧ f.noisy) f.output (fun k => (g k).dnb) f.nb f'.nb n ∧
      ∃ B', (B' = match a with | .nesterov _ _ => 1 | _ => B) ∧
        Trained B' a (f.live ∧ f.layerNorm ∧ f.ln.mode = .gradientDescent) f.ln.dim (fun k => (g k).dgamma) f.ln.gamma f'.ln.gamma n ∧
        Trained B' a (f.live ∧ f.layerNorm ∧ f.ln.mode = .gradientDescent) f.ln.dim (fun k => (g k).dbeta) f.ln.beta f'.ln.beta n := by
  obtain ⟨f', e, F⟩ := trainFcl_follows B a g f h hg n
  exact ⟨f', e, follows_trained F.w hf.w, follows_trained F.nw hf.nw, follows_trained F.sc hf.sc, follows_trained F.b hf.b,
    follows_trained F.nb hf.nb, _, by cases a <;> rfl, follows_trained F.gamma hf.gamma, follows_trained F.beta hf.beta⟩

example : wFcl.WF ∧ wFcl.Fresh ∧ (⟨⟨1, fun _ => 1⟩, ⟨1, fun _ => 1⟩, ⟨1, fun _ => 1⟩, ⟨1, fun _ => 1⟩, ⟨1, fun _ => 1⟩, ⟨1, fun _ => 1⟩,
    ⟨1, fun _ => 1⟩⟩ : FclGrads).Fits wFcl := by
  refine ⟨wFcl_wf, ?_, ⟨rfl, rfl, rfl, rfl, rfl, rfl, rfl⟩⟩
  constructor <;> intro q <;> exact ⟨rfl, rfl, rfl⟩

/-! ### Convolutional layers -/

/-- As `Follows`, for a matrix. -/
def FollowsM (B : ℝ) (a : Algo) (on : Prop) [Decidable on] (r c : Nat) (G : Nat → Mat ℝ) (A0 A : Mat Cell) (n : Nat) : Prop :=
  A.rows = A0.rows ∧ A.cols = A0.cols ∧ ∀ i, i < r → ∀ q, q < c →
    A.get i q = if on then cellRun B a (fun k => (G k).get i q) (A0.get i q) n else A0.get i q

/-- As `Trained`, for a matrix. -/
def TrainedM (B : ℝ) (a : Algo) (on : Prop) [Decidable on] (r c : Nat) (G : Nat → Mat ℝ) (A0 A : Mat Cell) (n : Nat) : Prop :=
  A.rows = A0.rows ∧ A.cols = A0.cols ∧ ∀ i, i < r → ∀ q, q < c →
    (A.get i q).p = if on then a.value (A0.get i q).p (fun k => (G k).get i q / B) n else (A0.get i q).p

/-- Every cell of the matrix is without optimiser state. -/
def FreshMat (A : Mat Cell) : Prop := ∀ i q, (A.get i q).Fresh

theorem followsM_zero (B : ℝ) (a : Algo) (on : Prop) [Decidable on] (r c : Nat) (G : Nat → Mat ℝ) (A : Mat Cell) :
    FollowsM B a on r c G A A 0 := ⟨rfl, rfl, fun i _ q _ => by simp [cellRun]⟩

theorem followsM_trained {B : ℝ} {a : Algo} {on : Prop} [Decidable on] {r c : Nat} {G : Nat → Mat ℝ} {A0 A : Mat Cell} {n : Nat}
    (h : FollowsM B a on r c G A0 A n) (hf : FreshMat A0) : TrainedM B a on r c G A0 A n := by
  refine ⟨h.1, h.2.1, fun i hi q hq => ?_⟩
  rw [h.2.2 i hi q hq]
  by_cases h1 : on
  · rw [if_pos h1, if_pos h1]
    exact cellRun_value B a _ _ (hf i q) n
  · rw [if_neg h1, if_neg h1]

/-- The gradients a backward pass leaves in a convolutional layer. -/
structure ClGrads where
  dk : Mat ℝ
  db : Arr ℝ
  dsc : Arr ℝ

/-- The layer with these gradients. -/
def Cl.withGrads (c : Cl) (g : ClGrads) : Cl := { c with dk := g.dk, db := g.db, dsc := g.dsc }

/-- `n` rounds: gradients, update, next clock. -/
noncomputable def trainCl (B : ℝ) (a : Algo) (g : Nat → ClGrads) (c : Cl) : Nat → Option Cl
  | 0 => some c
  | n + 1 => (trainCl B a g c n).bind fun c' => clUpdate B (a.opt (a.clock n)) (c'.withGrads (g n))

/-- Gradient arrays of the right sizes. -/
structure ClGrads.Fits (g : ClGrads) (c : Cl) : Prop where
  dk : g.dk.rows = c.kernels ∧ g.dk.cols = c.channels * c.kr * c.kc
  db : g.db.len = c.kernels
  dsc : g.dsc.len = c.kernels * c.channels * c.kr * c.kc

/-- What the invariant says of a layer after `n` rounds. -/
structure ClFollows (B : ℝ) (a : Algo) (g : Nat → ClGrads) (c c' : Cl) (n : Nat) : Prop where
  k : FollowsM B a (c.convolution ∧ (c.mode = .gradientDescent ∨ c.mode = .freezeBiases)) c.kernels (c.channels * c.kr * c.kc)
    (fun k => (g k).dk) c.k c'.k n
  b : Follows B a (c.convolution ∧ c.mode = .gradientDescent) c.kernels (fun k => (g k).db) c.b c'.b n
  sc : Follows B a (c.convolution ∧ c.mode = .edgePopup) (c.kernels * c.channels * c.kr * c.kc) (fun k => (g k).dsc) c.sc c'.sc n
  gn : c'.gn.len = c.gn.len ∧ ∀ i, i < c.groups → (c'.gn.get i).WF
  same : c'.mode = c.mode ∧ c'.convolution = c.convolution ∧ c'.groupNorm = c.groupNorm ∧ c'.kernels = c.kernels ∧
    c'.channels = c.channels ∧ c'.kr = c.kr ∧ c'.kc = c.kc ∧ c'.groups = c.groups

theorem trainCl_follows (B : ℝ) (a : Algo) (g : Nat → ClGrads) (c : Cl) (h : c.WF) (hg : ∀ k, (g k).Fits c) (n : Nat) :
    ∃ c', trainCl B a g c n = some c' ∧ ClFollows B a g c c' n := by
  induction n with
  | zero =>
    exact ⟨c, rfl, followsM_zero .., follows_zero .., follows_zero .., ⟨rfl, h.bn⟩, rfl, rfl, rfl, rfl, rfl, rfl, rfl, rfl⟩
  | succ n ih =>
    obtain ⟨c1, e, F⟩ := ih
    obtain ⟨s1, s2, s3, s4, s5, s6, s7, s8⟩ := F.same
    have G := hg n
    have wf : (c1.withGrads (g n)).WF := by
      refine ⟨?_, ?_, ?_, ?_, ?_, ?_, ?_, ?_, ?_, ?_⟩
      · simp only [Cl.withGrads, s4]; exact F.k.1.trans h.krows
      · simp only [Cl.withGrads, s5, s6, s7]; exact F.k.2.1.trans h.kcols
      · simp only [Cl.withGrads, s4]; exact G.dk.1
      · simp only [Cl.withGrads, s5, s6, s7]; exact G.dk.2
      · simp only [Cl.withGrads, s4]; exact F.b.1.trans h.b
      · simp only [Cl.withGrads, s4]; exact G.db
      · simp only [Cl.withGrads, s4, s5, s6, s7]; exact F.sc.1.trans h.sc
      · simp only [Cl.withGrads, s4, s5, s6, s7]; exact G.dsc
      · simp only [Cl.withGrads, s8]; exact F.gn.1.trans h.gn
      · simp only [Cl.withGrads, s8]; exact F.gn.2
    obtain ⟨c2, e2, M⟩ := C42_cl_partial B (a.opt (a.clock n)) (c1.withGrads (g n)) wf
    have r := M.rest
    refine ⟨c2, (bind_some_of e).trans e2, ?_⟩
    obtain ⟨k1, k2, k3⟩ := M.k
    have m2 := M.b
    have m3 := M.sc
    obtain ⟨g1, g2⟩ := M.gn
    simp only [Cl.withGrads, s1, s2, s4, s5, s6, s7, s8] at k1 k2 k3 m2 m3 g1 g2
    refine ⟨⟨k1.trans F.k.1, k2.trans F.k.2.1, fun i hi q hq => ?_⟩, follows_succ F.b m2, follows_succ F.sc m3,
      ⟨g1.trans F.gn.1, fun i hi => ?_⟩, ?_⟩
    · rw [k3 i hi q hq, F.k.2.2 i hi q hq]
      by_cases hc : c.convolution = true ∧ (c.mode = .gradientDescent ∨ c.mode = .freezeBiases)
      · rw [if_pos hc, if_pos hc, if_pos hc]; rfl
      · rw [if_neg hc, if_neg hc, if_neg hc]
    · obtain ⟨x1, x2, x3, x4, x5, x6⟩ := g2 i hi
      obtain ⟨w1, w2, w3, w4⟩ := F.gn.2 i hi
      exact ⟨x1.1.trans (w1.trans x4.symm), (by rw [x5]; exact w2.trans x4.symm), x2.1.trans (w3.trans x4.symm),
        (by rw [x6]; exact w4.trans x4.symm)⟩
    · rw [r]
      exact ⟨s1, s2, s3, s4, s5, s6, s7, s8⟩

/-- **C42 over histories, convolutional layers.** As for fully-connected layers, for
kernels, biases and scores. -/
theorem C42_cl_history (B : ℝ) (a : Algo) (g : Nat → ClGrads) (c : Cl) (h : c.WF) (hk : FreshMat c.k) (hb : FreshArr c.b)
    (hs : FreshArr c.sc) (hg : ∀ k, (g k).Fits c) (n : Nat) :
    ∃ c', trainCl B a g c n = some c' ∧
      TrainedM B a (c.convolution ∧ (c.mode = .gradientDescent ∨ c.mode = .freezeBiases)) c.kernels (c.channels * c.kr * c.kc)
        (fun k => (g k).dk) c.k c'.k n ∧
      Trained B a (c.convolution ∧ c.mode = .gradientDescent) c.kernels (fun k => (g k).db) c.b c'.b n ∧
      Trained B a (c.convolution ∧ c.mode = .edgePopup) (c.kernels * c.channels * c.kr * c.kc) (fun k => (g k).dsc) c.sc c'.sc n := by
  obtain ⟨c', e, F⟩ := trainCl_follows B a g c h hg n
  exact ⟨c', e, followsM_trained F.k hk, follows_trained F.b hb, follows_trained F.sc hs⟩

example : wCl.WF ∧ FreshMat wCl.k ∧ FreshArr wCl.b ∧ FreshArr wCl.sc ∧
    (⟨⟨2, 1, fun _ _ => 1⟩, ⟨2, fun _ => 1⟩, ⟨2, fun _ => 1⟩⟩ : ClGrads).Fits wCl :=
  ⟨wCl_wf, fun _ _ => ⟨rfl, rfl, rfl⟩, fun _ => ⟨rfl, rfl, rfl⟩, fun _ => ⟨rfl, rfl, rfl⟩, ⟨rfl, rfl⟩, rfl, rfl⟩

/-! ### LSTM layers -/

/-- The gradients a backward pass leaves in an LSTM layer. -/
structure LstmGrads where
  dw : Mat ℝ
  du : Mat ℝ
  db : Mat ℝ

/-- The layer with these gradients. -/
def Lstm.withGrads (l : Lstm) (g : LstmGrads) : Lstm := { l with dw := g.dw, du := g.du, db := g.db }

/-- `n` rounds: gradients, update, next clock. -/
noncomputable def trainLstm (B : ℝ) (a : Algo) (g : Nat → LstmGrads) (l : Lstm) : Nat → Option Lstm
  | 0 => some l
  | n + 1 => (trainLstm B a g l n).bind fun l' => lstmUpdate B (a.opt (a.clock n)) (l'.withGrads (g n))

/-- Gradient arrays of the right sizes. -/
structure LstmGrads.Fits (g : LstmGrads) (l : Lstm) : Prop where
  dw : g.dw.rows = 4 ∧ g.dw.cols = l.output * l.input
  du : g.du.rows = 4 ∧ g.du.cols = l.output * l.output
  db : g.db.rows = 4 ∧ g.db.cols = l.output

theorem followsM_succ {B : ℝ} {a : Algo} {G : Nat → Mat ℝ} {A0 A A' : Mat Cell} {n : Nat}
    (h : FollowsM B a True A0.rows A0.cols G A0 A n) (hm : MovedM B (a.opt (a.clock n)) (G n) A A') :
    FollowsM B a True A0.rows A0.cols G A0 A' (n + 1) := by
  refine ⟨hm.1.trans h.1, hm.2.1.trans h.2.1, fun i hi q hq => ?_⟩
  rw [hm.2.2 i (by rw [h.1]; exact hi) q (by rw [h.2.1]; exact hq), h.2.2 i hi q hq]
  rfl

/-- **C42 over histories, LSTM layers.** In gradient-descent mode every weight,
recurrent weight and bias of the four gates follows the closed form. -/
theorem C42_lstm_history (B : ℝ) (a : Algo) (g : Nat → LstmGrads) (l : Lstm) (h : l.WF) (hm : l.mode = .gradientDescent)
    (hw : FreshMat l.w) (hu : FreshMat l.u) (hb : FreshMat l.b) (hg : ∀ k, (g k).Fits l) (n : Nat) :
    ∃ l', trainLstm B a g l n = some l' ∧
      TrainedM B a True 4 (l.output * l.input) (fun k => (g k).dw) l.w l'.w n ∧
      TrainedM B a True 4 (l.output * l.output) (fun k => (g k).du) l.u l'.u n ∧
      TrainedM B a True 4 l.output (fun k => (g k).db) l.b l'.b n := by
  have key : ∃ l', trainLstm B a g l n = some l' ∧ FollowsM B a True l.w.rows l.w.cols (fun k => (g k).dw) l.w l'.w n ∧
      FollowsM B a True l.u.rows l.u.cols (fun k => (g k).du) l.u l'.u n ∧
      FollowsM B a True l.b.rows l.b.cols (fun k => (g k).db) l.b l'.b n ∧
      l'.mode = l.mode ∧ l'.input = l.input ∧ l'.output = l.output ∧ l'.ws = l.ws ∧ l'.dws = l.dws ∧ l'.us = l.us ∧ l'.dus = l.dus := by
    induction n with
    | zero => exact ⟨l, rfl, followsM_zero .., followsM_zero .., followsM_zero .., rfl, rfl, rfl, rfl, rfl, rfl, rfl⟩
    | succ n ih =>
      obtain ⟨l1, e, F1, F2, F3, s1, s2, s3, s4, s5, s6, s7⟩ := ih
      have G := hg n
      have wf : (l1.withGrads (g n)).WF := by
        refine ⟨?_, ?_, ?_, ?_, ?_, ?_, ?_, ?_, ?_, ?_⟩ <;> simp only [Lstm.withGrads, s2, s3, s4, s5, s6, s7]
        · exact ⟨F1.1.trans h.w.1, F1.2.1.trans h.w.2⟩
        · exact G.dw
        · exact ⟨F2.1.trans h.u.1, F2.2.1.trans h.u.2⟩
        · exact G.du
        · exact ⟨F3.1.trans h.b.1, F3.2.1.trans h.b.2⟩
        · exact G.db
        · exact h.ws
        · exact h.dws
        · exact h.us
        · exact h.dus
      obtain ⟨l2, e2, M1, M2, M3, r⟩ := C42_lstm B (a.opt (a.clock n)) (l1.withGrads (g n)) wf (s1.trans hm)
      refine ⟨l2, (bind_some_of e).trans e2, followsM_succ F1 M1, followsM_succ F2 M2, followsM_succ F3 M3, ?_⟩
      rw [r]
      exact ⟨s1, s2, s3, s4, s5, s6, s7⟩
  obtain ⟨l', e, F1, F2, F3, _⟩ := key
  rw [h.w.1, h.w.2] at F1
  rw [h.u.1, h.u.2] at F2
  rw [h.b.1, h.b.2] at F3
  exact ⟨l', e, followsM_trained F1 hw, followsM_trained F2 hu, followsM_trained F3 hb⟩

/-! ### L2 regularisation inside `update_model` -/

open LLab.Regularize in
/-- `add_l2_fully_connected_layer` on this layer. -/
noncomputable def l2Fcl (lam : ℝ) (n : Nat) (f : Fcl) : Option Fcl :=
  (regFcl lam n ⟨f.input, f.output, f.mode, ⟨f.w.len, fun q => (f.w.get q).p⟩, f.dw, f.dsc⟩).bind fun r =>
    some { f with dw := r.dw, dsc := r.ds }

/-- `update_model` (`/repo/src/update.c` 1019-1062) on a model with one fully-connected
layer: `lambda` is multiplied by the batch size before the penalty is added. -/
noncomputable def updateFcl (B : ℝ) (o : Opt) (l2 : Bool) (lam : ℝ) (n : Nat) (f : Fcl) : Option Fcl :=
  (if l2 then l2Fcl (lam * B) n f else some f).bind (fclUpdate B o)

theorem stepCell_mean (B : ℝ) (o : Opt) (dp : ℝ) (c : Cell) : stepCell B o dp c = stepCell 1 o (dp / B) c := by
  cases o <;> simp [stepCell, nesterov, adam, radam, diffGrad, Optim.adamod]

open LLab.Regularize in
/-- **C77 inside an update.** With L2 regularisation each trained weight makes the
step for batch size one and gradient "batch average plus the derivative of
`lambda / (2 n) * sum of squares`", whatever the batch size. -/
theorem C77_update (B : ℝ) (hB : B ≠ 0) (o : Opt) (lam : ℝ) (n : Nat) (f : Fcl) (h : f.WF) (hl : f.live)
    (hm : f.mode = .gradientDescent) :
    ∃ f', updateFcl B o true lam n f = some f' ∧ ∀ q, q < f.output * f.input →
      f'.w.get q = stepCell 1 o (f.dw.get q / B + lam / n * (f.w.get q).p) (f.w.get q) := by
  set r : RFcl := ⟨f.input, f.output, f.mode, ⟨f.w.len, fun q => (f.w.get q).p⟩, f.dw, f.dsc⟩ with hr
  set d : Arr ℝ := ⟨f.dw.len, fun k => f.dw.get k + if k < f.output * f.input then lam * B / n * (f.w.get k).p else 0⟩ with hd
  have e1 : l2Fcl (lam * B) n f = some { f with dw := d } := by
    unfold l2Fcl
    rw [← hr]
    have : regFcl (lam * B) n r = some { r with dw := d } := by
      unfold regFcl
      rw [if_pos (show r.mode = .gradientDescent from hm)]
      rw [loop_mul r.output r.input (fun i d => ridge (lam * B) n r.w i d i),
        ridge_all _ _ _ _ _ (le_of_eq h.w.symm) (le_of_eq h.dw.symm)]
      rfl
    exact bind_some_of this
  have wf : ({ f with dw := d } : Fcl).WF := ⟨h.w, h.dw, h.nw, h.dnw, h.sc, h.dsc, h.b, h.db, h.nb, h.dnb, h.ln⟩
  obtain ⟨f', e2, M⟩ := C42_fcl B o { f with dw := d } wf
  refine ⟨f', ?_, fun q hq' => ?_⟩
  · unfold updateFcl
    rw [if_pos rfl]
    exact (bind_some_of e1).trans e2
  · have m := M.w.2 q
    dsimp only at m
    rw [if_pos hq', if_pos ⟨hl, Or.inl hm⟩, Function.iterate_one, stepCell_mean] at m
    rw [m, hd]
    dsimp only
    rw [if_pos hq']
    congr 1
    field_simp

end LLab.Update
