import Verif.Layers.BPTTMath

/-!
Mathematics of back-propagation through time for stacked LSTM layers: the tangents of a
layer whose inputs move too, the input errors that pair with them, and the induction over
the layers from the top.
-/

namespace LLab.LSTM

open Finset LLab.Act

/-- Tangents of `(h_t, c_t)` for pre-activations `P`, states `S` and an arbitrary explicit
velocity `E` of the pre-activations. -/
noncomputable def tanE (m : Nat) (U : Nat → Nat → ℝ) (mask : Nat → ℝ) (P : Nat → Nat → Nat → ℝ)
    (S : Nat → (Nat → ℝ) × (Nat → ℝ)) (E : Nat → Nat → Nat → ℝ) : Nat → (Nat → ℝ) × (Nat → ℝ)
  | 0 => (fun _ => 0, fun _ => 0)
  | t + 1 =>
    let d := tanE m U mask P S E t
    let p' := fun g i => E t g i + ∑ j ∈ range m, U g (i * m + j) * (mask j * d.1 j)
    let c' := cellDot (P t) p' (S t).2 d.2
    (fun i => dSigmoid (P t 2 i) * p' 2 i * tanhh ((S (t + 1)).2 i) +
      sigmoid (P t 2 i) * (dTanhh ((S (t + 1)).2 i) * c' i), c')

section
variable (m : Nat) (U : Nat → Nat → ℝ) (mask : Nat → ℝ) (P : Nat → Nat → Nat → ℝ)
  (S : Nat → (Nat → ℝ) × (Nat → ℝ)) (E : Nat → Nat → Nat → ℝ)

local notation "Tg" => tanE m U mask P S E

theorem step_pairE (t : Nat) (dh carry : Nat → ℝ) :
    ∑ i ∈ range m, dh i * (Tg (t + 1)).1 i + ∑ i ∈ range m, carry i * (Tg (t + 1)).2 i =
      ∑ i ∈ range m, ∑ g ∈ range 4,
        gateErr (P t) (gateD (P t) (S (t + 1)).2 (S t).2 dh carry) g i * E t g i +
      (∑ j ∈ range m, backH m U mask (P t) (gateD (P t) (S (t + 1)).2 (S t).2 dh carry) j * (Tg t).1 j +
        ∑ i ∈ range m, backC (P t) (gateD (P t) (S (t + 1)).2 (S t).2 dh carry) i * (Tg t).2 i) := by
  rw [← backH_pair, ← Finset.sum_add_distrib, ← add_assoc, ← Finset.sum_add_distrib, ← Finset.sum_add_distrib]
  refine Finset.sum_congr rfl fun i _ => ?_
  refine (unit_transpose (P t) (fun g i => E t g i + ∑ j ∈ range m, U g (i * m + j) * (mask j * (Tg t).1 j))
    (S (t + 1)).2 (S t).2 (Tg t).2 dh carry i).trans ?_
  congr 1
  rw [← Finset.sum_add_distrib]
  refine Finset.sum_congr rfl fun g _ => ?_
  ring

theorem window_pairE (T : Nat) (e : Nat → Nat → ℝ) (k : Nat) (hk : k < T) :
    ∑ κ ∈ range (k + 1), ∑ i ∈ range m, e (T - 1 - κ) i * (Tg (T - 1 - κ + 1)).1 i =
      ∑ κ ∈ range (k + 1), ∑ i ∈ range m, ∑ g ∈ range 4,
        gateErr (P (T - 1 - κ)) (adj m T U mask P (fun t => (S t).2) e κ) g i * E (T - 1 - κ) g i +
      (∑ j ∈ range m, backH m U mask (P (T - 1 - k)) (adj m T U mask P (fun t => (S t).2) e k) j *
          (Tg (T - 1 - k)).1 j +
        ∑ i ∈ range m, backC (P (T - 1 - k)) (adj m T U mask P (fun t => (S t).2) e k) i *
          (Tg (T - 1 - k)).2 i) := by
  induction k with
  | zero =>
    have := step_pairE m U mask P S E (T - 1) (e (T - 1)) (fun _ => 0)
    simp only [zero_mul, Finset.sum_const_zero, add_zero] at this
    simp only [zero_add, Finset.sum_range_one, Nat.sub_zero]
    rw [this, show T - 1 + 1 = T by omega]
    rfl
  | succ k ih =>
    have hstep := step_pairE m U mask P S E (T - 1 - (k + 1))
      (fun j => e (T - 1 - (k + 1)) j + backH m U mask (P (T - 1 - k)) (adj m T U mask P (fun t => (S t).2) e k) j)
      (fun i => backC (P (T - 1 - k)) (adj m T U mask P (fun t => (S t).2) e k) i)
    have hT : T - 1 - (k + 1) + 1 = T - 1 - k := by omega
    rw [hT] at hstep
    rw [Finset.sum_range_succ, Finset.sum_range_succ _ (k + 1), ih (by omega), hT]
    rw [show adj m T U mask P (fun t => (S t).2) e (k + 1) = gateD (P (T - 1 - (k + 1))) (S (T - 1 - k)).2
      (S (T - 1 - (k + 1))).2
      (fun j => e (T - 1 - (k + 1)) j + backH m U mask (P (T - 1 - k)) (adj m T U mask P (fun t => (S t).2) e k) j)
      (fun i => backC (P (T - 1 - k)) (adj m T U mask P (fun t => (S t).2) e k) i) from rfl]
    simp only [add_mul, Finset.sum_add_distrib] at hstep
    linarith

/-- The error-weighted tangents of the hidden states of a window of `T ≥ 1` steps. -/
theorem bptt_pairE (T : Nat) (hT : 1 ≤ T) (e : Nat → Nat → ℝ) :
    ∑ t ∈ range T, ∑ i ∈ range m, e t i * (Tg (t + 1)).1 i =
      ∑ κ ∈ range T, ∑ i ∈ range m, ∑ g ∈ range 4,
        gateErr (P (T - 1 - κ)) (adj m T U mask P (fun t => (S t).2) e κ) g i * E (T - 1 - κ) g i := by
  have h := window_pairE m U mask P S E T e (T - 1) (by omega)
  rw [show T - 1 + 1 = T by omega, Nat.sub_self] at h
  rw [show Tg 0 = (fun _ => 0, fun _ => 0) from rfl] at h
  simp only [mul_zero, Finset.sum_const_zero, add_zero] at h
  rw [← h, ← Finset.sum_range_reflect]

end

/-! ### A layer whose inputs move -/

/-- One layer: sizes, initial contents of the pre-activation arrays, dropout masks of the
recurrent and of the upward connection, initial hidden and cell state, parameters. -/
structure LP where
  (n m : Nat)
  (z0 : Nat → Nat → Nat → ℝ)
  (maskR maskU h0 c0 : Nat → ℝ)
  (W U B : Nat → Nat → ℝ)

/-- States of the layer on the inputs `x`. -/
noncomputable def LP.st (l : LP) (x : Nat → Nat → ℝ) : Nat → (Nat → ℝ) × (Nat → ℝ) :=
  states l.n l.m l.z0 x l.maskR l.h0 l.c0 l.W l.U l.B

/-- Pre-activations of the layer on the inputs `x`. -/
noncomputable def LP.pr (l : LP) (x : Nat → Nat → ℝ) : Nat → Nat → Nat → ℝ :=
  preAt l.n l.m l.z0 x l.maskR l.h0 l.c0 l.W l.U l.B

/-- What the layer hands up: the masked hidden states. -/
noncomputable def LP.out (l : LP) (x : Nat → Nat → ℝ) (t j : Nat) : ℝ := l.maskU j * (l.st x (t + 1)).1 j

/-- Velocity of the pre-activations of step `t` at fixed state, when the parameters move with
`W', U', B'` and the inputs with `x'`. -/
noncomputable def LP.expl (l : LP) (x : Nat → Nat → ℝ) (W' U' B' : Nat → Nat → ℝ) (x' : Nat → Nat → ℝ)
    (t g i : Nat) : ℝ :=
  explicit l.n l.m W' U' B' (x t) (fun j => l.maskR j * (l.st x t).1 j) g i +
    ∑ j ∈ range l.n, l.W g (i * l.n + j) * x' t j

/-- The layer with other parameters. -/
def LP.withP (l : LP) (W U B : Nat → Nat → ℝ) : LP := { l with W := W, U := U, B := B }

/-- Tangents of the states of the layer. -/
noncomputable def LP.tg (l : LP) (x : Nat → Nat → ℝ) (W' U' B' : Nat → Nat → ℝ) (x' : Nat → Nat → ℝ) :
    Nat → (Nat → ℝ) × (Nat → ℝ) :=
  tanE l.m l.U l.maskR (l.pr x) (l.st x) (l.expl x W' U' B' x')

theorem LP.hasDerivAt (l : LP) (W U B : ℝ → Nat → Nat → ℝ) (W' U' B' : Nat → Nat → ℝ) (x : ℝ → Nat → Nat → ℝ)
    (x' : Nat → Nat → ℝ) (s0 : ℝ)
    (hW : ∀ g k, HasDerivAt (fun s => W s g k) (W' g k) s0)
    (hU : ∀ g k, HasDerivAt (fun s => U s g k) (U' g k) s0)
    (hB : ∀ g k, HasDerivAt (fun s => B s g k) (B' g k) s0)
    (hx : ∀ t j, HasDerivAt (fun s => x s t j) (x' t j) s0) (t : Nat) :
    (∀ i, HasDerivAt (fun s => ((l.withP (W s) (U s) (B s)).st (x s) t).1 i)
      (((l.withP (W s0) (U s0) (B s0)).tg (x s0) W' U' B' x' t).1 i) s0) ∧
    (∀ i, HasDerivAt (fun s => ((l.withP (W s) (U s) (B s)).st (x s) t).2 i)
      (((l.withP (W s0) (U s0) (B s0)).tg (x s0) W' U' B' x' t).2 i) s0) := by
  induction t with
  | zero => exact ⟨fun i => hasDerivAt_const _ _, fun i => hasDerivAt_const _ _⟩
  | succ t ih =>
    have hp : ∀ g i, HasDerivAt (fun s => (l.withP (W s) (U s) (B s)).pr (x s) t g i)
        ((l.withP (W s0) (U s0) (B s0)).expl (x s0) W' U' B' x' t g i +
          ∑ j ∈ range l.m, U s0 g (i * l.m + j) *
            (l.maskR j * ((l.withP (W s0) (U s0) (B s0)).tg (x s0) W' U' B' x' t).1 j)) s0 := by
      intro g i
      have h1 : HasDerivAt (fun s => ∑ j ∈ range l.n, W s g (i * l.n + j) * x s t j)
          (∑ j ∈ range l.n, (W' g (i * l.n + j) * x s0 t j + W s0 g (i * l.n + j) * x' t j)) s0 :=
        HasDerivAt.fun_sum fun j _ => (hW g _).fun_mul (hx t j)
      have h2 : HasDerivAt (fun s => ∑ j ∈ range l.m, U s g (i * l.m + j) *
          (l.maskR j * ((l.withP (W s) (U s) (B s)).st (x s) t).1 j))
          (∑ j ∈ range l.m, (U' g (i * l.m + j) * (l.maskR j * ((l.withP (W s0) (U s0) (B s0)).st (x s0) t).1 j) +
            U s0 g (i * l.m + j) *
              (l.maskR j * ((l.withP (W s0) (U s0) (B s0)).tg (x s0) W' U' B' x' t).1 j))) s0 :=
        HasDerivAt.fun_sum fun j _ => (hU g _).fun_mul ((ih.1 j).const_mul _)
      refine (((h1.const_add (l.z0 t g i)).fun_add h2).fun_add (hB g i)).congr_deriv ?_
      rw [Finset.sum_add_distrib, Finset.sum_add_distrib]
      unfold LP.expl explicit LP.withP
      dsimp only
      ring
    have hc : ∀ i, HasDerivAt (fun s => ((l.withP (W s) (U s) (B s)).st (x s) (t + 1)).2 i)
        (((l.withP (W s0) (U s0) (B s0)).tg (x s0) W' U' B' x' (t + 1)).2 i) s0 := by
      intro i
      have e3 := (C20_tanh _).comp s0 (hp 3 i)
      have e1 := (C20_sigmoid _).comp s0 (hp 1 i)
      have e0 := (C20_sigmoid _).comp s0 (hp 0 i)
      exact (e3.fun_mul e1).fun_add ((ih.2 i).fun_mul e0)
    refine ⟨fun i => ?_, hc⟩
    have e2 := (C20_sigmoid _).comp s0 (hp 2 i)
    have ec := (C20_tanh _).comp s0 (hc i)
    exact e2.fun_mul ec

/-- Adjoints of step `T-1-κ` of the layer for the error `e` on its output. -/
noncomputable def LP.ad (l : LP) (x : Nat → Nat → ℝ) (T : Nat) (e : Nat → Nat → ℝ) : Nat → Nat → Nat → ℝ :=
  adj l.m T l.U l.maskR (l.pr x) (fun t => (l.st x t).2) (fun t i => l.maskU i * e t i)

/-- The error on the inputs of step `t`. -/
noncomputable def LP.inErr (l : LP) (x : Nat → Nat → ℝ) (T : Nat) (e : Nat → Nat → ℝ) (t j : Nat) : ℝ :=
  ∑ i ∈ range l.m, ∑ g ∈ range 4, gateErr (l.pr x t) (l.ad x T e (T - 1 - t)) g i * l.W g (i * l.n + j)

/-- What the parameters of the layer contribute. -/
noncomputable def LP.param (l : LP) (x : Nat → Nat → ℝ) (T : Nat) (e : Nat → Nat → ℝ) (W' U' B' : Nat → Nat → ℝ) : ℝ :=
  ∑ κ ∈ range T, ∑ i ∈ range l.m, ∑ g ∈ range 4, gateErr (l.pr x (T - 1 - κ)) (l.ad x T e κ) g i *
    explicit l.n l.m W' U' B' (x (T - 1 - κ)) (fun j => l.maskR j * (l.st x (T - 1 - κ)).1 j) g i

/-- **Pairing for one layer with moving inputs.** -/
theorem LP.pair (l : LP) (x : Nat → Nat → ℝ) (T : Nat) (hT : 1 ≤ T) (e : Nat → Nat → ℝ) (W' U' B' : Nat → Nat → ℝ)
    (x' : Nat → Nat → ℝ) :
    ∑ t ∈ range T, ∑ i ∈ range l.m, e t i * (l.maskU i * (l.tg x W' U' B' x' (t + 1)).1 i) =
      l.param x T e W' U' B' + ∑ t ∈ range T, ∑ j ∈ range l.n, l.inErr x T e t j * x' t j := by
  have h := bptt_pairE l.m l.U l.maskR (l.pr x) (l.st x) (l.expl x W' U' B' x') T hT (fun t i => l.maskU i * e t i)
  have hl : ∑ t ∈ range T, ∑ i ∈ range l.m, e t i * (l.maskU i * (l.tg x W' U' B' x' (t + 1)).1 i) =
      ∑ t ∈ range T, ∑ i ∈ range l.m, (l.maskU i * e t i) * (l.tg x W' U' B' x' (t + 1)).1 i :=
    Finset.sum_congr rfl fun t _ => Finset.sum_congr rfl fun i _ => by ring
  refine hl.trans (h.trans ?_)
  have hin : ∑ t ∈ range T, ∑ j ∈ range l.n, l.inErr x T e t j * x' t j =
      ∑ κ ∈ range T, ∑ i ∈ range l.m, ∑ g ∈ range 4, gateErr (l.pr x (T - 1 - κ)) (l.ad x T e κ) g i *
        ∑ j ∈ range l.n, l.W g (i * l.n + j) * x' (T - 1 - κ) j := by
    rw [← Finset.sum_range_reflect]
    refine Finset.sum_congr rfl fun κ hκ => ?_
    have hκ := Finset.mem_range.1 hκ
    unfold LP.inErr
    rw [show T - 1 - (T - 1 - κ) = κ by omega]
    simp only [Finset.sum_mul, Finset.mul_sum]
    rw [Finset.sum_comm]
    refine Finset.sum_congr rfl fun i _ => ?_
    rw [Finset.sum_comm]
    exact Finset.sum_congr rfl fun g _ => Finset.sum_congr rfl fun j _ => by ring
  rw [hin]
  unfold LP.param LP.expl
  rw [← Finset.sum_add_distrib]
  refine Finset.sum_congr rfl fun κ _ => ?_
  rw [← Finset.sum_add_distrib]
  refine Finset.sum_congr rfl fun i _ => ?_
  rw [← Finset.sum_add_distrib]
  refine Finset.sum_congr rfl fun g _ => ?_
  exact mul_add _ _ _

/-! ### The stack -/

/-- What layer `l` of the stack reads: the inputs for the lowest, the output of the layer
below otherwise. -/
noncomputable def stackIn (ls : Nat → LP) (x : Nat → Nat → ℝ) : Nat → Nat → Nat → ℝ
  | 0 => x
  | l + 1 => (ls l).out (stackIn ls x l)

/-- Velocity of what layer `l` reads. -/
noncomputable def stackIn' (ls : Nat → LP) (x : Nat → Nat → ℝ) (W' U' B' : Nat → Nat → Nat → ℝ)
    (x' : Nat → Nat → ℝ) : Nat → Nat → Nat → ℝ
  | 0 => x'
  | l + 1 => fun t j => (ls l).maskU j *
      ((ls l).tg (stackIn ls x l) (W' l) (U' l) (B' l) (stackIn' ls x W' U' B' x' l) (t + 1)).1 j

theorem stackIn_hasDerivAt (ls : Nat → LP) (W U B : ℝ → Nat → Nat → Nat → ℝ) (W' U' B' : Nat → Nat → Nat → ℝ)
    (x : ℝ → Nat → Nat → ℝ) (x' : Nat → Nat → ℝ) (s0 : ℝ)
    (hW : ∀ l g k, HasDerivAt (fun s => W s l g k) (W' l g k) s0)
    (hU : ∀ l g k, HasDerivAt (fun s => U s l g k) (U' l g k) s0)
    (hB : ∀ l g k, HasDerivAt (fun s => B s l g k) (B' l g k) s0)
    (hx : ∀ t j, HasDerivAt (fun s => x s t j) (x' t j) s0) (l : Nat) :
    ∀ t j, HasDerivAt (fun s => stackIn (fun l => (ls l).withP (W s l) (U s l) (B s l)) (x s) l t j)
      (stackIn' (fun l => (ls l).withP (W s0 l) (U s0 l) (B s0 l)) (x s0) W' U' B' x' l t j) s0 := by
  induction l with
  | zero => exact hx
  | succ l ih =>
    intro t j
    exact ((LP.hasDerivAt (ls l) (fun s => W s l) (fun s => U s l) (fun s => B s l) (W' l) (U' l) (B' l)
      (fun s => stackIn (fun l => (ls l).withP (W s l) (U s l) (B s l)) (x s) l) _ s0 (hW l) (hU l) (hB l) ih
      (t + 1)).1 j).const_mul _

/-- The error on the output of layer `L-1-d`, for the error `e` on the output of the top
layer `L-1`. -/
noncomputable def outErr (ls : Nat → LP) (x : Nat → Nat → ℝ) (T L : Nat) (e : Nat → Nat → ℝ) :
    Nat → Nat → Nat → ℝ
  | 0 => e
  | d + 1 => (ls (L - 1 - d)).inErr (stackIn ls x (L - 1 - d)) T (outErr ls x T L e d)

/-- **Pairing for the stack.** -/
theorem stack_pair (ls : Nat → LP) (x : Nat → Nat → ℝ) (T L : Nat) (hT : 1 ≤ T) (e : Nat → Nat → ℝ)
    (W' U' B' : Nat → Nat → Nat → ℝ) (x' : Nat → Nat → ℝ) (hw : ∀ l, l + 1 < L → (ls (l + 1)).n = (ls l).m) (d : Nat)
    (hd : d ≤ L) :
    ∑ t ∈ range T, ∑ i ∈ range (ls (L - 1)).m, e t i * stackIn' ls x W' U' B' x' L t i =
      ∑ d' ∈ range d, (ls (L - 1 - d')).param (stackIn ls x (L - 1 - d')) T (outErr ls x T L e d')
          (W' (L - 1 - d')) (U' (L - 1 - d')) (B' (L - 1 - d')) +
        ∑ t ∈ range T, ∑ j ∈ range (if d = 0 then (ls (L - 1)).m else (ls (L - d)).n),
          outErr ls x T L e d t j * stackIn' ls x W' U' B' x' (L - d) t j := by
  induction d with
  | zero => simp [outErr]
  | succ d ih =>
    rw [ih (by omega), Finset.sum_range_succ]
    have hm : (if d = 0 then (ls (L - 1)).m else (ls (L - d)).n) = (ls (L - 1 - d)).m := by
      by_cases h0 : d = 0
      · rw [if_pos h0, h0, Nat.sub_zero]
      · rw [if_neg h0, show L - d = (L - 1 - d) + 1 by omega]
        exact hw _ (by omega)
    rw [hm, if_neg (Nat.succ_ne_zero d), add_assoc]
    congr 1
    have h := (ls (L - 1 - d)).pair (stackIn ls x (L - 1 - d)) T hT (outErr ls x T L e d) (W' (L - 1 - d))
      (U' (L - 1 - d)) (B' (L - 1 - d)) (stackIn' ls x W' U' B' x' (L - 1 - d))
    rw [show L - (d + 1) = L - 1 - d by omega]
    refine Eq.trans ?_ h
    rw [show L - d = (L - 1 - d) + 1 by omega]
    rfl

end LLab.LSTM
