import Verif.Net.BatchStep
import Mathlib.Analysis.Calculus.FDeriv.Comp
import Mathlib.Analysis.Calculus.FDeriv.Mul
import Mathlib.Analysis.Calculus.FDeriv.Add
import Mathlib.Analysis.Calculus.Deriv.Slope

/-!
A mini batch of plain gradient descent with a small enough learning rate lowers the loss of the
batch (property C139). The model and the step are in `Verif.Net.BatchStep`.
-/

namespace LLab.Batch

open Finset LLab.Chain

/-! ### Only the parameters of the layers matter -/

/-- The same parameters wherever the architecture has one. -/
def Agree (arch : List LayerSpec) (i : Nat) (θ θ' : Params) : Prop :=
  ∀ l a, arch[l]? = some a → (∀ q, q < a.output * a.input → θ'.w (i + l) q = θ.w (i + l) q) ∧
    ∀ q, q < a.output → θ'.b (i + l) q = θ.b (i + l) q

theorem Agree.tail {a : LayerSpec} {as : List LayerSpec} {i : Nat} {θ θ' : Params} (h : Agree (a :: as) i θ θ') : Agree as (i + 1) θ θ' := by
  intro l b hb
  have := h (l + 1) b hb
  rwa [show i + (l + 1) = i + 1 + l by omega] at this

theorem net_agree {m : Nat} {d : Nat → Nat → Bool} {θ θ' : Params} : ∀ {arch : List LayerSpec} {i n : Nat} {x y : Nat → ℝ}, ArchOk m n arch →
    Agree arch i θ θ' → (∀ k, k < n → y k = x k) → ∀ o, o < m → net (layersOf θ' d i arch) y o = net (layersOf θ d i arch) x o
  | [], _, n, x, y, h, _, hx, o, ho => hx o (by have : n = m := h; omega)
  | a :: as, i, n, x, y, h, hA, hx, o, ho => by
    obtain ⟨h1, h2, h3⟩ := h
    refine net_agree h3 hA.tail (fun k hk => ?_) o ho
    obtain ⟨hw, hb⟩ := hA 0 a rfl
    rw [Nat.add_zero] at hw hb
    unfold Unit.fn
    congr 1
    refine actFn_congr a.act (fun j hj => ?_) hk
    show ∑ p ∈ range a.input, θ'.w i (j * a.input + p) * y p + θ'.b i j = ∑ p ∈ range a.input, θ.w i (j * a.input + p) * x p + θ.b i j
    rw [hb j hj]
    congr 1
    refine Finset.sum_congr rfl fun p hp => ?_
    have hp : p < a.input := Finset.mem_range.1 hp
    rw [hx p (by omega), hw]
    calc j * a.input + p < j * a.input + a.input := by omega
      _ = (j + 1) * a.input := by ring
      _ ≤ a.output * a.input := Nat.mul_le_mul_right _ hj

theorem loss_agree {T : Task} {arch : List LayerSpec} {B : Nat} {S : Nat → Sample} {θ θ' : Params} (h : ArchOk T.m T.n arch)
    (hA : Agree arch 0 θ θ') : batchLoss T arch B S θ' = batchLoss T arch B S θ := by
  unfold batchLoss sampleLoss
  refine Finset.sum_congr rfl fun k _ => Finset.sum_congr rfl fun o ho => ?_
  rw [net_agree h hA (fun _ _ => rfl) o (Finset.mem_range.1 ho)]

/-! ### The loss is differentiable in all parameters together -/

theorem act_differentiable {E : Type} [NormedAddCommGroup E] [NormedSpace ℝ E] (a : Act) {n : Nat} {Z : E → Nat → ℝ} {e0 : E}
    (hZ : ∀ k, k < n → DifferentiableAt ℝ (fun e => Z e k) e0) (hk : a = .relu ∨ a = .leaky ∨ a = .elu → ∀ k, k < n → Z e0 k ≠ 0)
    (k : Nat) (hlt : k < n) : DifferentiableAt ℝ (fun e => actFn a n (Z e) k) e0 := by
  have comp : ∀ (f : ℝ → ℝ) (f' : ℝ), HasDerivAt f f' (Z e0 k) → DifferentiableAt ℝ (fun e => f (Z e k)) e0 := by
    intro f f' h
    exact DifferentiableAt.comp (g := f) (f := fun e => Z e k) e0 h.differentiableAt (hZ k hlt)
  cases a with
  | none => exact hZ k hlt
  | sigmoid => exact comp _ _ (LLab.Act.C20_sigmoid_given (Z e0 k))
  | relu =>
    refine (comp _ _ ((LLab.Act.C20_relu (Z e0 k)).1 (hk (Or.inl rfl) k hlt))).congr_of_eventuallyEq (Filter.Eventually.of_forall fun e => ?_)
    exact (LLab.Act.C20_values (Z e k)).2.2.2.1.symm
  | softmax =>
    have h1 : DifferentiableAt ℝ (fun e => Real.exp (Z e k)) e0 := (hZ k hlt).exp
    have h2 : DifferentiableAt ℝ (fun e => ∑ i ∈ range n, Real.exp (Z e i)) e0 :=
      DifferentiableAt.fun_sum fun i hi => (hZ i (Finset.mem_range.1 hi)).exp
    have h3 := h1.fun_mul (h2.fun_inv ?_)
    · simp only [← div_eq_mul_inv] at h3
      exact h3
    · exact (Softmax.sum_exp_pos (range n) ⟨k, Finset.mem_range.2 hlt⟩ (Z e0)).ne'
  | tanh =>
    refine (comp _ _ (LLab.Act.C20_tanh (Z e0 k))).congr_of_eventuallyEq (Filter.Eventually.of_forall fun e => ?_)
    exact (LLab.Act.C20_values (Z e k)).1.symm
  | leaky =>
    refine (comp _ _ ((LLab.Act.C20_leaky_relu (Z e0 k)).1 (hk (Or.inr (Or.inl rfl)) k hlt))).congr_of_eventuallyEq (Filter.Eventually.of_forall fun e => ?_)
    exact (LLab.Act.C20_values (Z e k)).2.2.2.2.1.symm
  | elu =>
    refine (comp _ _ ((LLab.Act.C20_elu 1 (Z e0 k)).1 (hk (Or.inr (Or.inr rfl)) k hlt))).congr_of_eventuallyEq (Filter.Eventually.of_forall fun e => ?_)
    simp [actFn, LLab.Act.elu]

theorem net_differentiable {E : Type} [NormedAddCommGroup E] [NormedSpace ℝ E] {m : Nat} {d : Nat → Nat → Bool} {Θ : E → Params} {e0 : E}
    (hΘ : ∀ l q, DifferentiableAt ℝ (fun e => (Θ e).w l q) e0 ∧ DifferentiableAt ℝ (fun e => (Θ e).b l q) e0) :
    ∀ {arch : List LayerSpec} {i n : Nat} {X : E → Nat → ℝ}, ArchOk m n arch → (∀ k, k < n → DifferentiableAt ℝ (fun e => X e k) e0) →
      NoKink (layersOf (Θ e0) d i arch) (X e0) → ∀ o, o < m → DifferentiableAt ℝ (fun e => net (layersOf (Θ e) d i arch) (X e) o) e0
  | [], _, n, X, h, hX, _, o, ho => hX o (by have : n = m := h; omega)
  | a :: as, i, n, X, h, hX, hk, o, ho => by
    obtain ⟨h1, h2, h3⟩ := h
    refine net_differentiable hΘ h3 (X := fun e => Unit.fn ⟨a.input, a.output, a.act, (Θ e).w i, (Θ e).b i,
      fun k => if a.dropout ∧ d i k then 0 else 1⟩ (X e)) (fun k hlt => ?_) hk.2 o ho
    show DifferentiableAt ℝ (fun e => (if a.dropout ∧ d i k then (0 : ℝ) else 1) * actFn a.act a.output
      (fun j => ∑ p ∈ range a.input, (Θ e).w i (j * a.input + p) * X e p + (Θ e).b i j) k) e0
    refine DifferentiableAt.const_mul ?_ _
    refine act_differentiable a.act (Z := fun e j => ∑ p ∈ range a.input, (Θ e).w i (j * a.input + p) * X e p + (Θ e).b i j) (fun j _ => ?_) (fun ha j hj => hk.1 ha j hj) k hlt
    refine DifferentiableAt.fun_add (DifferentiableAt.fun_sum fun p hp => ?_) (hΘ i j).2
    have hp : p < a.input := Finset.mem_range.1 hp
    exact DifferentiableAt.fun_mul (hΘ i _).1 (hX p (by omega))

theorem loss_differentiable {E : Type} [NormedAddCommGroup E] [NormedSpace ℝ E] {T : Task} {arch : List LayerSpec} {B : Nat}
    {S : Nat → Sample} {Θ : E → Params} {e0 : E} (h : ArchOk T.m T.n arch)
    (hΘ : ∀ l q, DifferentiableAt ℝ (fun e => (Θ e).w l q) e0 ∧ DifferentiableAt ℝ (fun e => (Θ e).b l q) e0)
    (hs : SmoothAt T arch B S (Θ e0)) : DifferentiableAt ℝ (fun e => batchLoss T arch B S (Θ e)) e0 := by
  unfold batchLoss sampleLoss
  refine DifferentiableAt.fun_sum fun k hk => DifferentiableAt.fun_sum fun o ho => DifferentiableAt.const_mul ?_ _
  obtain ⟨k1, k2⟩ := hs k (Finset.mem_range.1 hk)
  have ho := Finset.mem_range.1 ho
  have hd := net_differentiable hΘ h (X := fun _ => (S k).x.get) (fun _ _ => differentiableAt_const _) k1 o ho
  exact DifferentiableAt.comp (g := fun p => lossFn T.loss T.t1 T.t2 T.gamma p ((S k).y.get o)) e0
    (loss_deriv T.loss T.t1 T.t2 T.gamma _ _ (k2 o ho)).differentiableAt hd

/-! ### The trained parameters -/

/-- The positions of the parameters that are trained: `true` for weights. -/
def Trained (arch : List LayerSpec) (c : Bool × Nat × Nat) : Prop :=
  ∃ a, arch[c.2.1]? = some a ∧
    if c.1 then a.mode ≠ .freeze ∧ c.2.2 < a.output * a.input else a.mode = .descent ∧ c.2.2 < a.output

theorem trained_finite : ∀ arch : List LayerSpec, {c | Trained arch c}.Finite := by
  intro arch
  let N := arch.length
  let K := (arch.map fun a => a.output * a.input + a.output).sum
  refine Set.Finite.subset (s := (↑((Finset.univ : Finset Bool) ×ˢ (range N ×ˢ range K)) : Set (Bool × Nat × Nat)))
    (Finset.finite_toSet _) ?_
  rintro ⟨b, l, q⟩ ⟨a, ha, hq⟩
  have hl : l < N := (List.getElem?_eq_some_iff.1 ha).1
  have hmem : a ∈ arch := List.mem_of_getElem? ha
  have hle : a.output * a.input + a.output ≤ K :=
    List.single_le_sum (by simp) _ (List.mem_map.2 ⟨a, hmem, rfl⟩)
  have hqK : q < K := by
    cases b <;> simp at hq <;> omega
  simp [hl, hqK]

/-- The trained parameters as coordinates. -/
abbrev Coord (arch : List LayerSpec) := {c : Bool × Nat × Nat // Trained arch c}

noncomputable instance (arch : List LayerSpec) : Fintype (Coord arch) := (trained_finite arch).fintype

open Classical in
/-- `θ` moved by `v`. -/
noncomputable def move (arch : List LayerSpec) (θ : Params) (v : Coord arch → ℝ) : Params where
  w := fun l q => θ.w l q + if h : Trained arch (true, l, q) then v ⟨_, h⟩ else 0
  b := fun l q => θ.b l q + if h : Trained arch (false, l, q) then v ⟨_, h⟩ else 0

theorem move_zero (arch : List LayerSpec) (θ : Params) : move arch θ 0 = θ := by
  unfold move
  simp

open Classical in
theorem move_differentiable (arch : List LayerSpec) (θ : Params) (v0 : Coord arch → ℝ) (l q : Nat) :
    DifferentiableAt ℝ (fun v => (move arch θ v).w l q) v0 ∧ DifferentiableAt ℝ (fun v => (move arch θ v).b l q) v0 := by
  have key : ∀ b, DifferentiableAt ℝ (fun v : Coord arch → ℝ => if h : Trained arch (b, l, q) then v ⟨_, h⟩ else 0) v0 := by
    intro b
    by_cases h : Trained arch (b, l, q)
    · simp only [h, dite_true]
      exact differentiableAt_apply _ _
    · simp only [h, dite_false]
      exact differentiableAt_const _
  exact ⟨(key true).const_add _, (key false).const_add _⟩

open Classical in
theorem move_single (arch : List LayerSpec) (θ : Params) (c : Coord arch) (t : ℝ) :
    move arch θ (Pi.single c t) =
      if c.1.1 then θ.setW c.1.2.1 c.1.2.2 (θ.w c.1.2.1 c.1.2.2 + t) else θ.setB c.1.2.1 c.1.2.2 (θ.b c.1.2.1 c.1.2.2 + t) := by
  obtain ⟨⟨b, l, q⟩, hc⟩ := c
  have key : ∀ (b' : Bool) l' q', (if h : Trained arch (b', l', q') then
      (Pi.single (⟨(b, l, q), hc⟩ : Coord arch) t : Coord arch → ℝ) ⟨_, h⟩ else 0) = if b' = b ∧ l' = l ∧ q' = q then t else 0 := by
    intro b' l' q'
    by_cases e : b' = b ∧ l' = l ∧ q' = q
    · obtain ⟨rfl, rfl, rfl⟩ := e
      simp [hc]
    · rw [if_neg e]
      by_cases h : Trained arch (b', l', q')
      · rw [dif_pos h, Pi.single_eq_of_ne]
        intro e'
        have := congrArg Subtype.val e'
        simp only [Prod.mk.injEq] at this
        exact e this
      · rw [dif_neg h]
  have ew : ∀ l' q', (move arch θ (Pi.single ⟨(b, l, q), hc⟩ t)).w l' q' = θ.w l' q' + if true = b ∧ l' = l ∧ q' = q then t else 0 :=
    fun l' q' => congrArg (θ.w l' q' + ·) (key true l' q')
  have eb : ∀ l' q', (move arch θ (Pi.single ⟨(b, l, q), hc⟩ t)).b l' q' = θ.b l' q' + if false = b ∧ l' = l ∧ q' = q then t else 0 :=
    fun l' q' => congrArg (θ.b l' q' + ·) (key false l' q')
  have ext : ∀ p p' : Params, (∀ l q, p.w l q = p'.w l q) → (∀ l q, p.b l q = p'.b l q) → p = p' := by
    rintro ⟨w, b⟩ ⟨w', b'⟩ h1 h2
    obtain rfl : w = w' := funext fun l => funext fun q => h1 l q
    obtain rfl : b = b' := funext fun l => funext fun q => h2 l q
    rfl
  cases b with
  | true =>
    refine ext _ _ (fun l' q' => ?_) (fun l' q' => ?_)
    · rw [ew]
      by_cases hl : l' = l
      · subst hl
        by_cases hq : q' = q
        · subst hq
          simp [Params.setW]
        · simp [Params.setW, hq]
      · simp [Params.setW, hl]
    · rw [eb]
      simp [Params.setW]
  | false =>
    refine ext _ _ (fun l' q' => ?_) (fun l' q' => ?_)
    · rw [ew]
      simp [Params.setB]
    · rw [eb]
      by_cases hl : l' = l
      · subst hl
        by_cases hq : q' = q
        · subst hq
          simp [Params.setB]
        · simp [Params.setB, hq]
      · simp [Params.setB, hl]

/-- The partial derivative of `J` in the trained parameter `c` is `G`. -/
def PartialIn (J : Params → ℝ) (θ : Params) (c : Bool × Nat × Nat) (G : ℝ) : Prop :=
  if c.1 then HasDerivAt (fun v => J (θ.setW c.2.1 c.2.2 v)) G (θ.w c.2.1 c.2.2)
  else HasDerivAt (fun v => J (θ.setB c.2.1 c.2.2 v)) G (θ.b c.2.1 c.2.2)

theorem decrease_along {T : Task} {arch : List LayerSpec} {B : Nat} {S : Nat → Sample} {θ : Params} (h : ArchOk T.m T.n arch)
    (hs : SmoothAt T arch B S θ) (G : Coord arch → ℝ) (hG : ∀ c : Coord arch, PartialIn (batchLoss T arch B S) θ c.1 (G c))
    (hne : ∃ c, G c ≠ 0) :
    ∃ t0 : ℝ, 0 < t0 ∧ ∀ t, 0 < t → t < t0 → batchLoss T arch B S (move arch θ fun c => -(t * G c)) < batchLoss T arch B S θ := by
  classical
  set J := batchLoss T arch B S with hJ
  set f : (Coord arch → ℝ) → ℝ := fun v => J (move arch θ v) with hf
  have hd : DifferentiableAt ℝ f 0 :=
    loss_differentiable h (fun l q => move_differentiable arch θ 0 l q) (by rw [move_zero]; exact hs)
  obtain ⟨L, hL⟩ := hd
  -- the differential in one coordinate
  have hcoord : ∀ c, L (Pi.single c 1) = G c := by
    intro c
    have hline : HasDerivAt (fun t : ℝ => f (Pi.single c t)) (L (Pi.single c 1)) 0 := by
      have h1 : HasDerivAt (fun t : ℝ => (Pi.single c t : Coord arch → ℝ)) (Pi.single c 1) 0 := by
        rw [hasDerivAt_pi]
        intro i
        by_cases hi : i = c
        · subst hi
          simpa using hasDerivAt_id' (0 : ℝ)
        · simpa [Pi.single_eq_of_ne hi] using hasDerivAt_const (0 : ℝ) (0 : ℝ)
      have h2 : HasFDerivAt f L (Pi.single c (0 : ℝ)) := by rw [Pi.single_zero]; exact hL
      exact HasFDerivAt.comp_hasDerivAt 0 h2 h1
    have hg := hG c
    unfold PartialIn at hg
    have hshift : ∀ (F : ℝ → ℝ) (x : ℝ), HasDerivAt F (G c) x → HasDerivAt (fun t => F (x + t)) (G c) 0 := by
      intro F x hF
      have : HasDerivAt F (G c) (x + 0) := by rw [add_zero]; exact hF
      exact HasDerivAt.comp_const_add x 0 this
    have heq : (fun t : ℝ => f (Pi.single c t)) = fun t => J (if c.1.1 then θ.setW c.1.2.1 c.1.2.2 (θ.w c.1.2.1 c.1.2.2 + t)
        else θ.setB c.1.2.1 c.1.2.2 (θ.b c.1.2.1 c.1.2.2 + t)) := by
      funext t
      rw [hf]
      dsimp only
      rw [move_single]
    rw [heq] at hline
    by_cases hb : c.1.1 = true
    · rw [if_pos hb] at hg
      simp only [hb, if_true] at hline
      exact hline.unique (hshift _ _ hg)
    · rw [if_neg hb] at hg
      simp only [hb] at hline
      exact hline.unique (hshift _ _ hg)
  -- along minus the gradient
  have hdir : L (fun c => -G c) = -∑ c, G c ^ 2 := by
    have e : (fun c => -G c) = ∑ c, (-G c) • (Pi.single c 1 : Coord arch → ℝ) := by
      funext i
      rw [Finset.sum_apply, Finset.sum_eq_single i]
      · simp
      · intro b _ hb
        simp [Pi.single_eq_of_ne (Ne.symm hb)]
      · simp
    rw [e, map_sum, ← Finset.sum_neg_distrib]
    refine Finset.sum_congr rfl fun c _ => ?_
    rw [map_smul, hcoord, smul_eq_mul]
    ring
  have hneg : L (fun c => -G c) < 0 := by
    rw [hdir]
    obtain ⟨c, hc⟩ := hne
    have : 0 < ∑ c, G c ^ 2 := Finset.sum_pos' (fun _ _ => sq_nonneg _) ⟨c, Finset.mem_univ _, by positivity⟩
    linarith
  have hφ : HasDerivAt (fun t : ℝ => f (fun c => t * -G c)) (L (fun c => -G c)) 0 := by
    have h1 : HasDerivAt (fun t : ℝ => (fun c => t * -G c : Coord arch → ℝ)) (fun c => -G c) 0 := by
      rw [hasDerivAt_pi]
      intro i
      simpa using (hasDerivAt_id' (0 : ℝ)).mul_const (-G i)
    have h2 : HasFDerivAt f L (fun c => (0 : ℝ) * -G c) := by
      have : (fun c => (0 : ℝ) * -G c) = 0 := by funext c; simp
      rw [this]; exact hL
    exact HasFDerivAt.comp_hasDerivAt 0 h2 h1
  have hsl := (hasDerivAt_iff_tendsto_slope.1 hφ).eventually_lt_const hneg
  rw [eventually_nhdsWithin_iff, Metric.eventually_nhds_iff] at hsl
  obtain ⟨t0, ht0, hall⟩ := hsl
  refine ⟨t0, ht0, fun t ht htlt => ?_⟩
  have := hall (y := t) (by rw [dist_zero_right, Real.norm_eq_abs, abs_of_pos ht]; exact htlt) (by simpa using ht.ne')
  rw [slope_def_field, sub_zero, div_neg_iff] at this
  have h0 : f (fun c => (0 : ℝ) * -G c) = J θ := by
    have : (fun c => (0 : ℝ) * -G c) = 0 := by funext c; simp
    rw [hf]
    dsimp only
    rw [this, move_zero]
  have h1 : f (fun c => t * -G c) = J (move arch θ fun c => -(t * G c)) := by
    rw [hf]
    dsimp only
    congr 2
    funext c
    ring
  rw [h0, h1] at this
  rcases this with ⟨_, h⟩ | ⟨h, _⟩
  · linarith
  · linarith

/-! ### C139 -/

/-- **C139, the loss goes down.** One mini batch of plain gradient descent (`NESTEROV` with
momentum 0) from parameters where the loss of the batch is differentiable and not stationary in
the trained parameters: for every learning rate below some positive bound, whatever the threads
do, the loss of the batch is strictly smaller afterwards. -/
theorem C139_decrease {T : Task} {arch : List LayerSpec} {M : Machine} (B : Nat) (S : Nat → Sample) (hB : 1 ≤ B)
    (hM : Good T arch M) (hS : Sized T B S) (hs : SmoothAt T arch B S M.cells.params)
    (hne : ∃ c G, Trained arch c ∧ PartialIn (batchLoss T arch B S) M.cells.params c G ∧ G ≠ 0) :
    ∃ lr0 : ℝ, 0 < lr0 ∧ ∀ lr, 0 < lr → lr < lr0 → ∀ threads M', BatchStep T B threads S (.nesterov lr 0) M M' →
      batchLoss T arch B S M'.cells.params < batchLoss T arch B S M.cells.params := by
  have hBpos : (0 : ℝ) < B := by exact_mod_cast hB
  -- the partial derivatives exist
  have hex : ∀ c : Coord arch, ∃ G, PartialIn (batchLoss T arch B S) M.cells.params c.1 G := by
    obtain ⟨M', hM'⟩ := batch_exists (o := .nesterov 1 0) hM (le_refl 1) hS hs
    obtain ⟨-, hd⟩ := batch_step hM hS hs hM'
    rintro ⟨⟨b, l, q⟩, a, ha, hq⟩
    obtain ⟨dw, db⟩ := hd l a ha
    cases b with
    | true =>
      obtain ⟨h1, h2⟩ : a.mode ≠ .freeze ∧ q < a.output * a.input := by simpa using hq
      have := dw q h2
      rw [if_neg h1] at this
      obtain ⟨G, h3, -⟩ := this
      exact ⟨G, h3⟩
    | false =>
      obtain ⟨h1, h2⟩ : a.mode = .descent ∧ q < a.output := by simpa using hq
      have := db q h2
      rw [if_pos h1] at this
      obtain ⟨G, h3, -⟩ := this
      exact ⟨G, h3⟩
  choose G hG using hex
  have huniq : ∀ c G1 G2, PartialIn (batchLoss T arch B S) M.cells.params c G1 → PartialIn (batchLoss T arch B S) M.cells.params c G2 → G1 = G2 := by
    intro c G1 G2 h1 h2
    unfold PartialIn at h1 h2
    by_cases hc : c.1 = true
    · rw [if_pos hc] at h1 h2
      exact h1.unique h2
    · rw [if_neg hc] at h1 h2
      exact h1.unique h2
  obtain ⟨c0, G0, t0, p0, n0⟩ := hne
  obtain ⟨s0, hs0, hlt⟩ := decrease_along hM.arch hs G hG ⟨⟨c0, t0⟩, by rw [huniq c0 _ _ (hG ⟨c0, t0⟩) p0]; exact n0⟩
  refine ⟨B * s0, by positivity, fun lr h1 h2 threads M' hb => ?_⟩
  have hstep : ∀ (g : ℝ) (c : Update.Cell), (Update.stepCell B (.nesterov lr 0) g c).p = c.p + -(lr / B * g) := by
    intro g c
    simp only [Update.stepCell, Optim.nesterov]
    ring
  obtain ⟨-, hd⟩ := batch_step hM hS hs hb
  have hA : Agree arch 0 (move arch M.cells.params fun c => -(lr / B * G c)) M'.cells.params := by
    intro l a ha
    obtain ⟨dw, db⟩ := hd l a ha
    rw [Nat.zero_add]
    constructor
    · intro q hq
      have := dw q hq
      by_cases hm : a.mode = .freeze
      · have hnt : ¬ Trained arch (true, l, q) := by
          rintro ⟨a', ha', h⟩
          obtain rfl := Option.some.inj (ha.symm.trans ha')
          simp at h
          exact h.1 hm
        rw [if_pos hm] at this
        simp [move, hnt, Cells.params, this]
      · have ht : Trained arch (true, l, q) := ⟨a, ha, by simpa using ⟨hm, hq⟩⟩
        rw [if_neg hm] at this
        obtain ⟨g, h3, h4⟩ := this
        have hg : g = G ⟨_, ht⟩ := huniq (true, l, q) _ _ h3 (hG ⟨_, ht⟩)
        simp only [move, ht, dite_true, Cells.params, h4, hstep, hg]
    · intro q hq
      have := db q hq
      by_cases hm : a.mode = .descent
      · have ht : Trained arch (false, l, q) := ⟨a, ha, by simpa using ⟨hm, hq⟩⟩
        rw [if_pos hm] at this
        obtain ⟨g, h3, h4⟩ := this
        have hg : g = G ⟨_, ht⟩ := huniq (false, l, q) _ _ h3 (hG ⟨_, ht⟩)
        simp only [move, ht, dite_true, Cells.params, h4, hstep, hg]
      · have hnt : ¬ Trained arch (false, l, q) := by
          rintro ⟨a', ha', h⟩
          obtain rfl := Option.some.inj (ha.symm.trans ha')
          simp at h
          exact hm h.1
        rw [if_neg hm] at this
        simp [move, hnt, Cells.params, this]
  rw [loss_agree hM.arch hA]
  refine hlt (lr / B) (by positivity) ?_
  rw [div_lt_iff₀ hBpos]
  linarith

/-- **C139, histories exist.** When the batches have the right sizes and the loss is differentiable
everywhere (smooth activations and a smooth loss), training for any number of rounds, with any
optimisers and numbers of threads, runs through. -/
theorem C139_runs {T : Task} {arch : List LayerSpec} {M : Machine} (rs : List Round) (hM : Good T arch M)
    (hr : ∀ r, r ∈ rs → 1 ≤ r.threads ∧ Sized T r.B r.S ∧ ∀ θ, SmoothAt T arch r.B r.S θ) :
    ∃ M', Train T rs M M' ∧ Good T arch M' := by
  induction rs using List.reverseRecOn with
  | nil => exact ⟨M, .nil M, hM⟩
  | append_singleton rs r ih =>
    obtain ⟨M1, t1, g1⟩ := ih fun r' h => hr r' (List.mem_append_left _ h)
    obtain ⟨a, b, c⟩ := hr r (by simp)
    obtain ⟨M2, h2⟩ := batch_exists (o := r.o) g1 a b (c _)
    exact ⟨M2, .snoc rs r M M1 M2 t1 h2, (batch_step g1 b (c _) h2).1⟩

/-! ### Machines that meet the hypotheses -/

/-- A layer of the real model with the given parameters and cleared accumulators. -/
noncomputable def freshReal (θ : Params) (l : Nat) (a : LayerSpec) : Update.Fcl where
  mode := modeOf a.mode
  onlyDropout := false
  noisy := false
  layerNorm := false
  input := a.input
  output := a.output
  w := ⟨a.output * a.input, fun q => ⟨θ.w l q, 0, 0, 0⟩⟩
  dw := ⟨a.output * a.input, fun _ => 0⟩
  nw := ⟨a.output * a.input, fun _ => ⟨0, 0, 0, 0⟩⟩
  dnw := ⟨a.output * a.input, fun _ => 0⟩
  sc := ⟨a.output * a.input, fun _ => ⟨0, 0, 0, 0⟩⟩
  dsc := ⟨a.output * a.input, fun _ => 0⟩
  b := ⟨a.output, fun q => ⟨θ.b l q, 0, 0, 0⟩⟩
  db := ⟨a.output, fun _ => 0⟩
  nb := ⟨a.output, fun _ => ⟨0, 0, 0, 0⟩⟩
  dnb := ⟨a.output, fun _ => 0⟩
  ln := ⟨.gradientDescent, 0, ⟨0, fun _ => ⟨0, 0, 0, 0⟩⟩, ⟨0, fun _ => 0⟩, ⟨0, fun _ => ⟨0, 0, 0, 0⟩⟩, ⟨0, fun _ => 0⟩⟩

/-- A layer of a copy without parameters. -/
noncomputable def freshCopy (a : LayerSpec) : Fcl where
  input := a.input
  output := a.output
  act := a.act
  drop := if a.dropout then .train else .off
  threshold := 0
  mode := a.mode
  weights := ⟨0, fun _ => 0⟩
  biases := ⟨0, fun _ => 0⟩
  active := ⟨a.output, fun _ => 1⟩
  pre := ⟨a.output, fun _ => 0⟩
  post := ⟨a.output, fun _ => 0⟩
  mask := ⟨a.output, fun _ => 1⟩
  dropTemp := ⟨a.output, fun _ => 0⟩
  temp := ⟨a.output, fun _ => 0⟩
  temp3 := ⟨a.output, fun _ => 0⟩
  error2 := ⟨a.input, fun _ => 0⟩
  dWeights := ⟨a.output * a.input, fun _ => 0⟩
  dBiases := ⟨a.output, fun _ => 0⟩

/-- A machine with the given architecture and parameters. -/
noncomputable def fresh (arch : List LayerSpec) (θ : Params) : Machine :=
  ⟨⟨[], [], arch.mapIdx fun l a => freshReal θ l a⟩, fun _ => arch.map freshCopy⟩

/-- Every architecture and every choice of parameters has a machine. -/
theorem fresh_good {T : Task} {arch : List LayerSpec} (θ : Params) (h : ArchOk T.m T.n arch) (he : T.m ≤ T.error.len)
    (ha : ∀ a, T.alpha = some a → T.m ≤ a.len) : Good T arch (fresh arch θ) where
  only := ⟨rfl, rfl⟩
  real := by
    refine List.forall₂_iff_get.2 ⟨by simp [fresh], fun i h1 h2 => ?_⟩
    simp only [fresh, List.get_eq_getElem, List.getElem_mapIdx]
    constructor <;> first
      | rfl
      | (constructor <;> first | rfl | (constructor <;> rfl))
      | exact fun _ _ => rfl
  copies := by
    intro k
    refine List.forall₂_iff_get.2 ⟨by simp [fresh], fun i h1 h2 => ?_⟩
    simp only [fresh, List.get_eq_getElem, List.getElem_map]
    constructor <;> first
      | rfl
      | exact Nat.le_refl _
      | exact fun _ _ => rfl
      | exact fun _ _ _ => rfl
      | exact fun _ _ => one_ne_zero
  arch := h
  error := he
  alpha := ha

theorem fresh_params {arch : List LayerSpec} (θ : Params) (l : Nat) (h : l < arch.length) (q : Nat) :
    (fresh arch θ).cells.params.w l q = θ.w l q ∧ (fresh arch θ).cells.params.b l q = θ.b l q := by
  simp [fresh, Machine.cells, Cells.params, h, freshReal]

/-- Two inputs, two leaky units with dropout, one sigmoid unit whose bias is frozen. -/
def demoArch : List LayerSpec := [⟨2, 2, .leaky, true, .descent⟩, ⟨2, 1, .sigmoid, false, .freezeBiases⟩]

/-- Squared error on two inputs and one output. -/
noncomputable def demoTask : Task := ⟨.mse, 0, 0, 0, none, 2, 1, Arr.ofList [0]⟩

noncomputable def demoParams : Params :=
  ⟨fun l q => if l = 0 then (Arr.ofList [(1 : ℝ), 2, 3, -1]).get q else (Arr.ofList [(1 : ℝ), 2]).get q,
    fun l q => if l = 0 then (Arr.ofList [(1 : ℝ), -9]).get q else 1⟩

/-- Two samples; the second loses one of its hidden units. -/
noncomputable def demoSamples : Nat → Sample := fun k =>
  if k = 0 then ⟨Arr.ofList [1, 2], Arr.ofList [1], fun _ _ => false⟩ else ⟨Arr.ofList [0, 1], Arr.ofList [0], fun l j => l == 0 && j == 1⟩

theorem demo_sized : Sized demoTask 2 demoSamples := by
  intro k hk
  interval_cases k <;> simp [demoTask, demoSamples, Arr.ofList]

theorem demo_good : Good demoTask demoArch (fresh demoArch demoParams) :=
  fresh_good _ ⟨rfl, (fun h => by cases h), rfl, fun _ => rfl, rfl⟩ (by simp [demoTask, Arr.ofList]) (fun _ h => by cases h)

theorem demo_smooth : SmoothAt demoTask demoArch 2 demoSamples (fresh demoArch demoParams).cells.params := by
  intro k hk
  refine ⟨⟨fun _ j hj => ?_, fun h => ?_, trivial⟩, fun _ _ => trivial⟩
  · have hj : j < 2 := hj
    show Chain.Unit.z _ _ j ≠ 0
    unfold Chain.Unit.z
    interval_cases k <;> interval_cases j <;>
      norm_num [Cells.params, Machine.cells, fresh, freshReal, demoArch, demoParams, demoSamples, Arr.ofList, Finset.sum_range_succ]
  · rcases h with h | h | h <;> cases h

-- Two threads, momentum: the step exists and descends.
example : (∃ M', BatchStep demoTask 2 2 demoSamples (.nesterov (1 / 10) (9 / 10)) (fresh demoArch demoParams) M') ∧
    ∀ M', BatchStep demoTask 2 2 demoSamples (.nesterov (1 / 10) (9 / 10)) (fresh demoArch demoParams) M' →
      Good demoTask demoArch M' ∧ Descends demoArch 2 (.nesterov (1 / 10) (9 / 10)) (batchLoss demoTask demoArch 2 demoSamples)
        (fresh demoArch demoParams).cells M'.cells :=
  C139_step 2 2 demoSamples _ demo_good (by omega) demo_sized demo_smooth

/-- A linear unit: differentiable everywhere. -/
def lineArch : List LayerSpec := [⟨1, 1, .none, false, .descent⟩]

noncomputable def lineTask : Task := ⟨.mse, 0, 0, 0, none, 1, 1, Arr.ofList [0]⟩

noncomputable def lineSamples : Nat → Sample := fun _ => ⟨Arr.ofList [1], Arr.ofList [1], fun _ _ => false⟩

theorem line_good : Good lineTask lineArch (fresh lineArch ⟨fun _ _ => 0, fun _ _ => 0⟩) :=
  fresh_good _ ⟨rfl, (fun h => by cases h), rfl⟩ (by simp [lineTask, Arr.ofList]) (fun _ h => by cases h)

theorem line_smooth (B : Nat) (θ : Params) : SmoothAt lineTask lineArch B lineSamples θ := by
  intro k _
  refine ⟨⟨fun h => ?_, trivial⟩, fun _ _ => trivial⟩
  rcases h with h | h | h <;> cases h

theorem line_sized (B : Nat) : Sized lineTask B lineSamples := by
  intro k _
  simp [lineTask, lineSamples, Arr.ofList]

theorem line_loss (θ : Params) : batchLoss lineTask lineArch 1 lineSamples θ = (1 - (θ.w 0 0 + θ.b 0 0)) ^ 2 / 2 := by
  simp [batchLoss, sampleLoss, lineTask, lineSamples, lineArch, layersOf, net, Chain.Unit.fn, Chain.Unit.z, actFn, classWeight, lossFn,
    Loss.mse, Arr.ofList]
  try ring

-- The hypotheses of `C139_decrease` hold for it.
example : ∃ lr0 : ℝ, 0 < lr0 ∧ ∀ lr, 0 < lr → lr < lr0 → ∀ threads M',
    BatchStep lineTask 1 threads lineSamples (.nesterov lr 0) (fresh lineArch ⟨fun _ _ => 0, fun _ _ => 0⟩) M' →
      batchLoss lineTask lineArch 1 lineSamples M'.cells.params <
        batchLoss lineTask lineArch 1 lineSamples (fresh lineArch ⟨fun _ _ => 0, fun _ _ => 0⟩).cells.params := by
  refine C139_decrease 1 lineSamples (le_refl 1) line_good (line_sized 1) (line_smooth 1 _) ⟨(false, 0, 0), -1, ⟨_, rfl, ?_⟩, ?_, by norm_num⟩
  · simp
  · obtain ⟨ew, eb⟩ := fresh_params (arch := lineArch) ⟨fun _ _ => 0, fun _ _ => 0⟩ 0 (by simp [lineArch]) 0
    show HasDerivAt _ (-1) ((fresh lineArch ⟨fun _ _ => 0, fun _ _ => 0⟩).cells.params.b 0 0)
    rw [eb]
    have e : ∀ v, batchLoss lineTask lineArch 1 lineSamples ((fresh lineArch ⟨fun _ _ => 0, fun _ _ => 0⟩).cells.params.setB 0 0 v) = (1 - v) ^ 2 / 2 := by
      intro v
      rw [line_loss]
      simp [Params.setB, ew]
    simp only [e]
    have h1 : HasDerivAt (fun v : ℝ => 1 - v) (-1) 0 := by simpa using (hasDerivAt_id' (0 : ℝ)).const_sub 1
    have := (h1.pow 2).div_const 2
    refine this.congr_deriv ?_
    norm_num

-- A history of a thousand rounds of it with four threads.
example : ∃ M', Train lineTask (List.replicate 1000 ⟨3, 4, lineSamples, .nesterov (1 / 10) (1 / 2)⟩) (fresh lineArch ⟨fun _ _ => 0, fun _ _ => 0⟩) M' ∧
    Good lineTask lineArch M' :=
  C139_runs _ line_good fun r hr => by
    obtain rfl := List.eq_of_mem_replicate hr
    exact ⟨by norm_num, line_sized 3, line_smooth 3⟩

end LLab.Batch
