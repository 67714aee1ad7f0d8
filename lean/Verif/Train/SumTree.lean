import Mathlib.Algebra.BigOperators.Group.Finset.Basic
import Mathlib.Algebra.BigOperators.Intervals
import Mathlib.Data.List.Nodup
import Mathlib.Data.List.Range
import Mathlib.Tactic.Ring
import Mathlib.Tactic.Linarith

/-!
Summing the gradients of a batch: `sum_models_partial_derivatives_multithread`,
`sum_models_partial_derivatives` and the layer sums they call. Property C39.

A model's gradient is a family of numbers indexed by components. One elementary
operation adds component `c` of model `src` to component `c` of model `dst`; threads
interleave at the level of these operations.
-/

namespace LLab.SumTree

open Finset

/-- `(dst, src, c)`: `dst->c += src->c`. -/
abbrev Op (C : Type) := Nat × Nat × C

/-- The additions of one `sum_model_partial_derivatives(src,dst,dst)` or
`(dst,src,dst)` (`/repo/src/math_functions.c` 1145-1153), given the list of the
components it adds in program order. -/
def addOps {C : Type} (comps : List C) (dst src : Nat) : List (Op C) := comps.map fun c => (dst, src, c)

/-- Interleavings of two threads. -/
inductive Interleave {β : Type} : List β → List β → List β → Prop
  | nil : Interleave [] [] []
  | left (x : β) {a b t : List β} : Interleave a b t → Interleave (x :: a) b (x :: t)
  | right (x : β) {a b t : List β} : Interleave a b t → Interleave a (x :: b) (x :: t)

/-- The executions of `sum_models_partial_derivatives_multithread(batch_m+off, …,
n, depth)` with `depth > 0` (`/repo/src/multi_core_model.c` 435-475): up to three
models sequentially, otherwise two threads on the halves and, after both are
joined, one more addition. -/
inductive Runs {C : Type} (comps : List C) : Nat → Nat → List (Op C) → Prop
  | zero (off : Nat) : Runs comps 0 off []
  | one (off : Nat) : Runs comps 1 off []
  | two (off : Nat) : Runs comps 2 off (addOps comps off (off + 1))
  | three (off : Nat) : Runs comps 3 off (addOps comps off (off + 1) ++ addOps comps off (off + 2))
  | fork {n off : Nat} {t1 t2 t : List (Op C)} : 4 ≤ n → Runs comps (n / 2) off t1 →
      Runs comps (n - n / 2) (off + n / 2) t2 → Interleave t1 t2 t →
      Runs comps n off (t ++ addOps comps off (off + n / 2))

variable {C α : Type} [DecidableEq C] [AddCommMonoid α]

/-- One operation. -/
def step (b : Nat → C → α) (op : Op C) : Nat → C → α :=
  fun i c => if i = op.1 ∧ c = op.2.2 then b i c + b op.2.1 c else b i c

/-- A sequence of operations. -/
def exec (t : List (Op C)) (b : Nat → C → α) : Nat → C → α := t.foldl step b

/-- `sum_models_partial_derivatives(sum_m,models,n)` (`/repo/src/math_functions.c`
1175-1180) on the target's gradient: each model in turn is added component by
component. -/
def sumSeq (comps : List C) (n : Nat) (b : Nat → C → α) (m : C → α) : C → α :=
  (List.range n).foldl (fun m i => comps.foldl (fun m c => Function.update m c (b i c + m c)) m) m

/-- The results of `sum_models_partial_derivatives_multithread(batch_m,m,n,0)`
(`/repo/src/multi_core_model.c` 429-475): up to three models directly into the
target, otherwise the threads reduce the batch into its first model, which is then
added to the target. -/
def Multithread (comps : List C) (n : Nat) (b : Nat → C → α) (m m' : C → α) : Prop :=
  if n ≤ 3 then m' = sumSeq comps n b m
  else ∃ t1 t2 t, Runs comps (n / 2) 0 t1 ∧ Runs comps (n - n / 2) (n / 2) t2 ∧ Interleave t1 t2 t ∧
    m' = sumSeq comps 1 (exec (t ++ addOps comps 0 (n / 2)) b) m

/-! ### Execution lemmas -/

theorem exec_append (s t : List (Op C)) (b : Nat → C → α) : exec (s ++ t) b = exec t (exec s b) := by
  unfold exec
  rw [List.foldl_append]

theorem exec_addOps_other (comps : List C) (dst src : Nat) (b : Nat → C → α) (i : Nat) (hi : i ≠ dst) (c : C) :
    exec (addOps comps dst src) b i c = b i c := by
  induction comps generalizing b with
  | nil => rfl
  | cons x l ih =>
    show exec (addOps l dst src) (step b (dst, src, x)) i c = b i c
    rw [ih]
    unfold step
    rw [if_neg (fun h => hi h.1)]

theorem exec_addOps (comps : List C) (hn : comps.Nodup) (dst src : Nat) (_hd : dst ≠ src) (b : Nat → C → α) (c : C) :
    exec (addOps comps dst src) b dst c = if c ∈ comps then b dst c + b src c else b dst c := by
  induction comps generalizing b with
  | nil => simp [addOps, exec]
  | cons x l ih =>
    show exec (addOps l dst src) (step b (dst, src, x)) dst c = _
    obtain ⟨h1, h2⟩ := List.nodup_cons.1 hn
    rw [ih h2]
    unfold step
    dsimp only
    by_cases hx : c = x
    · subst hx
      rw [if_neg h1, if_pos ⟨rfl, rfl⟩, if_pos (by simp)]
    · rw [if_neg (c := dst = dst ∧ c = x) (fun h => hx h.2), if_neg (c := src = dst ∧ c = x) (fun h => hx h.2)]
      refine if_congr ?_ rfl rfl
      simp [hx]

/-- All operations of a list stay within the models `lo ≤ i < hi`. -/
def Within (lo hi : Nat) (t : List (Op C)) : Prop :=
  ∀ op ∈ t, (lo ≤ op.1 ∧ op.1 < hi) ∧ (lo ≤ op.2.1 ∧ op.2.1 < hi)

theorem step_outside (b : Nat → C → α) (op : Op C) (lo hi : Nat) (h : lo ≤ op.1 ∧ op.1 < hi) (i : Nat)
    (hi' : ¬ (lo ≤ i ∧ i < hi)) : step b op i = b i := by
  funext c
  unfold step
  rw [if_neg]
  rintro ⟨rfl, _⟩
  exact hi' h

theorem exec_outside (t : List (Op C)) (lo hi : Nat) (h : Within lo hi t) (b : Nat → C → α) (i : Nat)
    (hi' : ¬ (lo ≤ i ∧ i < hi)) : exec t b i = b i := by
  induction t generalizing b with
  | nil => rfl
  | cons op t ih =>
    show exec t (step b op) i = b i
    rw [ih fun o ho => h o (by simp [ho])]
    exact step_outside b op lo hi (h op (by simp)).1 i hi'

theorem exec_congr (t : List (Op C)) (lo hi : Nat) (h : Within lo hi t) (b b' : Nat → C → α)
    (hb : ∀ i, lo ≤ i → i < hi → b i = b' i) : ∀ i, lo ≤ i → i < hi → exec t b i = exec t b' i := by
  induction t generalizing b b' with
  | nil => exact hb
  | cons op t ih =>
    show ∀ i, lo ≤ i → i < hi → exec t (step b op) i = exec t (step b' op) i
    refine ih (fun o ho => h o (by simp [ho])) _ _ fun i h1 h2 => ?_
    funext c
    unfold step
    obtain ⟨_, hs⟩ := h op (by simp)
    rw [hb i h1 h2, hb op.2.1 hs.1 hs.2]

/-- Two threads on disjoint groups of models: every interleaving leaves on each
group what the thread of that group alone would leave. -/
theorem exec_interleave {t1 t2 t : List (Op C)} (hi : Interleave t1 t2 t) (lo mid hi' : Nat)
    (h1 : Within lo mid t1) (h2 : Within mid hi' t2) (b : Nat → C → α) :
    (∀ i, lo ≤ i → i < mid → exec t b i = exec t1 b i) ∧ ∀ i, mid ≤ i → i < hi' → exec t b i = exec t2 b i := by
  induction hi generalizing b with
  | nil => exact ⟨fun _ _ _ => rfl, fun _ _ _ => rfl⟩
  | @left x a t2 t _ ih =>
    obtain ⟨g1, g2⟩ := ih (fun o ho => h1 o (by simp [ho])) h2 (step b x)
    refine ⟨g1, fun i hm hh => ?_⟩
    show exec t (step b x) i = exec t2 b i
    rw [g2 i hm hh]
    refine exec_congr t2 mid hi' h2 _ _ (fun j hj hj' => ?_) i hm hh
    exact step_outside b x lo mid (h1 x (by simp)).1 j (by omega)
  | @right x t1 a t _ ih =>
    obtain ⟨g1, g2⟩ := ih h1 (fun o ho => h2 o (by simp [ho])) (step b x)
    refine ⟨fun i hm hh => ?_, g2⟩
    show exec t (step b x) i = exec t1 b i
    rw [g1 i hm hh]
    refine exec_congr t1 lo mid h1 _ _ (fun j hj hj' => ?_) i hm hh
    exact step_outside b x mid hi' (h2 x (by simp)).1 j (by omega)

omit [DecidableEq C] in
theorem within_interleave {t1 t2 t : List (Op C)} (hi : Interleave t1 t2 t) (lo mid hi' : Nat) (hlm : lo ≤ mid) (hmh : mid ≤ hi')
    (h1 : Within lo mid t1) (h2 : Within mid hi' t2) : Within lo hi' t := by
  induction hi with
  | nil => intro op ho; simp at ho
  | left x _ ih =>
    intro op ho
    rcases List.mem_cons.1 ho with rfl | ho
    · have := h1 op (by simp)
      omega
    · exact ih (fun o ho => h1 o (by simp [ho])) h2 op ho
  | right x _ ih =>
    intro op ho
    rcases List.mem_cons.1 ho with rfl | ho
    · have := h2 op (by simp)
      omega
    · exact ih h1 (fun o ho => h2 o (by simp [ho])) op ho

omit [DecidableEq C] in
theorem within_addOps (comps : List C) (lo hi dst src : Nat) (h1 : lo ≤ dst ∧ dst < hi) (h2 : lo ≤ src ∧ src < hi) :
    Within lo hi (addOps comps dst src) := by
  intro op ho
  obtain ⟨c, _, rfl⟩ := List.mem_map.1 ho
  exact ⟨h1, h2⟩

omit [DecidableEq C] in
theorem runs_within {comps : List C} {n off : Nat} {t : List (Op C)} (h : Runs comps n off t) :
    Within off (off + n) t := by
  induction h with
  | zero => intro op ho; simp at ho
  | one => intro op ho; simp at ho
  | two => exact within_addOps _ _ _ _ _ (by omega) (by omega)
  | three off =>
    intro op ho
    rcases List.mem_append.1 ho with ho | ho
    · exact within_addOps comps off (off + 3) off (off + 1) (by omega) (by omega) op ho
    · exact within_addOps comps off (off + 3) off (off + 2) (by omega) (by omega) op ho
  | @fork n off t1 t2 t h4 _ _ hi ih1 ih2 =>
    intro op ho
    rcases List.mem_append.1 ho with ho | ho
    · refine within_interleave hi off (off + n / 2) (off + n) (by omega) (by omega) ih1 ?_ op ho
      have : off + n / 2 + (n - n / 2) = off + n := by omega
      rwa [this] at ih2
    · exact within_addOps comps off (off + n) off (off + n / 2) (by omega) (by omega) op ho

/-- The reduction of `n` models starting at `off`: the first one ends with the sum. -/
theorem runs_sum {comps : List C} (hn : comps.Nodup) {n off : Nat} {t : List (Op C)} (h : Runs comps n off t) (hpos : 0 < n)
    (b : Nat → C → α) (c : C) (hc : c ∈ comps) : exec t b off c = ∑ i ∈ range n, b (off + i) c := by
  induction h generalizing b with
  | zero => omega
  | one => simp [exec]
  | two off =>
    rw [exec_addOps comps hn _ _ (by omega), if_pos hc]
    simp [Finset.sum_range_succ]
  | three off =>
    rw [exec_append, exec_addOps comps hn _ _ (by omega), if_pos hc, exec_addOps comps hn _ _ (by omega), if_pos hc,
      exec_addOps_other comps _ _ _ _ (by omega)]
    simp [Finset.sum_range_succ]
  | @fork n off t1 t2 t h4 r1 r2 hi ih1 ih2 =>
    have w1 := runs_within r1
    have w2 : Within (off + n / 2) (off + n) t2 := by
      have := runs_within r2
      have e : off + n / 2 + (n - n / 2) = off + n := by omega
      rwa [e] at this
    obtain ⟨g1, g2⟩ := exec_interleave hi off (off + n / 2) (off + n) w1 w2 b
    rw [exec_append, exec_addOps comps hn _ _ (by omega), if_pos hc, g1 off (by omega) (by omega),
      g2 (off + n / 2) (by omega) (by omega), ih1 (by omega) b, ih2 (by omega) b]
    have e : n = n / 2 + (n - n / 2) := by omega
    conv_rhs => rw [e]
    rw [Finset.sum_range_add]
    congr 1
    refine Finset.sum_congr rfl fun i _ => ?_
    rw [Nat.add_assoc]

theorem mem_interleave {β : Type} {a b t : List β} (h : Interleave a b t) (x : β) : x ∈ t ↔ x ∈ a ∨ x ∈ b := by
  induction h with
  | nil => simp
  | left y _ ih => simp [ih, or_assoc]
  | right y _ ih =>
    rw [List.mem_cons, List.mem_cons, ih]
    exact or_left_comm

theorem runs_unchanged {comps : List C} {n off : Nat} {t : List (Op C)} (h : Runs comps n off t) (b : Nat → C → α)
    (c : C) (hc : c ∉ comps) (i : Nat) : exec t b i c = b i c := by
  have key : ∀ t : List (Op C), (∀ op ∈ t, op.2.2 ∈ comps) → ∀ b : Nat → C → α, exec t b i c = b i c := by
    intro t
    induction t with
    | nil => intro _ b; rfl
    | cons op t ih =>
      intro hm b
      show exec t (step b op) i c = b i c
      rw [ih (fun o ho => hm o (by simp [ho]))]
      unfold step
      rw [if_neg]
      rintro ⟨_, rfl⟩
      exact hc (hm op (by simp))
  refine key t ?_ b
  have hadd : ∀ dst src, ∀ op ∈ addOps comps dst src, op.2.2 ∈ comps := by
    intro dst src op ho
    obtain ⟨c, hc, rfl⟩ := List.mem_map.1 ho
    exact hc
  clear b hc
  induction h with
  | zero => intro op ho; simp at ho
  | one => intro op ho; simp at ho
  | two => exact hadd _ _
  | three =>
    intro op ho
    rcases List.mem_append.1 ho with ho | ho <;> exact hadd _ _ op ho
  | fork _ _ _ hi ih1 ih2 =>
    intro op ho
    rcases List.mem_append.1 ho with ho | ho
    · rcases (mem_interleave hi op).1 ho with ho | ho
      · exact ih1 op ho
      · exact ih2 op ho
    · exact hadd _ _ op ho

theorem fold_comps (comps : List C) (hn : comps.Nodup) (v m : C → α) (c : C) :
    comps.foldl (fun m c => Function.update m c (v c + m c)) m c = if c ∈ comps then m c + v c else m c := by
  induction comps generalizing m with
  | nil => simp
  | cons x l ih =>
    obtain ⟨h1, h2⟩ := List.nodup_cons.1 hn
    rw [List.foldl_cons, ih h2]
    by_cases hx : c = x
    · subst hx
      rw [if_neg h1, if_pos (by simp), Function.update_self, add_comm]
    · rw [Function.update_of_ne hx]
      refine if_congr ?_ rfl rfl
      simp [hx]

theorem sumSeq_eq (comps : List C) (hn : comps.Nodup) (n : Nat) (b : Nat → C → α) (m : C → α) (c : C) :
    sumSeq comps n b m c = if c ∈ comps then m c + ∑ i ∈ range n, b i c else m c := by
  unfold sumSeq
  induction n with
  | zero => simp
  | succ n ih =>
    rw [List.range_succ, List.foldl_append, List.foldl_cons, List.foldl_nil, fold_comps comps hn, ih]
    split_ifs with hc
    · rw [Finset.sum_range_succ, add_assoc]
    · rfl

/-- **C39, reduction.** For every batch size and every interleaving of the worker
threads (at the granularity of single additions), the multithreaded reduction adds
to every component of the target exactly the sum of that component over the batch,
the same as the sequential sum, when the pairwise sum handles every component once. -/
theorem C39_multithread (comps : List C) (hn : comps.Nodup) (n : Nat) (b : Nat → C → α) (m m' : C → α)
    (h : Multithread comps n b m m') :
    (∀ c, m' c = if c ∈ comps then m c + ∑ i ∈ range n, b i c else m c) ∧ m' = sumSeq comps n b m := by
  have key : ∀ c, m' c = if c ∈ comps then m c + ∑ i ∈ range n, b i c else m c := by
    intro c
    unfold Multithread at h
    split_ifs at h with h3
    · rw [h, sumSeq_eq comps hn]
    · obtain ⟨t1, t2, t, r1, r2, hi, rfl⟩ := h
      rw [sumSeq_eq comps hn]
      split_ifs with hc
      · congr 1
        have hr : Runs comps n 0 (t ++ addOps comps 0 (0 + n / 2)) :=
          Runs.fork (by omega) r1 (by rw [Nat.zero_add]; exact r2) hi
        rw [Nat.zero_add] at hr
        rw [Finset.sum_range_one, runs_sum hn hr (by omega) b c hc]
        simp
      · rfl
  refine ⟨key, funext fun c => ?_⟩
  rw [key c, sumSeq_eq comps hn]

omit [DecidableEq C] in
/-- Every batch has an execution. -/
theorem runs_exists (comps : List C) (n : Nat) : ∀ off, ∃ t, Runs comps n off t := by
  induction n using Nat.strong_induction_on with
  | _ n ih =>
    intro off
    match n, ih with
    | 0, _ => exact ⟨_, .zero off⟩
    | 1, _ => exact ⟨_, .one off⟩
    | 2, _ => exact ⟨_, .two off⟩
    | 3, _ => exact ⟨_, .three off⟩
    | n + 4, ih =>
      obtain ⟨t1, r1⟩ := ih ((n + 4) / 2) (by omega) off
      obtain ⟨t2, r2⟩ := ih (n + 4 - (n + 4) / 2) (by omega) (off + (n + 4) / 2)
      have hi : ∀ a b : List (Op C), Interleave a b (a ++ b) := by
        intro a b
        induction a with
        | nil =>
          induction b with
          | nil => exact .nil
          | cons x b ih => exact .right x ih
        | cons x a ih => exact .left x ih
      exact ⟨_, .fork (by omega) r1 r2 (hi t1 t2)⟩

example (b : Nat → Fin 2 → Int) (m : Fin 2 → Int) : ∃ m', Multithread [0, 1] 7 b m m' := by
  obtain ⟨t1, r1⟩ := runs_exists [(0 : Fin 2), 1] (7 / 2) 0
  obtain ⟨t2, r2⟩ := runs_exists [(0 : Fin 2), 1] (7 - 7 / 2) (7 / 2)
  have hi : ∀ a b : List (Op (Fin 2)), Interleave a b (a ++ b) := by
    intro a b
    induction a with
    | nil =>
      induction b with
      | nil => exact .nil
      | cons x b ih => exact .right x ih
    | cons x a ih => exact .left x ih
  exact ⟨_, by unfold Multithread; rw [if_neg (by omega)]; exact ⟨t1, t2, _, r1, r2, hi t1 t2, rfl⟩⟩

omit [DecidableEq C] in
/-- **C39, no data races.** The two threads of every fork work on disjoint models:
no model accessed by one is written by the other. -/
theorem C39_race_free {comps : List C} {n off : Nat} {t1 t2 : List (Op C)} (r1 : Runs comps (n / 2) off t1)
    (r2 : Runs comps (n - n / 2) (off + n / 2) t2) :
    ∀ p ∈ t1, ∀ q ∈ t2, p.1 ≠ q.1 ∧ p.1 ≠ q.2.1 ∧ p.2.1 ≠ q.1 := by
  intro p hp q hq
  have a := runs_within r1 p hp
  have b := runs_within r2 q hq
  omega

/-! ### The pairwise sum -/

/-- The gradient arrays. -/
inductive Kind where
  | dw | db | dnw | dnb | ds | gamma | beta
deriving DecidableEq

/-- A component: part of the model (0 fully-connected, 1 convolutional, 2
residual), layer, inner layer, array, row, position. -/
structure Comp where
  part : Nat
  layer : Nat
  sub : Nat
  kind : Kind
  row : Nat
  pos : Nat
deriving DecidableEq

/-- An `fcl` as far as `sum_fully_connected_layers_partial_derivatives` looks at
it: `frozen` is `training_mode == FREEZE_TRAINING`, `dparams`, `edge` are
`exists_d_params_fcl` and `exists_edge_popup_stuff_fcl`, `norm` the `vector_dim` of
the layer normalisation. -/
structure FclD where
  input : Nat
  output : Nat
  frozen : Bool
  dparams : Bool
  edge : Bool
  noisy : Bool
  norm : Option Nat

/-- Positions of one array. -/
def cells (part layer sub : Nat) (kind : Kind) (row n : Nat) : List Comp :=
  (List.range n).map fun q => ⟨part, layer, sub, kind, row, q⟩

/-- The additions of `sum_fully_connected_layers_partial_derivatives` for layer `i`
(`/repo/src/math_functions.c` 1037-1049). -/
def fclOps (i : Nat) (f : FclD) : List Comp :=
  if f.frozen then [] else
    (if f.dparams then cells 0 i 0 .dw 0 (f.input * f.output) ++ cells 0 i 0 .db 0 f.output else []) ++
    (if f.edge then cells 0 i 0 .ds 0 (f.output * f.input) else []) ++
    (match f.norm with
     | some d => cells 0 i 0 .gamma 0 d
     | none => [])

/-- All gradients a training step reads. -/
def fclGrads (i : Nat) (f : FclD) : List Comp :=
  if f.frozen then [] else
    (if f.dparams then cells 0 i 0 .dw 0 (f.input * f.output) ++ cells 0 i 0 .db 0 f.output ++
      (if f.noisy then cells 0 i 0 .dnw 0 (f.input * f.output) ++ cells 0 i 0 .dnb 0 f.output else []) else []) ++
    (if f.edge then cells 0 i 0 .ds 0 (f.output * f.input) else []) ++
    (match f.norm with
     | some d => cells 0 i 0 .gamma 0 d ++ cells 0 i 0 .beta 0 d
     | none => [])

/-- A `cl`: `kernels` is `exists_d_kernels_cl`, `edge` the edge-popup test, `gn`
the number and dimension of the group normalisations. -/
structure ClD where
  nk : Nat
  per : Nat
  frozen : Bool
  kernels : Bool
  edge : Bool
  gn : Option (Nat × Nat)

/-- The additions of `sum_convolutional_layers_partial_derivatives` for layer `j`
(`/repo/src/math_functions.c` 999-1020): the group normalisations' `d_beta` twice,
`d_gamma` never. -/
def clOps (j : Nat) (f : ClD) : List Comp :=
  if f.frozen then [] else
    (if f.kernels then
      ((List.range f.nk).flatMap fun k => cells 1 j 0 .dw k f.per) ++ cells 1 j 0 .db 0 f.nk ++
        (match f.gn with
         | some (g, d) => (List.range g).flatMap fun k => cells 1 j 0 .beta k d ++ cells 1 j 0 .beta k d
         | none => [])
     else []) ++
    (if f.edge then cells 1 j 0 .ds 0 (f.nk * f.per) else [])

/-- All gradients a training step reads. -/
def clGrads (j : Nat) (f : ClD) : List Comp :=
  if f.frozen then [] else
    (if f.kernels then
      ((List.range f.nk).flatMap fun k => cells 1 j 0 .dw k f.per) ++ cells 1 j 0 .db 0 f.nk ++
        (match f.gn with
         | some (g, d) => (List.range g).flatMap fun k => cells 1 j 0 .gamma k d ++ cells 1 j 0 .beta k d
         | none => [])
     else []) ++
    (if f.edge then cells 1 j 0 .ds 0 (f.nk * f.per) else [])

/-- The additions of `sum_residual_layers_partial_derivatives` for convolutional
layer `j` of residual layer `i` (`/repo/src/math_functions.c` 957-981): the scores
only up to `n_kernels`. `exists_d_biases_cl` is the same test as
`exists_d_kernels_cl` for an allocated layer (`/repo/src/convolutional_layers.c`
911-917). -/
def rlOps (i j : Nat) (f : ClD) : List Comp :=
  if f.frozen then [] else
    if f.kernels || f.edge then
      (if f.kernels then ((List.range f.nk).flatMap fun k => cells 2 i j .dw k f.per) ++ cells 2 i j .db 0 f.nk else []) ++
      (if f.edge then cells 2 i j .ds 0 f.nk else []) ++
      (match f.gn with
       | some (g, d) => (List.range g).flatMap fun k => cells 2 i j .beta k d ++ cells 2 i j .beta k d
       | none => [])
    else []

/-- A model. -/
structure ModelD where
  fcls : List FclD
  cls : List ClD
  rls : List (List ClD)

/-- The additions of `sum_model_partial_derivatives`
(`/repo/src/math_functions.c` 1145-1153). -/
def modelOps (m : ModelD) : List Comp :=
  (m.fcls.zipIdx.flatMap fun p => fclOps p.2 p.1) ++ (m.cls.zipIdx.flatMap fun p => clOps p.2 p.1) ++
    m.rls.zipIdx.flatMap fun r => r.1.zipIdx.flatMap fun p => rlOps r.2 p.2 p.1

theorem mem_cells {part layer sub : Nat} {kind : Kind} {row n : Nat} {c : Comp} :
    c ∈ cells part layer sub kind row n ↔
      c.part = part ∧ c.layer = layer ∧ c.sub = sub ∧ c.kind = kind ∧ c.row = row ∧ c.pos < n := by
  unfold cells
  rw [List.mem_map]
  constructor
  · rintro ⟨q, hq, rfl⟩
    exact ⟨rfl, rfl, rfl, rfl, rfl, List.mem_range.1 hq⟩
  · rintro ⟨rfl, rfl, rfl, rfl, rfl, h⟩
    exact ⟨c.pos, List.mem_range.2 h, rfl⟩

theorem cells_nodup (part layer sub : Nat) (kind : Kind) (row n : Nat) : (cells part layer sub kind row n).Nodup :=
  List.Nodup.map (fun _ _ h => (Comp.mk.inj h).2.2.2.2.2) List.nodup_range

theorem rows_nodup (part layer sub : Nat) (kind : Kind) (n per : Nat) :
    ((List.range n).flatMap fun k => cells part layer sub kind k per).Nodup := by
  rw [List.nodup_flatMap]
  refine ⟨fun k _ => cells_nodup _ _ _ _ _ _, List.Pairwise.imp ?_ (List.nodup_range (n := n))⟩
  intro i j hij x hx hy
  exact hij ((mem_cells.1 hx).2.2.2.2.1.symm.trans (mem_cells.1 hy).2.2.2.2.1)

theorem mem_rows {part layer sub : Nat} {kind : Kind} {n per : Nat} {c : Comp} :
    (c ∈ (List.range n).flatMap fun k => cells part layer sub kind k per) ↔
      c.part = part ∧ c.layer = layer ∧ c.sub = sub ∧ c.kind = kind ∧ c.row < n ∧ c.pos < per := by
  rw [List.mem_flatMap]
  constructor
  · rintro ⟨k, hk, h⟩
    obtain ⟨a, b, d, e, rfl, f⟩ := mem_cells.1 h
    exact ⟨a, b, d, e, List.mem_range.1 hk, f⟩
  · rintro ⟨a, b, d, e, hk, f⟩
    exact ⟨c.row, List.mem_range.2 hk, mem_cells.2 ⟨a, b, d, e, rfl, f⟩⟩

/-- No noisy weights, no normalisation. -/
def FclD.Plain (f : FclD) : Prop := f.noisy = false ∧ f.norm = none

theorem fclOps_plain (i : Nat) (f : FclD) (h : f.Plain) : fclOps i f = fclGrads i f := by
  unfold fclOps fclGrads
  rw [h.1, h.2]
  simp

/-- All gradients of a convolutional layer of a residual layer. -/
def rlGrads (i j : Nat) (f : ClD) : List Comp :=
  if f.frozen then [] else
    (if f.kernels then ((List.range f.nk).flatMap fun k => cells 2 i j .dw k f.per) ++ cells 2 i j .db 0 f.nk else []) ++
    (if f.edge then cells 2 i j .ds 0 (f.nk * f.per) else []) ++
    (match f.gn with
     | some (g, d) => (List.range g).flatMap fun k => cells 2 i j .gamma k d ++ cells 2 i j .beta k d
     | none => [])

/-- All gradients of a model. -/
def modelGrads (m : ModelD) : List Comp :=
  (m.fcls.zipIdx.flatMap fun p => fclGrads p.2 p.1) ++ (m.cls.zipIdx.flatMap fun p => clGrads p.2 p.1) ++
    m.rls.zipIdx.flatMap fun r => r.1.zipIdx.flatMap fun p => rlGrads r.2 p.2 p.1

/-- No noisy layer, no normalisation, no edge-popup in a residual layer. -/
def ModelD.Plain (m : ModelD) : Prop :=
  (∀ f ∈ m.fcls, f.Plain) ∧ (∀ f ∈ m.cls, f.gn = none) ∧ ∀ r ∈ m.rls, ∀ f ∈ r, f.gn = none ∧ f.edge = false

theorem nodup_app {l l' : List Comp} (h1 : l.Nodup) (h2 : l'.Nodup) (h : ∀ c, c ∈ l → c ∈ l' → False) :
    (l ++ l').Nodup := by
  rw [List.nodup_append]
  exact ⟨h1, h2, fun a ha b hb e => h a ha (e ▸ hb)⟩

theorem nodup_ite {p : Prop} [Decidable p] {l : List Comp} (h : l.Nodup) : (if p then l else []).Nodup := by
  split_ifs
  · exact h
  · exact List.nodup_nil

theorem mem_ite_nil {p : Prop} [Decidable p] {l : List Comp} {c : Comp} (h : c ∈ if p then l else []) : c ∈ l := by
  split_ifs at h
  · exact h
  · simp at h

theorem fclOps_plain_eq (i : Nat) (f : FclD) (h : f.Plain) : fclOps i f = if f.frozen then [] else
    (if f.dparams then cells 0 i 0 .dw 0 (f.input * f.output) ++ cells 0 i 0 .db 0 f.output else []) ++
    (if f.edge then cells 0 i 0 .ds 0 (f.output * f.input) else []) := by
  unfold fclOps
  rw [h.2]
  simp

theorem fclOps_ok (i : Nat) (f : FclD) (h : f.Plain) :
    (fclOps i f).Nodup ∧ ∀ c ∈ fclOps i f, c.part = 0 ∧ c.layer = i := by
  rw [fclOps_plain_eq i f h]
  by_cases h1 : f.frozen = true
  · rw [if_pos h1]
    simp
  · rw [if_neg h1]
    constructor
    · refine nodup_app (nodup_ite (nodup_app (cells_nodup _ _ _ _ _ _) (cells_nodup _ _ _ _ _ _) ?_))
        (nodup_ite (cells_nodup _ _ _ _ _ _)) ?_
      · intro c a b
        rw [mem_cells] at a b
        exact absurd (a.2.2.2.1.symm.trans b.2.2.2.1) (by simp)
      · intro c a b
        have a := mem_ite_nil a
        have b := mem_ite_nil b
        rw [List.mem_append, mem_cells, mem_cells] at a
        rw [mem_cells] at b
        rcases a with a | a <;> exact absurd (a.2.2.2.1.symm.trans b.2.2.2.1) (by simp)
    · intro c hc
      rcases List.mem_append.1 hc with hc | hc
      · have hc := mem_ite_nil hc
        rw [List.mem_append, mem_cells, mem_cells] at hc
        rcases hc with hc | hc <;> exact ⟨hc.1, hc.2.1⟩
      · have hc := mem_cells.1 (mem_ite_nil hc)
        exact ⟨hc.1, hc.2.1⟩

theorem clOps_plain (j : Nat) (f : ClD) (h : f.gn = none) : clOps j f = clGrads j f := by
  unfold clOps clGrads
  rw [h]

theorem rlOps_plain (i j : Nat) (f : ClD) (h : f.gn = none) (he : f.edge = false) : rlOps i j f = rlGrads i j f := by
  unfold rlOps rlGrads
  rw [h, he]
  cases f.kernels <;> simp

theorem clOps_ok (j : Nat) (f : ClD) (h : f.gn = none) :
    (clOps j f).Nodup ∧ ∀ c ∈ clOps j f, c.part = 1 ∧ c.layer = j := by
  unfold clOps
  rw [h]
  by_cases h1 : f.frozen = true
  · rw [if_pos h1]
    simp
  · rw [if_neg h1]
    simp only [List.append_nil]
    constructor
    · refine nodup_app (nodup_ite (nodup_app (rows_nodup _ _ _ _ _ _) (cells_nodup _ _ _ _ _ _) ?_))
        (nodup_ite (cells_nodup _ _ _ _ _ _)) ?_
      · intro c a b
        have a := mem_rows.1 a
        rw [mem_cells] at b
        exact absurd (a.2.2.2.1.symm.trans b.2.2.2.1) (by simp)
      · intro c a b
        have a := mem_ite_nil a
        have b := mem_ite_nil b
        rw [List.mem_append, mem_rows, mem_cells] at a
        rw [mem_cells] at b
        rcases a with a | a <;> exact absurd (a.2.2.2.1.symm.trans b.2.2.2.1) (by simp)
    · intro c hc
      rcases List.mem_append.1 hc with hc | hc
      · have hc := mem_ite_nil hc
        rw [List.mem_append, mem_rows, mem_cells] at hc
        rcases hc with hc | hc <;> exact ⟨hc.1, hc.2.1⟩
      · have hc := mem_cells.1 (mem_ite_nil hc)
        exact ⟨hc.1, hc.2.1⟩

theorem rlOps_ok (i j : Nat) (f : ClD) (h : f.gn = none) (he : f.edge = false) :
    (rlOps i j f).Nodup ∧ ∀ c ∈ rlOps i j f, c.part = 2 ∧ c.layer = i ∧ c.sub = j := by
  rw [rlOps_plain i j f h he]
  unfold rlGrads
  rw [h, he]
  by_cases h1 : f.frozen = true
  · rw [if_pos h1]
    simp
  · rw [if_neg h1, if_neg (c := false = true) (by simp), List.append_nil, List.append_nil]
    constructor
    · refine nodup_ite (nodup_app (rows_nodup _ _ _ _ _ _) (cells_nodup _ _ _ _ _ _) ?_)
      intro c a b
      have a := mem_rows.1 a
      rw [mem_cells] at b
      exact absurd (a.2.2.2.1.symm.trans b.2.2.2.1) (by simp)
    · intro c hc
      have hc := mem_ite_nil hc
      rw [List.mem_append, mem_rows, mem_cells] at hc
      rcases hc with hc | hc <;> exact ⟨hc.1, hc.2.1, hc.2.2.1⟩

theorem zip_nodup {F : Type} (l : List F) (g : Nat → F → List Comp) (key : Comp → Nat)
    (h1 : ∀ i, ∀ f ∈ l, (g i f).Nodup) (h2 : ∀ i, ∀ f ∈ l, ∀ c ∈ g i f, key c = i) :
    (l.zipIdx.flatMap fun p => g p.2 p.1).Nodup := by
  rw [List.nodup_flatMap]
  refine ⟨fun p hp => h1 p.2 p.1 (List.mem_zipIdx' hp |>.2 ▸ List.getElem_mem _), ?_⟩
  have hnd : (l.zipIdx.map Prod.snd).Nodup := by
    rw [List.zipIdx_map_snd]
    exact List.nodup_range'
  have hp : l.zipIdx.Pairwise fun a b => a.2 ≠ b.2 := List.pairwise_map.1 hnd
  refine List.Pairwise.imp_of_mem ?_ hp
  intro a b ha hb hne c hca hcb
  exact hne ((h2 a.2 a.1 (List.mem_zipIdx' ha |>.2 ▸ List.getElem_mem _) c hca).symm.trans
    (h2 b.2 b.1 (List.mem_zipIdx' hb |>.2 ▸ List.getElem_mem _) c hcb))

theorem mem_of_zip {F : Type} {l : List F} {p : F × Nat} (hp : p ∈ l.zipIdx) : p.1 ∈ l :=
  List.mem_zipIdx' hp |>.2 ▸ List.getElem_mem _

theorem modelOps_plain (m : ModelD) (h : m.Plain) : modelOps m = modelGrads m ∧ (modelOps m).Nodup := by
  obtain ⟨hf, hc, hr⟩ := h
  refine ⟨?_, ?_⟩
  · unfold modelOps modelGrads
    congr 1
    · congr 1
      · exact List.flatMap_congr fun p hp => fclOps_plain _ _ (hf p.1 (mem_of_zip hp))
      · exact List.flatMap_congr fun p hp => clOps_plain _ _ (hc p.1 (mem_of_zip hp))
    · exact List.flatMap_congr fun r hr' => List.flatMap_congr fun p hp =>
        rlOps_plain _ _ _ (hr r.1 (mem_of_zip hr') p.1 (mem_of_zip hp)).1 (hr r.1 (mem_of_zip hr') p.1 (mem_of_zip hp)).2
  · have k0 : ∀ c ∈ m.fcls.zipIdx.flatMap (fun p => fclOps p.2 p.1), c.part = 0 := by
      intro c hc
      obtain ⟨p, hp, hc⟩ := List.mem_flatMap.1 hc
      exact ((fclOps_ok _ _ (hf p.1 (mem_of_zip hp))).2 c hc).1
    have k1 : ∀ c ∈ m.cls.zipIdx.flatMap (fun p => clOps p.2 p.1), c.part = 1 := by
      intro c hc'
      obtain ⟨p, hp, hc'⟩ := List.mem_flatMap.1 hc'
      exact ((clOps_ok _ _ (hc p.1 (mem_of_zip hp))).2 c hc').1
    have k2 : ∀ c ∈ m.rls.zipIdx.flatMap (fun r => r.1.zipIdx.flatMap fun p => rlOps r.2 p.2 p.1), c.part = 2 := by
      intro c hc'
      obtain ⟨r, hr', hc'⟩ := List.mem_flatMap.1 hc'
      obtain ⟨p, hp, hc'⟩ := List.mem_flatMap.1 hc'
      have := hr r.1 (mem_of_zip hr') p.1 (mem_of_zip hp)
      exact ((rlOps_ok _ _ _ this.1 this.2).2 c hc').1
    unfold modelOps
    refine nodup_app (nodup_app ?_ ?_ ?_) ?_ ?_
    · exact zip_nodup _ fclOps Comp.layer (fun i f hf' => (fclOps_ok i f (hf f hf')).1)
        fun i f hf' c hc => ((fclOps_ok i f (hf f hf')).2 c hc).2
    · exact zip_nodup _ clOps Comp.layer (fun i f hf' => (clOps_ok i f (hc f hf')).1)
        fun i f hf' c hc' => ((clOps_ok i f (hc f hf')).2 c hc').2
    · intro c a b
      have := (k0 c a).symm.trans (k1 c b)
      omega
    · refine zip_nodup m.rls (fun i r => r.zipIdx.flatMap fun p => rlOps i p.2 p.1) Comp.layer (fun i r hr' => ?_)
        fun i r hr' c hc' => ?_
      · exact zip_nodup r (rlOps i) Comp.sub (fun j f hf' => (rlOps_ok i j f (hr r hr' f hf').1 (hr r hr' f hf').2).1)
          fun j f hf' c hc' => ((rlOps_ok i j f (hr r hr' f hf').1 (hr r hr' f hf').2).2 c hc').2.2
      · obtain ⟨p, hp, hc'⟩ := List.mem_flatMap.1 hc'
        have := hr r hr' p.1 (mem_of_zip hp)
        exact ((rlOps_ok _ _ _ this.1 this.2).2 c hc').2.1
    · intro c a b
      rcases List.mem_append.1 a with a | a
      · have := (k0 c a).symm.trans (k2 c b)
        omega
      · have := (k1 c a).symm.trans (k2 c b)
        omega

/-- **C39 (partial).** For every model without normalisation, noisy layers and
edge-popup residual layers, every batch size and every interleaving, the reduction
gives every gradient component of the target its previous value plus the sum over
the batch, and changes nothing else. -/
theorem C39_model_partial (d : ModelD) (hd : d.Plain) (n : Nat) (b : Nat → Comp → α) (m m' : Comp → α)
    (h : Multithread (modelOps d) n b m m') (c : Comp) :
    m' c = if c ∈ modelGrads d then m c + ∑ i ∈ range n, b i c else m c := by
  obtain ⟨e, hn⟩ := modelOps_plain d hd
  rw [← e]
  exact (C39_multithread _ hn n b m m' h).1 c

example : ModelD.Plain ⟨[⟨2, 3, false, true, false, false, none⟩], [⟨2, 9, false, true, true, none⟩],
    [[⟨1, 4, false, true, false, none⟩]]⟩ := by
  simp [ModelD.Plain, FclD.Plain]

/-- The full claim for a model and one sample per batch. -/
def SumsAll (d : ModelD) : Prop :=
  ∀ (n : Nat) (b : Nat → Comp → Int) (m m' : Comp → Int), Multithread (modelOps d) n b m m' →
    ∀ c ∈ modelGrads d, m' c = m c + ∑ i ∈ range n, b i c

theorem refute (d : ModelD) (c : Comp) (hc : c ∈ modelGrads d) (hne : (modelOps d).count c ≠ 1) : ¬ SumsAll d := by
  intro h
  have hf : ∀ (l : List Comp) (m : Comp → Int),
      l.foldl (fun m c => Function.update m c (1 + m c)) m c = m c + l.count c := by
    intro l
    induction l with
    | nil => simp
    | cons x l ih =>
      intro m
      rw [List.foldl_cons, ih, List.count_cons]
      by_cases hx : c = x
      · subst hx
        simp only [Function.update_self, beq_self_eq_true, if_true]
        push_cast
        ring
      · rw [Function.update_of_ne hx]
        have : (x == c) = false := by simpa using fun h => hx h.symm
        simp [this]
  have h1 := h 1 (fun _ _ => 1) (fun _ => 0) (sumSeq (modelOps d) 1 (fun _ _ => 1) fun _ => 0)
    (by unfold Multithread; rw [if_pos (by omega)]) c hc
  have h2 : sumSeq (modelOps d) 1 (fun _ _ => (1 : Int)) (fun _ => 0) c = ((modelOps d).count c : Int) := by
    unfold sumSeq
    simp only [List.range_succ, List.range_zero, List.nil_append, List.foldl_cons, List.foldl_nil]
    rw [hf]
    simp
  rw [h2] at h1
  simp at h1
  omega

/-- **C39, refuted for group normalisation**: `d_gamma` is never summed (and
`d_beta` is summed twice), in convolutional and in residual layers. -/
theorem C39_group_norm_refuted :
    (¬ SumsAll ⟨[], [⟨1, 1, false, true, false, some (1, 1)⟩], []⟩ ∧
      (modelOps ⟨[], [⟨1, 1, false, true, false, some (1, 1)⟩], []⟩).count ⟨1, 0, 0, .beta, 0, 0⟩ = 2) ∧
    ¬ SumsAll ⟨[], [], [[⟨1, 1, false, true, false, some (1, 1)⟩]]⟩ :=
  ⟨⟨refute _ ⟨1, 0, 0, .gamma, 0, 0⟩ (by decide) (by decide), by decide⟩,
    refute _ ⟨2, 0, 0, .gamma, 0, 0⟩ (by decide) (by decide)⟩

/-- **C39, refuted for layer normalisation**: `d_beta` is never summed. -/
theorem C39_layer_norm_refuted : ¬ SumsAll ⟨[⟨1, 1, false, true, false, false, some 1⟩], [], []⟩ :=
  refute _ ⟨0, 0, 0, .beta, 0, 0⟩ (by decide) (by decide)

/-- **C39, refuted for noisy layers**: the noise gradients are never summed. -/
theorem C39_noisy_refuted : ¬ SumsAll ⟨[⟨1, 1, false, true, false, true, none⟩], [], []⟩ :=
  refute _ ⟨0, 0, 0, .dnw, 0, 0⟩ (by decide) (by decide)

/-- **C39, refuted for edge-popup residual layers**: the score gradients beyond the
first `n_kernels` are never summed. -/
theorem C39_residual_scores_refuted : ¬ SumsAll ⟨[], [], [[⟨1, 2, false, false, true, none⟩]]⟩ :=
  refute _ ⟨2, 0, 0, .ds, 0, 1⟩ (by decide) (by decide)

end LLab.SumTree
