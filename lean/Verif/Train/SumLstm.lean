import Mathlib.Algebra.BigOperators.Group.List.Basic
import Mathlib.Data.List.Nodup
import Mathlib.Data.List.Range
import Mathlib.Logic.Function.Basic

/-!
Property C182: `sum_lstm_layers_partial_derivatives`, `sum_rmodel_partial_derivatives` and `sum_rmodels_partial_derivatives`
(`/repo/src/math_functions.c` 1072-1103, 1193-1199, 1210-1219).

The gradients of a recurrent model are a function of the array and the position in it; what the functions read of the layers otherwise
is their shape, that of the first model. Additions are exact.
-/

namespace LLab.SumLstm

/-! ### Model -/

/-- `training_mode` (`/repo/src/llab.h` 162-166). -/
inductive Mode
  | gradientDescent | edgePopup | freezeTraining | freezeBiases
deriving DecidableEq

/-- The arrays of gradients of a layer: `d_w`, `d_u`, `d_biases`, `d_w_scores`, `d_u_scores` and, of the normalisations, `d_gamma`, `d_beta`. -/
inductive Kind
  | dw | du | db | dws | dus | gamma | beta
deriving DecidableEq

/-- One gradient: layer, array, row of the array (the gate or the number of the normalisation) and place. -/
structure Comp where
  layer : Nat
  kind : Kind
  row : Nat
  pos : Nat
deriving DecidableEq

/-- The shape of an `lstm`; `dim` is the `vector_dim` of each of its normalisations. -/
structure LstmD where
  mode : Mode
  input : Nat
  output : Nat
  groupNorm : Bool
  window : Nat
  grouped : Nat
  dim : Nat → Nat

/-- The places `sum1D` goes through (`/repo/src/math_functions.c` 859-864). -/
def cells (layer : Nat) (kind : Kind) (row n : Nat) : List Comp := (List.range n).map fun q => ⟨layer, kind, row, q⟩

/-- The additions for one gate (`/repo/src/math_functions.c` 1081-1090). -/
def gateOps (i : Nat) (l : LstmD) (j : Nat) : List Comp :=
  if l.mode = .gradientDescent ∨ l.mode = .freezeTraining then
    cells i .dw j (l.output * l.input) ++ (cells i .du j (l.output * l.output) ++ cells i .db j l.output)
  else if l.mode = .edgePopup then cells i .dws j (l.output * l.input) ++ cells i .dus j (l.output * l.output)
  else []

/-- The additions for one normalisation (`/repo/src/math_functions.c` 1095-1096). -/
def normOps (i : Nat) (l : LstmD) (j : Nat) : List Comp := cells i .gamma j (l.dim j) ++ cells i .beta j (l.dim j)

/-- The additions for one layer (`/repo/src/math_functions.c` 1079-1099). -/
def lstmOps (i : Nat) (l : LstmD) : List Comp :=
  if l.mode ≠ .freezeTraining then
    ((List.range 4).flatMap (gateOps i l)) ++ (if l.groupNorm then (List.range (l.window / l.grouped)).flatMap (normOps i l) else [])
  else []

/-- The additions of `sum_lstm_layers_partial_derivatives` (`/repo/src/math_functions.c` 1078-1100), the layers numbered from `i` on. -/
def layersOps : Nat → List LstmD → List Comp
  | _, [] => []
  | i, l :: ls => lstmOps i l ++ layersOps (i + 1) ls

/-- `sum_rmodel_partial_derivatives(m, b, m)` (`/repo/src/math_functions.c` 1193-1199). -/
def sumR {α : Type} [Add α] (ls : List LstmD) (m b : Comp → α) : Comp → α :=
  (layersOps 0 ls).foldl (fun m c => Function.update m c (m c + b c)) m

/-- `sum_rmodels_partial_derivatives(m, bs, n)` (`/repo/src/math_functions.c` 1210-1219). -/
def sumRs {α : Type} [Add α] (ls : List LstmD) (m : Comp → α) (bs : List (Comp → α)) : Comp → α := bs.foldl (sumR ls) m

/-! ### Specification -/

/-- The gradients a layer trains with: in gradient descent those of the weights, recurrent weights and biases of its four gates, with frozen biases
the same but for the biases, with edge popup those of the scores, and unless it is frozen those of its normalisations. -/
def Trains (l : LstmD) (c : Comp) : Prop :=
  match c.kind with
  | .dw => (l.mode = .gradientDescent ∨ l.mode = .freezeBiases) ∧ c.row < 4 ∧ c.pos < l.output * l.input
  | .du => (l.mode = .gradientDescent ∨ l.mode = .freezeBiases) ∧ c.row < 4 ∧ c.pos < l.output * l.output
  | .db => l.mode = .gradientDescent ∧ c.row < 4 ∧ c.pos < l.output
  | .dws => l.mode = .edgePopup ∧ c.row < 4 ∧ c.pos < l.output * l.input
  | .dus => l.mode = .edgePopup ∧ c.row < 4 ∧ c.pos < l.output * l.output
  | .gamma => l.mode ≠ .freezeTraining ∧ l.groupNorm = true ∧ c.row < l.window / l.grouped ∧ c.pos < l.dim c.row
  | .beta => l.mode ≠ .freezeTraining ∧ l.groupNorm = true ∧ c.row < l.window / l.grouped ∧ c.pos < l.dim c.row

/-- The gradients a model trains with. -/
def Grad (ls : List LstmD) (c : Comp) : Prop := ∃ l, ls[c.layer]? = some l ∧ Trains l c

/-! ### Lemmas -/

theorem mem_cells {layer : Nat} {kind : Kind} {row n : Nat} {c : Comp} :
    c ∈ cells layer kind row n ↔ c.layer = layer ∧ c.kind = kind ∧ c.row = row ∧ c.pos < n := by
  unfold cells
  rw [List.mem_map]
  constructor
  · rintro ⟨q, hq, rfl⟩
    exact ⟨rfl, rfl, rfl, List.mem_range.1 hq⟩
  · rintro ⟨rfl, rfl, rfl, h⟩
    exact ⟨c.pos, List.mem_range.2 h, rfl⟩

theorem cells_nodup (layer : Nat) (kind : Kind) (row n : Nat) : (cells layer kind row n).Nodup :=
  List.Nodup.map (fun _ _ h => (Comp.mk.inj h).2.2.2) List.nodup_range

theorem app_nodup {l l' : List Comp} (h1 : l.Nodup) (h2 : l'.Nodup) (h : ∀ c, c ∈ l → c ∈ l' → False) : (l ++ l').Nodup :=
  List.nodup_append.mpr ⟨h1, h2, fun a ha _ hb e => h a ha (e ▸ hb)⟩

theorem gate_mem {i : Nat} {l : LstmD} {j : Nat} {c : Comp} (h : c ∈ gateOps i l j) : c.layer = i ∧ c.row = j ∧ c.kind ≠ .gamma ∧ c.kind ≠ .beta := by
  unfold gateOps at h
  split at h
  · simp only [List.mem_append, mem_cells] at h
    rcases h with ⟨a, b, d, _⟩ | ⟨a, b, d, _⟩ | ⟨a, b, d, _⟩ <;> exact ⟨a, d, by simp [b], by simp [b]⟩
  · split at h
    · simp only [List.mem_append, mem_cells] at h
      rcases h with ⟨a, b, d, _⟩ | ⟨a, b, d, _⟩ <;> exact ⟨a, d, by simp [b], by simp [b]⟩
    · cases h

theorem norm_mem {i : Nat} {l : LstmD} {j : Nat} {c : Comp} (h : c ∈ normOps i l j) : c.layer = i ∧ c.row = j ∧ (c.kind = .gamma ∨ c.kind = .beta) := by
  unfold normOps at h
  simp only [List.mem_append, mem_cells] at h
  rcases h with ⟨a, b, d, _⟩ | ⟨a, b, d, _⟩
  · exact ⟨a, d, Or.inl b⟩
  · exact ⟨a, d, Or.inr b⟩

theorem gate_nodup (i : Nat) (l : LstmD) (j : Nat) : (gateOps i l j).Nodup := by
  unfold gateOps
  split
  · refine app_nodup (cells_nodup _ _ _ _) (app_nodup (cells_nodup _ _ _ _) (cells_nodup _ _ _ _) ?_) ?_
    · intro c h h'
      rw [mem_cells] at h h'
      have := h.2.1.symm.trans h'.2.1
      cases this
    · intro c h h'
      simp only [List.mem_append, mem_cells] at h h'
      rcases h' with h' | h' <;> (have := h.2.1.symm.trans h'.2.1; cases this)
  · split
    · refine app_nodup (cells_nodup _ _ _ _) (cells_nodup _ _ _ _) ?_
      intro c h h'
      rw [mem_cells] at h h'
      have := h.2.1.symm.trans h'.2.1
      cases this
    · exact List.nodup_nil

theorem norm_nodup (i : Nat) (l : LstmD) (j : Nat) : (normOps i l j).Nodup := by
  refine app_nodup (cells_nodup _ _ _ _) (cells_nodup _ _ _ _) ?_
  intro c h h'
  rw [mem_cells] at h h'
  have := h.2.1.symm.trans h'.2.1
  cases this

theorem flat_nodup (n : Nat) (f : Nat → List Comp) (h : ∀ j, (f j).Nodup) (hr : ∀ j, ∀ c ∈ f j, c.row = j) : ((List.range n).flatMap f).Nodup := by
  rw [List.nodup_flatMap]
  refine ⟨fun k _ => h k, List.Pairwise.imp ?_ (List.nodup_range (n := n))⟩
  intro i j hij x hx hy
  exact hij ((hr i x hx).symm.trans (hr j x hy))

theorem lstm_nodup (i : Nat) (l : LstmD) : (lstmOps i l).Nodup := by
  unfold lstmOps
  split
  · refine app_nodup (flat_nodup _ _ (gate_nodup i l) fun j c h => (gate_mem h).2.1) ?_ ?_
    · split
      · exact flat_nodup _ _ (norm_nodup i l) fun j c h => (norm_mem h).2.1
      · exact List.nodup_nil
    · intro c h h'
      split at h'
      · obtain ⟨j, _, hj⟩ := List.mem_flatMap.mp h
        obtain ⟨k, _, hk⟩ := List.mem_flatMap.mp h'
        rcases (norm_mem hk).2.2 with x | x
        · exact (gate_mem hj).2.2.1 x
        · exact (gate_mem hj).2.2.2 x
      · cases h'
  · exact List.nodup_nil

theorem lstm_layer {i : Nat} {l : LstmD} {c : Comp} (h : c ∈ lstmOps i l) : c.layer = i := by
  unfold lstmOps at h
  split at h
  · rcases List.mem_append.mp h with h | h
    · obtain ⟨j, _, hj⟩ := List.mem_flatMap.mp h
      exact (gate_mem hj).1
    · split at h
      · obtain ⟨j, _, hj⟩ := List.mem_flatMap.mp h
        exact (norm_mem hj).1
      · cases h
  · cases h

theorem layers_mem : ∀ (ls : List LstmD) (i : Nat) (c : Comp), c ∈ layersOps i ls ↔ i ≤ c.layer ∧ ∃ l, ls[c.layer - i]? = some l ∧ c ∈ lstmOps c.layer l
  | [], i, c => by simp [layersOps]
  | l :: ls, i, c => by
    rw [layersOps, List.mem_append, layers_mem ls (i + 1) c]
    constructor
    · rintro (h | ⟨h, l', e, m⟩)
      · have hl := lstm_layer h
        exact ⟨by omega, l, by rw [hl, Nat.sub_self]; rfl, by rw [hl]; exact h⟩
      · refine ⟨by omega, l', ?_, m⟩
        rw [show c.layer - i = (c.layer - (i + 1)) + 1 by omega]
        exact e
    · rintro ⟨h, l', e, m⟩
      by_cases hc : c.layer = i
      · rw [hc, Nat.sub_self] at e
        cases e
        exact Or.inl (hc ▸ m)
      · refine Or.inr ⟨by omega, l', ?_, m⟩
        rw [show c.layer - i = (c.layer - (i + 1)) + 1 by omega] at e
        exact e

theorem layers_nodup : ∀ (ls : List LstmD) (i : Nat), (layersOps i ls).Nodup
  | [], _ => List.nodup_nil
  | l :: ls, i => app_nodup (lstm_nodup i l) (layers_nodup ls (i + 1)) fun c h h' => by
      have := lstm_layer h
      have := ((layers_mem ls (i + 1) c).mp h').1
      omega

theorem fold_spec {α : Type} [Add α] (b : Comp → α) : ∀ (ops : List Comp), ops.Nodup → ∀ (m : Comp → α) (c : Comp),
    ops.foldl (fun m c => Function.update m c (m c + b c)) m c = if c ∈ ops then m c + b c else m c
  | [], _, m, c => by simp
  | o :: ops, hn, m, c => by
    obtain ⟨ho, hn⟩ := List.nodup_cons.mp hn
    rw [List.foldl_cons, fold_spec b ops hn]
    by_cases hc : c = o
    · subst hc
      rw [if_neg ho, if_pos List.mem_cons_self, Function.update_self]
    · rw [Function.update_of_ne hc]
      exact if_congr (by simp [hc]) rfl rfl

theorem sumRs_spec {α : Type} [AddMonoid α] (ls : List LstmD) : ∀ (bs : List (Comp → α)) (m : Comp → α) (c : Comp),
    sumRs ls m bs c = if c ∈ layersOps 0 ls then m c + (bs.map fun b => b c).sum else m c
  | [], m, c => by simp [sumRs]
  | b :: bs, m, c => by
    have := sumRs_spec ls bs (sumR ls m b) c
    rw [show sumRs ls m (b :: bs) = sumRs ls (sumR ls m b) bs from rfl, this, sumR, fold_spec b _ (layers_nodup ls 0)]
    split
    · rw [List.map_cons, List.sum_cons, add_assoc]
    · rfl

/-- What is added, for one layer. -/
theorem lstm_trains (l : LstmD) (c : Comp) (h : l.mode ≠ .freezeBiases) : c ∈ lstmOps c.layer l ↔ Trains l c := by
  obtain ⟨i, k, r, p⟩ := c
  unfold lstmOps Trains
  cases hm : l.mode with
  | freezeBiases => exact absurd hm h
  | freezeTraining => cases k <;> simp
  | gradientDescent =>
    cases hg : l.groupNorm <;> cases k <;>
      simp [gateOps, normOps, hm, mem_cells, List.mem_flatMap]
  | edgePopup =>
    cases hg : l.groupNorm <;> cases k <;>
      simp [gateOps, normOps, hm, mem_cells, List.mem_flatMap]

theorem mem_grad (ls : List LstmD) (h : ∀ l ∈ ls, l.mode ≠ .freezeBiases) (c : Comp) : c ∈ layersOps 0 ls ↔ Grad ls c := by
  rw [layers_mem]
  simp only [Nat.zero_le, true_and, Nat.sub_zero]
  constructor
  · rintro ⟨l, e, m⟩
    exact ⟨l, e, (lstm_trains l c (h l (List.mem_of_getElem? e))).mp m⟩
  · rintro ⟨l, e, m⟩
    exact ⟨l, e, (lstm_trains l c (h l (List.mem_of_getElem? e))).mpr m⟩

/-! ### Theorems -/

/-- With no layer of frozen biases, every gradient the model trains with becomes its value before plus the sum over all models of the batch, and nothing
else changes. -/
theorem C182_sum_partial {α : Type} [AddMonoid α] (ls : List LstmD) (h : ∀ l ∈ ls, l.mode ≠ .freezeBiases) (m : Comp → α) (bs : List (Comp → α)) (c : Comp) :
    (Grad ls c → sumRs ls m bs c = m c + (bs.map fun b => b c).sum) ∧ (¬ Grad ls c → sumRs ls m bs c = m c) := by
  rw [sumRs_spec, ← mem_grad ls h c]
  exact ⟨fun x => if_pos x, fun x => if_neg x⟩

/-- The order of the models does not matter, whatever the layers. -/
theorem C182_order {α : Type} [AddCommMonoid α] (ls : List LstmD) (m : Comp → α) (bs bs' : List (Comp → α)) (h : bs.Perm bs') : sumRs ls m bs = sumRs ls m bs' := by
  funext c
  rw [sumRs_spec, sumRs_spec, (h.map fun b => b c).sum_eq]

/-- The batch can be summed in two parts. -/
theorem C182_parts {α : Type} [AddMonoid α] (ls : List LstmD) (m : Comp → α) (bs bs' : List (Comp → α)) :
    sumRs ls m (bs ++ bs') = sumRs ls (sumRs ls m bs) bs' := List.foldl_append

/-- In a layer with frozen biases the gradients of the weights and recurrent weights should be summed as well: they are left as they were, whatever the batch,
so the sum is wrong whenever that of the batch does not vanish; those of its normalisations are summed. -/
theorem C182_biases_refuted {α : Type} [AddCancelMonoid α] (ls : List LstmD) (i : Nat) (l : LstmD) (hi : ls[i]? = some l) (hm : l.mode = .freezeBiases)
    (m : Comp → α) (bs : List (Comp → α)) (j k : Nat) :
    (j < 4 → k < l.output * l.input → Grad ls ⟨i, .dw, j, k⟩ ∧ sumRs ls m bs ⟨i, .dw, j, k⟩ = m ⟨i, .dw, j, k⟩ ∧
      ((bs.map fun b => b ⟨i, .dw, j, k⟩).sum ≠ 0 → sumRs ls m bs ⟨i, .dw, j, k⟩ ≠ m ⟨i, .dw, j, k⟩ + (bs.map fun b => b ⟨i, .dw, j, k⟩).sum)) ∧
    (j < 4 → k < l.output * l.output → Grad ls ⟨i, .du, j, k⟩ ∧ sumRs ls m bs ⟨i, .du, j, k⟩ = m ⟨i, .du, j, k⟩ ∧
      ((bs.map fun b => b ⟨i, .du, j, k⟩).sum ≠ 0 → sumRs ls m bs ⟨i, .du, j, k⟩ ≠ m ⟨i, .du, j, k⟩ + (bs.map fun b => b ⟨i, .du, j, k⟩).sum)) ∧
    (l.groupNorm = true → j < l.window / l.grouped → k < l.dim j →
      sumRs ls m bs ⟨i, .gamma, j, k⟩ = m ⟨i, .gamma, j, k⟩ + (bs.map fun b => b ⟨i, .gamma, j, k⟩).sum ∧
      sumRs ls m bs ⟨i, .beta, j, k⟩ = m ⟨i, .beta, j, k⟩ + (bs.map fun b => b ⟨i, .beta, j, k⟩).sum) := by
  have hno : ∀ kd, kd ≠ Kind.gamma → kd ≠ Kind.beta → (⟨i, kd, j, k⟩ : Comp) ∉ layersOps 0 ls := by
    intro kd h1 h2 hx
    obtain ⟨_, l', e, hx⟩ := (layers_mem ls 0 _).mp hx
    rw [Nat.sub_zero, hi] at e
    cases e
    cases hg : l.groupNorm <;> simp [lstmOps, gateOps, normOps, hm, hg, mem_cells, List.mem_flatMap, h1, h2] at hx
  have hyes : ∀ kd, kd = Kind.gamma ∨ kd = Kind.beta → l.groupNorm = true → j < l.window / l.grouped → k < l.dim j → (⟨i, kd, j, k⟩ : Comp) ∈ layersOps 0 ls := by
    intro kd h1 hg hj hk
    refine (layers_mem ls 0 _).mpr ⟨Nat.zero_le _, l, hi, ?_⟩
    rcases h1 with rfl | rfl <;> simp [lstmOps, gateOps, normOps, hm, hg, mem_cells, List.mem_flatMap, hj, hk]
  refine ⟨fun hj hk => ⟨⟨l, hi, Or.inr hm, hj, hk⟩, ?_, fun hs => ?_⟩, fun hj hk => ⟨⟨l, hi, Or.inr hm, hj, hk⟩, ?_, fun hs => ?_⟩, fun hg hj hk => ⟨?_, ?_⟩⟩
  · rw [sumRs_spec, if_neg (hno _ (by decide) (by decide))]
  · rw [sumRs_spec, if_neg (hno _ (by decide) (by decide))]
    exact fun e => hs (left_eq_add.mp e)
  · rw [sumRs_spec, if_neg (hno _ (by decide) (by decide))]
  · rw [sumRs_spec, if_neg (hno _ (by decide) (by decide))]
    exact fun e => hs (left_eq_add.mp e)
  · rw [sumRs_spec, if_pos (hyes _ (Or.inl rfl) hg hj hk)]
  · rw [sumRs_spec, if_pos (hyes _ (Or.inr rfl) hg hj hk)]

/-- The hypotheses are met by a layer in gradient descent with two normalisations followed by one with edge popup; a gradient of the second normalisation, 1 in all
of three models, becomes 3 more. -/
example : (∀ l ∈ [(⟨.gradientDescent, 2, 3, true, 4, 2, fun _ => 3⟩ : LstmD), ⟨.edgePopup, 3, 3, false, 4, 2, fun _ => 3⟩], l.mode ≠ .freezeBiases) ∧
    Grad [⟨.gradientDescent, 2, 3, true, 4, 2, fun _ => 3⟩, ⟨.edgePopup, 3, 3, false, 4, 2, fun _ => 3⟩] ⟨0, .beta, 1, 2⟩ ∧
    sumRs [⟨.gradientDescent, 2, 3, true, 4, 2, fun _ => 3⟩, ⟨.edgePopup, 3, 3, false, 4, 2, fun _ => 3⟩] (fun _ => 5) [fun _ => 1, fun _ => 1, fun _ => 1]
      ⟨0, .beta, 1, 2⟩ = (8 : Nat) := by
  have h : ∀ l ∈ [(⟨.gradientDescent, 2, 3, true, 4, 2, fun _ => 3⟩ : LstmD), ⟨.edgePopup, 3, 3, false, 4, 2, fun _ => 3⟩], l.mode ≠ .freezeBiases := by simp
  have g : Grad [⟨.gradientDescent, 2, 3, true, 4, 2, fun _ => 3⟩, ⟨.edgePopup, 3, 3, false, 4, 2, fun _ => 3⟩] ⟨0, .beta, 1, 2⟩ :=
    ⟨_, rfl, by simp [Trains]⟩
  exact ⟨h, g, (C182_sum_partial _ h _ _ _).1 g⟩

end LLab.SumLstm
