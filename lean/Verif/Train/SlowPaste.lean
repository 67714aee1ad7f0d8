import Verif.Common.Mat
import Verif.Sort.Props
import Mathlib.Data.Real.Basic
import Mathlib.Data.List.Nodup
import Mathlib.Data.List.Range
import Mathlib.Tactic.Linarith
import Mathlib.Tactic.Ring
import Mathlib.Tactic.NormNum

/-!
Soft updates of target networks: `slow_paste_fcl`, `slow_paste_bn`,
`slow_paste_cl`, `slow_paste_lstm`, `slow_paste_scaled_l2_norm`. Property C43.

A layer is a store of named arrays (`none` is a NULL pointer). The nested loops of
each function are the list of their assignments `copy->K[i] = tau*f->K[i] +
(1-tau)*copy->K[i]`, in program order.
-/

namespace LLab.SlowPaste

/-- The arrays of a layer by name. -/
abbrev Store (κ : Type) := κ → Option (Arr ℝ)

/-- `copy->K[i] = tau*f->S[i] + (1-tau)*copy->K[i]`, where `S` is the array read
from the source. -/
noncomputable def mixOp {κ : Type} [DecidableEq κ] (τ : ℝ) (src : κ → κ) (f : Store κ) (c : Store κ) (op : κ × Nat) :
    Option (Store κ) :=
  (f (src op.1)).bind fun fa => (c op.1).bind fun ca =>
    (fa.read op.2).bind fun x => (ca.read op.2).bind fun y =>
      (ca.write op.2 (τ * x + (1 - τ) * y)).bind fun ca' => some (Function.update c op.1 (some ca'))

/-- The assignments of a soft update in program order. -/
noncomputable def runOps {κ : Type} [DecidableEq κ] (τ : ℝ) (src : κ → κ) (f : Store κ) (ops : List (κ × Nat)) (c : Store κ) :
    Option (Store κ) :=
  ops.foldlM (mixOp τ src f) c

/-! ### Generic result -/

variable {κ : Type} [DecidableEq κ]

/-- Every assignment's arrays exist and are long enough. -/
def Safe (src : κ → κ) (f c : Store κ) (ops : List (κ × Nat)) : Prop :=
  ∀ op ∈ ops, ∃ fa ca, f (src op.1) = some fa ∧ c op.1 = some ca ∧ op.2 < fa.len ∧ op.2 < ca.len

/-- The store after the assignments `ops`. -/
noncomputable def after (τ : ℝ) (src : κ → κ) (f c : Store κ) (ops : List (κ × Nat)) : Store κ := fun K =>
  (c K).map fun ca => ⟨ca.len, fun q =>
    if (K, q) ∈ ops then τ * ((f (src K)).elim 0 fun fa => fa.get q) + (1 - τ) * ca.get q else ca.get q⟩

theorem after_nil (τ : ℝ) (src : κ → κ) (f c : Store κ) : after τ src f c [] = c := by
  funext K
  unfold after
  cases c K <;> simp

theorem runOps_eq (τ : ℝ) (src : κ → κ) (f c : Store κ) (ops : List (κ × Nat)) (hn : ops.Nodup) (hs : Safe src f c ops) :
    runOps τ src f ops c = some (after τ src f c ops) := by
  unfold runOps
  induction ops using List.reverseRecOn with
  | nil => rw [after_nil]; rfl
  | append_singleton ops op ih =>
    obtain ⟨K, i⟩ := op
    rw [List.foldlM_append, ih (List.Nodup.sublist (List.sublist_append_left _ _) hn)
      (fun op ho => hs op (List.mem_append_left _ ho))]
    have hni : (K, i) ∉ ops := by
      intro hc
      exact (List.nodup_append.1 hn).2.2 (K, i) hc (K, i) (by simp) rfl
    obtain ⟨fa, ca, e1, e2, l1, l2⟩ := hs (K, i) (by simp)
    dsimp only at e1 e2 l1 l2
    simp only [List.foldlM_cons, List.foldlM_nil, Option.bind_eq_bind, Option.bind_some, mixOp, e1]
    have e3 : after τ src f c ops K = some ⟨ca.len, fun q =>
        if (K, q) ∈ ops then τ * fa.get q + (1 - τ) * ca.get q else ca.get q⟩ := by
      simp [after, e2, e1]
    rw [e3]
    simp only [Option.bind_some]
    rw [Arr.read_eq l1, Arr.read_eq (by exact l2)]
    simp only [Option.bind_some]
    rw [Arr.write_eq _ (by exact l2)]
    simp only [Option.bind_some, hni, if_false]
    congr 1
    funext K'
    by_cases hK : K' = K
    · subst hK
      rw [Function.update_self]
      simp only [after, e2, e1, Option.map_some, Option.elim_some]
      congr 2
      funext q
      by_cases hq : q = i
      · subst hq
        rw [Function.update_self]
        simp
      · rw [Function.update_of_ne hq]
        refine if_congr ?_ rfl rfl
        simp [hq]
    · rw [Function.update_of_ne hK]
      unfold after
      congr 1
      funext ca
      congr 1
      funext q
      refine if_congr ?_ rfl rfl
      simp [hK]

/-- `k` soft updates from the same source. -/
noncomputable def runN (τ : ℝ) (src : κ → κ) (f : Store κ) (ops : List (κ × Nat)) : Nat → Store κ → Option (Store κ)
  | 0, c => some c
  | k + 1, c => (runN τ src f ops k c).bind (runOps τ src f ops)

/-- After `k` soft updates every cell named by an assignment holds
`(1-τ)^k · old + (1-(1-τ)^k) · source`, every other cell its old value. -/
def Soft (τ : ℝ) (src : κ → κ) (f c c' : Store κ) (touched : κ → Nat → Prop) (k : Nat) : Prop :=
  ∀ K, (c K = none → c' K = none) ∧ ∀ ca, c K = some ca → ∃ ca', c' K = some ca' ∧ ca'.len = ca.len ∧
    (∀ q, touched K q → ∃ fa, f (src K) = some fa ∧
      ca'.get q = (1 - τ) ^ k * ca.get q + (1 - (1 - τ) ^ k) * fa.get q) ∧
    ∀ q, ¬ touched K q → ca'.get q = ca.get q

theorem soft_runN (τ : ℝ) (src : κ → κ) (f c : Store κ) (ops : List (κ × Nat)) (hn : ops.Nodup) (hs : Safe src f c ops)
    (k : Nat) : ∃ c', runN τ src f ops k c = some c' ∧ Soft τ src f c c' (fun K q => (K, q) ∈ ops) k := by
  induction k with
  | zero =>
    refine ⟨c, rfl, fun K => ⟨fun h => h, fun ca h => ⟨ca, h, rfl, fun q hq => ?_, fun _ _ => rfl⟩⟩⟩
    obtain ⟨fa, _, e1, _⟩ := hs (K, q) hq
    exact ⟨fa, e1, by simp⟩
  | succ k ih =>
    obtain ⟨c1, e, h⟩ := ih
    have hs1 : Safe src f c1 ops := by
      intro op ho
      obtain ⟨fa, ca, e1, e2, l1, l2⟩ := hs op ho
      obtain ⟨ca', e3, l3, _⟩ := (h op.1).2 ca e2
      exact ⟨fa, ca', e1, e3, l1, by omega⟩
    refine ⟨_, (bind_some_of e).trans (runOps_eq τ src f c1 ops hn hs1), fun K => ⟨fun hK => ?_, fun ca hK => ?_⟩⟩
    · simp [after, (h K).1 hK]
    · obtain ⟨ca1, e1, l1, h1, h2⟩ := (h K).2 ca hK
      have e3 : after τ src f c1 ops K = some ⟨ca1.len, fun q =>
          if (K, q) ∈ ops then τ * ((f (src K)).elim 0 fun fa => fa.get q) + (1 - τ) * ca1.get q else ca1.get q⟩ := by
        simp [after, e1]
      refine ⟨_, e3, l1, fun q hq => ?_, fun q hq => ?_⟩
      · obtain ⟨fa, e2, v⟩ := h1 q hq
        refine ⟨fa, e2, ?_⟩
        dsimp only
        rw [if_pos hq, e2, v]
        simp only [Option.elim_some]
        ring
      · dsimp only
        rw [if_neg hq]
        exact h2 q hq

/-- A convex combination lies between its two ends. -/
theorem between (τ : ℝ) (h0 : 0 ≤ τ) (h1 : τ ≤ 1) (k : Nat) (x y : ℝ) :
    min x y ≤ (1 - τ) ^ k * x + (1 - (1 - τ) ^ k) * y ∧ (1 - τ) ^ k * x + (1 - (1 - τ) ^ k) * y ≤ max x y := by
  have a0 : 0 ≤ (1 - τ) ^ k := pow_nonneg (by linarith) k
  have a1 : (1 - τ) ^ k ≤ 1 := pow_le_one₀ (by linarith) (by linarith)
  set a := (1 - τ) ^ k
  constructor
  · have p := mul_le_mul_of_nonneg_left (min_le_left x y) a0
    have q := mul_le_mul_of_nonneg_left (min_le_right x y) (show 0 ≤ 1 - a by linarith)
    linarith
  · have p := mul_le_mul_of_nonneg_left (le_max_left x y) a0
    have q := mul_le_mul_of_nonneg_left (le_max_right x y) (show 0 ≤ 1 - a by linarith)
    linarith

/-! ### Fully-connected layers -/

/-- The arrays of an `fcl` that `slow_paste_fcl` touches. -/
inductive FK where
  | b | d1b | d2b | d3b | w | nw | nb | d1w | d2w | d3w | d1nw | d2nw | d3nw | d1nb | d2nb | d3nb
  | sc | d1sc | d2sc | d3sc
deriving DecidableEq

/-- An `fcl`: sizes, the results of `exists_params_fcl`, `exists_d_params_fcl`,
`is_noisy` and `exists_edge_popup_stuff_fcl` (`/repo/src/fully_connected_layers.c`
648-666), and the arrays. The index array and the list of active neurons that are
rebuilt at the end (2047-2057) are not part of the model. -/
structure PFcl where
  input : Nat
  output : Nat
  params : Bool
  dparams : Bool
  noisy : Bool
  edge : Bool
  arr : Store FK

/-- The array belongs to the biases. -/
def FK.bias : FK → Bool
  | .b | .d1b | .d2b | .d3b | .nb | .d1nb | .d2nb | .d3nb => true
  | _ => false

/-- The arrays in the order of the loop body (`/repo/src/fully_connected_layers.c`
1996-2044). -/
def FK.order : List FK :=
  [.b, .d1b, .d2b, .d3b, .w, .nw, .nb, .d1w, .d2w, .d3w, .d1nw, .d2nw, .d3nw, .d1nb, .d2nb, .d3nb,
   .sc, .d1sc, .d2sc, .d3sc]

/-- The conditions around each assignment. -/
def fclActive (f c : PFcl) : FK → Bool
  | .b | .w => f.params && c.params
  | .nw | .nb => f.params && c.params && f.noisy && c.noisy
  | K@(.d1b) | K@(.d2b) | K@(.d3b) | K@(.d1w) | K@(.d2w) | K@(.d3w) => f.dparams && c.dparams && (f.arr K).isSome
  | K@(.d1nw) | K@(.d2nw) | K@(.d3nw) | K@(.d1nb) | K@(.d2nb) | K@(.d3nb) =>
    f.dparams && c.dparams && f.noisy && c.noisy && (f.arr K).isSome
  | K@(.sc) | K@(.d1sc) | K@(.d2sc) | K@(.d3sc) => f.edge && c.edge && (f.arr K).isSome

/-- The assignments of `slow_paste_fcl`'s loop (`/repo/src/fully_connected_layers.c`
1994-2045): bias arrays are handled when `i < output`. -/
def fclOps (f c : PFcl) : List (FK × Nat) :=
  (List.range (f.output * f.input)).flatMap fun i =>
    (FK.order.filter fun K => fclActive f c K && (!K.bias || decide (i < f.output))).map fun K => (K, i)

/-- `slow_paste_fcl(f,copy,tau)` (`/repo/src/fully_connected_layers.c` 1985-2062)
without the layer normalisation, which is `C43_bn`. -/
noncomputable def slowPasteFcl (τ : ℝ) (f c : PFcl) : Option PFcl :=
  if f.output ≠ c.output then some c
  else if f.output * f.input ≠ c.input * c.output then some c
  else (runOps τ id f.arr (fclOps f c) c.arr).bind fun a => some { c with arr := a }

/-- `k` soft updates. -/
noncomputable def slowPasteFclN (τ : ℝ) (f : PFcl) : Nat → PFcl → Option PFcl
  | 0, c => some c
  | k + 1, c => (slowPasteFclN τ f k c).bind (slowPasteFcl τ f)

/-- Allocation: an active array exists in both layers and has the size of its
parameters. -/
def PFcl.Match (f c : PFcl) : Prop :=
  ∀ K, fclActive f c K = true → ∃ fa ca, f.arr K = some fa ∧ c.arr K = some ca ∧
    fa.len = (if K.bias then f.output else f.output * f.input) ∧
    ca.len = (if K.bias then f.output else f.output * f.input)

theorem nodup_ops {κ : Type} (n : Nat) (ks : Nat → List κ) (h : ∀ i, (ks i).Nodup) :
    ((List.range n).flatMap fun i => (ks i).map fun K => (K, i)).Nodup := by
  rw [List.nodup_flatMap]
  refine ⟨fun i _ => (h i).map fun a b hab => (Prod.mk.inj hab).1, ?_⟩
  refine List.Pairwise.imp ?_ (List.nodup_range (n := n))
  intro i j hij x hx hy
  obtain ⟨K, _, rfl⟩ := List.mem_map.1 hx
  obtain ⟨K', _, h'⟩ := List.mem_map.1 hy
  exact hij (Prod.mk.inj h').2.symm

theorem order_nodup : FK.order.Nodup := by decide

theorem mem_order (K : FK) : K ∈ FK.order := by cases K <;> decide

theorem mem_fclOps (f c : PFcl) (K : FK) (q : Nat) :
    (K, q) ∈ fclOps f c ↔ q < f.output * f.input ∧ fclActive f c K = true ∧ (K.bias = true → q < f.output) := by
  unfold fclOps
  simp only [List.mem_flatMap, List.mem_range, List.mem_map, List.mem_filter, Prod.mk.injEq]
  constructor
  · rintro ⟨i, hi, K', ⟨_, h⟩, rfl, rfl⟩
    simp only [Bool.and_eq_true, Bool.or_eq_true, Bool.not_eq_true', decide_eq_true_eq] at h
    refine ⟨hi, h.1, fun hb => ?_⟩
    rcases h.2 with h2 | h2
    · rw [hb] at h2; exact absurd h2 (by simp)
    · exact h2
  · rintro ⟨h1, h2, h3⟩
    refine ⟨q, h1, K, ⟨mem_order K, ?_⟩, rfl, rfl⟩
    simp only [Bool.and_eq_true, Bool.or_eq_true, Bool.not_eq_true', decide_eq_true_eq]
    refine ⟨h2, ?_⟩
    cases hb : K.bias
    · exact Or.inl rfl
    · exact Or.inr (h3 hb)

theorem fcl_n (τ : ℝ) (f c : PFcl) (h1 : f.output = c.output) (h2 : f.output * f.input = c.input * c.output)
    (hm : f.Match c) (k : Nat) :
    ∃ a, slowPasteFclN τ f k c = some { c with arr := a } ∧
      Soft τ id f.arr c.arr a (fun K q => (K, q) ∈ fclOps f c) k := by
  have hs : Safe id f.arr c.arr (fclOps f c) := by
    rintro ⟨K, q⟩ ho
    obtain ⟨g1, g2, g3⟩ := (mem_fclOps f c K q).1 ho
    obtain ⟨fa, ca, e1, e2, l1, l2⟩ := hm K g2
    refine ⟨fa, ca, e1, e2, ?_, ?_⟩
    · rw [l1]; split_ifs with hb
      · exact g3 hb
      · exact g1
    · rw [l2]; split_ifs with hb
      · exact g3 hb
      · exact g1
  have hn : (fclOps f c).Nodup := nodup_ops _ _ fun i => order_nodup.filter _
  obtain ⟨a, e, h⟩ := soft_runN τ id f.arr c.arr (fclOps f c) hn hs k
  refine ⟨a, ?_, h⟩
  clear h
  induction k generalizing a with
  | zero => cases e; rfl
  | succ k ih =>
    obtain ⟨a1, e1, e2⟩ := Option.bind_eq_some_iff.1 e
    refine (bind_some_of (ih a1 e1)).trans ?_
    unfold slowPasteFcl
    rw [if_neg (fun hc => hc h1), if_neg (fun hc => hc h2)]
    exact bind_some_of e2

/-- **C43, fully-connected layers.** After `k` soft updates from the same layer
every parameter (weights, biases, noisy ones, scores, optimiser state) that both
layers have is `(1-τ)^k` of its old value plus `1-(1-τ)^k` of the source's, every
other array is unchanged, and with `0 ≤ τ ≤ 1` each parameter lies between its old
value and the source's. -/
theorem C43_fcl (τ : ℝ) (f c : PFcl) (hin : 0 < f.input) (h1 : f.output = c.output)
    (h2 : f.output * f.input = c.input * c.output) (hm : f.Match c) (k : Nat) :
    ∃ c', slowPasteFclN τ f k c = some c' ∧
      (∀ K, fclActive f c K = true → ∃ fa ca ca', f.arr K = some fa ∧ c.arr K = some ca ∧ c'.arr K = some ca' ∧
        ca'.len = ca.len ∧ ∀ q, q < ca.len →
          ca'.get q = (1 - τ) ^ k * ca.get q + (1 - (1 - τ) ^ k) * fa.get q ∧
          (0 ≤ τ → τ ≤ 1 → min (ca.get q) (fa.get q) ≤ ca'.get q ∧ ca'.get q ≤ max (ca.get q) (fa.get q))) ∧
      ∀ K, fclActive f c K = false → c'.arr K = c.arr K := by
  obtain ⟨a, e, h⟩ := fcl_n τ f c h1 h2 hm k
  refine ⟨_, e, fun K hK => ?_, fun K hK => ?_⟩
  · obtain ⟨fa, ca, e1, e2, l1, l2⟩ := hm K hK
    obtain ⟨ca', e3, l3, v, _⟩ := (h K).2 ca e2
    refine ⟨fa, ca, ca', e1, e2, e3, l3, fun q hq => ?_⟩
    have hmem : (K, q) ∈ fclOps f c := by
      refine (mem_fclOps f c K q).2 ⟨?_, hK, fun hb => by rw [l2, if_pos hb] at hq; exact hq⟩
      rw [l2] at hq
      split_ifs at hq
      · exact lt_of_lt_of_le hq (Nat.le_mul_of_pos_right _ hin)
      · exact hq
    obtain ⟨fa', e4, v'⟩ := v q hmem
    obtain rfl : fa = fa' := by
      have e4' : f.arr K = some fa' := e4
      rw [e1] at e4'; exact Option.some.inj e4'
    refine ⟨v', fun t0 t1 => ?_⟩
    rw [v']
    exact between τ t0 t1 k _ _
  · cases hc : c.arr K with
    | none => exact (h K).1 hc
    | some ca =>
      obtain ⟨ca', e3, l3, _, v⟩ := (h K).2 ca hc
      dsimp only
      rw [e3]
      congr 1
      exact Arr.ext' l3 fun q => v q fun hmem => by
        rw [((mem_fclOps f c K q).1 hmem).2.1] at hK
        exact absurd hK (by simp)

/-- **C43, different shapes.** Layers of different sizes are left alone. -/
theorem C43_fcl_mismatch (τ : ℝ) (f c : PFcl) (h : f.output ≠ c.output ∨ f.output * f.input ≠ c.input * c.output) :
    slowPasteFcl τ f c = some c := by
  unfold slowPasteFcl
  by_cases h1 : f.output = c.output
  · rw [if_neg (fun hc => hc h1), if_pos (h.resolve_left fun hc => hc h1)]
  · rw [if_pos h1]

example : ∃ f c : PFcl, 0 < f.input ∧ f.output = c.output ∧ f.output * f.input = c.input * c.output ∧ f.Match c ∧
    fclActive f c .w = true ∧ fclActive f c .d1b = true := by
  refine ⟨⟨2, 3, true, true, true, true, fun K => some ⟨if K.bias then 3 else 6, fun _ => 1⟩⟩,
    ⟨2, 3, true, true, true, true, fun K => some ⟨if K.bias then 3 else 6, fun _ => 0⟩⟩, by decide, rfl, rfl, ?_, rfl, rfl⟩
  intro K _
  exact ⟨_, _, rfl, rfl, rfl, rfl⟩

/-! ### Normalisation layers -/

/-- The arrays of a `bn` that `slow_paste_bn` touches, in program order
(`/repo/src/batch_norm_layers.c` 671-678). -/
inductive BK where
  | gamma | d1gamma | d2gamma | d3gamma | beta | d1beta | d2beta | d3beta
deriving DecidableEq

/-- Program order. -/
def BK.order : List BK := [.gamma, .d1gamma, .d2gamma, .d3gamma, .beta, .d1beta, .d2beta, .d3beta]

/-- The assignments of `slow_paste_bn` (`/repo/src/batch_norm_layers.c` 670-679). -/
def bnOps (dim : Nat) : List (BK × Nat) := (List.range dim).flatMap fun i => BK.order.map fun K => (K, i)

/-- **C43, normalisation layers.** After `k` soft updates every parameter and its
optimiser state is `(1-τ)^k` of the old value plus `1-(1-τ)^k` of the source's, and
lies between them when `0 ≤ τ ≤ 1`. -/
theorem C43_bn (τ : ℝ) (dim : Nat) (f c : Store BK)
    (hf : ∀ K, ∃ fa, f K = some fa ∧ fa.len = dim) (hc : ∀ K, ∃ ca, c K = some ca ∧ ca.len = dim) (k : Nat) :
    ∃ c', runN τ id f (bnOps dim) k c = some c' ∧ ∀ K, ∃ fa ca ca', f K = some fa ∧ c K = some ca ∧ c' K = some ca' ∧
      ca'.len = dim ∧ ∀ q, q < dim →
        ca'.get q = (1 - τ) ^ k * ca.get q + (1 - (1 - τ) ^ k) * fa.get q ∧
        (0 ≤ τ → τ ≤ 1 → min (ca.get q) (fa.get q) ≤ ca'.get q ∧ ca'.get q ≤ max (ca.get q) (fa.get q)) := by
  have hmem : ∀ K q, q < dim → (K, q) ∈ bnOps dim := by
    intro K q hq
    unfold bnOps
    rw [List.mem_flatMap]
    refine ⟨q, List.mem_range.2 hq, List.mem_map.2 ⟨K, ?_, rfl⟩⟩
    cases K <;> decide
  have hs : Safe id f c (bnOps dim) := by
    rintro ⟨K, q⟩ ho
    obtain ⟨fa, e1, l1⟩ := hf K
    obtain ⟨ca, e2, l2⟩ := hc K
    have hq : q < dim := by
      unfold bnOps at ho
      obtain ⟨i, hi, ho⟩ := List.mem_flatMap.1 ho
      obtain ⟨_, _, h⟩ := List.mem_map.1 ho
      cases h
      exact List.mem_range.1 hi
    exact ⟨fa, ca, e1, e2, by dsimp only; omega, by dsimp only; omega⟩
  obtain ⟨c', e, h⟩ := soft_runN τ id f c (bnOps dim) (nodup_ops _ _ fun _ => by decide) hs k
  refine ⟨c', e, fun K => ?_⟩
  obtain ⟨fa, e1, l1⟩ := hf K
  obtain ⟨ca, e2, l2⟩ := hc K
  obtain ⟨ca', e3, l3, v, _⟩ := (h K).2 ca e2
  refine ⟨fa, ca, ca', e1, e2, e3, by omega, fun q hq => ?_⟩
  obtain ⟨fa', e4, v'⟩ := v q (hmem K q hq)
  obtain rfl : fa = fa' := by
    have e4' : f K = some fa' := e4
    rw [e1] at e4'; exact Option.some.inj e4'
  refine ⟨v', fun t0 t1 => ?_⟩
  rw [v']
  exact between τ t0 t1 k _ _

/-! ### Scaled L2 normalisation -/

/-- `slow_paste_scaled_l2_norm` (`/repo/src/scaled_l2_norm_layers.c` 258-268): the
six scalars and `training_mode`. -/
structure L2 where
  g : ℝ
  d : ℝ
  d1 : ℝ
  d2 : ℝ
  d3 : ℝ
  ex : ℝ
  mode : Nat

/-- `slow_paste_scaled_l2_norm` (`/repo/src/scaled_l2_norm_layers.c` 258-268). -/
noncomputable def slowPasteL2 (τ : ℝ) (f c : L2) : L2 :=
  ⟨τ * f.g + (1 - τ) * c.g, τ * f.d + (1 - τ) * c.d, τ * f.d1 + (1 - τ) * c.d1, τ * f.d2 + (1 - τ) * c.d2,
    τ * f.d3 + (1 - τ) * c.d3, τ * f.ex + (1 - τ) * c.ex, f.mode⟩

/-- **C43, scaled L2 normalisation.** -/
theorem C43_l2 (τ : ℝ) (f c : L2) (k : Nat) :
    ((slowPasteL2 τ f)^[k] c).g = (1 - τ) ^ k * c.g + (1 - (1 - τ) ^ k) * f.g ∧
    ((slowPasteL2 τ f)^[k] c).d1 = (1 - τ) ^ k * c.d1 + (1 - (1 - τ) ^ k) * f.d1 ∧
    ((slowPasteL2 τ f)^[k] c).d2 = (1 - τ) ^ k * c.d2 + (1 - (1 - τ) ^ k) * f.d2 ∧
    ((slowPasteL2 τ f)^[k] c).d3 = (1 - τ) ^ k * c.d3 + (1 - (1 - τ) ^ k) * f.d3 ∧
    (0 ≤ τ → τ ≤ 1 → min c.g f.g ≤ ((slowPasteL2 τ f)^[k] c).g ∧ ((slowPasteL2 τ f)^[k] c).g ≤ max c.g f.g) := by
  have key : ((slowPasteL2 τ f)^[k] c).g = (1 - τ) ^ k * c.g + (1 - (1 - τ) ^ k) * f.g ∧
    ((slowPasteL2 τ f)^[k] c).d1 = (1 - τ) ^ k * c.d1 + (1 - (1 - τ) ^ k) * f.d1 ∧
    ((slowPasteL2 τ f)^[k] c).d2 = (1 - τ) ^ k * c.d2 + (1 - (1 - τ) ^ k) * f.d2 ∧
    ((slowPasteL2 τ f)^[k] c).d3 = (1 - τ) ^ k * c.d3 + (1 - (1 - τ) ^ k) * f.d3 := by
    induction k with
    | zero => simp
    | succ k ih =>
      obtain ⟨i1, i2, i3, i4⟩ := ih
      rw [Function.iterate_succ_apply']
      simp only [slowPasteL2, i1, i2, i3, i4]
      refine ⟨by ring, by ring, by ring, by ring⟩
  refine ⟨key.1, key.2.1, key.2.2.1, key.2.2.2, fun t0 t1 => ?_⟩
  rw [key.1]
  exact between τ t0 t1 k _ _

/-! ### Convolutional layers -/

/-- The arrays of a `cl`; kernels are indexed by `CK × kernel number`, the other
arrays use number 0. -/
inductive CK where
  | k | dk | d1k | d2k | d3k | b | db | d1b | d2b | d3b | sc | dsc | d1sc | d2sc | d3sc
deriving DecidableEq

/-- The array `slow_paste_cl` reads from the source: for the three optimiser
states of the scores it reads `d_scores` (`/repo/src/convolutional_layers.c`
2589-2593). -/
def clSrc : CK × Nat → CK × Nat
  | (.d1sc, i) => (.dsc, i)
  | (.d2sc, i) => (.dsc, i)
  | (.d3sc, i) => (.dsc, i)
  | K => K

/-- The assignments of `slow_paste_cl` (`/repo/src/convolutional_layers.c`
2547-2598) for two layers with `n` kernels of `per` weights that have all their
arrays: for each kernel the weights, then the bias; then the scores. -/
def clOps (n per : Nat) : List ((CK × Nat) × Nat) :=
  ((List.range n).flatMap fun i =>
    ((List.range per).flatMap fun j => [CK.k, .dk, .d1k, .d2k, .d3k].map fun K => ((K, i), j)) ++
      [CK.b, .db, .d1b, .d2b, .d3b].map fun K => ((K, 0), i)) ++
  (List.range (n * per)).flatMap fun q => [CK.sc, .dsc, .d1sc, .d2sc, .d3sc].map fun K => ((K, 0), q)

/-- The layer has all arrays in the sizes of `n` kernels of `per` weights. -/
def ClFull (n per : Nat) (c : Store (CK × Nat)) : Prop :=
  (∀ K, K ∈ [CK.k, .dk, .d1k, .d2k, .d3k] → ∀ i, i < n → ∃ a, c (K, i) = some a ∧ a.len = per) ∧
  (∀ K, K ∈ [CK.b, .db, .d1b, .d2b, .d3b] → ∃ a, c (K, 0) = some a ∧ a.len = n) ∧
  ∀ K, K ∈ [CK.sc, .dsc, .d1sc, .d2sc, .d3sc] → ∃ a, c (K, 0) = some a ∧ a.len = n * per

theorem mem_clOps (n per : Nat) (K : CK) (i q : Nat) :
    ((K, i), q) ∈ clOps n per ↔ (K ∈ [CK.k, .dk, .d1k, .d2k, .d3k] ∧ i < n ∧ q < per) ∨
      (K ∈ [CK.b, .db, .d1b, .d2b, .d3b] ∧ i = 0 ∧ q < n) ∨
      (K ∈ [CK.sc, .dsc, .d1sc, .d2sc, .d3sc] ∧ i = 0 ∧ q < n * per) := by
  unfold clOps
  simp only [List.mem_append, List.mem_flatMap, List.mem_range, List.mem_map, Prod.mk.injEq]
  constructor
  · rintro (⟨i', hi', (⟨j, hj, K', hK, ⟨rfl, rfl⟩, rfl⟩ | ⟨K', hK, ⟨rfl, rfl⟩, rfl⟩)⟩ | ⟨q', hq', K', hK, ⟨rfl, rfl⟩, rfl⟩)
    · exact Or.inl ⟨hK, hi', hj⟩
    · exact Or.inr (Or.inl ⟨hK, rfl, hi'⟩)
    · exact Or.inr (Or.inr ⟨hK, rfl, hq'⟩)
  · rintro (⟨hK, hi, hq⟩ | ⟨hK, rfl, hq⟩ | ⟨hK, rfl, hq⟩)
    · exact Or.inl ⟨i, hi, Or.inl ⟨q, hq, K, hK, ⟨rfl, rfl⟩, rfl⟩⟩
    · exact Or.inl ⟨q, hq, Or.inr ⟨K, hK, ⟨rfl, rfl⟩, rfl⟩⟩
    · exact Or.inr ⟨q, hq, K, hK, ⟨rfl, rfl⟩, rfl⟩

theorem clOps_nodup (n per : Nat) : (clOps n per).Nodup := by
  unfold clOps
  rw [List.nodup_append]
  refine ⟨?_, ?_, ?_⟩
  · rw [List.nodup_flatMap]
    refine ⟨fun i _ => ?_, ?_⟩
    · rw [List.nodup_append]
      refine ⟨?_, ?_, ?_⟩
      · have := nodup_ops per (fun _ => [CK.k, .dk, .d1k, .d2k, .d3k].map fun K => (K, i)) (fun _ => by
          refine List.Nodup.map (fun x y h => (Prod.mk.inj h).1) (by decide))
        simpa [List.map_map, Function.comp_def] using this
      · exact List.Nodup.map (fun x y h => (Prod.mk.inj (Prod.mk.inj h).1).1) (by decide)
      · intro x hx y hy hxy
        subst hxy
        obtain ⟨j, _, hx⟩ := List.mem_flatMap.1 hx
        obtain ⟨K, hK, rfl⟩ := List.mem_map.1 hx
        obtain ⟨K', hK', h⟩ := List.mem_map.1 hy
        obtain rfl : K' = K := (Prod.mk.inj (Prod.mk.inj h).1).1
        revert hK hK'
        cases K' <;> decide
    · refine List.Pairwise.imp ?_ (List.nodup_range (n := n))
      intro i j hij x hx hy
      rcases List.mem_append.1 hx with hx | hx <;> rcases List.mem_append.1 hy with hy | hy
      · obtain ⟨_, _, hx⟩ := List.mem_flatMap.1 hx
        obtain ⟨_, _, rfl⟩ := List.mem_map.1 hx
        obtain ⟨_, _, hy⟩ := List.mem_flatMap.1 hy
        obtain ⟨_, _, h⟩ := List.mem_map.1 hy
        exact hij (Prod.mk.inj (Prod.mk.inj h).1).2.symm
      · obtain ⟨_, _, hx⟩ := List.mem_flatMap.1 hx
        obtain ⟨K, hK, rfl⟩ := List.mem_map.1 hx
        obtain ⟨K', hK', h⟩ := List.mem_map.1 hy
        obtain rfl : K' = K := (Prod.mk.inj (Prod.mk.inj h).1).1
        revert hK hK'
        cases K' <;> decide
      · obtain ⟨_, _, hy⟩ := List.mem_flatMap.1 hy
        obtain ⟨K, hK, rfl⟩ := List.mem_map.1 hy
        obtain ⟨K', hK', h⟩ := List.mem_map.1 hx
        obtain rfl : K' = K := (Prod.mk.inj (Prod.mk.inj h).1).1
        revert hK hK'
        cases K' <;> decide
      · obtain ⟨_, _, rfl⟩ := List.mem_map.1 hx
        obtain ⟨_, _, h⟩ := List.mem_map.1 hy
        exact hij (Prod.mk.inj h).2.symm
  · have := nodup_ops (n * per) (fun _ => [CK.sc, .dsc, .d1sc, .d2sc, .d3sc].map fun K => (K, 0)) (fun _ => by
      refine List.Nodup.map (fun x y h => (Prod.mk.inj h).1) (by decide))
    simpa [List.map_map, Function.comp_def] using this
  · intro x hx y hy hxy
    subst hxy
    obtain ⟨_, _, hy⟩ := List.mem_flatMap.1 hy
    obtain ⟨K, hK, rfl⟩ := List.mem_map.1 hy
    obtain ⟨_, _, hx⟩ := List.mem_flatMap.1 hx
    rcases List.mem_append.1 hx with hx | hx
    · obtain ⟨_, _, hx⟩ := List.mem_flatMap.1 hx
      obtain ⟨K', hK', h⟩ := List.mem_map.1 hx
      obtain rfl : K' = K := (Prod.mk.inj (Prod.mk.inj h).1).1
      revert hK hK'
      cases K' <;> decide
    · obtain ⟨K', hK', h⟩ := List.mem_map.1 hx
      obtain rfl : K' = K := (Prod.mk.inj (Prod.mk.inj h).1).1
      revert hK hK'
      cases K' <;> decide

theorem cl_soft (τ : ℝ) (n per : Nat) (f c : Store (CK × Nat)) (hf : ClFull n per f) (hc : ClFull n per c) (k : Nat) :
    ∃ c', runN τ clSrc f (clOps n per) k c = some c' ∧ Soft τ clSrc f c c' (fun K q => (K, q) ∈ clOps n per) k := by
  refine soft_runN τ clSrc f c _ (clOps_nodup n per) ?_ k
  rintro ⟨⟨K, i⟩, q⟩ ho
  rcases (mem_clOps n per K i q).1 ho with ⟨hK, hi, hq⟩ | ⟨hK, rfl, hq⟩ | ⟨hK, rfl, hq⟩
  · have hsrc : clSrc (K, i) = (K, i) := by revert hK; cases K <;> simp [clSrc]
    obtain ⟨fa, e1, l1⟩ := hf.1 K hK i hi
    obtain ⟨ca, e2, l2⟩ := hc.1 K hK i hi
    exact ⟨fa, ca, by rw [hsrc]; exact e1, e2, by dsimp only; omega, by dsimp only; omega⟩
  · have hsrc : clSrc (K, 0) = (K, 0) := by revert hK; cases K <;> simp [clSrc]
    obtain ⟨fa, e1, l1⟩ := hf.2.1 K hK
    obtain ⟨ca, e2, l2⟩ := hc.2.1 K hK
    exact ⟨fa, ca, by rw [hsrc]; exact e1, e2, by dsimp only; omega, by dsimp only; omega⟩
  · obtain ⟨K', hK', hsrc⟩ : ∃ K', K' ∈ [CK.sc, .dsc, .d1sc, .d2sc, .d3sc] ∧ clSrc (K, 0) = (K', 0) := by
      revert hK
      cases K <;> simp [clSrc]
    obtain ⟨fa, e1, l1⟩ := hf.2.2 K' hK'
    obtain ⟨ca, e2, l2⟩ := hc.2.2 K hK
    exact ⟨fa, ca, by rw [hsrc]; exact e1, e2, by dsimp only; omega, by dsimp only; omega⟩

/-- **C43, convolutional layers, partial.** After `k` soft updates every kernel
weight, bias and score (and the optimiser state of kernels and biases) is `(1-τ)^k`
of its old value plus `1-(1-τ)^k` of the source's, and lies between them when
`0 ≤ τ ≤ 1`. Missing: the optimiser state of the scores. -/
theorem C43_cl_partial (τ : ℝ) (n per : Nat) (f c : Store (CK × Nat)) (hf : ClFull n per f) (hc : ClFull n per c) (k : Nat) :
    ∃ c', runN τ clSrc f (clOps n per) k c = some c' ∧
      ∀ K i q, ((K, i), q) ∈ clOps n per → K ≠ .d1sc → K ≠ .d2sc → K ≠ .d3sc →
        ∃ fa ca ca', f (K, i) = some fa ∧ c (K, i) = some ca ∧ c' (K, i) = some ca' ∧ ca'.len = ca.len ∧
          ca'.get q = (1 - τ) ^ k * ca.get q + (1 - (1 - τ) ^ k) * fa.get q ∧
          (0 ≤ τ → τ ≤ 1 → min (ca.get q) (fa.get q) ≤ ca'.get q ∧ ca'.get q ≤ max (ca.get q) (fa.get q)) := by
  obtain ⟨c', e, h⟩ := cl_soft τ n per f c hf hc k
  refine ⟨c', e, fun K i q hm n1 n2 n3 => ?_⟩
  have hsrc : clSrc (K, i) = (K, i) := by cases K <;> simp_all [clSrc]
  have hex : ∃ ca, c (K, i) = some ca := by
    rcases (mem_clOps n per K i q).1 hm with ⟨hK, hi, hq⟩ | ⟨hK, rfl, hq⟩ | ⟨hK, rfl, hq⟩
    · obtain ⟨ca, e2, _⟩ := hc.1 K hK i hi; exact ⟨ca, e2⟩
    · obtain ⟨ca, e2, _⟩ := hc.2.1 K hK; exact ⟨ca, e2⟩
    · obtain ⟨ca, e2, _⟩ := hc.2.2 K hK; exact ⟨ca, e2⟩
  obtain ⟨ca, e2⟩ := hex
  obtain ⟨ca', e3, l3, v, _⟩ := (h (K, i)).2 ca e2
  obtain ⟨fa, e4, v'⟩ := v q hm
  rw [hsrc] at e4
  refine ⟨fa, ca, ca', e4, e2, e3, l3, v', fun t0 t1 => ?_⟩
  rw [v']
  exact between τ t0 t1 k _ _

/-- **C43, scores of convolutional layers, refuted.** One soft update writes into
the first moment of a score a mixture with the source's *gradient*: here the source
and the target agree on the moment and the update changes it. -/
theorem C43_cl_score_state_refuted :
    ∃ (f c : Store (CK × Nat)) (c' : Store (CK × Nat)), ClFull 1 1 f ∧ ClFull 1 1 c ∧
      f (.d1sc, 0) = c (.d1sc, 0) ∧ runN (1 / 2) clSrc f (clOps 1 1) 1 c = some c' ∧
      ∃ ca ca', c (.d1sc, 0) = some ca ∧ c' (.d1sc, 0) = some ca' ∧ ca.get 0 = 0 ∧ ca'.get 0 = 1 / 2 := by
  let f : Store (CK × Nat) := fun K => some ⟨1, fun _ => if K.1 = .dsc then 1 else 0⟩
  let c : Store (CK × Nat) := fun _ => some ⟨1, fun _ => 0⟩
  have hf : ClFull 1 1 f := ⟨fun K _ i _ => ⟨_, rfl, rfl⟩, fun K _ => ⟨_, rfl, rfl⟩, fun K _ => ⟨_, rfl, rfl⟩⟩
  have hc : ClFull 1 1 c := ⟨fun K _ i _ => ⟨_, rfl, rfl⟩, fun K _ => ⟨_, rfl, rfl⟩, fun K _ => ⟨_, rfl, rfl⟩⟩
  obtain ⟨c', e, h⟩ := cl_soft (1 / 2) 1 1 f c hf hc 1
  obtain ⟨ca', e3, _, v, _⟩ := (h (.d1sc, 0)).2 ⟨1, fun _ => 0⟩ rfl
  obtain ⟨fa, e4, v'⟩ := v 0 (by decide)
  refine ⟨f, c, c', hf, hc, ?_, e, _, ca', rfl, e3, rfl, ?_⟩
  · simp [f, c]
  · have e5 : f (CK.dsc, 0) = some fa := e4
    simp only [f, if_true, Option.some.injEq] at e5
    rw [v', ← e5]
    norm_num

/-! ### LSTM layers -/

/-- The arrays of an `lstm`, indexed by `LK × gate`. -/
inductive LK where
  | w | d1w | d2w | d3w | ws | dws | d1ws | d2ws | d3ws
  | u | d1u | d2u | d3u | b | d1b | d2b | d3b | us | dus | d1us | d2us | d3us
deriving DecidableEq

/-- Arrays with one entry per input weight. -/
def LK.inW : List LK := [.w, .d1w, .d2w, .d3w, .ws, .dws, .d1ws, .d2ws, .d3ws]
/-- Bias arrays. -/
def LK.bias : List LK := [.b, .d1b, .d2b, .d3b]
/-- Arrays with one entry per recurrent weight, before and after the biases. -/
def LK.recW : List LK := [.u, .d1u, .d2u, .d3u]
/-- See `LK.recW`. -/
def LK.recS : List LK := [.us, .dus, .d1us, .d2us, .d3us]

/-- The assignments of `slow_paste_lstm` (`/repo/src/recurrent_layers.c`
1421-1485) for two layers that have all their arrays: `nw` input weights and
`nu` recurrent weights per gate, `out` outputs. -/
def lstmOps (nw nu out : Nat) : List ((LK × Nat) × Nat) :=
  (List.range 4).flatMap fun i =>
    ((List.range nw).flatMap fun j => LK.inW.map fun K => ((K, i), j)) ++
    (List.range nu).flatMap fun j =>
      (LK.recW ++ (if j < out then LK.bias else []) ++ LK.recS).map fun K => ((K, i), j)

/-- The layer has all arrays in the right sizes. -/
def LstmFull (nw nu out : Nat) (c : Store (LK × Nat)) : Prop :=
  ∀ i, i < 4 → (∀ K, K ∈ LK.inW → ∃ a, c (K, i) = some a ∧ a.len = nw) ∧
    (∀ K, K ∈ LK.recW ++ LK.recS → ∃ a, c (K, i) = some a ∧ a.len = nu) ∧
    ∀ K, K ∈ LK.bias → ∃ a, c (K, i) = some a ∧ a.len = out

theorem mem_lstmOps (nw nu out : Nat) (K : LK) (i q : Nat) :
    ((K, i), q) ∈ lstmOps nw nu out ↔ i < 4 ∧ ((K ∈ LK.inW ∧ q < nw) ∨
      (K ∈ LK.recW ++ LK.recS ∧ q < nu) ∨ (K ∈ LK.bias ∧ q < nu ∧ q < out)) := by
  unfold lstmOps
  simp only [List.mem_append, List.mem_flatMap, List.mem_range, List.mem_map, Prod.mk.injEq]
  constructor
  · rintro ⟨i', hi', (⟨j, hj, K', hK, ⟨rfl, rfl⟩, rfl⟩ | ⟨j, hj, K', hK, ⟨rfl, rfl⟩, rfl⟩)⟩
    · exact ⟨hi', Or.inl ⟨hK, hj⟩⟩
    · refine ⟨hi', ?_⟩
      rcases hK with (hK | hK) | hK
      · exact Or.inr (Or.inl ⟨Or.inl hK, hj⟩)
      · split_ifs at hK with ho
        · exact Or.inr (Or.inr ⟨hK, hj, ho⟩)
        · exact absurd hK (by simp)
      · exact Or.inr (Or.inl ⟨Or.inr hK, hj⟩)
  · rintro ⟨hi, (⟨hK, hq⟩ | ⟨hK, hq⟩ | ⟨hK, hq, ho⟩)⟩
    · exact ⟨i, hi, Or.inl ⟨q, hq, K, hK, ⟨rfl, rfl⟩, rfl⟩⟩
    · refine ⟨i, hi, Or.inr ⟨q, hq, K, ?_, ⟨rfl, rfl⟩, rfl⟩⟩
      rcases hK with hK | hK
      · exact Or.inl (Or.inl hK)
      · exact Or.inr hK
    · exact ⟨i, hi, Or.inr ⟨q, hq, K, Or.inl (Or.inr (by rw [if_pos ho]; exact hK)), ⟨rfl, rfl⟩, rfl⟩⟩

theorem lstmOps_nodup (nw nu out : Nat) : (lstmOps nw nu out).Nodup := by
  unfold lstmOps
  rw [List.nodup_flatMap]
  refine ⟨fun i _ => ?_, ?_⟩
  · rw [List.nodup_append]
    refine ⟨?_, ?_, ?_⟩
    · have := nodup_ops nw (fun _ => LK.inW.map fun K => (K, i)) (fun _ =>
        List.Nodup.map (fun x y h => (Prod.mk.inj h).1) (by decide))
      simpa [List.map_map, Function.comp_def] using this
    · have := nodup_ops nu (fun j => (LK.recW ++ (if j < out then LK.bias else []) ++ LK.recS).map fun K => (K, i)) (fun j => by
        refine List.Nodup.map (fun x y h => (Prod.mk.inj h).1) ?_
        split_ifs <;> decide)
      simpa [List.map_map, Function.comp_def] using this
    · intro x hx y hy hxy
      subst hxy
      obtain ⟨_, _, hx⟩ := List.mem_flatMap.1 hx
      obtain ⟨K, hK, rfl⟩ := List.mem_map.1 hx
      obtain ⟨j, _, hy⟩ := List.mem_flatMap.1 hy
      obtain ⟨K', hK', h⟩ := List.mem_map.1 hy
      obtain rfl : K' = K := (Prod.mk.inj (Prod.mk.inj h).1).1
      revert hK hK'
      split_ifs <;> cases K' <;> decide
  · refine List.Pairwise.imp ?_ (List.nodup_range (n := 4))
    intro i j hij x hx hy
    have key : ∀ i, x ∈ ((List.range nw).flatMap fun j => LK.inW.map fun K => ((K, i), j)) ++
        ((List.range nu).flatMap fun j =>
          (LK.recW ++ (if j < out then LK.bias else []) ++ LK.recS).map fun K => ((K, i), j)) → x.1.2 = i := by
      intro i hx
      rcases List.mem_append.1 hx with hx | hx
      · obtain ⟨_, _, hx⟩ := List.mem_flatMap.1 hx
        obtain ⟨_, _, rfl⟩ := List.mem_map.1 hx
        rfl
      · obtain ⟨_, _, hx⟩ := List.mem_flatMap.1 hx
        obtain ⟨_, _, rfl⟩ := List.mem_map.1 hx
        rfl
    exact hij ((key i hx).symm.trans (key j hy))

/-- **C43, LSTM layers.** After `k` soft updates every weight, recurrent weight,
bias and score, with its optimiser state, is `(1-τ)^k` of its old value plus
`1-(1-τ)^k` of the source's, and lies between them when `0 ≤ τ ≤ 1`. -/
theorem C43_lstm (τ : ℝ) (nw nu out : Nat) (ho : out ≤ nu) (f c : Store (LK × Nat)) (hf : LstmFull nw nu out f)
    (hc : LstmFull nw nu out c) (k : Nat) :
    ∃ c', runN τ id f (lstmOps nw nu out) k c = some c' ∧
      ∀ K i, i < 4 → ∃ fa ca ca', f (K, i) = some fa ∧ c (K, i) = some ca ∧ c' (K, i) = some ca' ∧ ca'.len = ca.len ∧
        ∀ q, q < ca.len → ca'.get q = (1 - τ) ^ k * ca.get q + (1 - (1 - τ) ^ k) * fa.get q ∧
          (0 ≤ τ → τ ≤ 1 → min (ca.get q) (fa.get q) ≤ ca'.get q ∧ ca'.get q ≤ max (ca.get q) (fa.get q)) := by
  have cases3 : ∀ K : LK, K ∈ LK.inW ∨ K ∈ LK.recW ++ LK.recS ∨ K ∈ LK.bias := by
    intro K; cases K <;> decide
  have hs : Safe id f c (lstmOps nw nu out) := by
    rintro ⟨⟨K, i⟩, q⟩ hm
    obtain ⟨hi, h⟩ := (mem_lstmOps nw nu out K i q).1 hm
    rcases h with ⟨hK, hq⟩ | ⟨hK, hq⟩ | ⟨hK, hq, hq'⟩
    · obtain ⟨fa, e1, l1⟩ := (hf i hi).1 K hK
      obtain ⟨ca, e2, l2⟩ := (hc i hi).1 K hK
      exact ⟨fa, ca, e1, e2, by dsimp only; omega, by dsimp only; omega⟩
    · obtain ⟨fa, e1, l1⟩ := (hf i hi).2.1 K hK
      obtain ⟨ca, e2, l2⟩ := (hc i hi).2.1 K hK
      exact ⟨fa, ca, e1, e2, by dsimp only; omega, by dsimp only; omega⟩
    · obtain ⟨fa, e1, l1⟩ := (hf i hi).2.2 K hK
      obtain ⟨ca, e2, l2⟩ := (hc i hi).2.2 K hK
      exact ⟨fa, ca, e1, e2, by dsimp only; omega, by dsimp only; omega⟩
  obtain ⟨c', e, h⟩ := soft_runN τ id f c _ (lstmOps_nodup nw nu out) hs k
  refine ⟨c', e, fun K i hi => ?_⟩
  have hex : ∃ fa ca, f (K, i) = some fa ∧ c (K, i) = some ca ∧ ∀ q, q < ca.len → ((K, i), q) ∈ lstmOps nw nu out := by
    rcases cases3 K with hK | hK | hK
    · obtain ⟨fa, e1, l1⟩ := (hf i hi).1 K hK
      obtain ⟨ca, e2, l2⟩ := (hc i hi).1 K hK
      exact ⟨fa, ca, e1, e2, fun q hq => (mem_lstmOps nw nu out K i q).2 ⟨hi, Or.inl ⟨hK, by omega⟩⟩⟩
    · obtain ⟨fa, e1, l1⟩ := (hf i hi).2.1 K hK
      obtain ⟨ca, e2, l2⟩ := (hc i hi).2.1 K hK
      exact ⟨fa, ca, e1, e2, fun q hq => (mem_lstmOps nw nu out K i q).2 ⟨hi, Or.inr (Or.inl ⟨hK, by omega⟩)⟩⟩
    · obtain ⟨fa, e1, l1⟩ := (hf i hi).2.2 K hK
      obtain ⟨ca, e2, l2⟩ := (hc i hi).2.2 K hK
      exact ⟨fa, ca, e1, e2, fun q hq => (mem_lstmOps nw nu out K i q).2 ⟨hi, Or.inr (Or.inr ⟨hK, by omega, by omega⟩)⟩⟩
  obtain ⟨fa, ca, e1, e2, hm⟩ := hex
  obtain ⟨ca', e3, l3, v, _⟩ := (h (K, i)).2 ca e2
  refine ⟨fa, ca, ca', e1, e2, e3, l3, fun q hq => ?_⟩
  obtain ⟨fa', e4, v'⟩ := v q (hm q hq)
  obtain rfl : fa = fa' := by
    have e4' : f (K, i) = some fa' := e4
    rw [e1] at e4'; exact Option.some.inj e4'
  refine ⟨v', fun t0 t1 => ?_⟩
  rw [v']
  exact between τ t0 t1 k _ _

/-- The index arrays of one gate as `slow_paste_lstm` rebuilds them
(`/repo/src/recurrent_layers.c` 1447, 1485, 1489-1492): both are set to the
identity, then `w_indices` is sorted by the pasted *gradients* of the input scores
and once more by those of the recurrent scores. -/
def lstmRank (nw nu : Nat) (dws dus : List ℚ) : Option (List Nat × List Nat) :=
  (Sort.sortC Sort.truncRat dws (List.range nw) 0 ((nw : Int) - 1)).bind fun wi =>
    (Sort.sortC Sort.truncRat dus wi 0 ((nu : Int) - 1)).bind fun wi => some (wi, List.range nu)

/-- **C43, score ranking of LSTM layers, refuted.** The index arrays rebuilt by a
soft update do not rank the pasted scores: whatever the scores are, with zero
gradients `w_indices` is the identity, and `u_indices` is always the identity. So
scores `1, 0` stay in the order `1, 0`. -/
theorem C43_lstm_ranking_refuted :
    (∀ nw nu, nu ≤ nw → lstmRank nw nu (List.replicate nw 0) (List.replicate nu 0) =
      some (List.range nw, List.range nu)) ∧
    (∀ nw nu dws dus r, lstmRank nw nu dws dus = some r → r.2 = List.range nu) ∧
    ¬ ((List.range 2).map fun i => ([1, 0] : List ℚ)[i]!).Pairwise (· ≤ ·) := by
  refine ⟨fun nw nu h => ?_, ?_, by decide +kernel⟩
  · have hs : ∀ n, ((List.replicate n (0 : ℚ)).map Sort.truncRat).Pairwise (· ≤ ·) := by
      intro n
      rw [List.map_replicate]
      exact List.pairwise_replicate.2 (Or.inr le_rfl)
    unfold lstmRank
    refine (bind_some_of (Sort.C02_sort_already_sorted_partial _ _ _ _ _ (by omega) (by simp) (by simp) (hs nw))).trans ?_
    exact bind_some_of (Sort.C02_sort_already_sorted_partial _ _ _ _ _ (by omega) (by simp) (by simp; omega) (hs nu))
  · intro nw nu dws dus r h
    obtain ⟨wi, _, h⟩ := Option.bind_eq_some_iff.1 h
    obtain ⟨wi', _, h⟩ := Option.bind_eq_some_iff.1 h
    cases h
    rfl

end LLab.SlowPaste
