import Verif.Common.Act
import Verif.Common.Bilinear

/-!
Fully connected layers (`/repo/src/fully_connected.c`), dense and noisy.
Numbers are elements of a commutative semiring (reals for derivatives);
rounding is not modelled. Arrays are bounds-checked; `bias = none` is a NULL
pointer. Properties C23, C24, C65.
-/

namespace LLab.FC

open Finset

variable {R : Type} [CommSemiring R]

/-! ### Model -/

/-- Inner loop of `fully_connected_feed_forward` (`/repo/src/fully_connected.c`
46-48): `for i: output[j] += input[i]*weight[j*input_size+i]`. -/
def row (x w : Arr R) (n j : Nat) (out : Arr R) : Option (Arr R) :=
  loop n (fun i out => do
    let xi ← x.read i
    let wji ← w.read (j * n + i)
    out.addAt j (xi * wji)) out

/-- `fully_connected_feed_forward` (`/repo/src/fully_connected.c` 42-60).
`n` is `input_size`, `m` is `output_size`. -/
def ff (x out w : Arr R) (bias : Option (Arr R)) (n m : Nat) : Option (Arr R) :=
  match bias with
  | some b => loop m (fun j out => do
      let out ← row x w n j out
      let bj ← b.read j
      out.addAt j bj) out
  | none => loop m (fun j out => row x w n j out) out

/-- State of the backward loops: weight error, input error, bias error. -/
abbrev Errs (R : Type) := Arr R × Arr R × Arr R

/-- `fully_connected_back_prop` (`/repo/src/fully_connected.c` 192-222).
`hasBias` says whether `bias_error != NULL`; `freeze` whether
`training_flag == FREEZE_TRAINING`. The bias error array is carried along
untouched when it is NULL. -/
def bp (x e w : Arr R) (hasBias freeze : Bool) (n m : Nat) (s : Errs R) : Option (Errs R) :=
  if hasBias then
    loop m (fun j s => do
      let s ← loop n (fun i (s : Errs R) => do
        let ej ← e.read j
        let xi ← x.read i
        let we ← s.1.addAt (j * n + i) (ej * xi)
        let wji ← w.read (j * n + i)
        let ie ← s.2.1.addAt i (ej * wji)
        some (we, ie, s.2.2)) s
      let ej ← e.read j
      let be ← s.2.2.addAt j ej
      some (s.1, s.2.1, be)) s
  else if freeze then
    loop m (fun j s => loop n (fun i (s : Errs R) => do
        let ej ← e.read j
        let wji ← w.read (j * n + i)
        let ie ← s.2.1.addAt i (ej * wji)
        some (s.1, ie, s.2.2)) s) s
  else
    loop m (fun j s => loop n (fun i (s : Errs R) => do
        let ej ← e.read j
        let xi ← x.read i
        let we ← s.1.addAt (j * n + i) (ej * xi)
        let wji ← w.read (j * n + i)
        let ie ← s.2.1.addAt i (ej * wji)
        some (we, ie, s.2.2)) s) s

/-- A batch: `fully_connected_back_prop` called once per sample (input,
upstream error), the error arrays being kept between calls. -/
def bpAll (w : Arr R) (hasBias freeze : Bool) (n m : Nat) :
    List (Arr R × Arr R) → Errs R → Option (Errs R)
  | [], s => some s
  | p :: l, s => do
    let s ← bp p.1 p.2 w hasBias freeze n m s
    bpAll w hasBias freeze n m l s

/-! ### Specification -/

/-- Row `k` of `W x + b` (weights stored row by row). -/
def affine (x w b : Nat → R) (n k : Nat) : R := ∑ i ∈ range n, w (k * n + i) * x i + b k

/-- Sum over the outputs of upstream error times layer output. -/
def weighted (e x w b : Nat → R) (n m : Nat) : R := ∑ k ∈ range m, e k * affine x w b n k

/-! ### Forward -/

theorem row_eq (x w : Arr R) (n m j : Nat) (out : Arr R) (hx : n ≤ x.len) (hw : m * n ≤ w.len)
    (ho : m ≤ out.len) (hj : j < m) :
    row x w n j out = some ⟨out.len, fun k => out.get k +
      if k = j then ∑ i ∈ range n, w.get (j * n + i) * x.get i else 0⟩ := by
  unfold row
  rw [loop_add (fun i k => if k = j then w.get (j * n + i) * x.get i else 0)]
  · congr 2
    funext k
    by_cases h : k = j <;> simp [h]
  · intro i hi b hb
    have hq : j * n + i < m * n := Vec.idx_lt hj hi
    rw [Arr.read_eq (by omega), Arr.read_eq (by omega)]
    simp only [Option.bind_eq_bind, Option.bind_some]
    rw [Arr.addAt_eq' _ (by omega)]
    simp [mul_comm]

/-- **C23.** The forward pass stays in bounds and adds row `k` of `W x + b` to
every output `k < m`, changing nothing else; with a NULL bias, `b = 0`. -/
theorem C23_feed_forward (x out w : Arr R) (bias : Option (Arr R)) (n m : Nat)
    (hx : n ≤ x.len) (hw : m * n ≤ w.len) (ho : m ≤ out.len)
    (hb : ∀ b, bias = some b → m ≤ b.len) :
    ff x out w bias n m = some ⟨out.len, fun k => out.get k +
      if k < m then affine x.get w.get (fun k => (bias.map fun b => b.get k).getD 0) n k else 0⟩ := by
  have key : ∀ c : Nat → R, ∀ k, ∑ i ∈ range m, (if k = i then c i else 0) = if k < m then c k else 0 := by
    intro c k
    rw [Finset.sum_ite_eq]
    simp
  cases bias with
  | none =>
    simp only [ff]
    rw [loop_add (fun j k => if k = j then ∑ i ∈ range n, w.get (j * n + i) * x.get i else 0)]
    · simp [key, affine]
    · intro j hj b hb
      exact row_eq x w n m j b hx hw (by omega) hj
  | some b =>
    simp only [ff]
    have hbl := hb b rfl
    rw [loop_add (fun j k => if k = j then affine x.get w.get b.get n j else 0)]
    · simp [key]
    · intro j hj o hlo
      rw [row_eq x w n m j o hx hw (by omega) hj]
      simp only [Option.bind_eq_bind, Option.bind_some]
      rw [Arr.read_eq (by omega)]
      simp only [Option.bind_some]
      rw [Arr.addAt_eq' _ (by exact (by omega : j < o.len))]
      simp only [Option.some.injEq, Arr.mk.injEq, true_and]
      funext k
      by_cases h : k = j <;> simp [h, affine, add_assoc]

/-- Non-vacuity: two outputs, two inputs, with bias, on top of old contents. -/
example : ((ff (Arr.ofList [1, 2]) (Arr.ofList [10, 20]) (Arr.ofList [3, 4, 5, 6])
    (some (Arr.ofList [7, 8])) 2 2 : Option (Arr Int)).map fun a => (a.get 0, a.get 1))
    = some (28, 45) := by decide

/-! ### Backward -/

/-- The three error arrays with the given contents. -/
private def act (a b c : Nat) (m : (Nat → R) × (Nat → R) × (Nat → R)) : Errs R :=
  (⟨a, m.1⟩, ⟨b, m.2.1⟩, ⟨c, m.2.2⟩)

/-- What one call adds to the three error arrays. -/
private def delta (x e w : Nat → R) (hasBias freeze : Bool) (n m : Nat) :
    (Nat → R) × (Nat → R) × (Nat → R) :=
  ((fun q => if hasBias || !freeze then (if q < m * n then e (q / n) * x (q % n) else 0) else 0),
   (fun p => if p < n then ∑ j ∈ range m, e j * w (j * n + p) else 0),
   (fun k => if hasBias then (if k < m then e k else 0) else 0))

theorem single_sum_cols (m n : Nat) (v : Nat → Nat → R) (k : Nat) :
    (∑ j ∈ range m, ∑ i ∈ range n, (Pi.single i (v j i) : Nat → R)) k =
      if k < n then ∑ j ∈ range m, v j k else 0 := by
  simp only [Finset.sum_apply, Pi.single_apply, Finset.sum_ite_eq, Finset.mem_range]
  split_ifs <;> simp

theorem single_sum (m : Nat) (v : Nat → R) (k : Nat) :
    (∑ j ∈ range m, (Pi.single j (v j) : Nat → R)) k = if k < m then v k else 0 := by
  simp [Finset.sum_apply, Pi.single_apply, Finset.sum_ite_eq, Finset.mem_range]

private theorem bp_eq (x e w : Arr R) (hasBias freeze : Bool) (n m a b c : Nat)
    (mem : (Nat → R) × (Nat → R) × (Nat → R))
    (hx : n ≤ x.len) (he : m ≤ e.len) (hw : m * n ≤ w.len)
    (ha : m * n ≤ a) (hb : n ≤ b) (hc : hasBias = true → m ≤ c) :
    bp x e w hasBias freeze n m (act a b c mem) =
      some (act a b c (mem + delta x.get e.get w.get hasBias freeze n m)) := by
  cases hasBias with
  | true =>
    simp only [bp, if_true]
    have hc := hc rfl
    rw [loop_act (act a b c) (fun j =>
      ∑ i ∈ range n, ((Pi.single (j * n + i) (e.get j * x.get i), Pi.single i (e.get j * w.get (j * n + i)), 0)
        : (Nat → R) × (Nat → R) × (Nat → R)) + (0, 0, Pi.single j (e.get j)))]
    · congr 3
      rw [Finset.sum_add_distrib]
      ext k
      · simp [delta, Prod.fst_sum, single_sum_rows m n (fun j i => e.get j * x.get i)]
      · simp [delta, Prod.fst_sum, Prod.snd_sum,
          single_sum_cols m n (fun j i => e.get j * w.get (j * n + i))]
      · simp [delta, Prod.snd_sum, single_sum m e.get]
    · intro j hj mem
      rw [loop_act (act a b c) (fun i => ((Pi.single (j * n + i) (e.get j * x.get i),
        Pi.single i (e.get j * w.get (j * n + i)), 0) : (Nat → R) × (Nat → R) × (Nat → R)))]
      · simp only [Option.bind_eq_bind, Option.bind_some]
        rw [Arr.read_eq (by omega)]
        simp only [Option.bind_some, act]
        rw [Arr.addAt_mk _ _ _ (by omega)]
        simp [add_assoc]
      · intro i hi mem
        have hq : j * n + i < m * n := Vec.idx_lt hj hi
        rw [Arr.read_eq (by omega), Arr.read_eq (by omega), Arr.read_eq (by omega)]
        simp only [Option.bind_eq_bind, Option.bind_some, act]
        rw [Arr.addAt_mk _ _ _ (by omega), Arr.addAt_mk _ _ _ (by omega)]
        simp
  | false =>
    cases freeze with
    | true =>
      simp only [bp, if_true, Bool.false_eq_true, if_false]
      rw [loop_act (act a b c) (fun j => ∑ i ∈ range n,
        ((0, Pi.single i (e.get j * w.get (j * n + i)), 0) : (Nat → R) × (Nat → R) × (Nat → R)))]
      · congr 3
        ext k
        · simp [delta, Prod.fst_sum]
        · simp [delta, Prod.fst_sum, Prod.snd_sum,
            single_sum_cols m n (fun j i => e.get j * w.get (j * n + i))]
        · simp [delta, Prod.snd_sum]
      · intro j hj mem
        apply loop_act (act a b c)
        intro i hi mem
        have hq : j * n + i < m * n := Vec.idx_lt hj hi
        rw [Arr.read_eq (by omega), Arr.read_eq (by omega)]
        simp only [Option.bind_eq_bind, Option.bind_some, act]
        rw [Arr.addAt_mk _ _ _ (by omega)]
        simp
    | false =>
      simp only [bp, Bool.false_eq_true, if_false]
      rw [loop_act (act a b c) (fun j => ∑ i ∈ range n,
        ((Pi.single (j * n + i) (e.get j * x.get i), Pi.single i (e.get j * w.get (j * n + i)), 0)
          : (Nat → R) × (Nat → R) × (Nat → R)))]
      · congr 3
        ext k
        · simp [delta, Prod.fst_sum, single_sum_rows m n (fun j i => e.get j * x.get i)]
        · simp [delta, Prod.fst_sum, Prod.snd_sum,
            single_sum_cols m n (fun j i => e.get j * w.get (j * n + i))]
        · simp [delta, Prod.snd_sum]
      · intro j hj mem
        apply loop_act (act a b c)
        intro i hi mem
        have hq : j * n + i < m * n := Vec.idx_lt hj hi
        rw [Arr.read_eq (by omega), Arr.read_eq (by omega), Arr.read_eq (by omega)]
        simp only [Option.bind_eq_bind, Option.bind_some, act]
        rw [Arr.addAt_mk _ _ _ (by omega), Arr.addAt_mk _ _ _ (by omega)]
        simp

/-- What `fully_connected_back_prop` leaves in the three error arrays. -/
theorem bp_run (x e w : Arr R) (hasBias freeze : Bool) (n m : Nat) (we ie be : Arr R)
    (hx : n ≤ x.len) (he : m ≤ e.len) (hw : m * n ≤ w.len)
    (hwe : m * n ≤ we.len) (hie : n ≤ ie.len) (hbe : hasBias = true → m ≤ be.len) :
    bp x e w hasBias freeze n m (we, ie, be) = some
      (⟨we.len, fun q => we.get q + if hasBias || !freeze then (if q < m * n then e.get (q / n) * x.get (q % n) else 0) else 0⟩,
       ⟨ie.len, fun p => ie.get p + if p < n then ∑ j ∈ range m, e.get j * w.get (j * n + p) else 0⟩,
       ⟨be.len, fun k => be.get k + if hasBias then (if k < m then e.get k else 0) else 0⟩) :=
  bp_eq x e w hasBias freeze n m we.len ie.len be.len (we.get, ie.get, be.get) hx he hw hwe hie hbe

private theorem weighted_bilinear (e x w b : Nat → ℝ) (n m : Nat) :
    weighted e x w b n m = ∑ k ∈ range m, e k * (b k + ∑ τ ∈ range m ×ˢ range n,
      if k = τ.1 then x τ.2 * w (τ.1 * n + τ.2) else 0) := by
  unfold weighted affine
  refine Finset.sum_congr rfl fun k hk => ?_
  have h : ∑ τ ∈ range m ×ˢ range n, (if k = τ.1 then x τ.2 * w (τ.1 * n + τ.2) else 0) =
      ∑ i ∈ range n, w (k * n + i) * x i := by
    rw [Finset.sum_product, Finset.sum_eq_single k]
    · simp [mul_comm]
    · intro j _ hj
      simp [Ne.symm hj]
    · intro h; exact absurd hk h
  rw [h, add_comm]

theorem deriv_weight (e x w b : Nat → ℝ) (n m q : Nat) (hq : q < m * n) :
    HasDerivAt (fun t => weighted e x (Function.update w q t) b n m) (e (q / n) * x (q % n)) (w q) := by
  have h := bilinear_deriv_w (range m ×ˢ range n) (fun τ => τ.1) (fun τ => τ.2)
    (fun τ => τ.1 * n + τ.2) m (fun τ hτ => by simpa using (Finset.mem_product.1 hτ).1) e x w b q
  simp only [weighted_bilinear]
  refine h.congr_deriv ?_
  have hn : 0 < n := by
    rcases Nat.eq_zero_or_pos n with h | h
    · subst h; simp at hq
    · exact h
  rw [Finset.sum_eq_single (q / n, q % n)]
  · rw [if_pos]
    show q = q / n * n + q % n
    rw [Nat.mul_comm]; exact (Nat.div_add_mod q n).symm
  · rintro ⟨j, i⟩ hτ hne
    rw [if_neg]
    intro hqe
    simp only [Finset.mem_product, Finset.mem_range] at hτ hqe
    apply hne
    have : q / n * n + q % n = j * n + i := by
      rw [← hqe, Nat.mul_comm]; exact Nat.div_add_mod q n
    obtain ⟨h1, h2⟩ := Vec.idx_inj (Nat.mod_lt _ hn) hτ.2 this
    rw [h1, h2]
  · intro h
    exfalso; apply h
    simp only [Finset.mem_product, Finset.mem_range]
    exact ⟨Nat.div_lt_of_lt_mul (by rwa [Nat.mul_comm]), Nat.mod_lt _ hn⟩

theorem deriv_input (e x w b : Nat → ℝ) (n m p : Nat) (hp : p < n) :
    HasDerivAt (fun t => weighted e (Function.update x p t) w b n m)
      (∑ j ∈ range m, e j * w (j * n + p)) (x p) := by
  have h := bilinear_deriv_x (range m ×ˢ range n) (fun τ => τ.1) (fun τ => τ.2)
    (fun τ => τ.1 * n + τ.2) m (fun τ hτ => by simpa using (Finset.mem_product.1 hτ).1) e x w b p
  simp only [weighted_bilinear]
  refine h.congr_deriv ?_
  rw [Finset.sum_product]
  refine Finset.sum_congr rfl fun j _ => ?_
  rw [Finset.sum_ite_eq]
  simp [hp]

theorem deriv_bias (e x w b : Nat → ℝ) (n m k : Nat) (hk : k < m) :
    HasDerivAt (fun t => weighted e x w (Function.update b k t) n m) (e k) (b k) := by
  apply hasDerivAt_of_affine
  intro t
  simp only [weighted, affine, update_split b k, mul_add, Finset.sum_add_distrib, add_assoc]
  congr 2
  rw [sum_pick m k hk, sum_pick m k hk]
  ring

/-- **C24 (one sample).** For every layer, input and upstream error the call
stays in bounds, and what it adds to the weight, input and bias errors is the
partial derivative of the error-weighted layer output. With frozen training
and no bias error only the input error changes. Cells beyond the layer are
untouched. -/
theorem C24_back_prop (x e w : Arr ℝ) (b : Nat → ℝ) (hasBias freeze : Bool) (n m : Nat)
    (we ie be : Arr ℝ) (hx : n ≤ x.len) (he : m ≤ e.len) (hw : m * n ≤ w.len)
    (hwe : m * n ≤ we.len) (hie : n ≤ ie.len) (hbe : hasBias = true → m ≤ be.len) :
    ∃ we' ie' be', bp x e w hasBias freeze n m (we, ie, be) = some (we', ie', be') ∧
      (we'.len = we.len ∧ ie'.len = ie.len ∧ be'.len = be.len) ∧
      (hasBias = true ∨ freeze = false → ∀ q, q < m * n →
        HasDerivAt (fun t => weighted e.get x.get (Function.update w.get q t) b n m)
          (we'.get q - we.get q) (w.get q)) ∧
      (hasBias = false → freeze = true → we' = we) ∧
      (∀ p, p < n → HasDerivAt (fun t => weighted e.get (Function.update x.get p t) w.get b n m)
          (ie'.get p - ie.get p) (x.get p)) ∧
      (hasBias = true → ∀ k, k < m →
        HasDerivAt (fun t => weighted e.get x.get w.get (Function.update b k t) n m)
          (be'.get k - be.get k) (b k)) ∧
      (hasBias = false → be' = be) ∧
      (∀ q, m * n ≤ q → we'.get q = we.get q) ∧ (∀ p, n ≤ p → ie'.get p = ie.get p) ∧
      (∀ k, m ≤ k → be'.get k = be.get k) := by
  have h := bp_eq x e w hasBias freeze n m we.len ie.len be.len (we.get, ie.get, be.get)
    hx he hw hwe hie hbe
  refine ⟨_, _, _, h, ⟨rfl, rfl, rfl⟩, ?_, ?_, ?_, ?_, ?_, ?_, ?_, ?_⟩
  · intro hh q hq
    refine (deriv_weight e.get x.get w.get b n m q hq).congr_deriv ?_
    have : (hasBias || !freeze) = true := by rcases hh with h | h <;> simp [h]
    simp [delta, this, hq]
  · intro h1 h2
    subst h1 h2
    ext k <;> simp [delta]
  · intro p hp
    refine (deriv_input e.get x.get w.get b n m p hp).congr_deriv ?_
    simp [delta, hp]
  · intro h1 k hk
    refine (deriv_bias e.get x.get w.get b n m k hk).congr_deriv ?_
    simp [delta, h1, hk]
  · intro h1
    ext k <;> simp [delta, h1]
  · intro q hq
    simp [delta, Nat.not_lt.2 hq]
  · intro p hp
    simp [delta, Nat.not_lt.2 hp]
  · intro k hk
    simp [delta, Nat.not_lt.2 hk]

/-- Error-weighted output summed over a batch of (input, error) samples. -/
noncomputable def batchWeighted (l : List (Arr ℝ × Arr ℝ)) (w b : Nat → ℝ) (n m : Nat) : ℝ :=
  (l.map fun p => weighted p.2.get p.1.get w b n m).sum

/-- **C24 (history).** Calling the backward pass once per sample accumulates
the gradient of the batch objective in the weights and the biases. -/
theorem C24_batch (l : List (Arr ℝ × Arr ℝ)) (w : Arr ℝ) (b : Nat → ℝ) (n m : Nat) (freeze : Bool)
    (we ie be : Arr ℝ) (hl : ∀ p ∈ l, n ≤ p.1.len ∧ m ≤ p.2.len) (hw : m * n ≤ w.len)
    (hwe : m * n ≤ we.len) (hie : n ≤ ie.len) (hbe : m ≤ be.len) :
    ∃ we' ie' be', bpAll w true freeze n m l (we, ie, be) = some (we', ie', be') ∧
      (∀ q, q < m * n → HasDerivAt (fun t => batchWeighted l (Function.update w.get q t) b n m)
          (we'.get q - we.get q) (w.get q)) ∧
      (∀ k, k < m → HasDerivAt (fun t => batchWeighted l w.get (Function.update b k t) n m)
          (be'.get k - be.get k) (b k)) := by
  induction l generalizing we ie be with
  | nil =>
    refine ⟨we, ie, be, rfl, ?_, ?_⟩
    · intro q _; simpa [batchWeighted] using hasDerivAt_const (w.get q) (0 : ℝ)
    · intro k _; simpa [batchWeighted] using hasDerivAt_const (b k) (0 : ℝ)
  | cons p l ih =>
    obtain ⟨hp1, hp2⟩ := hl p (by simp)
    obtain ⟨we1, ie1, be1, e1, ⟨l1, l2, l3⟩, d1, -, -, d4, -⟩ := C24_back_prop p.1 p.2 w b true freeze
      n m we ie be hp1 hp2 hw hwe hie (fun _ => hbe)
    obtain ⟨we2, ie2, be2, e2, d2, d3⟩ := ih we1 ie1 be1 (fun r hr => hl r (by simp [hr]))
      (by omega) (by omega) (by omega)
    refine ⟨we2, ie2, be2, ?_, ?_, ?_⟩
    · simp only [bpAll]
      rw [e1]
      exact e2
    · intro q hq
      have := (d1 (Or.inl rfl) q hq).fun_add (d2 q hq)
      simp only [batchWeighted, List.map_cons, List.sum_cons]
      refine this.congr_deriv ?_
      ring
    · intro k hk
      have := (d4 rfl k hk).fun_add (d3 k hk)
      simp only [batchWeighted, List.map_cons, List.sum_cons]
      refine this.congr_deriv ?_
      ring

/-- Non-vacuity: two samples through a 2-input, 2-output layer, starting from
non-zero accumulators. -/
example : ((bpAll (Arr.ofList [1, 2, 3, 4]) true false 2 2
    [(Arr.ofList [5, 6], Arr.ofList [7, 8]), (Arr.ofList [1, -1], Arr.ofList [2, 0])]
    (Arr.ofList [100, 0, 0, 0], Arr.ofList [0, 0], Arr.ofList [0, 0]) : Option (Errs Int)).map
      fun s => ((s.1.get 0, s.1.get 1, s.1.get 2, s.1.get 3), (s.2.1.get 0, s.2.1.get 1),
        (s.2.2.get 0, s.2.2.get 1)))
    = some ((137, 40, 40, 48), (33, 50), (9, 8)) := by decide

end LLab.FC
