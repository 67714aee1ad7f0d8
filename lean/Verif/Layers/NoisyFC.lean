import Verif.Layers.FC
import Mathlib.Tactic.NormNum

/-!
Noisy fully connected layers (`/repo/src/fully_connected.c` 80-104, 247-284).
The effective weight is `noisy_weight * noise + weight`, and likewise for the
biases. Property C65.
-/

namespace LLab.FC

open Finset

variable {R : Type} [CommSemiring R]

/-! ### Model -/

/-- The three noise arguments of one parameter array: scale, noise sample. -/
structure Noise (R : Type) where
  /-- `noisy_weights` / `noisy_biases` -/
  sigma : Arr R
  /-- `noise` / `noise_biases` -/
  eps : Arr R

/-- `new_weights[i] = noisy_weights[i]*noise[i]+weight[i]` for `i < size`
(`/repo/src/fully_connected.c` 83-85). -/
def perturb (nz : Noise R) (w : Arr R) (size : Nat) (nw : Arr R) : Option (Arr R) :=
  loop size (fun i nw => do
    let s ← nz.sigma.read i
    let e ← nz.eps.read i
    let wi ← w.read i
    nw.write i (s * e + wi)) nw

/-- `noisy_fully_connected_feed_forward` (`/repo/src/fully_connected.c`
80-104). The state is `(new_weights, new_biases, output)`; `bias = none` is a
NULL bias pointer. -/
def noisyFF (nw nb : Noise R) (x w : Arr R) (bias : Option (Arr R)) (n m : Nat)
    (s : Arr R × Arr R × Arr R) : Option (Arr R × Arr R × Arr R) := do
  let neww ← perturb nw w (m * n) s.1
  match bias with
  | some b => loop m (fun j (s : Arr R × Arr R × Arr R) => do
      let sg ← nb.sigma.read j
      let ep ← nb.eps.read j
      let bj ← b.read j
      let newb ← s.2.1.write j (sg * ep + bj)
      let out ← row x s.1 n j s.2.2
      let v ← newb.read j
      let out ← out.addAt j v
      some (s.1, newb, out)) (neww, s.2.1, s.2.2)
  | none => loop m (fun j (s : Arr R × Arr R × Arr R) => do
      let out ← row x s.1 n j s.2.2
      some (s.1, s.2.1, out)) (neww, s.2.1, s.2.2)

/-- Error arrays of the noisy backward pass. -/
structure NErrs (R : Type) where
  /-- `weight_error` -/
  we : Arr R
  /-- `input_error` -/
  ie : Arr R
  /-- `bias_error` -/
  be : Arr R
  /-- `noisy_weights_error` -/
  nwe : Arr R
  /-- `noisy_biases_error` -/
  nbe : Arr R

/-- Body of the inner loop of `noisy_fully_connected_back_prop`
(`/repo/src/fully_connected.c` 255-257 and 278-280); `wi` is the weight array
used for the input error (`new_weights` in the first branch, `weight` in the
last one). -/
def noisyStep (nz : Noise R) (x e wi : Arr R) (n j i : Nat) (s : NErrs R) : Option (NErrs R) := do
  let ej ← e.read j
  let xi ← x.read i
  let we ← s.we.addAt (j * n + i) (ej * xi)
  let wji ← wi.read (j * n + i)
  let ie ← s.ie.addAt i (ej * wji)
  let wev ← we.read (j * n + i)
  let z ← nz.eps.read (j * n + i)
  let nwe ← s.nwe.addAt (j * n + i) (wev * z)
  some { s with we := we, ie := ie, nwe := nwe }

/-- `noisy_fully_connected_back_prop` (`/repo/src/fully_connected.c` 247-284).
`neww` is `new_weights` as left by the forward pass. -/
def noisyBP (nw nb : Noise R) (x e w neww : Arr R) (hasBias freeze : Bool) (n m : Nat)
    (s : NErrs R) : Option (NErrs R) :=
  if hasBias then
    loop m (fun j s => do
      let s ← loop n (fun i s => noisyStep nw x e neww n j i s) s
      let ej ← e.read j
      let be ← s.be.addAt j ej
      let z ← nb.eps.read j
      let nbe ← s.nbe.addAt j (ej * z)
      some { s with be := be, nbe := nbe }) s
  else if freeze then
    loop m (fun j s => loop n (fun i (s : NErrs R) => do
      let ej ← e.read j
      let wji ← w.read (j * n + i)
      let ie ← s.ie.addAt i (ej * wji)
      some { s with ie := ie }) s) s
  else
    loop m (fun j s => loop n (fun i s => noisyStep nw x e w n j i s) s) s

/-! ### Specification -/

/-- Effective parameters `w + sigma * eps`. -/
def effective (w sigma eps : Nat → R) (q : Nat) : R := w q + sigma q * eps q

/-! ### Forward -/

theorem perturb_eq (nz : Noise R) (w nw : Arr R) (size : Nat) (h1 : size ≤ nz.sigma.len)
    (h2 : size ≤ nz.eps.len) (h3 : size ≤ w.len) (h4 : size ≤ nw.len) :
    perturb nz w size nw = some ⟨nw.len, fun k =>
      if k < size then effective w.get nz.sigma.get nz.eps.get k else nw.get k⟩ := by
  apply loop_fill
  intro i hi b hb _
  rw [Arr.read_eq (by omega), Arr.read_eq (by omega), Arr.read_eq (by omega)]
  simp only [Option.bind_eq_bind, Option.bind_some]
  rw [Arr.write_eq _ (by omega), effective, add_comm]

/-- **C65, forward.** With noise the layer adds `W' x + b'` to its output,
where `W' = W + sigma * eps` (and likewise `b'`), and leaves `W'` and `b'` in
the scratch arrays. -/
theorem C65_forward (nw nb : Noise R) (x w out neww newb : Arr R) (bias : Option (Arr R)) (n m : Nat)
    (hx : n ≤ x.len) (hw : m * n ≤ w.len) (ho : m ≤ out.len)
    (hs : m * n ≤ nw.sigma.len) (he : m * n ≤ nw.eps.len) (hn : m * n ≤ neww.len)
    (hb : ∀ b, bias = some b → m ≤ b.len ∧ m ≤ nb.sigma.len ∧ m ≤ nb.eps.len ∧ m ≤ newb.len) :
    ∃ neww' newb' out', noisyFF nw nb x w bias n m (neww, newb, out) = some (neww', newb', out') ∧
      (∀ q, q < m * n → neww'.get q = effective w.get nw.sigma.get nw.eps.get q) ∧
      (∀ b, bias = some b → ∀ k, k < m → newb'.get k = effective b.get nb.sigma.get nb.eps.get k) ∧
      out'.len = out.len ∧
      ∀ k, out'.get k = out.get k + if k < m then
        affine x.get (effective w.get nw.sigma.get nw.eps.get)
          (fun k => (bias.map fun b => effective b.get nb.sigma.get nb.eps.get k).getD 0) n k else 0 := by
  set W : Arr R := ⟨neww.len, fun k =>
      if k < m * n then effective w.get nw.sigma.get nw.eps.get k else neww.get k⟩ with hW
  have hsum : ∀ k, k < m → ∑ i ∈ range n, W.get (k * n + i) * x.get i =
      ∑ i ∈ range n, effective w.get nw.sigma.get nw.eps.get (k * n + i) * x.get i := by
    intro k hk
    refine Finset.sum_congr rfl fun i hi => ?_
    have : k * n + i < m * n := Vec.idx_lt hk (Finset.mem_range.1 hi)
    simp [hW, this]
  simp only [noisyFF]
  rw [perturb_eq nw w neww (m * n) hs he hw hn]
  simp only [Option.bind_eq_bind, Option.bind_some]
  cases bias with
  | none =>
    obtain ⟨s', hs', hP⟩ := loop_inv (n := m)
      (f := fun j (s : Arr R × Arr R × Arr R) => (row x s.1 n j s.2.2).bind fun out =>
        some (s.1, s.2.1, out))
      (s := (W, newb, out))
      (fun j s => s.1 = W ∧ s.2.1 = newb ∧ s.2.2.len = out.len ∧
        ∀ k, s.2.2.get k = out.get k + if k < j then ∑ i ∈ range n, W.get (k * n + i) * x.get i else 0)
      ⟨rfl, rfl, rfl, by simp⟩
      (by
        rintro j hj ⟨a, b, o⟩ ⟨rfl, rfl, hl, hg⟩
        dsimp only at *
        rw [row_eq x W n m j o hx (by simpa [hW] using hn) (by omega) hj]
        refine ⟨_, rfl, rfl, rfl, hl, fun k => ?_⟩
        simp only [hg]
        by_cases h : k = j
        · subst h; simp
        · rw [if_neg h, add_zero]
          by_cases h2 : k < j
          · rw [if_pos h2, if_pos (by omega)]
          · rw [if_neg h2, if_neg (by omega)])
    obtain ⟨a, b, o⟩ := s'
    obtain ⟨rfl, rfl, hl, hg⟩ := hP
    refine ⟨_, _, _, hs', ?_, by simp, hl, ?_⟩
    · intro q hq; simp [hW, hq]
    · intro k
      rw [hg]
      by_cases hk : k < m
      · rw [if_pos hk, if_pos hk, hsum k hk]; simp [affine]
      · rw [if_neg hk, if_neg hk]
  | some b =>
    obtain ⟨hb1, hb2, hb3, hb4⟩ := hb b rfl
    obtain ⟨s', hs', hP⟩ := loop_inv (n := m)
      (f := fun j (s : Arr R × Arr R × Arr R) => (nb.sigma.read j).bind fun sg =>
        (nb.eps.read j).bind fun ep => (b.read j).bind fun bj =>
        (s.2.1.write j (sg * ep + bj)).bind fun newb => (row x s.1 n j s.2.2).bind fun out =>
        (newb.read j).bind fun v => (out.addAt j v).bind fun out => some (s.1, newb, out))
      (s := (W, newb, out))
      (fun j s => s.1 = W ∧ s.2.1.len = newb.len ∧
        (∀ k, k < j → s.2.1.get k = effective b.get nb.sigma.get nb.eps.get k) ∧ s.2.2.len = out.len ∧
        ∀ k, s.2.2.get k = out.get k + if k < j then ∑ i ∈ range n, W.get (k * n + i) * x.get i +
          effective b.get nb.sigma.get nb.eps.get k else 0)
      ⟨rfl, rfl, by simp, rfl, by simp⟩
      (by
        rintro j hj ⟨a, c, o⟩ ⟨rfl, hc, hcg, hl, hg⟩
        dsimp only at *
        rw [Arr.read_eq (by omega), Arr.read_eq (by omega), Arr.read_eq (by omega)]
        simp only [Option.bind_some]
        rw [Arr.write_eq _ (by omega), row_eq x W n m j o hx (by simpa [hW] using hn) (by omega) hj]
        simp only [Option.bind_some]
        rw [Arr.read_mk _ _ (by omega)]
        simp only [Option.bind_some]
        rw [Arr.addAt_mk _ _ _ (by omega)]
        refine ⟨_, rfl, rfl, hc, fun k hk => ?_, hl, fun k => ?_⟩
        · by_cases h : k = j
          · subst h; simp [effective, add_comm]
          · simp only [Function.update_of_ne h]
            exact hcg k (by omega)
        · simp only [Pi.add_apply, hg, Function.update_self]
          by_cases h : k = j
          · subst h; simp [effective, add_comm, add_left_comm]
          · simp only [if_neg h, Pi.single_apply, add_zero]
            by_cases h2 : k < j
            · rw [if_pos h2, if_pos (by omega)]
            · rw [if_neg h2, if_neg (by omega)])
    obtain ⟨a, c, o⟩ := s'
    obtain ⟨rfl, hc, hcg, hl, hg⟩ := hP
    refine ⟨_, _, _, hs', ?_, ?_, hl, ?_⟩
    · intro q hq; simp [hW, hq]
    · intro b' hb' k hk
      obtain rfl := Option.some.inj hb'
      exact hcg k hk
    · intro k
      rw [hg]
      by_cases hk : k < m
      · rw [if_pos hk, if_pos hk, hsum k hk]; simp [affine]
      · rw [if_neg hk, if_neg hk]

/-- Non-vacuity of the forward theorem. -/
example : ((noisyFF ⟨Arr.ofList [1, 2], Arr.ofList [3, -1]⟩ ⟨Arr.ofList [2], Arr.ofList [5]⟩
    (Arr.ofList [1, 10]) (Arr.ofList [1, 1]) (some (Arr.ofList [4])) 2 1
    (Arr.ofList [0, 0], Arr.ofList [0], Arr.ofList [100]) :
    Option (Arr Int × Arr Int × Arr Int)).map fun s => s.2.2.get 0) = some 108 := by decide

/-! ### Backward -/

/-- State after the first `c` multiply-add steps of the backward pass. -/
private def Inv (z x e wi : Nat → R) (n : Nat) (s0 : NErrs R) (c : Nat) (s : NErrs R) : Prop :=
  s.we.len = s0.we.len ∧ s.ie.len = s0.ie.len ∧ s.nwe.len = s0.nwe.len ∧
  (∀ k, s.we.get k = s0.we.get k + if k < c then e (k / n) * x (k % n) else 0) ∧
  (∀ k, s.nwe.get k = s0.nwe.get k +
    if k < c then (s0.we.get k + e (k / n) * x (k % n)) * z k else 0) ∧
  (∀ k, s.ie.get k = s0.ie.get k + ∑ q ∈ range c, if k = q % n then e (q / n) * wi q else 0)

private theorem step_inv (nz : Noise R) (x e wi : Arr R) (n m j i : Nat) (s0 s : NErrs R)
    (hx : n ≤ x.len) (he : m ≤ e.len) (hw : m * n ≤ wi.len) (hz : m * n ≤ nz.eps.len)
    (h1 : m * n ≤ s0.we.len) (h2 : n ≤ s0.ie.len) (h3 : m * n ≤ s0.nwe.len)
    (hj : j < m) (hi : i < n) (h : Inv nz.eps.get x.get e.get wi.get n s0 (j * n + i) s) :
    ∃ s', noisyStep nz x e wi n j i s = some s' ∧
      Inv nz.eps.get x.get e.get wi.get n s0 (j * n + (i + 1)) s' ∧ s'.be = s.be ∧ s'.nbe = s.nbe := by
  obtain ⟨l1, l2, l3, g1, g2, g3⟩ := h
  have hq : j * n + i < m * n := Vec.idx_lt hj hi
  have hn : 0 < n := by omega
  have hd : (j * n + i) / n = j := by
    rw [Nat.mul_comm j n, Nat.mul_add_div hn, Nat.div_eq_of_lt hi, Nat.add_zero]
  have hm : (j * n + i) % n = i := by
    rw [Nat.mul_comm j n, Nat.mul_add_mod, Nat.mod_eq_of_lt hi]
  unfold noisyStep
  rw [Arr.read_eq (by omega), Arr.read_eq (by omega), Arr.read_eq (by omega), Arr.read_eq (by omega)]
  simp only [Option.bind_eq_bind, Option.bind_some]
  rw [Arr.addAt_eq' _ (by omega)]
  simp only [Option.bind_some]
  rw [Arr.addAt_eq' _ (by omega)]
  simp only [Option.bind_some]
  rw [Arr.read_mk _ _ (by omega)]
  simp only [Option.bind_some]
  rw [Arr.addAt_eq' _ (by omega)]
  refine ⟨_, rfl, ⟨l1, l2, l3, fun k => ?_, fun k => ?_, fun k => ?_⟩, rfl, rfl⟩
  · simp only [g1]
    by_cases h : k = j * n + i
    · subst h
      rw [if_neg (by omega), if_pos rfl, if_pos (by omega), add_zero, hd, hm]
    · rw [if_neg h, add_zero]
      by_cases h2 : k < j * n + i
      · rw [if_pos h2, if_pos (by omega)]
      · rw [if_neg h2, if_neg (by omega)]
  · simp only [g2, if_true]
    by_cases h : k = j * n + i
    · subst h
      rw [if_neg (by omega), if_pos rfl, if_pos (by omega), add_zero, g1, if_neg (by omega), hd, hm,
        add_zero]
    · rw [if_neg h, add_zero]
      by_cases h2 : k < j * n + i
      · rw [if_pos h2, if_pos (by omega)]
      · rw [if_neg h2, if_neg (by omega)]
  · simp only [g3]
    rw [← Nat.add_assoc, Finset.sum_range_succ, hm, hd, add_assoc]

private theorem inner_inv (nz : Noise R) (x e wi : Arr R) (n m j : Nat) (s0 s : NErrs R)
    (hx : n ≤ x.len) (he : m ≤ e.len) (hw : m * n ≤ wi.len) (hz : m * n ≤ nz.eps.len)
    (h1 : m * n ≤ s0.we.len) (h2 : n ≤ s0.ie.len) (h3 : m * n ≤ s0.nwe.len)
    (hj : j < m) (h : Inv nz.eps.get x.get e.get wi.get n s0 (j * n) s) :
    ∃ s', loop n (fun i s => noisyStep nz x e wi n j i s) s = some s' ∧
      Inv nz.eps.get x.get e.get wi.get n s0 ((j + 1) * n) s' ∧ s'.be = s.be ∧ s'.nbe = s.nbe := by
  obtain ⟨s', e', hI, hb, hnb⟩ := loop_inv
    (fun i t => Inv nz.eps.get x.get e.get wi.get n s0 (j * n + i) t ∧ t.be = s.be ∧ t.nbe = s.nbe)
    (n := n) (f := fun i s => noisyStep nz x e wi n j i s) (s := s) ⟨h, rfl, rfl⟩ (by
      rintro i hi t ⟨hI, hb, hnb⟩
      obtain ⟨t', e', hI', hb', hnb'⟩ := step_inv nz x e wi n m j i s0 t hx he hw hz h1 h2 h3 hj hi hI
      exact ⟨t', e', hI', hb'.trans hb, hnb'.trans hnb⟩)
  rw [Nat.succ_mul]
  exact ⟨s', e', hI, hb, hnb⟩

private theorem col_sum (m n : Nat) (e wi : Nat → R) (k : Nat) (hk : k < n) :
    ∑ q ∈ range (m * n), (if k = q % n then e (q / n) * wi q else 0) =
      ∑ j ∈ range m, e j * wi (j * n + k) := by
  rw [sum_rows]
  refine Finset.sum_congr rfl fun j _ => ?_
  rw [Finset.sum_eq_single k]
  · rw [Nat.mul_comm j n, Nat.mul_add_mod, Nat.mod_eq_of_lt hk, if_pos rfl,
      Nat.mul_add_div (by omega), Nat.div_eq_of_lt hk, Nat.add_zero]
  · intro i hi hne
    have := Finset.mem_range.1 hi
    rw [Nat.mul_comm j n, Nat.mul_add_mod, Nat.mod_eq_of_lt this, if_neg (Ne.symm hne)]
  · intro h; exact absurd (Finset.mem_range.2 hk) h

/-- Exact effect of the noisy backward pass with a bias, for any starting
contents of the error arrays. -/
theorem noisyBP_bias (nw nb : Noise R) (x e w neww : Arr R) (freeze : Bool) (n m : Nat) (s : NErrs R)
    (hx : n ≤ x.len) (he : m ≤ e.len) (hw : m * n ≤ neww.len) (hz : m * n ≤ nw.eps.len)
    (hzb : m ≤ nb.eps.len) (h1 : m * n ≤ s.we.len) (h2 : n ≤ s.ie.len) (h3 : m * n ≤ s.nwe.len)
    (h4 : m ≤ s.be.len) (h5 : m ≤ s.nbe.len) :
    ∃ s', noisyBP nw nb x e w neww true freeze n m s = some s' ∧
      (∀ q, q < m * n → s'.we.get q = s.we.get q + e.get (q / n) * x.get (q % n)) ∧
      (∀ q, q < m * n → s'.nwe.get q = s.nwe.get q +
        (s.we.get q + e.get (q / n) * x.get (q % n)) * nw.eps.get q) ∧
      (∀ p, p < n → s'.ie.get p = s.ie.get p + ∑ j ∈ range m, e.get j * neww.get (j * n + p)) ∧
      (∀ k, k < m → s'.be.get k = s.be.get k + e.get k) ∧
      (∀ k, k < m → s'.nbe.get k = s.nbe.get k + e.get k * nb.eps.get k) := by
  simp only [noisyBP, if_true]
  obtain ⟨s', e', hI, hbl, hnbl, hb, hnb⟩ := loop_inv
    (fun j t => Inv nw.eps.get x.get e.get neww.get n s (j * n) t ∧ t.be.len = s.be.len ∧
      t.nbe.len = s.nbe.len ∧
      (∀ k, t.be.get k = s.be.get k + if k < j then e.get k else 0) ∧
      (∀ k, t.nbe.get k = s.nbe.get k + if k < j then e.get k * nb.eps.get k else 0))
    (n := m) (f := fun j s => do
      let s ← loop n (fun i s => noisyStep nw x e neww n j i s) s
      let ej ← e.read j
      let be ← s.be.addAt j ej
      let z ← nb.eps.read j
      let nbe ← s.nbe.addAt j (ej * z)
      some { s with be := be, nbe := nbe }) (s := s)
    ⟨⟨rfl, rfl, rfl, by simp, by simp, by simp⟩, rfl, rfl, by simp, by simp⟩ (by
      rintro j hj t ⟨hI, hbl, hnbl, hb, hnb⟩
      obtain ⟨t', e', hI', hb', hnb'⟩ := inner_inv nw x e neww n m j s t hx he hw hz h1 h2 h3 hj hI
      rw [e']
      simp only [Option.bind_eq_bind, Option.bind_some]
      rw [Arr.read_eq (by omega), Arr.read_eq (by omega), hb', hnb']
      simp only [Option.bind_some]
      rw [Arr.addAt_eq' _ (by omega)]
      simp only [Option.bind_some]
      rw [Arr.addAt_eq' _ (by omega)]
      refine ⟨_, rfl, hI', hbl, hnbl, fun k => ?_, fun k => ?_⟩
      · simp only [hb]
        by_cases h : k = j
        · subst h; simp
        · rw [if_neg h, add_zero]
          by_cases h2 : k < j
          · rw [if_pos h2, if_pos (by omega)]
          · rw [if_neg h2, if_neg (by omega)]
      · simp only [hnb]
        by_cases h : k = j
        · subst h; simp
        · rw [if_neg h, add_zero]
          by_cases h2 : k < j
          · rw [if_pos h2, if_pos (by omega)]
          · rw [if_neg h2, if_neg (by omega)])
  obtain ⟨-, -, -, g1, g2, g3⟩ := hI
  refine ⟨s', e', ?_, ?_, ?_, ?_, ?_⟩
  · intro q hq; rw [g1, if_pos hq]
  · intro q hq; rw [g2, if_pos hq]
  · intro p hp; rw [g3, col_sum m n e.get neww.get p hp]
  · intro k hk; rw [hb, if_pos hk]
  · intro k hk; rw [hnb, if_pos hk]

theorem effective_update_w (w sigma eps : Nat → ℝ) (q : Nat) (t : ℝ) :
    effective (Function.update w q t) sigma eps =
      Function.update (effective w sigma eps) q (t + sigma q * eps q) := by
  funext k
  by_cases h : k = q
  · subst h; simp [effective]
  · simp [effective, Function.update_of_ne h]

theorem effective_update_sigma (w sigma eps : Nat → ℝ) (q : Nat) (t : ℝ) :
    effective w (Function.update sigma q t) eps =
      Function.update (effective w sigma eps) q (w q + t * eps q) := by
  funext k
  by_cases h : k = q
  · subst h; simp [effective]
  · simp [effective, Function.update_of_ne h]

/-- **C65, backward (partial).** With a bias and a weight error that is zero
before the call, one noisy backward pass adds to every error array the partial
derivative of the error-weighted noisy output: in the weights, the inputs, the
biases, the weight noise scales and the bias noise scales. Missing from the
full property: accumulation over several samples and layers without bias,
which are false (`C65_accumulation_refuted`, `C65_no_bias_refuted`). -/
theorem C65_backward_partial (nw nb : Noise ℝ) (x e w neww b : Arr ℝ) (freeze : Bool) (n m : Nat)
    (s : NErrs ℝ)
    (hx : n ≤ x.len) (he : m ≤ e.len) (hw : m * n ≤ neww.len) (hz : m * n ≤ nw.eps.len)
    (hzb : m ≤ nb.eps.len) (h1 : m * n ≤ s.we.len) (h2 : n ≤ s.ie.len) (h3 : m * n ≤ s.nwe.len)
    (h4 : m ≤ s.be.len) (h5 : m ≤ s.nbe.len)
    (hfwd : ∀ q, q < m * n → neww.get q = effective w.get nw.sigma.get nw.eps.get q)
    (hzero : ∀ q, q < m * n → s.we.get q = 0) :
    ∃ s', noisyBP nw nb x e w neww true freeze n m s = some s' ∧
      (∀ q, q < m * n → HasDerivAt (fun t => weighted e.get x.get
          (effective (Function.update w.get q t) nw.sigma.get nw.eps.get)
          (effective b.get nb.sigma.get nb.eps.get) n m) (s'.we.get q - s.we.get q) (w.get q)) ∧
      (∀ q, q < m * n → HasDerivAt (fun t => weighted e.get x.get
          (effective w.get (Function.update nw.sigma.get q t) nw.eps.get)
          (effective b.get nb.sigma.get nb.eps.get) n m)
          (s'.nwe.get q - s.nwe.get q) (nw.sigma.get q)) ∧
      (∀ p, p < n → HasDerivAt (fun t => weighted e.get (Function.update x.get p t)
          (effective w.get nw.sigma.get nw.eps.get)
          (effective b.get nb.sigma.get nb.eps.get) n m) (s'.ie.get p - s.ie.get p) (x.get p)) ∧
      (∀ k, k < m → HasDerivAt (fun t => weighted e.get x.get
          (effective w.get nw.sigma.get nw.eps.get)
          (effective (Function.update b.get k t) nb.sigma.get nb.eps.get) n m)
          (s'.be.get k - s.be.get k) (b.get k)) ∧
      (∀ k, k < m → HasDerivAt (fun t => weighted e.get x.get
          (effective w.get nw.sigma.get nw.eps.get)
          (effective b.get (Function.update nb.sigma.get k t) nb.eps.get) n m)
          (s'.nbe.get k - s.nbe.get k) (nb.sigma.get k)) := by
  obtain ⟨s', e', g1, g2, g3, g4, g5⟩ := noisyBP_bias nw nb x e w neww freeze n m s hx he hw hz hzb
    h1 h2 h3 h4 h5
  refine ⟨s', e', ?_, ?_, ?_, ?_, ?_⟩
  · intro q hq
    simp only [effective_update_w]
    have h := deriv_weight e.get x.get (effective w.get nw.sigma.get nw.eps.get)
      (effective b.get nb.sigma.get nb.eps.get) n m q hq
    have hin : HasDerivAt (fun t : ℝ => t + nw.sigma.get q * nw.eps.get q) 1 (w.get q) :=
      (hasDerivAt_id _).add_const _
    have := HasDerivAt.comp (w.get q) (h₂ := fun t => weighted e.get x.get
      (Function.update (effective w.get nw.sigma.get nw.eps.get) q t)
      (effective b.get nb.sigma.get nb.eps.get) n m) h hin
    refine this.congr_deriv ?_
    rw [g1 q hq]; ring
  · intro q hq
    simp only [effective_update_sigma]
    have h := deriv_weight e.get x.get (effective w.get nw.sigma.get nw.eps.get)
      (effective b.get nb.sigma.get nb.eps.get) n m q hq
    have hin : HasDerivAt (fun t : ℝ => w.get q + t * nw.eps.get q) (1 * nw.eps.get q)
        (nw.sigma.get q) := ((hasDerivAt_id _).mul_const _).const_add _
    have := HasDerivAt.comp (nw.sigma.get q) (h₂ := fun t => weighted e.get x.get
      (Function.update (effective w.get nw.sigma.get nw.eps.get) q t)
      (effective b.get nb.sigma.get nb.eps.get) n m) h hin
    refine this.congr_deriv ?_
    rw [g2 q hq, hzero q hq]; ring
  · intro p hp
    refine (deriv_input e.get x.get _ _ n m p hp).congr_deriv ?_
    rw [g3 p hp, add_sub_cancel_left]
    refine Finset.sum_congr rfl fun j hj => ?_
    rw [hfwd _ (Vec.idx_lt (Finset.mem_range.1 hj) hp)]
  · intro k hk
    simp only [effective_update_w]
    have h := deriv_bias e.get x.get (effective w.get nw.sigma.get nw.eps.get)
      (effective b.get nb.sigma.get nb.eps.get) n m k hk
    have hin : HasDerivAt (fun t : ℝ => t + nb.sigma.get k * nb.eps.get k) 1 (b.get k) :=
      (hasDerivAt_id _).add_const _
    have := HasDerivAt.comp (b.get k) (h₂ := fun t => weighted e.get x.get
      (effective w.get nw.sigma.get nw.eps.get)
      (Function.update (effective b.get nb.sigma.get nb.eps.get) k t) n m) h hin
    refine this.congr_deriv ?_
    rw [g4 k hk]; ring
  · intro k hk
    simp only [effective_update_sigma]
    have h := deriv_bias e.get x.get (effective w.get nw.sigma.get nw.eps.get)
      (effective b.get nb.sigma.get nb.eps.get) n m k hk
    have hin : HasDerivAt (fun t : ℝ => b.get k + t * nb.eps.get k) (1 * nb.eps.get k)
        (nb.sigma.get k) := ((hasDerivAt_id _).mul_const _).const_add _
    have := HasDerivAt.comp (nb.sigma.get k) (h₂ := fun t => weighted e.get x.get
      (effective w.get nw.sigma.get nw.eps.get)
      (Function.update (effective b.get nb.sigma.get nb.eps.get) k t) n m) h hin
    refine this.congr_deriv ?_
    rw [g5 k hk]; ring

/-- A 1×1 layer: arrays with a single cell. -/
private def one {R : Type} (v : R) : Arr R := ⟨1, fun _ => v⟩

/-- Non-vacuity of the partial theorem: a 1×1 layer with weight 2, scale 3,
noise 5, input 7, error 1. -/
example : ∃ s', noisyBP ⟨one 3, one 5⟩ ⟨one 1, one 1⟩ (one 7) (one 1) (one 2) (one 17) true false 1 1
    ⟨one 0, one 0, one 0, one 0, one 0⟩ = some s' ∧ s'.nwe.get 0 = (35 : Int) := ⟨_, rfl, by decide⟩

/-- The derivative of the error-weighted output of a 1×1 noisy layer in its
weight noise scale. -/
private theorem one_sigma (x e w b sigma eps : ℝ) :
    HasDerivAt (fun t => weighted (fun _ => e) (fun _ => x)
      (effective (fun _ => w) (Function.update (fun _ => sigma) 0 t) (fun _ => eps))
      (fun _ => b) 1 1) (e * x * eps) sigma := by
  apply hasDerivAt_of_affine
  intro t
  simp [weighted, affine, effective]
  ring

/-- **C65 refuted (accumulation).** When the weight error already holds the
gradient of an earlier sample (here 1, of a batch), the noisy pass adds that
old gradient to the noise-scale error a second time: it adds 2 although the
derivative is 1. -/
theorem C65_accumulation_refuted :
    ∃ s', noisyBP ⟨one 1, one 1⟩ ⟨one 0, one 0⟩ (one 1) (one 1) (one 1) (one 2) true false 1 1
        ⟨one 1, one 0, one 0, one (1 : ℝ), one 0⟩ = some s' ∧
      ¬ HasDerivAt (fun t => weighted (one 1).get (one 1).get
        (effective (one 1).get (Function.update (one 1).get 0 t) (one 1).get)
        (fun _ => 0) 1 1) (s'.nwe.get 0 - 1) 1 := by
  obtain ⟨s', e', -, g2, -⟩ := noisyBP_bias (R := ℝ) ⟨one 1, one 1⟩ ⟨one 0, one 0⟩ (one 1) (one 1)
    (one 1) (one 2) false 1 1 ⟨one 1, one 0, one 0, one (1 : ℝ), one 0⟩ (by simp [one]) (by simp [one])
    (by simp [one]) (by simp [one]) (by simp [one]) (by simp [one]) (by simp [one]) (by simp [one])
    (by simp [one]) (by simp [one])
  refine ⟨s', e', fun h => ?_⟩
  have h2 := h.unique (one_sigma 1 1 1 0 1 1)
  rw [g2 0 (by simp)] at h2
  norm_num [one] at h2

/-- **C65 refuted (no bias).** Without a bias the input error is computed from
the unperturbed weights, although the forward pass used the perturbed ones:
the pass adds 1 although the derivative is 2. -/
theorem C65_no_bias_refuted :
    ∃ s', noisyBP ⟨one 1, one 1⟩ ⟨one 0, one 0⟩ (one 1) (one 1) (one 1) (one 2) false false 1 1
        ⟨one 0, one 0, one 0, one (0 : ℝ), one 0⟩ = some s' ∧
      ¬ HasDerivAt (fun t => weighted (one 1).get (Function.update (one 1).get 0 t)
        (effective (one 1).get (one 1).get (one 1).get) (fun _ => 0) 1 1) (s'.ie.get 0) 1 := by
  obtain ⟨s', e', hI, -, -⟩ := inner_inv (R := ℝ) ⟨one 1, one 1⟩ (one 1) (one 1) (one 1) 1 1 0
    ⟨one 0, one 0, one 0, one (0 : ℝ), one 0⟩ ⟨one 0, one 0, one 0, one (0 : ℝ), one 0⟩
    (by simp [one]) (by simp [one]) (by simp [one]) (by simp [one]) (by simp [one]) (by simp [one])
    (by simp [one]) (by simp) ⟨rfl, rfl, rfl, by simp, by simp, by simp⟩
  refine ⟨s', ?_, fun h => ?_⟩
  · simp only [noisyBP, Bool.false_eq_true, if_false]
    exact e'
  · have h2 := h.unique (deriv_input (one 1).get (one 1).get
      (effective (one 1).get (one 1).get (one 1).get) (fun _ => 0) 1 1 0 (by simp))
    obtain ⟨-, -, -, -, -, g3⟩ := hI
    rw [g3] at h2
    simp only [one, effective, Nat.mod_one, Nat.zero_add, Nat.one_mul, Finset.sum_range_one] at h2
    norm_num at h2

end LLab.FC
