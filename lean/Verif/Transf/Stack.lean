import Verif.Transf.EncoderCycle

/-!
The transformer: a stack of encoders feeding a stack of decoders
(`/repo/src/transformer.c`). Model, specification and property C124 (forward
pass); the backward pass is in `StackBack`.
-/

namespace LLab.Transf

open Finset LLab.Attention

/-! ### Model -/

/-- What the transformer uses of its layers, for any implementation of them:
`encoder_transformer_ff`, `encoder_transformer_bp`, `decoder_transformer_ff`,
`decoder_transformer_bp`, `get_output_layer_from_encoder_transf` and
`m->output_dimension` (`/repo/src/transformer_encoder.c` 965 and 1187,
`/repo/src/transformer_decoder.c` 837 and 922, `/repo/src/transformer.c` 518).
The error arrays are `output_error` and, for a decoder, `inputs2_error`, which
it adds to. -/
structure Ops (E D : Type) where
  eff : Arr ℝ → E → Nat → Option E
  ebp : Arr ℝ → E → Nat → Arr ℝ → Option (E × Arr ℝ)
  eout : E → Arr ℝ
  edim : E → Nat
  dff : Arr ℝ → Arr ℝ → D → Nat → Nat → Option D
  dbp : Arr ℝ → Arr ℝ → D → Nat → Nat → Arr ℝ → Arr ℝ → Option (D × Arr ℝ × Arr ℝ)
  dout : D → Arr ℝ
  ddim : D → Nat

/-- `transformer` (`/repo/src/llab.h` 550-559). The arrays the transformer moves
data through are kept beside the layers that own them: `encErr i` is
`te[i]->encoder_output_error`, `left j` is `td[j]->incoming_input` and
`leftErr j` is `td[j]->incoming_input_error`. -/
structure Tr (E D : Type) where
  (nte ntd : Nat)
  conn : Nat → Nat → Bool
  te : Nat → E
  td : Nat → D
  (encErr left leftErr : Nat → Arr ℝ)

/-- The flags of `/repo/src/llab.h` 176-178. -/
inductive Flag
  | onlyDecoder | onlyEncoder | all
  deriving DecidableEq

variable {E D : Type}

/-- `c` of `/repo/src/transformer.c` 550-553: the sizes of the outputs of the
first `i` encoders connected to decoder `j`. -/
def offset (O : Ops E D) (conn : Nat → Nat → Bool) (te : Nat → E) (j i : Nat) : Nat :=
  ∑ k ∈ range i, if conn k j then O.edim (te k) else 0

/-- `memcpy(&dst[c], src, sizeof(float)*n)`. -/
def copyAt (src dst : Arr ℝ) (c n : Nat) : Option (Arr ℝ) :=
  if n ≤ src.len ∧ c + n ≤ dst.len then
    some ⟨dst.len, fun u => if c ≤ u ∧ u < c + n then src.get (u - c) else dst.get u⟩
  else none

/-- State of the loop over the encoders: the encoders, the arrays
`incoming_input` and the variables `temp` and `in`. -/
structure FState (E : Type) where
  te : Nat → E
  left : Nat → Arr ℝ
  temp : Arr ℝ
  n : Nat

/-- The body of the loop over the encoders (`/repo/src/transformer.c` 543-556). -/
def encStep (O : Ops E D) (t : Tr E D) (i : Nat) (s : FState E) : Option (FState E) := do
  let e ← O.eff s.temp (s.te i) s.n
  let left ← loop t.ntd (fun j (left : Nat → Arr ℝ) =>
    if t.conn i j then do
      let a ← copyAt (O.eout e) (left j) (offset O t.conn (Function.update s.te i e) j i) (O.edim e)
      some (Function.update left j a)
    else some left) s.left
  some ⟨Function.update s.te i e, left, O.eout e, O.edim e⟩

/-- The body of the loop over the decoders (`/repo/src/transformer.c` 561-570);
the state is the decoders, `temp` and `in`. -/
def decStep (O : Ops E D) (nte : Nat) (conn : Nat → Nat → Bool) (te : Nat → E) (left : Nat → Arr ℝ) (i : Nat)
    (s : (Nat → D) × Arr ℝ × Nat) : Option ((Nat → D) × Arr ℝ × Nat) := do
  let d ← O.dff s.2.1 (left i) (s.1 i) s.2.2 (offset O conn te i nte)
  some (Function.update s.1 i d, O.dout d, O.ddim d)

/-- `transf_ff` (`/repo/src/transformer.c` 538-574). -/
def Tr.ff (O : Ops E D) (t : Tr E D) (x : Arr ℝ) (n1 : Nat) (y : Arr ℝ) (n2 : Nat) (flag : Flag) : Option (Tr E D) := do
  let s ← if flag = .all then loop t.nte (encStep O t) ⟨t.te, t.left, x, n1⟩ else some ⟨t.te, t.left, x, n1⟩
  let d ← loop t.ntd (decStep O t.nte t.conn s.te s.left) (t.td, y, n2)
  some { t with te := s.te, td := d.1, left := s.left }

/-! ### Specification -/

/-- The output of encoder `i` when encoder `i` computes `F i`: the first reads
the input, every other one the output of the one before. -/
def encVal (F : Nat → (Nat → ℝ) → Nat → ℝ) (x : Nat → ℝ) : Nat → Nat → ℝ
  | 0 => F 0 x
  | i + 1 => F (i + 1) (encVal F x i)

/-- What decoder `j` receives from the encoders: the outputs of the encoders
connected to it, one after the other, in the order of the encoders. `dim i` is
the size of the output of encoder `i`, `v i` that output. -/
def leftVal (conn : Nat → Nat → Bool) (dim : Nat → Nat) (nte j : Nat) (v : Nat → Nat → ℝ) : List ℝ :=
  ((List.range nte).filter (conn · j)).flatMap (fun i => (List.range (dim i)).map (v i))

/-- A list as an array. -/
def asFun (l : List ℝ) (u : Nat) : ℝ := l[u]?.getD 0

/-- The output of decoder `i` when decoder `i` computes `G i` of what comes from
below and what comes from the encoders. -/
def decVal (G : Nat → (Nat → ℝ) → (Nat → ℝ) → Nat → ℝ) (left : Nat → Nat → ℝ) (y : Nat → ℝ) : Nat → Nat → ℝ
  | 0 => G 0 y (left 0)
  | i + 1 => G (i + 1) (decVal G left y i) (left (i + 1))

/-- The forward pass of an encoder computes `F` on `n` cells. -/
structure EncFwd (O : Ops E D) (e : E) (n : Nat) (F : (Nat → ℝ) → Nat → ℝ) : Prop where
  run : ∀ x : Arr ℝ, n ≤ x.len → ∃ e', O.eff x e n = some e' ∧ O.edim e' = O.edim e ∧ O.edim e ≤ (O.eout e').len ∧
    ∀ k, k < O.edim e → (O.eout e').get k = F x.get k
  loc : ∀ x y, (∀ i, i < n → x i = y i) → ∀ k, k < O.edim e → F x k = F y k

/-- The forward pass of a decoder computes `G` on `n` cells from below and `m`
cells from the encoders. -/
structure DecFwd (O : Ops E D) (d : D) (n m : Nat) (G : (Nat → ℝ) → (Nat → ℝ) → Nat → ℝ) : Prop where
  run : ∀ x y : Arr ℝ, n ≤ x.len → m ≤ y.len → ∃ d', O.dff x y d n m = some d' ∧ O.ddim d' = O.ddim d ∧
    O.ddim d ≤ (O.dout d').len ∧ ∀ k, k < O.ddim d → (O.dout d').get k = G x.get y.get k
  loc : ∀ x x' y y', (∀ i, i < n → x i = x' i) → (∀ i, i < m → y i = y' i) → ∀ k, k < O.ddim d → G x y k = G x' y' k

/-- The number of cells a layer reads from the one before it. -/
def width (dim : Nat → Nat) (n : Nat) : Nat → Nat
  | 0 => n
  | i + 1 => dim i

/-! ### Concatenation -/

theorem leftVal_succ (conn : Nat → Nat → Bool) (dim : Nat → Nat) (i j : Nat) (v : Nat → Nat → ℝ) :
    leftVal conn dim (i + 1) j v =
      leftVal conn dim i j v ++ if conn i j then (List.range (dim i)).map (v i) else [] := by
  unfold leftVal
  rw [List.range_succ, List.filter_append, List.flatMap_append]
  congr 1
  by_cases h : conn i j = true
  · rw [if_pos h]; simp [h]
  · rw [if_neg h]; simp [h]

theorem leftVal_length (conn : Nat → Nat → Bool) (dim : Nat → Nat) (i j : Nat) (v : Nat → Nat → ℝ) :
    (leftVal conn dim i j v).length = ∑ k ∈ range i, if conn k j then dim k else 0 := by
  induction i with
  | zero => rfl
  | succ i ih =>
    rw [leftVal_succ, List.length_append, ih, sum_range_succ]
    split <;> simp

theorem asFun_left (l r : List ℝ) {u : Nat} (h : u < l.length) : asFun (l ++ r) u = asFun l u := by
  unfold asFun
  rw [List.getElem?_append_left h]

theorem asFun_right (l r : List ℝ) {u : Nat} (h : l.length ≤ u) : asFun (l ++ r) u = asFun r (u - l.length) := by
  unfold asFun
  rw [List.getElem?_append_right h]

theorem asFun_map {n u : Nat} (v : Nat → ℝ) (h : u < n) : asFun ((List.range n).map v) u = v u := by
  unfold asFun
  simp [h]

theorem leftVal_congr (conn : Nat → Nat → Bool) (dim : Nat → Nat) (i j : Nat) {v w : Nat → Nat → ℝ}
    (h : ∀ k, k < i → ∀ u, u < dim k → v k u = w k u) : leftVal conn dim i j v = leftVal conn dim i j w := by
  induction i with
  | zero => rfl
  | succ i ih =>
    rw [leftVal_succ, leftVal_succ, ih (fun k hk => h k (by omega))]
    congr 2
    exact List.map_congr_left fun u hu => h i (by omega) u (List.mem_range.1 hu)

/-! ### Forward pass -/

theorem offset_congr (O : Ops E D) (conn : Nat → Nat → Bool) {te te' : Nat → E} (j i : Nat)
    (h : ∀ k, k < i → O.edim (te k) = O.edim (te' k)) : offset O conn te j i = offset O conn te' j i :=
  sum_congr rfl fun k hk => by rw [h k (mem_range.1 hk)]

theorem offset_mono (O : Ops E D) (conn : Nat → Nat → Bool) (te : Nat → E) (j : Nat) {i i' : Nat} (h : i ≤ i') :
    offset O conn te j i ≤ offset O conn te j i' :=
  sum_le_sum_of_subset (fun _ hk => mem_range.2 (lt_of_lt_of_le (mem_range.1 hk) h))

theorem offset_step (O : Ops E D) (conn : Nat → Nat → Bool) (te : Nat → E) {j i nte : Nat} (h : i < nte) (hc : conn i j = true) :
    offset O conn te j i + O.edim (te i) ≤ offset O conn te j nte := by
  have := offset_mono O conn te j (show i + 1 ≤ nte from h)
  unfold offset at this ⊢
  rw [sum_range_succ, if_pos hc] at this
  exact this

/-- The loop that hands the output of encoder `i` to the decoders. -/
theorem feed_run (conn : Nat → Bool) (ntd : Nat) (out : Arr ℝ) (n : Nat) (c : Nat → Nat) (left : Nat → Arr ℝ) (ho : n ≤ out.len)
    (hl : ∀ j, j < ntd → conn j = true → c j + n ≤ (left j).len) :
    loop ntd (fun j (left : Nat → Arr ℝ) =>
      if conn j then do
        let a ← copyAt out (left j) (c j) n
        some (Function.update left j a)
      else some left) left =
    some fun j => if j < ntd ∧ conn j = true then
      ⟨(left j).len, fun u => if c j ≤ u ∧ u < c j + n then out.get (u - c j) else (left j).get u⟩ else left j := by
  induction ntd with
  | zero => simp [loop]
  | succ m ih =>
    simp only [loop]
    rw [ih (fun j hj => hl j (by omega)), Option.bind_eq_bind, Option.bind_some]
    by_cases hc : conn m = true
    · rw [if_pos hc]
      dsimp only
      rw [if_neg (by omega)]
      unfold copyAt
      rw [if_pos ⟨ho, hl m (by omega) hc⟩, Option.bind_eq_bind, Option.bind_some]
      congr 1
      funext j
      by_cases hj : j = m
      · subst hj
        rw [Function.update_self, if_pos ⟨by omega, hc⟩]
      · rw [Function.update_of_ne hj]
        by_cases h : j < m ∧ conn j = true
        · rw [if_pos h, if_pos ⟨by omega, h.2⟩]
        · rw [if_neg h, if_neg (fun h' => h ⟨by omega, h'.2⟩)]
    · rw [if_neg hc]
      congr 1
      funext j
      by_cases h : j < m ∧ conn j = true
      · rw [if_pos h, if_pos ⟨by omega, h.2⟩]
      · rw [if_neg h, if_neg]
        rintro ⟨h1, h2⟩
        have : j ≠ m := fun e => hc (e ▸ h2)
        exact h ⟨by omega, h2⟩

variable (O : Ops E D)

/-- What holds after the encoders below `i` have run. -/
structure EncInv (t : Tr E D) (F : Nat → (Nat → ℝ) → Nat → ℝ) (x : Arr ℝ) (n1 i : Nat) (s : FState E) : Prop where
  dim : ∀ k, k < t.nte → O.edim (s.te k) = O.edim (t.te k)
  ran : ∀ k, k < i → ∃ xa : Arr ℝ, O.eff xa (t.te k) (width (fun k => O.edim (t.te k)) n1 k) = some (s.te k) ∧
    width (fun k => O.edim (t.te k)) n1 k ≤ xa.len ∧
    (k = 0 → xa = x) ∧ ∀ k', k = k' + 1 → xa = O.eout (s.te k')
  out : ∀ k, k < i → O.edim (t.te k) ≤ (O.eout (s.te k)).len ∧
    ∀ u, u < O.edim (t.te k) → (O.eout (s.te k)).get u = encVal F x.get k u
  old : ∀ k, i ≤ k → s.te k = t.te k
  llen : ∀ j, (s.left j).len = (t.left j).len
  left : ∀ j, j < t.ntd → ∀ u, u < offset O t.conn t.te j i → (s.left j).get u =
    asFun (leftVal t.conn (fun k => O.edim (t.te k)) i j (encVal F x.get)) u
  n : s.n = width (fun k => O.edim (t.te k)) n1 i
  tl : s.n ≤ s.temp.len
  temp0 : i = 0 → s.temp = x
  temp : ∀ i', i = i' + 1 → s.temp = O.eout (s.te i')

theorem encs_run (t : Tr E D) (F : Nat → (Nat → ℝ) → Nat → ℝ) (x : Arr ℝ) (n1 : Nat) (hx : n1 ≤ x.len)
    (hE : ∀ i, i < t.nte → EncFwd O (t.te i) (width (fun k => O.edim (t.te k)) n1 i) (F i))
    (hL : ∀ j, j < t.ntd → (t.left j).len = offset O t.conn t.te j t.nte) :
    ∃ s, loop t.nte (encStep O t) ⟨t.te, t.left, x, n1⟩ = some s ∧ EncInv O t F x n1 t.nte s := by
  refine loop_inv (fun i s => EncInv O t F x n1 i s)
    ⟨fun _ _ => rfl, fun k hk => absurd hk (Nat.not_lt_zero _), fun k hk => absurd hk (Nat.not_lt_zero _), fun _ _ => rfl,
      fun _ => rfl, fun j _ u hu => by simp [offset] at hu, rfl, hx, fun _ => rfl, fun i' h => by omega⟩ ?_
  intro i hi s I
  obtain ⟨e, e1, hd, hl, hv⟩ := (hE i hi).run s.temp (by rw [← I.n]; exact I.tl)
  have hte : s.te i = t.te i := I.old i (le_refl _)
  have hoff : ∀ j, offset O t.conn (Function.update s.te i e) j i = offset O t.conn t.te j i := fun j =>
    offset_congr O t.conn j i fun k hk => by
      rw [Function.update_of_ne (by omega)]; exact I.dim k (by omega)
  have hval : ∀ u, u < O.edim (t.te i) → (O.eout e).get u = encVal F x.get i u := by
    intro u hu
    rw [hv u hu]
    cases i with
    | zero => rw [I.temp0 rfl]; rfl
    | succ i' =>
      rw [I.temp i' rfl]
      exact (hE (i' + 1) hi).loc _ _ (fun w hw => (I.out i' (by omega)).2 w hw) u hu
  have hcap : ∀ j, j < t.ntd → t.conn i j = true → offset O t.conn t.te j i + O.edim (t.te i) ≤ (s.left j).len := by
    intro j hj hc
    rw [I.llen, hL j hj]
    exact offset_step O t.conn t.te hi hc
  have e2 := feed_run (t.conn i) t.ntd (O.eout e) (O.edim e) (fun j => offset O t.conn t.te j i) s.left (by rw [hd]; exact hl)
    (fun j hj hc => by rw [hd]; exact hcap j hj hc)
  refine ⟨⟨Function.update s.te i e, fun j => if j < t.ntd ∧ t.conn i j = true then
      ⟨(s.left j).len, fun u => if offset O t.conn t.te j i ≤ u ∧ u < offset O t.conn t.te j i + O.edim e then
        (O.eout e).get (u - offset O t.conn t.te j i) else (s.left j).get u⟩ else s.left j, O.eout e, O.edim e⟩, ?_, ?_⟩
  · unfold encStep
    rw [hte, I.n, e1, Option.bind_eq_bind, Option.bind_some]
    simp only [hoff]
    refine (bind_some_of e2).trans rfl
  · refine ⟨fun k hk => ?_, fun k hk => ?_, fun k hk => ?_, fun k hk => ?_, fun j => ?_, fun j hj u hu => ?_, hd, ?_,
      fun h => by omega, fun i' h => ?_⟩
    · dsimp only
      by_cases h : k = i
      · subst h; rw [Function.update_self, hd]
      · rw [Function.update_of_ne h]; exact I.dim k hk
    · dsimp only
      by_cases h : k = i
      · subst h
        rw [Function.update_self]
        refine ⟨s.temp, e1, by rw [← I.n]; exact I.tl, I.temp0, fun k' hk' => ?_⟩
        rw [Function.update_of_ne (by omega)]
        exact I.temp k' hk'
      · rw [Function.update_of_ne h]
        obtain ⟨xa, a1, a2, a3, a4⟩ := I.ran k (by omega)
        exact ⟨xa, a1, a2, a3, fun k' hk' => by rw [Function.update_of_ne (by omega)]; exact a4 k' hk'⟩
    · dsimp only
      by_cases h : k = i
      · subst h; rw [Function.update_self]; exact ⟨hl, hval⟩
      · rw [Function.update_of_ne h]; exact I.out k (by omega)
    · dsimp only
      rw [Function.update_of_ne (by omega)]; exact I.old k (by omega)
    · dsimp only
      split
      · exact I.llen j
      · exact I.llen j
    · dsimp only
      have hlen := leftVal_length t.conn (fun k => O.edim (t.te k)) i j (encVal F x.get)
      have hlen' : (leftVal t.conn (fun k => O.edim (t.te k)) i j (encVal F x.get)).length = offset O t.conn t.te j i := hlen
      have hs : offset O t.conn t.te j (i + 1) = offset O t.conn t.te j i + if t.conn i j then O.edim (t.te i) else 0 :=
        sum_range_succ _ _
      rw [hs] at hu
      rw [leftVal_succ]
      by_cases hc : t.conn i j = true
      · rw [if_pos hc] at hu
        rw [if_pos ⟨hj, hc⟩, if_pos hc]
        dsimp only
        by_cases hu' : u < offset O t.conn t.te j i
        · rw [if_neg (by omega), asFun_left _ _ (by rw [hlen']; exact hu')]
          exact I.left j hj u hu'
        · rw [if_pos ⟨by omega, by rw [hd]; exact hu⟩, asFun_right _ _ (by rw [hlen']; omega), hlen',
            asFun_map _ (by omega)]
          exact hval _ (by omega)
      · rw [if_neg hc] at hu
        rw [if_neg (fun h => hc h.2), if_neg hc, List.append_nil]
        exact I.left j hj u hu
    · dsimp only
      rw [hd]; exact hl
    · obtain rfl : i = i' := by omega
      dsimp only
      rw [Function.update_self]

/-- What holds after the decoders below `i` have run. -/
structure DecInv (t : Tr E D) (G : Nat → (Nat → ℝ) → (Nat → ℝ) → Nat → ℝ) (lv : Nat → Nat → ℝ) (left : Nat → Arr ℝ)
    (y : Arr ℝ) (n2 i : Nat) (s : (Nat → D) × Arr ℝ × Nat) : Prop where
  dim : ∀ k, O.ddim (s.1 k) = O.ddim (t.td k)
  ran : ∀ k, k < i → ∃ ya : Arr ℝ, O.dff ya (left k) (t.td k) (width (fun k => O.ddim (t.td k)) n2 k)
      (offset O t.conn t.te k t.nte) = some (s.1 k) ∧
    width (fun k => O.ddim (t.td k)) n2 k ≤ ya.len ∧
    (k = 0 → ya = y) ∧ ∀ k', k = k' + 1 → ya = O.dout (s.1 k')
  out : ∀ k, k < i → O.ddim (t.td k) ≤ (O.dout (s.1 k)).len ∧
    ∀ u, u < O.ddim (t.td k) → (O.dout (s.1 k)).get u = decVal G lv y.get k u
  old : ∀ k, i ≤ k → s.1 k = t.td k
  n : s.2.2 = width (fun k => O.ddim (t.td k)) n2 i
  tl : s.2.2 ≤ s.2.1.len
  temp0 : i = 0 → s.2.1 = y
  temp : ∀ i', i = i' + 1 → s.2.1 = O.dout (s.1 i')

theorem decs_run (t : Tr E D) (G : Nat → (Nat → ℝ) → (Nat → ℝ) → Nat → ℝ) (lv : Nat → Nat → ℝ) (te : Nat → E)
    (left : Nat → Arr ℝ) (y : Arr ℝ) (n2 : Nat) (hy : n2 ≤ y.len)
    (hte : ∀ k, k < t.nte → O.edim (te k) = O.edim (t.te k))
    (hll : ∀ j, j < t.ntd → offset O t.conn t.te j t.nte ≤ (left j).len)
    (hlv : ∀ j, j < t.ntd → ∀ u, u < offset O t.conn t.te j t.nte → (left j).get u = lv j u)
    (hD : ∀ j, j < t.ntd → DecFwd O (t.td j) (width (fun k => O.ddim (t.td k)) n2 j) (offset O t.conn t.te j t.nte) (G j)) :
    ∃ s, loop t.ntd (decStep O t.nte t.conn te left) (t.td, y, n2) = some s ∧ DecInv O t G lv left y n2 t.ntd s := by
  refine loop_inv (fun i s => DecInv O t G lv left y n2 i s)
    ⟨fun _ => rfl, fun k hk => absurd hk (Nat.not_lt_zero _), fun k hk => absurd hk (Nat.not_lt_zero _), fun _ _ => rfl, rfl, hy,
      fun _ => rfl, fun i' h => by omega⟩ ?_
  intro i hi s I
  have hoff : offset O t.conn te i t.nte = offset O t.conn t.te i t.nte := offset_congr O t.conn i t.nte hte
  obtain ⟨d, e1, hd, hl, hv⟩ := (hD i hi).run s.2.1 (left i) (by rw [← I.n]; exact I.tl) (hll i hi)
  have htd : s.1 i = t.td i := I.old i (le_refl _)
  have hval : ∀ u, u < O.ddim (t.td i) → (O.dout d).get u = decVal G lv y.get i u := by
    intro u hu
    rw [hv u hu]
    cases i with
    | zero => rw [I.temp0 rfl]; exact (hD 0 hi).loc _ _ _ _ (fun _ _ => rfl) (hlv 0 hi) u hu
    | succ i' =>
      rw [I.temp i' rfl]
      exact (hD (i' + 1) hi).loc _ _ _ _ (fun w hw => (I.out i' (by omega)).2 w hw) (hlv _ hi) u hu
  refine ⟨_, by unfold decStep; rw [htd, I.n, hoff, e1]; rfl, ⟨fun k => ?_, fun k hk => ?_, fun k hk => ?_, fun k hk => ?_, hd, ?_,
    fun h => by omega, fun i' h => ?_⟩⟩
  · dsimp only
    by_cases h : k = i
    · subst h; rw [Function.update_self, hd]
    · rw [Function.update_of_ne h]; exact I.dim k
  · dsimp only
    by_cases h : k = i
    · subst h
      rw [Function.update_self]
      refine ⟨s.2.1, e1, by rw [← I.n]; exact I.tl, I.temp0, fun k' hk' => ?_⟩
      rw [Function.update_of_ne (by omega)]
      exact I.temp k' hk'
    · rw [Function.update_of_ne h]
      obtain ⟨xa, a1, a2, a3, a4⟩ := I.ran k (by omega)
      exact ⟨xa, a1, a2, a3, fun k' hk' => by rw [Function.update_of_ne (by omega)]; exact a4 k' hk'⟩
  · dsimp only
    by_cases h : k = i
    · subst h; rw [Function.update_self]; exact ⟨hl, hval⟩
    · rw [Function.update_of_ne h]; exact I.out k (by omega)
  · dsimp only
    rw [Function.update_of_ne (by omega)]; exact I.old k (by omega)
  · dsimp only
    rw [hd]; exact hl
  · obtain rfl : i = i' := by omega
    dsimp only
    rw [Function.update_self]

/-- What a decoder reads from the encoders. -/
def Tr.leftOf (t : Tr E D) (v : Nat → Nat → ℝ) (j : Nat) : Nat → ℝ :=
  asFun (leftVal t.conn (fun k => O.edim (t.te k)) t.nte j v)

/-- A transformer whose layers compute the functions `F` and `G`, with inputs of
`n1` and `n2` cells, and whose arrays `incoming_input` have the size of the
outputs connected to them (`left_dimension`). -/
structure Tr.Fits (t : Tr E D) (n1 n2 : Nat) (F : Nat → (Nat → ℝ) → Nat → ℝ) (G : Nat → (Nat → ℝ) → (Nat → ℝ) → Nat → ℝ) :
    Prop where
  enc : ∀ i, i < t.nte → EncFwd O (t.te i) (width (fun k => O.edim (t.te k)) n1 i) (F i)
  dec : ∀ j, j < t.ntd → DecFwd O (t.td j) (width (fun k => O.ddim (t.td k)) n2 j) (offset O t.conn t.te j t.nte) (G j)
  len : ∀ j, j < t.ntd → (t.left j).len = offset O t.conn t.te j t.nte

/-- **C124** (whole transformer). The forward pass with `RUN_ALL_TRANSF` runs
the encoders one after the other on the input of the encoders, hands every
decoder the outputs of the encoders connected to it, one after the other and
nothing else, and runs the decoders one after the other on the input of the
decoders. For any layers, any number of them and any connections. -/
theorem C124_forward (t : Tr E D) (x y : Arr ℝ) (n1 n2 : Nat) (F : Nat → (Nat → ℝ) → Nat → ℝ)
    (G : Nat → (Nat → ℝ) → (Nat → ℝ) → Nat → ℝ) (hx : n1 ≤ x.len) (hy : n2 ≤ y.len) (ht : t.Fits O n1 n2 F G) :
    ∃ t', t.ff O x n1 y n2 .all = some t' ∧
      (∀ i, i < t.nte → ∀ u, u < O.edim (t.te i) → (O.eout (t'.te i)).get u = encVal F x.get i u) ∧
      (∀ j, j < t.ntd → (t'.left j).len = (leftVal t.conn (fun k => O.edim (t.te k)) t.nte j (encVal F x.get)).length ∧
        ∀ u, u < (t'.left j).len → (t'.left j).get u = t.leftOf O (encVal F x.get) j u) ∧
      (∀ j, j < t.ntd → ∀ u, u < O.ddim (t.td j) →
        (O.dout (t'.td j)).get u = decVal G (t.leftOf O (encVal F x.get)) y.get j u) ∧
      t'.encErr = t.encErr ∧ t'.leftErr = t.leftErr := by
  obtain ⟨s, e1, I⟩ := encs_run O t F x n1 hx ht.enc ht.len
  obtain ⟨d, e2, J⟩ := decs_run O t G (t.leftOf O (encVal F x.get)) s.te s.left y n2 hy I.dim
    (fun j hj => by rw [I.llen, ht.len j hj]) (fun j hj u hu => I.left j hj u hu) ht.dec
  refine ⟨{ t with te := s.te, td := d.1, left := s.left }, ?_, fun i hi => (I.out i hi).2, fun j hj => ?_, fun j hj => (J.out j hj).2, rfl, rfl⟩
  · unfold Tr.ff
    rw [if_pos rfl]
    refine (bind_some_of e1).trans ?_
    exact (bind_some_of e2).trans rfl
  · dsimp only
    rw [I.llen, ht.len j hj]
    exact ⟨(leftVal_length _ _ _ _ _).symm, I.left j hj⟩

/-- **C124** (decoders only). With `RUN_ONLY_DECODER` the encoders and what the
decoders received from them are as before, and the decoders run on that. -/
theorem C124_only_decoder (t : Tr E D) (x y : Arr ℝ) (n1 n2 : Nat) (F : Nat → (Nat → ℝ) → Nat → ℝ)
    (G : Nat → (Nat → ℝ) → (Nat → ℝ) → Nat → ℝ) (hy : n2 ≤ y.len) (ht : t.Fits O n1 n2 F G) :
    ∃ t', t.ff O x n1 y n2 .onlyDecoder = some t' ∧ t'.te = t.te ∧ t'.left = t.left ∧
      ∀ j, j < t.ntd → ∀ u, u < O.ddim (t.td j) →
        (O.dout (t'.td j)).get u = decVal G (fun j => (t.left j).get) y.get j u := by
  obtain ⟨d, e2, J⟩ := decs_run O t G (fun j => (t.left j).get) t.te t.left y n2 hy (fun _ _ => rfl)
    (fun j hj => (ht.len j hj).ge) (fun j hj u hu => rfl) ht.dec
  refine ⟨{ t with td := d.1 }, ?_, rfl, rfl, fun j hj => (J.out j hj).2⟩
  unfold Tr.ff
  rw [if_neg (by decide)]
  exact (bind_some_of e2).trans rfl

/-- **C124** refuted for `RUN_ONLY_ENCODER`: the flag does not run the encoders,
it runs the decoders, for every transformer and every input. -/
theorem C124_only_encoder_refuted (t : Tr E D) (x y : Arr ℝ) (n1 n2 : Nat) :
    t.ff O x n1 y n2 .onlyEncoder = t.ff O x n1 y n2 .onlyDecoder ∧
      ∀ t', t.ff O x n1 y n2 .onlyEncoder = some t' → t'.te = t.te := by
  refine ⟨rfl, fun t' h => ?_⟩
  unfold Tr.ff at h
  rw [if_neg (by decide), Option.bind_eq_bind, Option.bind_some] at h
  obtain ⟨d, -, h⟩ := Option.bind_eq_some_iff.1 h
  cases h
  rfl

/-! ### Two transformers sharing parameters -/

/-- `encoder_transformer_ff_opt` and `decoder_transformer_ff_opt`: the last
argument is the layer the parameters are read from. -/
structure OptOps (E D : Type) extends Ops E D where
  effOpt : Arr ℝ → E → Nat → E → Option E
  dffOpt : Arr ℝ → Arr ℝ → D → Nat → Nat → D → Option D

/-- `transf_ff_opt` (`/repo/src/transformer.c` 586-622): the encoders read the
parameters of `t2`; the call for decoder `i` passes `t->td[i]` twice (617). -/
def Tr.ffOpt (O : OptOps E D) (t : Tr E D) (x : Arr ℝ) (n1 : Nat) (y : Arr ℝ) (n2 : Nat) (flag : Flag) (t2 : Tr E D) :
    Option (Tr E D) := do
  let s ← if flag = .all then
      loop t.nte (fun i s => encStep { O.toOps with eff := fun x e n => O.effOpt x e n (t2.te i) } t i s)
        ⟨t.te, t.left, x, n1⟩
    else some ⟨t.te, t.left, x, n1⟩
  let d ← loop t.ntd (fun i d => decStep { O.toOps with dff := fun x l d n m => O.dffOpt x l d n m d } t.nte t.conn s.te s.left i d)
    (t.td, y, n2)
  some { t with te := s.te, td := d.1, left := s.left }

/-- **C124** refuted for shared parameters: the pass that takes its parameters
from a second transformer does not read the decoders of that transformer. Two
transformers that agree in their encoders give the same result, whatever the
parameters of their decoders; each decoder reads the parameters it holds itself,
and the structure made for this pass holds none. -/
theorem C124_shared_decoder_refuted (O : OptOps E D) (t : Tr E D) (x y : Arr ℝ) (n1 n2 : Nat) (flag : Flag) (t2 t3 : Tr E D)
    (h : t2.te = t3.te) : t.ffOpt O x n1 y n2 flag t2 = t.ffOpt O x n1 y n2 flag t3 := by
  unfold Tr.ffOpt
  rw [h]

end LLab.Transf
