import Verif.Transf.Stack

/-!
The backward pass of the transformer (`/repo/src/transformer.c` 639-697).
Property C125.
-/

namespace LLab.Transf

open Finset LLab.Attention

variable {E D : Type}

/-! ### Model -/

/-- `for(i = n-1; i > -1; i--) s = f(i, s);` -/
def loopDown {σ : Type} : Nat → (Nat → σ → Option σ) → σ → Option σ
  | 0, _, s => some s
  | n + 1, f, s => do
    let s' ← f n s
    loopDown n f s'

/-- State of the loop over the decoders: the decoders, the arrays
`incoming_input_error` and `temp1`. -/
structure DBState (D : Type) where
  td : Nat → D
  leftErr : Nat → Arr ℝ
  err : Arr ℝ

/-- The body of the loop over the decoders (`/repo/src/transformer.c` 645-662). -/
def decBack (O : Ops E D) (t : Tr E D) (y : Arr ℝ) (n2 : Nat) (i : Nat) (s : DBState D) : Option (DBState D) := do
  let r ← O.dbp (if i = 0 then y else O.dout (s.td (i - 1))) (t.left i) (s.td i)
    (if i = 0 then n2 else O.ddim (s.td (i - 1))) (offset O t.conn t.te i t.nte) s.err (s.leftErr i)
  some ⟨Function.update s.td i r.1, Function.update s.leftErr i r.2.2, r.2.1⟩

/-- The two loops that add to the error of each encoder the part of the errors
of the decoders that belongs to it (`/repo/src/transformer.c` 664-675). -/
def gather (O : Ops E D) (t : Tr E D) (leftErr encErr : Nat → Arr ℝ) : Option (Nat → Arr ℝ) :=
  loopDown t.nte (fun i encErr => loop t.ntd (fun j (encErr : Nat → Arr ℝ) =>
    if t.conn i j then do
      let a ← Vec.zip1DInPlace (· + ·) (encErr i) ((leftErr j).view (offset O t.conn t.te j i)) (O.edim (t.te i))
      some (Function.update encErr i a)
    else some encErr) encErr) encErr

/-- State of the loop over the encoders: the encoders, the arrays
`encoder_output_error` and `temp1`. -/
structure EBState (E : Type) where
  te : Nat → E
  encErr : Nat → Arr ℝ
  err : Arr ℝ

/-- `if(i < n_te-1) sum1D(encoder_output_error, temp1, encoder_output_error, n)`
(`/repo/src/transformer.c` 689-691). -/
def addAbove (last : Bool) (ee err : Arr ℝ) (n : Nat) : Option (Arr ℝ) :=
  match last with
  | true => some ee
  | false => Vec.zip1DInPlace (· + ·) ee err n

/-- The body of the loop over the encoders (`/repo/src/transformer.c` 678-693).
What `encoder_transformer_bp` leaves in `encoder_output_error` is not kept. -/
def encBack (O : Ops E D) (nte : Nat) (x : Arr ℝ) (n1 : Nat) (i : Nat) (s : EBState E) : Option (EBState E) := do
  let ee ← addAbove (decide (¬ i < nte - 1)) (s.encErr i) s.err (O.edim (s.te i))
  let r ← O.ebp (if i = 0 then x else O.eout (s.te (i - 1))) (s.te i) (if i = 0 then n1 else O.edim (s.te (i - 1))) ee
  some ⟨Function.update s.te i r.1, Function.update s.encErr i ee, r.2⟩

/-- The part of `transf_bp` for the decoders (`/repo/src/transformer.c` 643-676). -/
def decPart (O : Ops E D) (t : Tr E D) (y : Arr ℝ) (n2 : Nat) (e : Arr ℝ) (flag : Flag) : Option (DBState D × (Nat → Arr ℝ)) :=
  if flag ≠ .onlyEncoder then do
    let b ← loopDown t.ntd (decBack O t y n2) ⟨t.td, t.leftErr, e⟩
    let ee ← gather O t b.leftErr t.encErr
    some (b, ee)
  else some (⟨t.td, t.leftErr, e⟩, t.encErr)

/-- The part for the encoders (`/repo/src/transformer.c` 677-694). -/
def encPart (O : Ops E D) (t : Tr E D) (x : Arr ℝ) (n1 : Nat) (s : EBState E) (flag : Flag) : Option (EBState E) :=
  if flag = .all then loopDown t.nte (encBack O t.nte x n1) s else some s

/-- `transf_bp` (`/repo/src/transformer.c` 639-697): the transformer and the
returned error. -/
def Tr.bp (O : Ops E D) (t : Tr E D) (x : Arr ℝ) (n1 : Nat) (y : Arr ℝ) (n2 : Nat) (e : Arr ℝ) (flag : Flag) :
    Option (Tr E D × Arr ℝ) := do
  let b ← decPart O t y n2 e flag
  let c ← encPart O t x n1 ⟨t.te, b.2, b.1.err⟩ flag
  some ({ t with te := c.te, td := b.1.td, encErr := c.encErr, leftErr := b.1.leftErr }, c.err)

/-! ### Specification -/

/-- The backward pass of an encoder that has just run on the array `x` (`n`
cells) and computes `F s` at time `s` is a gradient at time `τ`. `pair e2` is
what the backward pass has added to the derivatives of the parameters, paired
with their velocity. -/
structure EncAdj (O : Ops E D) (n : Nat) (F : ℝ → (Nat → ℝ) → Nat → ℝ) (τ : ℝ) (e : E) (x : Arr ℝ) (pair : E → ℝ) : Prop where
  diff : ∀ X X', (∀ i, i < n → X τ i = x.get i) → Moves n X X' τ → ∃ Y', Moves (O.edim e) (fun s => F s (X s)) Y' τ
  adj : ∀ err : Arr ℝ, O.edim e ≤ err.len → ∃ e2 ie, O.ebp x e n err = some (e2, ie) ∧ n ≤ ie.len ∧
    ∀ X X' Y', (∀ i, i < n → X τ i = x.get i) → Moves n X X' τ → Moves (O.edim e) (fun s => F s (X s)) Y' τ →
      dot (O.edim e) err.get Y' = dot n ie.get X' + pair e2

/-- The same for a decoder, with the inputs `x` from below and `l` from the
encoders. The error of the latter is added to the array given. -/
structure DecAdj (O : Ops E D) (n m : Nat) (G : ℝ → (Nat → ℝ) → (Nat → ℝ) → Nat → ℝ) (τ : ℝ) (d : D) (x l : Arr ℝ)
    (pair : D → ℝ) : Prop where
  diff : ∀ X X' L L', (∀ i, i < n → X τ i = x.get i) → (∀ i, i < m → L τ i = l.get i) → Moves n X X' τ → Moves m L L' τ →
    ∃ Y', Moves (O.ddim d) (fun s => G s (X s) (L s)) Y' τ
  adj : ∀ err le : Arr ℝ, O.ddim d ≤ err.len → m ≤ le.len →
    ∃ d2 ie le2, O.dbp x l d n m err le = some (d2, ie, le2) ∧ n ≤ ie.len ∧ le2.len = le.len ∧
      ∀ X X' L L' Y', (∀ i, i < n → X τ i = x.get i) → (∀ i, i < m → L τ i = l.get i) → Moves n X X' τ → Moves m L L' τ →
        Moves (O.ddim d) (fun s => G s (X s) (L s)) Y' τ →
        dot (O.ddim d) err.get Y' + dot m le.get L' = dot n ie.get X' + dot m le2.get L' + pair d2

/-- The value read by layer `i` of a stack whose layers give `v`. -/
def below {β : Type} (x : β) (v : Nat → β) : Nat → β
  | 0 => x
  | i + 1 => v i

/-! ### Loops -/

theorem loopDown_inv {σ : Type} (P : Nat → σ → Prop) {n : Nat} {f : Nat → σ → Option σ} {s : σ} (h0 : P n s)
    (hs : ∀ i, i < n → ∀ s, P (i + 1) s → ∃ s', f i s = some s' ∧ P i s') : ∃ s', loopDown n f s = some s' ∧ P 0 s' := by
  induction n generalizing s with
  | zero => exact ⟨s, rfl, h0⟩
  | succ n ih =>
    obtain ⟨s1, e1, p1⟩ := hs n (Nat.lt_succ_self _) s h0
    obtain ⟨s2, e2, p2⟩ := ih p1 (fun i hi => hs i (by omega))
    exact ⟨s2, by simp only [loopDown]; exact (bind_some_of e1).trans e2, p2⟩

/-! ### Concatenation along curves -/

theorem left_moves (conn : Nat → Nat → Bool) (dim : Nat → Nat) (i j : Nat) (v : ℝ → Nat → Nat → ℝ) (v' : Nat → Nat → ℝ) (τ : ℝ)
    (h : ∀ k, k < i → Moves (dim k) (fun s => v s k) (v' k) τ) :
    Moves (∑ k ∈ range i, if conn k j then dim k else 0) (fun s => asFun (leftVal conn dim i j (v s)))
      (asFun (leftVal conn dim i j v')) τ := by
  induction i with
  | zero => intro u hu; simp at hu
  | succ i ih =>
    intro u hu
    rw [sum_range_succ] at hu
    have hl : ∀ w, (leftVal conn dim i j w).length = ∑ k ∈ range i, if conn k j then dim k else 0 :=
      leftVal_length conn dim i j
    simp only [leftVal_succ]
    by_cases hc : conn i j = true
    · rw [if_pos hc] at hu
      simp only [if_pos hc]
      by_cases hu' : u < ∑ k ∈ range i, if conn k j then dim k else 0
      · rw [asFun_left _ _ (by rw [hl]; exact hu')]
        have : (fun s => asFun (leftVal conn dim i j (v s) ++ (List.range (dim i)).map (v s i)) u) =
            fun s => asFun (leftVal conn dim i j (v s)) u := by
          funext s; rw [asFun_left _ _ (by rw [hl]; exact hu')]
        rw [this]
        exact ih (fun k hk => h k (by omega)) u hu'
      · rw [asFun_right _ _ (by rw [hl]; omega), hl, asFun_map _ (by omega)]
        have : (fun s => asFun (leftVal conn dim i j (v s) ++ (List.range (dim i)).map (v s i)) u) =
            fun s => v s i (u - ∑ k ∈ range i, if conn k j then dim k else 0) := by
          funext s; rw [asFun_right _ _ (by rw [hl]; omega), hl, asFun_map _ (by omega)]
        rw [this]
        exact h i (by omega) _ (by omega)
    · rw [if_neg hc] at hu
      simp only [if_neg hc, List.append_nil]
      exact ih (fun k hk => h k (by omega)) u hu

theorem dot_left (conn : Nat → Nat → Bool) (dim : Nat → Nat) (i j : Nat) (f : Nat → ℝ) (v : Nat → Nat → ℝ) :
    dot (∑ k ∈ range i, if conn k j then dim k else 0) f (asFun (leftVal conn dim i j v)) =
      ∑ k ∈ range i, if conn k j then
        dot (dim k) (fun u => f ((∑ k' ∈ range k, if conn k' j then dim k' else 0) + u)) (v k) else 0 := by
  induction i with
  | zero => rfl
  | succ i ih =>
    have hl : ∀ w, (leftVal conn dim i j w).length = ∑ k ∈ range i, if conn k j then dim k else 0 :=
      leftVal_length conn dim i j
    rw [sum_range_succ, sum_range_succ (fun k => if conn k j then dot (dim k) _ (v k) else 0), ← ih, leftVal_succ]
    by_cases hc : conn i j = true
    · simp only [if_pos hc]
      unfold dot
      rw [sum_range_add]
      congr 1
      · refine sum_congr rfl fun u hu => ?_
        rw [asFun_left _ _ (by rw [hl]; exact mem_range.1 hu)]
      · refine sum_congr rfl fun u hu => ?_
        rw [asFun_right _ _ (by rw [hl]; omega), hl, Nat.add_sub_cancel_left, asFun_map _ (mem_range.1 hu)]
    · simp only [if_neg hc, List.append_nil, add_zero]

/-! ### Gathering the errors -/

theorem gather_row (conn : Nat → Bool) (ntd i : Nat) (leftErr encErr : Nat → Arr ℝ) (off : Nat → Nat) (n : Nat)
    (he : n ≤ (encErr i).len) (hl : ∀ j, j < ntd → conn j = true → off j + n ≤ (leftErr j).len) :
    ∃ a : Arr ℝ, loop ntd (fun j (encErr : Nat → Arr ℝ) =>
      if conn j then do
        let a ← Vec.zip1DInPlace (· + ·) (encErr i) ((leftErr j).view (off j)) n
        some (Function.update encErr i a)
      else some encErr) encErr = some (Function.update encErr i a) ∧ a.len = (encErr i).len ∧
      ∀ u, u < n → a.get u = (encErr i).get u + ∑ j ∈ range ntd, if conn j then (leftErr j).get (off j + u) else 0 := by
  induction ntd with
  | zero => exact ⟨encErr i, by simp [loop], rfl, fun u _ => by simp⟩
  | succ m ih =>
    obtain ⟨a, e1, l1, v1⟩ := ih (fun j hj => hl j (by omega))
    simp only [loop]
    rw [e1, Option.bind_eq_bind, Option.bind_some]
    by_cases hc : conn m = true
    · rw [if_pos hc, Function.update_self, Vec.zip1DInPlace_eq _ _ _ _ (by omega)
        (by rw [Arr.view_len]; have := hl m (by omega) hc; omega)]
      refine ⟨⟨a.len, fun k => if k < n then a.get k + ((leftErr m).view (off m)).get k else a.get k⟩,
        by rw [Option.bind_eq_bind, Option.bind_some, Function.update_idem], l1, fun u hu => ?_⟩
      dsimp only
      rw [if_pos hu, v1 u hu, sum_range_succ, if_pos hc, Arr.view_get, add_assoc]
    · rw [if_neg hc]
      exact ⟨a, rfl, l1, fun u hu => by rw [v1 u hu, sum_range_succ, if_neg hc, add_zero]⟩

theorem gather_run (O : Ops E D) (t : Tr E D) (leftErr encErr : Nat → Arr ℝ)
    (he : ∀ i, i < t.nte → O.edim (t.te i) ≤ (encErr i).len)
    (hl : ∀ j, j < t.ntd → offset O t.conn t.te j t.nte ≤ (leftErr j).len) :
    ∃ ee, gather O t leftErr encErr = some ee ∧ ∀ i, i < t.nte → (ee i).len = (encErr i).len ∧
      ∀ u, u < O.edim (t.te i) → (ee i).get u = (encErr i).get u +
        ∑ j ∈ range t.ntd, if t.conn i j then (leftErr j).get (offset O t.conn t.te j i + u) else 0 := by
  obtain ⟨ee, e, h⟩ := loopDown_inv (n := t.nte) (s := encErr)
    (f := fun i encErr => loop t.ntd (fun j (encErr : Nat → Arr ℝ) =>
      if t.conn i j then do
        let a ← Vec.zip1DInPlace (· + ·) (encErr i) ((leftErr j).view (offset O t.conn t.te j i)) (O.edim (t.te i))
        some (Function.update encErr i a)
      else some encErr) encErr)
    (fun i (ee : Nat → Arr ℝ) => (∀ k, k < i → ee k = encErr k) ∧ ∀ k, i ≤ k → k < t.nte → (ee k).len = (encErr k).len ∧
      ∀ u, u < O.edim (t.te k) → (ee k).get u = (encErr k).get u +
        ∑ j ∈ range t.ntd, if t.conn k j then (leftErr j).get (offset O t.conn t.te j k + u) else 0)
    ⟨fun _ _ => rfl, fun k h1 h2 => by omega⟩ (by
      rintro i hi ee ⟨h1, h2⟩
      obtain ⟨a, e1, l1, v1⟩ := gather_row (t.conn i) t.ntd i leftErr ee (fun j => offset O t.conn t.te j i) (O.edim (t.te i))
        (by rw [h1 i (by omega)]; exact he i hi)
        (fun j hj hc => le_trans (offset_step O t.conn t.te hi hc) (hl j hj))
      refine ⟨_, e1, fun k hk => ?_, fun k hk hk' => ?_⟩
      · rw [Function.update_of_ne (by omega)]; exact h1 k (by omega)
      · by_cases h : k = i
        · subst h
          rw [Function.update_self]
          rw [h1 k (by omega)] at l1 v1
          exact ⟨l1, v1⟩
        · rw [Function.update_of_ne h]; exact h2 k (by omega) hk')
  exact ⟨ee, e, fun i hi => h.2 i (by omega) hi⟩

/-! ### The gradient -/

/-- The velocities of the outputs of the encoders. -/
theorem enc_moves (O : Ops E D) (t : Tr E D) (n1 : Nat) (F : ℝ → Nat → (Nat → ℝ) → Nat → ℝ) (τ : ℝ) (X : ℝ → Nat → ℝ) (X' : Nat → ℝ)
    (pe : Nat → E → ℝ) (x : Arr ℝ) (hX : Moves n1 X X' τ) (hxv : ∀ u, u < n1 → x.get u = X τ u)
    (hE : ∀ i, i < t.nte → EncAdj O (width (fun k => O.edim (t.te k)) n1 i) (fun s => F s i) τ (t.te i)
      (below x (fun k => O.eout (t.te k)) i) (pe i))
    (ho : ∀ i, i < t.nte → ∀ u, u < O.edim (t.te i) → (O.eout (t.te i)).get u = encVal (F τ) (X τ) i u) :
    ∃ V : Nat → Nat → ℝ, ∀ i, i < t.nte → Moves (O.edim (t.te i)) (fun s => encVal (F s) (X s) i) (V i) τ := by
  have key : ∀ i, i < t.nte → ∃ w, Moves (O.edim (t.te i)) (fun s => encVal (F s) (X s) i) w τ := by
    intro i
    induction i with
    | zero => intro h; exact (hE 0 h).diff X X' (fun u hu => (hxv u hu).symm) hX
    | succ i ih =>
      intro h
      obtain ⟨w, hw⟩ := ih (by omega)
      exact (hE (i + 1) h).diff (fun s => encVal (F s) (X s) i) w (fun u hu => (ho i (by omega) u hu).symm) hw
  choose! V hV using key
  exact ⟨V, hV⟩

/-- The velocities of the outputs of the decoders. -/
theorem dec_moves (O : Ops E D) (t : Tr E D) (n2 : Nat) (m : Nat → Nat) (G : ℝ → Nat → (Nat → ℝ) → (Nat → ℝ) → Nat → ℝ) (τ : ℝ)
    (Y : ℝ → Nat → ℝ) (Y' : Nat → ℝ) (L : ℝ → Nat → Nat → ℝ) (L' : Nat → Nat → ℝ) (pd : Nat → D → ℝ) (y : Arr ℝ)
    (left : Nat → Arr ℝ) (hY : Moves n2 Y Y' τ) (hyv : ∀ u, u < n2 → y.get u = Y τ u)
    (hlv : ∀ j, j < t.ntd → ∀ u, u < m j → (left j).get u = L τ j u)
    (hL : ∀ j, j < t.ntd → Moves (m j) (fun s => L s j) (L' j) τ)
    (hD : ∀ j, j < t.ntd → DecAdj O (width (fun k => O.ddim (t.td k)) n2 j) (m j) (fun s => G s j) τ (t.td j)
      (below y (fun k => O.dout (t.td k)) j) (left j) (pd j))
    (ho : ∀ i, i < t.ntd → ∀ u, u < O.ddim (t.td i) → (O.dout (t.td i)).get u = decVal (G τ) (L τ) (Y τ) i u) :
    ∃ W : Nat → Nat → ℝ, ∀ j, j < t.ntd → Moves (O.ddim (t.td j)) (fun s => decVal (G s) (L s) (Y s) j) (W j) τ := by
  have key : ∀ i, i < t.ntd → ∃ w, Moves (O.ddim (t.td i)) (fun s => decVal (G s) (L s) (Y s) i) w τ := by
    intro i
    induction i with
    | zero =>
      intro h
      exact (hD 0 h).diff Y Y' (fun s => L s 0) (L' 0) (fun u hu => (hyv u hu).symm)
        (fun u hu => (hlv 0 h u hu).symm) hY (hL 0 h)
    | succ i ih =>
      intro h
      obtain ⟨w, hw⟩ := ih (by omega)
      exact (hD (i + 1) h).diff (fun s => decVal (G s) (L s) (Y s) i) w (fun s => L s (i + 1)) (L' (i + 1))
        (fun u hu => (ho i (by omega) u hu).symm) (fun u hu => (hlv _ h u hu).symm) hw (hL _ h)
  choose! W hW using key
  exact ⟨W, hW⟩

/-- A transformer after its forward pass on the arrays `x` and `y`, which hold `X`
and `Y`, with the derivatives of its layers: everything the backward pass relies on. -/
structure Tr.Ready (O : Ops E D) (t : Tr E D) (n1 n2 : Nat) (F : ℝ → Nat → (Nat → ℝ) → Nat → ℝ)
    (G : ℝ → Nat → (Nat → ℝ) → (Nat → ℝ) → Nat → ℝ) (τ : ℝ) (X Y : Nat → ℝ) (x y : Arr ℝ) (pe : Nat → E → ℝ) (pd : Nat → D → ℝ) :
    Prop where
  pos : 0 < t.nte
  enc : ∀ i, i < t.nte → EncAdj O (width (fun k => O.edim (t.te k)) n1 i) (fun s => F s i) τ (t.te i)
    (below x (fun k => O.eout (t.te k)) i) (pe i)
  dec : ∀ j, j < t.ntd → DecAdj O (width (fun k => O.ddim (t.td k)) n2 j) (offset O t.conn t.te j t.nte) (fun s => G s j) τ
    (t.td j) (below y (fun k => O.dout (t.td k)) j) (t.left j) (pd j)
  eout : ∀ i, i < t.nte → O.edim (t.te i) ≤ (O.eout (t.te i)).len ∧
    ∀ u, u < O.edim (t.te i) → (O.eout (t.te i)).get u = encVal (F τ) X i u
  dout : ∀ j, j < t.ntd → O.ddim (t.td j) ≤ (O.dout (t.td j)).len ∧
    ∀ u, u < O.ddim (t.td j) → (O.dout (t.td j)).get u = decVal (G τ) (t.leftOf O (encVal (F τ) X)) Y j u
  left : ∀ j, j < t.ntd → offset O t.conn t.te j t.nte ≤ (t.left j).len ∧
    ∀ u, u < offset O t.conn t.te j t.nte → (t.left j).get u = t.leftOf O (encVal (F τ) X) j u
  encErr : ∀ i, i < t.nte → O.edim (t.te i) ≤ (t.encErr i).len
  leftErr : ∀ j, j < t.ntd → offset O t.conn t.te j t.nte ≤ (t.leftErr j).len
  zero : ∀ j, j < t.ntd → ∀ u, u < offset O t.conn t.te j t.nte → (t.leftErr j).get u = 0

/-- **C125** (gradient of the whole transformer). Backward pass with
`RUN_ALL_TRANSF` after a forward pass, when the backward pass of every layer is
a gradient. For every motion of the two inputs and of the parameters of all the
layers: the error of the last decoder paired with the velocity of its output,
plus the errors put into `encoder_output_error` paired with the velocities of
the outputs of the encoders, is the returned error paired with the velocity of
the input of the encoders, plus the error `ied` of the input of the decoders,
which is what `RUN_ONLY_DECODER` returns, paired with its velocity, plus what was
added to the derivatives of the layers, paired with the velocities of the
parameters. For any layers, any number of them and any connections.

With no decoder the first term is `e` paired with `Y'` on both sides. -/
theorem C125_backward (O : Ops E D) (t : Tr E D) (x y e : Arr ℝ) (n1 n2 : Nat) (F : ℝ → Nat → (Nat → ℝ) → Nat → ℝ)
    (G : ℝ → Nat → (Nat → ℝ) → (Nat → ℝ) → Nat → ℝ) (τ : ℝ) (X Y : ℝ → Nat → ℝ) (X' Y' : Nat → ℝ) (pe : Nat → E → ℝ)
    (pd : Nat → D → ℝ) (hxv : ∀ u, u < n1 → x.get u = X τ u)
    (hyv : ∀ u, u < n2 → y.get u = Y τ u) (hX : Moves n1 X X' τ) (hY : Moves n2 Y Y' τ)
    (he : width (fun k => O.ddim (t.td k)) n2 t.ntd ≤ e.len) (ht : t.Ready O n1 n2 F G τ (X τ) (Y τ) x y pe pd) :
    ∃ (t' : Tr E D) (ie : Arr ℝ) (td' : Tr E D) (ied : Arr ℝ) (V W : Nat → Nat → ℝ), t.bp O x n1 y n2 e .all = some (t', ie) ∧
      t.bp O x n1 y n2 e .onlyDecoder = some (td', ied) ∧ td'.te = t.te ∧
      (∀ i, i < t.nte → Moves (O.edim (t.te i)) (fun s => encVal (F s) (X s) i) (V i) τ) ∧
      (∀ j, j < t.ntd → Moves (O.ddim (t.td j))
        (fun s => decVal (G s) (t.leftOf O (encVal (F s) (X s))) (Y s) j) (W j) τ) ∧
      dot (width (fun k => O.ddim (t.td k)) n2 t.ntd) e.get (below Y' W t.ntd) +
          ∑ i ∈ range t.nte, dot (O.edim (t.te i)) (t.encErr i).get (V i) =
        dot n1 ie.get X' + dot n2 ied.get Y' + ∑ i ∈ range t.nte, pe i (t'.te i) + ∑ j ∈ range t.ntd, pd j (t'.td j) := by
  obtain ⟨V, hV⟩ := enc_moves O t n1 F τ X X' pe x hX hxv ht.enc (fun i hi => (ht.eout i hi).2)
  have hL : ∀ j, j < t.ntd → Moves (offset O t.conn t.te j t.nte) (fun s => t.leftOf O (encVal (F s) (X s)) j)
      (t.leftOf O V j) τ := fun j _ =>
    left_moves t.conn (fun k => O.edim (t.te k)) t.nte j (fun s => encVal (F s) (X s)) V τ hV
  obtain ⟨W, hW⟩ := dec_moves O t n2 (fun j => offset O t.conn t.te j t.nte) G τ Y Y' (fun s => t.leftOf O (encVal (F s) (X s)))
    (t.leftOf O V) pd y t.left hY hyv (fun j hj => (ht.left j hj).2) hL ht.dec (fun i hi => (ht.dout i hi).2)
  -- the decoders
  obtain ⟨b, eb, hbtd, hble, hbo, hbl, hbid⟩ := loopDown_inv (n := t.ntd) (s := (⟨t.td, t.leftErr, e⟩ : DBState D))
    (f := decBack O t y n2)
    (fun i (s : DBState D) => (∀ k, k < i → s.td k = t.td k) ∧ (∀ k, k < i → s.leftErr k = t.leftErr k) ∧
      width (fun k => O.ddim (t.td k)) n2 i ≤ s.err.len ∧ (∀ k, (s.leftErr k).len = (t.leftErr k).len) ∧
      dot (width (fun k => O.ddim (t.td k)) n2 t.ntd) e.get (below Y' W t.ntd) =
        dot (width (fun k => O.ddim (t.td k)) n2 i) s.err.get (below Y' W i) +
        ∑ j ∈ Ico i t.ntd, (dot (offset O t.conn t.te j t.nte) (s.leftErr j).get (t.leftOf O V j) + pd j (s.td j)))
    ⟨fun _ _ => rfl, fun _ _ => rfl, he, fun _ => rfl, by simp⟩ (by
      rintro i hi s ⟨h1, h2, h3, h4, h5⟩
      have hpa : (if i = 0 then y else O.dout (s.td (i - 1))) = below y (fun k => O.dout (t.td k)) i := by
        cases i with
        | zero => rfl
        | succ i => rw [if_neg (by omega), Nat.add_sub_cancel, h1 i (by omega)]; rfl
      have hpv : ∀ u, u < width (fun k => O.ddim (t.td k)) n2 i → (below y (fun k => O.dout (t.td k)) i).get u =
          below (Y τ) (decVal (G τ) (t.leftOf O (encVal (F τ) (X τ))) (Y τ)) i u := by
        intro u hu
        cases i with
        | zero => exact hyv u hu
        | succ i => exact (ht.dout i (by omega)).2 u hu
      have hn : (if i = 0 then n2 else O.ddim (s.td (i - 1))) = width (fun k => O.ddim (t.td k)) n2 i := by
        cases i with
        | zero => rfl
        | succ i => rw [if_neg (by omega), Nat.add_sub_cancel, h1 i (by omega)]; rfl
      obtain ⟨d2, ie, le2, r1, r2, r3, r4⟩ := (ht.dec i hi).adj s.err (s.leftErr i) h3
        (by rw [h4]; exact ht.leftErr i hi)
      refine ⟨⟨Function.update s.td i d2, Function.update s.leftErr i le2, ie⟩, ?_, fun k hk => ?_, fun k hk => ?_, r2,
        fun k => ?_, ?_⟩
      · unfold decBack
        rw [hn, hpa, h1 i (by omega), r1]
        rfl
      · dsimp only; rw [Function.update_of_ne (by omega)]; exact h1 k (by omega)
      · dsimp only; rw [Function.update_of_ne (by omega)]; exact h2 k (by omega)
      · dsimp only
        by_cases hk : k = i
        · subst hk; rw [Function.update_self, r3]; exact h4 k
        · rw [Function.update_of_ne hk]; exact h4 k
      · dsimp only
        have hz : dot (offset O t.conn t.te i t.nte) (s.leftErr i).get (t.leftOf O V i) = 0 := by
          unfold dot
          refine sum_eq_zero fun u hu => ?_
          rw [h2 i (by omega), ht.zero i hi u (mem_range.1 hu), zero_mul]
        have hstep := r4 (fun s => below (Y s) (decVal (G s) (t.leftOf O (encVal (F s) (X s))) (Y s)) i) (below Y' W i)
          (fun s => t.leftOf O (encVal (F s) (X s)) i) (t.leftOf O V i) (W i)
          (fun u hu => (hpv u hu).symm) (fun u hu => ((ht.left i hi).2 u hu).symm) (by
            cases i with
            | zero => exact hY
            | succ i => exact hW i (by omega)) (hL i hi) (by
            have := hW i hi
            cases i with
            | zero => exact this
            | succ i => exact this)
        rw [hz, add_zero] at hstep
        rw [h5, show dot (width (fun k => O.ddim (t.td k)) n2 (i + 1)) s.err.get (below Y' W (i + 1)) =
          dot (O.ddim (t.td i)) s.err.get (W i) from rfl, hstep, sum_eq_sum_Ico_succ_bot hi, Function.update_self,
          Function.update_self]
        have : ∑ j ∈ Ico (i + 1) t.ntd, (dot (offset O t.conn t.te j t.nte) (Function.update s.leftErr i le2 j).get
            (t.leftOf O V j) + pd j (Function.update s.td i d2 j)) =
            ∑ j ∈ Ico (i + 1) t.ntd, (dot (offset O t.conn t.te j t.nte) (s.leftErr j).get (t.leftOf O V j) + pd j (s.td j)) :=
          sum_congr rfl fun j hj => by
            have := (mem_Ico.1 hj).1
            rw [Function.update_of_ne (by omega), Function.update_of_ne (by omega)]
        rw [this]
        ring)
  rw [← range_eq_Ico] at hbid
  -- the errors of the encoders
  obtain ⟨ee, eg, hee⟩ := gather_run O t b.leftErr t.encErr ht.encErr (fun j hj => by rw [hbl]; exact ht.leftErr j hj)
  -- the encoders
  obtain ⟨c, ec, hcte, hcee, hcl, hcid⟩ := loopDown_inv (n := t.nte) (s := (⟨t.te, ee, b.err⟩ : EBState E))
    (f := encBack O t.nte x n1)
    (fun i (s : EBState E) => (∀ k, k < i → s.te k = t.te k) ∧ (∀ k, k < i → s.encErr k = ee k) ∧
      (i < t.nte → width (fun k => O.edim (t.te k)) n1 i ≤ s.err.len) ∧
      ∑ k ∈ Ico i t.nte, dot (O.edim (t.te k)) (ee k).get (V k) =
        (if i < t.nte then dot (width (fun k => O.edim (t.te k)) n1 i) s.err.get (below X' V i) else 0) +
        ∑ k ∈ Ico i t.nte, pe k (s.te k))
    ⟨fun _ _ => rfl, fun _ _ => rfl, fun h => by omega, by simp⟩ (by
      rintro i hi s ⟨h1, h2, h3, h4⟩
      have hpa : (if i = 0 then x else O.eout (s.te (i - 1))) = below x (fun k => O.eout (t.te k)) i := by
        cases i with
        | zero => rfl
        | succ i => rw [if_neg (by omega), Nat.add_sub_cancel, h1 i (by omega)]; rfl
      have hpv : ∀ u, u < width (fun k => O.edim (t.te k)) n1 i → (below x (fun k => O.eout (t.te k)) i).get u =
          below (X τ) (encVal (F τ) (X τ)) i u := by
        intro u hu
        cases i with
        | zero => exact hxv u hu
        | succ i => exact (ht.eout i (by omega)).2 u hu
      have hn : (if i = 0 then n1 else O.edim (s.te (i - 1))) = width (fun k => O.edim (t.te k)) n1 i := by
        cases i with
        | zero => rfl
        | succ i => rw [if_neg (by omega), Nat.add_sub_cancel, h1 i (by omega)]; rfl
      have heel : O.edim (t.te i) ≤ (ee i).len := by rw [(hee i hi).1]; exact ht.encErr i hi
      obtain ⟨err, er, el, ev⟩ : ∃ err : Arr ℝ,
          addAbove (decide (¬ i < t.nte - 1)) (s.encErr i) s.err (O.edim (s.te i)) = some err ∧
          O.edim (t.te i) ≤ err.len ∧ ∀ u, u < O.edim (t.te i) → err.get u =
            (ee i).get u + if i + 1 < t.nte then s.err.get u else 0 := by
        rw [h2 i (by omega), h1 i (by omega)]
        by_cases hl : i + 1 < t.nte
        · rw [decide_eq_false (by omega)]
          unfold addAbove
          dsimp only
          rw [Vec.zip1DInPlace_eq _ _ _ _ heel (h3 hl)]
          refine ⟨_, rfl, heel, fun u hu => ?_⟩
          dsimp only
          rw [if_pos hu, if_pos hl]
        · rw [decide_eq_true (by omega)]
          exact ⟨_, rfl, heel, fun u hu => by rw [if_neg hl, add_zero]⟩
      obtain ⟨e2, ie, r1, r2, r3⟩ := (ht.enc i hi).adj err el
      refine ⟨⟨Function.update s.te i e2, Function.update s.encErr i err, ie⟩, ?_, fun k hk => ?_, fun k hk => ?_, fun _ => r2, ?_⟩
      · unfold encBack
        refine (bind_some_of er).trans ?_
        rw [hn, hpa, h1 i (by omega), r1]
        rfl
      · dsimp only; rw [Function.update_of_ne (by omega)]; exact h1 k (by omega)
      · dsimp only; rw [Function.update_of_ne (by omega)]; exact h2 k (by omega)
      · dsimp only
        have hstep := r3 (fun s => below (X s) (encVal (F s) (X s)) i) (below X' V i) (V i) (fun u hu => (hpv u hu).symm)
          (by
            cases i with
            | zero => exact hX
            | succ i => exact hV i (by omega)) (by
            have := hV i hi
            cases i with
            | zero => exact this
            | succ i => exact this)
        have hsplit : dot (O.edim (t.te i)) err.get (V i) = dot (O.edim (t.te i)) (ee i).get (V i) +
            if i + 1 < t.nte then dot (O.edim (t.te i)) s.err.get (V i) else 0 := by
          rw [dot_congr ev]
          by_cases hl : i + 1 < t.nte
          · simp only [if_pos hl]; exact dot_add_left _ _ _ _
          · simp only [if_neg hl, add_zero]
        rw [sum_eq_sum_Ico_succ_bot hi, h4, sum_eq_sum_Ico_succ_bot hi, Function.update_self, if_pos hi]
        have : ∑ k ∈ Ico (i + 1) t.nte, pe k (Function.update s.te i e2 k) = ∑ k ∈ Ico (i + 1) t.nte, pe k (s.te k) :=
          sum_congr rfl fun j hj => by
            have := (mem_Ico.1 hj).1
            rw [Function.update_of_ne (by omega)]
        rw [this]
        rw [hsplit] at hstep
        by_cases hl : i + 1 < t.nte
        · rw [if_pos hl] at hstep ⊢
          have e3 : dot (width (fun k => O.edim (t.te k)) n1 (i + 1)) s.err.get (below X' V (i + 1)) =
            dot (O.edim (t.te i)) s.err.get (V i) := rfl
          rw [e3]
          linarith
        · rw [if_neg hl] at hstep ⊢
          linarith)
  rw [← range_eq_Ico, if_pos ht.pos] at hcid
  have hdp : ∀ flag : Flag, flag ≠ .onlyEncoder → decPart O t y n2 e flag = some (b, ee) := by
    intro flag hf
    unfold decPart
    rw [if_pos hf]
    refine (bind_some_of eb).trans ?_
    exact (bind_some_of eg).trans rfl
  refine ⟨{ t with te := c.te, td := b.td, encErr := c.encErr, leftErr := b.leftErr }, c.err,
    { t with td := b.td, encErr := ee, leftErr := b.leftErr }, b.err, V, W, ?_, ?_, rfl, hV, hW, ?_⟩
  · unfold Tr.bp
    refine (bind_some_of (hdp _ (by decide))).trans ?_
    unfold encPart
    rw [if_pos rfl]
    exact (bind_some_of ec).trans rfl
  · unfold Tr.bp
    refine (bind_some_of (hdp _ (by decide))).trans ?_
    unfold encPart
    rw [if_neg (by decide)]
    rfl
  · dsimp only
    have hdl : ∀ j, dot (offset O t.conn t.te j t.nte) (b.leftErr j).get (t.leftOf O V j) =
        ∑ k ∈ range t.nte, if t.conn k j then
          dot (O.edim (t.te k)) (fun u => (b.leftErr j).get (offset O t.conn t.te j k + u)) (V k) else 0 := fun j =>
      dot_left t.conn (fun k => O.edim (t.te k)) t.nte j (b.leftErr j).get V
    have hsum : ∑ k ∈ range t.nte, dot (O.edim (t.te k)) (ee k).get (V k) =
        ∑ k ∈ range t.nte, dot (O.edim (t.te k)) (t.encErr k).get (V k) +
        ∑ j ∈ range t.ntd, dot (offset O t.conn t.te j t.nte) (b.leftErr j).get (t.leftOf O V j) := by
      simp only [hdl]
      rw [sum_comm, ← sum_add_distrib]
      refine sum_congr rfl fun k hk => ?_
      rw [dot_congr (hee k (mem_range.1 hk)).2, dot_add_left, dot_sum_left]
      congr 1
      refine sum_congr rfl fun j _ => ?_
      by_cases hc : t.conn k j = true
      · simp only [if_pos hc]
      · simp only [if_neg hc]
        simp [dot]
    rw [sum_add_distrib] at hbid
    have e0 : dot (width (fun k => O.ddim (t.td k)) n2 0) b.err.get (below Y' W 0) = dot n2 b.err.get Y' := rfl
    have e1 : dot (width (fun k => O.edim (t.te k)) n1 0) c.err.get (below X' V 0) = dot n1 c.err.get X' := rfl
    rw [e0] at hbid
    rw [e1] at hcid
    rw [hbid]
    linarith

/-- **C125** refuted for `RUN_ONLY_ENCODER`: the backward pass with this flag
visits no layer, adds no derivative and returns the error it was given, for
every transformer, every input and every error. -/
theorem C125_only_encoder_refuted (O : Ops E D) (t : Tr E D) (x y e : Arr ℝ) (n1 n2 : Nat) :
    t.bp O x n1 y n2 e .onlyEncoder = some (t, e) := rfl

end LLab.Transf
