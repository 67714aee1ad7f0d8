import Verif.Layers.Conv
import Verif.Layers.EdgePopup

/-!
Convolutions of which only the best-scored weights are used (edge-popup), all feature maps at once
(`/repo/src/convolutional.c` 88-184, 251-286, 319-367, 391-437). Property C141.

The weights of all kernels are numbered kernel by kernel; `indices` lists the numbers in the order of the scores.
Modelled for `last_n` at most the number of weights (otherwise the C loops start at a negative subscript).
-/

namespace LLab.ConvPopup

open Finset LLab.Conv LLab.EdgePopup

variable {R : Type} [CommRing R]

/-! ### Model -/

/-- `kernel_temp`, the kernel of weight number `v` (`/repo/src/convolutional.c` 143, 338, 417). -/
def kerOf (ch kI kJ v : Nat) : Nat := v / (ch * kI * kJ)
/-- `c_temp`, its channel (145, 338, 419). -/
def chanOf (ch kI kJ v : Nat) : Nat := v % (ch * kI * kJ) / (kI * kJ)
/-- `i_temp`, its row (146, 338, 420). -/
def rowOf (ch kI kJ v : Nat) : Nat := v % (ch * kI * kJ) % (kI * kJ) / kJ
/-- `j_temp`, its column (147, 338, 421). -/
def colOf (ch kI kJ v : Nat) : Nat := v % (ch * kI * kJ) % (kI * kJ) % kJ

/-- `kernel[k][p]` -/
def readK (ks : Arr (Arr R)) (k p : Nat) : Option R := (ks.read k).bind fun row => row.read p

/-- `kernel_error[k][p] += v` -/
def addK (ks : Arr (Arr R)) (k p : Nat) (v : R) : Option (Arr (Arr R)) :=
  (ks.read k).bind fun row => (row.addAt p v).bind fun row' => ks.write k row'

/-- The loop over the used weights, `for(s = T-last_n; s < T; s++)` with `indices[s]` read in the body. -/
def forSel {σ : Type} (idx : Arr Nat) (T last : Nat) (body : Nat → σ → Option σ) (st : σ) : Option σ :=
  loopFrom (T - last) T (fun s st => (idx.read s).bind fun v => body v st) st

/-- `convolutional_feed_forward_edge_popup` (`/repo/src/convolutional.c` 88-184, without the parts in comments); the parameter
`bias` is not used. -/
def ff (g : Geom) (x : Arr R) (ks : Arr (Arr R)) (_bias : Arr R) (idx : Arr Nat) (n last : Nat) (out : Arr R) : Option (Arr R) :=
  loopFrom g.pad (g.outI - g.pad) (fun oi out =>
    loopFrom g.pad (g.outJ - g.pad) (fun oj out =>
      forSel idx (n * (g.ch * g.kI * g.kJ)) last (fun v out => do
        let kv ← readK ks (kerOf g.ch g.kI g.kJ v) (v % (g.ch * g.kI * g.kJ))
        let xv ← x.read (g.xIdx oi oj (chanOf g.ch g.kI g.kJ v) (rowOf g.ch g.kI g.kJ v) (colOf g.ch g.kI g.kJ v))
        out.addAt (kerOf g.ch g.kI g.kJ v * (g.outI * g.outJ) + (oi * g.outJ + oj)) (kv * xv)) out) out) out

/-- `convolutional_back_prop_edge_popup` (`/repo/src/convolutional.c` 251-286): the errors of the scores of one kernel. -/
def scores (g : Geom) (x k e : Arr R) (se : Arr R) : Option (Arr R) :=
  loopFrom g.pad (g.outI - g.pad) (fun oi se =>
    loopFrom g.pad (g.outJ - g.pad) (fun oj se =>
      loop g.ch (fun c se => loop g.kI (fun i se => loop g.kJ (fun j se => do
        let ev ← e.read (oi * g.outJ + oj)
        let xv ← x.read (g.xIdx oi oj c i j)
        let kv ← k.read (g.kIdx c i j)
        se.addAt (g.kIdx c i j) (ev * xv * kv)) se) se) se) se) se

/-- The first loops of `convolutional_back_prop_edge_popup_ff_gd_bp` (`/repo/src/convolutional.c` 341-352): the errors of the
used weights. -/
def weights (g : Geom) (x e : Arr R) (idx : Arr Nat) (n last : Nat) (ke : Arr (Arr R)) : Option (Arr (Arr R)) :=
  loopFrom g.pad (g.outI - g.pad) (fun oi ke =>
    loopFrom g.pad (g.outJ - g.pad) (fun oj ke =>
      forSel idx (n * (g.ch * g.kI * g.kJ)) last (fun v ke => do
        let ev ← e.read (kerOf g.ch g.kI g.kJ v * (g.outI * g.outJ) + (oi * g.outJ + oj))
        let xv ← x.read (g.xIdx oi oj (chanOf g.ch g.kI g.kJ v) (rowOf g.ch g.kI g.kJ v) (colOf g.ch g.kI g.kJ v))
        addK ke (kerOf g.ch g.kI g.kJ v) (g.kIdx (chanOf g.ch g.kI g.kJ v) (rowOf g.ch g.kI g.kJ v) (colOf g.ch g.kI g.kJ v)) (ev * xv)) ke) ke) ke

/-- Its second loops (353-361): the errors of the biases, when `bias_error != NULL`. -/
def biases (g : Geom) (e : Arr R) (n : Nat) (be : Arr R) : Option (Arr R) :=
  loopFrom g.pad (g.outI - g.pad) (fun oi be =>
    loopFrom g.pad (g.outJ - g.pad) (fun oj be =>
      loop n (fun i be => (e.read (i * (g.outI * g.outJ) + (oi * g.outJ + oj))).bind fun ev => be.addAt i ev) be) be) be

/-- `convolutional_back_prop_edge_popup_ff_gd_bp` (`/repo/src/convolutional.c` 319-365). -/
def gdBack (g : Geom) (x e : Arr R) (idx : Arr Nat) (n last : Nat) (hasBias : Bool) (s : Arr (Arr R) × Arr R) :
    Option (Arr (Arr R) × Arr R) :=
  (weights g x e idx n last s.1).bind fun ke => (if hasBias then biases g e n s.2 else some s.2).map fun be => (ke, be)

/-- `convolutional_back_prop_edge_popup_for_input` (`/repo/src/convolutional.c` 391-437). -/
def inputs (g : Geom) (ks : Arr (Arr R)) (e : Arr R) (idx : Arr Nat) (n last : Nat) (ie : Arr R) : Option (Arr R) :=
  loopFrom g.pad (g.outI - g.pad) (fun oi ie =>
    loopFrom g.pad (g.outJ - g.pad) (fun oj ie =>
      forSel idx (n * (g.ch * g.kI * g.kJ)) last (fun v ie => do
        let ev ← e.read (kerOf g.ch g.kI g.kJ v * (g.outI * g.outJ) + (oi * g.outJ + oj))
        let kv ← readK ks (kerOf g.ch g.kI g.kJ v) (v % (g.ch * g.kI * g.kJ))
        ie.addAt (g.xIdx oi oj (chanOf g.ch g.kI g.kJ v) (rowOf g.ch g.kI g.kJ v) (colOf g.ch g.kI g.kJ v)) (ev * kv)) ie) ie) ie

/-! ### Specification -/

open Classical in
/-- Kernel `q` (weights `q*m`, …, `q*m+m-1`) with every weight that is not among the last `last` of the order replaced by zero. -/
noncomputable def masked (idx : Nat → Nat) (T last m q : Nat) (w : Nat → R) (p : Nat) : R :=
  if Selected idx T last (q * m + p) then w p else 0

/-- Kernel arrays of `n` kernels with `m` weights each. -/
def HasK (ks : Arr (Arr R)) (n m : Nat) : Prop := n ≤ ks.len ∧ ∀ q, q < n → m ≤ (ks.get q).len

/-! ### Numbers of weights -/

theorem decode {ch kI kJ q c i j : Nat} (hc : c < ch) (hi : i < kI) (hj : j < kJ) :
    kerOf ch kI kJ (q * (ch * kI * kJ) + ix3 kI kJ c i j) = q ∧ chanOf ch kI kJ (q * (ch * kI * kJ) + ix3 kI kJ c i j) = c ∧
    rowOf ch kI kJ (q * (ch * kI * kJ) + ix3 kI kJ c i j) = i ∧ colOf ch kI kJ (q * (ch * kI * kJ) + ix3 kI kJ c i j) = j ∧
    (q * (ch * kI * kJ) + ix3 kI kJ c i j) % (ch * kI * kJ) = ix3 kI kJ c i j := by
  have h1 : ix3 kI kJ c i j < ch * kI * kJ := ix3_lt hc hi hj
  have h2 : i * kJ + j < kI * kJ := Vec.idx_lt hi hj
  have e0 : (q * (ch * kI * kJ) + ix3 kI kJ c i j) % (ch * kI * kJ) = ix3 kI kJ c i j := by
    rw [Nat.mul_comm q, Nat.mul_add_mod, Nat.mod_eq_of_lt h1]
  have e1 : ix3 kI kJ c i j = kI * kJ * c + (i * kJ + j) := by
    unfold ix3
    ring
  have e2 : ix3 kI kJ c i j % (kI * kJ) = i * kJ + j := by rw [e1, Nat.mul_add_mod, Nat.mod_eq_of_lt h2]
  refine ⟨?_, ?_, ?_, ?_, e0⟩
  · unfold kerOf
    rw [Nat.mul_comm q, Nat.mul_add_div (by omega), Nat.div_eq_of_lt h1, Nat.add_zero]
  · unfold chanOf
    rw [e0, e1, Nat.mul_add_div (by omega), Nat.div_eq_of_lt h2, Nat.add_zero]
  · unfold rowOf
    rw [e0, e2, Nat.mul_comm i, Nat.mul_add_div (by omega), Nat.div_eq_of_lt hj, Nat.add_zero]
  · unfold colOf
    rw [e0, e2, Nat.mul_comm i, Nat.mul_add_mod, Nat.mod_eq_of_lt hj]

theorem encode {n ch kI kJ v : Nat} (hv : v < n * (ch * kI * kJ)) :
    ∃ q c i j, q < n ∧ c < ch ∧ i < kI ∧ j < kJ ∧ v = q * (ch * kI * kJ) + ix3 kI kJ c i j := by
  have hm : 0 < ch * kI * kJ := by
    rcases Nat.eq_zero_or_pos (ch * kI * kJ) with h | h
    · rw [h] at hv
      omega
    · exact h
  have hJ : 0 < kJ := Nat.pos_of_mul_pos_left hm
  have hI : 0 < kI := Nat.pos_of_mul_pos_left (Nat.pos_of_mul_pos_right hm)
  have hr := Nat.mod_lt v hm
  refine ⟨v / (ch * kI * kJ), v % (ch * kI * kJ) / kJ / kI, v % (ch * kI * kJ) / kJ % kI, v % (ch * kI * kJ) % kJ,
    Nat.div_lt_of_lt_mul (by rwa [Nat.mul_comm]), ?_, Nat.mod_lt _ hI, Nat.mod_lt _ hJ, ?_⟩
  · refine Nat.div_lt_of_lt_mul (Nat.div_lt_of_lt_mul ?_)
    rw [show kJ * (kI * ch) = ch * kI * kJ by ring]
    exact hr
  · rw [ix3_eq, Nat.div_add_mod', Nat.div_add_mod', Nat.div_add_mod']

theorem sum_kernels {M : Type} [AddCommMonoid M] (n ch kI kJ : Nat) (f : Nat → M) :
    ∑ v ∈ range (n * (ch * kI * kJ)), f v =
      ∑ q ∈ range n, ∑ c ∈ range ch, ∑ i ∈ range kI, ∑ j ∈ range kJ, f (q * (ch * kI * kJ) + ix3 kI kJ c i j) := by
  rw [sum_rows]
  refine Finset.sum_congr rfl fun q _ => ?_
  rw [sum_rows (ch * kI) kJ, sum_rows ch kI]
  simp only [ix3_eq]

open Classical in
/-- The loop over the used weights, for a body that adds. -/
theorem forSel_act {σ M : Type} [AddCommMonoid M] {idx : Arr Nat} {n ch kI kJ last : Nat} (hl : last ≤ n * (ch * kI * kJ))
    (hi : IsOrder idx (n * (ch * kI * kJ))) {body : Nat → σ → Option σ} (act : M → σ) (D : Nat → Nat → Nat → Nat → M)
    (h : ∀ q c i j, q < n → c < ch → i < kI → j < kJ → ∀ m,
      body (q * (ch * kI * kJ) + ix3 kI kJ c i j) (act m) = some (act (m + D q c i j))) (m : M) :
    forSel idx (n * (ch * kI * kJ)) last body (act m) = some (act (m + ∑ q ∈ range n, ∑ c ∈ range ch, ∑ i ∈ range kI, ∑ j ∈ range kJ,
      if Selected idx.get (n * (ch * kI * kJ)) last (q * (ch * kI * kJ) + ix3 kI kJ c i j) then D q c i j else 0)) := by
  have key := loopFrom_act (Nat.sub_sub_self hl) (f := fun s st => (idx.read s).bind fun v => body v st) act
    (fun τ => (fun v => D (kerOf ch kI kJ v) (chanOf ch kI kJ v) (rowOf ch kI kJ v) (colOf ch kI kJ v)) (idx.get (n * (ch * kI * kJ) - last + τ)))
    (by
      intro τ hτ m
      have h1 := hi.1
      rw [Arr.read_eq (by omega)]
      simp only [Option.bind_some]
      obtain ⟨q, c, i, j, hq, hc, hi', hj, e⟩ := encode (hi.2.1 (n * (ch * kI * kJ) - last + τ) (by omega))
      obtain ⟨d1, d2, d3, d4, -⟩ := decode (q := q) hc hi' hj
      rw [e, d1, d2, d3, d4]
      exact h q c i j hq hc hi' hj m) m
  unfold forSel
  rw [key, selected_sum idx _ last hl hi (fun v => D (kerOf ch kI kJ v) (chanOf ch kI kJ v) (rowOf ch kI kJ v) (colOf ch kI kJ v)), sum_kernels]
  congr 3
  refine Finset.sum_congr rfl fun q _ => Finset.sum_congr rfl fun c hc => Finset.sum_congr rfl fun i hi => Finset.sum_congr rfl fun j hj => ?_
  obtain ⟨d1, d2, d3, d4, -⟩ := decode (q := q) (Finset.mem_range.1 hc) (Finset.mem_range.1 hi) (Finset.mem_range.1 hj)
  rw [d1, d2, d3, d4]

omit [CommRing R] in
theorem readK_eq {ks : Arr (Arr R)} {n m q p : Nat} (h : HasK ks n m) (hq : q < n) (hp : p < m) :
    readK ks q p = some ((ks.get q).get p) := by
  unfold readK
  rw [Arr.read_eq (by have := h.1; omega)]
  simp only [Option.bind_some]
  exact Arr.read_eq (by have := h.2 q hq; omega)

/-- The kernel errors with lengths `l` and contents `m`. -/
def actK (n : Nat) (l : Nat → Nat) (m : Nat → Nat → R) : Arr (Arr R) := ⟨n, fun q => ⟨l q, m q⟩⟩

theorem addK_eq {n : Nat} {l : Nat → Nat} {q p : Nat} (m : Nat → Nat → R) (v : R) (hq : q < n) (hp : p < l q) :
    addK (actK n l m) q p v = some (actK n l (m + Pi.single q (Pi.single p v))) := by
  unfold addK actK
  rw [Arr.read_mk _ _ hq]
  simp only [Option.bind_some]
  rw [Arr.addAt_mk _ _ _ hp]
  simp only [Option.bind_some]
  rw [Arr.write_eq _ (by exact hq)]
  congr 2
  funext q'
  by_cases h : q' = q
  · subst h
    simp
  · simp [h]

/-! ### Forward -/

theorem cells_lt {g : Geom} {n q r s : Nat} (hq : q < n) (hr : r < g.nI) (hs : s < g.nJ) :
    q * (g.outI * g.outJ) + cell g r s < n * (g.outI * g.outJ) := Vec.idx_lt hq (cell_lt g hr hs)

theorem corr_masked {g : Geom} (x w : Nat → R) (S : Nat → Prop) [DecidablePred S] (k : Nat → R) (hk : ∀ p, k p = if S p then w p else 0) (r s : Nat) :
    ∑ c ∈ range g.ch, ∑ i ∈ range g.kI, ∑ j ∈ range g.kJ, (if S (ix3 g.kI g.kJ c i j) then
      w (ix3 g.kI g.kJ c i j) * x (ix3 g.inI g.inJ c (r * g.s1 + i) (s * g.s2 + j)) else 0) = corr g x k 0 r s := by
  unfold corr
  rw [add_zero]
  refine Finset.sum_congr rfl fun c _ => Finset.sum_congr rfl fun i _ => Finset.sum_congr rfl fun j _ => ?_
  rw [hk]
  split_ifs <;> simp

/-- **C141, forward.** Every feature map gets the convolution with its kernel in which the weights that are not used are zero, without a bias;
nothing else is written. -/
theorem C141_forward (g : Geom) (hg : g.Ok) (x out bias : Arr R) (ks : Arr (Arr R)) (idx : Arr Nat) (n last : Nat)
    (hx : g.ch * g.inI * g.inJ ≤ x.len) (hk : HasK ks n (g.ch * g.kI * g.kJ)) (ho : n * (g.outI * g.outJ) ≤ out.len)
    (hl : last ≤ n * (g.ch * g.kI * g.kJ)) (hi : IsOrder idx (n * (g.ch * g.kI * g.kJ))) :
    ∃ out', ff g x ks bias idx n last out = some out' ∧ out'.len = out.len ∧
      (∀ q r s, q < n → r < g.nI → s < g.nJ → out'.get (q * (g.outI * g.outJ) + cell g r s) =
        out.get (q * (g.outI * g.outJ) + cell g r s) +
          corr g x.get (masked idx.get (n * (g.ch * g.kI * g.kJ)) last (g.ch * g.kI * g.kJ) q (ks.get q).get) 0 r s) ∧
      ∀ u, (∀ q r s, q < n → r < g.nI → s < g.nJ → u ≠ q * (g.outI * g.outJ) + cell g r s) → out'.get u = out.get u := by
  classical
  have hrun : ff g x ks bias idx n last out = some ⟨out.len, out.get + ∑ r ∈ range g.nI, ∑ s ∈ range g.nJ, ∑ q ∈ range n,
      ∑ c ∈ range g.ch, ∑ i ∈ range g.kI, ∑ j ∈ range g.kJ,
        if Selected idx.get (n * (g.ch * g.kI * g.kJ)) last (q * (g.ch * g.kI * g.kJ) + ix3 g.kI g.kJ c i j) then
          (Pi.single (q * (g.outI * g.outJ) + cell g r s)
            ((ks.get q).get (ix3 g.kI g.kJ c i j) * x.get (ix3 g.inI g.inJ c (r * g.s1 + i) (s * g.s2 + j))) : Nat → R) else 0⟩ := by
    refine loopFrom_act (loopI g) (Arr.mk out.len) _ ?_ out.get
    intro r hr m
    refine loopFrom_act (loopJ g) (Arr.mk out.len) _ ?_ m
    intro s hs m
    refine forSel_act hl hi (Arr.mk out.len) _ ?_ m
    intro q c i j hq hc hi' hj m
    obtain ⟨d1, d2, d3, d4, d5⟩ := decode (q := q) hc hi' hj
    have h2 := xIdx_lt g hg hr hs hc hi' hj
    have h3 := cells_lt hq hr hs
    rw [d1, d2, d3, d4, d5, readK_eq hk hq (ix3_lt hc hi' hj), Arr.read_eq (by omega)]
    simp only [Option.bind_eq_bind, Option.bind_some]
    unfold cell at h3
    rw [Arr.addAt_mk _ _ _ (by omega), xIdx_eq]
    rfl
  refine ⟨_, hrun, rfl, ?_, ?_⟩
  · intro q r s hq hr hs
    simp only [Pi.add_apply, Finset.sum_apply]
    congr 1
    rw [Finset.sum_eq_single r, Finset.sum_eq_single s, Finset.sum_eq_single q]
    · rw [← corr_masked x.get (ks.get q).get
        (fun p => Selected idx.get (n * (g.ch * g.kI * g.kJ)) last (q * (g.ch * g.kI * g.kJ) + p)) _ (fun p => by unfold masked; congr)]
      refine Finset.sum_congr rfl fun c _ => Finset.sum_congr rfl fun i _ => Finset.sum_congr rfl fun j _ => ?_
      split_ifs <;> simp
    · intro q' hq' hne
      refine Finset.sum_eq_zero fun c _ => Finset.sum_eq_zero fun i _ => Finset.sum_eq_zero fun j _ => ?_
      split_ifs
      · rw [Pi.single_apply, if_neg]
        exact fun h => hne (Vec.idx_inj (cell_lt g hr hs) (cell_lt g hr hs) h).1.symm
      · rfl
    · intro h
      exact absurd (Finset.mem_range.2 hq) h
    · intro s' hs' hne
      have hs'' := Finset.mem_range.1 hs'
      refine Finset.sum_eq_zero fun q' _ => Finset.sum_eq_zero fun c _ => Finset.sum_eq_zero fun i _ => Finset.sum_eq_zero fun j _ => ?_
      split_ifs
      · rw [Pi.single_apply, if_neg]
        intro h
        have := (Vec.idx_inj (cell_lt g hr hs) (cell_lt g hr hs'') h).2
        rw [cell_inj g hs hs''] at this
        exact hne this.2.symm
      · rfl
    · intro h
      exact absurd (Finset.mem_range.2 hs) h
    · intro r' hr' hne
      have hr'' := Finset.mem_range.1 hr'
      refine Finset.sum_eq_zero fun s' hs' => Finset.sum_eq_zero fun q' _ => Finset.sum_eq_zero fun c _ => Finset.sum_eq_zero fun i _ =>
        Finset.sum_eq_zero fun j _ => ?_
      have hs'' := Finset.mem_range.1 hs'
      split_ifs
      · rw [Pi.single_apply, if_neg]
        intro h
        have := (Vec.idx_inj (cell_lt g hr hs) (cell_lt g hr'' hs'') h).2
        rw [cell_inj g hs hs''] at this
        exact hne this.1.symm
      · rfl
    · intro h
      exact absurd (Finset.mem_range.2 hr) h
  · intro u hu
    simp only [Pi.add_apply, Finset.sum_apply]
    rw [Finset.sum_eq_zero, add_zero]
    refine fun r hr => Finset.sum_eq_zero fun s hs => Finset.sum_eq_zero fun q hq => Finset.sum_eq_zero fun c _ => Finset.sum_eq_zero fun i _ =>
      Finset.sum_eq_zero fun j _ => ?_
    split_ifs
    · rw [Pi.single_apply, if_neg (hu q r s (Finset.mem_range.1 hq) (Finset.mem_range.1 hr) (Finset.mem_range.1 hs))]
    · rfl

/-! ### Backward -/

/-- The upstream error of feature map `q`. -/
def mapErr (g : Geom) (e : Nat → R) (q : Nat) : Nat → R := fun u => e (q * (g.outI * g.outJ) + u)

theorem masked_update_sel {idx : Nat → Nat} {T last m q p : Nat} (w : Nat → R) (t : R) (h : Selected idx T last (q * m + p)) :
    masked idx T last m q (Function.update w p t) = Function.update (masked idx T last m q w) p t := by
  funext p'
  by_cases hp : p' = p
  · subst hp
    simp [masked, h]
  · simp [masked, Function.update_of_ne hp]

theorem masked_update_not {idx : Nat → Nat} {T last m q p : Nat} (w : Nat → R) (t : R) (h : ¬ Selected idx T last (q * m + p)) :
    masked idx T last m q (Function.update w p t) = masked idx T last m q w := by
  funext p'
  by_cases hp : p' = p
  · subst hp
    simp [masked, h]
  · simp [masked, Function.update_of_ne hp]

/-- **C141, training the used weights.** After the pass with gradient descent the error of every weight has grown by the derivative of the
error-weighted feature map in that weight; the unused ones by nothing. -/
theorem C141_weights (g : Geom) (hg : g.Ok) (x e : Arr ℝ) (ks ke : Arr (Arr ℝ)) (idx : Arr Nat) (n last : Nat)
    (hx : g.ch * g.inI * g.inJ ≤ x.len) (hke : HasK ke n (g.ch * g.kI * g.kJ)) (he : n * (g.outI * g.outJ) ≤ e.len)
    (hl : last ≤ n * (g.ch * g.kI * g.kJ)) (hi : IsOrder idx (n * (g.ch * g.kI * g.kJ))) :
    ∃ ke', weights g x e idx n last ke = some ke' ∧ ke'.len = ke.len ∧ (∀ q, (ke'.get q).len = (ke.get q).len) ∧
      ∀ q p, q < n → p < g.ch * g.kI * g.kJ →
        HasDerivAt (fun t => weighted g (mapErr g e.get q) x.get
          (masked idx.get (n * (g.ch * g.kI * g.kJ)) last (g.ch * g.kI * g.kJ) q (Function.update (ks.get q).get p t)) 0)
          ((ke'.get q).get p - (ke.get q).get p) ((ks.get q).get p) ∧
        (¬ Selected idx.get (n * (g.ch * g.kI * g.kJ)) last (q * (g.ch * g.kI * g.kJ) + p) → (ke'.get q).get p = (ke.get q).get p) := by
  classical
  have hrun : weights g x e idx n last (actK ke.len (fun q => (ke.get q).len) fun q => (ke.get q).get) =
      some (actK ke.len (fun q => (ke.get q).len) ((fun q => (ke.get q).get) + ∑ r ∈ range g.nI, ∑ s ∈ range g.nJ, ∑ q ∈ range n,
      ∑ c ∈ range g.ch, ∑ i ∈ range g.kI, ∑ j ∈ range g.kJ,
        if Selected idx.get (n * (g.ch * g.kI * g.kJ)) last (q * (g.ch * g.kI * g.kJ) + ix3 g.kI g.kJ c i j) then
          (Pi.single q (Pi.single (ix3 g.kI g.kJ c i j)
            (mapErr g e.get q (cell g r s) * x.get (ix3 g.inI g.inJ c (r * g.s1 + i) (s * g.s2 + j)))) : Nat → Nat → ℝ) else 0)) := by
    refine loopFrom_act (loopI g) (actK ke.len fun q => (ke.get q).len) _ ?_ _
    intro r hr m
    refine loopFrom_act (loopJ g) (actK ke.len fun q => (ke.get q).len) _ ?_ m
    intro s hs m
    refine forSel_act hl hi (actK ke.len fun q => (ke.get q).len) _ ?_ m
    intro q c i j hq hc hi' hj m
    obtain ⟨d1, d2, d3, d4, d5⟩ := decode (q := q) hc hi' hj
    have h1 : g.kIdx c i j < g.ch * g.kI * g.kJ := ix3_lt hc hi' hj
    have h2 := xIdx_lt g hg hr hs hc hi' hj
    have h3 := cells_lt hq hr hs
    have h4 := hke.1
    have h5 := hke.2 q hq
    unfold cell at h3
    rw [d1, d2, d3, d4, Arr.read_eq (by omega), Arr.read_eq (by omega)]
    simp only [Option.bind_eq_bind, Option.bind_some]
    rw [addK_eq _ _ (by omega) (by omega), xIdx_eq]
    rfl
  refine ⟨_, hrun, rfl, fun _ => rfl, fun q p hq hp => ?_⟩
  have hval : ∀ (f : Nat → Nat → ℝ), (((fun q => (ke.get q).get) + f) q p : ℝ) - (ke.get q).get p = f q p := by
    intro f
    simp
  have hsum : ((∑ r ∈ range g.nI, ∑ s ∈ range g.nJ, ∑ q ∈ range n, ∑ c ∈ range g.ch, ∑ i ∈ range g.kI, ∑ j ∈ range g.kJ,
        if Selected idx.get (n * (g.ch * g.kI * g.kJ)) last (q * (g.ch * g.kI * g.kJ) + ix3 g.kI g.kJ c i j) then
          (Pi.single q (Pi.single (ix3 g.kI g.kJ c i j)
            (mapErr g e.get q (cell g r s) * x.get (ix3 g.inI g.inJ c (r * g.s1 + i) (s * g.s2 + j)))) : Nat → Nat → ℝ) else 0) q p) =
      if Selected idx.get (n * (g.ch * g.kI * g.kJ)) last (q * (g.ch * g.kI * g.kJ) + p) then
        ∑ τ ∈ steps g, if p = kOf g τ then mapErr g e.get q (oOf g τ) * x.get (xOf g τ) else 0 else 0 := by
    simp only [Finset.sum_apply]
    have h1 : ∀ r s, ∑ q' ∈ range n, ∑ c ∈ range g.ch, ∑ i ∈ range g.kI, ∑ j ∈ range g.kJ,
        (if Selected idx.get (n * (g.ch * g.kI * g.kJ)) last (q' * (g.ch * g.kI * g.kJ) + ix3 g.kI g.kJ c i j) then
          (Pi.single q' (Pi.single (ix3 g.kI g.kJ c i j)
            (mapErr g e.get q' (cell g r s) * x.get (ix3 g.inI g.inJ c (r * g.s1 + i) (s * g.s2 + j)))) : Nat → Nat → ℝ) else 0) q p =
        ∑ c ∈ range g.ch, ∑ i ∈ range g.kI, ∑ j ∈ range g.kJ,
          if Selected idx.get (n * (g.ch * g.kI * g.kJ)) last (q * (g.ch * g.kI * g.kJ) + p) then
            (if p = ix3 g.kI g.kJ c i j then mapErr g e.get q (cell g r s) * x.get (ix3 g.inI g.inJ c (r * g.s1 + i) (s * g.s2 + j)) else 0) else 0 := by
      intro r s
      rw [Finset.sum_eq_single q]
      · refine Finset.sum_congr rfl fun c _ => Finset.sum_congr rfl fun i _ => Finset.sum_congr rfl fun j _ => ?_
        by_cases hp' : p = ix3 g.kI g.kJ c i j
        · rw [if_pos hp', ← hp']
          split_ifs <;> simp
        · rw [if_neg hp', ite_self]
          split_ifs
          · rw [Pi.single_eq_same, Pi.single_apply, if_neg hp']
          · rfl
      · intro q' _ hne
        refine Finset.sum_eq_zero fun c _ => Finset.sum_eq_zero fun i _ => Finset.sum_eq_zero fun j _ => ?_
        split_ifs
        · rw [Pi.single_apply, if_neg (Ne.symm hne)]
          rfl
        · rfl
      · intro h
        exact absurd (Finset.mem_range.2 hq) h
    simp only [h1]
    by_cases hsel : Selected idx.get (n * (g.ch * g.kI * g.kJ)) last (q * (g.ch * g.kI * g.kJ) + p)
    · simp only [if_pos hsel, steps, Finset.sum_product, oOf, xOf, kOf]
      refine Finset.sum_congr rfl fun r _ => Finset.sum_congr rfl fun s _ => Finset.sum_congr rfl fun c _ =>
        Finset.sum_congr rfl fun i _ => Finset.sum_congr rfl fun j _ => if_congr Iff.rfl rfl rfl
    · simp only [if_neg hsel, Finset.sum_const_zero]
  show HasDerivAt _ ((((fun q => (ke.get q).get) + _) q p : ℝ) - (ke.get q).get p) _ ∧ (_ → (((fun q => (ke.get q).get) + _) q p : ℝ) = (ke.get q).get p)
  rw [hval, hsum]
  by_cases hsel : Selected idx.get (n * (g.ch * g.kI * g.kJ)) last (q * (g.ch * g.kI * g.kJ) + p)
  · rw [if_pos hsel]
    refine ⟨?_, fun h => absurd hsel h⟩
    simp only [masked_update_sel _ _ hsel, weighted_steps]
    have := steps_deriv_w (steps g) (oOf g) (xOf g) (kOf g) (mapErr g e.get q) x.get
      (masked idx.get (n * (g.ch * g.kI * g.kJ)) last (g.ch * g.kI * g.kJ) q (ks.get q).get)
      ((∑ r ∈ range g.nI, ∑ s ∈ range g.nJ, mapErr g e.get q (cell g r s)) * 0) p
    rwa [show masked idx.get (n * (g.ch * g.kI * g.kJ)) last (g.ch * g.kI * g.kJ) q (ks.get q).get p = (ks.get q).get p by
      simp [masked, hsel]] at this
  · rw [if_neg hsel]
    refine ⟨?_, fun _ => ?_⟩
    · simp only [masked_update_not _ _ hsel]
      exact hasDerivAt_const _ _
    · have := hsum
      rw [if_neg hsel] at this
      simp only [Pi.add_apply]
      rw [this, add_zero]

/-- **C141, the error of the input.** It grows by the derivative, in every input, of the sum of the error-weighted feature maps, each computed
with its used weights. -/
theorem C141_inputs (g : Geom) (hg : g.Ok) (x e ie : Arr ℝ) (ks : Arr (Arr ℝ)) (idx : Arr Nat) (n last : Nat)
    (hie : g.ch * g.inI * g.inJ ≤ ie.len) (hk : HasK ks n (g.ch * g.kI * g.kJ)) (he : n * (g.outI * g.outJ) ≤ e.len)
    (hl : last ≤ n * (g.ch * g.kI * g.kJ)) (hi : IsOrder idx (n * (g.ch * g.kI * g.kJ))) :
    ∃ ie', inputs g ks e idx n last ie = some ie' ∧ ie'.len = ie.len ∧
      ∀ p, HasDerivAt (fun t => ∑ q ∈ range n, weighted g (mapErr g e.get q) (Function.update x.get p t)
          (masked idx.get (n * (g.ch * g.kI * g.kJ)) last (g.ch * g.kI * g.kJ) q (ks.get q).get) 0)
          (ie'.get p - ie.get p) (x.get p) := by
  classical
  have hrun : inputs g ks e idx n last ie = some ⟨ie.len, ie.get + ∑ r ∈ range g.nI, ∑ s ∈ range g.nJ, ∑ q ∈ range n,
      ∑ c ∈ range g.ch, ∑ i ∈ range g.kI, ∑ j ∈ range g.kJ,
        if Selected idx.get (n * (g.ch * g.kI * g.kJ)) last (q * (g.ch * g.kI * g.kJ) + ix3 g.kI g.kJ c i j) then
          (Pi.single (ix3 g.inI g.inJ c (r * g.s1 + i) (s * g.s2 + j))
            (mapErr g e.get q (cell g r s) * (ks.get q).get (ix3 g.kI g.kJ c i j)) : Nat → ℝ) else 0⟩ := by
    refine loopFrom_act (loopI g) (Arr.mk ie.len) _ ?_ ie.get
    intro r hr m
    refine loopFrom_act (loopJ g) (Arr.mk ie.len) _ ?_ m
    intro s hs m
    refine forSel_act hl hi (Arr.mk ie.len) _ ?_ m
    intro q c i j hq hc hi' hj m
    obtain ⟨d1, d2, d3, d4, d5⟩ := decode (q := q) hc hi' hj
    have h2 := xIdx_lt g hg hr hs hc hi' hj
    have h3 := cells_lt hq hr hs
    unfold cell at h3
    rw [d1, d2, d3, d4, d5, readK_eq hk hq (ix3_lt hc hi' hj), Arr.read_eq (by omega)]
    simp only [Option.bind_eq_bind, Option.bind_some]
    rw [Arr.addAt_mk _ _ _ (by omega), xIdx_eq]
    rfl
  refine ⟨_, hrun, rfl, fun p => ?_⟩
  simp only [weighted_steps, Pi.add_apply, add_sub_cancel_left, Finset.sum_apply]
  refine (HasDerivAt.fun_sum fun q _ => steps_deriv_x (steps g) (oOf g) (xOf g) (kOf g) (mapErr g e.get q) x.get
    (masked idx.get (n * (g.ch * g.kI * g.kJ)) last (g.ch * g.kI * g.kJ) q (ks.get q).get) _ p).congr_deriv ?_
  simp only [steps, Finset.sum_product, oOf, xOf, kOf]
  rw [Finset.sum_comm]
  refine Finset.sum_congr rfl fun r _ => ?_
  rw [Finset.sum_comm]
  refine Finset.sum_congr rfl fun s _ => Finset.sum_congr rfl fun q _ => Finset.sum_congr rfl fun c _ => Finset.sum_congr rfl fun i _ =>
    Finset.sum_congr rfl fun j _ => ?_
  unfold masked
  by_cases h : Selected idx.get (n * (g.ch * g.kI * g.kJ)) last (q * (g.ch * g.kI * g.kJ) + ix3 g.kI g.kJ c i j)
  · simp [h, Pi.single_apply]
  · simp [h]

/-- **C141, scores.** The error of the score of every weight of a kernel, used or not, grows by the derivative of the error-weighted
feature map in a factor on that weight (at any factors `f`). -/
theorem C141_scores (g : Geom) (hg : g.Ok) (x k e se : Arr ℝ) (f : Nat → ℝ)
    (hx : g.ch * g.inI * g.inJ ≤ x.len) (hk : g.ch * g.kI * g.kJ ≤ k.len) (he : g.outI * g.outJ ≤ e.len) (hse : g.ch * g.kI * g.kJ ≤ se.len) :
    ∃ se', scores g x k e se = some se' ∧ se'.len = se.len ∧
      ∀ p, HasDerivAt (fun t => weighted g e.get x.get (fun p' => k.get p' * Function.update f p t p') 0) (se'.get p - se.get p) (f p) := by
  have hrun : scores g x k e se = some ⟨se.len, se.get + ∑ r ∈ range g.nI, ∑ s ∈ range g.nJ,
      ∑ c ∈ range g.ch, ∑ i ∈ range g.kI, ∑ j ∈ range g.kJ, (Pi.single (ix3 g.kI g.kJ c i j)
          (e.get (cell g r s) * x.get (ix3 g.inI g.inJ c (r * g.s1 + i) (s * g.s2 + j)) * k.get (ix3 g.kI g.kJ c i j)) : Nat → ℝ)⟩ := by
    refine loopFrom_act (loopI g) (Arr.mk se.len) _ ?_ se.get
    intro r hr m
    refine loopFrom_act (loopJ g) (Arr.mk se.len) _ ?_ m
    intro s hs m
    refine loop_act (Arr.mk se.len) _ ?_ m
    intro c hc m
    refine loop_act (Arr.mk se.len) _ ?_ m
    intro i hi m
    refine loop_act (Arr.mk se.len) _ ?_ m
    intro j hj m
    have h1 := kIdx_lt g hc hi hj
    have h2 := xIdx_lt g hg hr hs hc hi hj
    have h3 := cell_lt g hr hs
    unfold cell at h3
    rw [Arr.read_eq (by omega), Arr.read_eq (by omega), Arr.read_eq (by omega)]
    simp only [Option.bind_eq_bind, Option.bind_some]
    rw [Arr.addAt_mk _ _ _ (by omega), xIdx_eq]
    rfl
  refine ⟨_, hrun, rfl, fun p => ?_⟩
  have hfun : ∀ t, (fun p' => k.get p' * Function.update f p t p') = Function.update (fun p' => k.get p' * f p') p (k.get p * t) := by
    intro t
    funext r
    by_cases h : r = p
    · subst h; simp
    · simp [Function.update_of_ne h]
  simp only [hfun, weighted_steps, Pi.add_apply, add_sub_cancel_left, Finset.sum_apply]
  have h := steps_deriv_w (steps g) (oOf g) (xOf g) (kOf g) e.get x.get (fun p' => k.get p' * f p')
    ((∑ r ∈ range g.nI, ∑ s ∈ range g.nJ, e.get (cell g r s)) * 0) p
  have hin : HasDerivAt (fun t : ℝ => k.get p * t) (k.get p * 1) (f p) := (hasDerivAt_id _).const_mul _
  refine (HasDerivAt.comp (f p) h hin).congr_deriv ?_
  simp only [steps, Finset.sum_product, oOf, xOf, kOf, Finset.sum_mul]
  refine Finset.sum_congr rfl fun r _ => Finset.sum_congr rfl fun s _ => Finset.sum_congr rfl fun c _ => Finset.sum_congr rfl fun i _ =>
    Finset.sum_congr rfl fun j _ => ?_
  by_cases h : p = ix3 g.kI g.kJ c i j
  · subst h
    simp
  · simp [h]

theorem biases_run (g : Geom) (e be : Arr R) (n : Nat) (he : n * (g.outI * g.outJ) ≤ e.len) (hbe : n ≤ be.len) :
    ∃ be', biases g e n be = some be' ∧ be'.len = be.len ∧
      (∀ q, q < n → be'.get q = be.get q + ∑ r ∈ range g.nI, ∑ s ∈ range g.nJ, mapErr g e.get q (cell g r s)) ∧
      ∀ q, n ≤ q → be'.get q = be.get q := by
  have hrun : biases g e n be = some ⟨be.len, be.get + ∑ r ∈ range g.nI, ∑ s ∈ range g.nJ, ∑ q ∈ range n,
      (Pi.single q (mapErr g e.get q (cell g r s)) : Nat → R)⟩ := by
    refine loopFrom_act (loopI g) (Arr.mk be.len) _ ?_ be.get
    intro r hr m
    refine loopFrom_act (loopJ g) (Arr.mk be.len) _ ?_ m
    intro s hs m
    refine loop_act (Arr.mk be.len) _ ?_ m
    intro q hq m
    have h3 := cells_lt hq hr hs
    unfold cell at h3
    rw [Arr.read_eq (by omega)]
    simp only [Option.bind_some]
    rw [Arr.addAt_mk _ _ _ (by omega)]
    rfl
  refine ⟨_, hrun, rfl, fun q hq => ?_, fun q hq => ?_⟩
  · simp only [Pi.add_apply, Finset.sum_apply, Pi.single_apply]
    congr 1
    refine Finset.sum_congr rfl fun r _ => Finset.sum_congr rfl fun s _ => ?_
    rw [Finset.sum_ite_eq, if_pos (Finset.mem_range.2 hq)]
  · simp only [Pi.add_apply, Finset.sum_apply, Pi.single_apply]
    rw [Finset.sum_eq_zero, add_zero]
    refine fun r _ => Finset.sum_eq_zero fun s _ => ?_
    rw [Finset.sum_ite_eq, if_neg (by simp; omega)]

/-- **C141 refuted for the biases.** The output does not depend on them, so every derivative in a bias is zero; yet the pass with gradient descent runs and
adds the sum of the errors of its feature map to the error of each bias. -/
theorem C141_bias_refuted (g : Geom) (hg : g.Ok) (x e be : Arr ℝ) (ke : Arr (Arr ℝ)) (idx : Arr Nat) (n last : Nat)
    (hx : g.ch * g.inI * g.inJ ≤ x.len) (hke : HasK ke n (g.ch * g.kI * g.kJ)) (he : n * (g.outI * g.outJ) ≤ e.len) (hbe : n ≤ be.len)
    (hl : last ≤ n * (g.ch * g.kI * g.kJ)) (hi : IsOrder idx (n * (g.ch * g.kI * g.kJ))) (q : Nat) (hq : q < n)
    (hne : ∑ r ∈ range g.nI, ∑ s ∈ range g.nJ, mapErr g e.get q (cell g r s) ≠ 0) :
    (∀ ks b b' out, ff g x ks b idx n last out = ff g x ks b' idx n last out) ∧
    ∃ ke' be', gdBack g x e idx n last true (ke, be) = some (ke', be') ∧ be'.get q ≠ be.get q := by
  refine ⟨fun _ _ _ _ => rfl, ?_⟩
  obtain ⟨ke', h1, -⟩ := C141_weights g hg x e ke ke idx n last hx hke he hl hi
  obtain ⟨be', h2, -, hv, -⟩ := biases_run g e be n he hbe
  refine ⟨ke', be', ?_, ?_⟩
  · unfold gdBack
    rw [h1]
    simp [h2]
  · rw [hv q hq]
    intro hc
    exact hne (add_eq_left.1 hc)

/-! ### Non-vacuity: two 1×2 kernels over a 2×3 image, three of the four weights used (number 2, the first weight of the second kernel, is not) -/

/-- The geometry: stride 1, no padding; the output has 2×2 cells per map. -/
def exG : Geom := ⟨2, 3, 1, 2, 1, 1, 1, 0⟩
/-- An array of rows. -/
def rows (l : List (List Int)) : Arr (Arr Int) := ⟨l.length, fun q => Arr.ofList (l.getD q [])⟩
/-- The kernels `[1, 2]` and `[3, 4]`. -/
def exK : Arr (Arr Int) := rows [[1, 2], [3, 4]]

theorem exOrder : IsOrder (Arr.ofList [2, 0, 3, 1]) 4 := by
  have h : ∀ p, p < 4 → ∀ p', p' < 4 → (Arr.ofList [2, 0, 3, 1]).get p = (Arr.ofList [2, 0, 3, 1]).get p' → p = p' := by decide
  exact ⟨by decide, by decide, fun p p' hp hp' => h p hp p' hp'⟩

example : exG.Ok ∧ IsOrder (Arr.ofList [2, 0, 3, 1]) (2 * (exG.ch * exG.kI * exG.kJ)) ∧ HasK exK 2 (exG.ch * exG.kI * exG.kJ) := by
  refine ⟨⟨by decide, by decide, by decide, by decide⟩, exOrder, by decide, by decide⟩

example :
    ((ff exG (Arr.ofList [1, 2, 3, 4, 5, 6]) exK (Arr.ofList [7, 7]) (Arr.ofList [2, 0, 3, 1]) 2 3 (⟨8, fun _ => 100⟩ : Arr Int)).map
      fun a => (List.range 8).map a.get) = some [105, 108, 114, 117, 108, 112, 120, 124] ∧
    ((inputs exG exK (⟨8, fun _ => 1⟩ : Arr Int) (Arr.ofList [2, 0, 3, 1]) 2 3 ⟨6, fun _ => 0⟩).map
      fun a => (List.range 6).map a.get) = some [1, 7, 6, 1, 7, 6] ∧
    ((gdBack exG (Arr.ofList [1, 2, 3, 4, 5, 6]) (⟨8, fun _ => 1⟩ : Arr Int) (Arr.ofList [2, 0, 3, 1]) 2 3 true
      (rows [[0, 0], [0, 0]], Arr.ofList [0, 0])).map
      fun s => ((List.range 2).map (s.1.get 0).get, (List.range 2).map (s.1.get 1).get, (List.range 2).map s.2.get)) =
        some ([12, 16], [0, 16], [4, 4]) ∧
    ((scores exG (Arr.ofList [1, 2, 3, 4, 5, 6]) (Arr.ofList [3, 4]) (⟨4, fun _ => 1⟩ : Arr Int) ⟨2, fun _ => 0⟩).map
      fun a => (List.range 2).map a.get) = some [36, 64] := by
  refine ⟨by decide +kernel, by decide +kernel, by decide +kernel, by decide +kernel⟩

end LLab.ConvPopup
