import Verif.Layers.TConv
import Verif.Layers.ConvPopup

/-!
Transposed convolutions of which only the best-scored weights are used (edge-popup), all feature maps at once
(`/repo/src/convolutional.c` 681-784, 890-975, 1001-1105, 1132-1226). Property C142.
-/

namespace LLab.TConvPopup

open Finset LLab.TConv LLab.ConvPopup LLab.EdgePopup

variable {R : Type} [CommRing R]

/-! ### Model -/

/-- The scatter loops (`/repo/src/convolutional.c` 733-744 and 753-764). -/
def scatterSel (g : TGeom) (x : Arr R) (ks : Arr (Arr R)) (idx : Arr Nat) (n last : Nat) (out : Arr R) : Option (Arr R) :=
  loop g.inI (fun oi out => loop g.inJ (fun oj out =>
    forSel idx (n * (g.ch * g.kI * g.kJ)) last (fun v out => do
      let xv ← x.read (g.xIdx (chanOf g.ch g.kI g.kJ v) oi oj)
      let kv ← readK ks (kerOf g.ch g.kI g.kJ v) (g.kIdx (chanOf g.ch g.kI g.kJ v) (rowOf g.ch g.kI g.kJ v) (colOf g.ch g.kI g.kJ v))
      out.addAt (kerOf g.ch g.kI g.kJ v * (g.outI * g.outJ) + g.oIdx oi oj (rowOf g.ch g.kI g.kJ v) (colOf g.ch g.kI g.kJ v)) (xv * kv)) out) out) out

/-- `transposed_convolutional_feed_forward_edge_popup` (`/repo/src/convolutional.c` 681-784, without the parts in comments). -/
def ff (g : TGeom) (x : Arr R) (ks : Arr (Arr R)) (bias : Arr R) (idx : Arr Nat) (n last : Nat) (out : Arr R) : Option (Arr R) :=
  if g.pad = 0 then do
    let out ← scatterSel g x ks idx n last out
    loop n (fun i out => loop (g.outI * g.outJ) (fun oi out => do
      let b ← bias.read i
      out.addAt (i * (g.outI * g.outJ) + oi) b) out) out
  else do
    let temp ← scatterSel g x ks idx n last ⟨n * (g.outI * g.outJ), fun _ => 0⟩
    loop n (fun i out => loopFrom g.pad (g.outI - g.pad) (fun oi out =>
      loopFrom g.pad (g.outJ - g.pad) (fun oj out => do
        let t ← temp.read (i * (g.outI * g.outJ) + (oi * g.outJ + oj))
        out.write (i * ((g.outI - 2 * g.pad) * (g.outJ - 2 * g.pad)) + ((oi - g.pad) * (g.outJ - 2 * g.pad) + (oj - g.pad))) t) out) out) out

/-- `temp`, the errors of all feature maps in their frames (`/repo/src/convolutional.c` 1072-1080, 1201-1209). -/
def frames (g : TGeom) (n : Nat) (e : Arr R) : Option (Arr R) :=
  loop n (fun i temp => loopFrom g.pad (g.outI - g.pad) (fun oi temp =>
    loopFrom g.pad (g.outJ - g.pad) (fun oj temp => do
      let ev ← e.read (i * ((g.outI - 2 * g.pad) * (g.outJ - 2 * g.pad)) + ((oi - g.pad) * (g.outJ - 2 * g.pad) + (oj - g.pad)))
      temp.write (i * (g.outI * g.outJ) + (oi * g.outJ + oj)) ev) temp) temp) ⟨n * (g.outI * g.outJ), fun _ => 0⟩

/-- The loops over the errors of the kernels (1049-1060, 1081-1092). -/
def weights (g : TGeom) (x e : Arr R) (idx : Arr Nat) (n last : Nat) (ke : Arr (Arr R)) : Option (Arr (Arr R)) :=
  loop g.inI (fun oi ke => loop g.inJ (fun oj ke =>
    forSel idx (n * (g.ch * g.kI * g.kJ)) last (fun v ke => do
      let xv ← x.read (g.xIdx (chanOf g.ch g.kI g.kJ v) oi oj)
      let ev ← e.read (kerOf g.ch g.kI g.kJ v * (g.outI * g.outJ) + g.oIdx oi oj (rowOf g.ch g.kI g.kJ v) (colOf g.ch g.kI g.kJ v))
      addK ke (kerOf g.ch g.kI g.kJ v) (g.kIdx (chanOf g.ch g.kI g.kJ v) (rowOf g.ch g.kI g.kJ v) (colOf g.ch g.kI g.kJ v)) (xv * ev)) ke) ke) ke

/-- The loops over the errors of the biases (1061-1067, 1093-1099). -/
def biases (g : TGeom) (e : Arr R) (n : Nat) (be : Arr R) : Option (Arr R) :=
  loop n (fun i be => loop (g.outI * g.outJ) (fun oi be => (e.read (i * (g.outI * g.outJ) + oi)).bind fun ev => be.addAt i ev) be) be

/-- `transposed_convolutional_back_prop_edge_popup_ff_gd_bp` (`/repo/src/convolutional.c` 1001-1105). -/
def gdBack (g : TGeom) (x e : Arr R) (idx : Arr Nat) (n last : Nat) (hasBias : Bool) (s : Arr (Arr R) × Arr R) :
    Option (Arr (Arr R) × Arr R) :=
  (if g.pad = 0 then some e else frames g n e : Option (Arr R)).bind fun e' =>
    (weights g x e' idx n last s.1).bind fun ke => (if hasBias then biases g e' n s.2 else some s.2).map fun be => (ke, be)

/-- `transposed_convolutional_back_prop_edge_popup_for_input` (`/repo/src/convolutional.c` 1132-1226). -/
def inputs (g : TGeom) (ks : Arr (Arr R)) (e : Arr R) (idx : Arr Nat) (n last : Nat) (ie : Arr R) : Option (Arr R) :=
  (if g.pad = 0 then some e else frames g n e : Option (Arr R)).bind fun e' =>
    loop g.inI (fun oi ie => loop g.inJ (fun oj ie =>
      forSel idx (n * (g.ch * g.kI * g.kJ)) last (fun v ie => do
        let kv ← readK ks (kerOf g.ch g.kI g.kJ v) (g.kIdx (chanOf g.ch g.kI g.kJ v) (rowOf g.ch g.kI g.kJ v) (colOf g.ch g.kI g.kJ v))
        let ev ← e'.read (kerOf g.ch g.kI g.kJ v * (g.outI * g.outJ) + g.oIdx oi oj (rowOf g.ch g.kI g.kJ v) (colOf g.ch g.kI g.kJ v))
        ie.addAt (g.xIdx (chanOf g.ch g.kI g.kJ v) oi oj) (kv * ev)) ie) ie) ie

/-- `transposed_convolutional_back_prop_edge_popup` (`/repo/src/convolutional.c` 890-975): the errors of the scores of one kernel. -/
def scores (g : TGeom) (x k e : Arr R) (se : Arr R) : Option (Arr R) :=
  (if g.pad = 0 then some e else frame g e : Option (Arr R)).bind fun e' =>
    loop g.inI (fun oi se => loop g.inJ (fun oj se => loop g.ch (fun c se =>
      loop g.kI (fun i se => loop g.kJ (fun j se => do
        let kv ← k.read (g.kIdx c i j)
        let xv ← x.read (g.xIdx c oi oj)
        let ev ← e'.read (g.oIdx oi oj i j)
        se.addAt (g.kIdx c i j) (kv * xv * ev)) se) se) se) se) se

/-! ### Specification -/

/-- The upstream error of feature map `q`. -/
def mapErr (g : TGeom) (e : Nat → R) (q : Nat) : Nat → R := fun u => e (q * ((g.outI - 2 * g.pad) * (g.outJ - 2 * g.pad)) + u)

/-! ### Loops of writes -/

omit [CommRing R] in
theorem loop3_write {n A B : Nat} {f : Nat → Nat → Nat → Arr R → Option (Arr R)}
    (addr : Nat → Nat → Nat → Nat) (val : Nat → Nat → Nat → R) (a : Arr R)
    (hf : ∀ q, q < n → ∀ r, r < A → ∀ s, s < B → ∀ b : Arr R, b.len = a.len → f q r s b = b.write (addr q r s) (val q r s))
    (hlt : ∀ q, q < n → ∀ r, r < A → ∀ s, s < B → addr q r s < a.len)
    (hinj : ∀ q, q < n → ∀ r, r < A → ∀ s, s < B → ∀ q', q' < n → ∀ r', r' < A → ∀ s', s' < B →
      addr q r s = addr q' r' s' → q = q' ∧ r = r' ∧ s = s') :
    ∃ a', loop n (fun q b => loop A (fun r b => loop B (fun s b => f q r s b) b) b) a = some a' ∧ a'.len = a.len ∧
      (∀ q, q < n → ∀ r, r < A → ∀ s, s < B → a'.get (addr q r s) = val q r s) ∧
      (∀ u, (∀ q, q < n → ∀ r, r < A → ∀ s, s < B → u ≠ addr q r s) → a'.get u = a.get u) := by
  obtain ⟨a', e', h1, h2, h3⟩ := loop_inv (n := n) (f := fun q b => loop A (fun r b => loop B (fun s b => f q r s b) b) b) (s := a)
    (fun m b => b.len = a.len ∧ (∀ q, q < m → q < n → ∀ r, r < A → ∀ s, s < B → b.get (addr q r s) = val q r s) ∧
      (∀ u, (∀ q, q < m → q < n → ∀ r, r < A → ∀ s, s < B → u ≠ addr q r s) → b.get u = a.get u))
    ⟨rfl, by intro q h; omega, by intros; rfl⟩ (by
      rintro q hq b ⟨h1, h2, h3⟩
      obtain ⟨b', e', g1, g2, g3⟩ := loop2_write (A := A) (B := B) (f := f q) (addr q) (val q) b
        (fun r hr s hs c hc => hf q hq r hr s hs c (hc.trans h1)) (fun r hr s hs => h1.symm ▸ hlt q hq r hr s hs)
        (fun r hr s hs r' hr' s' hs' h => (hinj q hq r hr s hs q hq r' hr' s' hs' h).2)
      refine ⟨b', e', g1.trans h1, fun q' hq' hn r hr s hs => ?_, fun u hu => ?_⟩
      · rcases Nat.lt_succ_iff_lt_or_eq.1 hq' with h | h
        · rw [g3 _ fun r' hr' s' hs' hc => ?_, h2 q' h hn r hr s hs]
          have := (hinj q' hn r hr s hs q hq r' hr' s' hs' hc).1
          omega
        · subst h
          exact g2 r hr s hs
      · rw [g3 u fun r hr s hs => hu q (by omega) hq r hr s hs, h3 u fun q' h hn => hu q' (by omega) hn])
  exact ⟨a', e', h1, fun q hq => h2 q hq hq, fun u hu => h3 u fun q hq _ => hu q hq⟩

/-! ### Forward -/

theorem omap_lt {g : TGeom} {n q oi oj i j : Nat} (hq : q < n) (h1 : oi < g.inI) (h2 : oj < g.inJ) (hi : i < g.kI) (hj : j < g.kJ) :
    q * (g.outI * g.outJ) + g.oIdx oi oj i j < n * (g.outI * g.outJ) := Vec.idx_lt hq (oIdx_lt g h1 h2 hi hj)

theorem scatterSel_eq (g : TGeom) (x : Arr R) (ks : Arr (Arr R)) (idx : Arr Nat) (n last : Nat) (out : Arr R)
    (hx : g.ch * g.inI * g.inJ ≤ x.len) (hk : HasK ks n (g.ch * g.kI * g.kJ)) (ho : n * (g.outI * g.outJ) ≤ out.len)
    (hl : last ≤ n * (g.ch * g.kI * g.kJ)) (hi : IsOrder idx (n * (g.ch * g.kI * g.kJ))) :
    ∃ out', scatterSel g x ks idx n last out = some out' ∧ out'.len = out.len ∧
      (∀ q u, q < n → u < g.outI * g.outJ → out'.get (q * (g.outI * g.outJ) + u) = out.get (q * (g.outI * g.outJ) + u) +
        ∑ τ ∈ steps g, if u = oOf g τ then x.get (xOf g τ) *
          masked idx.get (n * (g.ch * g.kI * g.kJ)) last (g.ch * g.kI * g.kJ) q (ks.get q).get (kOf g τ) else 0) ∧
      ∀ u, n * (g.outI * g.outJ) ≤ u → out'.get u = out.get u := by
  classical
  have hrun : scatterSel g x ks idx n last out = some ⟨out.len, out.get + ∑ oi ∈ range g.inI, ∑ oj ∈ range g.inJ, ∑ q ∈ range n,
      ∑ c ∈ range g.ch, ∑ i ∈ range g.kI, ∑ j ∈ range g.kJ,
        if Selected idx.get (n * (g.ch * g.kI * g.kJ)) last (q * (g.ch * g.kI * g.kJ) + ix3 g.kI g.kJ c i j) then
          (Pi.single (q * (g.outI * g.outJ) + g.oIdx oi oj i j)
            (x.get (ix3 g.inI g.inJ c oi oj) * (ks.get q).get (ix3 g.kI g.kJ c i j)) : Nat → R) else 0⟩ := by
    refine loop_act (Arr.mk out.len) _ ?_ out.get
    intro oi hoi m
    refine loop_act (Arr.mk out.len) _ ?_ m
    intro oj hoj m
    refine forSel_act hl hi (Arr.mk out.len) _ ?_ m
    intro q c i j hq hc hi' hj m
    obtain ⟨d1, d2, d3, d4, d5⟩ := decode (q := q) hc hi' hj
    have h1 : g.kIdx c i j < g.ch * g.kI * g.kJ := ix3_lt hc hi' hj
    have h2 : g.xIdx c oi oj < g.ch * g.inI * g.inJ := ix3_lt hc hoi hoj
    have h3 := omap_lt hq hoi hoj hi' hj
    rw [d1, d2, d3, d4, readK_eq hk hq h1, Arr.read_eq (by omega)]
    simp only [Option.bind_eq_bind, Option.bind_some]
    rw [Arr.addAt_mk _ _ _ (by omega)]
    rfl
  have happ : ∀ u, (out.get + ∑ oi ∈ range g.inI, ∑ oj ∈ range g.inJ, ∑ q ∈ range n,
      ∑ c ∈ range g.ch, ∑ i ∈ range g.kI, ∑ j ∈ range g.kJ,
        if Selected idx.get (n * (g.ch * g.kI * g.kJ)) last (q * (g.ch * g.kI * g.kJ) + ix3 g.kI g.kJ c i j) then
          (Pi.single (q * (g.outI * g.outJ) + g.oIdx oi oj i j)
            (x.get (ix3 g.inI g.inJ c oi oj) * (ks.get q).get (ix3 g.kI g.kJ c i j)) : Nat → R) else 0) u =
      out.get u + ∑ oi ∈ range g.inI, ∑ oj ∈ range g.inJ, ∑ q ∈ range n, ∑ c ∈ range g.ch, ∑ i ∈ range g.kI, ∑ j ∈ range g.kJ,
        if u = q * (g.outI * g.outJ) + g.oIdx oi oj i j then x.get (ix3 g.inI g.inJ c oi oj) *
          masked idx.get (n * (g.ch * g.kI * g.kJ)) last (g.ch * g.kI * g.kJ) q (ks.get q).get (ix3 g.kI g.kJ c i j) else 0 := by
    intro u
    simp only [Pi.add_apply, Finset.sum_apply]
    congr 1
    refine Finset.sum_congr rfl fun oi _ => Finset.sum_congr rfl fun oj _ => Finset.sum_congr rfl fun q _ =>
      Finset.sum_congr rfl fun c _ => Finset.sum_congr rfl fun i _ => Finset.sum_congr rfl fun j _ => ?_
    unfold masked
    by_cases h : Selected idx.get (n * (g.ch * g.kI * g.kJ)) last (q * (g.ch * g.kI * g.kJ) + ix3 g.kI g.kJ c i j)
    · simp [h, Pi.single_apply]
    · simp [h]
  refine ⟨_, hrun, rfl, fun q u hq hu => ?_, fun u hu => ?_⟩
  · show (out.get + _) _ = _
    rw [happ]
    congr 1
    simp only [steps, Finset.sum_product, oOf, xOf, kOf]
    refine Finset.sum_congr rfl fun oi hoi => Finset.sum_congr rfl fun oj hoj => ?_
    rw [Finset.sum_eq_single q]
    · refine Finset.sum_congr rfl fun c _ => Finset.sum_congr rfl fun i _ => Finset.sum_congr rfl fun j _ => ?_
      exact if_congr (by omega) rfl rfl
    · intro q' _ hne
      refine Finset.sum_eq_zero fun c _ => Finset.sum_eq_zero fun i hi' => Finset.sum_eq_zero fun j hj => ?_
      rw [if_neg]
      intro hc
      have := oIdx_lt g (Finset.mem_range.1 hoi) (Finset.mem_range.1 hoj) (Finset.mem_range.1 hi') (Finset.mem_range.1 hj)
      exact hne (Vec.idx_inj hu this hc).1.symm
    · intro h
      exact absurd (Finset.mem_range.2 hq) h
  · show (out.get + _) _ = _
    rw [happ, Finset.sum_eq_zero, add_zero]
    refine fun oi hoi => Finset.sum_eq_zero fun oj hoj => Finset.sum_eq_zero fun q hq => Finset.sum_eq_zero fun c _ =>
      Finset.sum_eq_zero fun i hi' => Finset.sum_eq_zero fun j hj => ?_
    have := omap_lt (Finset.mem_range.1 hq) (Finset.mem_range.1 hoi) (Finset.mem_range.1 hoj) (Finset.mem_range.1 hi') (Finset.mem_range.1 hj)
    rw [if_neg (by omega)]

/-- **C142, forward.** Every feature map is the transposed convolution with its used weights: without padding it is added to the output together with the bias of
the map; with padding its central part is stored, and the bias is left out. Nothing past the output is touched. -/
theorem C142_forward (g : TGeom) (x out bias : Arr R) (ks : Arr (Arr R)) (idx : Arr Nat) (n last : Nat)
    (hx : g.ch * g.inI * g.inJ ≤ x.len) (hk : HasK ks n (g.ch * g.kI * g.kJ)) (hb : n ≤ bias.len)
    (ho : n * ((g.outI - 2 * g.pad) * (g.outJ - 2 * g.pad)) ≤ out.len)
    (hl : last ≤ n * (g.ch * g.kI * g.kJ)) (hi : IsOrder idx (n * (g.ch * g.kI * g.kJ))) :
    ∃ out', ff g x ks bias idx n last out = some out' ∧ out'.len = out.len ∧
      (∀ q a b, q < n → a < g.outI - 2 * g.pad → b < g.outJ - 2 * g.pad →
        out'.get (q * ((g.outI - 2 * g.pad) * (g.outJ - 2 * g.pad)) + (a * (g.outJ - 2 * g.pad) + b)) =
          (if g.pad = 0 then out.get (q * ((g.outI - 2 * g.pad) * (g.outJ - 2 * g.pad)) + (a * (g.outJ - 2 * g.pad) + b)) + bias.get q else 0) +
            tconv g x.get (masked idx.get (n * (g.ch * g.kI * g.kJ)) last (g.ch * g.kI * g.kJ) q (ks.get q).get) (g.pad + a) (g.pad + b)) ∧
      ∀ u, n * ((g.outI - 2 * g.pad) * (g.outJ - 2 * g.pad)) ≤ u → out'.get u = out.get u := by
  unfold ff
  by_cases hp : g.pad = 0
  · rw [if_pos hp]
    simp only [hp, Nat.mul_zero, Nat.sub_zero, if_true, Nat.zero_add] at ho ⊢
    obtain ⟨o1, e1, l1, v1, w1⟩ := scatterSel_eq g x ks idx n last out hx hk ho hl hi
    rw [e1]
    simp only [Option.bind_eq_bind, Option.bind_some]
    have hrun : loop n (fun i out => loop (g.outI * g.outJ) (fun oi out => (bias.read i).bind fun b =>
        out.addAt (i * (g.outI * g.outJ) + oi) b) out) o1 = some ⟨o1.len, o1.get + ∑ i ∈ range n, ∑ oi ∈ range (g.outI * g.outJ),
          (Pi.single (i * (g.outI * g.outJ) + oi) (bias.get i) : Nat → R)⟩ := by
      refine loop_act (Arr.mk o1.len) _ ?_ o1.get
      intro i hi' m
      refine loop_act (Arr.mk o1.len) _ ?_ m
      intro oi hoi m
      have := Vec.idx_lt hi' hoi
      rw [Arr.read_eq (by omega)]
      simp only [Option.bind_some]
      rw [Arr.addAt_mk _ _ _ (by omega)]
    refine ⟨_, hrun, l1, fun q a b hq ha hb' => ?_, fun u hu => ?_⟩
    · have hu := Vec.idx_lt ha hb'
      simp only [Pi.add_apply, Finset.sum_apply, Pi.single_apply]
      rw [v1 q _ hq hu, tconv_steps g _ _ a b hb', Finset.sum_eq_single q, Finset.sum_eq_single (a * g.outJ + b), if_pos rfl]
      · ring
      · intro oi _ hne
        rw [if_neg (by omega)]
      · intro h
        exact absurd (Finset.mem_range.2 hu) h
      · intro q' _ hne
        refine Finset.sum_eq_zero fun oi hoi => ?_
        rw [if_neg]
        intro hc
        exact hne (Vec.idx_inj hu (Finset.mem_range.1 hoi) hc).1.symm
      · intro h
        exact absurd (Finset.mem_range.2 hq) h
    · simp only [Pi.add_apply, Finset.sum_apply, Pi.single_apply]
      rw [w1 u hu, Finset.sum_eq_zero, add_zero]
      refine fun q hq => Finset.sum_eq_zero fun oi hoi => ?_
      have := Vec.idx_lt (Finset.mem_range.1 hq) (Finset.mem_range.1 hoi)
      rw [if_neg (by omega)]
  · rw [if_neg hp]
    obtain ⟨o1, e1, l1, v1, w1⟩ := scatterSel_eq g x ks idx n last ⟨n * (g.outI * g.outJ), fun _ => 0⟩ hx hk le_rfl hl hi
    rw [e1]
    simp only [Option.bind_eq_bind, Option.bind_some]
    have hA : g.outI - g.pad - g.pad = g.outI - 2 * g.pad := by omega
    have hB : g.outJ - g.pad - g.pad = g.outJ - 2 * g.pad := by omega
    obtain ⟨out', e', h1, h2, h3⟩ := loop3_write (n := n) (A := g.outI - 2 * g.pad) (B := g.outJ - 2 * g.pad)
      (f := fun q r s out => (o1.read (q * (g.outI * g.outJ) + ((g.pad + r) * g.outJ + (g.pad + s)))).bind fun t =>
          out.write (q * ((g.outI - 2 * g.pad) * (g.outJ - 2 * g.pad)) +
            ((g.pad + r - g.pad) * (g.outJ - 2 * g.pad) + (g.pad + s - g.pad))) t)
      (fun q r s => q * ((g.outI - 2 * g.pad) * (g.outJ - 2 * g.pad)) + (r * (g.outJ - 2 * g.pad) + s))
      (fun q r s => tconv g x.get (masked idx.get (n * (g.ch * g.kI * g.kJ)) last (g.ch * g.kI * g.kJ) q (ks.get q).get)
        (g.pad + r) (g.pad + s)) out
      (by
        intro q hq r hr s hs b hb
        have hin : (g.pad + r) * g.outJ + (g.pad + s) < g.outI * g.outJ := Vec.idx_lt (by omega) (by omega)
        have := Vec.idx_lt hq hin
        rw [Arr.read_eq (by rw [l1]; exact this)]
        simp only [Option.bind_some]
        rw [v1 q _ hq hin, tconv_steps g _ _ _ _ (by omega), zero_add, Nat.add_sub_cancel_left, Nat.add_sub_cancel_left])
      (by
        intro q hq r hr s hs
        exact lt_of_lt_of_le (Vec.idx_lt hq (Vec.idx_lt hr hs)) ho)
      (by
        intro q hq r hr s hs q' hq' r' hr' s' hs' h
        have h1 := Vec.idx_inj (Vec.idx_lt hr hs) (Vec.idx_lt hr' hs') h
        exact ⟨h1.1, Vec.idx_inj hs hs' h1.2⟩)
    refine ⟨out', ?_, h1, ?_, ?_⟩
    · unfold loopFrom
      rw [hA, hB]
      exact e'
    · intro q a b hq ha hb'
      rw [h2 q hq a ha b hb', if_neg hp, zero_add]
    · intro u hu
      refine h3 u fun q hq r hr s hs hc => ?_
      have := Vec.idx_lt hq (Vec.idx_lt hr hs)
      omega

/-! ### Backward -/

theorem frames_eq (g : TGeom) (n : Nat) (e : Arr R) (he : n * ((g.outI - 2 * g.pad) * (g.outJ - 2 * g.pad)) ≤ e.len) :
    ∃ t, frames g n e = some t ∧ t.len = n * (g.outI * g.outJ) ∧
      ∀ q u, q < n → u < g.outI * g.outJ → t.get (q * (g.outI * g.outJ) + u) = full g (mapErr g e.get q) u := by
  have hA : g.outI - g.pad - g.pad = g.outI - 2 * g.pad := by omega
  have hB : g.outJ - g.pad - g.pad = g.outJ - 2 * g.pad := by omega
  have hin : ∀ r s, r < g.outI - 2 * g.pad → s < g.outJ - 2 * g.pad → (g.pad + r) * g.outJ + (g.pad + s) < g.outI * g.outJ :=
    fun r s hr hs => Vec.idx_lt (by omega) (by omega)
  obtain ⟨t, e', h1, h2, h3⟩ := loop3_write (n := n) (A := g.outI - 2 * g.pad) (B := g.outJ - 2 * g.pad)
    (f := fun q r s t => (e.read (q * ((g.outI - 2 * g.pad) * (g.outJ - 2 * g.pad)) +
        ((g.pad + r - g.pad) * (g.outJ - 2 * g.pad) + (g.pad + s - g.pad)))).bind
      fun ev => t.write (q * (g.outI * g.outJ) + ((g.pad + r) * g.outJ + (g.pad + s))) ev)
    (fun q r s => q * (g.outI * g.outJ) + ((g.pad + r) * g.outJ + (g.pad + s)))
    (fun q r s => mapErr g e.get q (r * (g.outJ - 2 * g.pad) + s)) ⟨n * (g.outI * g.outJ), fun _ => 0⟩
    (by
      intro q hq r hr s hs b hb
      have h := lt_of_lt_of_le (Vec.idx_lt hq (Vec.idx_lt hr hs)) he
      rw [Nat.add_sub_cancel_left, Nat.add_sub_cancel_left, Arr.read_eq h]
      rfl)
    (fun q hq r hr s hs => Vec.idx_lt hq (hin r s hr hs))
    (by
      intro q hq r hr s hs q' hq' r' hr' s' hs' h
      have h1 := Vec.idx_inj (hin r s hr hs) (hin r' s' hr' hs') h
      have h2 := Vec.idx_inj (by omega) (by omega) h1.2
      omega)
  refine ⟨t, ?_, h1, ?_⟩
  · unfold frames loopFrom
    rw [hA, hB]
    exact e'
  · intro q u hq hu
    have hJ : 0 < g.outJ := by
      rcases Nat.eq_zero_or_pos g.outJ with h | h
      · rw [h] at hu; simp at hu
      · exact h
    have hue : u / g.outJ * g.outJ + u % g.outJ = u := Nat.div_add_mod' u g.outJ
    unfold full
    split_ifs with h
    · obtain ⟨⟨a1, a2⟩, a3, a4⟩ := h
      have := h2 q hq (u / g.outJ - g.pad) (by omega) (u % g.outJ - g.pad) (by omega)
      rw [Nat.add_sub_cancel' a1, Nat.add_sub_cancel' a3, hue] at this
      exact this
    · apply h3
      intro q' hq' r hr s hs hc
      apply h
      have hc' := (Vec.idx_inj hu (hin r s hr hs) hc).2
      rw [← hue] at hc'
      have := Vec.idx_inj (Nat.mod_lt u hJ) (by omega) hc'
      omega

/-- The error used by the backward loops, in both branches. -/
theorem framed (g : TGeom) (n : Nat) (e : Arr R) (he : n * ((g.outI - 2 * g.pad) * (g.outJ - 2 * g.pad)) ≤ e.len) :
    ∃ t, (if g.pad = 0 then some e else frames g n e : Option (Arr R)) = some t ∧ n * (g.outI * g.outJ) ≤ t.len ∧
      ∀ q u, q < n → u < g.outI * g.outJ → t.get (q * (g.outI * g.outJ) + u) = full g (mapErr g e.get q) u := by
  by_cases hp : g.pad = 0
  · rw [if_pos hp]
    refine ⟨e, rfl, ?_, fun q u _ hu => ?_⟩
    · simpa [hp] using he
    · rw [full_zero g _ hp u hu]
      simp [mapErr, hp]
  · rw [if_neg hp]
    obtain ⟨t, h1, h2, h3⟩ := frames_eq g n e he
    exact ⟨t, h1, h2.ge, h3⟩

theorem biases_run (g : TGeom) (e be : Arr R) (n : Nat) (he : n * (g.outI * g.outJ) ≤ e.len) (hbe : n ≤ be.len) :
    ∃ be', biases g e n be = some be' ∧ be'.len = be.len ∧
      ∀ q, q < n → be'.get q = be.get q + ∑ u ∈ range (g.outI * g.outJ), e.get (q * (g.outI * g.outJ) + u) := by
  have hrun : biases g e n be = some ⟨be.len, be.get + ∑ q ∈ range n, ∑ u ∈ range (g.outI * g.outJ),
      (Pi.single q (e.get (q * (g.outI * g.outJ) + u)) : Nat → R)⟩ := by
    refine loop_act (Arr.mk be.len) _ ?_ be.get
    intro q hq m
    refine loop_act (Arr.mk be.len) _ ?_ m
    intro u hu m
    have := Vec.idx_lt hq hu
    rw [Arr.read_eq (by omega)]
    simp only [Option.bind_some]
    rw [Arr.addAt_mk _ _ _ (by omega)]
  refine ⟨_, hrun, rfl, fun q hq => ?_⟩
  simp only [Pi.add_apply, Finset.sum_apply, Pi.single_apply]
  congr 1
  rw [Finset.sum_eq_single q]
  · simp
  · intro q' _ hne
    exact Finset.sum_eq_zero fun u _ => if_neg (Ne.symm hne)
  · intro h
    exact absurd (Finset.mem_range.2 hq) h

theorem sum_full (g : TGeom) (e : Nat → R) :
    ∑ u ∈ range (g.outI * g.outJ), full g e u =
      ∑ a ∈ range (g.outI - 2 * g.pad), ∑ b ∈ range (g.outJ - 2 * g.pad), e (a * (g.outJ - 2 * g.pad) + b) := by
  have h := weighted_full g e (fun _ => 0) (fun _ => 0) 1
  simp only [mul_zero, Finset.sum_const_zero, add_zero, mul_one] at h
  rw [← h]
  simp [weighted, tconv]

/-- **C142, training the used weights.** The error of every weight of every kernel grows by the derivative of its error-weighted feature map in that
weight; the unused ones by nothing. Without padding the errors of the biases grow by the derivative in the bias. -/
theorem C142_weights (g : TGeom) (x e be : Arr ℝ) (ks ke : Arr (Arr ℝ)) (idx : Arr Nat) (n last : Nat)
    (hx : g.ch * g.inI * g.inJ ≤ x.len) (hke : HasK ke n (g.ch * g.kI * g.kJ)) (hbe : n ≤ be.len)
    (he : n * ((g.outI - 2 * g.pad) * (g.outJ - 2 * g.pad)) ≤ e.len)
    (hl : last ≤ n * (g.ch * g.kI * g.kJ)) (hi : IsOrder idx (n * (g.ch * g.kI * g.kJ))) :
    ∃ ke' be', gdBack g x e idx n last true (ke, be) = some (ke', be') ∧ ke'.len = ke.len ∧ (∀ q, (ke'.get q).len = (ke.get q).len) ∧
      (∀ q p, q < n → p < g.ch * g.kI * g.kJ → ∀ b,
        HasDerivAt (fun t => weighted g (mapErr g e.get q) x.get
          (masked idx.get (n * (g.ch * g.kI * g.kJ)) last (g.ch * g.kI * g.kJ) q (Function.update (ks.get q).get p t)) b)
          ((ke'.get q).get p - (ke.get q).get p) ((ks.get q).get p) ∧
        (¬ Selected idx.get (n * (g.ch * g.kI * g.kJ)) last (q * (g.ch * g.kI * g.kJ) + p) → (ke'.get q).get p = (ke.get q).get p)) ∧
      ∀ q, q < n → ∀ k b, HasDerivAt (fun t => weighted g (mapErr g e.get q) x.get k t) (be'.get q - be.get q) b := by
  classical
  obtain ⟨e', hf, hle, hv⟩ := framed g n e he
  have hrun : weights g x e' idx n last (actK ke.len (fun q => (ke.get q).len) fun q => (ke.get q).get) =
      some (actK ke.len (fun q => (ke.get q).len) ((fun q => (ke.get q).get) + ∑ oi ∈ range g.inI, ∑ oj ∈ range g.inJ, ∑ q ∈ range n,
      ∑ c ∈ range g.ch, ∑ i ∈ range g.kI, ∑ j ∈ range g.kJ,
        if Selected idx.get (n * (g.ch * g.kI * g.kJ)) last (q * (g.ch * g.kI * g.kJ) + ix3 g.kI g.kJ c i j) then
          (Pi.single q (Pi.single (ix3 g.kI g.kJ c i j)
            (full g (mapErr g e.get q) (g.oIdx oi oj i j) * x.get (ix3 g.inI g.inJ c oi oj))) : Nat → Nat → ℝ) else 0)) := by
    refine loop_act (actK ke.len fun q => (ke.get q).len) _ ?_ _
    intro oi hoi m
    refine loop_act (actK ke.len fun q => (ke.get q).len) _ ?_ m
    intro oj hoj m
    refine forSel_act hl hi (actK ke.len fun q => (ke.get q).len) _ ?_ m
    intro q c i j hq hc hi' hj m
    obtain ⟨d1, d2, d3, d4, d5⟩ := decode (q := q) hc hi' hj
    have h1 : g.kIdx c i j < g.ch * g.kI * g.kJ := ix3_lt hc hi' hj
    have h2 : g.xIdx c oi oj < g.ch * g.inI * g.inJ := ix3_lt hc hoi hoj
    have h3 := omap_lt hq hoi hoj hi' hj
    have h4 := hke.1
    have h5 := hke.2 q hq
    rw [d1, d2, d3, d4, Arr.read_eq (by omega), Arr.read_eq (by omega)]
    simp only [Option.bind_eq_bind, Option.bind_some]
    rw [addK_eq _ _ (by omega) (by omega), hv q _ hq (oIdx_lt g hoi hoj hi' hj), mul_comm (x.get _)]
    rfl
  obtain ⟨be', hb, hbl, hbv⟩ := biases_run g e' be n hle hbe
  obtain ⟨ke', hrun', hK⟩ : ∃ ke', weights g x e' idx n last (actK ke.len (fun q => (ke.get q).len) fun q => (ke.get q).get) = some ke' ∧ some ke' = some _ :=
    ⟨_, hrun, rfl⟩
  replace hK := Option.some.inj hK
  refine ⟨ke', be', ?_, (by rw [hK]; rfl), (fun _ => by rw [hK]; rfl), fun q p hq hp b => ?_, fun q hq k b => ?_⟩
  · unfold gdBack
    rw [hf, Option.bind_some]
    show (weights g x e' idx n last (actK ke.len (fun q => (ke.get q).len) fun q => (ke.get q).get)).bind _ = _
    rw [hrun', Option.bind_some, if_pos rfl, hb]
    rfl
  · have hval : ∀ (f : Nat → Nat → ℝ), (((fun q => (ke.get q).get) + f) q p : ℝ) - (ke.get q).get p = f q p := by
      intro f
      simp
    have hsum : ((∑ oi ∈ range g.inI, ∑ oj ∈ range g.inJ, ∑ q ∈ range n, ∑ c ∈ range g.ch, ∑ i ∈ range g.kI, ∑ j ∈ range g.kJ,
        if Selected idx.get (n * (g.ch * g.kI * g.kJ)) last (q * (g.ch * g.kI * g.kJ) + ix3 g.kI g.kJ c i j) then
          (Pi.single q (Pi.single (ix3 g.kI g.kJ c i j)
            (full g (mapErr g e.get q) (g.oIdx oi oj i j) * x.get (ix3 g.inI g.inJ c oi oj))) : Nat → Nat → ℝ) else 0) q p) =
        if Selected idx.get (n * (g.ch * g.kI * g.kJ)) last (q * (g.ch * g.kI * g.kJ) + p) then
          ∑ τ ∈ steps g, if p = kOf g τ then full g (mapErr g e.get q) (oOf g τ) * x.get (xOf g τ) else 0 else 0 := by
      simp only [Finset.sum_apply]
      have h1 : ∀ oi oj, ∑ q' ∈ range n, ∑ c ∈ range g.ch, ∑ i ∈ range g.kI, ∑ j ∈ range g.kJ,
          (if Selected idx.get (n * (g.ch * g.kI * g.kJ)) last (q' * (g.ch * g.kI * g.kJ) + ix3 g.kI g.kJ c i j) then
            (Pi.single q' (Pi.single (ix3 g.kI g.kJ c i j)
              (full g (mapErr g e.get q') (g.oIdx oi oj i j) * x.get (ix3 g.inI g.inJ c oi oj))) : Nat → Nat → ℝ) else 0) q p =
          ∑ c ∈ range g.ch, ∑ i ∈ range g.kI, ∑ j ∈ range g.kJ,
            if Selected idx.get (n * (g.ch * g.kI * g.kJ)) last (q * (g.ch * g.kI * g.kJ) + p) then
              (if p = ix3 g.kI g.kJ c i j then full g (mapErr g e.get q) (g.oIdx oi oj i j) * x.get (ix3 g.inI g.inJ c oi oj) else 0) else 0 := by
        intro oi oj
        rw [Finset.sum_eq_single q]
        · refine Finset.sum_congr rfl fun c _ => Finset.sum_congr rfl fun i _ => Finset.sum_congr rfl fun j _ => ?_
          by_cases hp' : p = ix3 g.kI g.kJ c i j
          · rw [if_pos hp', ← hp']
            split_ifs <;> simp
          · rw [if_neg hp', ite_self]
            split_ifs
            · rw [Pi.single_eq_same, Pi.single_apply, if_neg hp']
            · rfl
        · intro q' _ hne
          refine Finset.sum_eq_zero fun c _ => Finset.sum_eq_zero fun i _ => Finset.sum_eq_zero fun j _ => ?_
          split_ifs
          · rw [Pi.single_apply, if_neg (Ne.symm hne)]
            rfl
          · rfl
        · intro h
          exact absurd (Finset.mem_range.2 hq) h
      simp only [h1]
      by_cases hsel : Selected idx.get (n * (g.ch * g.kI * g.kJ)) last (q * (g.ch * g.kI * g.kJ) + p)
      · simp only [if_pos hsel, steps, Finset.sum_product, oOf, xOf, kOf]
        refine Finset.sum_congr rfl fun r _ => Finset.sum_congr rfl fun s _ => Finset.sum_congr rfl fun c _ =>
          Finset.sum_congr rfl fun i _ => Finset.sum_congr rfl fun j _ => if_congr Iff.rfl rfl rfl
      · simp only [if_neg hsel, Finset.sum_const_zero]
    rw [hK]
    show HasDerivAt _ ((((fun q => (ke.get q).get) + _) q p : ℝ) - (ke.get q).get p) _ ∧ (_ → (((fun q => (ke.get q).get) + _) q p : ℝ) = (ke.get q).get p)
    rw [hval, hsum]
    by_cases hsel : Selected idx.get (n * (g.ch * g.kI * g.kJ)) last (q * (g.ch * g.kI * g.kJ) + p)
    · rw [if_pos hsel]
      refine ⟨?_, fun h => absurd hsel h⟩
      simp only [masked_update_sel _ _ hsel, weighted_full]
      have := steps_deriv_w (steps g) (oOf g) (xOf g) (kOf g) (full g (mapErr g e.get q)) x.get
        (masked idx.get (n * (g.ch * g.kI * g.kJ)) last (g.ch * g.kI * g.kJ) q (ks.get q).get)
        ((∑ u ∈ range (g.outI * g.outJ), full g (mapErr g e.get q) u) * b) p
      rwa [show masked idx.get (n * (g.ch * g.kI * g.kJ)) last (g.ch * g.kI * g.kJ) q (ks.get q).get p = (ks.get q).get p by
        simp [masked, hsel]] at this
    · rw [if_neg hsel]
      refine ⟨?_, fun _ => ?_⟩
      · simp only [masked_update_not _ _ hsel]
        exact hasDerivAt_const _ _
      · have := hsum
        rw [if_neg hsel] at this
        simp only [Pi.add_apply]
        rw [this, add_zero]
  · rw [hbv q hq, add_sub_cancel_left, Finset.sum_congr rfl fun u hu => hv q u hq (Finset.mem_range.1 hu)]
    simp only [weighted_full]
    have h : HasDerivAt (fun t : ℝ => (∑ u ∈ range (g.outI * g.outJ), full g (mapErr g e.get q) u) * t) _ b := (hasDerivAt_id b).const_mul _
    rw [mul_one] at h
    exact h.add_const _

/-- **C142, the error of the input.** -/
theorem C142_inputs (g : TGeom) (x e ie : Arr ℝ) (ks : Arr (Arr ℝ)) (b : Nat → ℝ) (idx : Arr Nat) (n last : Nat)
    (hie : g.ch * g.inI * g.inJ ≤ ie.len) (hk : HasK ks n (g.ch * g.kI * g.kJ))
    (he : n * ((g.outI - 2 * g.pad) * (g.outJ - 2 * g.pad)) ≤ e.len)
    (hl : last ≤ n * (g.ch * g.kI * g.kJ)) (hi : IsOrder idx (n * (g.ch * g.kI * g.kJ))) :
    ∃ ie', inputs g ks e idx n last ie = some ie' ∧ ie'.len = ie.len ∧
      ∀ p, HasDerivAt (fun t => ∑ q ∈ range n, weighted g (mapErr g e.get q) (Function.update x.get p t)
          (masked idx.get (n * (g.ch * g.kI * g.kJ)) last (g.ch * g.kI * g.kJ) q (ks.get q).get) (b q))
          (ie'.get p - ie.get p) (x.get p) := by
  classical
  obtain ⟨e', hf, hle, hv⟩ := framed g n e he
  have hrun : inputs g ks e idx n last ie = some ⟨ie.len, ie.get + ∑ oi ∈ range g.inI, ∑ oj ∈ range g.inJ, ∑ q ∈ range n,
      ∑ c ∈ range g.ch, ∑ i ∈ range g.kI, ∑ j ∈ range g.kJ,
        if Selected idx.get (n * (g.ch * g.kI * g.kJ)) last (q * (g.ch * g.kI * g.kJ) + ix3 g.kI g.kJ c i j) then
          (Pi.single (ix3 g.inI g.inJ c oi oj)
            (full g (mapErr g e.get q) (g.oIdx oi oj i j) * (ks.get q).get (ix3 g.kI g.kJ c i j)) : Nat → ℝ) else 0⟩ := by
    unfold inputs
    rw [hf, Option.bind_some]
    refine loop_act (Arr.mk ie.len) _ ?_ ie.get
    intro oi hoi m
    refine loop_act (Arr.mk ie.len) _ ?_ m
    intro oj hoj m
    refine forSel_act hl hi (Arr.mk ie.len) _ ?_ m
    intro q c i j hq hc hi' hj m
    obtain ⟨d1, d2, d3, d4, d5⟩ := decode (q := q) hc hi' hj
    have h1 : g.kIdx c i j < g.ch * g.kI * g.kJ := ix3_lt hc hi' hj
    have h2 : g.xIdx c oi oj < g.ch * g.inI * g.inJ := ix3_lt hc hoi hoj
    have h3 := omap_lt hq hoi hoj hi' hj
    rw [d1, d2, d3, d4, readK_eq hk hq h1, Arr.read_eq (by omega)]
    simp only [Option.bind_eq_bind, Option.bind_some]
    rw [Arr.addAt_mk _ _ _ (by omega), hv q _ hq (oIdx_lt g hoi hoj hi' hj), mul_comm ((ks.get q).get _)]
    rfl
  refine ⟨_, hrun, rfl, fun p => ?_⟩
  simp only [weighted_full, Pi.add_apply, add_sub_cancel_left, Finset.sum_apply]
  refine (HasDerivAt.fun_sum fun q _ => steps_deriv_x (steps g) (oOf g) (xOf g) (kOf g) (full g (mapErr g e.get q)) x.get
    (masked idx.get (n * (g.ch * g.kI * g.kJ)) last (g.ch * g.kI * g.kJ) q (ks.get q).get) _ p).congr_deriv ?_
  simp only [steps, Finset.sum_product, oOf, xOf, kOf]
  rw [Finset.sum_comm]
  refine Finset.sum_congr rfl fun r _ => ?_
  rw [Finset.sum_comm]
  refine Finset.sum_congr rfl fun s _ => Finset.sum_congr rfl fun q _ => Finset.sum_congr rfl fun c _ => Finset.sum_congr rfl fun i _ =>
    Finset.sum_congr rfl fun j _ => ?_
  unfold masked
  by_cases h : Selected idx.get (n * (g.ch * g.kI * g.kJ)) last (q * (g.ch * g.kI * g.kJ) + ix3 g.kI g.kJ c i j)
  · simp [h, Pi.single_apply]
  · simp [h]

/-- **C142, scores.** The error of the score of every weight of a kernel, used or not, grows by the derivative of the error-weighted
feature map in a factor on that weight (at any factors `f`). -/
theorem C142_scores (g : TGeom) (x k e se : Arr ℝ) (f : Nat → ℝ) (b : ℝ)
    (hx : g.ch * g.inI * g.inJ ≤ x.len) (hk : g.ch * g.kI * g.kJ ≤ k.len)
    (he : (g.outI - 2 * g.pad) * (g.outJ - 2 * g.pad) ≤ e.len) (hse : g.ch * g.kI * g.kJ ≤ se.len) :
    ∃ se', scores g x k e se = some se' ∧ se'.len = se.len ∧
      ∀ p, HasDerivAt (fun t => weighted g e.get x.get (fun p' => k.get p' * Function.update f p t p') b) (se'.get p - se.get p) (f p) := by
  obtain ⟨e', hf, hle, hv⟩ : ∃ t, (if g.pad = 0 then some e else frame g e : Option (Arr ℝ)) = some t ∧ g.outI * g.outJ ≤ t.len ∧
      ∀ u, u < g.outI * g.outJ → t.get u = full g e.get u := by
    by_cases hp : g.pad = 0
    · rw [if_pos hp]
      exact ⟨e, rfl, by simpa [hp] using he, fun u hu => (full_zero g _ hp u hu).symm⟩
    · rw [if_neg hp]
      obtain ⟨t, h1, h2, h3⟩ := frame_eq g e he
      exact ⟨t, h1, h2.ge, h3⟩
  have hrun : scores g x k e se = some ⟨se.len, se.get + ∑ oi ∈ range g.inI, ∑ oj ∈ range g.inJ,
      ∑ c ∈ range g.ch, ∑ i ∈ range g.kI, ∑ j ∈ range g.kJ, (Pi.single (ix3 g.kI g.kJ c i j)
          (k.get (ix3 g.kI g.kJ c i j) * x.get (ix3 g.inI g.inJ c oi oj) * full g e.get (g.oIdx oi oj i j)) : Nat → ℝ)⟩ := by
    unfold scores
    rw [hf, Option.bind_some]
    refine loop_act (Arr.mk se.len) _ ?_ se.get
    intro oi hoi m
    refine loop_act (Arr.mk se.len) _ ?_ m
    intro oj hoj m
    refine loop_act (Arr.mk se.len) _ ?_ m
    intro c hc m
    refine loop_act (Arr.mk se.len) _ ?_ m
    intro i hi m
    refine loop_act (Arr.mk se.len) _ ?_ m
    intro j hj m
    have h1 : g.kIdx c i j < g.ch * g.kI * g.kJ := ix3_lt hc hi hj
    have h2 : g.xIdx c oi oj < g.ch * g.inI * g.inJ := ix3_lt hc hoi hoj
    have h3 := oIdx_lt g hoi hoj hi hj
    rw [Arr.read_eq (by omega), Arr.read_eq (by omega), Arr.read_eq (by omega)]
    simp only [Option.bind_eq_bind, Option.bind_some]
    rw [Arr.addAt_mk _ _ _ (by omega), hv _ h3]
    rfl
  refine ⟨_, hrun, rfl, fun p => ?_⟩
  have hfun : ∀ t, (fun p' => k.get p' * Function.update f p t p') = Function.update (fun p' => k.get p' * f p') p (k.get p * t) := by
    intro t
    funext r
    by_cases h : r = p
    · subst h; simp
    · simp [Function.update_of_ne h]
  simp only [hfun, weighted_full, Pi.add_apply, add_sub_cancel_left, Finset.sum_apply]
  have h := steps_deriv_w (steps g) (oOf g) (xOf g) (kOf g) (full g e.get) x.get (fun p' => k.get p' * f p')
    ((∑ u ∈ range (g.outI * g.outJ), full g e.get u) * b) p
  have hin : HasDerivAt (fun t : ℝ => k.get p * t) (k.get p * 1) (f p) := (hasDerivAt_id _).const_mul _
  refine (HasDerivAt.comp (f p) h hin).congr_deriv ?_
  simp only [steps, Finset.sum_product, oOf, xOf, kOf, Finset.sum_mul]
  refine Finset.sum_congr rfl fun r _ => Finset.sum_congr rfl fun s _ => Finset.sum_congr rfl fun c _ => Finset.sum_congr rfl fun i _ =>
    Finset.sum_congr rfl fun j _ => ?_
  by_cases h : p = ix3 g.kI g.kJ c i j
  · subst h
    simp
    ring
  · simp [h]

/-- **C142 refuted for the biases with padding.** The output then does not depend on the biases; yet the pass with gradient descent adds the
sum of the errors of its feature map to the error of each. -/
theorem C142_bias_refuted (g : TGeom) (hp : g.pad ≠ 0) (x e be : Arr ℝ) (ke : Arr (Arr ℝ)) (idx : Arr Nat) (n last : Nat)
    (hx : g.ch * g.inI * g.inJ ≤ x.len) (hke : HasK ke n (g.ch * g.kI * g.kJ)) (hbe : n ≤ be.len)
    (he : n * ((g.outI - 2 * g.pad) * (g.outJ - 2 * g.pad)) ≤ e.len)
    (hl : last ≤ n * (g.ch * g.kI * g.kJ)) (hi : IsOrder idx (n * (g.ch * g.kI * g.kJ))) (q : Nat) (hq : q < n)
    (hne : ∑ a ∈ range (g.outI - 2 * g.pad), ∑ b ∈ range (g.outJ - 2 * g.pad), mapErr g e.get q (a * (g.outJ - 2 * g.pad) + b) ≠ 0) :
    (∀ ks b b' out, ff g x ks b idx n last out = ff g x ks b' idx n last out) ∧
    ∃ ke' be', gdBack g x e idx n last true (ke, be) = some (ke', be') ∧ be'.get q ≠ be.get q := by
  refine ⟨fun ks b b' out => ?_, ?_⟩
  · unfold ff
    rw [if_neg hp, if_neg hp]
  · obtain ⟨ke', be', h1, -, -, -, h2⟩ := C142_weights g x e be ke ke idx n last hx hke hbe he hl hi
    refine ⟨ke', be', h1, fun hc => hne ?_⟩
    have h := h2 q hq (fun _ => 0) 0
    rw [hc, sub_self] at h
    have h' : HasDerivAt (fun t => weighted g (mapErr g e.get q) x.get (fun _ => 0) t)
        (∑ u ∈ range (g.outI * g.outJ), full g (mapErr g e.get q) u) 0 := by
      simp only [weighted_full, mul_zero, Finset.sum_const_zero, add_zero]
      have := (hasDerivAt_id (0 : ℝ)).const_mul (∑ u ∈ range (g.outI * g.outJ), full g (mapErr g e.get q) u)
      rwa [mul_one] at this
    rw [← sum_full]
    exact h'.unique h

/-! ### Non-vacuity: two 1×2 kernels over a 1×2 image, three of the four weights used (number 2 is not), without and with padding -/

/-- The geometry: stride 1; the uncropped output has 1×3 cells per map. -/
def exG (pad : Nat) : TGeom := ⟨1, 2, 1, 2, 1, 1, 1, pad⟩
/-- A geometry with padding: 3×3 uncropped, one cell kept. -/
def exP : TGeom := ⟨2, 2, 2, 2, 1, 1, 1, 1⟩
/-- The kernels `[1, 2]` and `[3, 4]`. -/
def exK : Arr (Arr Int) := rows [[1, 2], [3, 4]]

example : IsOrder (Arr.ofList [2, 0, 3, 1]) (2 * ((exG 0).ch * (exG 0).kI * (exG 0).kJ)) ∧ HasK exK 2 ((exG 0).ch * (exG 0).kI * (exG 0).kJ) :=
  ⟨exOrder, by decide, by decide⟩

example :
    ((ff (exG 0) (Arr.ofList [1, 10]) exK (Arr.ofList [7, 8]) (Arr.ofList [2, 0, 3, 1]) 2 3 (⟨6, fun _ => 100⟩ : Arr Int)).map
      fun a => (List.range 6).map a.get) = some [108, 119, 127, 108, 112, 148] ∧
    ((ff exP (Arr.ofList [1, 10, 100, 1000]) (rows [[1, 2, 3, 4]]) (Arr.ofList [7]) (Arr.ofList [1, 0, 2, 3]) 1 3
      (⟨1, fun _ => 100⟩ : Arr Int)).map fun a => a.get 0) = some 1034 ∧
    ((inputs (exG 0) exK (Arr.ofList [1, 2, 3, 4, 5, 6] : Arr Int) (Arr.ofList [2, 0, 3, 1]) 2 3 ⟨2, fun _ => 0⟩).map
      fun a => (List.range 2).map a.get) = some [25, 32] ∧
    ((gdBack exP (Arr.ofList [1, 10, 100, 1000]) (Arr.ofList [5] : Arr Int) (Arr.ofList [1, 0, 2, 3]) 1 3 true
      (rows [[0, 0, 0, 0]], Arr.ofList [0])).map
      fun s => ((List.range 4).map (s.1.get 0).get, s.2.get 0)) = some ([5000, 0, 50, 5], 5) ∧
    ((scores exP (Arr.ofList [1, 10, 100, 1000]) (Arr.ofList [1, 2, 3, 4]) (Arr.ofList [5] : Arr Int) ⟨4, fun _ => 0⟩).map
      fun a => (List.range 4).map a.get) = some [5000, 1000, 150, 20] := by
  refine ⟨by decide +kernel, by decide +kernel, by decide +kernel, by decide +kernel, by decide +kernel⟩

end LLab.TConvPopup
