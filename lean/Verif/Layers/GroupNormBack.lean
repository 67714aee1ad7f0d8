import Verif.Layers.GroupNorm

/-!
The backward pass of channel and group normalisation (`/repo/src/normalization.c` 512-560,
648-741). Property C153.
-/

namespace LLab.GroupNorm

open Finset

/-! ### Model -/

/-- The arrays written by the backward pass: `d_gamma`, `d_beta`, `temp2`, `temp1` of a `bn`. -/
structure BnErr where
  (gammaErr betaErr tempArr : Arr ℝ)
  tve : Mat ℝ

/-- First loop of `channel_normalization_back_prop` (`/repo/src/normalization.c` 517-529); `x` and
`e` start at `off`. -/
noncomputable def backFirst (used : Option (Arr Int)) (batch : Nat) (g : Geo) (x : Arr ℝ) (off : Nat) (b : Bn) (gamma : Arr ℝ) (e : Arr ℝ)
    (st : BnErr) : Option BnErr :=
  forUsed used batch (fun i _ st => cells g (fun a p (st : BnErr) => do
    let ev ← e.read (off + (i * g.plane + a))
    let t ← b.temp.read i p
    let ge ← st.gammaErr.addAt p (ev * t)
    let be ← st.betaErr.addAt p ev
    let gm ← gamma.read p
    let tve ← st.tve.write i p (ev * gm)
    let v ← x.read (off + (i * g.plane + a))
    let m ← b.mean.read p
    let ta ← st.tempArr.addAt p (v - m)
    some ⟨ge, be, ta, tve⟩) st) st

/-- The factor of `temp_vectors_error[j]` (`/repo/src/normalization.c` 541-544). `3/2` is the
integer 1 and `2/batch_size` an integer division. Both branches only use channel `j`. -/
noncomputable def backCoef (batch : Nat) (diag : Bool) (xj m s ta eps : ℝ) : ℝ :=
  if diag then
    (1 - 1 / (batch : ℝ)) / Real.sqrt (s + eps) -
      ((xj - m) * 2 * (1 - 1 / (batch : ℝ)) * (xj - m) - ((2 / batch : Nat) : ℝ) * (ta - xj + m)) / (2 * batch * (s + eps) ^ (3 / 2 : Nat))
  else
    -(Real.sqrt (s + eps) / batch) -
      ((xj - m) * 2 * (1 - 1 / (batch : ℝ)) * (xj - m) - ((2 / batch : Nat) : ℝ) * (ta - xj + m)) / (2 * batch * (s + eps) ^ (3 / 2 : Nat))

/-- Second loop of `channel_normalization_back_prop` (`/repo/src/normalization.c` 532-552). -/
noncomputable def backSecond (used : Option (Arr Int)) (batch : Nat) (g : Geo) (x : Arr ℝ) (off : Nat) (b : Bn) (st : BnErr) (inErr : Arr ℝ) :
    Option (Arr ℝ) :=
  forUsed used batch (fun i _ ie => forUsed used batch (fun j _ ie => cells g (fun a p (ie : Arr ℝ) => do
    let t ← st.tve.read j p
    let v ← x.read (off + (j * g.plane + a))
    let m ← b.mean.read p
    let s ← b.var.read p
    let ta ← st.tempArr.read p
    ie.addAt (off + (j * g.plane + a)) (t * backCoef batch (decide (i = j)) v m s ta b.eps)) ie) ie) inErr

/-- `channel_normalization_back_prop` (`/repo/src/normalization.c` 512-555) for `&tensor[off]`,
`&ret_error[off]` and `&input_error[off]`. `gamma` comes from `bns2` in the version without
learning parameters. -/
noncomputable def channelBP (used : Option (Arr Int)) (batch : Nat) (g : Geo) (x : Arr ℝ) (off : Nat) (b : Bn) (gamma e : Arr ℝ)
    (st : BnErr × Arr ℝ) : Option (BnErr × Arr ℝ) :=
  (backFirst used batch g x off b gamma e st.1).bind fun r => (backSecond used batch g x off b r st.2).bind fun ie => some (r, ie)

/-- The loop over the groups (`/repo/src/normalization.c` 678-695, 724-741). -/
noncomputable def groupBackGo (used : Arr Int) (n stride : Nat) (nb : Int) (g : Geo) (x : Arr ℝ) (bns : List Bn) (bns2 : List Bn) (e : Arr ℝ) :
    Nat → Nat → Nat → List BnErr × Arr ℝ → Option (List BnErr × Arr ℝ)
  | fuel, i, j, st =>
    if (j : Int) < nb then
      match fuel with
      | 0 => none
      | f + 1 => (used.read i).bind fun u =>
          if u ≠ 0 then
            bns[j]?.bind fun b => bns2[j]?.bind fun b2 => st.1[j]?.bind fun er =>
              (channelBP (some used) n g x i b b2.gamma e (er, st.2)).bind fun r =>
              (skip used n (used.len - i) i 0).bind fun d =>
                groupBackGo used n stride nb g x bns bns2 e f (i + d + stride) (j + 1) (st.1.set j r.1, r.2)
          else groupBackGo used n stride nb g x bns bns2 e f (i + 1) j st
    else some st

/-- `group_normalization_back_propagation_without_learning_parameters`
(`/repo/src/normalization.c` 713-741); with `bns2 = bns` it is
`group_normalization_back_propagation` (667-695). -/
noncomputable def groupBP (used : Arr Int) (n stride : Nat) (g : Geo) (x : Arr ℝ) (bns bns2 : List Bn) (e : Arr ℝ) (st : List BnErr × Arr ℝ) :
    Option (List BnErr × Arr ℝ) :=
  if n = 0 ∨ stride = 0 then none
  else if ((List.range used.len).filter fun k => used.get k ≠ 0).length % n ≠ 0 then none
  else groupBackGo used n stride (((((List.range used.len).filter fun k => used.get k ≠ 0).length : Int) - n).tdiv stride + 1) g x bns bns2 e
    used.len 0 0 st

/-! ### Specification -/

/-- `L` is the error-weighted output of the forward pass, `∑ e[u] * output[u]` over the tensor. -/
def WeightedOut (used : Option (Arr Int)) (batch : Nat) (g : Geo) (x : Arr ℝ) (off : Nat) (b : Bn) (out e : Arr ℝ) (L : ℝ) : Prop :=
  ∃ b' out', channelFF used batch g x off b out = some (b', out') ∧ L = ∑ u ∈ range out.len, e.get u * out'.get u

/-- The arrays of the backward pass are large enough for `rows` channels. -/
structure BnErr.Room (st : BnErr) (g : Geo) (rows : Nat) : Prop where
  gammaErr : g.h * g.w ≤ st.gammaErr.len
  betaErr : g.h * g.w ≤ st.betaErr.len
  tempArr : g.h * g.w ≤ st.tempArr.len
  tve : rows ≤ st.tve.rows ∧ g.h * g.w ≤ st.tve.cols

/-! ### The passes -/

section
variable {used : Option (Arr Int)} {batch : Nat} {c : Nat → Nat}

/-- Cell `p` of the `q`-th used channel. -/
def adr (g : Geo) (off : Nat) (c : Nat → Nat) (q p : Nat) : Nat := off + (c q * g.plane + g.cell p)

theorem picks_inj (hp : Picks used batch c) : ∀ q q', q < batch → q' < batch → c q = c q' → q = q' := by
  intro q q' h1 h2 e
  rcases Nat.lt_trichotomy q q' with h | h | h
  · have := hp.mono q q' h h2
    omega
  · exact h
  · have := hp.mono q' q h h1
    omega

theorem picks_le (hp : Picks used batch c) : ∀ q, q < batch → c q ≤ c (batch - 1) := by
  intro q hq
  rcases Nat.lt_or_ge q (batch - 1) with h | h
  · exact (hp.mono q (batch - 1) h (by omega)).le
  · rw [show q = batch - 1 by omega]

theorem adr_inj (hp : Picks used batch c) (g : Geo) (hr : 2 * g.pr ≤ g.rows) (hc : 2 * g.pc ≤ g.cols) (off : Nat) {q q' p p' : Nat}
    (hq : q < batch) (hq' : q' < batch) (h1 : p < g.h * g.w) (h2 : p' < g.h * g.w) (h : adr g off c q p = adr g off c q' p') :
    q = q' ∧ p = p' := by
  obtain ⟨a1, a2⟩ := split_inj (cell_lt g hr hc h1) (cell_lt g hr hc h2) (Nat.add_left_cancel h)
  exact ⟨picks_inj hp q q' hq hq' a1, cell_inj g hc h1 a2⟩

theorem adr_lt (g : Geo) (hr : 2 * g.pr ≤ g.rows) (hc : 2 * g.pc ≤ g.cols) {off L : Nat}
    (hx : ∀ q, q < batch → off + (c q + 1) * g.plane ≤ L) {q p : Nat} (hq : q < batch) (hp : p < g.h * g.w) : adr g off c q p < L := by
  have := cell_lt g hr hc hp
  have h1 := hx q hq
  rw [Nat.succ_mul] at h1
  unfold adr
  omega

/-- All results of the forward pass, by position. -/
theorem channelFF_full (hb : 1 ≤ batch) (hp : Picks used batch c) (g : Geo) (hr : 2 * g.pr ≤ g.rows) (hc : 2 * g.pc ≤ g.cols)
    (x : Arr ℝ) (off : Nat) (hx : ∀ q, q < batch → off + (c q + 1) * g.plane ≤ x.len) (b : Bn) (hrd : b.Ready g (c (batch - 1) + 1))
    (out : Arr ℝ) (ho : out.len = x.len) :
    ∃ b' out', channelFF used batch g x off b out = some (b', out') ∧ (b'.gamma = b.gamma ∧ b'.beta = b.beta ∧ b'.eps = b.eps) ∧
      (g.h * g.w ≤ b'.mean.len ∧ g.h * g.w ≤ b'.var.len ∧ b'.temp.rows = b.temp.rows ∧ b'.temp.cols = b.temp.cols ∧ out'.len = out.len) ∧
      (∀ q, q < batch → ∀ p, p < g.h * g.w → b'.temp.get (c q) p = BatchNorm.hat batch (vals g x off c) b.eps q p ∧
        out'.get (adr g off c q p) = BatchNorm.hat batch (vals g x off c) b.eps q p * b.gamma.get p + b.beta.get p) ∧
      ∀ u, (∀ q, q < batch → ∀ p, p < g.h * g.w → u ≠ adr g off c q p) → out'.get u = out.get u := by
  have hcq : ∀ q, q < batch → c q < b.temp.rows := fun q hq => by
    have := hrd.temp.1
    have := picks_le hp q hq
    omega
  obtain ⟨m, e1, l1, h1⟩ := meanPass_eq hp hb g hr hc x off hx b.mean hrd.mean.1 hrd.mean.2
  obtain ⟨v, e2, l2, h2⟩ := varPass_eq hp hb g hr hc x off hx m b.var (by have := hrd.mean.1; omega) hrd.var.1 h1 hrd.var.2
  obtain ⟨t, o, e3, ⟨d1, d2, d3⟩, h3, h4⟩ := normPass_eq hp g hr hc x off hx { b with mean := m, var := v } (by have := hrd.mean.1; dsimp only; omega)
    (by have := hrd.var.1; dsimp only; omega) hrd.gamma hrd.beta b.temp out ⟨hcq, hrd.temp.2⟩ ho
  refine ⟨{ b with mean := m, var := v, temp := t }, o, ?_, ⟨rfl, rfl, rfl⟩, ⟨?_, ?_, d1, d2, d3⟩, ?_, h4⟩
  · unfold channelFF
    rw [e1, Option.bind_some, e2, Option.bind_some, e3, Option.bind_some]
  · have := hrd.mean.1
    dsimp only; omega
  · have := hrd.var.1
    dsimp only; omega
  · intro q hq p hp'
    obtain ⟨a1, a2⟩ := h3 q hq p hp'
    dsimp only at a1 a2
    rw [h1 p hp', h2 p hp'] at a1 a2
    exact ⟨a1, a2⟩

theorem backFirst_eq (hp : Picks used batch c) (g : Geo) (hr : 2 * g.pr ≤ g.rows) (hc : 2 * g.pc ≤ g.cols) (x : Arr ℝ) (off : Nat)
    (hx : ∀ q, q < batch → off + (c q + 1) * g.plane ≤ x.len) (b : Bn) (gamma e : Arr ℝ) (hm : g.h * g.w ≤ b.mean.len)
    (ht : c (batch - 1) < b.temp.rows ∧ g.h * g.w ≤ b.temp.cols) (hg : g.h * g.w ≤ gamma.len) (he : e.len = x.len) (st : BnErr)
    (hst : st.Room g (c (batch - 1) + 1)) :
    ∃ st', backFirst used batch g x off b gamma e st = some st' ∧ st'.Room g (c (batch - 1) + 1) ∧
      (∀ p, p < g.h * g.w →
        st'.gammaErr.get p = st.gammaErr.get p + ∑ q ∈ range batch, e.get (adr g off c q p) * b.temp.get (c q) p ∧
        st'.betaErr.get p = st.betaErr.get p + ∑ q ∈ range batch, e.get (adr g off c q p)) ∧
      ∀ q, q < batch → ∀ p, p < g.h * g.w → st'.tve.get (c q) p = e.get (adr g off c q p) * gamma.get p := by
  obtain ⟨st', eq, l, hs, ht'⟩ := loop2_inv (A := batch) (B := g.h * g.w) (st := st)
    (f := fun i j (st : BnErr) => (e.read (adr g off c i j)).bind fun ev => (b.temp.read (c i) j).bind fun t =>
      (st.gammaErr.addAt j (ev * t)).bind fun ge => (st.betaErr.addAt j ev).bind fun be =>
      (gamma.read j).bind fun gm => (st.tve.write (c i) j (ev * gm)).bind fun tve =>
      (x.read (adr g off c i j)).bind fun v => (b.mean.read j).bind fun m =>
      (st.tempArr.addAt j (v - m)).bind fun ta => some ⟨ge, be, ta, tve⟩)
    (fun r s q => q.Room g (c (batch - 1) + 1) ∧
      (∀ j, j < g.h * g.w →
        q.gammaErr.get j = st.gammaErr.get j + ∑ i ∈ range (if j < s then r + 1 else r), e.get (adr g off c i j) * b.temp.get (c i) j ∧
        q.betaErr.get j = st.betaErr.get j + ∑ i ∈ range (if j < s then r + 1 else r), e.get (adr g off c i j)) ∧
      ∀ i, i < batch → ∀ j, j < g.h * g.w → (i < r ∨ (i = r ∧ j < s)) → q.tve.get (c i) j = e.get (adr g off c i j) * gamma.get j)
    ⟨hst, by intro j _; simp, by intro i _ j _ h; omega⟩
    (by
      rintro r hr' s hs q ⟨room, h, hv⟩
      have hlt := adr_lt g hr hc hx hr' hs
      have := picks_le hp r hr'
      have l1 := room.gammaErr
      have l2 := room.betaErr
      have l3 := room.tempArr
      have l4 := room.tve
      rw [Arr.read_eq (by omega), Mat.read_eq (by omega) (by omega)]
      simp only [Option.bind_some]
      rw [Arr.addAt_eq' _ (by omega), Arr.addAt_eq' _ (by omega), Arr.read_eq (by omega)]
      simp only [Option.bind_some]
      rw [Mat.write_eq _ (by omega) (by omega), Arr.read_eq (by omega), Arr.read_eq (by omega)]
      simp only [Option.bind_some]
      rw [Arr.addAt_eq' _ (by omega)]
      refine ⟨_, rfl, ⟨l1, l2, l3, l4⟩, ?_, ?_⟩
      · intro j hj
        dsimp only
        obtain ⟨g1, g2⟩ := h j hj
        by_cases hjs : j = s
        · subst hjs
          simp only [lt_irrefl, if_false] at g1 g2
          simp only [if_true, Nat.lt_succ_self, Finset.sum_range_succ, g1, g2, add_assoc, and_self]
        · rw [if_neg hjs, if_neg hjs, g1, g2,
            show (if j < s then r + 1 else r) = (if j < s + 1 then r + 1 else r) from
              if_congr (by omega) rfl rfl]
          simp
      · intro i hi' j hj hd
        dsimp only
        by_cases heq : i = r ∧ j = s
        · obtain ⟨rfl, rfl⟩ := heq
          simp
        · rw [if_neg (fun hh => heq ⟨picks_inj hp i r hi' hr' hh.1, hh.2⟩)]
          exact hv i hi' j hj (by omega))
    (by
      rintro r hr' q ⟨room, h, hv⟩
      refine ⟨room, fun j hj => ?_, fun i hi' j hj hd => hv i hi' j hj (by omega)⟩
      have := h j hj
      rw [if_pos hj] at this
      simpa only [Nat.not_lt_zero, if_false] using this)
  refine ⟨st', ?_, l, fun j hj => ?_, fun i hi j hj => ht' i hi j hj (Or.inl hi)⟩
  · unfold backFirst
    rw [forUsed_eq hp, ← eq]
    refine loop_congr fun q _ s => ?_
    rw [cells_eq g hr hc]
    rfl
  · simpa only [Nat.not_lt_zero, if_false] using hs j hj

theorem backSecond_eq (hp : Picks used batch c) (g : Geo) (hr : 2 * g.pr ≤ g.rows) (hc : 2 * g.pc ≤ g.cols) (x : Arr ℝ) (off : Nat)
    (hx : ∀ q, q < batch → off + (c q + 1) * g.plane ≤ x.len) (b : Bn) (hm : g.h * g.w ≤ b.mean.len) (hv : g.h * g.w ≤ b.var.len)
    (st : BnErr) (hst : st.Room g (c (batch - 1) + 1)) (inErr : Arr ℝ) (hi : inErr.len = x.len) :
    ∃ ie, backSecond used batch g x off b st inErr = some ie ∧ ie.len = inErr.len ∧
      ∀ u, (∀ q, q < batch → ∀ p, p < g.h * g.w → u = adr g off c q p → st.tve.get (c q) p = 0) → ie.get u = inErr.get u := by
  obtain ⟨ie, e, l, h⟩ := loop_inv (n := batch) (s := inErr)
    (f := fun i ie => loop batch (fun j ie => loop (g.h * g.w) (fun p (ie : Arr ℝ) => (st.tve.read (c j) p).bind fun t =>
      (x.read (adr g off c j p)).bind fun v => (b.mean.read p).bind fun m => (b.var.read p).bind fun s => (st.tempArr.read p).bind fun ta =>
      ie.addAt (adr g off c j p) (t * backCoef batch (decide (c i = c j)) v m s ta b.eps)) ie) ie)
    (fun _ ie => ie.len = inErr.len ∧
      ∀ u, (∀ q, q < batch → ∀ p, p < g.h * g.w → u = adr g off c q p → st.tve.get (c q) p = 0) → ie.get u = inErr.get u)
    ⟨rfl, fun _ _ => rfl⟩ (by
      intro i hi' ie hie
      exact loop2_inv (A := batch) (B := g.h * g.w) (st := ie)
        (f := fun j p (ie : Arr ℝ) => (st.tve.read (c j) p).bind fun t =>
          (x.read (adr g off c j p)).bind fun v => (b.mean.read p).bind fun m => (b.var.read p).bind fun s => (st.tempArr.read p).bind fun ta =>
          ie.addAt (adr g off c j p) (t * backCoef batch (decide (c i = c j)) v m s ta b.eps))
        (fun _ _ ie => ie.len = inErr.len ∧
          ∀ u, (∀ q, q < batch → ∀ p, p < g.h * g.w → u = adr g off c q p → st.tve.get (c q) p = 0) → ie.get u = inErr.get u)
        hie (by
          rintro r hr' s hs ie ⟨l, h⟩
          have hlt := adr_lt g hr hc hx hr' hs
          have := picks_le hp r hr'
          have l3 := hst.tempArr
          have l4 := hst.tve
          rw [Mat.read_eq (by omega) (by omega), Arr.read_eq (by omega), Arr.read_eq (by omega), Arr.read_eq (by omega), Arr.read_eq (by omega)]
          simp only [Option.bind_some]
          rw [Arr.addAt_eq' _ (by omega)]
          refine ⟨_, rfl, l, fun u hu => ?_⟩
          dsimp only
          by_cases heq : u = adr g off c r s
          · rw [if_pos heq, hu r hr' s hs heq, zero_mul, add_zero]
            exact h u hu
          · rw [if_neg heq, add_zero]
            exact h u hu)
        (by intro r _ q hq; exact hq))
  refine ⟨ie, ?_, l, h⟩
  unfold backSecond
  rw [forUsed_eq hp, ← e]
  refine loop_congr fun q _ s => ?_
  rw [forUsed_eq hp]
  refine loop_congr fun j _ s => ?_
  rw [cells_eq g hr hc]
  rfl

theorem channelBP_eq (hp : Picks used batch c) (g : Geo) (hr : 2 * g.pr ≤ g.rows) (hc : 2 * g.pc ≤ g.cols) (x : Arr ℝ) (off : Nat)
    (hx : ∀ q, q < batch → off + (c q + 1) * g.plane ≤ x.len) (b : Bn) (gamma e : Arr ℝ) (hm : g.h * g.w ≤ b.mean.len) (hv : g.h * g.w ≤ b.var.len)
    (ht : c (batch - 1) < b.temp.rows ∧ g.h * g.w ≤ b.temp.cols) (hg : g.h * g.w ≤ gamma.len) (he : e.len = x.len) (st : BnErr)
    (hst : st.Room g (c (batch - 1) + 1)) (inErr : Arr ℝ) (hi : inErr.len = x.len) :
    ∃ st' ie, channelBP used batch g x off b gamma e (st, inErr) = some (st', ie) ∧ ie.len = inErr.len ∧
      (∀ p, p < g.h * g.w →
        st'.gammaErr.get p = st.gammaErr.get p + ∑ q ∈ range batch, e.get (adr g off c q p) * b.temp.get (c q) p ∧
        st'.betaErr.get p = st.betaErr.get p + ∑ q ∈ range batch, e.get (adr g off c q p)) ∧
      ∀ u, (∀ q, q < batch → ∀ p, p < g.h * g.w → u = adr g off c q p → e.get u = 0) → ie.get u = inErr.get u := by
  obtain ⟨st', e1, room, h1, h2⟩ := backFirst_eq hp g hr hc x off hx b gamma e hm ht hg he st hst
  obtain ⟨ie, e2, l, h3⟩ := backSecond_eq hp g hr hc x off hx b hm hv st' room inErr hi
  refine ⟨st', ie, ?_, l, h1, fun u hu => h3 u fun q hq p hp' hadr => ?_⟩
  · unfold channelBP
    rw [e1, Option.bind_some, e2, Option.bind_some]
  · rw [h2 q hq p hp', ← hadr, hu q hq p hp' hadr, zero_mul]

/-! ### C153 -/

/-- The derivative of a weighted sum over a tensor in one parameter: only the cells at position
`p` of the used channels move. -/
theorem deriv_cells (hp : Picks used batch c) (g : Geo) (hr : 2 * g.pr ≤ g.rows) (hc : 2 * g.pc ≤ g.cols) (off L : Nat)
    (hx : ∀ q, q < batch → off + (c q + 1) * g.plane ≤ L) (p : Nat) (hpp : p < g.h * g.w) (e : Nat → ℝ) (O : ℝ → Nat → ℝ) (d : Nat → ℝ) (a : ℝ)
    (hout : ∀ u, (∀ q, q < batch → ∀ p, p < g.h * g.w → u ≠ adr g off c q p) → ∃ k, ∀ t, O t u = k)
    (hne : ∀ q, q < batch → ∀ p', p' < g.h * g.w → p' ≠ p → ∃ k, ∀ t, O t (adr g off c q p') = k)
    (hin : ∀ q, q < batch → HasDerivAt (fun t => O t (adr g off c q p)) (d q) a) :
    HasDerivAt (fun t => ∑ u ∈ range L, e u * O t u) (∑ q ∈ range batch, e (adr g off c q p) * d q) a := by
  have hterm : ∀ u ∈ range L, HasDerivAt (fun t => e u * O t u) (∑ q ∈ range batch, if u = adr g off c q p then e u * d q else 0) a := by
    intro u _
    by_cases h : ∃ q, q < batch ∧ ∃ p', p' < g.h * g.w ∧ u = adr g off c q p'
    · obtain ⟨q, hq, p', hp', rfl⟩ := h
      by_cases hpe : p' = p
      · subst hpe
        rw [Finset.sum_eq_single q]
        · rw [if_pos rfl]
          exact (hin q hq).const_mul _
        · intro q' hq' hne'
          exact if_neg fun hh => hne' (adr_inj hp g hr hc off hq (Finset.mem_range.1 hq') hp' hp' hh).1.symm
        · intro hn
          exact absurd (Finset.mem_range.2 hq) hn
      · rw [Finset.sum_eq_zero fun q' hq' => if_neg fun hh =>
          hpe (adr_inj hp g hr hc off hq (Finset.mem_range.1 hq') hp' hpp hh).2]
        obtain ⟨k, hk⟩ := hne q hq p' hp' hpe
        simp only [hk]
        exact hasDerivAt_const _ _
    · obtain ⟨k, hk⟩ := hout u fun q hq p' hp' hh => h ⟨q, hq, p', hp', hh⟩
      rw [Finset.sum_eq_zero fun q' hq' => if_neg fun hh => h ⟨q', Finset.mem_range.1 hq', p, hpp, hh⟩]
      simp only [hk]
      exact hasDerivAt_const _ _
  refine (HasDerivAt.fun_sum hterm).congr_deriv ?_
  rw [Finset.sum_comm]
  refine Finset.sum_congr rfl fun q hq => ?_
  rw [Finset.sum_ite_eq' (range L) (adr g off c q p),
    if_pos (Finset.mem_range.2 (adr_lt g hr hc hx (Finset.mem_range.1 hq) hpp))]

/-- **C153 (scale and shift).** After a forward pass over the first `batch` used channels of a
padded tensor, `channel_normalization_back_prop` stays in bounds and adds to `d_gamma[p]` and
`d_beta[p]` the partial derivatives of the error-weighted output of the forward pass in `gamma[p]`
and `beta[p]`. Missing: the input error, see `C153_input_error_refuted`. -/
theorem C153_gamma_beta_partial (hb : 1 ≤ batch) (hp : Picks used batch c) (g : Geo) (hr : 2 * g.pr ≤ g.rows) (hc : 2 * g.pc ≤ g.cols)
    (x : Arr ℝ) (off : Nat) (hx : ∀ q, q < batch → off + (c q + 1) * g.plane ≤ x.len) (b : Bn) (hrd : b.Ready g (c (batch - 1) + 1))
    (out : Arr ℝ) (ho : out.len = x.len) (e : Arr ℝ) (he : e.len = x.len) (st : BnErr) (hst : st.Room g (c (batch - 1) + 1))
    (inErr : Arr ℝ) (hi : inErr.len = x.len) (b' : Bn) (out' : Arr ℝ) (hff : channelFF used batch g x off b out = some (b', out')) :
    ∃ st' ie, channelBP used batch g x off b' b'.gamma e (st, inErr) = some (st', ie) ∧ ∀ p, p < g.h * g.w →
      (∃ F : ℝ → ℝ, (∀ t, WeightedOut used batch g x off { b with gamma := ⟨b.gamma.len, Function.update b.gamma.get p t⟩ } out e (F t)) ∧
        HasDerivAt F (st'.gammaErr.get p - st.gammaErr.get p) (b.gamma.get p)) ∧
      (∃ F : ℝ → ℝ, (∀ t, WeightedOut used batch g x off { b with beta := ⟨b.beta.len, Function.update b.beta.get p t⟩ } out e (F t)) ∧
        HasDerivAt F (st'.betaErr.get p - st.betaErr.get p) (b.beta.get p)) := by
  obtain ⟨b1, o1, ew, ⟨w1, w2, w3⟩, ⟨d1, d2, d3, d4, d5⟩, hw, hun⟩ := channelFF_full hb hp g hr hc x off hx b hrd out ho
  rw [hff] at ew
  obtain ⟨rfl, rfl⟩ := Prod.mk.inj (Option.some.inj ew)
  have hte := hrd.temp
  obtain ⟨st', ie, e1, _, hs, _⟩ := channelBP_eq hp g hr hc x off hx b' b'.gamma e d1 d2 (by omega) (by rw [w1]; exact hrd.gamma) he st hst inErr hi
  refine ⟨st', ie, e1, fun p hpp => ⟨?_, ?_⟩⟩
  · have run : ∀ t : ℝ, _ := fun t => channelFF_full hb hp g hr hc x off hx { b with gamma := ⟨b.gamma.len, Function.update b.gamma.get p t⟩ }
      ⟨hrd.mean, hrd.var, hrd.gamma, hrd.beta, hrd.temp⟩ out ho
    choose B O r1 r2 r3 r4 r5 using run
    refine ⟨fun t => ∑ u ∈ range out.len, e.get u * (O t).get u, fun t => ⟨B t, O t, r1 t, rfl⟩, ?_⟩
    rw [(hs p hpp).1, add_sub_cancel_left]
    refine (deriv_cells hp g hr hc off out.len (by rw [ho]; exact hx) p hpp e.get (fun t => (O t).get)
      (BatchNorm.hat batch (vals g x off c) b.eps · p) _ (fun u hu => ⟨out.get u, fun t => r5 t u hu⟩) (fun q hq p' hp' hne => ?_) fun q hq => ?_).congr_deriv ?_
    · refine ⟨BatchNorm.hat batch (vals g x off c) b.eps q p' * b.gamma.get p' + b.beta.get p', fun t => ?_⟩
      have := (r4 t q hq p' hp').2
      dsimp only at this
      rw [this, Function.update_of_ne hne]
    · have : (fun t => (O t).get (adr g off c q p)) = fun t => BatchNorm.hat batch (vals g x off c) b.eps q p * t + b.beta.get p := by
        funext t
        have := (r4 t q hq p hpp).2
        dsimp only at this
        rw [this, Function.update_self]
      rw [this]
      refine (((hasDerivAt_id _).const_mul _).add_const _).congr_deriv ?_
      ring
    · exact Finset.sum_congr rfl fun q hq => by rw [(hw q (Finset.mem_range.1 hq) p hpp).1]
  · have run : ∀ t : ℝ, _ := fun t => channelFF_full hb hp g hr hc x off hx { b with beta := ⟨b.beta.len, Function.update b.beta.get p t⟩ }
      ⟨hrd.mean, hrd.var, hrd.gamma, hrd.beta, hrd.temp⟩ out ho
    choose B O r1 r2 r3 r4 r5 using run
    refine ⟨fun t => ∑ u ∈ range out.len, e.get u * (O t).get u, fun t => ⟨B t, O t, r1 t, rfl⟩, ?_⟩
    rw [(hs p hpp).2, add_sub_cancel_left]
    refine (deriv_cells hp g hr hc off out.len (by rw [ho]; exact hx) p hpp e.get (fun t => (O t).get)
      (fun _ => 1) _ (fun u hu => ⟨out.get u, fun t => r5 t u hu⟩) (fun q hq p' hp' hne => ?_) fun q hq => ?_).congr_deriv ?_
    · refine ⟨BatchNorm.hat batch (vals g x off c) b.eps q p' * b.gamma.get p' + b.beta.get p', fun t => ?_⟩
      have := (r4 t q hq p' hp').2
      dsimp only at this
      rw [this, Function.update_of_ne hne]
    · have : (fun t => (O t).get (adr g off c q p)) = fun t => BatchNorm.hat batch (vals g x off c) b.eps q p * b.gamma.get p + t := by
        funext t
        have := (r4 t q hq p hpp).2
        dsimp only at this
        rw [this, Function.update_self]
      rw [this]
      exact (hasDerivAt_id _).const_add _
    · simp

/-- **C153 (input error, refuted for every run).** A cell whose own output error is zero gets no
input error at all, and neither does a cell of an unused channel or of the padding: the influence
of a cell on the mean and variance of its group is lost. -/
theorem C153_no_influence_refuted (hp : Picks used batch c) (g : Geo) (hr : 2 * g.pr ≤ g.rows) (hc : 2 * g.pc ≤ g.cols) (x : Arr ℝ) (off : Nat)
    (hx : ∀ q, q < batch → off + (c q + 1) * g.plane ≤ x.len) (b : Bn) (gamma e : Arr ℝ) (hm : g.h * g.w ≤ b.mean.len) (hv : g.h * g.w ≤ b.var.len)
    (ht : c (batch - 1) < b.temp.rows ∧ g.h * g.w ≤ b.temp.cols) (hg : g.h * g.w ≤ gamma.len) (he : e.len = x.len) (st : BnErr)
    (hst : st.Room g (c (batch - 1) + 1)) (inErr : Arr ℝ) (hi : inErr.len = x.len) :
    ∃ st' ie, channelBP used batch g x off b gamma e (st, inErr) = some (st', ie) ∧ ie.len = inErr.len ∧ ∀ u, e.get u = 0 → ie.get u = inErr.get u := by
  obtain ⟨st', ie, e1, l, _, h⟩ := channelBP_eq hp g hr hc x off hx b gamma e hm hv ht hg he st hst inErr hi
  exact ⟨st', ie, e1, l, fun u hu => h u fun _ _ _ _ _ => hu⟩

end

theorem picks_none (n : Nat) : Picks none n (fun q => q) where
  mono _ _ h _ := h
  on _ _ := rfl
  skipped _ _ i hi := Or.inl ⟨i, hi, rfl⟩

/-- One cell, no padding. -/
def oneGeo : Geo := ⟨1, 1, 0, 0⟩

/-- A cleared `bn` for two channels of one cell. -/
noncomputable def twoBn : Bn := ⟨⟨1, fun _ => 0⟩, ⟨1, fun _ => 0⟩, ⟨1, fun _ => 1⟩, ⟨1, fun _ => 0⟩, ⟨2, 1, fun _ _ => 0⟩, 1⟩

theorem twoBn_ready : twoBn.Ready oneGeo 2 := by
  constructor <;> (try constructor) <;> intros <;> simp [twoBn, oneGeo, Geo.h, Geo.w]

/-- Cleared error arrays for two channels of one cell. -/
noncomputable def twoErr : BnErr := ⟨⟨1, fun _ => 0⟩, ⟨1, fun _ => 0⟩, ⟨1, fun _ => 0⟩, ⟨2, 1, fun _ _ => 0⟩⟩

theorem twoErr_room : twoErr.Room oneGeo 2 := by
  constructor <;> (try constructor) <;> simp [twoErr, oneGeo, Geo.h, Geo.w]

/-- **C153 (input error, refuted).** Two channels of one cell with values `(-1, 1)` and output
error `(0, 1)`: the reported input error of the first is 0, the derivative of the error-weighted
output in it is `-1/(4*sqrt 2)`. -/
theorem C153_input_error_refuted : ∃ b' out' st' ie,
    channelFF none 2 oneGeo ⟨2, fun u => if u = 0 then -1 else 1⟩ 0 twoBn ⟨2, fun _ => 0⟩ = some (b', out') ∧
    channelBP none 2 oneGeo ⟨2, fun u => if u = 0 then -1 else 1⟩ 0 b' b'.gamma ⟨2, fun u => if u = 0 then 0 else 1⟩ (twoErr, ⟨2, fun _ => 0⟩) =
      some (st', ie) ∧ ie.get 0 = 0 ∧
    ∃ F : ℝ → ℝ, (∀ t, WeightedOut none 2 oneGeo ⟨2, fun u => if u = 0 then t else 1⟩ 0 twoBn ⟨2, fun _ => 0⟩
        ⟨2, fun u => if u = 0 then 0 else 1⟩ (F t)) ∧
      HasDerivAt F (-(1 / (4 * Real.sqrt 2))) (-1) := by
  have hx : ∀ q, q < 2 → 0 + (q + 1) * oneGeo.plane ≤ 2 := by
    intro q hq
    simp only [oneGeo, Geo.plane]
    omega
  have hh : oneGeo.h * oneGeo.w = 1 := rfl
  have run : ∀ t : ℝ, WeightedOut none 2 oneGeo ⟨2, fun u => if u = 0 then t else 1⟩ 0 twoBn ⟨2, fun _ => 0⟩
      ⟨2, fun u => if u = 0 then 0 else 1⟩ (((1 - t) / 2) / Real.sqrt (((1 - t) / 2) ^ 2 + 1)) := by
    intro t
    obtain ⟨b', o, e, _, _, h, _⟩ := channelFF_full (c := fun q => q) (by omega) (picks_none 2) oneGeo (by simp [oneGeo]) (by simp [oneGeo])
      ⟨2, fun u => if u = 0 then t else 1⟩ 0 hx twoBn twoBn_ready ⟨2, fun _ => 0⟩ rfl
    refine ⟨b', o, e, ?_⟩
    have h1 := (h 1 (by omega) 0 (by rw [hh]; omega)).2
    have ha : ∀ q, adr oneGeo 0 (fun q => q) q 0 = q := by
      intro q
      simp [adr, oneGeo, Geo.plane, Geo.cell]
    have hv : ∀ q, vals oneGeo ⟨2, fun u => if u = 0 then t else 1⟩ 0 (fun q => q) q 0 = if q = 0 then t else 1 := by
      intro q
      show (if adr oneGeo 0 (fun q => q) q 0 = 0 then t else 1) = _
      rw [ha]
    rw [ha] at h1
    simp only [Finset.sum_range_succ, Finset.sum_range_zero, zero_add, one_ne_zero, if_true, if_false, h1, BatchNorm.hat, BatchNorm.mu,
      BatchNorm.vr, hv, twoBn]
    norm_num
    congr 1
    · ring
    · congr 1; ring
  obtain ⟨b', o, e, ⟨w1, _, _⟩, ⟨d1, d2, d3, d4, _⟩, _, _⟩ := channelFF_full (c := fun q => q) (by omega) (picks_none 2) oneGeo (by simp [oneGeo])
    (by simp [oneGeo]) ⟨2, fun u => if u = 0 then -1 else 1⟩ 0 hx twoBn twoBn_ready ⟨2, fun _ => 0⟩ rfl
  have ht := twoBn_ready.temp
  obtain ⟨st', ie, e', _, h⟩ := C153_no_influence_refuted (c := fun q => q) (picks_none 2) oneGeo (by simp [oneGeo]) (by simp [oneGeo])
    ⟨2, fun u => if u = 0 then -1 else 1⟩ 0 hx b' b'.gamma ⟨2, fun u => if u = 0 then 0 else 1⟩ d1 d2 (by omega)
    (by rw [w1]; exact twoBn_ready.gamma) rfl twoErr twoErr_room ⟨2, fun _ => 0⟩ rfl
  refine ⟨b', o, st', ie, e, e', h 0 (by simp), _, run, ?_⟩
  have hd : HasDerivAt (fun t : ℝ => (1 - t) / 2) (-1 / 2) (-1) := by
    refine (((hasDerivAt_id _).const_sub _).div_const _).congr_deriv ?_
    simp
  have hs : HasDerivAt (fun t : ℝ => Real.sqrt (((1 - t) / 2) ^ 2 + 1)) (-1 / (2 * Real.sqrt 2)) (-1) := by
    have h2 : ((1 - (-1 : ℝ)) / 2) ^ 2 + 1 = 2 := by norm_num
    refine (((hd.fun_pow 2).add_const 1).sqrt (by rw [h2]; norm_num)).congr_deriv ?_
    rw [h2]
    norm_num
  refine (hd.fun_div hs (by positivity)).congr_deriv ?_
  have h2 : ((1 - (-1 : ℝ)) / 2) ^ 2 + 1 = 2 := by norm_num
  rw [h2]
  have h3 : Real.sqrt 2 ≠ 0 := by positivity
  have h4 : Real.sqrt 2 ^ 2 = 2 := Real.sq_sqrt (by norm_num)
  field_simp
  rw [h4]
  norm_num

/-! ### Groups -/

theorem groupBackGo_step (used : Arr Int) (hu : ∀ k, k < used.len → used.get k ≠ 0) (n stride nb : Nat) (g : Geo) (x : Arr ℝ) (bns bns2 : List Bn)
    (e : Arr ℝ) (fuel i j : Nat) (hj : j < nb) (h1 : 1 ≤ n) (hi : i + n ≤ used.len) (st : List BnErr × Arr ℝ) (b b2 : Bn) (er : BnErr)
    (r : BnErr × Arr ℝ) (hb : bns[j]? = some b) (hb2 : bns2[j]? = some b2) (her : st.1[j]? = some er)
    (hr : channelBP (some used) n g x i b b2.gamma e (er, st.2) = some r) :
    groupBackGo used n stride nb g x bns bns2 e (fuel + 1) i j st =
      groupBackGo used n stride nb g x bns bns2 e fuel (i + stride) (j + 1) (st.1.set j r.1, r.2) := by
  conv_lhs => unfold groupBackGo
  rw [if_pos (by exact_mod_cast hj)]
  dsimp only
  rw [Arr.read_eq (by omega), Option.bind_some, if_pos (hu i (by omega)), hb, Option.bind_some, hb2, Option.bind_some, her, Option.bind_some, hr,
    Option.bind_some, skip_all used hu n _ _ _ (by omega) (by omega), Option.bind_some, Nat.add_zero]

theorem groupBackGo_done (used : Arr Int) (n stride nb : Nat) (g : Geo) (x : Arr ℝ) (bns bns2 : List Bn) (e : Arr ℝ) (fuel i j : Nat) (hj : nb ≤ j)
    (st : List BnErr × Arr ℝ) : groupBackGo used n stride nb g x bns bns2 e fuel i j st = some st := by
  unfold groupBackGo
  rw [if_neg (by omega)]

theorem groupBP_all (used : Arr Int) (hu : ∀ k, k < used.len → used.get k ≠ 0) (n nb : Nat) (hn : 1 ≤ n) (hlen : used.len = nb * n)
    (g : Geo) (x : Arr ℝ) (bns bns2 : List Bn) (e : Arr ℝ) (st : List BnErr × Arr ℝ) :
    groupBP used n n g x bns bns2 e st = groupBackGo used n n nb g x bns bns2 e used.len 0 0 st := by
  have hcount : ((List.range used.len).filter fun k => used.get k ≠ 0).length = nb * n := by
    rw [List.filter_eq_self.2 (by intro k hk; simpa using hu k (List.mem_range.1 hk)), List.length_range, hlen]
  unfold groupBP
  rw [if_neg (by omega), hcount, if_neg (by simp)]
  congr 1
  have : ((nb * n : Nat) : Int) - n = ((nb : Int) - 1) * n := by push_cast; ring
  rw [this, Int.mul_tdiv_cancel _ (by omega)]
  omega

/-- The scale and shift errors a group has to get: sums over its `n` channels, the first of which
starts at `base 0`. -/
def GroupSums (g : Geo) (n : Nat) (base : Nat → Nat) (e : Nat → ℝ) (b : Bn) (er er' : BnErr) : Prop :=
  ∀ j, j < g.h → ∀ k, k < g.w →
    er'.gammaErr.get (j * g.w + k) = er.gammaErr.get (j * g.w + k) + ∑ q ∈ range n, e (g.at (base q) j k) * b.temp.get q (j * g.w + k) ∧
    er'.betaErr.get (j * g.w + k) = er.betaErr.get (j * g.w + k) + ∑ q ∈ range n, e (g.at (base q) j k)

/-- The arrays a group reads. -/
structure Bn.After (b : Bn) (g : Geo) (n : Nat) : Prop where
  mean : g.h * g.w ≤ b.mean.len
  var : g.h * g.w ≤ b.var.len
  temp : n ≤ b.temp.rows ∧ g.h * g.w ≤ b.temp.cols

theorem back_group (used : Arr Int) (hu : ∀ k, k < used.len → used.get k ≠ 0) (n : Nat) (hn : 1 ≤ n) (hlen : n ≤ used.len) (g : Geo)
    (hr : 2 * g.pr ≤ g.rows) (hc : 2 * g.pc ≤ g.cols) (x : Arr ℝ) (off : Nat) (hx : off + n * g.plane ≤ x.len) (b : Bn) (hb : b.After g n)
    (gamma e : Arr ℝ) (hg : g.h * g.w ≤ gamma.len) (he : e.len = x.len) (er : BnErr) (her : er.Room g n) (inErr : Arr ℝ) (hi : inErr.len = x.len) :
    ∃ er' ie, channelBP (some used) n g x off b gamma e (er, inErr) = some (er', ie) ∧ ie.len = inErr.len ∧
      GroupSums g n (fun q => off + q * g.plane) e.get b er er' := by
  obtain ⟨st', ie, e1, l, h, _⟩ := channelBP_eq (picks_all used hu n hlen) g hr hc x off (fun q hq => by
    refine le_trans ?_ hx
    exact Nat.add_le_add_left (Nat.mul_le_mul_right _ hq) _) b gamma e hb.mean hb.var ⟨by have := hb.temp.1; omega, hb.temp.2⟩ hg he er
    (by rw [Nat.sub_add_cancel hn]; exact her) inErr hi
  refine ⟨st', ie, e1, l, fun j hj k hk => ?_⟩
  have := h _ (pos_lt hj hk)
  have ha : ∀ q, adr g off (fun q => q) q (j * g.w + k) = g.at (off + q * g.plane) j k := by
    intro q
    rw [← cell_at g hk, Nat.add_assoc]
    rfl
  simp only [ha] at this
  exact this

/-- **C153 (groups, what holds).** When every channel is used, the groups do not overlap and either
there is one group or a channel has one cell, the backward pass of the group normalisation adds to
the `d_gamma` and `d_beta` of every group the sums over the channels of that group. Missing:
channels of more than one cell in more than one group, see `C153_group_refuted`. -/
theorem C153_group_partial (used : Arr Int) (hu : ∀ k, k < used.len → used.get k ≠ 0) (n nb : Nat) (hn : 1 ≤ n) (hlen : used.len = nb * n)
    (g : Geo) (hr : 2 * g.pr ≤ g.rows) (hc : 2 * g.pc ≤ g.cols) (hone : nb = 1 ∨ g.plane = 1) (x : Arr ℝ) (hx : nb * n * g.plane ≤ x.len)
    (bns bns2 : List Bn) (hb : ∀ j, j < nb → ∃ b b2, bns[j]? = some b ∧ bns2[j]? = some b2 ∧ b.After g n ∧ g.h * g.w ≤ b2.gamma.len)
    (e : Arr ℝ) (he : e.len = x.len) (ers : List BnErr) (hers : ∀ j, j < nb → ∃ er, ers[j]? = some er ∧ er.Room g n) (inErr : Arr ℝ)
    (hi : inErr.len = x.len) :
    ∃ ers' ie, groupBP used n n g x bns bns2 e (ers, inErr) = some (ers', ie) ∧ ∀ j, j < nb → ∃ b er er', bns[j]? = some b ∧ ers[j]? = some er ∧
      ers'[j]? = some er' ∧ GroupSums g n (fun q => (j * n + q) * g.plane) e.get b er er' := by
  rw [groupBP_all used hu n nb hn hlen]
  have hoff : ∀ j, j < nb → j * n * g.plane = j * n := by
    intro j hj
    rcases hone with h | h
    · rw [show j = 0 by omega]; simp
    · rw [h, Nat.mul_one]
  have go : ∀ (r j fuel : Nat), j + r = nb → r ≤ fuel → ∀ (cur : List BnErr) (ie : Arr ℝ), ie.len = x.len → (∀ j', j ≤ j' → cur[j']? = ers[j']?) →
      ∃ st', groupBackGo used n n nb g x bns bns2 e fuel (j * n) j (cur, ie) = some st' ∧ (∀ j', j' < j → st'.1[j']? = cur[j']?) ∧
        ∀ j', j ≤ j' → j' < nb → ∃ b er er', bns[j']? = some b ∧ ers[j']? = some er ∧ st'.1[j']? = some er' ∧
          GroupSums g n (fun q => (j' * n + q) * g.plane) e.get b er er' := by
    intro r
    induction r with
    | zero =>
      intro j fuel hj _ cur ie _ _
      exact ⟨(cur, ie), groupBackGo_done _ _ _ _ _ _ _ _ _ _ _ _ (by omega) _, fun _ _ => rfl, fun j' h1 h2 => by omega⟩
    | succ r ih =>
      intro j fuel hj hf cur ie hie hcur
      obtain ⟨f, rfl⟩ : ∃ f, fuel = f + 1 := ⟨fuel - 1, by omega⟩
      have hjn : j < nb := by omega
      have hjb : (j + 1) * n ≤ nb * n := Nat.mul_le_mul_right _ (by omega)
      have hjb' : (j + 1) * n = j * n + n := by ring
      have hnl : n ≤ used.len := by omega
      obtain ⟨b, b2, q1, q2, q3, q4⟩ := hb j hjn
      obtain ⟨er, q5, q6⟩ := hers j hjn
      obtain ⟨er', ie', e1, l1, hs⟩ := back_group used hu n hn hnl g hr hc x (j * n) (by
        rw [← hoff j hjn, ← Nat.add_mul, ← hjb']
        exact le_trans (Nat.mul_le_mul_right _ hjb) hx) b q3 b2.gamma e q4 he er q6 ie hie
      rw [groupBackGo_step used hu n n nb g x bns bns2 e f (j * n) j hjn hn (by omega) (cur, ie) b b2 er (er', ie') q1 q2
        ((hcur j (le_refl _)).trans q5) e1]
      obtain ⟨st', e', h1, h2⟩ := ih (j + 1) f (by omega) (by omega) (cur.set j er') ie' (by omega) (fun j' hj' => by
        rw [List.getElem?_set_ne (by omega)]
        exact hcur j' (by omega))
      rw [hjb'] at e'
      refine ⟨st', e', fun j' hj' => ?_, fun j' h3 h4 => ?_⟩
      · rw [h1 j' (by omega), List.getElem?_set_ne (by omega)]
      · rcases Nat.eq_or_lt_of_le h3 with h | h
        · subst h
          have hjl : j < cur.length := by
            by_contra hcon
            have := (hcur j (le_refl _)).trans q5
            rw [List.getElem?_eq_none (by omega)] at this
            cases this
          refine ⟨b, er, er', q1, q5, ?_, ?_⟩
          · rw [h1 j (by omega), List.getElem?_set_self hjl]
          · have hbase : ∀ q, j * n + q * g.plane = (j * n + q) * g.plane := by
              intro q
              rw [Nat.add_mul, hoff j hjn]
            simp only [hbase] at hs
            exact hs
        · exact h2 j' h h4
  obtain ⟨st', e', _, h⟩ := go nb 0 used.len (by omega) (by rw [hlen]; exact Nat.le_mul_of_pos_right _ hn) ers inErr hi (fun _ _ => rfl)
  rw [Nat.zero_mul] at e'
  exact ⟨st'.1, st'.2, e', fun j hj => h j (Nat.zero_le _) hj⟩

/-- Cleared error arrays for one channel of two cells. -/
noncomputable def demoErr : BnErr := ⟨⟨2, fun _ => 0⟩, ⟨2, fun _ => 0⟩, ⟨2, fun _ => 0⟩, ⟨1, 2, fun _ _ => 0⟩⟩

theorem demoErr_room : demoErr.Room demoGeo 1 := by
  constructor <;> (try constructor) <;> simp [demoErr, demoGeo, Geo.h, Geo.w]

theorem demoBn_after : demoBn.After demoGeo 1 := ⟨demoBn_ready.mean.1, demoBn_ready.var.1, demoBn_ready.temp⟩

theorem demo_used : ∀ k, k < (⟨2, fun _ => 1⟩ : Arr Int).len → (⟨2, fun _ => 1⟩ : Arr Int).get k ≠ 0 := fun _ _ => by simp

/-- The error of the demonstration: only the last cell. -/
noncomputable def demoE : Arr ℝ := ⟨4, fun u => if u = 3 then 1 else 0⟩

theorem demo_run : ∃ r1 r2 i2, groupBP ⟨2, fun _ => 1⟩ 1 1 demoGeo ⟨4, fun _ => 0⟩ [demoBn, demoBn] [demoBn, demoBn] demoE
    ([demoErr, demoErr], ⟨4, fun _ => 0⟩) = some ([r1, r2], i2) ∧ r2.betaErr.get 1 = 0 := by
  rw [groupBP_all _ demo_used 1 2 (by omega) (by simp)]
  obtain ⟨r1, i1, e1, l1, _⟩ := back_group ⟨2, fun _ => 1⟩ demo_used 1 (le_refl _) (by simp) demoGeo (by simp [demoGeo]) (by simp [demoGeo]) ⟨4, fun _ => 0⟩ 0
    (by simp [demoGeo, Geo.plane]) demoBn demoBn_after demoBn.gamma demoE demoBn_ready.gamma rfl demoErr demoErr_room ⟨4, fun _ => 0⟩ rfl
  obtain ⟨r2, i2, e2, _, s2⟩ := back_group ⟨2, fun _ => 1⟩ demo_used 1 (le_refl _) (by simp) demoGeo (by simp [demoGeo]) (by simp [demoGeo]) ⟨4, fun _ => 0⟩ 1
    (by simp [demoGeo, Geo.plane]) demoBn demoBn_after demoBn.gamma demoE demoBn_ready.gamma rfl demoErr demoErr_room i1 l1
  refine ⟨r1, r2, i2, ?_, ?_⟩
  · refine (groupBackGo_step _ demo_used 1 1 2 demoGeo _ _ _ _ 1 0 0 (by omega) (le_refl _) (by simp) ([demoErr, demoErr], _) demoBn demoBn demoErr
      (r1, i1) rfl rfl rfl e1).trans ?_
    refine (groupBackGo_step _ demo_used 1 1 2 demoGeo _ _ _ _ 0 1 1 (by omega) (le_refl _) (by simp) ([r1, demoErr], i1) demoBn demoBn demoErr
      (r2, i2) rfl rfl rfl e2).trans ?_
    exact groupBackGo_done _ _ _ _ _ _ _ _ _ _ _ _ (by omega) _
  · have h4 := (s2 0 (by decide) 1 (by decide)).2
    rw [Finset.sum_range_one] at h4
    simpa [demoGeo, Geo.at, Geo.plane, Geo.w, demoErr, demoE] using h4

/-- **C153 (groups, refuted).** Two groups of one channel of two cells with an error only in the
last cell: the `d_beta` of the second group stays zero because its errors are read from cell 1. -/
theorem C153_group_refuted : ¬ ∀ (used : Arr Int) (n nb : Nat) (g : Geo) (x : Arr ℝ) (bns bns2 : List Bn) (e : Arr ℝ) (ers : List BnErr) (inErr : Arr ℝ),
    (∀ k, k < used.len → used.get k ≠ 0) → 1 ≤ n → 1 ≤ nb → used.len = nb * n → nb * n * g.plane ≤ x.len →
    (∀ j, j < nb → ∃ b b2, bns[j]? = some b ∧ bns2[j]? = some b2 ∧ b.After g n ∧ g.h * g.w ≤ b2.gamma.len) → e.len = x.len →
    (∀ j, j < nb → ∃ er, ers[j]? = some er ∧ er.Room g n) → inErr.len = x.len →
    ∃ ers' ie, groupBP used n n g x bns bns2 e (ers, inErr) = some (ers', ie) ∧ ∀ j, j < nb → ∃ b er er', bns[j]? = some b ∧ ers[j]? = some er ∧
      ers'[j]? = some er' ∧ GroupSums g n (fun q => (j * n + q) * g.plane) e.get b er er' := by
  intro h
  have two : ∀ j, j < 2 → j = 0 ∨ j = 1 := by intro j hj; omega
  obtain ⟨ers', ie, e, hN⟩ := h ⟨2, fun _ => 1⟩ 1 2 demoGeo ⟨4, fun _ => 0⟩ [demoBn, demoBn] [demoBn, demoBn] demoE
    [demoErr, demoErr] ⟨4, fun _ => 0⟩ demo_used (le_refl _) (by omega) (by simp) (by simp [demoGeo, Geo.plane])
    (fun j hj => ⟨demoBn, demoBn, by rcases two j hj with h | h <;> rw [h] <;> rfl, by rcases two j hj with h | h <;> rw [h] <;> rfl,
      demoBn_after, demoBn_ready.gamma⟩)
    rfl (fun j hj => ⟨demoErr, by rcases two j hj with h | h <;> rw [h] <;> rfl, demoErr_room⟩) rfl
  obtain ⟨r1, r2, i2, e', hz⟩ := demo_run
  rw [e'] at e
  obtain ⟨rfl, _⟩ := Prod.mk.inj (Option.some.inj e)
  obtain ⟨b, er, er', q1, q2, q3, hN⟩ := hN 1 (by omega)
  obtain rfl := Option.some.inj (show some demoErr = some er from q2)
  obtain rfl := Option.some.inj (show some r2 = some er' from q3)
  have h3 := (hN 0 (by decide) 1 (by decide)).2
  have h5 : r2.betaErr.get (0 * demoGeo.w + 1) = r2.betaErr.get 1 := by rw [Nat.zero_mul, Nat.zero_add]
  rw [h5, hz, Finset.sum_range_one] at h3
  simp [demoGeo, Geo.at, Geo.plane, Geo.w, demoErr, demoE] at h3

/-! ### Concrete cases -/

/-- C153 applies: two channels of one cell. -/
example : ∃ b' out' st' ie, channelFF none 2 oneGeo ⟨2, fun u => if u = 0 then -1 else 1⟩ 0 twoBn ⟨2, fun _ => 0⟩ = some (b', out') ∧
    channelBP none 2 oneGeo ⟨2, fun u => if u = 0 then -1 else 1⟩ 0 b' b'.gamma ⟨2, fun u => if u = 0 then 0 else 1⟩ (twoErr, ⟨2, fun _ => 0⟩) =
      some (st', ie) ∧
    ∃ F : ℝ → ℝ, HasDerivAt F (st'.betaErr.get 0 - 0) 0 := by
  have hx : ∀ q, q < 2 → 0 + (q + 1) * oneGeo.plane ≤ 2 := by
    intro q hq
    simp only [oneGeo, Geo.plane]
    omega
  obtain ⟨b', o, e, _⟩ := channelFF_full (c := fun q => q) (by omega) (picks_none 2) oneGeo (by simp [oneGeo])
    (by simp [oneGeo]) ⟨2, fun u => if u = 0 then -1 else 1⟩ 0 hx twoBn twoBn_ready ⟨2, fun _ => 0⟩ rfl
  obtain ⟨st', ie, e', h⟩ := C153_gamma_beta_partial (c := fun q => q) (by omega) (picks_none 2) oneGeo (by simp [oneGeo])
    (by simp [oneGeo]) ⟨2, fun u => if u = 0 then -1 else 1⟩ 0 hx twoBn twoBn_ready ⟨2, fun _ => 0⟩ rfl ⟨2, fun u => if u = 0 then 0 else 1⟩ rfl
    twoErr twoErr_room ⟨2, fun _ => 0⟩ rfl b' o e
  obtain ⟨_, F, _, hF⟩ := h 0 (by decide)
  exact ⟨b', o, st', ie, e, e', F, hF⟩

/-- The group version applies: two groups of one channel of one cell. -/
example : ∃ ers' ie, groupBP ⟨2, fun _ => 1⟩ 1 1 oneGeo ⟨2, fun u => u⟩ [twoBn, twoBn] [twoBn, twoBn] ⟨2, fun u => u + 5⟩ ([twoErr, twoErr], ⟨2, fun _ => 0⟩) =
    some (ers', ie) ∧ ∃ er', ers'[1]? = some er' ∧ er'.betaErr.get 0 = 6 := by
  have two : ∀ {P : Nat → Prop}, P 0 → P 1 → ∀ j, j < 2 → P j := by
    intro P h0 h1 j hj
    rcases Nat.lt_succ_iff_lt_or_eq.1 hj with h | h
    · rw [show j = 0 by omega]; exact h0
    · rw [h]; exact h1
  have ha : twoBn.After oneGeo 1 := ⟨twoBn_ready.mean.1, twoBn_ready.var.1, by have := twoBn_ready.temp; omega⟩
  have hro : twoErr.Room oneGeo 1 := ⟨twoErr_room.gammaErr, twoErr_room.betaErr, twoErr_room.tempArr, by have := twoErr_room.tve; omega⟩
  obtain ⟨ers', ie, e, h⟩ := C153_group_partial ⟨2, fun _ => 1⟩ (fun _ _ => by simp) 1 2 (le_refl _) (by simp) oneGeo (by simp [oneGeo]) (by simp [oneGeo])
    (Or.inr rfl) ⟨2, fun u => u⟩ (by simp [oneGeo, Geo.plane]) [twoBn, twoBn] [twoBn, twoBn]
    (two ⟨twoBn, twoBn, rfl, rfl, ha, twoBn_ready.gamma⟩ ⟨twoBn, twoBn, rfl, rfl, ha, twoBn_ready.gamma⟩) ⟨2, fun u => u + 5⟩ rfl [twoErr, twoErr]
    (two ⟨twoErr, rfl, hro⟩ ⟨twoErr, rfl, hro⟩) ⟨2, fun _ => 0⟩ rfl
  refine ⟨ers', ie, e, ?_⟩
  obtain ⟨b, er, er', q1, q2, q3, hN⟩ := h 1 (by omega)
  cases q1
  cases q2
  refine ⟨er', q3, ?_⟩
  have := (hN 0 (by decide) 0 (by decide)).2
  simp [oneGeo, Geo.at, Geo.plane, Geo.w, twoErr] at this
  rw [this]
  norm_num

end LLab.GroupNorm
