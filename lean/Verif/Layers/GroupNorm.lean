import Verif.Layers.BatchNorm

/-!
Channel and group normalisation of a padded tensor (`/repo/src/normalization.c` 463-505,
572-600). Properties C97, C98.
-/

namespace LLab.GroupNorm

open Finset

/-! ### Model -/

/-- `rows`, `cols` and the paddings of a tensor. -/
structure Geo where
  (rows cols pr pc : Nat)

namespace Geo

/-- Cells of one channel. -/
def plane (g : Geo) : Nat := g.rows * g.cols

/-- Rows without padding. -/
def h (g : Geo) : Nat := g.rows - 2 * g.pr

/-- Columns without padding. -/
def w (g : Geo) : Nat := g.cols - 2 * g.pc

end Geo

/-- `used_kernels == NULL || used_kernels[i]` -/
def isUsed (used : Option (Arr Int)) (i : Nat) : Option Bool :=
  match used with
  | none => some true
  | some u => (u.read i).bind fun v => some (v ≠ 0)

/-- `for(i = 0, ii = 0; ii < batch_size; i++) if(used) { body; ii++; }`
(`/repo/src/normalization.c` 467-479, 482-495, 497-508). -/
def usedGo {σ : Type} (used : Option (Arr Int)) (batch : Nat) (body : Nat → Nat → σ → Option σ) : Nat → Nat → Nat → σ → Option σ
  | fuel, i, ii, s =>
    if ii < batch then
      match fuel with
      | 0 => none
      | f + 1 => (isUsed used i).bind fun u =>
          if u then (body i ii s).bind fun s => usedGo used batch body f (i + 1) (ii + 1) s
          else usedGo used batch body f (i + 1) ii s
    else some s

/-- The same loop from the start. Reading past the end of `used_kernels` is undefined, so its
length bounds the number of rounds. -/
def forUsed {σ : Type} (used : Option (Arr Int)) (batch : Nat) (body : Nat → Nat → σ → Option σ) (s : σ) : Option σ :=
  usedGo used batch body (match used with | none => batch | some u => u.len) 0 0 s

/-- The loops over the rows and columns inside the padding (`/repo/src/normalization.c` 469-470):
the body gets `j*cols+k` and `(j-rows_pad)*(cols-2*cols_pad)+k-cols_pad`. -/
def cells {σ : Type} (g : Geo) (f : Nat → Nat → σ → Option σ) (s : σ) : Option σ :=
  loopFrom g.pr (g.rows - g.pr) (fun j s => loopFrom g.pc (g.cols - g.pc) (fun k s =>
    f (j * g.cols + k) ((j - g.pr) * (g.cols - 2 * g.pc) + (k - g.pc)) s) s) s

/-- The arrays of a `bn` used here. -/
structure Bn where
  (mean var gamma beta : Arr ℝ)
  temp : Mat ℝ
  eps : ℝ

/-- The mean (`/repo/src/normalization.c` 467-479); `x` starts at `off`. -/
noncomputable def meanPass (used : Option (Arr Int)) (batch : Nat) (g : Geo) (x : Arr ℝ) (off : Nat) (mean : Arr ℝ) : Option (Arr ℝ) :=
  forUsed used batch (fun i ii mean => cells g (fun a p (mean : Arr ℝ) => do
    let v ← x.read (off + (i * g.plane + a))
    let mean ← mean.addAt p v
    if ii = batch - 1 then do
      let m ← mean.read p
      mean.write p (m / batch)
    else some mean) mean) mean

/-- The variance (`/repo/src/normalization.c` 482-495). -/
noncomputable def varPass (used : Option (Arr Int)) (batch : Nat) (g : Geo) (x : Arr ℝ) (off : Nat) (mean var : Arr ℝ) : Option (Arr ℝ) :=
  forUsed used batch (fun i ii var => cells g (fun a p (var : Arr ℝ) => do
    let v ← x.read (off + (i * g.plane + a))
    let m ← mean.read p
    let var ← var.addAt p ((v - m) * (v - m))
    if ii = batch - 1 then do
      let s ← var.read p
      var.write p (s / batch)
    else some var) var) var

/-- The normalisation (`/repo/src/normalization.c` 497-508), state `(temp_vectors, outputs)`. Note
that `temp_vectors` is indexed by the channel `i`, not by `ii`. -/
noncomputable def normPass (used : Option (Arr Int)) (batch : Nat) (g : Geo) (x : Arr ℝ) (off : Nat) (b : Bn) (st : Mat ℝ × Arr ℝ) :
    Option (Mat ℝ × Arr ℝ) :=
  forUsed used batch (fun i _ st => cells g (fun a p (st : Mat ℝ × Arr ℝ) => do
    let v ← x.read (off + (i * g.plane + a))
    let m ← b.mean.read p
    let s ← b.var.read p
    let temp ← st.1.write i p ((v - m) / Real.sqrt (s + b.eps))
    let t ← temp.read i p
    let gm ← b.gamma.read p
    let be ← b.beta.read p
    let out ← st.2.write (off + (i * g.plane + a)) (t * gm + be)
    some (temp, out)) st) st

/-- `channel_normalization_feed_forward` (`/repo/src/normalization.c` 463-505) for the arrays
`&tensor[off]` and `&post_normalization[off]`. -/
noncomputable def channelFF (used : Option (Arr Int)) (batch : Nat) (g : Geo) (x : Arr ℝ) (off : Nat) (b : Bn) (out : Arr ℝ) :
    Option (Bn × Arr ℝ) :=
  (meanPass used batch g x off b.mean).bind fun mean =>
    (varPass used batch g x off mean b.var).bind fun var =>
      (normPass used batch g x off { b with mean := mean, var := var } (b.temp, out)).bind fun r =>
        some ({ b with mean := mean, var := var, temp := r.1 }, r.2)

/-- The inner loop at `/repo/src/normalization.c` 586-591: how far it moves `i`. The condition
`k < tensor_c, counter < n_channels` only tests the second part. -/
def skip (used : Arr Int) (n : Nat) : Nat → Nat → Nat → Option Nat
  | fuel, k, counter =>
    if counter < n then
      match fuel with
      | 0 => none
      | f + 1 => (used.read k).bind fun u =>
          if u ≠ 0 then skip used n f (k + 1) (counter + 1) else (skip used n f (k + 1) counter).bind fun d => some (d + 1)
    else some 0

/-- The loop over the groups (`/repo/src/normalization.c` 583-598). -/
noncomputable def groupGo (used : Arr Int) (n stride : Nat) (nb : Int) (g : Geo) (x : Arr ℝ) : Nat → Nat → Nat → List Bn × Arr ℝ → Option (List Bn × Arr ℝ)
  | fuel, i, j, st =>
    if (j : Int) < nb then
      match fuel with
      | 0 => none
      | f + 1 => (used.read i).bind fun u =>
          if u ≠ 0 then
            st.1[j]?.bind fun b => (channelFF (some used) n g x i b st.2).bind fun r =>
              (skip used n (used.len - i) i 0).bind fun d => groupGo used n stride nb g x f (i + d + stride) (j + 1) (st.1.set j r.1, r.2)
          else groupGo used n stride nb g x f (i + 1) j st
    else some st

/-- `group_normalization_feed_forward` (`/repo/src/normalization.c` 572-600) for a tensor of
`used.len` channels. `none` also stands for the `exit` when the groups do not divide the used
channels. -/
noncomputable def groupFF (used : Arr Int) (n stride : Nat) (g : Geo) (x : Arr ℝ) (st : List Bn × Arr ℝ) : Option (List Bn × Arr ℝ) :=
  if n = 0 ∨ stride = 0 then none
  else if ((List.range used.len).filter fun k => used.get k ≠ 0).length % n ≠ 0 then none
  else groupGo used n stride (((((List.range used.len).filter fun k => used.get k ≠ 0).length : Int) - n).tdiv stride + 1) g x used.len 0 0 st

/-! ### Specification -/

/-- `c 0 < c 1 < …` are the first `batch` used channels. -/
structure Picks (used : Option (Arr Int)) (batch : Nat) (c : Nat → Nat) : Prop where
  mono : ∀ q r, q < r → r < batch → c q < c r
  on : ∀ q, q < batch → isUsed used (c q) = some true
  skipped : ∀ q, q < batch → ∀ i, i < c q → (∃ r, r < q ∧ c r = i) ∨ isUsed used i = some false

/-- The cell of a channel that starts at `base`, inside the padding. -/
def Geo.at (g : Geo) (base j k : Nat) : Nat := base + ((g.pr + j) * g.cols + (g.pc + k))

/-- The mean over `n` channels of the cell in row `j` and column `k`; channel `q` starts at
`base q`. -/
noncomputable def Geo.mean (g : Geo) (n : Nat) (x : Nat → ℝ) (base : Nat → Nat) (j k : Nat) : ℝ :=
  (∑ q ∈ range n, x (g.at (base q) j k)) / n

/-- The variance over the channels. -/
noncomputable def Geo.var (g : Geo) (n : Nat) (x : Nat → ℝ) (base : Nat → Nat) (j k : Nat) : ℝ :=
  (∑ q ∈ range n, (x (g.at (base q) j k) - g.mean n x base j k) ^ 2) / n

/-- `out` is the normalisation of `x` over `n` channels: every cell inside the padding has its
mean over the channels subtracted, is divided by its standard deviation, scaled by `gamma` and
shifted by `beta`. -/
def Normalised (g : Geo) (n : Nat) (x : Nat → ℝ) (base : Nat → Nat) (b : Bn) (out : Nat → ℝ) : Prop :=
  ∀ j, j < g.h → ∀ k, k < g.w → ∀ q, q < n → out (g.at (base q) j k) =
    b.gamma.get (j * g.w + k) * ((x (g.at (base q) j k) - g.mean n x base j k) / Real.sqrt (g.var n x base j k + b.eps)) +
      b.beta.get (j * g.w + k)

/-- The arrays of a `bn` made for `n` channels and cleared. -/
structure Bn.Ready (b : Bn) (g : Geo) (rows : Nat) : Prop where
  mean : g.h * g.w ≤ b.mean.len ∧ ∀ p, p < g.h * g.w → b.mean.get p = 0
  var : g.h * g.w ≤ b.var.len ∧ ∀ p, p < g.h * g.w → b.var.get p = 0
  gamma : g.h * g.w ≤ b.gamma.len
  beta : g.h * g.w ≤ b.beta.len
  temp : rows ≤ b.temp.rows ∧ g.h * g.w ≤ b.temp.cols

/-! ### Loops -/

theorem loop_append {σ : Type} (m n : Nat) (f : Nat → σ → Option σ) (s : σ) :
    loop (m + n) f s = (loop m f s).bind fun t => loop n (fun i => f (m + i)) t := by
  induction n with
  | zero => cases loop m f s <;> simp [loop]
  | succ n ih =>
    rw [show m + (n + 1) = (m + n) + 1 by omega]
    simp only [loop, Option.bind_eq_bind]
    rw [ih]
    cases loop m f s <;> rfl

theorem loop_flat {σ : Type} (A B : Nat) (f : Nat → σ → Option σ) (s : σ) :
    loop A (fun r s => loop B (fun k s => f (r * B + k) s) s) s = loop (A * B) f s := by
  induction A generalizing s with
  | zero => simp [loop]
  | succ A ih =>
    rw [Nat.succ_mul, loop_append (A * B), ← ih]
    rfl

theorem cells_eq {σ : Type} (g : Geo) (hr : 2 * g.pr ≤ g.rows) (hc : 2 * g.pc ≤ g.cols) (f : Nat → Nat → σ → Option σ) (s : σ) :
    cells g f s = loop (g.h * g.w) (fun p s => f ((g.pr + p / g.w) * g.cols + (g.pc + p % g.w)) p s) s := by
  unfold cells loopFrom
  rw [← loop_flat, show g.rows - g.pr - g.pr = g.h by unfold Geo.h; omega]
  refine loop_congr fun r _ s => ?_
  rw [show g.cols - g.pc - g.pc = g.w by unfold Geo.w; omega]
  refine loop_congr fun k hk s => ?_
  have hw : 0 < g.w := by omega
  have e1 : (r * g.w + k) / g.w = r := by rw [mul_comm, Nat.mul_add_div hw, Nat.div_eq_of_lt hk, add_zero]
  have e2 : (r * g.w + k) % g.w = k := by rw [mul_comm, Nat.mul_add_mod, Nat.mod_eq_of_lt hk]
  dsimp only
  rw [e1, e2, show g.pr + r - g.pr = r by omega, show g.pc + k - g.pc = k by omega]
  rfl

theorem loopFrom_head {σ : Type} {lo hi : Nat} (h : lo < hi) (f : Nat → σ → Option σ) (s : σ) :
    loopFrom lo hi f s = (f lo s).bind fun t => loopFrom (lo + 1) hi f t := by
  unfold loopFrom
  rw [show hi - lo = 1 + (hi - (lo + 1)) by omega, loop_append]
  simp only [loop, Option.bind_eq_bind, Option.bind_some, Nat.add_zero]
  congr 1
  funext t
  exact loop_congr fun i _ s => by rw [show lo + (1 + i) = lo + 1 + i by omega]

theorem usedGo_eq {σ : Type} {used : Option (Arr Int)} {batch : Nat} {c : Nat → Nat} (hc : Picks used batch c)
    (body : Nat → Nat → σ → Option σ) : ∀ (fuel i ii : Nat) (s : σ), (∀ q, q < ii → q < batch → c q < i) →
      (∀ q, ii ≤ q → q < batch → i ≤ c q) → (∀ q, q < batch → c q < i + fuel) →
      usedGo used batch body fuel i ii s = loopFrom ii batch (fun q s => body (c q) q s) s := by
  intro fuel
  induction fuel with
  | zero =>
    intro i ii s h1 h2 h3
    unfold usedGo
    by_cases h : ii < batch
    · have := h3 ii h
      have := h2 ii (le_refl _) h
      omega
    · rw [if_neg h]
      unfold loopFrom
      rw [show batch - ii = 0 by omega]
      rfl
  | succ fuel ih =>
    intro i ii s h1 h2 h3
    unfold usedGo
    by_cases h : ii < batch
    · rw [if_pos h]
      have hle := h2 ii (le_refl _) h
      rcases Nat.eq_or_lt_of_le hle with e | e
      · rw [e]
        dsimp only
        rw [hc.on ii h, Option.bind_some, if_pos rfl, loopFrom_head h]
        congr 1
        funext t
        refine ih _ _ t (fun q hq hb => ?_) (fun q hq hb => ?_) fun q hq => ?_
        · rcases Nat.lt_or_ge q ii with h' | h'
          · have := h1 q h' hb
            omega
          · rw [show q = ii by omega]
            omega
        · exact hc.mono ii q (by omega) hb
        · have := h3 q hq
          omega
      · have hun : isUsed used i = some false := by
          rcases hc.skipped ii h i e with ⟨r, hr, hcr⟩ | h'
          · have := h1 r hr (by omega)
            omega
          · exact h'
        dsimp only
        rw [hun, Option.bind_some, if_neg (by decide)]
        refine ih _ _ s (fun q hq hb => ?_) (fun q hq hb => ?_) fun q hq => ?_
        · have := h1 q hq hb
          omega
        · rcases Nat.eq_or_lt_of_le hq with h' | h'
          · rw [← h']
            exact e
          · have := hc.mono ii q h' hb
            omega
        · have := h3 q hq
          omega
    · rw [if_neg h]
      unfold loopFrom
      rw [show batch - ii = 0 by omega]
      rfl

theorem forUsed_eq {σ : Type} {used : Option (Arr Int)} {batch : Nat} {c : Nat → Nat} (hc : Picks used batch c)
    (body : Nat → Nat → σ → Option σ) (s : σ) : forUsed used batch body s = loop batch (fun q s => body (c q) q s) s := by
  unfold forUsed
  rw [usedGo_eq hc body _ 0 0 s (fun q hq => by omega) (fun q _ _ => by omega)]
  · unfold loopFrom
    exact loop_congr fun i _ s => by rw [Nat.zero_add]
  · intro q hq
    have hu := hc.on q hq
    cases used with
    | none =>
      -- every channel is used, so `c q = q`
      have : ∀ q, q < batch → c q = q := by
        intro q
        induction q using Nat.strong_induction_on with
        | _ q ih =>
          intro hq
          rcases Nat.lt_trichotomy (c q) q with h | h | h
          · have := ih (c q) h (by omega)
            have := hc.mono (c q) q h hq
            omega
          · exact h
          · rcases hc.skipped q hq q h with ⟨r, hr, e⟩ | h'
            · rw [ih r hr (by omega)] at e
              omega
            · simp [isUsed] at h'
      dsimp only
      rw [this q hq]
      omega
    | some u =>
      simp only [isUsed] at hu
      obtain ⟨v, hv, _⟩ := Option.bind_eq_some_iff.1 hu
      have : c q < u.len := by
        by_contra hn
        unfold Arr.read at hv
        rw [if_neg hn] at hv
        cases hv
      dsimp only
      omega

/-! ### Addresses -/

theorem split_inj {n a b a' b' : Nat} (hb : b < n) (hb' : b' < n) (h : a * n + b = a' * n + b') : a = a' ∧ b = b' := by
  have h1 : (a * n + b) / n = a := by rw [mul_comm, Nat.mul_add_div (by omega), Nat.div_eq_of_lt hb, add_zero]
  have h2 : (a' * n + b') / n = a' := by rw [mul_comm, Nat.mul_add_div (by omega), Nat.div_eq_of_lt hb', add_zero]
  have e : a = a' := by rw [← h1, ← h2, h]
  subst e
  exact ⟨rfl, by omega⟩

/-- Where position `p` of the channel without padding lies in the channel. -/
def Geo.cell (g : Geo) (p : Nat) : Nat := (g.pr + p / g.w) * g.cols + (g.pc + p % g.w)

theorem cell_lt (g : Geo) (hr : 2 * g.pr ≤ g.rows) (hc : 2 * g.pc ≤ g.cols) {p : Nat} (hp : p < g.h * g.w) : g.cell p < g.plane := by
  have hw : 0 < g.w := Nat.pos_of_mul_pos_left (by omega : 0 < g.h * g.w)
  have h1 : p / g.w < g.h := Nat.div_lt_of_lt_mul (by rw [mul_comm]; exact hp)
  have h2 := Nat.mod_lt p hw
  have a1 : g.pr + p / g.w + 1 ≤ g.rows := by unfold Geo.h at h1; omega
  have a2 : g.pc + p % g.w < g.cols := by unfold Geo.w at h2 ⊢; omega
  unfold Geo.cell Geo.plane
  calc (g.pr + p / g.w) * g.cols + (g.pc + p % g.w) < (g.pr + p / g.w) * g.cols + g.cols := by omega
    _ = (g.pr + p / g.w + 1) * g.cols := by ring
    _ ≤ g.rows * g.cols := Nat.mul_le_mul_right _ a1

theorem cell_inj (g : Geo) (hc : 2 * g.pc ≤ g.cols) {p p' : Nat} (hp : p < g.h * g.w) (h : g.cell p = g.cell p') : p = p' := by
  have hw : 0 < g.w := Nat.pos_of_mul_pos_left (by omega : 0 < g.h * g.w)
  have h2 := Nat.mod_lt p hw
  have h3 := Nat.mod_lt p' hw
  unfold Geo.cell at h
  obtain ⟨a, b⟩ := split_inj (n := g.cols) (by unfold Geo.w at h2 ⊢; omega) (by unfold Geo.w at h3 ⊢; omega) h
  rw [← Nat.div_add_mod p g.w, ← Nat.div_add_mod p' g.w, show p / g.w = p' / g.w by omega, show p % g.w = p' % g.w by omega]

theorem cell_at (g : Geo) {j k : Nat} (hk : k < g.w) (base : Nat) : base + g.cell (j * g.w + k) = g.at base j k := by
  have hw : 0 < g.w := by omega
  have e1 : (j * g.w + k) / g.w = j := by rw [mul_comm, Nat.mul_add_div hw, Nat.div_eq_of_lt hk, add_zero]
  have e2 : (j * g.w + k) % g.w = k := by rw [mul_comm, Nat.mul_add_mod, Nat.mod_eq_of_lt hk]
  unfold Geo.cell Geo.at
  rw [e1, e2]

theorem pos_lt {h w j k : Nat} (hj : j < h) (hk : k < w) : j * w + k < h * w := by
  calc j * w + k < j * w + w := by omega
    _ = (j + 1) * w := by ring
    _ ≤ h * w := Nat.mul_le_mul_right _ hj

/-! ### The three passes -/

section
variable {used : Option (Arr Int)} {batch : Nat} {c : Nat → Nat}

/-- The values of the picked channels, by position. -/
def vals (g : Geo) (x : Arr ℝ) (off : Nat) (c : Nat → Nat) (q p : Nat) : ℝ := x.get (off + (c q * g.plane + g.cell p))

theorem meanPass_eq (hp : Picks used batch c) (hb : 1 ≤ batch) (g : Geo) (hr : 2 * g.pr ≤ g.rows) (hc : 2 * g.pc ≤ g.cols) (x : Arr ℝ) (off : Nat)
    (hx : ∀ q, q < batch → off + (c q + 1) * g.plane ≤ x.len) (mean : Arr ℝ) (hm : g.h * g.w ≤ mean.len)
    (h0 : ∀ p, p < g.h * g.w → mean.get p = 0) :
    ∃ m, meanPass used batch g x off mean = some m ∧ m.len = mean.len ∧
      ∀ p, p < g.h * g.w → m.get p = BatchNorm.mu batch (vals g x off c) p := by
  obtain ⟨m, e, h1, h2⟩ := BatchNorm.avgLoop batch (g.h * g.w) hb (vals g x off c) mean hm h0
    (fun q p (mean : Arr ℝ) => (x.read (off + (c q * g.plane + g.cell p))).bind fun v => (mean.addAt p v).bind fun mean =>
      if q = batch - 1 then (mean.read p).bind fun m => mean.write p (m / batch) else some mean) (by
      intro q hq p hp b hbl
      have := cell_lt g hr hc hp
      have h1 := hx q hq
      rw [Nat.succ_mul] at h1
      rw [Arr.read_eq (by omega)]
      rfl)
  refine ⟨m, ?_, h1, h2⟩
  unfold meanPass
  rw [forUsed_eq hp, ← e]
  refine loop_congr fun q _ s => ?_
  rw [cells_eq g hr hc]
  rfl

theorem varPass_eq (hp : Picks used batch c) (hb : 1 ≤ batch) (g : Geo) (hr : 2 * g.pr ≤ g.rows) (hc : 2 * g.pc ≤ g.cols) (x : Arr ℝ) (off : Nat)
    (hx : ∀ q, q < batch → off + (c q + 1) * g.plane ≤ x.len) (mean var : Arr ℝ) (hm : g.h * g.w ≤ mean.len) (hv : g.h * g.w ≤ var.len)
    (hmean : ∀ p, p < g.h * g.w → mean.get p = BatchNorm.mu batch (vals g x off c) p) (h0 : ∀ p, p < g.h * g.w → var.get p = 0) :
    ∃ m, varPass used batch g x off mean var = some m ∧ m.len = var.len ∧
      ∀ p, p < g.h * g.w → m.get p = BatchNorm.vr batch (vals g x off c) p := by
  obtain ⟨m, e, h1, h2⟩ := BatchNorm.avgLoop batch (g.h * g.w) hb
    (fun q p => (vals g x off c q p - BatchNorm.mu batch (vals g x off c) p) * (vals g x off c q p - BatchNorm.mu batch (vals g x off c) p)) var hv h0
    (fun q p (var : Arr ℝ) => (x.read (off + (c q * g.plane + g.cell p))).bind fun v => (mean.read p).bind fun m =>
      (var.addAt p ((v - m) * (v - m))).bind fun var =>
      if q = batch - 1 then (var.read p).bind fun s => var.write p (s / batch) else some var) (by
      intro q hq p hp b hbl
      have := cell_lt g hr hc hp
      have h1 := hx q hq
      rw [Nat.succ_mul] at h1
      rw [Arr.read_eq (by omega), Arr.read_eq (by omega), hmean p hp]
      rfl)
  refine ⟨m, ?_, h1, fun p hp' => ?_⟩
  · unfold varPass
    rw [forUsed_eq hp, ← e]
    refine loop_congr fun q _ s => ?_
    rw [cells_eq g hr hc]
    rfl
  · rw [h2 p hp']
    unfold BatchNorm.vr
    congr 1
    exact Finset.sum_congr rfl fun i _ => by ring

theorem normPass_eq (hp : Picks used batch c) (g : Geo) (hr : 2 * g.pr ≤ g.rows) (hc : 2 * g.pc ≤ g.cols) (x : Arr ℝ) (off : Nat)
    (hx : ∀ q, q < batch → off + (c q + 1) * g.plane ≤ x.len) (b : Bn) (hm : g.h * g.w ≤ b.mean.len) (hv : g.h * g.w ≤ b.var.len)
    (hg : g.h * g.w ≤ b.gamma.len) (hbe : g.h * g.w ≤ b.beta.len) (temp : Mat ℝ) (out : Arr ℝ)
    (ht : (∀ q, q < batch → c q < temp.rows) ∧ g.h * g.w ≤ temp.cols) (ho : out.len = x.len) :
    ∃ t o, normPass used batch g x off b (temp, out) = some (t, o) ∧ (t.rows = temp.rows ∧ t.cols = temp.cols ∧ o.len = out.len) ∧
      (∀ q, q < batch → ∀ p, p < g.h * g.w → t.get (c q) p = (vals g x off c q p - b.mean.get p) / Real.sqrt (b.var.get p + b.eps) ∧
        o.get (off + (c q * g.plane + g.cell p)) =
          (vals g x off c q p - b.mean.get p) / Real.sqrt (b.var.get p + b.eps) * b.gamma.get p + b.beta.get p) ∧
      ∀ u, (∀ q, q < batch → ∀ p, p < g.h * g.w → u ≠ off + (c q * g.plane + g.cell p)) → o.get u = out.get u := by
  have cinj : ∀ q q', q < batch → q' < batch → c q = c q' → q = q' := by
    intro q q' h1 h2 e
    rcases Nat.lt_trichotomy q q' with h | h | h
    · have := hp.mono q q' h h2
      omega
    · exact h
    · have := hp.mono q' q h h1
      omega
  obtain ⟨⟨t, o⟩, e, ⟨⟨d1, d2, d3⟩, h1⟩, h2⟩ := loop2_inv (A := batch) (B := g.h * g.w) (st := (temp, out))
    (f := fun q p (st : Mat ℝ × Arr ℝ) => (x.read (off + (c q * g.plane + g.cell p))).bind fun v => (b.mean.read p).bind fun m =>
      (b.var.read p).bind fun s => (st.1.write (c q) p ((v - m) / Real.sqrt (s + b.eps))).bind fun temp =>
      (temp.read (c q) p).bind fun t => (b.gamma.read p).bind fun gm => (b.beta.read p).bind fun be =>
      (st.2.write (off + (c q * g.plane + g.cell p)) (t * gm + be)).bind fun out => some (temp, out))
    (fun r s st => ((st.1.rows = temp.rows ∧ st.1.cols = temp.cols ∧ st.2.len = out.len) ∧
      ∀ q, q < batch → ∀ p, p < g.h * g.w → (q < r ∨ (q = r ∧ p < s)) →
        st.1.get (c q) p = (vals g x off c q p - b.mean.get p) / Real.sqrt (b.var.get p + b.eps) ∧
        st.2.get (off + (c q * g.plane + g.cell p)) =
          (vals g x off c q p - b.mean.get p) / Real.sqrt (b.var.get p + b.eps) * b.gamma.get p + b.beta.get p) ∧
      ∀ u, (∀ q, q < batch → ∀ p, p < g.h * g.w → u ≠ off + (c q * g.plane + g.cell p)) → st.2.get u = out.get u)
    ⟨⟨⟨rfl, rfl, rfl⟩, by intro i _ j _ h; omega⟩, fun _ _ => rfl⟩
    (by
      rintro r hr' s hs ⟨t, o⟩ ⟨⟨⟨l1, l2, l3⟩, h⟩, hun⟩
      dsimp only at l1 l2 l3 h hun ⊢
      have hcell := cell_lt g hr hc hs
      have hxr := hx r hr'
      rw [Nat.succ_mul] at hxr
      have htr := ht.1 r hr'
      have htc := ht.2
      rw [Arr.read_eq (by omega), Arr.read_eq (by omega), Arr.read_eq (by omega)]
      simp only [Option.bind_some]
      rw [Mat.write_eq _ (by omega) (by omega)]
      simp only [Option.bind_some]
      rw [Mat.read_eq (by dsimp only; omega) (by dsimp only; omega), Arr.read_eq (by omega), Arr.read_eq (by omega)]
      simp only [Option.bind_some]
      rw [Arr.write_eq _ (by omega)]
      refine ⟨_, rfl, ⟨⟨l1, l2, l3⟩, ?_⟩, ?_⟩
      · intro q hq p hp' hd
        dsimp only
        by_cases heq : q = r ∧ p = s
        · obtain ⟨rfl, rfl⟩ := heq
          simp [vals]
        · have hne1 : ¬ (c q = c r ∧ p = s) := fun hh => heq ⟨cinj q r hq hr' hh.1, hh.2⟩
          have hne2 : off + (c q * g.plane + g.cell p) ≠ off + (c r * g.plane + g.cell s) := by
            intro hh
            obtain ⟨a1, a2⟩ := split_inj (cell_lt g hr hc hp') hcell (Nat.add_left_cancel hh)
            exact heq ⟨cinj q r hq hr' a1, cell_inj g hc hp' a2⟩
          rw [if_neg hne1, Function.update_of_ne hne2]
          exact h q hq p hp' (by omega)
      · intro u hu
        dsimp only
        rw [Function.update_of_ne (hu r hr' s hs)]
        exact hun u hu)
    (by
      rintro r hr' st ⟨⟨hl, h⟩, hun⟩
      exact ⟨⟨hl, fun i hi j hj hd => h i hi j hj (by omega)⟩, hun⟩)
  refine ⟨t, o, ?_, ⟨d1, d2, d3⟩, fun q hq p hp' => h1 q hq p hp' (Or.inl hq), h2⟩
  unfold normPass
  rw [forUsed_eq hp, ← e]
  refine loop_congr fun q _ s => ?_
  rw [cells_eq g hr hc]
  rfl

/-- **C97.** `channel_normalization_feed_forward` on the first `batch` used channels of a padded
tensor stays in bounds, stores the mean and variance over these channels of every cell inside the
padding, and writes the normalised cells of these channels and nothing else. `temp_vectors` must
have a row for every channel up to the last one used. -/
theorem C97_channel_norm (hb : 1 ≤ batch) (hp : Picks used batch c) (g : Geo) (hr : 2 * g.pr ≤ g.rows) (hc : 2 * g.pc ≤ g.cols)
    (x : Arr ℝ) (off : Nat) (hx : ∀ q, q < batch → off + (c q + 1) * g.plane ≤ x.len) (b : Bn) (hrd : b.Ready g (c (batch - 1) + 1))
    (out : Arr ℝ) (ho : out.len = x.len) :
    ∃ b' out', channelFF used batch g x off b out = some (b', out') ∧ (b'.gamma = b.gamma ∧ b'.beta = b.beta ∧ b'.eps = b.eps) ∧
      out'.len = out.len ∧ (∀ j, j < g.h → ∀ k, k < g.w →
        b'.mean.get (j * g.w + k) = g.mean batch x.get (fun q => off + c q * g.plane) j k ∧
        b'.var.get (j * g.w + k) = g.var batch x.get (fun q => off + c q * g.plane) j k) ∧
      Normalised g batch x.get (fun q => off + c q * g.plane) b out'.get ∧
      ∀ u, (∀ q, q < batch → ∀ j, j < g.h → ∀ k, k < g.w → u ≠ g.at (off + c q * g.plane) j k) → out'.get u = out.get u := by
  have hcq : ∀ q, q < batch → c q < b.temp.rows := by
    intro q hq
    have := hrd.temp.1
    rcases Nat.lt_or_ge q (batch - 1) with h | h
    · have := hp.mono q (batch - 1) h (by omega)
      omega
    · rw [show q = batch - 1 by omega]
      omega
  obtain ⟨m, e1, l1, h1⟩ := meanPass_eq hp hb g hr hc x off hx b.mean hrd.mean.1 hrd.mean.2
  obtain ⟨v, e2, l2, h2⟩ := varPass_eq hp hb g hr hc x off hx m b.var (by have := hrd.mean.1; omega) hrd.var.1 h1 hrd.var.2
  obtain ⟨t, o, e3, ⟨d1, d2, d3⟩, h3, h4⟩ := normPass_eq hp g hr hc x off hx { b with mean := m, var := v } (by have := hrd.mean.1; dsimp only; omega)
    (by have := hrd.var.1; dsimp only; omega) hrd.gamma hrd.beta b.temp out ⟨hcq, hrd.temp.2⟩ ho
  have hat : ∀ q j k, k < g.w → off + (c q * g.plane + g.cell (j * g.w + k)) = g.at (off + c q * g.plane) j k := by
    intro q j k hk
    rw [← Nat.add_assoc, cell_at g hk]
  have hmu : ∀ j k, k < g.w → BatchNorm.mu batch (vals g x off c) (j * g.w + k) = g.mean batch x.get (fun q => off + c q * g.plane) j k := by
    intro j k hk
    unfold BatchNorm.mu Geo.mean vals
    congr 1
    exact Finset.sum_congr rfl fun q _ => by rw [hat q j k hk]
  have hvr : ∀ j k, k < g.w → BatchNorm.vr batch (vals g x off c) (j * g.w + k) = g.var batch x.get (fun q => off + c q * g.plane) j k := by
    intro j k hk
    unfold BatchNorm.vr Geo.var
    congr 1
    refine Finset.sum_congr rfl fun q _ => ?_
    rw [hmu j k hk]
    unfold vals
    rw [hat q j k hk]
  refine ⟨{ b with mean := m, var := v, temp := t }, o, ?_, ⟨rfl, rfl, rfl⟩, d3, ?_, ?_, ?_⟩
  · unfold channelFF
    rw [e1, Option.bind_some, e2, Option.bind_some, e3, Option.bind_some]
  · intro j hj k hk
    exact ⟨by rw [← hmu j k hk]; exact h1 _ (pos_lt hj hk), by rw [← hvr j k hk]; exact h2 _ (pos_lt hj hk)⟩
  · intro j hj k hk q hq
    have := (h3 q hq _ (pos_lt hj hk)).2
    dsimp only at this
    rw [hat q j k hk, h1 _ (pos_lt hj hk), h2 _ (pos_lt hj hk), hmu j k hk, hvr j k hk] at this
    rw [this]
    unfold vals
    rw [hat q j k hk, mul_comm]
  · intro u hu
    refine h4 u fun q hq p hp' => ?_
    have hw : 0 < g.w := Nat.pos_of_mul_pos_left (by omega : 0 < g.h * g.w)
    have hk := Nat.mod_lt p hw
    have hj : p / g.w < g.h := Nat.div_lt_of_lt_mul (by rw [mul_comm]; exact hp')
    have := hu q hq (p / g.w) hj (p % g.w) hk
    rw [← hat q _ _ hk, show p / g.w * g.w + p % g.w = p by rw [mul_comm]; exact Nat.div_add_mod p g.w] at this
    exact this

end

/-! ### Groups -/

theorem picks_all (used : Arr Int) (hu : ∀ k, k < used.len → used.get k ≠ 0) (n : Nat) (hn : n ≤ used.len) : Picks (some used) n (fun q => q) where
  mono _ _ h _ := h
  on q hq := by
    simp only [isUsed]
    rw [Arr.read_eq (by omega), Option.bind_some]
    simp [hu q (by omega)]
  skipped q _ i hi := Or.inl ⟨i, hi, rfl⟩

theorem skip_all (used : Arr Int) (hu : ∀ k, k < used.len → used.get k ≠ 0) (n : Nat) : ∀ (fuel k counter : Nat), k + (n - counter) ≤ used.len →
    n - counter ≤ fuel → skip used n fuel k counter = some 0 := by
  intro fuel
  induction fuel with
  | zero =>
    intro k counter _ h
    unfold skip
    rw [if_neg (by omega)]
  | succ fuel ih =>
    intro k counter h1 h2
    unfold skip
    by_cases h : counter < n
    · rw [if_pos h]
      dsimp only
      rw [Arr.read_eq (by omega), Option.bind_some, if_pos (hu k (by omega))]
      exact ih _ _ (by omega) (by omega)
    · rw [if_neg h]

/-- One group, when every channel is used. -/
theorem groupGo_step (used : Arr Int) (hu : ∀ k, k < used.len → used.get k ≠ 0) (n stride nb : Nat) (g : Geo) (x : Arr ℝ) (fuel i j : Nat)
    (hj : j < nb) (h1 : 1 ≤ n) (hi : i + n ≤ used.len) (bns : List Bn) (out : Arr ℝ) (b b' : Bn) (out' : Arr ℝ) (hb : bns[j]? = some b)
    (hr : channelFF (some used) n g x i b out = some (b', out')) :
    groupGo used n stride nb g x (fuel + 1) i j (bns, out) = groupGo used n stride nb g x fuel (i + stride) (j + 1) (bns.set j b', out') := by
  conv_lhs => unfold groupGo
  rw [if_pos (by exact_mod_cast hj)]
  dsimp only
  rw [Arr.read_eq (by omega), Option.bind_some, if_pos (hu i (by omega)), hb, Option.bind_some, hr, Option.bind_some,
    skip_all used hu n _ _ _ (by omega) (by omega), Option.bind_some, Nat.add_zero]

theorem groupGo_done (used : Arr Int) (n stride nb : Nat) (g : Geo) (x : Arr ℝ) (fuel i j : Nat) (hj : nb ≤ j) (st : List Bn × Arr ℝ) :
    groupGo used n stride nb g x fuel i j st = some st := by
  unfold groupGo
  rw [if_neg (by omega)]

/-- The base of channel `q` of group `j`. -/
def gbase (g : Geo) (n j q : Nat) : Nat := (j * n + q) * g.plane

theorem at_lt (g : Geo) (hr : 2 * g.pr ≤ g.rows) (hc : 2 * g.pc ≤ g.cols) (base : Nat) {j k : Nat} (hj : j < g.h) (hk : k < g.w) :
    g.at base j k < base + g.plane := by
  rw [← cell_at g hk]
  have := cell_lt g hr hc (pos_lt hj hk)
  omega

theorem group_run (used : Arr Int) (hu : ∀ k, k < used.len → used.get k ≠ 0) (n nb : Nat) (hn : 1 ≤ n) (hlen : used.len = nb * n) (g : Geo)
    (hr : 2 * g.pr ≤ g.rows) (hc : 2 * g.pc ≤ g.cols) (x : Arr ℝ) (hx : nb * n * g.plane ≤ x.len) (hoff : ∀ j, j < nb → j * n * g.plane = j * n)
    (bns : List Bn) (hb : ∀ j, j < nb → ∃ b, bns[j]? = some b ∧ b.Ready g n) :
    ∀ (r j fuel : Nat), j + r = nb → r ≤ fuel → ∀ (cur : List Bn) (out : Arr ℝ), out.len = x.len → (∀ j', j ≤ j' → cur[j']? = bns[j']?) →
      ∃ st', groupGo used n n nb g x fuel (j * n) j (cur, out) = some st' ∧ st'.2.len = out.len ∧
        (∀ j', j ≤ j' → j' < nb → ∃ b, bns[j']? = some b ∧ Normalised g n x.get (gbase g n j') b st'.2.get) ∧
        ∀ u, u < j * n * g.plane → st'.2.get u = out.get u := by
  intro r
  induction r with
  | zero =>
    intro j fuel hj _ cur out _ _
    exact ⟨(cur, out), groupGo_done _ _ _ _ _ _ _ _ _ (by omega) _, rfl, fun j' h1 h2 => by omega, fun _ _ => rfl⟩
  | succ r ih =>
    intro j fuel hj hf cur out ho hcur
    obtain ⟨f, rfl⟩ : ∃ f, fuel = f + 1 := ⟨fuel - 1, by omega⟩
    have hjn : j < nb := by omega
    have hjb : (j + 1) * n ≤ nb * n := Nat.mul_le_mul_right _ (by omega)
    have hjb' : (j + 1) * n = j * n + n := by ring
    obtain ⟨b, hb1, hb2⟩ := hb j hjn
    have hb2' : b.Ready g (n - 1 + 1) := by rw [Nat.sub_add_cancel hn]; exact hb2
    obtain ⟨b', out', e, _, l, _, hN, hun⟩ := C97_channel_norm hn (picks_all used hu n (by omega)) g hr hc x (j * n) (fun q hq => by
      rw [← hoff j hjn, ← Nat.add_mul]
      refine le_trans (Nat.mul_le_mul_right _ ?_) hx
      omega) b hb2' out ho
    rw [groupGo_step used hu n n nb g x f (j * n) j hjn hn (by omega) cur out b b' out' ((hcur j (le_refl _)).trans hb1) e]
    obtain ⟨st', e', l', h1, h2⟩ := ih (j + 1) f (by omega) (by omega) (cur.set j b') out' (by omega) (fun j' hj' => by
      rw [List.getElem?_set_ne (by omega)]
      exact hcur j' (by omega))
    rw [hjb'] at e'
    have hbase : ∀ q, j * n + q * g.plane = gbase g n j q := by
      intro q
      unfold gbase
      rw [Nat.add_mul, hoff j hjn]
    refine ⟨st', e', by omega, fun j' h3 h4 => ?_, fun u hu' => ?_⟩
    · rcases Nat.eq_or_lt_of_le h3 with h | h
      · subst h
        refine ⟨b, hb1, fun jj hjj kk hkk q hq => ?_⟩
        have hN' := hN jj hjj kk hkk q hq
        simp only [hbase] at hN'
        rw [h2, hN']
        refine lt_of_lt_of_le (at_lt g hr hc _ hjj hkk) ?_
        unfold gbase
        calc (j * n + q) * g.plane + g.plane = (j * n + q + 1) * g.plane := by ring
          _ ≤ (j + 1) * n * g.plane := Nat.mul_le_mul_right _ (by omega)
      · exact h1 j' h h4
    · rw [h2 u (lt_of_lt_of_le hu' (Nat.mul_le_mul_right _ (by omega)))]
      refine hun u fun q _ jj _ kk _ => ?_
      unfold Geo.at
      rw [← hoff j hjn]
      omega

/-- The number of groups computed at `/repo/src/normalization.c` 582. -/
theorem groupFF_all (used : Arr Int) (hu : ∀ k, k < used.len → used.get k ≠ 0) (n nb : Nat) (hn : 1 ≤ n) (hlen : used.len = nb * n)
    (g : Geo) (x : Arr ℝ) (st : List Bn × Arr ℝ) : groupFF used n n g x st = groupGo used n n nb g x used.len 0 0 st := by
  have hcount : ((List.range used.len).filter fun k => used.get k ≠ 0).length = nb * n := by
    rw [List.filter_eq_self.2 (by intro k hk; simpa using hu k (List.mem_range.1 hk)), List.length_range, hlen]
  unfold groupFF
  rw [if_neg (by omega), hcount, if_neg (by simp)]
  congr 1
  have : ((nb * n : Nat) : Int) - n = ((nb : Int) - 1) * n := by push_cast; ring
  rw [this, Int.mul_tdiv_cancel _ (by omega)]
  omega

/-- **C98 (what holds).** When every channel is used, the groups do not overlap and either there
is one group or a channel has one cell, `group_normalization_feed_forward` normalises every group
of `n` channels. Missing: channels of more than one cell in more than one group, see
`C98_group_norm_refuted`, and unused channels, see `C98_unused_refuted`. -/
theorem C98_group_norm_partial (used : Arr Int) (hu : ∀ k, k < used.len → used.get k ≠ 0) (n nb : Nat) (hn : 1 ≤ n)
    (hlen : used.len = nb * n) (g : Geo) (hr : 2 * g.pr ≤ g.rows) (hc : 2 * g.pc ≤ g.cols) (hone : nb = 1 ∨ g.plane = 1) (x : Arr ℝ)
    (hx : nb * n * g.plane ≤ x.len) (bns : List Bn) (hb : ∀ j, j < nb → ∃ b, bns[j]? = some b ∧ b.Ready g n) (out : Arr ℝ) (ho : out.len = x.len) :
    ∃ bns' out', groupFF used n n g x (bns, out) = some (bns', out') ∧
      ∀ j, j < nb → ∃ b, bns[j]? = some b ∧ Normalised g n x.get (fun q => (j * n + q) * g.plane) b out'.get := by
  rw [groupFF_all used hu n nb hn hlen]
  obtain ⟨st', e, _, h, _⟩ := group_run used hu n nb hn hlen g hr hc x hx (fun j hj => by
    rcases hone with h | h
    · rw [show j = 0 by omega]; simp
    · rw [h, Nat.mul_one]) bns hb nb 0 used.len (by omega) (by rw [hlen]; exact Nat.le_mul_of_pos_right _ hn) bns out ho (fun _ _ => rfl)
  rw [Nat.zero_mul] at e
  exact ⟨st'.1, st'.2, e, fun j hj => h j (Nat.zero_le _) hj⟩

/-! ### Concrete cases and refutations -/

/-- C97 applies: the second and third of three channels of two cells, `bn` with three rows. -/
example : ∃ b' out', channelFF (some ⟨3, fun k => if k = 0 then 0 else 1⟩) 2 ⟨1, 2, 0, 0⟩ ⟨6, fun k => k⟩ 0
      ⟨⟨2, fun _ => 0⟩, ⟨2, fun _ => 0⟩, ⟨2, fun _ => 1⟩, ⟨2, fun _ => 1⟩, ⟨3, 2, fun _ _ => 0⟩, 1⟩ ⟨6, fun _ => 7⟩ = some (b', out') ∧
    b'.mean.get 1 = 4 ∧ out'.get 0 = 7 := by
  have hp : Picks (some ⟨3, fun k => if k = 0 then 0 else 1⟩) 2 (fun q => q + 1) := by
    refine ⟨fun q r h _ => by omega, fun q hq => ?_, fun q hq i hi => ?_⟩
    · simp only [isUsed]
      rw [Arr.read_eq (by dsimp only; omega)]
      simp
    · rcases Nat.eq_zero_or_pos i with h | h
      · right
        subst h
        rfl
      · exact Or.inl ⟨i - 1, by omega, by omega⟩
  obtain ⟨b', out', e, _, _, hm, _, hu⟩ := C97_channel_norm (by omega) hp ⟨1, 2, 0, 0⟩ (by simp) (by simp) ⟨6, fun k => k⟩ 0
    (fun q hq => by simp only [Geo.plane]; omega)
    ⟨⟨2, fun _ => 0⟩, ⟨2, fun _ => 0⟩, ⟨2, fun _ => 1⟩, ⟨2, fun _ => 1⟩, ⟨3, 2, fun _ _ => 0⟩, 1⟩
    (by constructor <;> (try constructor) <;> intros <;> simp [Geo.h, Geo.w]) ⟨6, fun _ => 7⟩ rfl
  refine ⟨b', out', e, ?_, ?_⟩
  · have := (hm 0 (by decide) 1 (by decide)).1
    simp only [Geo.w, Geo.mean, Geo.at, Geo.plane, Finset.sum_range_succ, Finset.sum_range_zero] at this
    norm_num at this
    exact this
  · exact hu 0 fun q _ j _ k _ => by simp only [Geo.at, Geo.plane]; omega

/-- A `bn` for one channel of two cells. -/
noncomputable def demoBn : Bn := ⟨⟨2, fun _ => 0⟩, ⟨2, fun _ => 0⟩, ⟨2, fun _ => 1⟩, ⟨2, fun _ => 1⟩, ⟨1, 2, fun _ _ => 0⟩, 1⟩

/-- One row of two cells, no padding. -/
def demoGeo : Geo := ⟨1, 2, 0, 0⟩

theorem demoBn_ready : demoBn.Ready demoGeo 1 := by
  constructor <;> (try constructor) <;> intros <;> simp [demoBn, demoGeo, Geo.h, Geo.w]

/-- **C98 (refuted).** With two groups of one channel of two cells the second group is normalised
from cell 1 instead of cell 2, and the last cell of the tensor is never written. -/
theorem C98_group_norm_refuted : ¬ ∀ (used : Arr Int) (n nb : Nat) (g : Geo) (x : Arr ℝ) (bns : List Bn) (out : Arr ℝ),
    (∀ k, k < used.len → used.get k ≠ 0) → 1 ≤ n → 1 ≤ nb → used.len = nb * n → nb * n * g.plane ≤ x.len →
    (∀ j, j < nb → ∃ b, bns[j]? = some b ∧ b.Ready g n) → out.len = x.len →
    ∃ bns' out', groupFF used n n g x (bns, out) = some (bns', out') ∧
      ∀ j, j < nb → ∃ b, bns[j]? = some b ∧ Normalised g n x.get (fun q => (j * n + q) * g.plane) b out'.get := by
  intro h
  have hu : ∀ k, k < (⟨2, fun _ => 1⟩ : Arr Int).len → (⟨2, fun _ => 1⟩ : Arr Int).get k ≠ 0 := fun _ _ => by simp
  obtain ⟨bns', out', e, hN⟩ := h ⟨2, fun _ => 1⟩ 1 2 demoGeo ⟨4, fun _ => 0⟩ [demoBn, demoBn] ⟨4, fun _ => 0⟩ hu (le_refl _) (by omega)
    (by simp) (by simp [demoGeo, Geo.plane]) (fun j hj => by
      refine ⟨demoBn, ?_, demoBn_ready⟩
      rcases Nat.lt_succ_iff_lt_or_eq.1 hj with h | h
      · rw [show j = 0 by omega]; rfl
      · rw [h]; rfl) rfl
  rw [groupFF_all _ hu 1 2 (by omega) (by simp)] at e
  obtain ⟨b1, o1, e1, _, l1, _, _, u1⟩ := C97_channel_norm (le_refl 1) (picks_all _ hu 1 (by simp)) demoGeo (by simp [demoGeo]) (by simp [demoGeo])
    ⟨4, fun _ => 0⟩ 0 (fun q hq => by rw [show q = 0 by omega]; simp [demoGeo, Geo.plane]) demoBn demoBn_ready ⟨4, fun _ => 0⟩ rfl
  obtain ⟨b2, o2, e2, _, l2, _, _, u2⟩ := C97_channel_norm (le_refl 1) (picks_all _ hu 1 (by simp)) demoGeo (by simp [demoGeo]) (by simp [demoGeo])
    ⟨4, fun _ => 0⟩ 1 (fun q hq => by rw [show q = 0 by omega]; simp [demoGeo, Geo.plane]) demoBn demoBn_ready o1 l1
  rw [groupGo_step _ hu 1 1 2 demoGeo _ 1 0 0 (by omega) (le_refl _) (by simp) [demoBn, demoBn] _ demoBn b1 o1 rfl e1,
    groupGo_step _ hu 1 1 2 demoGeo _ 0 1 1 (by omega) (le_refl _) (by simp) _ o1 demoBn b2 o2 rfl e2,
    groupGo_done _ _ _ _ _ _ _ _ _ (by omega) _] at e
  obtain ⟨_, rfl⟩ := Prod.mk.inj (Option.some.inj e)
  obtain ⟨b, hb, hN⟩ := hN 1 (by omega)
  cases hb
  have h3 := hN 0 (by decide) 1 (by decide) 0 (by omega)
  have hat : demoGeo.at ((1 * 1 + 0) * demoGeo.plane) 0 1 = 3 := rfl
  have z2 : o2.get 3 = o1.get 3 := u2 3 fun q hq j hj k hk => by
    rw [show q = 0 by omega, show j = 0 by (have : j < 1 := hj); omega]
    have : k < 2 := hk
    simp only [Geo.at, demoGeo, Geo.plane]
    omega
  have z1 : o1.get 3 = 0 := u1 3 fun q hq j hj k hk => by
    rw [show q = 0 by omega, show j = 0 by (have : j < 1 := hj); omega]
    have : k < 2 := hk
    simp only [Geo.at, demoGeo, Geo.plane]
    omega
  rw [hat, z2, z1] at h3
  have hm : demoGeo.mean 1 (⟨4, fun _ => 0⟩ : Arr ℝ).get (fun q => (1 * 1 + q) * demoGeo.plane) 0 1 = 0 := by simp [Geo.mean]
  rw [hm] at h3
  norm_num [demoBn] at h3

/-- **C98 (refuted).** With an unused channel before it, the used channel is read from the wrong
place, past the end of the tensor. -/
theorem C98_unused_refuted : groupFF ⟨2, fun k => if k = 0 then 0 else 1⟩ 1 1 demoGeo ⟨4, fun _ => 0⟩ ([demoBn], ⟨4, fun _ => 0⟩) = none := by
  rfl

end LLab.GroupNorm
