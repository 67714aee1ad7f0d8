import Verif.Math.Clip
import Verif.Utils.Argmax
import Verif.Common.Act
import Verif.Common.Mat
import Mathlib.Algebra.Order.Archimedean.Real.Basic
import Mathlib.Algebra.Order.Floor.Ring
import Mathlib.Analysis.SpecialFunctions.Log.Deriv
import Mathlib.Analysis.Calculus.Deriv.Add
import Mathlib.Analysis.Calculus.Deriv.Mul
import Mathlib.Tactic.Linarith
import Mathlib.Tactic.FieldSimp
import Mathlib.Tactic.Ring
import Mathlib.Tactic.NormNum

/-! The categorical target of the dueling DQN
(`/repo/src/dueling_categorical_dqn.c` 130, 143-147, 1518-1595, 1629-1682,
1756-1825): support, projection, cross-entropy error and the choice of the
bootstrap action (C16, C74). Real numbers instead of floats: `b` is exact. -/

namespace LLab.Categorical

open Finset

/-- The support built by `dueling_categorical_dqn_init`
(`/repo/src/dueling_categorical_dqn.c` 142-147): the last write is `support[n_atoms-1]`. -/
noncomputable def initSupport (n : Nat) (vmin vmax : ℝ) : Option (Arr ℝ) := do
  let z := (vmax - vmin) / ((n : ℝ) - 1)
  let s ← loop (n - 1) (fun i (s : Arr ℝ) => s.write i (vmin + i * z)) ⟨n, fun _ => 0⟩
  s.write (n - 1) vmax

/-- C conversion of a float to `int`: truncation towards zero. -/
noncomputable def trunc (x : ℝ) : Int := if 0 ≤ x then ⌊x⌋ else ⌈x⌉

/-- `m[i] += v` with a C `int` index: a negative index is out of bounds. -/
noncomputable def addAtI (m : Arr ℝ) (i : Int) (v : ℝ) : Option (Arr ℝ) :=
  if 0 ≤ i then m.addAt i.toNat v else none

/-- The indices `l`, `u` (`/repo/src/dueling_categorical_dqn.c` 1564-1572,
1652-1660, 1783-1791). -/
noncomputable def cells (b : ℝ) : Int × Int :=
  if b ≠ (trunc b : ℝ) then (trunc b, trunc b + 1)
  else if 0 < trunc b then (trunc b - 1, trunc b - 1 + 1)
  else (trunc b, trunc b + 1)

/-- `tzj` before clipping (`/repo/src/dueling_categorical_dqn.c` 1555-1560). -/
noncomputable def targets (n : Nat) (reward lam : ℝ) (support : Arr ℝ) (nonterminal : Bool) : Option (Arr ℝ) :=
  loop n (fun i (t : Arr ℝ) =>
    if nonterminal then (support.read i).bind fun s => t.write i (reward + lam * s)
    else t.write i reward) ⟨n, fun _ => 0⟩

/-- One round of the projection loop (`/repo/src/dueling_categorical_dqn.c`
1563-1580). -/
noncomputable def spread (n : Nat) (vmin z : ℝ) (t ts : Arr ℝ) (act : Nat) (nonterminal : Bool) (i : Nat)
    (m : Arr ℝ) : Option (Arr ℝ) :=
  (t.read i).bind fun ti =>
  if nonterminal then
    (ts.read (act * n + i)).bind fun p =>
    (addAtI m (cells ((ti - vmin) / z)).1 (p * ((cells ((ti - vmin) / z)).2 - (ti - vmin) / z))).bind fun m =>
    addAtI m (cells ((ti - vmin) / z)).2 (p * ((ti - vmin) / z - (cells ((ti - vmin) / z)).1))
  else
    (addAtI m (cells ((ti - vmin) / z)).1 (((cells ((ti - vmin) / z)).2 - (ti - vmin) / z) / (n : ℝ))).bind fun m =>
    addAtI m (cells ((ti - vmin) / z)).2 (((ti - vmin) / z - (cells ((ti - vmin) / z)).1) / (n : ℝ))

/-- The projected distribution `m` (`/repo/src/dueling_categorical_dqn.c`
1552-1581; the same code at 1638-1669 and 1768-1800). `ts` is the softmax layer
of the target network and `act` the bootstrap action. -/
noncomputable def project (n : Nat) (vmin vmax z reward lam : ℝ) (support ts : Arr ℝ) (act : Nat)
    (nonterminal : Bool) : Option (Arr ℝ) :=
  (targets n reward lam support nonterminal).bind fun t =>
  (Clip.clip t vmin vmax n).bind fun t =>
  loop n (spread n vmin z t ts act nonterminal) ⟨n, fun _ => 0⟩

/-- The error of the taken action (`/repo/src/dueling_categorical_dqn.c`
1582-1590). -/
noncomputable def errorRow (n actionT : Nat) (m os error : Arr ℝ) : Option (Arr ℝ) :=
  loop n (fun i (error : Arr ℝ) =>
    (m.read i).bind fun mi =>
    if mi = 0 then error.write (actionT * n + i) 0
    else (os.read (actionT * n + i)).bind fun p =>
      if p = 0 then error.write (actionT * n + i) (-99999)
      else error.write (actionT * n + i) (-mi / p)) error

/-- `compute_q_functions` (`/repo/src/dueling_categorical_dqn.c` 1518-1528). -/
noncomputable def qFunctions (n A : Nat) (soft support q : Arr ℝ) : Option (Arr ℝ) :=
  loop A (fun i q => loop n (fun j (q : Arr ℝ) =>
    (soft.read (i * n + j)).bind fun p => (support.read j).bind fun s => q.addAt i (p * s)) q) q

/-- `copy_array(&src[off], &dst[off], n)` (`/repo/src/utils.c` 614). -/
noncomputable def copyRow (n off : Nat) (src dst : Arr ℝ) : Option (Arr ℝ) :=
  loop n (fun i (d : Arr ℝ) => (src.read (off + i)).bind fun x => d.write (off + i) x) dst

/-- Bootstrap action and source distribution of
`get_loss_for_dueling_categorical_dqn` (`/repo/src/dueling_categorical_dqn.c`
1545-1548), and of the variant returning an error (1758-1762): `os`, `ts` are
the softmax layers of the online and target networks at the next state, `q` is
the buffer `q_functions` of the target network. The `q_functions` of the online
network are computed but never read, and left out. -/
noncomputable def bootstrap (n A : Nat) (support os ts q : Arr ℝ) : Option (Int × Arr ℝ) :=
  (qFunctions n A ts support q).bind fun q =>
  (Utils.argmax (some ((List.range q.len).map q.get)) A).bind fun act =>
  (copyRow n (act.toNat * n) os ts).bind fun ts =>
  some (act, ts)

/-- The same for `get_loss_for_dueling_categorical_dqn_opt`
(`/repo/src/dueling_categorical_dqn.c` 1631-1634), which does not copy. -/
noncomputable def bootstrapOpt (n A : Nat) (support ts q : Arr ℝ) : Option (Int × Arr ℝ) :=
  (qFunctions n A ts support q).bind fun q =>
  (Utils.argmax (some ((List.range q.len).map q.get)) A).bind fun act =>
  some (act, ts)

/-! ### Specification -/

/-- Atom `k` of `n` evenly spaced atoms on `[vmin, vmax]`. -/
noncomputable def atom (n : Nat) (vmin vmax : ℝ) (k : Nat) : ℝ := vmin + k * ((vmax - vmin) / ((n : ℝ) - 1))

/-- The shifted and clipped target of atom `i`. -/
noncomputable def target (n : Nat) (vmin vmax reward lam : ℝ) (nonterminal : Bool) (i : Nat) : ℝ :=
  Clip.nearest vmin vmax (if nonterminal then reward + lam * atom n vmin vmax i else reward)

/-! ### Proofs -/

theorem initSupport_eq (n : Nat) (hn : 2 ≤ n) (vmin vmax : ℝ) :
    ∃ s, initSupport n vmin vmax = some s ∧ s.len = n ∧ ∀ k, k < n → s.get k = atom n vmin vmax k := by
  have e := loop_fill (n := n - 1) (a := (⟨n, fun _ => 0⟩ : Arr ℝ))
    (v := fun i : Nat => vmin + (i : ℝ) * ((vmax - vmin) / ((n : ℝ) - 1)))
    (f := fun i (s : Arr ℝ) => s.write i (vmin + i * ((vmax - vmin) / ((n : ℝ) - 1))))
    (by
      intro i hi b hb _
      dsimp only at hb
      rw [Arr.write_eq _ (by omega)])
  refine ⟨_, (bind_some_of e).trans (Arr.write_eq _ (by dsimp only; omega)), rfl, ?_⟩
  intro k hk
  dsimp only
  by_cases h : k = n - 1
  · subst h
    have h1 : ((n - 1 : Nat) : ℝ) = (n : ℝ) - 1 := by rw [Nat.cast_sub (by omega)]; simp
    have h2 : (n : ℝ) - 1 ≠ 0 := by
      have : (2 : ℝ) ≤ n := by exact_mod_cast hn
      linarith
    rw [Function.update_self, atom, h1]
    field_simp
    ring
  · rw [Function.update_of_ne h, if_pos (by omega), atom]

theorem cells_spec (n : Nat) (hn : 2 ≤ n) (b : ℝ) (h0 : 0 ≤ b) (h1 : b ≤ (n : ℝ) - 1) :
    ∃ l : Nat, cells b = ((l : Int), (l : Int) + 1) ∧ l + 1 < n ∧ (l : ℝ) ≤ b ∧ b ≤ (l : ℝ) + 1 := by
  have ht : trunc b = ⌊b⌋ := if_pos h0
  have hf : 0 ≤ ⌊b⌋ := Int.floor_nonneg.2 h0
  obtain ⟨l, hl⟩ := Int.eq_ofNat_of_zero_le hf
  have hle : (l : ℝ) ≤ b := by
    have := Int.floor_le b; rw [hl] at this; exact_mod_cast this
  have hlt : b < (l : ℝ) + 1 := by
    have := Int.lt_floor_add_one b; rw [hl] at this; exact_mod_cast this
  unfold cells
  rw [ht, hl]
  by_cases hb : b = ((l : Int) : ℝ)
  · have hb' : b = (l : ℝ) := by exact_mod_cast hb
    rw [if_neg (by simpa using hb)]
    have hln : l ≤ n - 1 := by
      have : (l : ℝ) ≤ ((n - 1 : Nat) : ℝ) := by rw [Nat.cast_sub (by omega)]; rw [← hb']; simpa using h1
      exact_mod_cast this
    by_cases hp : 0 < (l : Int)
    · rw [if_pos hp]
      refine ⟨l - 1, ?_, by omega, ?_, ?_⟩
      · have : ((l - 1 : Nat) : Int) = (l : Int) - 1 := by omega
        rw [this]
      · rw [Nat.cast_sub (by omega)]; simp; linarith
      · rw [Nat.cast_sub (by omega)]; simp; linarith
    · rw [if_neg hp]
      exact ⟨l, rfl, by omega, hle, hlt.le⟩
  · rw [if_pos hb]
    refine ⟨l, rfl, ?_, hle, hlt.le⟩
    have hne : (l : ℝ) ≠ b := fun h => hb (by rw [← h]; simp)
    have : (l : ℝ) < ((n - 1 : Nat) : ℝ) := by
      rw [Nat.cast_sub (by omega)]
      have := lt_of_le_of_ne hle hne
      simp; linarith
    have : l < n - 1 := by exact_mod_cast this
    omega

/-- The triangular kernel written as two entries. -/
theorem hat_split (l k : Nat) (b : ℝ) (h1 : (l : ℝ) ≤ b) (h2 : b ≤ (l : ℝ) + 1) :
    max 0 (1 - |b - k|) = (if k = l then (l : ℝ) + 1 - b else 0) + (if k = l + 1 then b - l else 0) := by
  rcases lt_trichotomy k l with h | h | h
  · have hk : (k : ℝ) + 1 ≤ l := by exact_mod_cast h
    rw [if_neg (by omega), if_neg (by omega), add_zero, abs_of_nonneg (by linarith), max_eq_left (by linarith)]
  · subst h
    rw [if_pos rfl, if_neg (by omega), add_zero, abs_of_nonneg (by linarith), max_eq_right (by linarith)]
    ring
  · rw [if_neg (by omega)]
    by_cases h' : k = l + 1
    · subst h'
      push_cast
      rw [if_pos rfl, abs_of_nonpos (by linarith), max_eq_right (by linarith)]
      ring
    · have hk : (l : ℝ) + 2 ≤ k := by
        have : l + 2 ≤ k := by omega
        exact_mod_cast this
      rw [if_neg h', add_zero, abs_of_nonpos (by linarith), max_eq_left (by linarith)]

theorem hat_sums (n : Nat) (hn : 2 ≤ n) (b : ℝ) (h0 : 0 ≤ b) (h1 : b ≤ (n : ℝ) - 1) :
    ∑ k ∈ range n, max 0 (1 - |b - (k : ℝ)|) = 1 ∧ ∑ k ∈ range n, max 0 (1 - |b - (k : ℝ)|) * (k : ℝ) = b := by
  obtain ⟨l, -, hl, h2, h3⟩ := cells_spec n hn b h0 h1
  constructor
  · rw [Finset.sum_congr rfl fun k _ => hat_split l k b h2 h3, Finset.sum_add_distrib, Finset.sum_ite_eq',
      Finset.sum_ite_eq', if_pos (Finset.mem_range.2 (by omega)), if_pos (Finset.mem_range.2 (by omega))]
    ring
  · rw [Finset.sum_congr rfl fun k _ => by rw [hat_split l k b h2 h3]]
    simp only [add_mul, ite_mul, zero_mul]
    rw [Finset.sum_add_distrib, Finset.sum_ite_eq', Finset.sum_ite_eq', if_pos (Finset.mem_range.2 (by omega)),
      if_pos (Finset.mem_range.2 (by omega))]
    push_cast
    ring

theorem spread_eq (n : Nat) (hn : 2 ≤ n) (vmin z : ℝ) (t ts : Arr ℝ) (act : Nat) (nt : Bool) (i : Nat) (m : Arr ℝ)
    (ht : i < t.len) (hts : nt = true → act * n + i < ts.len) (hm : m.len = n)
    (h0 : 0 ≤ (t.get i - vmin) / z) (h1 : (t.get i - vmin) / z ≤ (n : ℝ) - 1) :
    spread n vmin z t ts act nt i m = some ⟨m.len, fun k => m.get k +
      (if nt then ts.get (act * n + i) else 1 / (n : ℝ)) * max 0 (1 - |(t.get i - vmin) / z - k|)⟩ := by
  obtain ⟨l, hc, hl, h2, h3⟩ := cells_spec n hn _ h0 h1
  have two : ∀ x y : ℝ, ((addAtI m (l : Int) x).bind fun m => addAtI m ((l : Int) + 1) y) =
      some ⟨m.len, fun k => m.get k + ((if k = l then x else 0) + if k = l + 1 then y else 0)⟩ := by
    intro x y
    have a1 : addAtI m (l : Int) x = some ⟨m.len, fun k => m.get k + if k = l then x else 0⟩ := by
      unfold addAtI
      rw [if_pos (by omega), Int.toNat_natCast, Arr.addAt_eq' _ (by omega)]
    refine (bind_some_of a1).trans ?_
    unfold addAtI
    rw [if_pos (by omega), show ((l : Int) + 1).toNat = l + 1 by omega, Arr.addAt_eq' _ (by dsimp only; omega)]
    refine congrArg some (Arr.ext' rfl fun k => ?_)
    dsimp only
    ring
  unfold spread
  rw [Arr.read_eq ht]
  simp only [Option.bind_some]
  cases nt with
  | true =>
    rw [if_pos rfl, Arr.read_eq (hts rfl)]
    simp only [Option.bind_some, hc, if_true]
    refine (two _ _).trans (congrArg some (Arr.ext' rfl fun k => ?_))
    dsimp only
    rw [hat_split l k _ h2 h3, mul_add, mul_ite, mul_ite]
    push_cast
    simp only [mul_zero]
  | false =>
    rw [if_neg (by decide)]
    simp only [hc, Bool.false_eq_true, if_false]
    refine (two _ _).trans (congrArg some (Arr.ext' rfl fun k => ?_))
    dsimp only
    rw [hat_split l k _ h2 h3, mul_add, mul_ite, mul_ite]
    push_cast
    simp only [mul_zero, div_eq_inv_mul, mul_one]

theorem targets_eq (n : Nat) (reward lam : ℝ) (support : Arr ℝ) (nt : Bool) (hs : n ≤ support.len) :
    targets n reward lam support nt = some ⟨n, fun k => if k < n then
      (if nt then reward + lam * support.get k else reward) else 0⟩ := by
  unfold targets
  refine loop_fill (v := fun k => if nt then reward + lam * support.get k else reward) ?_
  intro i hi b hb _
  dsimp only at hb
  cases nt with
  | true =>
    simp only [if_true]
    rw [Arr.read_eq (by omega), Option.bind_some, Arr.write_eq _ (by omega)]
  | false =>
    simp only [Bool.false_eq_true, if_false]
    rw [Arr.write_eq _ (by omega)]

/-- **C16.** For `n ≥ 2` atoms on a non-degenerate interval, and the support the
constructor builds, the projection stays inside its arrays and leaves on atom
`k` the sum over the source atoms of their probability (`1/n` for a terminal
state) times the triangular kernel `max 0 (1 - |target - atom k| / Δ)`. -/
theorem C16_projection (n : Nat) (hn : 2 ≤ n) (vmin vmax reward lam : ℝ) (hv : vmin < vmax) (support ts : Arr ℝ)
    (hs : initSupport n vmin vmax = some support) (act : Nat) (nt : Bool) (hts : nt = true → act * n + n ≤ ts.len) :
    ∃ m, project n vmin vmax ((vmax - vmin) / ((n : ℝ) - 1)) reward lam support ts act nt = some m ∧ m.len = n ∧
      ∀ k, k < n → m.get k = ∑ i ∈ range n, (if nt then ts.get (act * n + i) else 1 / (n : ℝ)) *
        max 0 (1 - |target n vmin vmax reward lam nt i - atom n vmin vmax k| / ((vmax - vmin) / ((n : ℝ) - 1))) := by
  obtain ⟨s, es, s1, s2⟩ := initSupport_eq n hn vmin vmax
  rw [hs] at es
  obtain rfl : support = s := by simpa using es
  have hn' : (0 : ℝ) < (n : ℝ) - 1 := by
    have : (2 : ℝ) ≤ n := by exact_mod_cast hn
    linarith
  have hz : 0 < (vmax - vmin) / ((n : ℝ) - 1) := div_pos (by linarith) hn'
  set z := (vmax - vmin) / ((n : ℝ) - 1) with hzd
  have e1 := targets_eq n reward lam support nt (by omega)
  have e2 := Clip.clip_eq (⟨n, fun k => if k < n then
      (if nt then reward + lam * support.get k else reward) else 0⟩ : Arr ℝ) vmin vmax n hv.le (le_refl _)
  have hT : ∀ i, i < n → (if i < n then Clip.nearest vmin vmax (if i < n then
      (if nt then reward + lam * support.get i else reward) else 0) else
        (if i < n then (if nt then reward + lam * support.get i else reward) else 0)) =
      target n vmin vmax reward lam nt i := by
    intro i hi
    rw [if_pos hi, if_pos hi, target, s2 i hi]
  have hlo : ∀ i, vmin ≤ target n vmin vmax reward lam nt i := fun i => le_max_left _ _
  have hhi : ∀ i, target n vmin vmax reward lam nt i ≤ vmax := fun i => max_le hv.le (min_le_left _ _)
  have e3 := loop_add (n := n) (a := (⟨n, fun _ => 0⟩ : Arr ℝ))
    (f := spread n vmin z ⟨n, fun k => if k < n then Clip.nearest vmin vmax (if k < n then
      (if nt then reward + lam * support.get k else reward) else 0) else
        (if k < n then (if nt then reward + lam * support.get k else reward) else 0)⟩ ts act nt)
    (fun i k => (if nt then ts.get (act * n + i) else 1 / (n : ℝ)) *
      max 0 (1 - |(target n vmin vmax reward lam nt i - vmin) / z - k|))
    (by
      intro i hi b hb
      have h0 : 0 ≤ (target n vmin vmax reward lam nt i - vmin) / z := div_nonneg (by linarith [hlo i]) hz.le
      have h1 : (target n vmin vmax reward lam nt i - vmin) / z ≤ (n : ℝ) - 1 := by
        rw [div_le_iff₀ hz, hzd, mul_div_cancel₀ _ hn'.ne']
        linarith [hhi i]
      have := spread_eq n hn vmin z ⟨n, fun k => if k < n then Clip.nearest vmin vmax (if k < n then
        (if nt then reward + lam * support.get k else reward) else 0) else
        (if k < n then (if nt then reward + lam * support.get k else reward) else 0)⟩ ts act nt i b hi
        (fun h => by have := hts h; omega) hb (by dsimp only; rw [hT i hi]; exact h0) (by dsimp only; rw [hT i hi]; exact h1)
      rw [this]
      dsimp only
      rw [hT i hi])
  refine ⟨_, (bind_some_of e1).trans ((bind_some_of e2).trans e3), rfl, fun k hk => ?_⟩
  dsimp only
  rw [zero_add]
  refine Finset.sum_congr rfl fun i _ => ?_
  congr 3
  rw [atom, ← hzd, ← abs_of_pos hz, ← abs_div, abs_of_pos hz]
  congr 1
  field_simp
  ring

/-- **C16, mass, sign and mean.** With a non-negative source distribution the
projected weights are non-negative; they sum to the mass of the source (to one
for a terminal state); and their mean over the atoms is the mean of the clipped
targets under the source. -/
theorem C16_mass_and_mean (n : Nat) (hn : 2 ≤ n) (vmin vmax reward lam : ℝ) (hv : vmin < vmax) (support ts : Arr ℝ)
    (hs : initSupport n vmin vmax = some support) (act : Nat) (nt : Bool) (hts : nt = true → act * n + n ≤ ts.len)
    (hp : ∀ i, i < n → 0 ≤ ts.get (act * n + i)) :
    ∃ m, project n vmin vmax ((vmax - vmin) / ((n : ℝ) - 1)) reward lam support ts act nt = some m ∧
      (∀ k, k < n → 0 ≤ m.get k) ∧
      ∑ k ∈ range n, m.get k = (if nt then ∑ i ∈ range n, ts.get (act * n + i) else 1) ∧
      ∑ k ∈ range n, m.get k * support.get k =
        (if nt then ∑ i ∈ range n, ts.get (act * n + i) * Clip.nearest vmin vmax (reward + lam * support.get i)
         else Clip.nearest vmin vmax reward) := by
  obtain ⟨m, e, -, h⟩ := C16_projection n hn vmin vmax reward lam hv support ts hs act nt hts
  obtain ⟨s, es, s1, s2⟩ := initSupport_eq n hn vmin vmax
  rw [hs] at es
  obtain rfl : support = s := by simpa using es
  have hn' : (0 : ℝ) < (n : ℝ) - 1 := by
    have : (2 : ℝ) ≤ n := by exact_mod_cast hn
    linarith
  have hn0 : (n : ℝ) ≠ 0 := by linarith
  have hz : 0 < (vmax - vmin) / ((n : ℝ) - 1) := div_pos (by linarith) hn'
  set z := (vmax - vmin) / ((n : ℝ) - 1) with hzd
  have hlo : ∀ i, vmin ≤ target n vmin vmax reward lam nt i := fun i => le_max_left _ _
  have hhi : ∀ i, target n vmin vmax reward lam nt i ≤ vmax := fun i => max_le hv.le (min_le_left _ _)
  have hker : ∀ i k : Nat, max 0 (1 - |target n vmin vmax reward lam nt i - atom n vmin vmax k| / z) =
      max 0 (1 - |(target n vmin vmax reward lam nt i - vmin) / z - k|) := by
    intro i k
    congr 2
    rw [atom, ← hzd, ← abs_of_pos hz, ← abs_div, abs_of_pos hz]
    congr 1
    field_simp
    ring
  have hsum := fun i => hat_sums n hn ((target n vmin vmax reward lam nt i - vmin) / z)
    (div_nonneg (by linarith [hlo i]) hz.le)
    (by rw [div_le_iff₀ hz, hzd, mul_div_cancel₀ _ hn'.ne']; linarith [hhi i])
  refine ⟨m, e, ?_, ?_, ?_⟩
  · intro k hk
    rw [h k hk]
    refine Finset.sum_nonneg fun i hi => mul_nonneg ?_ (le_max_left _ _)
    cases nt with
    | true => exact hp i (Finset.mem_range.1 hi)
    | false => simp
  · rw [Finset.sum_congr rfl fun k hk => h k (Finset.mem_range.1 hk), Finset.sum_comm]
    have : ∀ i, ∑ k ∈ range n, (if nt then ts.get (act * n + i) else 1 / (n : ℝ)) *
        max 0 (1 - |target n vmin vmax reward lam nt i - atom n vmin vmax k| / z) =
        if nt then ts.get (act * n + i) else 1 / (n : ℝ) := by
      intro i
      rw [← Finset.mul_sum, Finset.sum_congr rfl fun k _ => hker i k, (hsum i).1, mul_one]
    rw [Finset.sum_congr rfl fun i _ => this i]
    cases nt with
    | true => simp
    | false => simp [hn0]
  · have hmean : ∑ k ∈ range n, m.get k * support.get k =
        ∑ i ∈ range n, (if nt then ts.get (act * n + i) else 1 / (n : ℝ)) * target n vmin vmax reward lam nt i := by
      rw [Finset.sum_congr rfl fun k hk => by rw [h k (Finset.mem_range.1 hk), s2 k (Finset.mem_range.1 hk), Finset.sum_mul],
        Finset.sum_comm]
      refine Finset.sum_congr rfl fun i _ => ?_
      rw [Finset.sum_congr rfl fun k _ => by rw [mul_assoc, hker i k], ← Finset.mul_sum]
      congr 1
      have : ∀ k : Nat, max 0 (1 - |(target n vmin vmax reward lam nt i - vmin) / z - k|) * atom n vmin vmax k =
          max 0 (1 - |(target n vmin vmax reward lam nt i - vmin) / z - k|) * vmin +
          (max 0 (1 - |(target n vmin vmax reward lam nt i - vmin) / z - k|) * (k : ℝ)) * z := by
        intro k; rw [atom, ← hzd]; ring
      rw [Finset.sum_congr rfl fun k _ => this k, Finset.sum_add_distrib, ← Finset.sum_mul, ← Finset.sum_mul,
        (hsum i).1, (hsum i).2]
      field_simp
      ring
    rw [hmean]
    cases nt with
    | true =>
      simp only [if_true]
      exact Finset.sum_congr rfl fun i hi => by rw [target, if_pos rfl, s2 i (Finset.mem_range.1 hi)]
    | false =>
      simp [target, hn0]

/-- **C16, terminal state.** When the clipped reward is itself an atom, the
projected distribution of a terminal transition is the point mass on it. -/
theorem C16_terminal (n : Nat) (hn : 2 ≤ n) (vmin vmax reward lam : ℝ) (hv : vmin < vmax) (support ts : Arr ℝ)
    (hs : initSupport n vmin vmax = some support) (act j : Nat) (hj : j < n)
    (hr : Clip.nearest vmin vmax reward = support.get j) :
    ∃ m, project n vmin vmax ((vmax - vmin) / ((n : ℝ) - 1)) reward lam support ts act false = some m ∧
      ∀ k, k < n → m.get k = if k = j then 1 else 0 := by
  obtain ⟨m, e, -, h⟩ := C16_projection n hn vmin vmax reward lam hv support ts hs act false (by simp)
  obtain ⟨s, es, s1, s2⟩ := initSupport_eq n hn vmin vmax
  rw [hs] at es
  obtain rfl : support = s := by simpa using es
  have hn' : (0 : ℝ) < (n : ℝ) - 1 := by
    have : (2 : ℝ) ≤ n := by exact_mod_cast hn
    linarith
  have hn0 : (n : ℝ) ≠ 0 := by linarith
  have hz : 0 < (vmax - vmin) / ((n : ℝ) - 1) := div_pos (by linarith) hn'
  refine ⟨m, e, fun k hk => ?_⟩
  rw [h k hk]
  have hk' : ∀ i : Nat, max 0 (1 - |target n vmin vmax reward lam false i - atom n vmin vmax k| /
      ((vmax - vmin) / ((n : ℝ) - 1))) = if k = j then 1 else 0 := by
    intro i
    have : target n vmin vmax reward lam false i - atom n vmin vmax k =
        ((j : ℝ) - k) * ((vmax - vmin) / ((n : ℝ) - 1)) := by
      rw [target, if_neg (by decide), hr, s2 j hj, atom, atom]; ring
    rw [this, abs_mul, abs_of_pos hz, mul_div_cancel_right₀ _ hz.ne']
    have := hat_split j k (j : ℝ) (le_refl _) (by linarith)
    rw [this]
    split_ifs <;> simp
  rw [Finset.sum_congr rfl fun i _ => by rw [hk' i]]
  simp [hn0]

/-- **C16, error.** When the online probabilities of the taken action are
positive (they are softmax outputs), the error left for that action is the
derivative of the cross-entropy `-Σ m log p` with respect to the probabilities;
the error of the other actions is untouched. -/
theorem C16_error (n A actionT : Nat) (hA : actionT < A) (m os error : Arr ℝ) (hm : n ≤ m.len) (hos : A * n ≤ os.len)
    (he : A * n ≤ error.len) (hp : ∀ k, k < n → 0 < os.get (actionT * n + k)) :
    ∃ error', errorRow n actionT m os error = some error' ∧ error'.len = error.len ∧
      (∀ k, k < n → HasDerivAt
        (fun t => -∑ j ∈ range n, m.get j * Real.log (Function.update (fun j => os.get (actionT * n + j)) k t j))
        (error'.get (actionT * n + k)) (os.get (actionT * n + k))) ∧
      ∀ a, a < A → a ≠ actionT → ∀ k, k < n → error'.get (a * n + k) = error.get (a * n + k) := by
  have hrow : actionT * n + n ≤ A * n := by
    have := Nat.mul_le_mul_right n (show actionT + 1 ≤ A by omega)
    rw [Nat.add_mul] at this; omega
  obtain ⟨s', e, h1, h2, h3⟩ := loop_inv (n := n) (s := error)
    (f := fun i (error : Arr ℝ) =>
      (m.read i).bind fun mi =>
      if mi = 0 then error.write (actionT * n + i) 0
      else (os.read (actionT * n + i)).bind fun p =>
        if p = 0 then error.write (actionT * n + i) (-99999)
        else error.write (actionT * n + i) (-mi / p))
    (fun i s => s.len = error.len ∧
      (∀ k, k < i → s.get (actionT * n + k) = -m.get k / os.get (actionT * n + k)) ∧
      ∀ a, a < A → a ≠ actionT → ∀ k, k < n → s.get (a * n + k) = error.get (a * n + k))
    ⟨rfl, fun k h => absurd h (by omega), fun _ _ _ _ _ => rfl⟩
    (by
      rintro i hi s ⟨q1, q2, q3⟩
      refine ⟨⟨s.len, Function.update s.get (actionT * n + i) (-m.get i / os.get (actionT * n + i))⟩, ?_, q1, ?_, ?_⟩
      · rw [Arr.read_eq (by omega), Option.bind_some, Arr.read_eq (by omega), Option.bind_some,
          if_neg (hp i hi).ne']
        by_cases h : m.get i = 0
        · rw [if_pos h, Arr.write_eq _ (by omega), h, neg_zero, zero_div]
        · rw [if_neg h, Arr.write_eq _ (by omega)]
      · intro k hk
        dsimp only
        by_cases h : k = i
        · subst h; rw [Function.update_self]
        · rw [Function.update_of_ne (by omega)]; exact q2 k (by omega)
      · intro a ha hne k hk
        dsimp only
        rw [Function.update_of_ne]
        · exact q3 a ha hne k hk
        · intro h
          apply hne
          have h1 : (a * n + k) / n = a := by
            rw [Nat.mul_comm, Nat.mul_add_div (by omega), Nat.div_eq_of_lt hk, Nat.add_zero]
          have h2 : (actionT * n + i) / n = actionT := by
            rw [Nat.mul_comm, Nat.mul_add_div (by omega), Nat.div_eq_of_lt hi, Nat.add_zero]
          rw [← h1, h, h2])
  refine ⟨s', e, h1, fun k hk => ?_, h3⟩
  rw [h2 k hk]
  have hd : HasDerivAt (fun t => ∑ j ∈ range n, m.get j *
      Real.log (Function.update (fun j => os.get (actionT * n + j)) k t j))
      (∑ j ∈ range n, if k = j then m.get k * (os.get (actionT * n + k))⁻¹ else 0) (os.get (actionT * n + k)) := by
    refine HasDerivAt.fun_sum fun j _ => ?_
    by_cases h : k = j
    · subst h
      rw [if_pos rfl]
      simp only [Function.update_self]
      exact (Real.hasDerivAt_log (hp k hk).ne').const_mul _
    · rw [if_neg h]
      simp only [Function.update_of_ne (Ne.symm h)]
      exact hasDerivAt_const _ _
  rw [Finset.sum_ite_eq, if_pos (Finset.mem_range.2 hk)] at hd
  refine hd.neg.congr_deriv ?_
  rw [neg_div, div_eq_mul_inv]

example : ∃ s m, initSupport 3 (-1) 1 = some s ∧
    project 3 (-1) 1 ((1 - (-1)) / ((3 : Nat) - 1)) (1 / 2) (1 / 2) s ⟨3, fun _ => 1 / 3⟩ 0 true = some m ∧
    ∑ k ∈ range 3, m.get k = 1 := by
  obtain ⟨s, es, -⟩ := initSupport_eq 3 (by decide) (-1) 1
  obtain ⟨m, e, -, h, -⟩ := C16_mass_and_mean 3 (by decide) (-1) 1 (1 / 2) (1 / 2) (by norm_num) s
    ⟨3, fun _ => 1 / 3⟩ es 0 true (by simp) (fun _ _ => by norm_num)
  refine ⟨s, m, es, e, h.trans ?_⟩
  norm_num [Finset.sum_range_succ]

/-! ### The bootstrap action -/

theorem qFunctions_eq (n A : Nat) (soft support q : Arr ℝ) (hs : A * n ≤ soft.len) (hsup : n ≤ support.len)
    (hq : A ≤ q.len) :
    qFunctions n A soft support q = some ⟨q.len, fun a => q.get a +
      if a < A then ∑ j ∈ range n, soft.get (a * n + j) * support.get j else 0⟩ := by
  have h := loop_add (n := A) (a := q)
    (f := fun i q => loop n (fun j (q : Arr ℝ) =>
      (soft.read (i * n + j)).bind fun p => (support.read j).bind fun s => q.addAt i (p * s)) q)
    (fun i a => if a = i then ∑ j ∈ range n, soft.get (i * n + j) * support.get j else 0)
    (by
      intro i hi b hb
      have hrow : i * n + n ≤ A * n := by
        have := Nat.mul_le_mul_right n (show i + 1 ≤ A by omega)
        rw [Nat.add_mul] at this; omega
      refine (loop_add (n := n) (a := b) (fun j a => if a = i then soft.get (i * n + j) * support.get j else 0) ?_).trans ?_
      · intro j hj b' hb'
        rw [Arr.read_eq (by omega), Option.bind_some, Arr.read_eq (by omega), Option.bind_some,
          Arr.addAt_eq' _ (by omega)]
      · refine congrArg some (Arr.ext' rfl fun a => ?_)
        dsimp only
        by_cases h : a = i
        · simp [h]
        · simp [h])
  refine h.trans (congrArg some (Arr.ext' rfl fun a => ?_))
  dsimp only
  rw [Finset.sum_ite_eq]
  simp only [Finset.mem_range]

theorem copyRow_eq (n off : Nat) (src dst : Arr ℝ) (h1 : off + n ≤ src.len) (h2 : off + n ≤ dst.len) :
    copyRow n off src dst = some ⟨dst.len, fun k => if off ≤ k ∧ k < off + n then src.get k else dst.get k⟩ := by
  obtain ⟨s, e, q1, q2⟩ := loop_inv (n := n) (s := dst)
    (f := fun i (d : Arr ℝ) => (src.read (off + i)).bind fun x => d.write (off + i) x)
    (fun i s => s.len = dst.len ∧ ∀ k, s.get k = if off ≤ k ∧ k < off + i then src.get k else dst.get k)
    ⟨rfl, fun k => by rw [if_neg (by omega)]⟩
    (by
      rintro i hi s ⟨q1, q2⟩
      refine ⟨⟨s.len, Function.update s.get (off + i) (src.get (off + i))⟩, ?_, q1, fun k => ?_⟩
      · rw [Arr.read_eq (by omega), Option.bind_some, Arr.write_eq _ (by omega)]
      · dsimp only
        by_cases h : k = off + i
        · subst h; rw [Function.update_self, if_pos (by omega)]
        · rw [Function.update_of_ne h, q2 k]
          exact if_congr (by omega) rfl rfl)
  exact e.trans (congrArg some (Arr.ext' q1 q2))

theorem greedy (A : Nat) (hA : 0 < A) (q : Arr ℝ) (hq : q.len = A) :
    ∃ act : Nat, Utils.argmax (some ((List.range q.len).map q.get)) A = some (act : Int) ∧ act < A ∧
      (∀ a, a < A → q.get a ≤ q.get act) ∧ ∀ a, a < act → q.get a < q.get act := by
  obtain ⟨r, m, e, h1, h2, h3⟩ := Utils.C06_argmax ((List.range q.len).map q.get) (by simp; omega)
  have hr : r < A := by
    obtain ⟨h, -⟩ := List.getElem?_eq_some_iff.1 h1
    simpa [hq] using h
  have get : ∀ a, a < A → ((List.range q.len).map q.get)[a]? = some (q.get a) := by
    intro a ha
    simp [hq, ha]
  have hm : m = q.get r := by
    rw [get r hr] at h1; exact (Option.some.inj h1).symm
  refine ⟨r, by simpa [hq] using e, hr, fun a ha => hm ▸ h2 a _ (get a ha), fun a ha => hm ▸ h3 a _ ha (get a (by omega))⟩

/-- **C74.** With the `q_functions` of the target network cleared, the
bootstrap action of `get_loss_for_dueling_categorical_dqn` is the first action
maximising the expectation of the atoms under the target network's
distributions, and the distribution projected for it is the online network's.
(partial: see `C74_variants_refuted` for the variant without error output and
`C74_no_reset_refuted` for a buffer that has not been cleared). -/
theorem C74_bootstrap_partial (n A : Nat) (hA : 0 < A) (support os ts q : Arr ℝ) (hsup : n ≤ support.len)
    (hos : A * n ≤ os.len) (hts : A * n ≤ ts.len) (hq : q.len = A) (h0 : ∀ a, a < A → q.get a = 0) :
    ∃ (act : Nat) (ts' : Arr ℝ), bootstrap n A support os ts q = some ((act : Int), ts') ∧ act < A ∧
      (∀ a, a < A → ∑ j ∈ range n, ts.get (a * n + j) * support.get j ≤
        ∑ j ∈ range n, ts.get (act * n + j) * support.get j) ∧
      (∀ a, a < act → ∑ j ∈ range n, ts.get (a * n + j) * support.get j <
        ∑ j ∈ range n, ts.get (act * n + j) * support.get j) ∧
      ts'.len = ts.len ∧ ∀ j, j < n → ts'.get (act * n + j) = os.get (act * n + j) := by
  have e1 := qFunctions_eq n A ts support q hts hsup (by omega)
  obtain ⟨act, e2, ha, h1, h2⟩ := greedy A hA (⟨q.len, fun a => q.get a +
      if a < A then ∑ j ∈ range n, ts.get (a * n + j) * support.get j else 0⟩ : Arr ℝ) hq
  have hrow : act * n + n ≤ A * n := by
    have := Nat.mul_le_mul_right n (show act + 1 ≤ A by omega)
    rw [Nat.add_mul] at this; omega
  have e3 := copyRow_eq n (act * n) os ts (by omega) (by omega)
  refine ⟨act, _, (bind_some_of e1).trans ((bind_some_of e2).trans (bind_some_of e3)), ha, ?_, ?_, rfl, ?_⟩
  · intro a haA
    have := h1 a haA
    dsimp only at this
    rwa [h0 a haA, h0 act ha, if_pos haA, if_pos ha, zero_add, zero_add] at this
  · intro a hlt
    have := h2 a hlt
    dsimp only at this
    rwa [h0 a (by omega), h0 act ha, if_pos (by omega), if_pos ha, zero_add, zero_add] at this
  · intro j hj
    dsimp only
    rw [if_pos (by omega)]

/-- **C74, the other variant (refuted).** On the same networks and the same
buffers `get_loss_for_dueling_categorical_dqn_opt` projects a different
distribution. -/
theorem C74_variants_refuted : ∃ (support os ts q : Arr ℝ) (r r' : Int × Arr ℝ),
    (∀ a, q.get a = 0) ∧ bootstrap 2 1 support os ts q = some r ∧ bootstrapOpt 2 1 support ts q = some r' ∧
    r.1 = r'.1 ∧ r.2.get 0 ≠ r'.2.get 0 := by
  have e1 := qFunctions_eq 2 1 (⟨2, fun _ => 1 / 2⟩ : Arr ℝ) ⟨2, fun k => k⟩ ⟨1, fun _ => 0⟩ (by decide) (by decide) (le_refl _)
  obtain ⟨act, e2, ha, -, -⟩ := greedy 1 (by decide) (⟨1, fun a => (0 : ℝ) +
      if a < 1 then ∑ j ∈ range 2, (1 / 2 : ℝ) * (j : ℝ) else 0⟩ : Arr ℝ) rfl
  obtain rfl : act = 0 := by omega
  have e3 := copyRow_eq 2 (0 * 2) (⟨2, fun k => if k = 0 then 1 / 4 else 3 / 4⟩ : Arr ℝ) ⟨2, fun _ => 1 / 2⟩ (by decide) (by decide)
  refine ⟨⟨2, fun k => k⟩, ⟨2, fun k => if k = 0 then 1 / 4 else 3 / 4⟩, ⟨2, fun _ => 1 / 2⟩, ⟨1, fun _ => 0⟩, _, _,
    fun _ => rfl, (bind_some_of e1).trans ((bind_some_of e2).trans (bind_some_of e3)),
    (bind_some_of e1).trans (bind_some_of e2), rfl, ?_⟩
  norm_num

/-- **C74, uncleared buffer (refuted).** `compute_q_functions` adds to its
buffer and the loss function does not clear the target network's: after one
call, a second call on other distributions can pick an action that is not
greedy. Two actions, two atoms `0, 1`; first distributions `(0,1)`, `(1,0)`;
then `(3/4,1/4)`, `(1/4,3/4)`: the best action is 1, the code takes 0. -/
theorem C74_no_reset_refuted : ∃ (support ts1 ts2 q q' : Arr ℝ),
    (∀ a, q.get a = 0) ∧ qFunctions 2 2 ts1 support q = some q' ∧
    (∃ ts', bootstrap 2 2 support ts2 ts2 q' = some (0, ts')) ∧
    ∑ j ∈ range 2, ts2.get (0 * 2 + j) * support.get j < ∑ j ∈ range 2, ts2.get (1 * 2 + j) * support.get j := by
  have e1 := qFunctions_eq 2 2 (⟨4, fun k => if k = 1 then 1 else if k = 2 then 1 else 0⟩ : Arr ℝ) ⟨2, fun k => k⟩
    ⟨2, fun _ => 0⟩ (by decide) (le_refl _) (le_refl _)
  refine ⟨⟨2, fun k => k⟩, ⟨4, fun k => if k = 1 then 1 else if k = 2 then 1 else 0⟩,
    ⟨4, fun k => if k = 0 then 3 / 4 else if k = 1 then 1 / 4 else if k = 2 then 1 / 4 else 3 / 4⟩, ⟨2, fun _ => 0⟩, _,
    fun _ => rfl, e1, ?_, ?_⟩
  · have e2 := qFunctions_eq 2 2
      (⟨4, fun k => if k = 0 then 3 / 4 else if k = 1 then 1 / 4 else if k = 2 then 1 / 4 else 3 / 4⟩ : Arr ℝ)
      ⟨2, fun k => k⟩ (⟨2, fun a => (0 : ℝ) +
        if a < 2 then ∑ j ∈ range 2, (if a * 2 + j = 1 then 1 else if a * 2 + j = 2 then 1 else 0) * (j : ℝ) else 0⟩ : Arr ℝ)
      (by decide) (le_refl _) (le_refl _)
    obtain ⟨Q, eQ, hQ, q0, q1⟩ : ∃ Q : Arr ℝ, qFunctions 2 2
        (⟨4, fun k => if k = 0 then 3 / 4 else if k = 1 then 1 / 4 else if k = 2 then 1 / 4 else 3 / 4⟩ : Arr ℝ)
        ⟨2, fun k => k⟩ (⟨2, fun a => (0 : ℝ) +
          if a < 2 then ∑ j ∈ range 2, (if a * 2 + j = 1 then 1 else if a * 2 + j = 2 then 1 else 0) * (j : ℝ) else 0⟩ : Arr ℝ) =
        some Q ∧ Q.len = 2 ∧ Q.get 0 = 5 / 4 ∧ Q.get 1 = 3 / 4 :=
      ⟨_, e2, rfl, by norm_num [Finset.sum_range_succ], by norm_num [Finset.sum_range_succ]⟩
    obtain ⟨act, e3, ha, h1, h2⟩ := greedy 2 (by decide) Q hQ
    have hact : act = 0 := by
      by_contra hne
      have := h2 0 (by omega)
      obtain rfl : act = 1 := by omega
      rw [q0, q1] at this
      norm_num at this
    subst hact
    have e4 := copyRow_eq 2 (0 * 2)
      (⟨4, fun k => if k = 0 then 3 / 4 else if k = 1 then 1 / 4 else if k = 2 then 1 / 4 else 3 / 4⟩ : Arr ℝ)
      (⟨4, fun k => if k = 0 then 3 / 4 else if k = 1 then 1 / 4 else if k = 2 then 1 / 4 else 3 / 4⟩ : Arr ℝ)
      (by decide) (by decide)
    exact ⟨_, (bind_some_of eQ).trans ((bind_some_of e3).trans (bind_some_of e4))⟩
  · norm_num [Finset.sum_range_succ]

end LLab.Categorical
