import Verif.Common.Loop
import Mathlib.Analysis.SpecialFunctions.Pow.Deriv
import Mathlib.Algebra.BigOperators.Intervals
import Mathlib.Algebra.BigOperators.Ring.Finset
import Mathlib.Tactic.Linarith
import Mathlib.Tactic.Positivity
import Mathlib.Tactic.FieldSimp
import Mathlib.Tactic.IntervalCases

/-!
Local response normalisation (`/repo/src/normalization.c` 46-180). Properties C87 and C88.
Real arithmetic, `pow` is the real power.
-/

namespace LLab.LRN

open Finset

/-! ### Model -/

/-- The downward search for the first channel of the window (`/repo/src/normalization.c`
60-66): `i` is one more than the C variable. -/
def lowScan (used : Arr Int) (h : Nat) : Nat → Nat → Nat → Option Nat
  | 0, _, low => some low
  | i + 1, flag, low =>
    if flag < h then do
      let u ← used.read i
      if u ≠ 0 then lowScan used h i (flag + 1) i else lowScan used h i flag low
    else some low

/-- The upward search (74-80): `r` channels are left, the next one is `depth - r`. -/
def upScan (used : Arr Int) (h depth : Nat) : Nat → Nat → Nat → Option Nat
  | 0, _, up => some up
  | r + 1, flag, up =>
    if flag < h then do
      let u ← used.read (depth - (r + 1))
      if u ≠ 0 then upScan used h depth r (flag + 1) (depth - (r + 1)) else upScan used h depth r flag up
    else some up

/-- The two bounds (55-81); `h` is `(int)(n_constant/2)`. -/
def bounds (used : Arr Int) (h depth ac : Nat) : Option (Nat × Nat) :=
  (if ac < h then some 0 else lowScan used h ac 0 ac).bind fun low =>
    (if ac + h > depth - 1 then some (depth - 1) else upScan used h depth (depth - (ac + 1)) 0 ac).bind fun up =>
      some (low, up)

/-- The sum of squares in the window (83-88); `off` is `index_ai*tensor_j + index_aj` and
`plane` is `tensor_i*tensor_j`. -/
noncomputable def sumSq (used : Arr Int) (x : Arr ℝ) (plane off low up : Nat) : Option ℝ :=
  loopFrom low (up + 1) (fun c s => do
    let u ← used.read c
    if u ≠ 0 then do
      let v ← x.read (c * plane + off)
      some (s + v * v)
    else some s) 0

/-- `local_response_normalization_feed_forward` (`/repo/src/normalization.c` 46-92) for the
channel `ac`. -/
noncomputable def ff (used : Arr Int) (x : Arr ℝ) (plane off depth h : Nat) (beta alpha k : ℝ) (ac : Nat) (out : Arr ℝ) :
    Option (Arr ℝ) := do
  let u ← used.read ac
  if u = 0 then some out
  else do
    let b ← bounds used h depth ac
    let s ← sumSq used x plane off b.1 b.2
    let v ← x.read (ac * plane + off)
    out.write (ac * plane + off) (v / (k + alpha * s) ^ beta)

/-- `local_response_normalization_back_prop` (`/repo/src/normalization.c` 113-165) for the
channel `ac`. Note that the error read is that of channel `c`. -/
noncomputable def bp (used : Arr Int) (x e : Arr ℝ) (plane off depth h : Nat) (beta alpha k : ℝ) (ac : Nat) (err : Arr ℝ) :
    Option (Arr ℝ) := do
  let u ← used.read ac
  if u = 0 then some err
  else do
    let b ← bounds used h depth ac
    let s ← sumSq used x plane off b.1 b.2
    let va ← x.read (ac * plane + off)
    loopFrom b.1 (b.2 + 1) (fun c (err : Arr ℝ) => do
      let u ← used.read c
      if u ≠ 0 then do
        let ec ← e.read (c * plane + off)
        let v ← x.read (c * plane + off)
        if c = ac then
          err.addAt (c * plane + off) (ec * (1 / (k + alpha * s) ^ beta - 2 * beta * alpha * v * v / (k + alpha * s) ^ (beta + 1)))
        else
          err.addAt (c * plane + off) (ec * -(2 * beta * alpha * v * va / (k + alpha * s) ^ (beta + 1)))
      else some err) err

/-- `local_response_normalization_feed_forward_fcl` (168-173). -/
noncomputable def ffAll (used : Arr Int) (x : Arr ℝ) (size h : Nat) (beta alpha k : ℝ) (out : Arr ℝ) : Option (Arr ℝ) :=
  loop size (fun i out => ff used x 1 0 size h beta alpha k i out) out

/-- `local_response_normalization_back_prop_fcl` (175-180). -/
noncomputable def bpAll (used : Arr Int) (x e : Arr ℝ) (size h : Nat) (beta alpha k : ℝ) (err : Arr ℝ) : Option (Arr ℝ) :=
  loop size (fun i err => bp used x e 1 0 size h beta alpha k i err) err

/-! ### Specification -/

/-- The number of used channels in `[a, b)`. -/
def count (used : Nat → Int) (a b : Nat) : Nat := ((Ico a b).filter fun d => used d ≠ 0).card

/-- `c` is in the window of `ac`: it is used, and it is `ac` or one of the `h` nearest used
channels on its side. -/
def InWindow (used : Nat → Int) (h ac c : Nat) : Prop :=
  used c ≠ 0 ∧ (c < ac → count used c ac ≤ h) ∧ (ac < c → count used (ac + 1) (c + 1) ≤ h)

instance (used : Nat → Int) (h ac c : Nat) : Decidable (InWindow used h ac c) := by
  unfold InWindow; infer_instance

/-- `k + alpha *` the sum of the squares of the window of channel `ac`; `x c` is the value of
channel `c`. -/
noncomputable def scaleOf (used : Nat → Int) (depth h : Nat) (alpha k : ℝ) (x : Nat → ℝ) (ac : Nat) : ℝ :=
  k + alpha * ∑ c ∈ (range depth).filter (fun c => InWindow used h ac c), x c * x c

/-- The normalised value of channel `ac`. -/
noncomputable def value (used : Nat → Int) (depth h : Nat) (beta alpha k : ℝ) (x : Nat → ℝ) (ac : Nat) : ℝ :=
  x ac / scaleOf used depth h alpha k x ac ^ beta

/-! ### Bounds -/

theorem count_succ_low (used : Nat → Int) {i b : Nat} (h : i < b) :
    count used i b = count used (i + 1) b + if used i ≠ 0 then 1 else 0 := by
  unfold count
  rw [Finset.card_filter, Finset.card_filter, Finset.sum_eq_sum_Ico_succ_bot h, add_comm]

theorem count_succ_high (used : Nat → Int) {a b : Nat} (h : a ≤ b) :
    count used a (b + 1) = count used a b + if used b ≠ 0 then 1 else 0 := by
  unfold count
  rw [Finset.card_filter, Finset.card_filter, Finset.sum_Ico_succ_top h]

theorem count_mono (used : Nat → Int) {a b c d : Nat} (h1 : c ≤ a) (h2 : b ≤ d) : count used a b ≤ count used c d :=
  Finset.card_le_card (Finset.filter_subset_filter _ (Finset.Ico_subset_Ico h1 h2))

theorem count_le (used : Nat → Int) (a b : Nat) : count used a b ≤ b - a :=
  (Finset.card_filter_le _ _).trans (by simp)

theorem lowScan_run (used : Arr Int) (h ac : Nat) (hac : ac ≤ used.len) : ∀ (i flag low : Nat), i ≤ low → low ≤ ac → i ≤ ac →
    flag = count used.get i ac → flag ≤ h → (∀ c, i ≤ c → c < ac → used.get c ≠ 0 → low ≤ c) →
    ∃ r, lowScan used h i flag low = some r ∧ r ≤ ac ∧ ∀ c, c < ac → used.get c ≠ 0 → (r ≤ c ↔ count used.get c ac ≤ h)
  | 0, flag, low, _, h2, _, hf, hh, hl => by
    refine ⟨low, rfl, h2, fun c hc hu => ⟨fun _ => ?_, fun _ => hl c (Nat.zero_le _) hc hu⟩⟩
    exact (count_mono used.get (Nat.zero_le c) le_rfl).trans (hf ▸ hh)
  | i + 1, flag, low, h1, h2, h3, hf, hh, hl => by
    unfold lowScan
    by_cases hlt : flag < h
    · rw [if_pos hlt, Arr.read_eq (by omega), Option.bind_eq_bind, Option.bind_some]
      have hc := count_succ_low used.get (show i < ac by omega)
      by_cases hu : used.get i ≠ 0
      · rw [if_pos hu]
        refine lowScan_run used h ac hac i (flag + 1) i le_rfl (by omega) (by omega) (by rw [hc, if_pos hu, hf]) (by omega) ?_
        intro c h _ _
        exact h
      · rw [if_neg hu]
        refine lowScan_run used h ac hac i flag low (by omega) h2 (by omega) (by rw [if_neg hu] at hc; omega) hh ?_
        intro c h4 h5 h6
        refine hl c ?_ h5 h6
        rcases Nat.lt_or_ge i c with h | h
        · exact h
        · obtain rfl : c = i := by omega
          exact absurd h6 hu
    · rw [if_neg hlt]
      refine ⟨low, rfl, h2, fun c hc hu => ?_⟩
      by_cases hic : i + 1 ≤ c
      · exact ⟨fun _ => (count_mono used.get hic le_rfl).trans (hf ▸ hh), fun _ => hl c hic hc hu⟩
      · constructor
        · intro h; omega
        · intro hcnt
          have e := count_succ_low used.get hc
          rw [if_pos hu] at e
          have := count_mono used.get (show c + 1 ≤ i + 1 by omega) (le_refl ac)
          omega

theorem upScan_run (used : Arr Int) (h depth ac : Nat) (hd : depth ≤ used.len) : ∀ (r flag up : Nat), r + (ac + 1) ≤ depth → ac ≤ up →
    up < depth - r → flag = count used.get (ac + 1) (depth - r) → flag ≤ h → (∀ c, ac < c → c < depth - r → used.get c ≠ 0 → c ≤ up) →
    ∃ u, upScan used h depth r flag up = some u ∧ ac ≤ u ∧ u < depth ∧
      ∀ c, ac < c → c < depth → used.get c ≠ 0 → (c ≤ u ↔ count used.get (ac + 1) (c + 1) ≤ h)
  | 0, flag, up, _, h2, h3, hf, hh, hl => by
    refine ⟨up, rfl, h2, h3, fun c hc hd hu => ⟨fun _ => ?_, fun _ => hl c hc hd hu⟩⟩
    exact (count_mono used.get le_rfl (by omega)).trans (hf ▸ hh)
  | r + 1, flag, up, h1, h2, h3, hf, hh, hl => by
    unfold upScan
    have hr : depth - r = depth - (r + 1) + 1 := by omega
    by_cases hlt : flag < h
    · rw [if_pos hlt, Arr.read_eq (by omega), Option.bind_eq_bind, Option.bind_some]
      have hc := count_succ_high used.get (show ac + 1 ≤ depth - (r + 1) by omega)
      by_cases hu : used.get (depth - (r + 1)) ≠ 0
      · rw [if_pos hu]
        refine upScan_run used h depth ac hd r (flag + 1) _ (by omega) (by omega) (by omega) (by rw [hr, hc, if_pos hu, hf]) (by omega) ?_
        intro c h _ _
        omega
      · rw [if_neg hu]
        refine upScan_run used h depth ac hd r flag up (by omega) h2 (by omega) (by rw [if_neg hu] at hc; rw [hr]; omega) hh ?_
        intro c h4 h5 h6
        refine hl c h4 ?_ h6
        rcases Nat.lt_or_ge c (depth - (r + 1)) with h | h
        · exact h
        · obtain rfl : c = depth - (r + 1) := by omega
          exact absurd h6 hu
    · rw [if_neg hlt]
      refine ⟨up, rfl, h2, by omega, fun c hc hd hu => ?_⟩
      by_cases hic : c < depth - (r + 1)
      · exact ⟨fun _ => (count_mono used.get le_rfl hic).trans (hf ▸ hh), fun _ => hl c hc hic hu⟩
      · constructor
        · intro h; omega
        · intro hcnt
          have e := count_succ_high used.get (show ac + 1 ≤ c by omega)
          rw [if_pos hu] at e
          have := count_mono used.get (le_refl (ac + 1)) (show depth - (r + 1) ≤ c by omega)
          omega

theorem bounds_run (used : Arr Int) (h depth ac : Nat) (hd : depth ≤ used.len) (hac : ac < depth) :
    ∃ low up, bounds used h depth ac = some (low, up) ∧ low ≤ ac ∧ ac ≤ up ∧ up < depth ∧
      ∀ c, c < depth → used.get c ≠ 0 → (low ≤ c ∧ c ≤ up ↔ InWindow used.get h ac c) := by
  have h0 : count used.get ac ac = 0 := by simp [count]
  have h0' : count used.get (ac + 1) (ac + 1) = 0 := by simp [count]
  obtain ⟨low, e1, l1, l2⟩ : ∃ low, (if ac < h then some 0 else lowScan used h ac 0 ac) = some low ∧ low ≤ ac ∧
      ∀ c, c < ac → used.get c ≠ 0 → (low ≤ c ↔ count used.get c ac ≤ h) := by
    by_cases hlt : ac < h
    · refine ⟨0, by rw [if_pos hlt], Nat.zero_le _, fun c hc _ => ⟨fun _ => ?_, fun _ => Nat.zero_le _⟩⟩
      have := count_le used.get c ac
      omega
    · rw [if_neg hlt]
      refine lowScan_run used h ac (by omega) ac 0 ac le_rfl le_rfl le_rfl h0.symm (Nat.zero_le _) ?_
      intro c _ _ _
      omega
  obtain ⟨up, e2, u1, u2, u3⟩ : ∃ up, (if ac + h > depth - 1 then some (depth - 1) else upScan used h depth (depth - (ac + 1)) 0 ac) = some up ∧
      ac ≤ up ∧ up < depth ∧ ∀ c, ac < c → c < depth → used.get c ≠ 0 → (c ≤ up ↔ count used.get (ac + 1) (c + 1) ≤ h) := by
    by_cases hlt : ac + h > depth - 1
    · refine ⟨depth - 1, by rw [if_pos hlt], by omega, by omega, fun c hc hd' _ => ⟨fun _ => ?_, fun _ => by omega⟩⟩
      have := count_le used.get (ac + 1) (c + 1)
      omega
    · rw [if_neg hlt]
      refine upScan_run used h depth ac hd (depth - (ac + 1)) 0 ac (by omega) le_rfl (by omega) ?_ (Nat.zero_le _) ?_
      · rw [show depth - (depth - (ac + 1)) = ac + 1 by omega, h0']
      · intro c h1 h2
        omega
  refine ⟨low, up, ?_, l1, u1, u2, fun c hc hu => ?_⟩
  · unfold bounds
    rw [e1, Option.bind_some, e2, Option.bind_some]
  · unfold InWindow
    rcases Nat.lt_trichotomy c ac with h | h | h
    · have := l2 c h hu
      constructor
      · intro ⟨a, b⟩
        exact ⟨hu, fun _ => this.1 a, fun h' => by omega⟩
      · intro ⟨_, b, _⟩
        exact ⟨this.2 (b h), by omega⟩
    · constructor
      · intro _
        exact ⟨hu, fun h' => by omega, fun h' => by omega⟩
      · intro _
        omega
    · have := u3 c h hc hu
      constructor
      · intro ⟨a, b⟩
        exact ⟨hu, fun h' => by omega, fun _ => this.1 b⟩
      · intro ⟨_, _, b⟩
        exact ⟨by omega, this.2 (b h)⟩

/-! ### Values -/

theorem window_sum {M : Type} [AddCommMonoid M] (used : Nat → Int) (h depth ac low up : Nat) (hup : up < depth)
    (hw : ∀ c, c < depth → used c ≠ 0 → (low ≤ c ∧ c ≤ up ↔ InWindow used h ac c)) (g : Nat → M) :
    ∑ i ∈ range (up + 1 - low), (if used (low + i) ≠ 0 then g (low + i) else 0) =
      ∑ c ∈ (range depth).filter (fun c => InWindow used h ac c), g c := by
  rw [← Finset.sum_Ico_eq_sum_range (fun c => if used c ≠ 0 then g c else 0) low (up + 1), ← Finset.sum_filter]
  refine Finset.sum_congr ?_ fun _ _ => rfl
  ext c
  simp only [Finset.mem_filter, Finset.mem_Ico, Finset.mem_range]
  constructor
  · rintro ⟨⟨h1, h2⟩, h3⟩
    exact ⟨by omega, (hw c (by omega) h3).1 ⟨h1, by omega⟩⟩
  · rintro ⟨h1, h2⟩
    have := (hw c h1 h2.1).2 h2
    exact ⟨⟨this.1, by omega⟩, h2.1⟩

theorem sumSq_run (used : Arr Int) (x : Arr ℝ) (plane off depth h ac low up : Nat) (hd : depth ≤ used.len)
    (hx : ∀ c, c < depth → c * plane + off < x.len) (hup : up < depth)
    (hw : ∀ c, c < depth → used.get c ≠ 0 → (low ≤ c ∧ c ≤ up ↔ InWindow used.get h ac c)) :
    sumSq used x plane off low up = some (∑ c ∈ (range depth).filter (fun c => InWindow used.get h ac c),
      x.get (c * plane + off) * x.get (c * plane + off)) := by
  unfold sumSq loopFrom
  rw [loop_sum (fun i => if used.get (low + i) ≠ 0 then x.get ((low + i) * plane + off) * x.get ((low + i) * plane + off) else 0), zero_add]
  · rw [window_sum used.get h depth ac low up hup hw fun c => x.get (c * plane + off) * x.get (c * plane + off)]
  · intro i hi t
    dsimp only
    rw [Arr.read_eq (show low + i < used.len by omega)]
    by_cases hu : used.get (low + i) = 0
    · simp [hu]
    · simp [hu, Arr.read_eq (hx (low + i) (by omega))]

theorem ff_run (used : Arr Int) (x : Arr ℝ) (plane off depth h : Nat) (beta alpha k : ℝ) (ac : Nat) (out : Arr ℝ) (hd : depth ≤ used.len)
    (hx : ∀ c, c < depth → c * plane + off < x.len) (ho : ac * plane + off < out.len) (hac : ac < depth) :
    ff used x plane off depth h beta alpha k ac out = some ⟨out.len, if used.get ac = 0 then out.get else
      Function.update out.get (ac * plane + off) (value used.get depth h beta alpha k (fun c => x.get (c * plane + off)) ac)⟩ := by
  unfold ff
  simp only [Option.bind_eq_bind]
  rw [Arr.read_eq (by omega), Option.bind_some]
  by_cases hu : used.get ac = 0
  · rw [if_pos hu, if_pos hu]
  · obtain ⟨low, up, e, _, _, h3, hw⟩ := bounds_run used h depth ac hd hac
    rw [if_neg hu, if_neg hu, e, Option.bind_some, sumSq_run used x plane off depth h ac low up hd hx h3 hw, Option.bind_some,
      Arr.read_eq (hx ac hac), Option.bind_some, Arr.write_eq _ ho]
    rfl

/-- The derivative of the value of channel `ac` in the value of channel `c` of its window. -/
noncomputable def jac (used : Nat → Int) (depth h : Nat) (beta alpha k : ℝ) (x : Nat → ℝ) (ac c : Nat) : ℝ :=
  (if c = ac then 1 / scaleOf used depth h alpha k x ac ^ beta else 0) -
    2 * beta * alpha * x c * x ac / scaleOf used depth h alpha k x ac ^ (beta + 1)

theorem bp_run (used : Arr Int) (x e : Arr ℝ) (plane off depth h : Nat) (beta alpha k : ℝ) (ac : Nat) (err : Arr ℝ) (hd : depth ≤ used.len)
    (hx : ∀ c, c < depth → c * plane + off < x.len) (he : ∀ c, c < depth → c * plane + off < e.len)
    (hr : ∀ c, c < depth → c * plane + off < err.len) (hac : ac < depth) :
    bp used x e plane off depth h beta alpha k ac err = some ⟨err.len, fun q => err.get q + if used.get ac = 0 then 0 else
      ∑ c ∈ (range depth).filter (fun c => InWindow used.get h ac c), if q = c * plane + off then
        e.get (c * plane + off) * jac used.get depth h beta alpha k (fun c => x.get (c * plane + off)) ac c else 0⟩ := by
  unfold bp
  simp only [Option.bind_eq_bind]
  rw [Arr.read_eq (by omega), Option.bind_some]
  by_cases hu : used.get ac = 0
  · rw [if_pos hu]
    congr 1
    refine Arr.ext' rfl fun q => ?_
    simp [hu]
  · obtain ⟨low, up, eb, _, _, h3, hw⟩ := bounds_run used h depth ac hd hac
    rw [if_neg hu, eb, Option.bind_some]
    dsimp only
    rw [sumSq_run used x plane off depth h ac low up hd hx h3 hw, Option.bind_some, Arr.read_eq (hx ac hac), Option.bind_some]
    unfold loopFrom
    rw [loop_add (fun i q => if used.get (low + i) ≠ 0 then (if q = (low + i) * plane + off then
      e.get ((low + i) * plane + off) * jac used.get depth h beta alpha k (fun c => x.get (c * plane + off)) ac (low + i) else 0) else 0)]
    · refine congrArg some (Arr.ext' rfl fun q => ?_)
      dsimp only
      rw [if_neg hu, window_sum used.get h depth ac low up h3 hw fun c => if q = c * plane + off then
        e.get (c * plane + off) * jac used.get depth h beta alpha k (fun c => x.get (c * plane + off)) ac c else 0]
    · intro i hi b hb
      have hlt : low + i < depth := by omega
      dsimp only
      rw [Arr.read_eq (show low + i < used.len by omega), Option.bind_some]
      by_cases hu : used.get (low + i) = 0
      · simp [hu]
      · have h4 := hr _ hlt
        rw [← hb] at h4
        simp only [hu, Option.bind_some, ne_eq, not_false_eq_true, if_true, Arr.read_eq (he _ hlt), Arr.read_eq (hx _ hlt)]
        by_cases hc : low + i = ac
        · rw [if_pos hc, Arr.addAt_eq' _ h4]
          refine congrArg some (Arr.ext' rfl fun q => ?_)
          dsimp only
          congr 1
          refine if_congr Iff.rfl ?_ rfl
          simp only [jac, hc, if_true, scaleOf]
        · rw [if_neg hc, Arr.addAt_eq' _ h4]
          refine congrArg some (Arr.ext' rfl fun q => ?_)
          dsimp only
          congr 1
          refine if_congr Iff.rfl ?_ rfl
          simp only [jac, hc, if_false, scaleOf]
          ring

theorem bpAll_run (used : Arr Int) (x e : Arr ℝ) (size h : Nat) (beta alpha k : ℝ) (err : Arr ℝ) (hd : size ≤ used.len)
    (hx : size ≤ x.len) (he : size ≤ e.len) (hr : size ≤ err.len) :
    ∃ err', bpAll used x e size h beta alpha k err = some err' ∧ err'.len = err.len ∧ ∀ q, q < size → err'.get q = err.get q +
      ∑ ac ∈ range size, if used.get ac ≠ 0 ∧ InWindow used.get h ac q then e.get q * jac used.get size h beta alpha k x.get ac q else 0 := by
  unfold bpAll
  rw [loop_add (fun ac q => if used.get ac = 0 then 0 else
      ∑ c ∈ (range size).filter (fun c => InWindow used.get h ac c), if q = c * 1 + 0 then
        e.get (c * 1 + 0) * jac used.get size h beta alpha k (fun c => x.get (c * 1 + 0)) ac c else 0)]
  · refine ⟨_, rfl, rfl, fun q hq => ?_⟩
    dsimp only
    congr 1
    refine Finset.sum_congr rfl fun ac _ => ?_
    by_cases hu : used.get ac = 0
    · simp [hu]
    · rw [if_neg hu]
      simp only [Nat.mul_one, Nat.add_zero]
      rw [Finset.sum_filter]
      rw [Finset.sum_eq_single q]
      · simp [hu]
      · intro c _ hne
        simp [Ne.symm hne]
      · intro hn
        exact absurd (Finset.mem_range.2 hq) hn
  · intro i hi b hb
    exact bp_run used x e 1 0 size h beta alpha k i b hd (fun c hc => by omega) (fun c hc => by omega) (fun c hc => by omega) hi

/-! ### C87 -/

/-- **C87, forward.** Local response normalisation of a vector stays in bounds and divides
every used entry by the power of `k + alpha` times the sum of the squares of the entry and of
its `h` nearest used neighbours on each side; unused entries keep the old output. -/
theorem C87_forward (used : Arr Int) (x : Arr ℝ) (size h : Nat) (beta alpha k : ℝ) (out : Arr ℝ) (hd : size ≤ used.len)
    (hx : size ≤ x.len) (ho : size ≤ out.len) :
    ∃ o, ffAll used x size h beta alpha k out = some o ∧ o.len = out.len ∧
      ∀ i, o.get i = if i < size ∧ used.get i ≠ 0 then value used.get size h beta alpha k x.get i else out.get i := by
  unfold ffAll
  rw [loop_fill (v := fun i => if used.get i ≠ 0 then value used.get size h beta alpha k x.get i else out.get i)]
  · refine ⟨_, rfl, rfl, fun i => ?_⟩
    dsimp only
    by_cases hi : i < size <;> by_cases hu : used.get i = 0 <;> simp [hi, hu]
  · intro i hi b hb hk
    rw [ff_run used x 1 0 size h beta alpha k i b hd (fun c hc => by omega) (by omega) hi]
    by_cases hu : used.get i = 0
    · simp only [hu, if_true, ne_eq, not_true_eq_false, if_false]
      rw [← hk i le_rfl, Function.update_eq_self]
    · simp [hu]

/-- **C87, forward, in a tensor.** The same for one position of a tensor of `depth` planes of
`plane` entries: only the entry of channel `ac` at that position is written. -/
theorem C87_forward_tensor (used : Arr Int) (x : Arr ℝ) (plane off depth h : Nat) (beta alpha k : ℝ) (ac : Nat) (out : Arr ℝ)
    (hd : depth ≤ used.len) (hx : depth * plane ≤ x.len) (ho : depth * plane ≤ out.len) (hoff : off < plane) (hac : ac < depth)
    (hu : used.get ac ≠ 0) :
    ∃ o, ff used x plane off depth h beta alpha k ac out = some o ∧
      o.get (ac * plane + off) = value used.get depth h beta alpha k (fun c => x.get (c * plane + off)) ac ∧
      ∀ i, i ≠ ac * plane + off → o.get i = out.get i := by
  have hlt : ∀ c, c < depth → c * plane + off < depth * plane := by
    intro c hc
    have : (c + 1) * plane ≤ depth * plane := Nat.mul_le_mul_right _ hc
    rw [Nat.add_mul] at this
    omega
  refine ⟨_, ff_run used x plane off depth h beta alpha k ac out hd (fun c hc => (hlt c hc).trans_le hx) ((hlt ac hac).trans_le ho) hac, ?_, ?_⟩
  · simp [hu]
  · intro i hi
    simp [hu, hi]

/-! ### C88 -/

theorem InWindow_self (used : Nat → Int) (h ac : Nat) (hu : used ac ≠ 0) : InWindow used h ac ac :=
  ⟨hu, fun h => absurd h (lt_irrefl _), fun h => absurd h (lt_irrefl _)⟩

theorem scaleOf_pos (used : Nat → Int) (depth h : Nat) (alpha k : ℝ) (x : Nat → ℝ) (ac : Nat) (hk : 0 < k) (ha : 0 ≤ alpha) :
    0 < scaleOf used depth h alpha k x ac := by
  unfold scaleOf
  have : 0 ≤ ∑ c ∈ (range depth).filter (fun c => InWindow used h ac c), x c * x c :=
    Finset.sum_nonneg fun c _ => mul_self_nonneg _
  have := mul_nonneg ha this
  linarith

theorem scaleOf_hasDerivAt (used : Nat → Int) (depth h : Nat) (alpha k : ℝ) (x : Nat → ℝ) (ac q : Nat) (hq : q < depth) :
    HasDerivAt (fun v => scaleOf used depth h alpha k (Function.update x q v) ac)
      (if InWindow used h ac q then alpha * (2 * x q) else 0) (x q) := by
  unfold scaleOf
  have h1 : ∀ c ∈ (range depth).filter (fun c => InWindow used h ac c),
      HasDerivAt (fun v => Function.update x q v c * Function.update x q v c) (if c = q then 2 * x q else 0) (x q) := by
    intro c _
    by_cases hc : c = q
    · subst hc
      simp only [Function.update_self, if_true]
      have := (hasDerivAt_id (x c)).mul (hasDerivAt_id (x c))
      refine this.congr_deriv ?_
      simp only [id]
      ring
    · simp only [Function.update_of_ne hc, if_neg hc]
      exact hasDerivAt_const _ _
  have h2 := ((HasDerivAt.fun_sum h1).const_mul alpha).const_add k
  refine h2.congr_deriv ?_
  rw [Finset.sum_ite_eq' _ q]
  by_cases hw : InWindow used h ac q <;> simp [hw, hq]

/-- The value of a used channel has the derivative `jac` in every entry of its window, and the
derivative zero in every other entry. -/
theorem value_hasDerivAt (used : Nat → Int) (depth h : Nat) (beta alpha k : ℝ) (x : Nat → ℝ) (ac q : Nat) (hu : used ac ≠ 0) (hq : q < depth)
    (hk : 0 < k) (ha : 0 ≤ alpha) :
    HasDerivAt (fun v => value used depth h beta alpha k (Function.update x q v) ac)
      (if InWindow used h ac q then jac used depth h beta alpha k x ac q else 0) (x q) := by
  have hpos := scaleOf_pos used depth h alpha k x ac hk ha
  have h1 := scaleOf_hasDerivAt used depth h alpha k x ac q hq
  have h0 : scaleOf used depth h alpha k (Function.update x q (x q)) ac = scaleOf used depth h alpha k x ac := by
    rw [Function.update_eq_self]
  have h2 := h1.rpow_const (p := beta) (Or.inl (by rw [h0]; exact hpos.ne'))
  have h3 : HasDerivAt (fun v => Function.update x q v ac) (if q = ac then 1 else 0) (x q) := by
    by_cases hc : ac = q
    · subst hc
      simp only [Function.update_self, if_true]
      exact hasDerivAt_id _
    · simp only [Function.update_of_ne hc, if_neg (Ne.symm hc)]
      exact hasDerivAt_const _ _
  have h4 := h3.div h2 (by rw [h0]; exact (Real.rpow_pos_of_pos hpos _).ne')
  unfold value
  refine h4.congr_deriv ?_
  rw [h0, Function.update_eq_self]
  set S := scaleOf used depth h alpha k x ac with hS
  have hb : S ^ beta ≠ 0 := (Real.rpow_pos_of_pos hpos _).ne'
  have hb1 : S ^ (beta - 1) = S ^ beta / S := Real.rpow_sub_one hpos.ne' _
  have hb2 : S ^ (beta + 1) = S ^ beta * S := Real.rpow_add_one hpos.ne' _
  have hSn := hpos.ne'
  by_cases hw : InWindow used h ac q
  · simp only [if_pos hw, jac, ← hS, hb1, hb2]
    by_cases hc : q = ac
    · simp only [hc, if_true]
      field_simp
    · simp only [if_neg hc]
      field_simp
      ring
  · have hc : q ≠ ac := fun h' => hw (h' ▸ InWindow_self used h ac hu)
    simp [hw, hc]

/-- The objective of which the errors are the derivatives: every used output times its error. -/
noncomputable def objective (used : Nat → Int) (size h : Nat) (beta alpha k : ℝ) (e x : Nat → ℝ) : ℝ :=
  ∑ ac ∈ (range size).filter (fun ac => used ac ≠ 0), e ac * value used size h beta alpha k x ac

theorem objective_hasDerivAt (used : Nat → Int) (size h : Nat) (beta alpha k : ℝ) (e x : Nat → ℝ) (q : Nat) (hq : q < size)
    (hk : 0 < k) (ha : 0 ≤ alpha) :
    HasDerivAt (fun v => objective used size h beta alpha k e (Function.update x q v))
      (∑ ac ∈ (range size).filter (fun ac => used ac ≠ 0), e ac *
        (if InWindow used h ac q then jac used size h beta alpha k x ac q else 0)) (x q) := by
  unfold objective
  exact HasDerivAt.fun_sum fun ac hac =>
    (value_hasDerivAt used size h beta alpha k x ac q (Finset.mem_filter.1 hac).2 hq hk ha).const_mul _

/-- **C88, the part that holds.** When the errors of the used entries are equal within every
window, back-propagation adds to the error of every entry the derivative of the objective. Not
proved, because false: the same for arbitrary errors, see `C88_refuted`. -/
theorem C88_gradient_partial (used : Arr Int) (x e : Arr ℝ) (size h : Nat) (beta alpha k : ℝ) (err : Arr ℝ) (hd : size ≤ used.len)
    (hx : size ≤ x.len) (he : size ≤ e.len) (hr : size ≤ err.len) (hk : 0 < k) (ha : 0 ≤ alpha)
    (heq : ∀ a c, a < size → c < size → used.get a ≠ 0 → InWindow used.get h a c → e.get a = e.get c) :
    ∃ err', bpAll used x e size h beta alpha k err = some err' ∧ err'.len = err.len ∧ ∀ q, q < size →
      HasDerivAt (fun v => objective used.get size h beta alpha k e.get (Function.update x.get q v)) (err'.get q - err.get q) (x.get q) := by
  obtain ⟨err', h1, h2, h3⟩ := bpAll_run used x e size h beta alpha k err hd hx he hr
  refine ⟨err', h1, h2, fun q hq => ?_⟩
  refine (objective_hasDerivAt used.get size h beta alpha k e.get x.get q hq hk ha).congr_deriv ?_
  rw [h3 q hq, add_sub_cancel_left, Finset.sum_filter]
  refine Finset.sum_congr rfl fun ac hac => ?_
  by_cases hu : used.get ac = 0
  · simp [hu]
  · by_cases hw : InWindow used.get h ac q
    · simp [hu, hw, heq ac q (Finset.mem_range.1 hac) hq hu hw]
    · simp [hu, hw]

example : ∃ (used : Arr Int) (e : Arr ℝ), used.get 0 ≠ 0 ∧ InWindow used.get 1 0 1 ∧
    ∀ a c, a < 3 → c < 3 → used.get a ≠ 0 → InWindow used.get 1 a c → e.get a = e.get c :=
  ⟨⟨3, fun _ => 1⟩, ⟨3, fun _ => 2⟩, by decide, by decide, fun _ _ _ _ _ _ => rfl⟩

/-- **C88 fails for unequal errors.** With two used entries in one window, both nonzero, and an
error only on the first output, the derivative of the objective in the second entry is not zero,
but back-propagation leaves the error of the second entry as it was. -/
theorem C88_refuted (x : Arr ℝ) (beta alpha k : ℝ) (err : Arr ℝ) (hx : x.len = 2) (hr : err.len = 2) (h0 : x.get 0 ≠ 0) (h1 : x.get 1 ≠ 0)
    (hb : beta ≠ 0) (ha : 0 < alpha) (hk : 0 < k) :
    ∃ err' d, bpAll ⟨2, fun _ => 1⟩ x ⟨2, fun i => if i = 0 then 1 else 0⟩ 2 1 beta alpha k err = some err' ∧ err'.get 1 = err.get 1 ∧
      HasDerivAt (fun v => objective (fun _ => 1) 2 1 beta alpha k (fun i => if i = 0 then 1 else 0) (Function.update x.get 1 v)) d (x.get 1) ∧ d ≠ 0 := by
  obtain ⟨err', e1, e2, e3⟩ := bpAll_run ⟨2, fun _ => 1⟩ x ⟨2, fun i => if i = 0 then 1 else 0⟩ 2 1 beta alpha k err le_rfl (by omega) le_rfl (by omega)
  refine ⟨err', _, e1, ?_, objective_hasDerivAt (fun _ => 1) 2 1 beta alpha k (fun i => if i = 0 then 1 else 0) x.get 1 (by omega) hk ha.le, ?_⟩
  · rw [e3 1 (by omega)]
    simp
  · have hw : InWindow (fun _ => (1 : Int)) 1 0 1 := by decide
    have hpos := scaleOf_pos (fun _ => 1) 2 1 alpha k x.get 0 hk ha.le
    rw [Finset.sum_filter]
    simp only [Finset.sum_range_succ, Finset.sum_range_zero, hw]
    have := (Real.rpow_pos_of_pos hpos (beta + 1)).ne'
    simp [jac, hb, ha.ne', h0, h1, this]

end LLab.LRN
