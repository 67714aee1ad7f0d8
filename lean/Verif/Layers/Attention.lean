import Verif.Common.View
import Verif.Common.Loop2
import Verif.Common.Bilinear
import Verif.Math.Softmax

/-!
Self attention (`/repo/src/attention.c`). Properties C31, C32, C68.
-/

namespace LLab.Attention

open Finset LLab.Softmax LLab.Vec

/-! ### Model -/

/-- Number of positions token `a` may see: the size argument given to `softmax`
(`/repo/src/attention.c` 51-54). -/
def vis (masked : Bool) (dim a : Nat) : Nat := if masked then a + 1 else dim

/-- First half of `self_attention_ff` (`/repo/src/attention.c` 47-55), state
`(score_matrix, score_matrix_softmax)`. The C loops step `i` and `j` by
`k_embedding_dimension`; here they count tokens, which is the same traversal
when it is positive. Flags other than the two documented are not modelled. -/
noncomputable def ffScores (masked : Bool) (dim k : Nat) (q key : Arr ℝ) (st : Arr ℝ × Arr ℝ) :
    Option (Arr ℝ × Arr ℝ) :=
  loop dim (fun a (st : Arr ℝ × Arr ℝ) => do
    let score ← loop dim (fun b (score : Arr ℝ) => do
      let d ← dotProduct (q.view (a * k)) (key.view (b * k)) k
      score.write (a * dim + b) (d / Real.sqrt k)) st.1
    let soft ← st.2.onView (a * dim) fun o => softmax (score.view (a * dim)) o (vis masked dim a)
    some (score, soft)) st

/-- Second half of `self_attention_ff` (`/repo/src/attention.c` 57-61). -/
noncomputable def ffOut (dim v : Nat) (soft value out : Arr ℝ) : Option (Arr ℝ) :=
  loop dim (fun a out => loop v (fun j (out : Arr ℝ) => do
    let d ← dotProduct (soft.view (a * dim)) (value.view (j * dim)) dim
    out.addAt (a * v + j) d) out) out

/-- `self_attention_ff` (`/repo/src/attention.c` 44-62). The state is
`(score_matrix, score_matrix_softmax, output)`. -/
noncomputable def ff (masked : Bool) (dim k v : Nat) (q key value : Arr ℝ) (st : Arr ℝ × Arr ℝ × Arr ℝ) :
    Option (Arr ℝ × Arr ℝ × Arr ℝ) := do
  let s ← ffScores masked dim k q key (st.1, st.2.1)
  let out ← ffOut dim v s.2 value st.2.2
  some (s.1, s.2, out)

/-- First loop of `self_attention_bp` (`/repo/src/attention.c` 90-95), state
`(score_matrix_softmax_error, value_error)`. -/
noncomputable def bpOut (dim v : Nat) (soft value e : Arr ℝ) (st : Arr ℝ × Arr ℝ) :
    Option (Arr ℝ × Arr ℝ) :=
  loop dim (fun a st => loop v (fun j (st : Arr ℝ × Arr ℝ) => do
    let ev ← e.read (a * v + j)
    let se ← st.1.onView (a * dim) fun o => additionalMulValue (value.view (j * dim)) ev o dim
    let ve ← st.2.onView (j * dim) fun o => additionalMulValue (soft.view (a * dim)) ev o dim
    some (se, ve)) st) st

/-- Second loop of `self_attention_bp` (`/repo/src/attention.c` 97-102), on
`score_matrix_error`. -/
noncomputable def bpSoft (masked : Bool) (dim : Nat) (soft softErr : Arr ℝ) (scoreErr : Arr ℝ) :
    Option (Arr ℝ) :=
  loop dim (fun a (scoreErr : Arr ℝ) => scoreErr.onView (a * dim) fun o =>
    derivativeSoftmax o (soft.view (a * dim)) (softErr.view (a * dim)) (vis masked dim a)) scoreErr

/-- Third loop of `self_attention_bp` (`/repo/src/attention.c` 103-109), state
`(key_error, query_error)`. -/
noncomputable def bpScores (dim k : Nat) (q key scoreErr : Arr ℝ) (st : Arr ℝ × Arr ℝ) :
    Option (Arr ℝ × Arr ℝ) :=
  loop dim (fun a st => loop dim (fun b (st : Arr ℝ × Arr ℝ) => do
    let s ← scoreErr.read (a * dim + b)
    let ke ← st.1.onView (b * k) fun o => additionalMulValue (q.view (a * k)) (s / Real.sqrt k) o k
    let qe ← st.2.onView (a * k) fun o => additionalMulValue (key.view (b * k)) (s / Real.sqrt k) o k
    some (ke, qe)) st) st

/-- The arrays `self_attention_bp` writes. -/
structure Errs where
  (queryErr keyErr valueErr scoreErr softErr : Arr ℝ)

/-- `self_attention_bp` (`/repo/src/attention.c` 86-111). -/
noncomputable def bp (masked : Bool) (dim k v : Nat) (q key value soft e : Arr ℝ) (st : Errs) :
    Option Errs := do
  let s1 ← bpOut dim v soft value e (st.softErr, st.valueErr)
  let scoreErr ← bpSoft masked dim soft s1.1 st.scoreErr
  let s2 ← bpScores dim k q key scoreErr (st.keyErr, st.queryErr)
  some ⟨s2.2, s2.1, s1.2, scoreErr, s1.1⟩

/-! ### Specification -/

/-- Scaled inner product of query `a` and key `b`. -/
noncomputable def score (k : Nat) (q key : Nat → ℝ) (a b : Nat) : ℝ :=
  (∑ c ∈ range k, q (a * k + c) * key (b * k + c)) / Real.sqrt k

/-- Attention output of token `a`, component `j`: the softmax-weighted average
of component `j` of the visible values. Component `j` of the value of token `t`
is at `j*dim + t`, as the code reads it. -/
noncomputable def attn (masked : Bool) (dim k : Nat) (q key value : Nat → ℝ) (a j : Nat) : ℝ :=
  ∑ t ∈ range (vis masked dim a), smax (vis masked dim a) (score k q key a) t * value (j * dim + t)

/-! ### Forward -/

theorem vis_le (masked : Bool) {dim a : Nat} (h : a < dim) : vis masked dim a ≤ dim := by
  unfold vis; split <;> omega

theorem vis_pos (masked : Bool) {dim a : Nat} (h : a < dim) : 0 < vis masked dim a := by
  unfold vis; split <;> omega

theorem row_le {a n k : Nat} (h : a < n) : a * k + k ≤ n * k := by
  calc a * k + k = (a + 1) * k := (Nat.succ_mul a k).symm
    _ ≤ n * k := Nat.mul_le_mul_right k h

theorem dot_view (x y : Arr ℝ) (a b n : Nat) (hx : a + n ≤ x.len) (hy : b + n ≤ y.len) :
    dotProduct (x.view a) (y.view b) n = some (∑ c ∈ range n, x.get (a + c) * y.get (b + c)) :=
  (C64_dot (x.view a) (y.view b) n (by simp; omega) (by simp; omega)).1

theorem smax_congr {n : Nat} {x y : Nat → ℝ} (h : ∀ i, i < n → x i = y i) {i : Nat} (hi : i < n) :
    smax n x i = smax n y i := by
  unfold smax
  rw [h i hi, Finset.sum_congr rfl fun k hk => by rw [h k (Finset.mem_range.1 hk)]]

theorem ffScores_eq (masked : Bool) (dim k : Nat) (q key score0 soft0 : Arr ℝ)
    (hq : dim * k ≤ q.len) (hk : dim * k ≤ key.len) (hs : dim * dim ≤ score0.len)
    (hp : dim * dim ≤ soft0.len) :
    ∃ sc so, ffScores masked dim k q key (score0, soft0) = some (sc, so) ∧
      sc.len = score0.len ∧ so.len = soft0.len ∧
      (∀ a, a < dim → ∀ b, b < dim → sc.get (a * dim + b) = score k q.get key.get a b) ∧
      (∀ a, a < dim → ∀ t, t < dim → so.get (a * dim + t) =
        if t < vis masked dim a then smax (vis masked dim a) (score k q.get key.get a) t
        else soft0.get (a * dim + t)) ∧
      ∀ u, dim * dim ≤ u → so.get u = soft0.get u := by
  obtain ⟨⟨sc, so⟩, e, h1, h2, h3, h4, h5⟩ := loop_inv (n := dim) (s := (score0, soft0))
    (f := fun a (st : Arr ℝ × Arr ℝ) => (loop dim (fun b (score : Arr ℝ) =>
        (dotProduct (q.view (a * k)) (key.view (b * k)) k).bind fun d =>
          score.write (a * dim + b) (d / Real.sqrt k)) st.1).bind fun score =>
      (st.2.onView (a * dim) fun o => softmax (score.view (a * dim)) o (vis masked dim a)).bind fun soft =>
        some (score, soft))
    (fun n st => st.1.len = score0.len ∧ st.2.len = soft0.len ∧
      (∀ a, a < n → a < dim → ∀ b, b < dim → st.1.get (a * dim + b) = score k q.get key.get a b) ∧
      (∀ a, a < n → a < dim → ∀ t, t < dim → st.2.get (a * dim + t) =
        if t < vis masked dim a then smax (vis masked dim a) (score k q.get key.get a) t
        else soft0.get (a * dim + t)) ∧
      (∀ a, n ≤ a → ∀ t, st.2.get (a * dim + t) = soft0.get (a * dim + t)))
    ⟨rfl, rfl, by intro a h; omega, by intro a h; omega, by intros; rfl⟩
    (by
      rintro a ha ⟨sc, so⟩ ⟨h1, h2, h3, h4, h5⟩
      dsimp only at h1 h2 h3 h4 h5
      have hrow := row_le (k := dim) ha
      -- scores of row a
      obtain ⟨sc', e1, g1, g2, g3⟩ := loop_inv (n := dim) (s := sc)
        (f := fun b (score : Arr ℝ) => (dotProduct (q.view (a * k)) (key.view (b * k)) k).bind fun d =>
          score.write (a * dim + b) (d / Real.sqrt k))
        (fun n sc' => sc'.len = score0.len ∧
          (∀ b, b < n → sc'.get (a * dim + b) = score k q.get key.get a b) ∧
          (∀ u, u < a * dim → sc'.get u = sc.get u))
        ⟨h1, by intro b h; omega, by intros; rfl⟩
        (by
          rintro b hb s ⟨f1, f2, f3⟩
          have hrk := row_le (k := k) ha
          have hrk' := row_le (k := k) hb
          rw [dot_view q key _ _ _ (by omega) (by omega), Option.bind_some, Arr.write_eq _ (by omega)]
          refine ⟨_, rfl, f1, ?_, ?_⟩
          · intro b' hb'
            by_cases hbb : b' = b
            · subst hbb; simp only [Function.update_self]; rfl
            · simp only
              rw [Function.update_of_ne (by omega)]
              exact f2 b' (by omega)
          · intro u hu
            simp only
            rw [Function.update_of_ne (by omega)]
            exact f3 u hu)
      dsimp only
      rw [e1, Option.bind_some]
      have hv := vis_le masked ha
      have hso := softmax_eq (sc'.view (a * dim)) (so.view (a * dim)) (vis masked dim a)
        (by simp; omega) (by simp; omega)
      rw [Arr.onView_eq hso, Option.bind_some]
      refine ⟨_, rfl, g1, h2, ?_, ?_, ?_⟩
      · intro a' ha' ha'' b hb
        by_cases haa : a' = a
        · subst haa; exact g2 b hb
        · have := row_le (k := dim) (show a' < a by omega)
          dsimp only
          rw [g3 _ (by omega)]
          exact h3 a' (by omega) ha'' b hb
      · intro a' ha' ha'' t ht
        by_cases haa : a' = a
        · subst haa
          dsimp only
          rw [if_pos (by omega), Nat.add_sub_cancel_left]
          split_ifs with htv
          · refine smax_congr (fun i hi => ?_) htv
            rw [Arr.view_get]
            exact g2 i (by omega)
          · rw [Arr.view_get]
            exact h5 a' (le_refl _) t
        · have := row_le (k := dim) (show a' < a by omega)
          dsimp only
          rw [if_neg (by omega)]
          exact h4 a' (by omega) ha'' t ht
      · intro a' ha' t
        have := row_le (k := dim) (show a < a' by omega)
        dsimp only
        rw [if_pos (by omega), if_neg (by omega), Arr.view_get, Nat.add_sub_cancel' (by omega)]
        exact h5 a' (by omega) t)
  refine ⟨sc, so, e, h1, h2, fun a ha => h3 a ha ha, fun a ha => h4 a ha ha, fun u hu => ?_⟩
  have := h5 dim (le_refl _) (u - dim * dim)
  rwa [Nat.add_sub_cancel' hu] at this

theorem ffOut_eq (dim v : Nat) (soft value out : Arr ℝ) (hs : dim * dim ≤ soft.len)
    (hv : v * dim ≤ value.len) (ho : dim * v ≤ out.len) :
    ∃ o, ffOut dim v soft value out = some o ∧ o.len = out.len ∧
      (∀ a, a < dim → ∀ j, j < v → o.get (a * v + j) = out.get (a * v + j) +
        ∑ t ∈ range dim, soft.get (a * dim + t) * value.get (j * dim + t)) ∧
      ∀ u, dim * v ≤ u → o.get u = out.get u := by
  have h : ffOut dim v soft value out = some ⟨out.len, out.get + ∑ a ∈ range dim, ∑ j ∈ range v,
      Pi.single (a * v + j) (∑ t ∈ range dim, soft.get (a * dim + t) * value.get (j * dim + t))⟩ := by
    refine loop_act (Arr.mk out.len) _ ?_ out.get
    intro a ha m
    refine loop_act (Arr.mk out.len) _ ?_ m
    intro j hj m
    have h1 := row_le (k := dim) ha
    have h2 := row_le (k := dim) hj
    have h3 := Vec.idx_lt ha hj
    rw [dot_view _ _ _ _ _ (by omega) (by omega)]
    exact Arr.addAt_mk _ _ _ (by omega)
  refine ⟨_, h, rfl, ?_, ?_⟩
  · intro a ha j hj
    dsimp only
    rw [Pi.add_apply, single_sum_rows, if_pos (Vec.idx_lt ha hj), Nat.mul_comm a v,
      Nat.mul_add_div (by omega), Nat.mul_add_mod, Nat.div_eq_of_lt hj, Nat.mod_eq_of_lt hj, Nat.add_zero]
  · intro u hu
    dsimp only
    rw [Pi.add_apply, single_sum_rows, if_neg (by omega), add_zero]

/-- **C31, mask.** The positions row `a` attends to: all of them without a mask,
exactly `0, ..., a` with the causal mask. -/
theorem C31_prefix (dim a t : Nat) :
    (t < vis false dim a ↔ t < dim) ∧ (t < vis true dim a ↔ t ≤ a) := by
  simp [vis, Nat.lt_succ_iff]

/-- **C31, value.** Self attention stays in bounds and adds to the output of
token `a`, component `j` the softmax-weighted average of the visible values.
With masking the softmax matrix must be zero above the diagonal on entry (the
layers zero it before each pass). -/
theorem C31_attention (masked : Bool) (dim k v : Nat) (q key value score0 soft0 out : Arr ℝ)
    (hq : dim * k ≤ q.len) (hk : dim * k ≤ key.len) (hv : v * dim ≤ value.len)
    (hs : dim * dim ≤ score0.len) (hp : dim * dim ≤ soft0.len) (ho : dim * v ≤ out.len)
    (hz : masked = true → ∀ a t, a < t → t < dim → soft0.get (a * dim + t) = 0) :
    ∃ sc so o, ff masked dim k v q key value (score0, soft0, out) = some (sc, so, o) ∧
      o.len = out.len ∧
      (∀ a, a < dim → ∀ t, t < dim → so.get (a * dim + t) =
        if t < vis masked dim a then smax (vis masked dim a) (score k q.get key.get a) t else 0) ∧
      (∀ a, a < dim → ∀ j, j < v → o.get (a * v + j) =
        out.get (a * v + j) + attn masked dim k q.get key.get value.get a j) ∧
      (∀ u, dim * v ≤ u → o.get u = out.get u) ∧
      ∀ u, dim * dim ≤ u → so.get u = soft0.get u := by
  obtain ⟨sc, so, e1, h1, h2, h3, h4, h5⟩ := ffScores_eq masked dim k q key score0 soft0 hq hk hs hp
  obtain ⟨o, e2, g1, g2, g3⟩ := ffOut_eq dim v so value out (by omega) hv ho
  have h4' : ∀ a, a < dim → ∀ t, t < dim → so.get (a * dim + t) =
        if t < vis masked dim a then smax (vis masked dim a) (score k q.get key.get a) t else 0 := by
    intro a ha t ht
    rw [h4 a ha t ht]
    by_cases hvis : t < vis masked dim a
    · rw [if_pos hvis, if_pos hvis]
    · rw [if_neg hvis, if_neg hvis]
      cases masked with
      | true => exact hz rfl a t (by simp only [vis] at hvis; simp at hvis; omega) ht
      | false => simp only [vis] at hvis; simp at hvis; omega
  refine ⟨sc, so, o, ?_, g1, h4', ?_, g3, h5⟩
  · unfold ff
    rw [e1]
    simp only [Option.bind_eq_bind, Option.bind_some]
    rw [e2]
    rfl
  · intro a ha j hj
    rw [g2 a ha j hj]
    congr 1
    unfold attn
    rw [← Finset.sum_subset (Finset.range_subset_range.2 (vis_le masked ha))]
    · refine Finset.sum_congr rfl fun t ht => ?_
      have ht' := Finset.mem_range.1 ht
      have := vis_le masked ha
      rw [h4' a ha t (by omega), if_pos ht']
    · intro t ht ht'
      rw [h4' a ha t (Finset.mem_range.1 ht), if_neg (by simpa using ht'), zero_mul]

/-- **C31, convexity.** The weights of the average are positive and sum to
one, so each output lies between the smallest and largest visible value. -/
theorem C31_convex (masked : Bool) (dim k : Nat) (q key value : Nat → ℝ) (a j : Nat) (ha : a < dim)
    (lo hi : ℝ) (hval : ∀ t, t < vis masked dim a → lo ≤ value (j * dim + t) ∧ value (j * dim + t) ≤ hi) :
    (∀ t, 0 < smax (vis masked dim a) (score k q key a) t) ∧
      ∑ t ∈ range (vis masked dim a), smax (vis masked dim a) (score k q key a) t = 1 ∧
      lo ≤ attn masked dim k q key value a j ∧ attn masked dim k q key value a j ≤ hi := by
  have hpos := sum_exp_pos (range (vis masked dim a)) ⟨0, by simpa using vis_pos masked ha⟩ (score k q key a)
  have h1 : ∀ t, 0 < smax (vis masked dim a) (score k q key a) t := fun t => div_pos (Real.exp_pos _) hpos
  have h2 : ∑ t ∈ range (vis masked dim a), smax (vis masked dim a) (score k q key a) t = 1 := by
    unfold smax
    rw [← Finset.sum_div, div_self hpos.ne']
  refine ⟨h1, h2, ?_, ?_⟩
  · calc lo = ∑ t ∈ range (vis masked dim a), smax (vis masked dim a) (score k q key a) t * lo := by
          rw [← Finset.sum_mul, h2, one_mul]
      _ ≤ _ := Finset.sum_le_sum fun t ht =>
          mul_le_mul_of_nonneg_left (hval t (Finset.mem_range.1 ht)).1 (h1 t).le
  · calc attn masked dim k q key value a j
        ≤ ∑ t ∈ range (vis masked dim a), smax (vis masked dim a) (score k q key a) t * hi :=
          Finset.sum_le_sum fun t ht => mul_le_mul_of_nonneg_left (hval t (Finset.mem_range.1 ht)).2 (h1 t).le
      _ = hi := by rw [← Finset.sum_mul, h2, one_mul]

/-- **C31, causality.** Two runs of masked attention with the same query for
token `a`, and keys and values that agree for tokens up to `a` (but are
arbitrary afterwards, and with arbitrary other queries), give token `a` the
same output. -/
theorem C31_causal (dim k v : Nat) (q key value q' key' value' score0 soft0 out : Arr ℝ)
    (hq : dim * k ≤ q.len) (hk : dim * k ≤ key.len) (hv : v * dim ≤ value.len)
    (hq' : dim * k ≤ q'.len) (hk' : dim * k ≤ key'.len) (hv' : v * dim ≤ value'.len)
    (hs : dim * dim ≤ score0.len) (hp : dim * dim ≤ soft0.len) (ho : dim * v ≤ out.len)
    (hz : ∀ a t, a < t → t < dim → soft0.get (a * dim + t) = 0) (a : Nat) (ha : a < dim)
    (eq : ∀ c, c < k → q.get (a * k + c) = q'.get (a * k + c))
    (ek : ∀ t, t ≤ a → ∀ c, c < k → key.get (t * k + c) = key'.get (t * k + c))
    (ev : ∀ t, t ≤ a → ∀ j, j < v → value.get (j * dim + t) = value'.get (j * dim + t)) :
    ∃ r r', ff true dim k v q key value (score0, soft0, out) = some r ∧
      ff true dim k v q' key' value' (score0, soft0, out) = some r' ∧
      ∀ j, j < v → r.2.2.get (a * v + j) = r'.2.2.get (a * v + j) := by
  obtain ⟨sc, so, o, e1, -, -, h1, -⟩ := C31_attention true dim k v q key value score0 soft0 out
    hq hk hv hs hp ho (fun _ => hz)
  obtain ⟨sc', so', o', e2, -, -, h2, -⟩ := C31_attention true dim k v q' key' value' score0 soft0 out
    hq' hk' hv' hs hp ho (fun _ => hz)
  refine ⟨_, _, e1, e2, fun j hj => ?_⟩
  dsimp only
  rw [h1 a ha j hj, h2 a ha j hj]
  congr 1
  unfold attn
  have hvis : vis true dim a = a + 1 := rfl
  rw [hvis]
  refine Finset.sum_congr rfl fun t ht => ?_
  have ht' := Finset.mem_range.1 ht
  rw [ev t (by omega) j hj, smax_congr (y := score k q'.get key'.get a) (fun i hi => ?_) ht']
  unfold score
  congr 1
  refine Finset.sum_congr rfl fun c hc => ?_
  rw [eq c (Finset.mem_range.1 hc), ek i (by omega) c (Finset.mem_range.1 hc)]

/-- Non-vacuity: zeroed buffers meet the hypotheses for two tokens. -/
example : ∃ sc so o, ff true 2 1 1 (⟨2, fun _ => 1⟩) (⟨2, fun _ => 1⟩) (⟨2, fun t => t⟩)
    (⟨4, fun _ => 0⟩, ⟨4, fun _ => 0⟩, ⟨2, fun _ => 0⟩) = some (sc, so, o) ∧ o.get 0 = 0 ∧ o.get 1 = 1 / 2 := by
  obtain ⟨sc, so, o, e, -, -, h, -⟩ := C31_attention true 2 1 1 (⟨2, fun _ => 1⟩) (⟨2, fun _ => 1⟩)
    (⟨2, fun t => t⟩) (⟨4, fun _ => 0⟩) (⟨4, fun _ => 0⟩) (⟨2, fun _ => 0⟩) (by simp) (by simp) (by simp)
    (by simp) (by simp) (by simp) (by intros; rfl)
  refine ⟨sc, so, o, e, ?_, ?_⟩
  · have := h 0 (by omega) 0 (by omega)
    simpa [attn, vis, smax] using this
  · have := h 1 (by omega) 0 (by omega)
    simp only [attn, vis, smax, score, Finset.sum_range_succ, Finset.sum_range_zero] at this
    simp at this
    rw [this]
    have := Real.exp_pos 1
    field_simp
    norm_num

/-! ### Backward -/

/-- Derivative of an error-weighted softmax along a curve. -/
theorem wsum_path (S : Finset Nat) (hS : S.Nonempty) (e : Nat → ℝ) (x : Nat → ℝ → ℝ) (x' : Nat → ℝ) (τ : ℝ)
    (h : ∀ b ∈ S, HasDerivAt (x b) (x' b) τ) (s : Nat → ℝ)
    (hs : ∀ b ∈ S, s b = Real.exp (x b τ) / ∑ k ∈ S, Real.exp (x k τ)) :
    HasDerivAt (fun t => ∑ i ∈ S, e i * (Real.exp (x i t) / ∑ k ∈ S, Real.exp (x k t)))
      (∑ b ∈ S, (∑ i ∈ S, if i = b then s i * (1 - s b) * e i else -(s b * s i * e i)) * x' b) τ := by
  have hZ := sum_exp_pos S hS (fun k => x k τ)
  have hden : HasDerivAt (fun t => ∑ k ∈ S, Real.exp (x k t)) (∑ k ∈ S, Real.exp (x k τ) * x' k) τ :=
    HasDerivAt.fun_sum fun k hk => (h k hk).exp
  have hfrac : ∀ i ∈ S, HasDerivAt (fun t => e i * (Real.exp (x i t) / ∑ k ∈ S, Real.exp (x k t)))
      (e i * (s i * x' i) - e i * s i * ∑ k ∈ S, s k * x' k) τ := by
    intro i hi
    refine ((((h i hi).exp).fun_div hden hZ.ne').const_mul (e i)).congr_deriv ?_
    have h1 : ∑ k ∈ S, s k * x' k = (∑ k ∈ S, Real.exp (x k τ) * x' k) / ∑ k ∈ S, Real.exp (x k τ) := by
      rw [Finset.sum_div]
      refine Finset.sum_congr rfl fun k hk => ?_
      rw [hs k hk]; ring
    rw [h1, hs i hi]
    set Z := ∑ k ∈ S, Real.exp (x k τ)
    field_simp
  refine (HasDerivAt.fun_sum hfrac).congr_deriv ?_
  have hG : ∀ b ∈ S, (∑ i ∈ S, if i = b then s i * (1 - s b) * e i else -(s b * s i * e i)) =
      s b * e b - s b * ∑ i ∈ S, s i * e i := by
    intro b hb
    have : ∀ i ∈ S, (if i = b then s i * (1 - s b) * e i else -(s b * s i * e i)) =
        (if i = b then s b * e b else 0) - s b * (s i * e i) := by
      intro i _
      split_ifs with hib
      · subst hib; ring
      · ring
    rw [Finset.sum_congr rfl this, Finset.sum_sub_distrib, Finset.sum_ite_eq', if_pos hb, Finset.mul_sum]
  have hR : (∑ b ∈ S, (∑ i ∈ S, if i = b then s i * (1 - s b) * e i else -(s b * s i * e i)) * x' b) =
      ∑ b ∈ S, e b * (s b * x' b) - (∑ i ∈ S, s i * e i) * ∑ b ∈ S, s b * x' b := by
    rw [Finset.mul_sum, ← Finset.sum_sub_distrib]
    refine Finset.sum_congr rfl fun b hb => ?_
    rw [hG b hb]; ring
  rw [hR, Finset.sum_sub_distrib, ← Finset.sum_mul]
  congr 2
  exact Finset.sum_congr rfl fun i _ => mul_comm _ _

theorem amv_view (inp : Arr ℝ) (off' : Nat) (ev : ℝ) (len : Nat) (m : Nat → ℝ) (off n : Nat)
    (hi : off' + n ≤ inp.len) (ho : off + n ≤ len) :
    ((Arr.mk len m).onView off fun o => additionalMulValue (inp.view off') ev o n) =
      some ⟨len, m + ∑ t ∈ range n, Pi.single (off + t) (inp.get (off' + t) * ev)⟩ := by
  refine Arr.onView_add (fun t => inp.get (off' + t) * ev) (len := len - off) ?_
  rw [C64_additional_mul_value _ _ _ _ (by simp; omega) (by simp; omega)]
  rfl

private def act (a b : Nat) (m : (Nat → ℝ) × (Nat → ℝ)) : Arr ℝ × Arr ℝ := (⟨a, m.1⟩, ⟨b, m.2⟩)

theorem bpOut_eq (dim v : Nat) (soft value e se ve : Arr ℝ) (hs : dim * dim ≤ soft.len)
    (hv : v * dim ≤ value.len) (he : dim * v ≤ e.len) (hse : dim * dim ≤ se.len) (hve : v * dim ≤ ve.len) :
    bpOut dim v soft value e (se, ve) = some
      (⟨se.len, se.get + ∑ a ∈ range dim, ∑ j ∈ range v, ∑ t ∈ range dim,
          Pi.single (a * dim + t) (value.get (j * dim + t) * e.get (a * v + j))⟩,
       ⟨ve.len, ve.get + ∑ a ∈ range dim, ∑ j ∈ range v, ∑ t ∈ range dim,
          Pi.single (j * dim + t) (soft.get (a * dim + t) * e.get (a * v + j))⟩) := by
  have h : bpOut dim v soft value e (act se.len ve.len (se.get, ve.get)) = some (act se.len ve.len
      ((se.get, ve.get) + ∑ a ∈ range dim, ∑ j ∈ range v,
        (∑ t ∈ range dim, Pi.single (a * dim + t) (value.get (j * dim + t) * e.get (a * v + j)),
         ∑ t ∈ range dim, Pi.single (j * dim + t) (soft.get (a * dim + t) * e.get (a * v + j))))) := by
    refine loop_act (act se.len ve.len) _ ?_ _
    intro a ha m
    refine loop_act (act se.len ve.len) _ ?_ m
    intro j hj m
    have h1 := row_le (k := dim) ha
    have h2 := row_le (k := dim) hj
    have h3 := Vec.idx_lt ha hj
    rw [Arr.read_eq (by omega)]
    simp only [Option.bind_eq_bind, Option.bind_some, act]
    rw [amv_view _ _ _ _ _ _ _ (by omega) (by omega)]
    simp only [Option.bind_some]
    rw [amv_view _ _ _ _ _ _ _ (by omega) (by omega)]
    rfl
  refine Eq.trans h ?_
  simp only [act, Prod.fst_add, Prod.fst_sum, Prod.snd_add, Prod.snd_sum]

/-- The softmax derivative of one row. -/
def grad (n : Nat) (s e : Nat → ℝ) (b : Nat) : ℝ :=
  ∑ i ∈ range n, if i = b then s i * (1 - s b) * e i else -(s b * s i * e i)

theorem bpSoft_eq (masked : Bool) (dim : Nat) (soft se sce : Arr ℝ) (hs : dim * dim ≤ soft.len)
    (hse : dim * dim ≤ se.len) (hsc : dim * dim ≤ sce.len) :
    bpSoft masked dim soft se sce = some ⟨sce.len, sce.get + ∑ a ∈ range dim,
      ∑ b ∈ range (vis masked dim a), Pi.single (a * dim + b)
        (grad (vis masked dim a) (fun t => soft.get (a * dim + t)) (fun t => se.get (a * dim + t)) b)⟩ := by
  refine loop_act (Arr.mk sce.len) _ ?_ sce.get
  intro a ha m
  have h1 := row_le (k := dim) ha
  have h2 := vis_le masked ha
  refine Arr.onView_add _ (len := sce.len - a * dim) ?_
  rw [derivativeSoftmax_eq _ _ _ _ (by simp; omega) (by simp; omega) (by simp [Arr.view]; omega)]
  simp only [Arr.view_len, Arr.view_get]
  congr 2
  funext u
  congr 1
  by_cases hu : u < vis masked dim a
  · rw [if_pos hu, Finset.sum_eq_single u]
    · simp only [if_true, grad]
    · intro b _ hb; simp [Ne.symm hb]
    · intro hc; exact absurd (Finset.mem_range.2 hu) hc
  · rw [if_neg hu]
    refine Finset.sum_eq_zero fun b hb => Finset.sum_eq_zero fun i _ => ?_
    have := Finset.mem_range.1 hb
    rw [if_neg (by omega)]

theorem bpScores_eq (dim k : Nat) (q key sce ke qe : Arr ℝ) (hq : dim * k ≤ q.len) (hk : dim * k ≤ key.len)
    (hs : dim * dim ≤ sce.len) (hke : dim * k ≤ ke.len) (hqe : dim * k ≤ qe.len) :
    bpScores dim k q key sce (ke, qe) = some
      (⟨ke.len, ke.get + ∑ a ∈ range dim, ∑ b ∈ range dim, ∑ c ∈ range k,
          Pi.single (b * k + c) (q.get (a * k + c) * (sce.get (a * dim + b) / Real.sqrt k))⟩,
       ⟨qe.len, qe.get + ∑ a ∈ range dim, ∑ b ∈ range dim, ∑ c ∈ range k,
          Pi.single (a * k + c) (key.get (b * k + c) * (sce.get (a * dim + b) / Real.sqrt k))⟩) := by
  have h : bpScores dim k q key sce (act ke.len qe.len (ke.get, qe.get)) = some (act ke.len qe.len
      ((ke.get, qe.get) + ∑ a ∈ range dim, ∑ b ∈ range dim,
        (∑ c ∈ range k, Pi.single (b * k + c) (q.get (a * k + c) * (sce.get (a * dim + b) / Real.sqrt k)),
         ∑ c ∈ range k, Pi.single (a * k + c)
           (key.get (b * k + c) * (sce.get (a * dim + b) / Real.sqrt k))))) := by
    refine loop_act (act ke.len qe.len) _ ?_ _
    intro a ha m
    refine loop_act (act ke.len qe.len) _ ?_ m
    intro b hb m
    have h1 := row_le (k := k) ha
    have h2 := row_le (k := k) hb
    have h3 := Vec.idx_lt ha hb
    rw [Arr.read_eq (by omega)]
    simp only [Option.bind_eq_bind, Option.bind_some, act]
    rw [amv_view _ _ _ _ _ _ _ (by omega) (by omega)]
    simp only [Option.bind_some]
    rw [amv_view _ _ _ _ _ _ _ (by omega) (by omega)]
    rfl
  refine Eq.trans h ?_
  simp only [act, Prod.fst_add, Prod.fst_sum, Prod.snd_add, Prod.snd_sum]

/-- Upstream error times attention output. -/
noncomputable def weighted (masked : Bool) (dim k v : Nat) (e q key value : Nat → ℝ) : ℝ :=
  ∑ a ∈ range dim, ∑ j ∈ range v, e (a * v + j) * attn masked dim k q key value a j

theorem upd_deriv (x : Nat → ℝ) (p q : Nat) :
    HasDerivAt (fun t => Function.update x p t q) (if p = q then 1 else 0) (x p) := by
  by_cases h : p = q
  · subst h
    simp only [Function.update_self, if_true]
    exact hasDerivAt_id _
  · simp only [Function.update_of_ne (Ne.symm h), if_neg h]
    exact hasDerivAt_const _ _

/-- The error reaching the softmax row of token `a`. -/
noncomputable def rowErr (dim v : Nat) (e value : Nat → ℝ) (a t : Nat) : ℝ :=
  ∑ j ∈ range v, value (j * dim + t) * e (a * v + j)

theorem weighted_rows (masked : Bool) (dim k v : Nat) (e q key value : Nat → ℝ) :
    weighted masked dim k v e q key value = ∑ a ∈ range dim, ∑ t ∈ range (vis masked dim a),
      rowErr dim v e value a t * smax (vis masked dim a) (score k q key a) t := by
  unfold weighted attn rowErr
  refine Finset.sum_congr rfl fun a _ => ?_
  simp only [Finset.mul_sum, Finset.sum_mul]
  rw [Finset.sum_comm]
  exact Finset.sum_congr rfl fun t _ => Finset.sum_congr rfl fun j _ => by ring

/-- The weighted output differentiated along a curve of scores. -/
theorem weighted_path (masked : Bool) (dim k v : Nat) (e value : Nat → ℝ) (Q K : ℝ → Nat → ℝ) (τ : ℝ)
    (x' : Nat → Nat → ℝ)
    (h : ∀ a, a < dim → ∀ b, b < dim → HasDerivAt (fun t => score k (Q t) (K t) a b) (x' a b) τ) :
    HasDerivAt (fun t => weighted masked dim k v e (Q t) (K t) value)
      (∑ a ∈ range dim, ∑ b ∈ range (vis masked dim a),
        grad (vis masked dim a) (fun t => smax (vis masked dim a) (score k (Q τ) (K τ) a) t)
          (rowErr dim v e value a) b * x' a b) τ := by
  simp only [weighted_rows]
  refine HasDerivAt.fun_sum fun a ha => ?_
  have ha' := Finset.mem_range.1 ha
  have hv := vis_le masked ha'
  exact wsum_path (range (vis masked dim a)) ⟨0, by simpa using vis_pos masked ha'⟩
    (rowErr dim v e value a) (fun b t => score k (Q t) (K t) a b) (x' a) τ
    (fun b hb => h a ha' b (by have := Finset.mem_range.1 hb; omega)) _ (fun b _ => rfl)

theorem rows_at {n m a t : Nat} (F : Nat → Nat → Nat → ℝ) (ha : a < n) (ht : t < m) (v : Nat) :
    (∑ a' ∈ range n, ∑ j ∈ range v, ∑ t' ∈ range m, (Pi.single (a' * m + t') (F a' j t') : Nat → ℝ))
      (a * m + t) = ∑ j ∈ range v, F a j t := by
  have : ∑ a' ∈ range n, ∑ j ∈ range v, ∑ t' ∈ range m, (Pi.single (a' * m + t') (F a' j t') : Nat → ℝ) =
      ∑ a' ∈ range n, ∑ t' ∈ range m, Pi.single (a' * m + t') (∑ j ∈ range v, F a' j t') := by
    refine Finset.sum_congr rfl fun a' _ => ?_
    rw [Finset.sum_comm]
    refine Finset.sum_congr rfl fun t' _ => ?_
    funext u
    simp only [Finset.sum_apply, Pi.single_apply]
    split_ifs <;> simp
  rw [this, single_sum_rows, if_pos (Vec.idx_lt ha ht), Nat.mul_comm a m,
      Nat.mul_add_div (by omega), Nat.mul_add_mod, Nat.div_eq_of_lt ht, Nat.mod_eq_of_lt ht, Nat.add_zero]

theorem grad_congr {n : Nat} {s s' e e' : Nat → ℝ} (hs : ∀ i, i < n → s i = s' i)
    (he : ∀ i, i < n → e i = e' i) {b : Nat} (hb : b < n) : grad n s e b = grad n s' e' b := by
  unfold grad
  refine Finset.sum_congr rfl fun i hi => ?_
  have := Finset.mem_range.1 hi
  rw [hs i this, he i this, hs b hb]

/-- Closed forms of what the backward pass leaves. -/
theorem bp_run (masked : Bool) (dim k v : Nat) (q key value soft e : Arr ℝ) (st : Errs)
    (hq : dim * k ≤ q.len) (hk : dim * k ≤ key.len) (hv : v * dim ≤ value.len)
    (hso : dim * dim ≤ soft.len) (he : dim * v ≤ e.len)
    (hqe : dim * k ≤ st.queryErr.len) (hke : dim * k ≤ st.keyErr.len) (hve : v * dim ≤ st.valueErr.len)
    (hsc : dim * dim ≤ st.scoreErr.len) (hse : dim * dim ≤ st.softErr.len)
    (hsoft : ∀ a, a < dim → ∀ t, t < dim → soft.get (a * dim + t) =
        if t < vis masked dim a then smax (vis masked dim a) (score k q.get key.get a) t else 0)
    (zsc : ∀ u, u < dim * dim → st.scoreErr.get u = 0) (zse : ∀ u, u < dim * dim → st.softErr.get u = 0) :
    ∃ qe ke ve sce se : Arr ℝ, bp masked dim k v q key value soft e st = some ⟨qe, ke, ve, sce, se⟩ ∧
      (qe.len = st.queryErr.len ∧ ke.len = st.keyErr.len ∧ ve.len = st.valueErr.len ∧
        sce.len = st.scoreErr.len ∧ se.len = st.softErr.len) ∧
      ((∀ u, dim * dim ≤ u → sce.get u = st.scoreErr.get u) ∧
        ∀ u, dim * dim ≤ u → se.get u = st.softErr.get u) ∧
      (∀ p, ve.get p - st.valueErr.get p = ∑ a ∈ range dim, ∑ j ∈ range v, ∑ t ∈ range dim,
        if p = j * dim + t then soft.get (a * dim + t) * e.get (a * v + j) else 0) ∧
      (∀ p, ke.get p - st.keyErr.get p = ∑ a ∈ range dim, ∑ b ∈ range dim, ∑ c ∈ range k,
        if p = b * k + c then q.get (a * k + c) * (sce.get (a * dim + b) / Real.sqrt k) else 0) ∧
      (∀ p, qe.get p - st.queryErr.get p = ∑ a ∈ range dim, ∑ b ∈ range dim, ∑ c ∈ range k,
        if p = a * k + c then key.get (b * k + c) * (sce.get (a * dim + b) / Real.sqrt k) else 0) ∧
      ∀ (X : Nat → Nat → ℝ), ∑ a ∈ range dim, ∑ b ∈ range (vis masked dim a),
        grad (vis masked dim a) (fun t => smax (vis masked dim a) (score k q.get key.get a) t)
          (rowErr dim v e.get value.get a) b * X a b =
        ∑ a ∈ range dim, ∑ b ∈ range dim, sce.get (a * dim + b) * X a b := by
  obtain ⟨se, ve, h1, hse1, hve1, lse, lve, tse⟩ : ∃ se ve : Arr ℝ,
      bpOut dim v soft value e (st.softErr, st.valueErr) = some (se, ve) ∧
      (∀ a, a < dim → ∀ t, t < dim → se.get (a * dim + t) = rowErr dim v e.get value.get a t) ∧
      (∀ p, ve.get p - st.valueErr.get p = ∑ a ∈ range dim, ∑ j ∈ range v, ∑ t ∈ range dim,
        if p = j * dim + t then soft.get (a * dim + t) * e.get (a * v + j) else 0) ∧
      se.len = st.softErr.len ∧ ve.len = st.valueErr.len ∧
      ∀ u, dim * dim ≤ u → se.get u = st.softErr.get u := by
    refine ⟨_, _, bpOut_eq dim v soft value e st.softErr st.valueErr hso hv he hse hve, ?_, ?_, rfl, rfl, ?_⟩
    · intro a ha t ht
      dsimp only
      rw [Pi.add_apply, zse _ (Vec.idx_lt ha ht), zero_add]
      exact rows_at (fun a j t => value.get (j * dim + t) * e.get (a * v + j)) ha ht v
    · intro p
      dsimp only
      simp only [Pi.add_apply, add_sub_cancel_left, Finset.sum_apply, Pi.single_apply]
    · intro u hu
      dsimp only
      simp only [Pi.add_apply, Finset.sum_apply, Pi.single_apply]
      rw [Finset.sum_eq_zero, add_zero]
      intro a ha
      refine Finset.sum_eq_zero fun j _ => Finset.sum_eq_zero fun t ht => ?_
      have := Vec.idx_lt (Finset.mem_range.1 ha) (Finset.mem_range.1 ht)
      rw [if_neg (by omega)]
  have hG : ∀ a, a < dim → ∀ b, b < vis masked dim a →
      grad (vis masked dim a) (fun t => soft.get (a * dim + t)) (fun t => se.get (a * dim + t)) b =
      grad (vis masked dim a) (fun t => smax (vis masked dim a) (score k q.get key.get a) t)
        (rowErr dim v e.get value.get a) b := by
    intro a ha b hb
    have := vis_le masked ha
    refine grad_congr (fun i hi => ?_) (fun i hi => hse1 a ha i (by omega)) hb
    rw [hsoft a ha i (by omega), if_pos hi]
  obtain ⟨sce, h2, hsce, lsc, tsc⟩ : ∃ sce : Arr ℝ, bpSoft masked dim soft se st.scoreErr = some sce ∧
      (∀ a, a < dim → ∀ b, b < dim → sce.get (a * dim + b) = if b < vis masked dim a then
        grad (vis masked dim a) (fun t => smax (vis masked dim a) (score k q.get key.get a) t)
          (rowErr dim v e.get value.get a) b else 0) ∧ sce.len = st.scoreErr.len ∧ ∀ u, dim * dim ≤ u → sce.get u = st.scoreErr.get u := by
    refine ⟨_, bpSoft_eq masked dim soft se st.scoreErr hso (by omega) hsc, ?_, rfl, ?_⟩
    swap
    · intro u hu
      dsimp only
      simp only [Pi.add_apply, Finset.sum_apply, Pi.single_apply]
      rw [Finset.sum_eq_zero, add_zero]
      intro a ha
      refine Finset.sum_eq_zero fun t ht => ?_
      have h1 := vis_le masked (Finset.mem_range.1 ha)
      have := Vec.idx_lt (m := dim) (j := t) (Finset.mem_range.1 ha) (by have := Finset.mem_range.1 ht; omega)
      rw [if_neg (by omega)]
    intro a ha b hb
    dsimp only
    rw [Pi.add_apply, zsc _ (Vec.idx_lt ha hb), zero_add, Finset.sum_apply, Finset.sum_eq_single a]
    · rw [Finset.sum_apply]
      simp only [Pi.single_apply, Nat.add_left_cancel_iff]
      rw [Finset.sum_ite_eq (range (vis masked dim a)) b]
      simp only [Finset.mem_range]
      split_ifs with hbv
      · exact hG a ha b hbv
      · rfl
    · intro a' ha' hne
      rw [Finset.sum_apply]
      refine Finset.sum_eq_zero fun b' hb' => ?_
      rw [Pi.single_apply, if_neg]
      intro hc
      have h3 := vis_le masked (Finset.mem_range.1 ha')
      have h4 := Finset.mem_range.1 hb'
      exact hne (Vec.idx_inj hb (by omega) hc).1.symm
    · intro hc; exact absurd (Finset.mem_range.2 ha) hc
  obtain ⟨ke, qe, h3, hke1, hqe1, lke, lqe⟩ : ∃ ke qe : Arr ℝ,
      bpScores dim k q key sce (st.keyErr, st.queryErr) = some (ke, qe) ∧
      (∀ p, ke.get p - st.keyErr.get p = ∑ a ∈ range dim, ∑ b ∈ range dim, ∑ c ∈ range k,
        if p = b * k + c then q.get (a * k + c) * (sce.get (a * dim + b) / Real.sqrt k) else 0) ∧
      (∀ p, qe.get p - st.queryErr.get p = ∑ a ∈ range dim, ∑ b ∈ range dim, ∑ c ∈ range k,
        if p = a * k + c then key.get (b * k + c) * (sce.get (a * dim + b) / Real.sqrt k) else 0) ∧
      ke.len = st.keyErr.len ∧ qe.len = st.queryErr.len := by
    refine ⟨_, _, bpScores_eq dim k q key sce st.keyErr st.queryErr hq hk (by omega) hke hqe, ?_, ?_, rfl, rfl⟩
    · intro p
      dsimp only
      simp only [Pi.add_apply, add_sub_cancel_left, Finset.sum_apply, Pi.single_apply]
    · intro p
      dsimp only
      simp only [Pi.add_apply, add_sub_cancel_left, Finset.sum_apply, Pi.single_apply]
  -- collapse of the masked part of the score error
  have hcol : ∀ (X : Nat → Nat → ℝ), ∑ a ∈ range dim, ∑ b ∈ range (vis masked dim a),
      grad (vis masked dim a) (fun t => smax (vis masked dim a) (score k q.get key.get a) t)
        (rowErr dim v e.get value.get a) b * X a b =
      ∑ a ∈ range dim, ∑ b ∈ range dim, sce.get (a * dim + b) * X a b := by
    intro X
    refine Finset.sum_congr rfl fun a ha => ?_
    have ha' := Finset.mem_range.1 ha
    have hvl := vis_le masked ha'
    refine (Finset.sum_congr rfl fun b hb => ?_).trans
      (Finset.sum_subset (Finset.range_subset_range.2 hvl) fun b hb hb' => ?_)
    · have hb' := Finset.mem_range.1 hb
      rw [hsce a ha' b (by omega), if_pos hb']
    · rw [hsce a ha' b (Finset.mem_range.1 hb), if_neg (by simpa using hb'), zero_mul]
  refine ⟨qe, ke, ve, sce, se, ?_, ⟨lqe, lke, lve, lsc, lse⟩, ⟨tsc, tse⟩, hve1, hke1, hqe1, hcol⟩
  unfold bp
  rw [h1]
  simp only [Option.bind_eq_bind, Option.bind_some]
  rw [h2]
  simp only [Option.bind_some]
  rw [h3]
  rfl

/-- **C68.** With the softmax matrix left by the forward pass and the two
score-error matrices zeroed, the backward pass stays in bounds and adds to the
query, key and value errors the partial derivatives of the error-weighted
attention output, masked or not. -/
theorem C68_attention_backward (masked : Bool) (dim k v : Nat) (q key value soft e : Arr ℝ) (st : Errs)
    (hq : dim * k ≤ q.len) (hk : dim * k ≤ key.len) (hv : v * dim ≤ value.len)
    (hso : dim * dim ≤ soft.len) (he : dim * v ≤ e.len)
    (hqe : dim * k ≤ st.queryErr.len) (hke : dim * k ≤ st.keyErr.len) (hve : v * dim ≤ st.valueErr.len)
    (hsc : dim * dim ≤ st.scoreErr.len) (hse : dim * dim ≤ st.softErr.len)
    (hsoft : ∀ a, a < dim → ∀ t, t < dim → soft.get (a * dim + t) =
        if t < vis masked dim a then smax (vis masked dim a) (score k q.get key.get a) t else 0)
    (zsc : ∀ u, u < dim * dim → st.scoreErr.get u = 0) (zse : ∀ u, u < dim * dim → st.softErr.get u = 0) :
    ∃ st', bp masked dim k v q key value soft e st = some st' ∧
      (∀ p, HasDerivAt (fun t => weighted masked dim k v e.get (Function.update q.get p t) key.get value.get)
        (st'.queryErr.get p - st.queryErr.get p) (q.get p)) ∧
      (∀ p, HasDerivAt (fun t => weighted masked dim k v e.get q.get (Function.update key.get p t) value.get)
        (st'.keyErr.get p - st.keyErr.get p) (key.get p)) ∧
      (∀ p, HasDerivAt (fun t => weighted masked dim k v e.get q.get key.get (Function.update value.get p t))
        (st'.valueErr.get p - st.valueErr.get p) (value.get p)) := by
  obtain ⟨qe, ke, ve, sce, se, hrun, -, -, hve1, hke1, hqe1, hcol⟩ := bp_run masked dim k v q key value soft e st
    hq hk hv hso he hqe hke hve hsc hse hsoft zsc zse
  refine ⟨⟨qe, ke, ve, sce, se⟩, hrun, ?_, ?_, ?_⟩
  · intro p
    have hx : ∀ a, a < dim → ∀ b, b < dim → HasDerivAt
        (fun t => score k (Function.update q.get p t) key.get a b)
        ((∑ c ∈ range k, (if p = a * k + c then 1 else 0) * key.get (b * k + c)) / Real.sqrt k) (q.get p) := by
      intro a _ b _
      exact (HasDerivAt.fun_sum fun c _ => (upd_deriv q.get p (a * k + c)).mul_const _).div_const _
    refine (weighted_path masked dim k v e.get value.get (fun t => Function.update q.get p t)
      (fun _ => key.get) (q.get p) _ hx).congr_deriv ?_
    simp only [Function.update_eq_self]
    rw [hcol]
    rw [hqe1 p]
    refine Finset.sum_congr rfl fun a _ => Finset.sum_congr rfl fun b _ => ?_
    rw [Finset.sum_div, Finset.mul_sum]
    refine Finset.sum_congr rfl fun c _ => ?_
    split_ifs
    · ring
    · simp
  · intro p
    have hx : ∀ a, a < dim → ∀ b, b < dim → HasDerivAt
        (fun t => score k q.get (Function.update key.get p t) a b)
        ((∑ c ∈ range k, q.get (a * k + c) * (if p = b * k + c then 1 else 0)) / Real.sqrt k) (key.get p) := by
      intro a _ b _
      exact (HasDerivAt.fun_sum fun c _ => (upd_deriv key.get p (b * k + c)).const_mul _).div_const _
    refine (weighted_path masked dim k v e.get value.get (fun _ => q.get)
      (fun t => Function.update key.get p t) (key.get p) _ hx).congr_deriv ?_
    simp only [Function.update_eq_self]
    rw [hcol]
    rw [hke1 p]
    refine Finset.sum_congr rfl fun a _ => Finset.sum_congr rfl fun b _ => ?_
    rw [Finset.sum_div, Finset.mul_sum]
    refine Finset.sum_congr rfl fun c _ => ?_
    split_ifs
    · ring
    · simp
  · intro p
    have hw : ∀ val : Nat → ℝ, weighted masked dim k v e.get q.get key.get val =
        ∑ a ∈ range dim, ∑ j ∈ range v, e.get (a * v + j) *
          ∑ t ∈ range dim, soft.get (a * dim + t) * val (j * dim + t) := by
      intro val
      unfold weighted attn
      refine Finset.sum_congr rfl fun a ha => Finset.sum_congr rfl fun j _ => ?_
      have ha' := Finset.mem_range.1 ha
      have hvl := vis_le masked ha'
      congr 1
      refine (Finset.sum_congr rfl fun b hb => ?_).trans
        (Finset.sum_subset (Finset.range_subset_range.2 hvl) fun b hb hb' => ?_)
      · have hb' := Finset.mem_range.1 hb
        rw [hsoft a ha' b (by omega), if_pos hb']
      · rw [hsoft a ha' b (Finset.mem_range.1 hb), if_neg (by simpa using hb'), zero_mul]
    simp only [hw]
    refine (HasDerivAt.fun_sum fun a _ => HasDerivAt.fun_sum fun j _ =>
      (HasDerivAt.fun_sum fun t _ => (upd_deriv value.get p (j * dim + t)).const_mul _).const_mul _).congr_deriv ?_
    rw [hve1 p]
    refine Finset.sum_congr rfl fun a _ => Finset.sum_congr rfl fun j _ => ?_
    rw [Finset.mul_sum]
    refine Finset.sum_congr rfl fun t _ => ?_
    split_ifs
    · ring
    · simp

/-- Non-vacuity: the forward pass leaves a softmax matrix as required. -/
example (masked : Bool) (q key value : Arr ℝ) (hq : 3 * 2 ≤ q.len) (hk : 3 * 2 ≤ key.len)
    (hv : 2 * 3 ≤ value.len) :
    ∃ sc so o, ff masked 3 2 2 q key value (⟨9, fun _ => 0⟩, ⟨9, fun _ => 0⟩, ⟨6, fun _ => 0⟩) =
        some (sc, so, o) ∧
      ∀ a, a < 3 → ∀ t, t < 3 → so.get (a * 3 + t) = if t < vis masked 3 a then
        smax (vis masked 3 a) (score 2 q.get key.get a) t else 0 := by
  obtain ⟨sc, so, o, e, -, h, -⟩ := C31_attention masked 3 2 2 q key value ⟨9, fun _ => 0⟩
    ⟨9, fun _ => 0⟩ ⟨6, fun _ => 0⟩ hq hk hv (by simp) (by simp) (by simp) (by intros; rfl)
  exact ⟨sc, so, o, e, h⟩

end LLab.Attention
