import Verif.Utils.ShuffleLemmas
import Mathlib.Tactic.NormNum

/-! Property theorems for shuffling: `C03`, `C04`. -/

namespace LLab.Utils

variable {β γ δ ε ζ : Type}

/-- **C03, one array.** For every random stream there is one permutation of the
first `n` positions, independent of the contents, that the shuffle applies.
No access is out of bounds. -/
theorem C03_shuffle_one (RM : Nat) (rs : Nat → Nat) (hrs : ∀ i, rs i ≤ RM) (n : Nat) :
    ∃ p : Equiv.Perm Nat, (∀ k, n ≤ k → p k = k) ∧
      ∀ {β : Type} (m : List β), n ≤ m.length →
        ∃ m', shuffle1 RM rs m n = some m' ∧ m'.length = m.length ∧
          ∀ k : Nat, m'[k]? = m[p k]? := by
  by_cases hn : n > 1
  · refine ⟨shufflePerm RM n rs (n - 1) 0,
      fun k hk => shufflePerm_fix RM n rs hrs (n - 1) 0 (by omega) k (Or.inr hk), ?_⟩
    intro β m hm
    obtain ⟨m', e, l, r⟩ := shuffleLoop1_spec RM n rs hrs (n - 1) 0 m (by omega) hm
    exact ⟨m', by simp [shuffle1, shuffleWith, hn, e], l, r⟩
  · exact ⟨1, fun k _ => rfl, fun m _ => ⟨m, by simp [shuffle1, shuffleWith, hn], rfl, fun k => rfl⟩⟩

/-- **C03, two parallel arrays.** Both arrays are reordered by the same
permutation, so sample `k` keeps its label. -/
theorem C03_shuffle_two (RM : Nat) (rs : Nat → Nat) (hrs : ∀ i, rs i ≤ RM) (n : Nat) :
    ∃ p : Equiv.Perm Nat, (∀ k, n ≤ k → p k = k) ∧
      ∀ {β γ : Type} (m : List β) (m1 : List γ), n ≤ m.length → n ≤ m1.length →
        ∃ m' m1', shuffle2 RM rs m m1 n = some (m', m1') ∧
          m'.length = m.length ∧ m1'.length = m1.length ∧
          ∀ k : Nat, m'[k]? = m[p k]? ∧ m1'[k]? = m1[p k]? := by
  by_cases hn : n > 1
  · refine ⟨shufflePerm RM n rs (n - 1) 0,
      fun k hk => shufflePerm_fix RM n rs hrs (n - 1) 0 (by omega) k (Or.inr hk), ?_⟩
    intro β γ m m1 hm hm1
    obtain ⟨⟨a, b⟩, e, ⟨g1, g2⟩, r1, r2⟩ := shuffleLoop_spec
      (fun i j (s : List β × List γ) => do
        let a ← swapAt s.1 i j
        let b ← swapAt s.2 i j
        some (a, b)) RM n rs hrs
      (fun s => s.1.length = m.length ∧ s.2.length = m1.length)
      (fun p s s' => ReadsThrough p s.1 s'.1 ∧ ReadsThrough p s.2 s'.2)
      (fun s => ⟨fun k => rfl, fun k => rfl⟩)
      (by
        intro i j s hi hj hg
        obtain ⟨a, ea, la, ra⟩ := swapAt_spec s.1 (i := i) (j := j) (by omega) (by omega)
        obtain ⟨b, eb, lb, rb⟩ := swapAt_spec s.2 (i := i) (j := j) (by omega) (by omega)
        refine ⟨(a, b), by simp [ea, eb], ⟨by simp; omega, by simp; omega⟩, ?_⟩
        intro p s'' h
        exact ⟨ReadsThrough.comp ra h.1, ReadsThrough.comp rb h.2⟩)
      (n - 1) 0 (m, m1) (by omega) ⟨rfl, rfl⟩
    exact ⟨a, b, (by rw [shuffle2, shuffleWith, if_pos hn]; exact e), g1, g2, fun k => ⟨r1 k, r2 k⟩⟩
  · exact ⟨1, fun k _ => rfl, fun m m1 _ _ =>
      ⟨m, m1, by simp [shuffle2, shuffleWith, hn], rfl, rfl, fun k => ⟨rfl, rfl⟩⟩⟩

/-- **C03, variants with one integer vector (part that holds).** The two
matrices and the float vector are reordered together and nothing is accessed
out of bounds.  Missing: the integer vector, see `C03_int_vector_refuted`. -/
theorem C03_shuffle_four_partial (RM : Nat) (rs : Nat → Nat) (hrs : ∀ i, rs i ≤ RM) (n : Nat) :
    ∃ p : Equiv.Perm Nat, (∀ k, n ≤ k → p k = k) ∧
      ∀ {β γ δ ε : Type} (m : List β) (m1 : List γ) (f : List δ) (v : List ε),
        n ≤ m.length → n ≤ m1.length → n ≤ f.length → n ≤ v.length →
        ∃ m' m1' f' v', shuffle4 RM rs m m1 f v n = some (m', m1', f', v') ∧
          ∀ k : Nat, m'[k]? = m[p k]? ∧ m1'[k]? = m1[p k]? ∧ f'[k]? = f[p k]? := by
  by_cases hn : n > 1
  · refine ⟨shufflePerm RM n rs (n - 1) 0,
      fun k hk => shufflePerm_fix RM n rs hrs (n - 1) 0 (by omega) k (Or.inr hk), ?_⟩
    intro β γ δ ε m m1 f v hm hm1 hf hv
    obtain ⟨⟨a, b, c, d⟩, e, _, r1, r2, r3⟩ := shuffleLoop_spec
      (fun i j (s : List β × List γ × List δ × List ε) => do
        let a ← swapAt s.1 i j
        let b ← swapAt s.2.1 i j
        let c ← swapAt s.2.2.1 i j
        let d ← copyAt s.2.2.2 i j
        some (a, b, c, d)) RM n rs hrs
      (fun s => s.1.length = m.length ∧ s.2.1.length = m1.length ∧ s.2.2.1.length = f.length ∧
        s.2.2.2.length = v.length)
      (fun p s s' => ReadsThrough p s.1 s'.1 ∧ ReadsThrough p s.2.1 s'.2.1 ∧
        ReadsThrough p s.2.2.1 s'.2.2.1)
      (fun s => ⟨fun k => rfl, fun k => rfl, fun k => rfl⟩)
      (by
        intro i j s hi hj hg
        obtain ⟨a, ea, la, ra⟩ := swapAt_spec s.1 (i := i) (j := j) (by omega) (by omega)
        obtain ⟨b, eb, lb, rb⟩ := swapAt_spec s.2.1 (i := i) (j := j) (by omega) (by omega)
        obtain ⟨c, ec, lc, rc⟩ := swapAt_spec s.2.2.1 (i := i) (j := j) (by omega) (by omega)
        obtain ⟨d, ed, ld⟩ := copyAt_spec s.2.2.2 (i := i) (j := j) (by omega) (by omega)
        refine ⟨(a, b, c, d), by simp [ea, eb, ec, ed], ?_, ?_⟩
        · simp only; omega
        · intro p s'' h
          exact ⟨ReadsThrough.comp ra h.1, ReadsThrough.comp rb h.2.1,
            ReadsThrough.comp rc h.2.2⟩)
      (n - 1) 0 (m, m1, f, v) (by omega) ⟨rfl, rfl, rfl, rfl⟩
    exact ⟨a, b, c, d, (by rw [shuffle4, shuffleWith, if_pos hn]; exact e), fun k => ⟨r1 k, r2 k, r3 k⟩⟩
  · exact ⟨1, fun k _ => rfl, fun m m1 f v _ _ _ _ =>
      ⟨m, m1, f, v, by simp [shuffle4, shuffleWith, hn], fun k => ⟨rfl, rfl, rfl⟩⟩⟩

/-- **C03, variants with two integer vectors (part that holds).** As
`C03_shuffle_four_partial`. -/
theorem C03_shuffle_five_partial (RM : Nat) (rs : Nat → Nat) (hrs : ∀ i, rs i ≤ RM) (n : Nat) :
    ∃ p : Equiv.Perm Nat, (∀ k, n ≤ k → p k = k) ∧
      ∀ {β γ δ ε ζ : Type} (m : List β) (m1 : List γ) (f : List δ) (v : List ε) (v2 : List ζ),
        n ≤ m.length → n ≤ m1.length → n ≤ f.length → n ≤ v.length → n ≤ v2.length →
        ∃ m' m1' f' v' v2', shuffle5 RM rs m m1 f v v2 n = some (m', m1', f', v', v2') ∧
          ∀ k : Nat, m'[k]? = m[p k]? ∧ m1'[k]? = m1[p k]? ∧ f'[k]? = f[p k]? := by
  by_cases hn : n > 1
  · refine ⟨shufflePerm RM n rs (n - 1) 0,
      fun k hk => shufflePerm_fix RM n rs hrs (n - 1) 0 (by omega) k (Or.inr hk), ?_⟩
    intro β γ δ ε ζ m m1 f v v2 hm hm1 hf hv hv2
    obtain ⟨⟨a, b, c, d, d2⟩, e, _, r1, r2, r3⟩ := shuffleLoop_spec
      (fun i j (s : List β × List γ × List δ × List ε × List ζ) => do
        let a ← swapAt s.1 i j
        let b ← swapAt s.2.1 i j
        let c ← swapAt s.2.2.1 i j
        let d ← copyAt s.2.2.2.1 i j
        let e ← copyAt s.2.2.2.2 i j
        some (a, b, c, d, e)) RM n rs hrs
      (fun s => s.1.length = m.length ∧ s.2.1.length = m1.length ∧ s.2.2.1.length = f.length ∧
        s.2.2.2.1.length = v.length ∧ s.2.2.2.2.length = v2.length)
      (fun p s s' => ReadsThrough p s.1 s'.1 ∧ ReadsThrough p s.2.1 s'.2.1 ∧
        ReadsThrough p s.2.2.1 s'.2.2.1)
      (fun s => ⟨fun k => rfl, fun k => rfl, fun k => rfl⟩)
      (by
        intro i j s hi hj hg
        obtain ⟨a, ea, la, ra⟩ := swapAt_spec s.1 (i := i) (j := j) (by omega) (by omega)
        obtain ⟨b, eb, lb, rb⟩ := swapAt_spec s.2.1 (i := i) (j := j) (by omega) (by omega)
        obtain ⟨c, ec, lc, rc⟩ := swapAt_spec s.2.2.1 (i := i) (j := j) (by omega) (by omega)
        obtain ⟨d, ed, ld⟩ := copyAt_spec s.2.2.2.1 (i := i) (j := j) (by omega) (by omega)
        obtain ⟨d2, ed2, ld2⟩ := copyAt_spec s.2.2.2.2 (i := i) (j := j) (by omega) (by omega)
        refine ⟨(a, b, c, d, d2), by simp [ea, eb, ec, ed, ed2], ?_, ?_⟩
        · simp only; omega
        · intro p s'' h
          exact ⟨ReadsThrough.comp ra h.1, ReadsThrough.comp rb h.2.1,
            ReadsThrough.comp rc h.2.2⟩)
      (n - 1) 0 (m, m1, f, v, v2) (by omega) ⟨rfl, rfl, rfl, rfl, rfl⟩
    exact ⟨a, b, c, d, d2, (by rw [shuffle5, shuffleWith, if_pos hn]; exact e), fun k => ⟨r1 k, r2 k, r3 k⟩⟩
  · exact ⟨1, fun k _ => rfl, fun m m1 f v v2 _ _ _ _ _ =>
      ⟨m, m1, f, v, v2, by simp [shuffle5, shuffleWith, hn], fun k => ⟨rfl, rfl, rfl⟩⟩⟩

/-- **C03 (refuted for the integer vectors).** With `RAND_MAX = 32767`, two
samples and a first random draw of `20000`, the data is swapped to `[b, a]` but
the labels `[1, 2]` become `[2, 2]`: label `1` is lost and sample `a` gets the
label of `b`. -/
theorem C03_int_vector_refuted :
    shuffle4 32767 (fun _ => 20000) ["a", "b"] ["x", "y"] [(10 : Int), 20] [(1 : Int), 2] 2 =
      some (["b", "a"], ["y", "x"], [20, 10], [2, 2]) ∧
    shuffle5 32767 (fun _ => 20000) ["a", "b"] ["x", "y"] [(10 : Int), 20] [(1 : Int), 2]
      [(1 : Int), 2] 2 = some (["b", "a"], ["y", "x"], [20, 10], [2, 2], [2, 2]) := by
  constructor <;> rfl

/-- **C03, prefix shuffle.** `shuffle_int_array_until_length` also applies a
permutation of the first `n` positions. -/
theorem C03_shuffle_until_length (RM : Nat) (rs : Nat → Nat) (hrs : ∀ i, rs i ≤ RM)
    (n length : Nat) (hl : 1 ≤ length) (hln : length ≤ n) :
    ∃ p : Equiv.Perm Nat, (∀ k, n ≤ k → p k = k) ∧
      ∀ {β : Type} (m : List β), n ≤ m.length →
        ∃ m', shuffleUntil RM rs m n length = some m' ∧ m'.length = m.length ∧
          ∀ k : Nat, m'[k]? = m[p k]? := by
  by_cases hn : n > 1
  · refine ⟨shufflePerm RM n rs (length - 1) 0,
      fun k hk => shufflePerm_fix RM n rs hrs (length - 1) 0 (by omega) k (Or.inr hk), ?_⟩
    intro β m hm
    obtain ⟨m', e, l, r⟩ := shuffleLoop1_spec RM n rs hrs (length - 1) 0 m (by omega) hm
    have : length ≠ 0 := by omega
    exact ⟨m', by simp [shuffleUntil, hn, this, e], l, r⟩
  · exact ⟨1, fun k _ => rfl, fun m _ => ⟨m, by simp [shuffleUntil, hn], rfl, fun k => rfl⟩⟩

/-- Non-vacuity of the `C03` theorems: a random stream within `RAND_MAX` and
arrays of three samples with labels. -/
example : ∃ p : Equiv.Perm Nat, ∃ m' m1',
    shuffle2 32767 (fun i => 7919 * (i + 1)  % 32768) ["a", "b", "c"] [(1 : Int), 2, 3] 3
      = some (m', m1') ∧ ∀ k : Nat, m'[k]? = ["a", "b", "c"][p k]? ∧ m1'[k]? = [(1 : Int), 2, 3][p k]? := by
  obtain ⟨p, _, h⟩ := C03_shuffle_two 32767 (fun i => 7919 * (i + 1) % 32768)
    (fun i => by have := Nat.mod_lt (7919 * (i + 1)) (show 0 < 32768 by norm_num); omega) 3
  obtain ⟨m', m1', e, _, _, r⟩ := h ["a", "b", "c"] [(1 : Int), 2, 3] (by simp) (by simp)
  exact ⟨p, m', m1', e, r⟩

/-- A draw giving any wanted offset exists when `(n-i)² ≤ RAND_MAX`. -/
theorem exists_draw {RM n i j : Nat} (h : n * n ≤ RM) (hi : i ≤ j) (hj : j < n) :
    ∃ r, r ≤ RM ∧ pickIndex RM n i r = j := by
  refine ⟨(j - i) * (RM / (n - i) + 1), ?_, ?_⟩
  · have hk : 0 < n - i := by omega
    set q := RM / (n - i) with hq
    have hq1 : (n - i) * q ≤ RM := Nat.mul_div_le RM (n - i)
    have hq2 : n ≤ q := by
      rw [hq, Nat.le_div_iff_mul_le hk]
      exact (Nat.mul_le_mul_left n (by omega)).trans h
    have h1 : (j - i) * (q + 1) ≤ (n - i - 1) * (q + 1) := Nat.mul_le_mul_right _ (by omega)
    obtain ⟨k, hk'⟩ : ∃ k, n - i = k + 1 := ⟨n - i - 1, by omega⟩
    rw [hk'] at h1 hq1
    simp only [Nat.add_sub_cancel] at h1
    have h2 : k * (q + 1) ≤ (k + 1) * q := by
      rw [Nat.mul_add, Nat.add_mul]; omega
    exact h1.trans (h2.trans hq1)
  · unfold pickIndex
    rw [Nat.mul_div_cancel _ (Nat.succ_pos _)]
    omega

/-- Every permutation moving only positions in `[i, n)` is the loop's
permutation for some stream. -/
theorem exists_stream {RM n : Nat} (h : n * n ≤ RM) :
    ∀ k i (q : Equiv.Perm Nat), i + k + 1 = n → (∀ x, (x < i ∨ n ≤ x) → q x = x) →
      ∃ rs : Nat → Nat, (∀ a, rs a ≤ RM) ∧ shufflePerm RM n rs k i = q := by
  intro k
  induction k with
  | zero =>
    intro i q hn hq
    refine ⟨fun _ => 0, fun _ => Nat.zero_le _, ?_⟩
    ext x
    show x = q x
    by_cases hx : x < i ∨ n ≤ x
    · rw [hq x hx]
    · have hxi : x = i := by omega
      subst hxi
      by_contra hne
      have hy : q x < x ∨ n ≤ q x := by omega
      have := q.injective (hq (q x) hy)
      omega
  | succ k ih =>
    intro i q hn hq
    have hqi : i ≤ q i ∧ q i < n := by
      by_contra hc
      have hy : q i < i ∨ n ≤ q i := by omega
      have := q.injective (hq (q i) hy)
      omega
    obtain ⟨r, hr, hpick⟩ := exists_draw (i := i) h hqi.1 hqi.2
    obtain ⟨rs, hrs, hperm⟩ := ih (i + 1) (Equiv.swap i (q i) * q) (by omega) (by
      intro x hx
      rw [Equiv.Perm.mul_apply]
      by_cases hxi : x = i
      · subst hxi; exact Equiv.swap_apply_right _ _
      · rw [hq x (by omega)]
        exact Equiv.swap_apply_of_ne_of_ne hxi (by
          intro e
          rcases hx with hx | hx
          · omega
          · omega))
    refine ⟨fun a => if a = i then r else rs a, ?_, ?_⟩
    · intro a
      dsimp only
      split
      · exact hr
      · exact hrs a
    · have hcongr : ∀ k j (f g : Nat → Nat), (∀ a, j ≤ a → f a = g a) →
          shufflePerm RM n f k j = shufflePerm RM n g k j := by
        intro k
        induction k with
        | zero => intro j f g _; rfl
        | succ k ihk =>
          intro j f g hfg
          rw [shufflePerm, shufflePerm, hfg j (le_refl _), ihk (j + 1) f g (fun a ha => hfg a (by omega))]
      rw [shufflePerm, hcongr k (i + 1) _ rs (fun a ha => if_neg (by omega)), hperm]
      simp only [if_true]
      rw [hpick, ← mul_assoc, Equiv.swap_mul_self, one_mul]

/-- **C04.** Whenever `n² ≤ RAND_MAX`, every ordering of `n` items is produced
by some random stream. -/
theorem C04_every_ordering_reachable (RM n : Nat) (h : n * n ≤ RM) (p : Equiv.Perm Nat)
    (hp : ∀ k, n ≤ k → p k = k) :
    ∃ rs : Nat → Nat, (∀ i, rs i ≤ RM) ∧
      ∀ {β : Type} (m : List β), n ≤ m.length →
        ∃ m', shuffle1 RM rs m n = some m' ∧ ∀ k : Nat, m'[k]? = m[p k]? := by
  by_cases hn : n > 1
  · obtain ⟨rs, hrs, e⟩ := exists_stream h (n - 1) 0 p (by omega) (fun x hx => hp x (by omega))
    refine ⟨rs, hrs, ?_⟩
    intro β m hm
    obtain ⟨m', e', _, r⟩ := shuffleLoop1_spec RM n rs hrs (n - 1) 0 m (by omega) hm
    refine ⟨m', by simp [shuffle1, shuffleWith, hn, e'], ?_⟩
    rw [e] at r
    exact r
  · refine ⟨fun _ => 0, fun _ => Nat.zero_le _, fun m _ =>
      ⟨m, by simp [shuffle1, shuffleWith, hn], ?_⟩⟩
    intro k
    have : p k = k := by
      by_cases hk : n ≤ k
      · exact hp k hk
      · by_contra hne
        have h2 : n ≤ p k := by omega
        have := p.injective (hp (p k) h2)
        omega
    rw [this]

/-- Non-vacuity of `C04`: glibc's `RAND_MAX` and three items reversed. -/
example : ∃ rs : Nat → Nat, (∀ i, rs i ≤ 2147483647) ∧
    ∃ m', shuffle1 2147483647 rs ["a", "b", "c"] 3 = some m' ∧ m'[0]? = some "c" := by
  obtain ⟨rs, h, r⟩ := C04_every_ordering_reachable 2147483647 3 (by norm_num) (Equiv.swap 0 2)
    (fun k hk => Equiv.swap_apply_of_ne_of_ne (by omega) (by omega))
  obtain ⟨m', e, r'⟩ := r ["a", "b", "c"] (by simp)
  exact ⟨rs, h, m', e, by rw [r' 0]; simp⟩

/-- **C04 (limit).** The bound matters: with `RAND_MAX = 32767` (the smallest
value C allows) and `32000` items, no stream ever puts item `20000` first. -/
theorem C04_large_arrays_refuted (rs : Nat → Nat) (hrs : ∀ i, rs i ≤ 32767) :
    ∀ m', shuffle1 32767 rs (List.range 32000) 32000 = some m' → m'[0]? ≠ some 20000 := by
  intro m' hm' h0
  obtain ⟨m2, e, _, r⟩ := shuffleLoop1_spec 32767 32000 rs hrs 31999 0 (List.range 32000)
    (by omega) (by simp)
  have e2 : shuffle1 32767 rs (List.range 32000) 32000 = some m2 := by
    rw [shuffle1, shuffleWith, if_pos (by omega), show (32000 - 1 : Nat) = 31999 from rfl]
    exact e
  rw [e2] at hm'
  cases hm'
  rw [r 0] at h0
  have hp : shufflePerm 32767 32000 rs 31999 0 0 = pickIndex 32767 32000 0 (rs 0) := by
    rw [show (31999 : Nat) = 31998 + 1 from rfl, shufflePerm, Equiv.Perm.mul_apply, shufflePerm_fix 32767 32000 rs hrs 31998 (0 + 1) (by omega) 0 (Or.inl (by omega)),
      Equiv.swap_apply_left]
  rw [hp] at h0
  have hlt : pickIndex 32767 32000 0 (rs 0) < 20000 := by
    have := hrs 0
    unfold pickIndex
    rw [show 32767 / (32000 - 0) + 1 = 2 from rfl]
    omega
  rw [List.getElem?_range (by omega)] at h0
  simp at h0
  omega

end LLab.Utils
