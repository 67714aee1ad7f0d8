import Verif.Layers.Attention

/-!
Multi-head attention (`/repo/src/attention.c` 154-197). Property C32.
-/

namespace LLab.Attention

open Finset

variable {α : Type}

/-! ### Model -/

/-- `copy_array(&src[from], &dst[to], n)` (`memcpy`). -/
def copyTo (src dst : Arr α) (from_ to_ n : Nat) : Option (Arr α) :=
  loop n (fun c (dst : Arr α) => do
    let x ← src.read (from_ + c)
    dst.write (to_ + c) x) dst

/-- The reshaping of `multi_head_attention_ff` (`/repo/src/attention.c`
160-168): `temp` is a zeroed buffer, filled token by token and copied back over
`output`. -/
def merge [Zero α] (dim n k v : Nat) (out : Arr α) : Option (Arr α) := do
  let temp ← loop dim (fun i temp => loop n (fun j temp =>
    copyTo out temp (i * k + j * dim * k) (i * n * v + j * v) v) temp) ⟨n * dim * v, fun _ => 0⟩
  copyTo temp out 0 0 (dim * n * v)

/-- The reshaping of `multi_head_attention_bp` (`/repo/src/attention.c`
180-186). -/
def split [Zero α] (dim n k v : Nat) (err : Arr α) : Option (Arr α) :=
  loop dim (fun i temp => loop n (fun j temp =>
    copyTo err temp (i * n * v + j * v) (i * k + j * dim * k) v) temp) ⟨n * dim * v, fun _ => 0⟩

/-- `multi_head_attention_ff` (`/repo/src/attention.c` 154-170); `Q h`, `K h`,
`V h` are the output layers of the query, key and value models of head `h`. The
state is `(score_matrices, score_matrices_softmax, output)`. -/
noncomputable def multiFF (masked : Bool) (dim n k v : Nat) (Q K V : Nat → Arr ℝ)
    (st : Arr ℝ × Arr ℝ × Arr ℝ) : Option (Arr ℝ × Arr ℝ × Arr ℝ) := do
  let st ← loop n (fun h (st : Arr ℝ × Arr ℝ × Arr ℝ) => do
    let r ← ff masked dim k v (Q h) (K h) (V h)
      (st.1.view (h * dim * dim), st.2.1.view (h * dim * dim), st.2.2.view (h * dim * v))
    some (st.1.splice (h * dim * dim) r.1, st.2.1.splice (h * dim * dim) r.2.1,
      st.2.2.splice (h * dim * v) r.2.2)) st
  let out ← merge dim n k v st.2.2
  some (st.1, st.2.1, out)

/-! ### Proofs -/

theorem copyTo_eq (src dst : Arr α) (from_ to_ n : Nat) (hs : from_ + n ≤ src.len) (hd : to_ + n ≤ dst.len) :
    ∃ d, copyTo src dst from_ to_ n = some d ∧ d.len = dst.len ∧
      (∀ c, c < n → d.get (to_ + c) = src.get (from_ + c)) ∧
      ∀ u, (∀ c, c < n → u ≠ to_ + c) → d.get u = dst.get u := by
  refine loop_inv (n := n) (fun m (d : Arr α) => d.len = dst.len ∧
      (∀ c, c < m → d.get (to_ + c) = src.get (from_ + c)) ∧
      ∀ u, (∀ c, c < m → u ≠ to_ + c) → d.get u = dst.get u) ⟨rfl, by intro c h; omega, by intros; rfl⟩ ?_
  rintro c hc d ⟨h1, h2, h3⟩
  rw [Arr.read_eq (by omega)]
  simp only [Option.bind_eq_bind, Option.bind_some]
  rw [Arr.write_eq _ (by omega)]
  refine ⟨_, rfl, h1, ?_, ?_⟩
  · intro c' hc'
    by_cases h : c' = c
    · subst h; simp
    · simp only
      rw [Function.update_of_ne (by omega)]
      exact h2 c' (by omega)
  · intro u hu
    simp only
    rw [Function.update_of_ne (hu c (by omega))]
    exact h3 u fun c' hc' => hu c' (by omega)

/-- Permuting rows of `v` cells: each row `(i, j)` is read at row `ρ` and written at row `ω`. -/
theorem rows_copy [Zero α] (dim n v : Nat) (src : Arr α) (R W : Nat → Nat → Nat)
    (hs : n * dim * v ≤ src.len) (hR : ∀ i, i < dim → ∀ j, j < n → R i j < n * dim)
    (hW : ∀ i, i < dim → ∀ j, j < n → W i j < n * dim)
    (hinj : ∀ i, i < dim → ∀ j, j < n → ∀ i', i' < dim → ∀ j', j' < n → W i j = W i' j' → i = i' ∧ j = j') :
    ∃ t, loop dim (fun i temp => loop n (fun j temp => copyTo src temp (R i j * v) (W i j * v) v) temp)
        ⟨n * dim * v, fun _ => 0⟩ = some t ∧ t.len = n * dim * v ∧
      ∀ i, i < dim → ∀ j, j < n → ∀ c, c < v → t.get (W i j * v + c) = src.get (R i j * v + c) := by
  obtain ⟨t, e, h⟩ := loop2_inv (A := dim) (B := n) (st := (⟨n * dim * v, fun _ => 0⟩ : Arr α))
    (f := fun i j temp => copyTo src temp (R i j * v) (W i j * v) v)
    (fun i j t => t.len = n * dim * v ∧ ∀ i', i' < dim → ∀ j', j' < n → (i' < i ∨ (i' = i ∧ j' < j)) →
      ∀ c, c < v → t.get (W i' j' * v + c) = src.get (R i' j' * v + c))
    ⟨rfl, by intro i' _ j' _ h; omega⟩
    (by
      rintro i hi j hj t ⟨h1, h2⟩
      have r1 := row_le (k := v) (hR i hi j hj)
      have r2 := row_le (k := v) (hW i hi j hj)
      obtain ⟨d, e, g1, g2, g3⟩ := copyTo_eq src t (R i j * v) (W i j * v) v (by omega) (by omega)
      refine ⟨d, e, by omega, ?_⟩
      intro i' hi' j' hj' h c hc
      by_cases heq : i' = i ∧ j' = j
      · obtain ⟨rfl, rfl⟩ := heq; exact g2 c hc
      · rw [g3]
        · exact h2 i' hi' j' hj' (by omega) c hc
        · intro c' hc' hh
          exact heq (hinj i' hi' j' hj' i hi j hj (Vec.idx_inj hc hc' hh).1))
    (by
      rintro i hi t ⟨h1, h2⟩
      exact ⟨h1, fun i' hi' j' hj' h => h2 i' hi' j' hj' (by omega)⟩)
  exact ⟨t, e, h.1, fun i hi j hj => h.2 i hi j hj (Or.inl hi)⟩

/-- **C32, merge** (partial: key and value embeddings of the same size). The
merge stays in bounds and moves component `c` of token `i` of head `h` from
`h*dim*v + i*v + c` to `i*heads*v + h*v + c`.

Full statement: the same for every key size; see `C32_merge_refuted`. -/
theorem C32_merge_partial [Zero α] (dim n v : Nat) (out : Arr α) (ho : n * dim * v ≤ out.len) :
    ∃ out', merge dim n v v out = some out' ∧ out'.len = out.len ∧
      (∀ i, i < dim → ∀ h, h < n → ∀ c, c < v →
        out'.get (i * n * v + h * v + c) = out.get (h * dim * v + i * v + c)) ∧
      ∀ u, dim * n * v ≤ u → out'.get u = out.get u := by
  obtain ⟨t, e1, h1, h2⟩ := rows_copy dim n v out (fun i j => j * dim + i) (fun i j => i * n + j) ho
    (fun i hi j hj => Vec.idx_lt hj hi) (fun i hi j hj => by rw [Nat.mul_comm n]; exact Vec.idx_lt hi hj)
    (fun i hi j hj i' hi' j' hj' h => Vec.idx_inj hj hj' h)
  have hc : dim * n * v = n * dim * v := by ring
  obtain ⟨o, e2, g1, g2, g3⟩ := copyTo_eq t out 0 0 (dim * n * v) (by omega) (by omega)
  refine ⟨o, ?_, g1, ?_, fun u hu => g3 u fun c hc => by omega⟩
  · have e1' : loop dim (fun i temp => loop n (fun j temp =>
        copyTo out temp (i * v + j * dim * v) (i * n * v + j * v) v) temp) ⟨n * dim * v, fun _ => 0⟩ = some t := by
      rw [← e1]
      refine loop_congr fun i _ s => loop_congr fun j _ s => ?_
      congr 1 <;> ring
    unfold merge
    rw [e1']
    exact e2
  · intro i hi h hh c hc
    have hlt : i * n * v + h * v + c < dim * n * v := by
      have := Vec.idx_lt (Vec.idx_lt hi hh) hc
      rw [Nat.add_mul] at this; exact this
    have a1 := g2 (i * n * v + h * v + c) hlt
    rw [Nat.zero_add] at a1
    rw [a1]
    have a2 := h2 i hi h hh c hc
    rw [Nat.add_mul, Nat.add_mul] at a2
    exact a2

/-- **C32, split** (partial: key and value embeddings of the same size). The
backward reshaping stays in bounds and undoes the merge. -/
theorem C32_split_partial [Zero α] (dim n v : Nat) (err : Arr α) (he : n * dim * v ≤ err.len) :
    ∃ t, split dim n v v err = some t ∧
      ∀ i, i < dim → ∀ h, h < n → ∀ c, c < v →
        t.get (h * dim * v + i * v + c) = err.get (i * n * v + h * v + c) := by
  obtain ⟨t, e1, h1, h2⟩ := rows_copy dim n v err (fun i j => i * n + j) (fun i j => j * dim + i) he
    (fun i hi j hj => by rw [Nat.mul_comm n]; exact Vec.idx_lt hi hj) (fun i hi j hj => Vec.idx_lt hj hi)
    (fun i hi j hj i' hi' j' hj' h => (Vec.idx_inj hi hi' h).symm)
  refine ⟨t, ?_, ?_⟩
  · unfold split
    rw [← e1]
    refine loop_congr fun i _ s => loop_congr fun j _ s => ?_
    congr 1 <;> ring
  · intro i hi h hh c hc
    have a2 := h2 i hi h hh c hc
    rw [Nat.add_mul, Nat.add_mul] at a2
    exact a2

/-- Non-vacuity: two tokens, two heads, two components. -/
example : ((merge 2 2 2 2 (Arr.ofList [1, 2, 3, 4, 5, 6, 7, 8] : Arr Int)).map
    fun a => (List.range 8).map a.get) = some [1, 2, 5, 6, 3, 4, 7, 8] := by decide

/-- **C32** fails when the key embedding is smaller than the value embedding:
with one head the merge should change nothing, but the second token of size 2
is read from the middle of the first (key size 1), and the last value is lost.
When the key embedding is larger, the merge reads out of bounds. -/
theorem C32_merge_refuted :
    ((merge 2 1 1 2 (Arr.ofList [1, 2, 3, 4] : Arr Int)).map fun a => (List.range 4).map a.get) =
        some [1, 2, 2, 3] ∧
      merge 2 1 2 1 (Arr.ofList [1, 2] : Arr Int) = none ∧
      ((split 2 1 1 2 (Arr.ofList [1, 2, 3, 4] : Arr Int)).map fun a => (List.range 4).map a.get) =
        some [1, 3, 4, 0] := by
  refine ⟨by decide, rfl, by decide⟩

/-- **C32, forward pass** (partial: key and value embeddings of the same
size). Multi-head attention stays in bounds and leaves, for token `i`, head `h`
and component `c`, the attention of head `h` at `i*heads*v + h*v + c`. -/
theorem C32_multi_head_partial (masked : Bool) (dim n v : Nat) (Q K V : Nat → Arr ℝ)
    (score0 soft0 out : Arr ℝ)
    (hq : ∀ h, h < n → dim * v ≤ (Q h).len) (hk : ∀ h, h < n → dim * v ≤ (K h).len)
    (hv : ∀ h, h < n → v * dim ≤ (V h).len)
    (hs : n * dim * dim ≤ score0.len) (hp : n * dim * dim ≤ soft0.len) (ho : n * dim * v ≤ out.len)
    (hz : ∀ u, u < n * dim * dim → soft0.get u = 0) (hout : ∀ u, u < n * dim * v → out.get u = 0) :
    ∃ sc so o, multiFF masked dim n v v Q K V (score0, soft0, out) = some (sc, so, o) ∧
      ∀ i, i < dim → ∀ h, h < n → ∀ c, c < v → o.get (i * n * v + h * v + c) =
        attn masked dim v (Q h).get (K h).get (V h).get i c := by
  obtain ⟨⟨sc, so, o⟩, e1, h1, h2, h3, h4, -, -⟩ := loop_inv (n := n) (s := (score0, soft0, out))
    (f := fun h (st : Arr ℝ × Arr ℝ × Arr ℝ) => (ff masked dim v v (Q h) (K h) (V h)
      (st.1.view (h * dim * dim), st.2.1.view (h * dim * dim), st.2.2.view (h * dim * v))).bind fun r =>
      some (st.1.splice (h * dim * dim) r.1, st.2.1.splice (h * dim * dim) r.2.1,
      st.2.2.splice (h * dim * v) r.2.2))
    (fun m st => st.1.len = score0.len ∧ st.2.1.len = soft0.len ∧ st.2.2.len = out.len ∧
      (∀ h, h < m → ∀ i, i < dim → ∀ c, c < v → st.2.2.get (h * dim * v + i * v + c) =
        attn masked dim v (Q h).get (K h).get (V h).get i c) ∧
      (∀ u, m * dim * dim ≤ u → st.2.1.get u = soft0.get u) ∧
      (∀ u, m * dim * v ≤ u → st.2.2.get u = out.get u))
    ⟨rfl, rfl, rfl, by intro h hh; omega, by intros; rfl, by intros; rfl⟩
    (by
      rintro h hh ⟨sc, so, o⟩ ⟨h1, h2, h3, h4, h5, h6⟩
      dsimp only at h1 h2 h3 h4 h5 h6 ⊢
      have r1 : h * dim * dim + dim * dim ≤ n * dim * dim := by
        have := row_le (k := dim * dim) hh
        simpa only [Nat.mul_assoc] using this
      have r2 : h * dim * v + dim * v ≤ n * dim * v := by
        have := row_le (k := dim * v) hh
        simpa only [Nat.mul_assoc] using this
      obtain ⟨sc', so', o', e, l1, a1, a2, a3, a4⟩ := C31_attention masked dim v v (Q h) (K h) (V h)
        (sc.view (h * dim * dim)) (so.view (h * dim * dim)) (o.view (h * dim * v)) (hq h hh) (hk h hh)
        (hv h hh) (by simp; omega) (by simp; omega) (by simp; omega)
        (by
          intro _ a t ha ht
          have hlt : a * dim + t < dim * dim := Vec.idx_lt (by omega) ht
          rw [Arr.view_get, h5 _ (by omega)]
          exact hz _ (by omega))
      rw [e, Option.bind_some]
      refine ⟨_, rfl, h1, h2, h3, ?_, ?_, ?_⟩
      · intro h' hh' i hi c hc
        have hic : i * v + c < dim * v := Vec.idx_lt hi hc
        by_cases heq : h' = h
        · subst heq
          dsimp only
          rw [Nat.add_assoc, Arr.splice_ge _ _ (by omega), Nat.add_sub_cancel_left, a2 i hi c hc,
            Arr.view_get, h6 _ (by omega), hout _ (by omega), zero_add]
        · have : h' * dim * v + dim * v ≤ h * dim * v := by
            have := row_le (k := dim * v) (show h' < h by omega)
            simpa only [Nat.mul_assoc] using this
          dsimp only
          rw [Arr.splice_lt _ _ (by omega)]
          exact h4 h' (by omega) i hi c hc
      · intro u hu
        have hm : (h + 1) * dim * dim = h * dim * dim + dim * dim := by ring
        dsimp only
        rw [Arr.splice_ge _ _ (by omega), a4 _ (by omega), Arr.view_get, Nat.add_sub_cancel' (by omega)]
        exact h5 u (by omega)
      · intro u hu
        have hm : (h + 1) * dim * v = h * dim * v + dim * v := by ring
        dsimp only
        rw [Arr.splice_ge _ _ (by omega), a3 _ (by omega), Arr.view_get, Nat.add_sub_cancel' (by omega)]
        exact h6 u (by omega))
  obtain ⟨o', e2, l2, g, -⟩ := C32_merge_partial dim n v o (by dsimp only at h3; omega)
  refine ⟨sc, so, o', ?_, ?_⟩
  · unfold multiFF
    simp only [Option.bind_eq_bind]
    rw [e1]
    simp only [Option.bind_some]
    rw [e2]
    rfl
  · intro i hi h hh c hc
    rw [g i hi h hh c hc]
    exact h4 h hh i hi c hc

end LLab.Attention
