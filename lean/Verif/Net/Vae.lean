import Verif.Net.ChainProps

/-!
The variational auto-encoder (`/repo/src/vae_model.c`) with an encoder and a decoder made of fully connected layers.
Property C111.
-/

namespace LLab.Chain

open Finset

/-! ### Model -/

/-- `vaemodel` (`/repo/src/llab_dt.h`); the two models are their fully connected layers. -/
structure Vae where
  encoder : List Fcl
  decoder : List Fcl
  latent : Nat
  input : Arr ℝ
  z : Arr ℝ
  dmean : Arr ℝ
  dstd : Arr ℝ

/-- `&a[k]`. -/
def shift (k : Nat) (a : Arr ℝ) : Arr ℝ := ⟨a.len - k, fun i => a.get (k + i)⟩

/-- `vae_model_tensor_input_ff` (`/repo/src/vae_model.c` 190-206). `eps` are the values of `random_normal`, `drawsE` and
`drawsD` the dropout draws in the two models. -/
noncomputable def vaeFf (drawsE drawsD : Nat → Nat → Bool) (eps : Nat → ℝ) (n : Nat) (x : Arr ℝ) (v : Vae) : Option Vae :=
  (ffModel drawsE n x v.encoder).bind fun enc =>
    (loop v.latent (fun i (a : Arr ℝ) => a.write i (eps i)) v.input).bind fun inp =>
      (Vec.zip1D (fun a b => a * b) inp (shift v.latent (outputLayer x enc)) v.z v.latent).bind fun z =>
        (Vec.zip1DInPlace (fun a b => a + b) z (outputLayer x enc) v.latent).bind fun z =>
          (ffModel drawsD v.latent z v.decoder).bind fun dec =>
            some { v with encoder := enc, decoder := dec, input := inp, z := z }

/-- The loop of `vae_model_tensor_input_bp` (`/repo/src/vae_model.c` 224-227); `out` is the output of the encoder. `none` also
stands for a division by zero. -/
noncomputable def priorTerms (latent : Nat) (out : Arr ℝ) (s : Arr ℝ × Arr ℝ) : Option (Arr ℝ × Arr ℝ) :=
  loop latent (fun j (s : Arr ℝ × Arr ℝ) =>
    (out.read (latent + j)).bind fun sd => (out.read j).bind fun mean =>
      (s.1.read j).bind fun a => (s.2.read j).bind fun b =>
        if sd = 0 then none
        else (s.1.write j (a + (2 * sd - 1 / sd))).bind fun s1 => (s.2.write j (b + 2 * mean)).bind fun s2 => some (s1, s2)) s

/-- Two arrays of `n` one after the other. -/
def join (n : Nat) (a b : Arr ℝ) : Arr ℝ := ⟨2 * n, fun k => if k < n then a.get k else b.get (k - n)⟩

/-- `vae_model_tensor_input_bp` (`/repo/src/vae_model.c` 211-242). The two halves of `temp2` are kept as two arrays. -/
noncomputable def vaeBp (e x : Arr ℝ) (v : Vae) : Option (Vae × Arr ℝ) :=
  (bpModel e v.z v.decoder).bind fun d =>
    (Vec.map1D (fun t => t) d.2 v.dmean v.latent).bind fun dmean =>
      (Vec.zip1D (fun a b => a * b) d.2 v.input v.dstd v.latent).bind fun dstd =>
        (priorTerms v.latent (outputLayer x v.encoder) (dstd, dmean)).bind fun s =>
          (Vec.zip1D (fun a b => a + b) s.2 d.2 ⟨v.latent, fun _ => 0⟩ v.latent).bind fun lo =>
            (Vec.zip1D (fun a b => a * b) d.2 v.input ⟨v.latent, fun _ => 0⟩ v.latent).bind fun hi =>
              (Vec.zip1DInPlace (fun a b => a + b) hi s.1 v.latent).bind fun hi =>
                (bpModel (join v.latent lo hi) x v.encoder).bind fun r =>
                  some ({ v with decoder := d.1, dmean := s.2, dstd := s.1, encoder := r.1 }, r.2)

/-! ### Specification -/

/-- The code vector for the encoder output `y`: means first, then standard deviations. -/
def latentCode (L : Nat) (eps y : Nat → ℝ) (k : Nat) : ℝ := y k + eps k * y (L + k)

/-- The divergence from the standard normal distribution, for means `y 0 … y (L-1)` and standard deviations `y L … y (2L-1)`. -/
noncomputable def divergence (L : Nat) (y : Nat → ℝ) : ℝ :=
  ∑ k ∈ range L, (y k ^ 2 + y (L + k) ^ 2 - 1 - 2 * Real.log (y (L + k))) / 2

/-- What the code uses in its place. -/
noncomputable def codedPrior (L : Nat) (y : Nat → ℝ) : ℝ :=
  ∑ k ∈ range L, (y k ^ 2 + y (L + k) ^ 2 - Real.log (y (L + k)))

/-! ### Proofs -/

/-- A scalar function of the outputs with gradient `e`, along a family of outputs. -/
theorem Par.scalar {m : Nat} {F : ℝ → Nat → ℝ} {t0 g : ℝ} {e : Nat → ℝ} (h : Par m F t0 e g) (Λ : (Nat → ℝ) → ℝ)
    (hl : Pull m 1 (fun y _ => Λ y) (F t0) (fun _ => 1) e) : HasDerivAt (fun t => Λ (F t)) g t0 := by
  obtain ⟨d, h1, h2⟩ := hl.par rfl h
  have := h1 0 (by omega)
  simp at h2
  rw [← h2]
  exact this

/-- C84 for any differentiable function of the outputs instead of a sum over the outputs. -/
theorem model_gradient (draws : Nat → Nat → Bool) (n : Nat) (x : Arr ℝ) (y : Nat → ℝ) (fs : List Fcl)
    (hr : ∀ f, f ∈ fs → f.Ready ∧ f.drop ≠ .test) (hf : Fits n fs) (hx : n ≤ x.len)
    (hy : ∀ i, i < n → x.get i = y i) (hk : NoKink (units draws 0 fs) y) :
    ∃ gs, ffModel draws n x fs = some gs ∧ outDim n (units draws 0 fs) ≤ (lastUsed x gs).len ∧
      lastUsed x gs = outputLayer x gs ∧
      (∀ k, k < outDim n (units draws 0 fs) → (lastUsed x gs).get k = net (units draws 0 fs) y k) ∧
      ∀ (e : Arr ℝ), outDim n (units draws 0 fs) ≤ e.len → ∃ hs err, bpModel e x gs = some (hs, err) ∧ n ≤ err.len ∧
        Pull n (outDim n (units draws 0 fs)) (net (units draws 0 fs)) y e.get err.get ∧
        ∀ Λ : (Nat → ℝ) → ℝ,
          Pull (outDim n (units draws 0 fs)) 1 (fun z _ => Λ z) (net (units draws 0 fs) y) (fun _ => 1) e.get →
          IsGradient (units draws 0 fs) n y (fun us x => Λ (net us x)) fs hs err := by
  have main : ∃ gs, ffModel draws n x fs = some gs ∧ Ran draws x 0 fs gs := by
    cases fs with
    | nil => exact ⟨[], rfl, rfl⟩
    | cons f fs =>
      obtain ⟨h1, h2, h3⟩ := hf
      obtain ⟨hr1, hr2⟩ := hr f (List.mem_cons_self ..)
      have hx' : f.input ≤ x.len := by omega
      obtain ⟨pre, post, mask, dt, ef, -⟩ := ffLayer_run x (draws 0) f hr1 hr2 hx'
      obtain ⟨ho, hd, hl', -, -⟩ := layer_run x x.get (draws 0) f _ hr1 hr2 hx' (fun _ _ => rfl) ef
      obtain ⟨gs, e1, e2⟩ := ffFrom_ran draws fs { f with pre := pre, post := post, mask := mask, dropTemp := dt } 1 hr2 hl'
        (fun g hg => hr g (List.mem_cons_of_mem _ hg)) h3
      refine ⟨_, ?_, _, gs, rfl, ef, e2⟩
      simp only [ffModel]
      rw [if_neg (by rintro ⟨h, h'⟩; exact h' (h2 h)), if_neg (by omega), ef, Option.bind_some, e1, Option.bind_some]
  obtain ⟨gs, egs, hran⟩ := main
  obtain ⟨r1, r2, r3⟩ := model_run draws fs gs 0 n x y hran hr hf hx hy hk
  refine ⟨gs, egs, r1, lastUsed_eq x gs, r2, fun e he => ?_⟩
  obtain ⟨hs, err, eb, len, lerr, hpull, hgr⟩ := r3 e he
  refine ⟨hs, err, eb, lerr, hpull, fun Λ hl => ⟨len, fun i hi => ?_, fun l f h u h1 h2 h3 => ?_⟩⟩
  · have hp : Par n (fun v => Function.update y i v) (y i) err.get (err.get i) := by
      refine ⟨fun k => if k = i then 1 else 0, fun k _ => ?_, ?_⟩
      · by_cases hki : k = i
        · subst hki
          simp only [Function.update_self, if_true]
          exact hasDerivAt_id' (y k)
        · simpa [Function.update_of_ne hki, hki] using hasDerivAt_const (y i) (y k)
      · rw [Finset.sum_eq_single i]
        · simp
        · intro b _ hne
          simp [hne]
        · intro h
          exact absurd (Finset.mem_range.2 hi) h
    refine (hpull.par (by rw [Function.update_eq_self]) hp).scalar Λ ?_
    rw [Function.update_eq_self]
    exact hl
  · obtain ⟨g1, g2, g3⟩ := hgr l f h u h1 h2 h3
    have hset : ∀ v : Unit, v = u → (units draws 0 fs).set l v = units draws 0 fs := by
      intro v hv
      rw [hv]
      obtain ⟨hlt, hget⟩ := List.getElem?_eq_some_iff.1 h3
      rw [← hget]
      exact List.set_getElem_self hlt
    have hu : u.w = f.weights.get ∧ u.b = f.biases.get := by
      have : ∀ (fs : List Fcl) (i l : Nat), fs[l]? = some f → (units draws i fs)[l]? = some u → ∃ d, u = f.unit d := by
        intro fs
        induction fs with
        | nil => intro i l h; simp at h
        | cons a as ih =>
          intro i l h h'
          cases l with
          | zero =>
            obtain rfl : a = f := by simpa using h
            obtain rfl : a.unit (draws i) = u := by simpa [units] using h'
            exact ⟨_, rfl⟩
          | succ l => exact ih (i + 1) l h h'
      obtain ⟨d, rfl⟩ := this fs 0 l h1 h3
      exact ⟨rfl, rfl⟩
    refine ⟨fun q hq => ?_, fun hm q hq => ?_, g3⟩
    · rw [← hu.1]
      refine (g1 q hq).scalar Λ ?_
      rw [hset _ (by rw [Function.update_eq_self])]
      exact hl
    · rw [← hu.2]
      refine (g2 hm q hq).scalar Λ ?_
      rw [hset _ (by rw [Function.update_eq_self])]
      exact hl

/-- A sum over the outputs. -/
theorem Pull.separable {m : Nat} {y e : Nat → ℝ} (ℓ : Nat → ℝ → ℝ) (h : ∀ o, o < m → HasDerivAt (ℓ o) (e o) (y o)) :
    Pull m 1 (fun y _ => ∑ o ∈ range m, ℓ o (y o)) y (fun _ => 1) e := by
  intro c c' t0 hc hd
  refine ⟨fun _ => ∑ o ∈ range m, e o * c' o, fun _ _ => ?_, by simp⟩
  refine HasDerivAt.fun_sum fun o ho => ?_
  have h1 : HasDerivAt (ℓ o) (e o) (c t0 o) := by rw [hc]; exact h o (Finset.mem_range.1 ho)
  exact h1.comp t0 (hd o (Finset.mem_range.1 ho))

theorem zip_run (op : ℝ → ℝ → ℝ) (a b o : Arr ℝ) (n : Nat) (ha : n ≤ a.len) (hb : n ≤ b.len) (ho : n ≤ o.len) :
    ∃ r, Vec.zip1D op a b o n = some r ∧ r.len = o.len ∧ ∀ k, k < n → r.get k = op (a.get k) (b.get k) :=
  ⟨_, Vec.zip1D_eq op a b o n ha hb ho, rfl, fun _ hk => if_pos hk⟩

theorem zipIn_run (op : ℝ → ℝ → ℝ) (a b : Arr ℝ) (n : Nat) (ha : n ≤ a.len) (hb : n ≤ b.len) :
    ∃ r, Vec.zip1DInPlace op a b n = some r ∧ r.len = a.len ∧ ∀ k, k < n → r.get k = op (a.get k) (b.get k) :=
  ⟨_, Vec.zip1DInPlace_eq op a b n ha hb, rfl, fun _ hk => if_pos hk⟩

theorem priorTerms_run (L : Nat) (out a b : Arr ℝ) (ho : 2 * L ≤ out.len) (ha : L ≤ a.len) (hb : L ≤ b.len)
    (hs : ∀ k, k < L → out.get (L + k) ≠ 0) :
    ∃ a' b', priorTerms L out (a, b) = some (a', b') ∧ a'.len = a.len ∧ b'.len = b.len ∧
      ∀ k, k < L → a'.get k = a.get k + (2 * out.get (L + k) - 1 / out.get (L + k)) ∧ b'.get k = b.get k + 2 * out.get k := by
  have key : ∀ m, m ≤ L → loop m (fun j (s : Arr ℝ × Arr ℝ) =>
    (out.read (L + j)).bind fun sd => (out.read j).bind fun mean =>
      (s.1.read j).bind fun a => (s.2.read j).bind fun b =>
        if sd = 0 then none
        else (s.1.write j (a + (2 * sd - 1 / sd))).bind fun s1 => (s.2.write j (b + 2 * mean)).bind fun s2 => some (s1, s2)) (a, b) =
      some (⟨a.len, fun k => if k < m then a.get k + (2 * out.get (L + k) - 1 / out.get (L + k)) else a.get k⟩,
        ⟨b.len, fun k => if k < m then b.get k + 2 * out.get k else b.get k⟩) := by
    intro m
    induction m with
    | zero => intro _; simp [loop]
    | succ m ih =>
      intro hm
      simp only [loop, Option.bind_eq_bind]
      rw [ih (by omega), Option.bind_some, Arr.read_eq (show L + m < out.len by omega), Option.bind_some,
        Arr.read_eq (show m < out.len by omega), Option.bind_some]
      dsimp only
      rw [Arr.read_eq (show m < _ by dsimp only; omega), Option.bind_some, Arr.read_eq (show m < _ by dsimp only; omega), Option.bind_some,
        if_neg (hs m (by omega)), Arr.write_eq _ (show m < _ by dsimp only; omega), Option.bind_some,
        Arr.write_eq _ (show m < _ by dsimp only; omega), Option.bind_some]
      dsimp only
      rw [if_neg (lt_irrefl m), if_neg (lt_irrefl m)]
      congr 3
      · funext k
        by_cases h : k = m
        · subst h; simp
        · rw [Function.update_of_ne h]
          by_cases h2 : k < m
          · rw [if_pos h2, if_pos (by omega)]
          · rw [if_neg h2, if_neg (by omega)]
      · funext k
        by_cases h : k = m
        · subst h; simp
        · rw [Function.update_of_ne h]
          by_cases h2 : k < m
          · rw [if_pos h2, if_pos (by omega)]
          · rw [if_neg h2, if_neg (by omega)]
  refine ⟨_, _, key L (le_refl L), rfl, rfl, fun k hk => ?_⟩
  exact ⟨if_pos hk, if_pos hk⟩

/-- The gradient of the coded objective in the output of the encoder. -/
theorem pull_objective (L m : Nat) (eps : Nat → ℝ) (dec : (Nat → ℝ) → Nat → ℝ) (y e g : Nat → ℝ) (ℓ : Nat → ℝ → ℝ)
    (hd : Pull L m dec (latentCode L eps y) e g) (hl : ∀ o, o < m → HasDerivAt (ℓ o) (e o) (dec (latentCode L eps y) o))
    (hs : ∀ k, k < L → y (L + k) ≠ 0) :
    Pull (2 * L) 1 (fun y _ => 2 * ∑ o ∈ range m, ℓ o (dec (latentCode L eps y) o) + codedPrior L y) y (fun _ => 1)
      (fun k => if k < L then 2 * g k + 2 * y k else 2 * g (k - L) * eps (k - L) + 2 * y k - 1 / y k) := by
  intro c c' t0 hc hcd
  have hz : ∀ k, k < L → HasDerivAt (fun t => latentCode L eps (c t) k) (c' k + eps k * c' (L + k)) t0 := by
    intro k hk
    exact (hcd k (by omega)).add ((hcd (L + k) (by omega)).const_mul (eps k))
  obtain ⟨d, h1, h2⟩ := hd (fun t => latentCode L eps (c t)) (fun k => c' k + eps k * c' (L + k)) t0 (by rw [hc]) hz
  have hrec : HasDerivAt (fun t => ∑ o ∈ range m, ℓ o (dec (latentCode L eps (c t)) o)) (∑ o ∈ range m, e o * d o) t0 := by
    refine HasDerivAt.fun_sum fun o ho => ?_
    have h3 : HasDerivAt (ℓ o) (e o) (dec (latentCode L eps (c t0)) o) := by rw [hc]; exact hl o (Finset.mem_range.1 ho)
    exact h3.comp t0 (h1 o (Finset.mem_range.1 ho))
  have hpri : HasDerivAt (fun t => codedPrior L (c t))
      (∑ k ∈ range L, (2 * y k * c' k + 2 * y (L + k) * c' (L + k) - 1 / y (L + k) * c' (L + k))) t0 := by
    unfold codedPrior
    refine HasDerivAt.fun_sum fun k hk => ?_
    have hk := Finset.mem_range.1 hk
    have a1 := hcd k (by omega)
    have a2 := hcd (L + k) (by omega)
    have hne : c t0 (L + k) ≠ 0 := by rw [hc]; exact hs k hk
    have b1 := (a1.pow 2)
    have b2 := (a2.pow 2)
    have b3 := a2.log hne
    have := (b1.add b2).sub b3
    rw [hc] at this
    refine this.congr_deriv ?_
    simp only [Nat.cast_ofNat, Nat.add_one_sub_one, pow_one]
    ring
  refine ⟨fun _ => 2 * (∑ o ∈ range m, e o * d o) + (∑ k ∈ range L, (2 * y k * c' k + 2 * y (L + k) * c' (L + k) - 1 / y (L + k) * c' (L + k))),
    fun _ _ => (hrec.const_mul 2).add hpri, ?_⟩
  rw [h2, Finset.sum_range_one, one_mul, two_mul L, Finset.sum_range_add, Finset.mul_sum, ← Finset.sum_add_distrib,
    ← Finset.sum_add_distrib]
  refine Finset.sum_congr rfl fun k hk => ?_
  have hk := Finset.mem_range.1 hk
  dsimp only
  rw [if_pos hk, if_neg (by omega), Nat.add_sub_cancel_left]
  ring

/-- The state before a pass: both models ready, arrays allocated, sizes fitting, the standard deviations not zero. -/
structure Vae.Ok (v : Vae) (drawsE drawsD : Nat → Nat → Bool) (eps : Nat → ℝ) (n : Nat) (x : Arr ℝ) : Prop where
  enc : ∀ f, f ∈ v.encoder → f.Ready ∧ f.drop ≠ .test
  dec : ∀ f, f ∈ v.decoder → f.Ready ∧ f.drop ≠ .test
  fitE : Fits n v.encoder
  fitD : Fits v.latent v.decoder
  lx : n ≤ x.len
  out : outDim n (units drawsE 0 v.encoder) = 2 * v.latent
  kinkE : NoKink (units drawsE 0 v.encoder) x.get
  kinkD : NoKink (units drawsD 0 v.decoder) (latentCode v.latent eps (net (units drawsE 0 v.encoder) x.get))
  std : ∀ k, k < v.latent → net (units drawsE 0 v.encoder) x.get (v.latent + k) ≠ 0
  li : v.latent ≤ v.input.len
  lz : v.latent ≤ v.z.len
  lm : v.latent ≤ v.dmean.len
  ls : v.latent ≤ v.dstd.len

/-- The forward pass. -/
theorem vaeFf_run (drawsE drawsD : Nat → Nat → Bool) (eps : Nat → ℝ) (n : Nat) (x : Arr ℝ) (v : Vae) (ok : v.Ok drawsE drawsD eps n x) :
    ∃ gs ds inp z, vaeFf drawsE drawsD eps n x v = some { v with encoder := gs, decoder := ds, input := inp, z := z } ∧
      ffModel drawsE n x v.encoder = some gs ∧ ffModel drawsD v.latent z v.decoder = some ds ∧
      v.latent ≤ inp.len ∧ v.latent ≤ z.len ∧ 2 * v.latent ≤ (outputLayer x gs).len ∧
      (∀ k, k < 2 * v.latent → (outputLayer x gs).get k = net (units drawsE 0 v.encoder) x.get k) ∧
      (∀ k, k < v.latent → inp.get k = eps k) ∧
      ∀ k, k < v.latent → z.get k = latentCode v.latent eps (net (units drawsE 0 v.encoder) x.get) k := by
  obtain ⟨gs, e1, g1, g2, g3, -⟩ := model_gradient drawsE n x x.get v.encoder ok.enc ok.fitE ok.lx (fun _ _ => rfl) ok.kinkE
  rw [g2, ok.out] at g1 g3
  have e2 : loop v.latent (fun i (a : Arr ℝ) => a.write i (eps i)) v.input =
      some ⟨v.input.len, fun k => if k < v.latent then eps k else v.input.get k⟩ := by
    apply loop_fill (v := eps)
    intro i hi c hc _
    have := ok.li
    rw [Arr.write_eq _ (by omega), hc]
  have h1 := ok.lz
  have h2 := ok.li
  obtain ⟨z1, e3, q1, q2⟩ := zip_run (fun a b => a * b) ⟨v.input.len, fun k => if k < v.latent then eps k else v.input.get k⟩
    (shift v.latent (outputLayer x gs)) v.z v.latent h2 (by simp only [shift]; omega) h1
  obtain ⟨z, e4, q3, q4⟩ := zipIn_run (fun a b => a + b) z1 (outputLayer x gs) v.latent (by omega) (by omega)
  have hz : ∀ k, k < v.latent → z.get k = latentCode v.latent eps (net (units drawsE 0 v.encoder) x.get) k := by
    intro k hk
    rw [q4 k hk, q2 k hk, g3 k (by omega)]
    simp only [if_pos hk, shift]
    rw [g3 (v.latent + k) (by omega), latentCode]
    ring
  obtain ⟨ds, e5, -⟩ := model_gradient drawsD v.latent z _ v.decoder ok.dec ok.fitD (by omega) hz ok.kinkD
  refine ⟨gs, ds, ⟨v.input.len, fun k => if k < v.latent then eps k else v.input.get k⟩, z, ?_, e1, e5, h2, by omega, g1, g3,
    fun k hk => if_pos hk, hz⟩
  unfold vaeFf
  rw [e1, Option.bind_some, e2, Option.bind_some, e3, Option.bind_some, e4, Option.bind_some, e5, Option.bind_some]

/-- **C111 (partial).** For every variational auto-encoder of fully connected layers, every input, noise, and loss of the decoder's output
whose derivative is the error passed in: the forward pass is defined and its code is mean plus noise times standard deviation; the
backward pass is defined, the decoder accumulates the gradient of the loss, and the encoder that of *twice* the loss plus
`codedPrior`. Missing: the objective should be the loss plus a multiple of the divergence (`C111_optimum_refuted`,
`C111_twice_refuted`). -/
theorem C111_vae_partial (drawsE drawsD : Nat → Nat → Bool) (eps : Nat → ℝ) (n : Nat) (x e : Arr ℝ) (v : Vae)
    (ok : v.Ok drawsE drawsD eps n x) (m : Nat) (hm : outDim v.latent (units drawsD 0 v.decoder) = m) (he : m ≤ e.len) (ℓ : Nat → ℝ → ℝ)
    (hl : ∀ o, o < m → HasDerivAt (ℓ o) (e.get o)
      (net (units drawsD 0 v.decoder) (latentCode v.latent eps (net (units drawsE 0 v.encoder) x.get)) o)) :
    ∃ v' v'' errD err, vaeFf drawsE drawsD eps n x v = some v' ∧ vaeBp e x v' = some (v'', err) ∧
      (∀ k, k < v.latent → v'.z.get k = latentCode v.latent eps (net (units drawsE 0 v.encoder) x.get) k) ∧
      IsGradient (units drawsD 0 v.decoder) v.latent (latentCode v.latent eps (net (units drawsE 0 v.encoder) x.get))
        (fun us z => ∑ o ∈ range m, ℓ o (net us z o)) v.decoder v''.decoder errD ∧
      IsGradient (units drawsE 0 v.encoder) n x.get
        (fun us x => 2 * ∑ o ∈ range m, ℓ o (net (units drawsD 0 v.decoder) (latentCode v.latent eps (net us x)) o) +
          codedPrior v.latent (net us x)) v.encoder v''.encoder err := by
  obtain ⟨gs, ds, inp, z, ef, e1, e5, h2, h1, g1, g3, hi, hz⟩ := vaeFf_run drawsE drawsD eps n x v ok
  obtain ⟨ds', e5', -, -, -, bpD⟩ := model_gradient drawsD v.latent z _ v.decoder ok.dec ok.fitD h1 hz ok.kinkD
  rw [e5] at e5'
  cases e5'
  obtain ⟨gs', e1', -, -, -, bpE⟩ := model_gradient drawsE n x x.get v.encoder ok.enc ok.fitE ok.lx (fun _ _ => rfl) ok.kinkE
  rw [e1] at e1'
  cases e1'
  rw [hm] at bpD
  rw [ok.out] at bpE
  obtain ⟨hsD, errD, eD, lD, pD, gD⟩ := bpD e he
  obtain ⟨dm, f1, l1, v1⟩ : ∃ r, Vec.map1D (fun t : ℝ => t) errD v.dmean v.latent = some r ∧ r.len = v.dmean.len ∧
      ∀ k, k < v.latent → r.get k = errD.get k := by
    refine ⟨⟨v.dmean.len, fun k => if k < v.latent then errD.get k else v.dmean.get k⟩, ?_, rfl, fun _ hk => if_pos hk⟩
    apply loop_fill (v := fun k => errD.get k)
    intro i hi c hc _
    have := ok.lm
    simp [Arr.read_eq (show i < errD.len by omega), Arr.write_eq _ (show i < c.len by omega)]
  obtain ⟨ds', f2, l2, v2⟩ := zip_run (fun a b => a * b) errD inp v.dstd v.latent lD h2 ok.ls
  have hm' := ok.lm
  have hs' := ok.ls
  obtain ⟨sd, mn, f3, l3, l3', v3⟩ := priorTerms_run v.latent (outputLayer x gs) ds' dm g1 (by omega) (by omega)
    (fun k hk => by rw [g3 _ (by omega)]; exact ok.std k hk)
  obtain ⟨lo, f4, l4, v4⟩ := zip_run (fun a b => a + b) mn errD ⟨v.latent, fun _ => 0⟩ v.latent (by omega) lD le_rfl
  obtain ⟨hi1, f5, l5, v5⟩ := zip_run (fun a b => a * b) errD inp ⟨v.latent, fun _ => 0⟩ v.latent lD h2 le_rfl
  obtain ⟨hi2, f6, l6, v6⟩ := zipIn_run (fun a b => a + b) hi1 sd v.latent (by rw [l5]) (by omega)
  obtain ⟨hsE, errE, eE, -, -, gE⟩ := bpE (join v.latent lo hi2) le_rfl
  have hlo := pull_objective v.latent m eps (net (units drawsD 0 v.decoder)) (net (units drawsE 0 v.encoder) x.get) e.get errD.get ℓ pD hl ok.std
  refine ⟨_, { v with encoder := hsE, decoder := hsD, input := inp, z := z, dmean := mn, dstd := sd }, errD, errE, ef, ?_, hz, ?_, ?_⟩
  · unfold vaeBp
    dsimp only
    rw [eD, Option.bind_some, f1, Option.bind_some, f2, Option.bind_some, f3, Option.bind_some]
    dsimp only
    rw [f4, Option.bind_some, f5, Option.bind_some, f6, Option.bind_some, eE, Option.bind_some]
  · exact gD (fun y => ∑ o ∈ range m, ℓ o (y o)) (Pull.separable ℓ hl)
  · refine gE (fun y => 2 * ∑ o ∈ range m, ℓ o (net (units drawsD 0 v.decoder) (latentCode v.latent eps y) o) + codedPrior v.latent y) ?_
    refine hlo.congr (fun _ _ => rfl) fun k hk => ?_
    dsimp only [join]
    by_cases h : k < v.latent
    · rw [if_pos h, if_pos h, v4 k h, (v3 k h).2, v1 k h, g3 k (by omega)]
      ring
    · have h' : k - v.latent < v.latent := by omega
      have h'' : v.latent + (k - v.latent) = k := by omega
      rw [if_neg h, if_neg h, v6 _ h', v5 _ h', (v3 _ h').1, v2 _ h', hi _ h', g3 _ (by omega), h'']
      ring

/-- An encoder with mean 0 and standard deviation 1 for every input. -/
noncomputable def demoEnc : Fcl :=
  { demoOne with output := 2, weights := Arr.ofList [0, 0], biases := Arr.ofList [0, 1], active := Arr.ofList [1, 1],
                 pre := Arr.ofList [0, 0], post := Arr.ofList [0, 0], mask := Arr.ofList [1, 1], dropTemp := Arr.ofList [1, 1],
                 temp := Arr.ofList [0, 0], temp3 := Arr.ofList [0, 0], dWeights := Arr.ofList [0, 0], dBiases := Arr.ofList [0, 0] }

noncomputable def demoVae : Vae := ⟨[demoEnc], [demoOne], 1, Arr.ofList [0], Arr.ofList [0], Arr.ofList [0], Arr.ofList [0]⟩

theorem demoEnc_ready : demoEnc.Ready := by
  constructor <;> simp [demoEnc, demoOne, Arr.ofList]
  all_goals (intro k hk; have : k = 0 ∨ k = 1 := by omega)
  all_goals (rcases this with rfl | rfl <;> simp)

/-- No dropout draw, no noise, input 0. -/
theorem demoVae_ok : demoVae.Ok (fun _ _ => false) (fun _ _ => false) (fun _ => 0) 1 (Arr.ofList [0]) where
  enc f hf := by
    obtain rfl : f = demoEnc := by simpa [demoVae] using hf
    exact ⟨demoEnc_ready, by simp [demoEnc, demoOne]⟩
  dec f hf := by
    obtain rfl : f = demoOne := by simpa [demoVae] using hf
    exact ⟨demoOne_ready, by simp [demoOne]⟩
  fitE := ⟨rfl, fun _ => rfl, trivial⟩
  fitD := ⟨rfl, fun _ => rfl, trivial⟩
  lx := by simp [Arr.ofList]
  out := rfl
  kinkE := ⟨(fun h => by rcases h with h | h | h <;> cases h), trivial⟩
  kinkD := ⟨(fun h => by rcases h with h | h | h <;> cases h), trivial⟩
  std k hk := by
    obtain rfl : k = 0 := by simp only [demoVae] at hk; omega
    simp [demoVae, units, net, Unit.fn, Unit.z, Fcl.unit, demoEnc, demoOne, actFn, Arr.ofList]
  li := by simp [demoVae, Arr.ofList]
  lz := by simp [demoVae, Arr.ofList]
  lm := by simp [demoVae, Arr.ofList]
  ls := by simp [demoVae, Arr.ofList]

/-- The output of the demo encoder when bias `q` has the value `b`. -/
theorem demoEnc_net (q : Nat) (b : ℝ) (x : Nat → ℝ) (k : Nat) (hk : k < 2) :
    net ((units (fun _ _ => false) 0 [demoEnc]).set 0
      { demoEnc.unit (fun _ => false) with b := Function.update (demoEnc.unit (fun _ => false)).b q b }) x k =
      if k = q then b else if k = 0 then 0 else 1 := by
  have : k = 0 ∨ k = 1 := by omega
  rcases this with rfl | rfl
  · by_cases h : 0 = q
    · subst h
      simp [units, net, Unit.fn, Unit.z, Fcl.unit, demoEnc, demoOne, actFn, Arr.ofList]
    · rw [if_neg h]
      simp [units, net, Unit.fn, Unit.z, Fcl.unit, demoEnc, demoOne, actFn, Arr.ofList, Function.update_of_ne h]
  · by_cases h : 1 = q
    · subst h
      simp [units, net, Unit.fn, Unit.z, Fcl.unit, demoEnc, demoOne, actFn, Arr.ofList]
    · rw [if_neg h]
      simp [units, net, Unit.fn, Unit.z, Fcl.unit, demoEnc, demoOne, actFn, Arr.ofList, Function.update_of_ne h]

theorem demoDec_net (x : Nat → ℝ) : net (units (fun _ _ => false) 0 [demoOne]) x 0 = x 0 := by
  simp [units, net, Unit.fn, Unit.z, Fcl.unit, demoOne, actFn, Arr.ofList]

/-- What the encoder of the demo accumulates for its biases, for the loss `t * p` of the decoder's output `p`. -/
theorem demoVae_run (t : ℝ) : ∃ v' v'' err h, vaeFf (fun _ _ => false) (fun _ _ => false) (fun _ => 0) 1 (Arr.ofList [0]) demoVae = some v' ∧
    vaeBp (Arr.ofList [t]) (Arr.ofList [0]) v' = some (v'', err) ∧ v''.encoder[0]? = some h ∧
    h.dBiases.get 0 - demoEnc.dBiases.get 0 = 2 * t ∧ h.dBiases.get 1 - demoEnc.dBiases.get 1 = 1 := by
  obtain ⟨v', v'', errD, err, e1, e2, -, -, hl, -, h3⟩ := C111_vae_partial (fun _ _ => false) (fun _ _ => false) (fun _ => 0) 1
    (Arr.ofList [0]) (Arr.ofList [t]) demoVae demoVae_ok 1 rfl (by simp [Arr.ofList]) (fun _ p => t * p)
    (by intro o ho
        obtain rfl : o = 0 := by omega
        have := (hasDerivAt_id (net (units (fun _ _ => false) 0 demoVae.decoder) (latentCode demoVae.latent (fun _ => 0)
          (net (units (fun _ _ => false) 0 demoVae.encoder) (Arr.ofList [(0 : ℝ)]).get)) 0)).const_mul t
        simpa [Arr.ofList] using this)
  have hlen : v''.encoder.length = 1 := hl
  obtain ⟨h, hh⟩ : ∃ h, v''.encoder = [h] := List.length_eq_one_iff.1 hlen
  obtain ⟨-, h4, -⟩ := h3 0 demoEnc h (demoEnc.unit fun _ => false) rfl (by rw [hh]; rfl) rfl
  have h5 := h4 (by simp [demoEnc, demoOne])
  refine ⟨v', v'', err, h, e1, e2, by rw [hh]; rfl, ?_, ?_⟩
  · have d := h5 0 (by simp [demoEnc])
    have hf : (fun v => 2 * ∑ o ∈ range 1, t * net (units (fun _ _ => false) 0 demoVae.decoder) (latentCode demoVae.latent (fun _ => 0)
        (net ((units (fun _ _ => false) 0 demoVae.encoder).set 0 { demoEnc.unit (fun _ => false) with
          b := Function.update (demoEnc.unit (fun _ => false)).b 0 v }) (Arr.ofList [(0 : ℝ)]).get)) o +
        codedPrior demoVae.latent (net ((units (fun _ _ => false) 0 demoVae.encoder).set 0 { demoEnc.unit (fun _ => false) with
          b := Function.update (demoEnc.unit (fun _ => false)).b 0 v }) (Arr.ofList [(0 : ℝ)]).get)) = fun v => 2 * (t * v) + (v ^ 2 + 1) := by
      funext v
      have a0 := demoEnc_net 0 v (Arr.ofList [(0 : ℝ)]).get 0 (by omega)
      have a1 := demoEnc_net 0 v (Arr.ofList [(0 : ℝ)]).get 1 (by omega)
      rw [if_pos rfl] at a0
      rw [if_neg (by omega), if_neg (by omega)] at a1
      simp only [demoVae, codedPrior, Finset.sum_range_one, demoDec_net, latentCode, zero_mul, add_zero, a0, a1]
      simp
    dsimp only at d
    rw [hf] at d
    have hb : demoEnc.biases.get 0 = 0 := by simp [demoEnc, Arr.ofList]
    rw [hb] at d
    have d' : HasDerivAt (fun v : ℝ => 2 * (t * v) + (v ^ 2 + 1)) (2 * t) 0 := by
      have := (((hasDerivAt_id (0 : ℝ)).const_mul t).const_mul 2).add (((hasDerivAt_id (0 : ℝ)).pow 2).add_const 1)
      refine this.congr_deriv ?_
      simp
    exact d.unique d'
  · have d := h5 1 (by simp [demoEnc])
    have hf : (fun v => 2 * ∑ o ∈ range 1, t * net (units (fun _ _ => false) 0 demoVae.decoder) (latentCode demoVae.latent (fun _ => 0)
        (net ((units (fun _ _ => false) 0 demoVae.encoder).set 0 { demoEnc.unit (fun _ => false) with
          b := Function.update (demoEnc.unit (fun _ => false)).b 1 v }) (Arr.ofList [(0 : ℝ)]).get)) o +
        codedPrior demoVae.latent (net ((units (fun _ _ => false) 0 demoVae.encoder).set 0 { demoEnc.unit (fun _ => false) with
          b := Function.update (demoEnc.unit (fun _ => false)).b 1 v }) (Arr.ofList [(0 : ℝ)]).get)) = fun v => v ^ 2 - Real.log v := by
      funext v
      have a0 := demoEnc_net 1 v (Arr.ofList [(0 : ℝ)]).get 0 (by omega)
      have a1 := demoEnc_net 1 v (Arr.ofList [(0 : ℝ)]).get 1 (by omega)
      rw [if_neg (by omega), if_pos rfl] at a0
      rw [if_pos rfl] at a1
      simp only [demoVae, codedPrior, Finset.sum_range_one, demoDec_net, latentCode, zero_mul, add_zero, a0, a1]
      simp
    dsimp only at d
    rw [hf] at d
    have hb : demoEnc.biases.get 1 = 1 := by simp [demoEnc, Arr.ofList]
    rw [hb] at d
    have d' : HasDerivAt (fun v : ℝ => v ^ 2 - Real.log v) 1 1 := by
      have := ((hasDerivAt_id (1 : ℝ)).pow 2).sub (Real.hasDerivAt_log one_ne_zero)
      refine this.congr_deriv ?_
      norm_num
    exact d.unique d'

/-- **C111 (refuted, optimum).** At a perfect reconstruction and a standard normal code the pass runs, but the encoder accumulates the
gradient of no objective `c * (loss + β * divergence)`: the standard deviation is pushed away from 1. -/
theorem C111_optimum_refuted : ∃ v' v'' err,
    vaeFf (fun _ _ => false) (fun _ _ => false) (fun _ => 0) 1 (Arr.ofList [0]) demoVae = some v' ∧
    vaeBp (Arr.ofList [0]) (Arr.ofList [0]) v' = some (v'', err) ∧
    ∀ c β : ℝ, ¬ IsGradient (units (fun _ _ => false) 0 demoVae.encoder) 1 (Arr.ofList [(0 : ℝ)]).get
      (fun us x => c * (∑ o ∈ range 1, net (units (fun _ _ => false) 0 demoVae.decoder) (latentCode 1 (fun _ => 0) (net us x)) o ^ 2 / 2 +
        β * divergence 1 (net us x))) demoVae.encoder v''.encoder err := by
  obtain ⟨v', v'', err, h, e1, e2, hh, -, h1⟩ := demoVae_run 0
  refine ⟨v', v'', err, e1, e2, ?_⟩
  rintro c β ⟨-, -, h3⟩
  obtain ⟨-, h4, -⟩ := h3 0 demoEnc h (demoEnc.unit fun _ => false) rfl hh rfl
  have d := h4 (by simp [demoEnc, demoOne]) 1 (by simp [demoEnc])
  rw [h1] at d
  have hf : (fun v => c * (∑ o ∈ range 1, net (units (fun _ _ => false) 0 demoVae.decoder) (latentCode 1 (fun _ => 0)
      (net ((units (fun _ _ => false) 0 demoVae.encoder).set 0 { demoEnc.unit (fun _ => false) with
        b := Function.update (demoEnc.unit (fun _ => false)).b 1 v }) (Arr.ofList [(0 : ℝ)]).get)) o ^ 2 / 2 +
      β * divergence 1 (net ((units (fun _ _ => false) 0 demoVae.encoder).set 0 { demoEnc.unit (fun _ => false) with
        b := Function.update (demoEnc.unit (fun _ => false)).b 1 v }) (Arr.ofList [(0 : ℝ)]).get))) =
      fun v => c * β / 2 * (v ^ 2 - 1 - 2 * Real.log v) := by
    funext v
    have a0 := demoEnc_net 1 v (Arr.ofList [(0 : ℝ)]).get 0 (by omega)
    have a1 := demoEnc_net 1 v (Arr.ofList [(0 : ℝ)]).get 1 (by omega)
    rw [if_neg (by omega), if_pos rfl] at a0
    rw [if_pos rfl] at a1
    simp only [demoVae, divergence, Finset.sum_range_one, demoDec_net, latentCode, zero_mul, add_zero, a0, a1]
    ring
  dsimp only at d
  rw [hf] at d
  have hb : demoEnc.biases.get 1 = 1 := by simp [demoEnc, Arr.ofList]
  rw [hb] at d
  have d' : HasDerivAt (fun v : ℝ => c * β / 2 * (v ^ 2 - 1 - 2 * Real.log v)) 0 1 := by
    have := ((((hasDerivAt_id (1 : ℝ)).pow 2).sub_const 1).sub ((Real.hasDerivAt_log one_ne_zero).const_mul 2)).const_mul (c * β / 2)
    refine this.congr_deriv ?_
    norm_num
  exact one_ne_zero (d.unique d')

/-- **C111 (refuted, factor).** Whatever the term `K` for the code is, the encoder does not accumulate the gradient of
the loss plus `K`: for the losses `0 * p` and `1 * p` the accumulated values differ by twice the gradient. -/
theorem C111_twice_refuted (K : (Nat → ℝ) → ℝ) : ∃ t v' v'' err,
    vaeFf (fun _ _ => false) (fun _ _ => false) (fun _ => 0) 1 (Arr.ofList [0]) demoVae = some v' ∧
    vaeBp (Arr.ofList [t]) (Arr.ofList [0]) v' = some (v'', err) ∧
    ¬ IsGradient (units (fun _ _ => false) 0 demoVae.encoder) 1 (Arr.ofList [(0 : ℝ)]).get
      (fun us x => ∑ o ∈ range 1, t * net (units (fun _ _ => false) 0 demoVae.decoder) (latentCode 1 (fun _ => 0) (net us x)) o +
        K (net us x)) demoVae.encoder v''.encoder err := by
  by_contra hcon
  have key : ∀ t : ℝ, HasDerivAt (fun v => t * v + K (net ((units (fun _ _ => false) 0 demoVae.encoder).set 0
      { demoEnc.unit (fun _ => false) with b := Function.update (demoEnc.unit (fun _ => false)).b 0 v }) (Arr.ofList [(0 : ℝ)]).get)) (2 * t) 0 := by
    intro t
    obtain ⟨v', v'', err, h, e1, e2, hh, h0, -⟩ := demoVae_run t
    have hg : IsGradient (units (fun _ _ => false) 0 demoVae.encoder) 1 (Arr.ofList [(0 : ℝ)]).get
      (fun us x => ∑ o ∈ range 1, t * net (units (fun _ _ => false) 0 demoVae.decoder) (latentCode 1 (fun _ => 0) (net us x)) o +
        K (net us x)) demoVae.encoder v''.encoder err := by
      by_contra hn
      exact hcon ⟨t, v', v'', err, e1, e2, hn⟩
    obtain ⟨-, -, h3⟩ := hg
    obtain ⟨-, h4, -⟩ := h3 0 demoEnc h (demoEnc.unit fun _ => false) rfl hh rfl
    have d := h4 (by simp [demoEnc, demoOne]) 0 (by simp [demoEnc])
    rw [h0] at d
    have hb : demoEnc.biases.get 0 = 0 := by simp [demoEnc, Arr.ofList]
    rw [hb] at d
    refine d.congr_of_eventuallyEq (Filter.Eventually.of_forall fun v => ?_)
    have a0 := demoEnc_net 0 v (Arr.ofList [(0 : ℝ)]).get 0 (by omega)
    have a1 := demoEnc_net 0 v (Arr.ofList [(0 : ℝ)]).get 1 (by omega)
    rw [if_pos rfl] at a0
    dsimp only
    rw [Finset.sum_range_one]
    congr 1
    show t * v = t * net (units (fun _ _ => false) 0 [demoOne]) _ 0
    rw [demoDec_net, latentCode, zero_mul, add_zero]
    exact congrArg (t * ·) a0.symm
  have k0 := key 0
  have k1 := key 1
  have := (hasDerivAt_id (0 : ℝ)).add k0
  have e := k1.unique (this.congr_of_eventuallyEq (Filter.Eventually.of_forall fun v => by simp))
  norm_num at e

/-! ### Releasing the memory -/

/-- The blocks `variational_auto_encoder_model` allocates (`/repo/src/vae_model.c` 47-55). -/
inductive VaeBlock where
  | z | input | dmean | dstd | encoder | decoder | self
deriving DecidableEq

/-- `free_vae_model` (`/repo/src/vae_model.c` 67-78): the blocks released, in order. `return` has no semicolon, so the next line
belongs to it: for `NULL` it reads `vm->z` (`none`), otherwise that line is skipped. -/
def freeVae (null : Bool) : Option (List VaeBlock) :=
  if null then none else some [.input, .dmean, .dstd, .encoder, .decoder, .self]

/-- **C112 (partial).** No block is released twice and all but one are released. Missing: `z` and `NULL` (`C112_free_refuted`). -/
theorem C112_free_partial : ∃ l, freeVae false = some l ∧ l.Nodup ∧ ∀ b, b ≠ .z → b ∈ l := by
  refine ⟨_, rfl, by decide, ?_⟩
  intro b hb
  cases b <;> simp_all

/-- **C112 (refuted).** The code vector is never released, and `NULL` is not accepted. -/
theorem C112_free_refuted : (∃ l, freeVae false = some l ∧ VaeBlock.z ∉ l) ∧ freeVae true = none :=
  ⟨⟨_, rfl, by decide⟩, rfl⟩

end LLab.Chain
