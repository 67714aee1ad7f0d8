import Mathlib.Algebra.Field.Basic
import Mathlib.Algebra.BigOperators.Group.List.Basic
import Mathlib.Algebra.Order.Field.Rat
import Mathlib.Data.Rat.Cast.Order
import Mathlib.Tactic.FieldSimp
import Mathlib.Tactic.Ring
import Mathlib.Tactic.NormNum

/-!
Property C180: the updates of transformers: `update_transformer`, `update_transformer_decoder`, `update_transformer_encoder` and
`update_training_parameters` (`/repo/src/update.c` 1216-1226, 1244-1289, 1308-1355, 1363-1367).

What is modelled is which parts are updated, in which order, and with which running powers of the two betas. The update of a part itself is
that of C42; `update_model` (`/repo/src/update.c` 1019-1062) reads the two powers and leaves them as they are. Networks are not
null. Numbers are those of a field, without rounding.
-/

namespace LLab.Transf.TransfUpdate

/-! ### Model -/

/-- The algorithm; `other` is any other value of the flag. -/
inductive Algo
  | nesterov | adam | radam | diffGrad | adamod | other
  deriving DecidableEq

/-- A part of a transformer with parameters: a network or a scaled norm. -/
inductive Part
  | net (i : Nat)
  | norm (i : Nat)
  deriving DecidableEq

/-- `transformer_encoder`: its network with the two betas of it, the network after the attention, the networks of each head and the norms. -/
structure Enc (K : Type) where
  m : Nat
  beta1 : K
  beta2 : K
  linear : Nat
  heads : List (Nat × Nat × Nat)
  norms : List Nat

/-- `transformer_decoder`: it has an encoder `e`. -/
structure Dec (K : Type) where
  e : Enc K
  linear : Nat
  heads : List (Nat × Nat × Nat)
  norms : List Nat

/-- The running powers `b1` and `b2`, and the updates made, each with the powers it was given. -/
structure Run (K : Type) where
  b1 : K
  b2 : K
  done : List (Part × K × K)

variable {K : Type} [Field K]

/-- Parts updated one after the other with the powers as they are. -/
def Run.upd (s : Run K) (ps : List Part) : Run K := ⟨s.b1, s.b2, s.done ++ ps.map fun p => (p, s.b1, s.b2)⟩

/-- The networks of the heads (`/repo/src/update.c` 1248-1252, 1313-1317). -/
def headParts (hs : List (Nat × Nat × Nat)) : List Part := hs.flatMap fun h => [.net h.1, .net h.2.1, .net h.2.2]

/-- `update_transformer_encoder` (`/repo/src/update.c` 1308-1355). -/
def updEnc (a : Algo) (e : Enc K) (s : Run K) : Run K :=
  let t := s.upd (.net e.m :: .net e.linear :: headParts e.heads)
  match a with
  | .adam => (⟨t.b1 / e.beta1, t.b2 / e.beta2, t.done⟩ : Run K).upd (e.norms.map .norm)
  | .other => t
  | _ => t.upd (e.norms.map .norm)

/-- `update_transformer_decoder` (`/repo/src/update.c` 1244-1289). -/
def updDec (a : Algo) (d : Dec K) (s : Run K) : Run K :=
  let t := (updEnc a d.e s).upd (.net d.linear :: headParts d.heads)
  match a with
  | .other => t
  | _ => t.upd (d.norms.map .norm)

/-- `update_transformer` (`/repo/src/update.c` 1216-1226). -/
def update (a : Algo) (te : List (Enc K)) (td : List (Dec K)) (s : Run K) : Run K :=
  td.foldl (fun s d => updDec a d s) (te.foldl (fun s e => updEnc a e s) s)

/-- `update_training_parameters` (`/repo/src/update.c` 1363-1367). -/
def advance (beta1 beta2 : K) (s : Run K) : Run K := ⟨s.b1 * beta1, s.b2 * beta2, s.done⟩

/-- Training: `n` updates, each followed by `update_training_parameters`, from the powers `beta1` and `beta2`; the log is that of all updates. -/
def train (a : Algo) (te : List (Enc K)) (td : List (Dec K)) (beta1 beta2 : K) : Nat → Run K
  | 0 => ⟨beta1, beta2, []⟩
  | n + 1 => advance beta1 beta2 (update a te td (train a te td beta1 beta2 n))

/-! ### Specification -/

/-- All parts of an encoder. -/
def encParts (e : Enc K) : List Part := [.net e.m, .net e.linear] ++ e.heads.flatMap (fun h => [.net h.1, .net h.2.1, .net h.2.2]) ++ e.norms.map .norm

/-- All parts of a decoder. -/
def decParts (d : Dec K) : List Part :=
  encParts d.e ++ [.net d.linear] ++ d.heads.flatMap (fun h => [.net h.1, .net h.2.1, .net h.2.2]) ++ d.norms.map .norm

/-- All parts of a transformer. -/
def parts (te : List (Enc K)) (td : List (Dec K)) : List Part := te.flatMap encParts ++ td.flatMap decParts

/-! ### Lemmas -/

theorem enc_done (a : Algo) (ha : a ≠ .other) (e : Enc K) (s : Run K) : (updEnc a e s).done.map Prod.fst = s.done.map Prod.fst ++ encParts e := by
  cases a <;> first | exact absurd rfl ha | simp [updEnc, Run.upd, encParts, headParts, List.map_flatMap, Function.comp_def]

theorem dec_done (a : Algo) (ha : a ≠ .other) (d : Dec K) (s : Run K) : (updDec a d s).done.map Prod.fst = s.done.map Prod.fst ++ decParts d := by
  have h : (updDec a d s).done = (updEnc a d.e s).done ++ ((.net d.linear :: headParts d.heads).map fun p => (p, (updEnc a d.e s).b1, (updEnc a d.e s).b2)) ++
      (d.norms.map Part.norm).map fun p => (p, (updEnc a d.e s).b1, (updEnc a d.e s).b2) := by
    cases a <;> first | exact absurd rfl ha | rfl
  rw [h, List.map_append, List.map_append, enc_done a ha]
  simp [decParts, headParts, Function.comp_def]

theorem enc_same (a : Algo) (ha : a ≠ .other) (hn : a ≠ .adam) (e : Enc K) (s : Run K) :
    updEnc a e s = ⟨s.b1, s.b2, s.done ++ (encParts e).map fun p => (p, s.b1, s.b2)⟩ := by
  cases a <;> first | exact absurd rfl ha | exact absurd rfl hn | simp [updEnc, Run.upd, encParts, headParts]

theorem dec_same (a : Algo) (ha : a ≠ .other) (hn : a ≠ .adam) (d : Dec K) (s : Run K) :
    updDec a d s = ⟨s.b1, s.b2, s.done ++ (decParts d).map fun p => (p, s.b1, s.b2)⟩ := by
  have h : updDec a d s = ((updEnc a d.e s).upd (.net d.linear :: headParts d.heads)).upd (d.norms.map .norm) := by
    cases a <;> first | exact absurd rfl ha | rfl
  rw [h, enc_same a ha hn]
  simp [Run.upd, decParts, headParts]

theorem enc_adam (e : Enc K) (s : Run K) : (updEnc .adam e s).b1 = s.b1 / e.beta1 ∧ (updEnc .adam e s).b2 = s.b2 / e.beta2 := ⟨rfl, rfl⟩

theorem dec_adam (d : Dec K) (s : Run K) : (updDec .adam d s).b1 = s.b1 / d.e.beta1 ∧ (updDec .adam d s).b2 = s.b2 / d.e.beta2 := ⟨rfl, rfl⟩

/-- Updates made stay in the log. -/
theorem enc_mono (a : Algo) (e : Enc K) (s : Run K) (x : Part × K × K) (hx : x ∈ s.done) : x ∈ (updEnc a e s).done := by
  cases a <;> simp [updEnc, Run.upd, hx]

theorem dec_mono (a : Algo) (d : Dec K) (s : Run K) (x : Part × K × K) (hx : x ∈ s.done) : x ∈ (updDec a d s).done := by
  have := enc_mono a d.e s x hx
  cases a <;> simp [updDec, Run.upd, this]

theorem foldl_enc_mono (a : Algo) (te : List (Enc K)) (s : Run K) (x : Part × K × K) (hx : x ∈ s.done) : x ∈ (te.foldl (fun s e => updEnc a e s) s).done := by
  induction te generalizing s with
  | nil => exact hx
  | cons e te ih => exact ih _ (enc_mono a e s x hx)

theorem foldl_dec_mono (a : Algo) (td : List (Dec K)) (s : Run K) (x : Part × K × K) (hx : x ∈ s.done) : x ∈ (td.foldl (fun s d => updDec a d s) s).done := by
  induction td generalizing s with
  | nil => exact hx
  | cons d td ih => exact ih _ (dec_mono a d s x hx)

/-! ### Theorems -/

/-- Every algorithm updates every part of the transformer, each in its turn: encoders and then decoders. -/
theorem C180_parts (a : Algo) (ha : a ≠ .other) (te : List (Enc K)) (td : List (Dec K)) (b1 b2 : K) :
    (update a te td ⟨b1, b2, []⟩).done.map Prod.fst = parts te td := by
  have h1 : ∀ (te : List (Enc K)) (s : Run K), (te.foldl (fun s e => updEnc a e s) s).done.map Prod.fst = s.done.map Prod.fst ++ te.flatMap encParts := by
    intro te
    induction te with
    | nil => intro s; simp
    | cons e te ih => intro s; rw [List.foldl_cons, ih, enc_done a ha, List.flatMap_cons, List.append_assoc]
  have h2 : ∀ (td : List (Dec K)) (s : Run K), (td.foldl (fun s d => updDec a d s) s).done.map Prod.fst = s.done.map Prod.fst ++ td.flatMap decParts := by
    intro td
    induction td with
    | nil => intro s; simp
    | cons d td ih => intro s; rw [List.foldl_cons, ih, dec_done a ha, List.flatMap_cons, List.append_assoc]
  rw [update, h2, h1, parts]
  rfl

/-- With every algorithm but Adam every part is updated with the powers that were passed, and they are the same afterwards. -/
theorem C180_powers_partial (a : Algo) (ha : a ≠ .other) (hn : a ≠ .adam) (te : List (Enc K)) (td : List (Dec K)) (b1 b2 : K) :
    update a te td ⟨b1, b2, []⟩ = ⟨b1, b2, (parts te td).map fun p => (p, b1, b2)⟩ := by
  have h1 : ∀ (te : List (Enc K)) (l : List (Part × K × K)), te.foldl (fun s e => updEnc a e s) ⟨b1, b2, l⟩ =
      ⟨b1, b2, l ++ (te.flatMap encParts).map fun p => (p, b1, b2)⟩ := by
    intro te
    induction te with
    | nil => intro l; simp
    | cons e te ih => intro l; rw [List.foldl_cons, enc_same a ha hn, ih, List.flatMap_cons, List.map_append, List.append_assoc]
  have h2 : ∀ (td : List (Dec K)) (l : List (Part × K × K)), td.foldl (fun s d => updDec a d s) ⟨b1, b2, l⟩ =
      ⟨b1, b2, l ++ (td.flatMap decParts).map fun p => (p, b1, b2)⟩ := by
    intro td
    induction td with
    | nil => intro l; simp
    | cons d td ih => intro l; rw [List.foldl_cons, dec_same a ha hn, ih, List.flatMap_cons, List.map_append, List.append_assoc]
  rw [update, h1, h2, parts, List.map_append]
  rfl

/-- So in training with them update number `n` uses the powers `n + 1` of the betas. -/
theorem C180_train_partial (a : Algo) (ha : a ≠ .other) (hn : a ≠ .adam) (te : List (Enc K)) (td : List (Dec K)) (beta1 beta2 : K) (n : Nat) :
    (train a te td beta1 beta2 n).b1 = beta1 ^ (n + 1) ∧ (train a te td beta1 beta2 n).b2 = beta2 ^ (n + 1) := by
  have hb : ∀ s : Run K, (update a te td s).b1 = s.b1 ∧ (update a te td s).b2 = s.b2 := by
    intro s
    have h1 : ∀ (te : List (Enc K)) (s : Run K), (te.foldl (fun s e => updEnc a e s) s).b1 = s.b1 ∧ (te.foldl (fun s e => updEnc a e s) s).b2 = s.b2 := by
      intro te
      induction te with
      | nil => intro s; exact ⟨rfl, rfl⟩
      | cons e te ih => intro s; rw [List.foldl_cons, (ih _).1, (ih _).2, enc_same a ha hn]; exact ⟨rfl, rfl⟩
    have h2 : ∀ (td : List (Dec K)) (s : Run K), (td.foldl (fun s d => updDec a d s) s).b1 = s.b1 ∧ (td.foldl (fun s d => updDec a d s) s).b2 = s.b2 := by
      intro td
      induction td with
      | nil => intro s; exact ⟨rfl, rfl⟩
      | cons d td ih => intro s; rw [List.foldl_cons, (ih _).1, (ih _).2, dec_same a ha hn]; exact ⟨rfl, rfl⟩
    rw [update, (h2 _ _).1, (h2 _ _).2, (h1 _ _).1, (h1 _ _).2]
    exact ⟨rfl, rfl⟩
  induction n with
  | zero => exact ⟨(pow_one _).symm, (pow_one _).symm⟩
  | succ n ih =>
    rw [train, advance]
    dsimp only
    rw [(hb _).1, (hb _).2, ih.1, ih.2, ← pow_succ, ← pow_succ]
    exact ⟨rfl, rfl⟩

/-- With Adam the powers should stay too: each encoder and each decoder divides them by its betas. -/
theorem C180_adam_refuted (te : List (Enc K)) (td : List (Dec K)) (b1 b2 : K) :
    (update .adam te td ⟨b1, b2, []⟩).b1 = b1 / ((te.map Enc.beta1).prod * (td.map fun d => d.e.beta1).prod) ∧
    (update .adam te td ⟨b1, b2, []⟩).b2 = b2 / ((te.map Enc.beta2).prod * (td.map fun d => d.e.beta2).prod) := by
  have h1 : ∀ (te : List (Enc K)) (s : Run K), (te.foldl (fun s e => updEnc .adam e s) s).b1 = s.b1 / (te.map Enc.beta1).prod ∧
      (te.foldl (fun s e => updEnc .adam e s) s).b2 = s.b2 / (te.map Enc.beta2).prod := by
    intro te
    induction te with
    | nil => intro s; simp
    | cons e te ih => intro s; rw [List.foldl_cons, (ih _).1, (ih _).2, (enc_adam e s).1, (enc_adam e s).2]; simp [div_div]
  have h2 : ∀ (td : List (Dec K)) (s : Run K), (td.foldl (fun s d => updDec .adam d s) s).b1 = s.b1 / (td.map fun d => d.e.beta1).prod ∧
      (td.foldl (fun s d => updDec .adam d s) s).b2 = s.b2 / (td.map fun d => d.e.beta2).prod := by
    intro td
    induction td with
    | nil => intro s; simp
    | cons d td ih => intro s; rw [List.foldl_cons, (ih _).1, (ih _).2, (dec_adam d s).1, (dec_adam d s).2]; simp [div_div]
  rw [update, (h2 _ _).1, (h2 _ _).2, (h1 _ _).1, (h1 _ _).2, div_div, div_div]
  exact ⟨rfl, rfl⟩

/-- The first update with Adam should be well defined: every norm of the first encoder, and every network of the next encoder, or of the first decoder if there is no other
encoder, is updated with powers that are 1, so that the corrections divide by `1 - 1`. -/
theorem C180_first_refuted (e : Enc K) (te : List (Enc K)) (td : List (Dec K)) (h1 : e.beta1 ≠ 0) (h2 : e.beta2 ≠ 0) :
    (∀ i ∈ e.norms, (Part.norm i, (1 : K), (1 : K)) ∈ (update .adam (e :: te) td ⟨e.beta1, e.beta2, []⟩).done) ∧
    (∀ e' rest, te = e' :: rest → ∀ p, p = Part.net e'.m ∨ p = Part.net e'.linear ∨ p ∈ headParts e'.heads →
      (p, (1 : K), (1 : K)) ∈ (update .adam (e :: te) td ⟨e.beta1, e.beta2, []⟩).done) ∧
    (∀ d rest, te = [] → td = d :: rest → ∀ p, p = Part.net d.e.m ∨ p = Part.net d.e.linear ∨ p ∈ headParts d.e.heads →
      (p, (1 : K), (1 : K)) ∈ (update .adam (e :: te) td ⟨e.beta1, e.beta2, []⟩).done) := by
  have hone : (updEnc .adam e ⟨e.beta1, e.beta2, []⟩).b1 = 1 ∧ (updEnc .adam e ⟨e.beta1, e.beta2, []⟩).b2 = 1 := by
    rw [(enc_adam e _).1, (enc_adam e _).2]
    exact ⟨div_self h1, div_self h2⟩
  have nets : ∀ (e' : Enc K) (s : Run K), s.b1 = 1 → s.b2 = 1 → ∀ p, p = Part.net e'.m ∨ p = Part.net e'.linear ∨ p ∈ headParts e'.heads →
      (p, (1 : K), (1 : K)) ∈ (updEnc .adam e' s).done := by
    intro e' s hb1 hb2 p hp
    simp only [updEnc, Run.upd, List.mem_append, List.mem_map, hb1, hb2]
    exact Or.inl (Or.inr ⟨p, by simpa using hp, rfl⟩)
  refine ⟨fun i hi => ?_, fun e' rest he p hp => ?_, fun d rest he hd p hp => ?_⟩
  · have hm : (Part.norm i, (1 : K), (1 : K)) ∈ (updEnc .adam e ⟨e.beta1, e.beta2, []⟩).done := by
      simp only [updEnc, Run.upd, List.mem_append, List.mem_map, div_self h1, div_self h2]
      exact Or.inr ⟨.norm i, ⟨i, hi, rfl⟩, rfl⟩
    exact foldl_dec_mono .adam td _ _ (foldl_enc_mono .adam te _ _ hm)
  · subst he
    exact foldl_dec_mono .adam td _ _ (foldl_enc_mono .adam rest _ _ (nets e' _ hone.1 hone.2 p hp))
  · subst he
    subst hd
    have hm : (p, (1 : K), (1 : K)) ∈ (updDec .adam d (updEnc .adam e ⟨e.beta1, e.beta2, []⟩)).done := by
      have := nets d.e _ hone.1 hone.2 p hp
      simp only [updDec, Run.upd, List.mem_append]
      exact Or.inl (Or.inl this)
    exact foldl_dec_mono .adam rest _ _ hm

/-- A transformer of one encoder stays there: before every update with Adam the powers are those of the first. -/
theorem C180_stuck_refuted (e : Enc K) (h1 : e.beta1 ≠ 0) (h2 : e.beta2 ≠ 0) (n : Nat) :
    (train .adam [e] [] e.beta1 e.beta2 n).b1 = e.beta1 ∧ (train .adam [e] [] e.beta1 e.beta2 n).b2 = e.beta2 := by
  induction n with
  | zero => exact ⟨rfl, rfl⟩
  | succ n ih =>
    rw [train, advance]
    show _ / e.beta1 * e.beta1 = _ ∧ _ / e.beta2 * e.beta2 = _
    constructor
    · rw [div_mul_cancel₀ _ h1]; exact ih.1
    · rw [div_mul_cancel₀ _ h2]; exact ih.2

/-- The hypotheses are met by an encoder with two heads and two norms. -/
example : ∃ e : Enc ℚ, e.beta1 ≠ 0 ∧ e.beta2 ≠ 0 ∧ (encParts e).length = 10 ∧ Algo.radam ≠ .adam ∧ Algo.radam ≠ .other :=
  ⟨⟨0, 9 / 10, 999 / 1000, 1, [(2, 3, 4), (5, 6, 7)], [0, 1]⟩, by norm_num, by norm_num, rfl, by decide, by decide⟩

end LLab.Transf.TransfUpdate
