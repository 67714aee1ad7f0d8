import Verif.Common.Loop
import Mathlib.Algebra.Order.Field.Basic
import Mathlib.Tactic.Linarith
import Mathlib.Tactic.Ring
import Mathlib.Tactic.NormNum

/-!
Min-max normalisation of the edge-popup scores (`/repo/src/normalization.c` 744-861). Property C152.
-/

namespace LLab.ScoreNorm

open LLab

variable {K : Type} [Field K] [LinearOrder K] [IsStrictOrderedRing K]

/-! ### Model -/

/-- What the functions read of a fully connected or convolutional layer: the number of scores its loops run
over (`input*output` or `n_kernels*channels*kernel_rows*kernel_cols`), whether the layer is skipped
(`ONLY_DROPOUT` or `NO_CONVOLUTION`), and the scores, `none` for the null pointer that a layer without
edge-popup holds (fully_connected_layers.c 233-251, convolutional_layers.c 234-250). -/
structure Layer (K : Type) where
  count : Nat
  off : Bool
  scores : Option (Arr K)

/-- A model: its fully connected, convolutional and residual layers. -/
structure Mdl (K : Type) where
  fcls : List (Layer K)
  cls : List (Layer K)
  rls : List (List (Layer K))

/-- normalization.c 749-754, 767-772, 818-824, 827-833, 837-842: the running `(max, min)`. A null pointer fails. -/
def scan (L : Layer K) (st : K × K) : Option (K × K) :=
  loop L.count (fun i st => do
    let a ← L.scores
    let x ← a.read i
    some (if x > st.1 then x else st.1, if x < st.2 then x else st.2)) st

/-- normalization.c 756-758, 774-776, 798-800, 807-809. A zero difference gives no number and fails. -/
def scale (L : Layer K) (mx mn : K) : Option (Layer K) := do
  let s ← loop L.count (fun i s => do
    let a ← s
    let x ← a.read i
    (if mx - mn = 0 then none else do
      let a ← a.write i ((x - mn) / (mx - mn))
      some (some a))) L.scores
  some ⟨L.count, L.off, s⟩

/-- normalization.c 744-760 `normalize_scores_among_fcl_layers` and 762-778 `normalize_scores_among_cl_layers`. -/
def normLayer (L : Layer K) : Option (Layer K) :=
  if L.off then some L else do
    let st ← scan L (-99999999, 999999999)
    scale L st.1 st.2

/-- normalization.c 795-811 `given_max_min_normalize_fcl`, `given_max_min_normalize_cl`. -/
def givenMaxMin (mx mn : K) (L : Layer K) : Option (Layer K) :=
  if L.off then some L else scale L mx mn

/-- A loop over layers that changes each in place. -/
def each {α : Type} (f : α → Option α) : List α → Option (List α)
  | [] => some []
  | x :: l => do
    let y ← f x
    let r ← each f l
    some (y :: r)

/-- normalization.c 781-793 `normalize_scores_among_all_internal_layers`. -/
def normInternal (m : Mdl K) : Option (Mdl K) := do
  let a ← each normLayer m.fcls
  let b ← each normLayer m.cls
  let c ← each (each normLayer) m.rls
  some ⟨a, b, c⟩

/-- A loop over layers that carries `(max, min)`. -/
def scanAll : List (Layer K) → K × K → Option (K × K)
  | [], st => some st
  | L :: l, st => do
    let st ← scan L st
    scanAll l st

/-- normalization.c 835-844: the loops over the residual layers. -/
def scanRes : List (List (Layer K)) → K × K → Option (K × K)
  | [], st => some st
  | r :: l, st => do
    let st ← scanAll r st
    scanRes l st

/-- normalization.c 814-861 `min_max_normalize_scores_among_all_leyers`; the scan does not test the flags. -/
def normGlobal (m : Mdl K) : Option (Mdl K) := do
  let st ← scanAll m.fcls (-9999999, 9999999)
  let st ← scanAll m.cls st
  let st ← scanRes m.rls st
  let a ← each (givenMaxMin st.1 st.2) m.fcls
  let b ← each (givenMaxMin st.1 st.2) m.cls
  let c ← each (each (givenMaxMin st.1 st.2)) m.rls
  some ⟨a, b, c⟩

/-! ### Specification -/

/-- `x` is a score of the layer. -/
def Layer.Has (L : Layer K) (x : K) : Prop := ∃ a, L.scores = some a ∧ ∃ i, i < L.count ∧ a.get i = x

/-- All layers of a model. -/
def Mdl.layers (m : Mdl K) : List (Layer K) := m.fcls ++ (m.cls ++ m.rls.flatten)

/-- A layer with scores, in memory for every position. -/
def Layer.Scored (L : Layer K) : Prop := L.off = false ∧ ∃ a, L.scores = some a ∧ L.count ≤ a.len

/-- `f` is a min-max scale for the numbers in `V`: affine, strictly increasing, into the unit interval, both
ends reached. -/
def UnitScale (V : K → Prop) (f : K → K) : Prop :=
  (∃ c d, ∀ x, f x = c * x + d) ∧ (∀ x y, x < y → f x < f y) ∧ (∀ x, V x → 0 ≤ f x ∧ f x ≤ 1) ∧
  (∃ x, V x ∧ f x = 0) ∧ ∃ x, V x ∧ f x = 1

/-- `L'` holds the image under `f` of every score of `L` at its own place. -/
def Image (f : K → K) (L L' : Layer K) : Prop :=
  L'.count = L.count ∧ L'.off = L.off ∧ ∃ a a', L.scores = some a ∧ L'.scores = some a' ∧ a'.len = a.len ∧
    ∀ i, a'.get i = if i < L.count then f (a.get i) else a.get i

/-! ### Lemmas -/

/-- What a scan of the numbers `V` does to `(max, min)`. -/
def Scanned (V : K → Prop) (s t : K × K) : Prop :=
  (∀ x, V x → t.2 ≤ x ∧ x ≤ t.1) ∧ s.1 ≤ t.1 ∧ t.2 ≤ s.2 ∧ (t.1 = s.1 ∨ V t.1) ∧ (t.2 = s.2 ∨ V t.2)

omit [Field K] [IsStrictOrderedRing K] in
theorem Scanned.comp {V W U : K → Prop} {s t u : K × K} (h : Scanned V s t) (h' : Scanned W t u)
    (hU : ∀ x, U x ↔ V x ∨ W x) : Scanned U s u := by
  obtain ⟨a1, a2, a3, a4, a5⟩ := h
  obtain ⟨b1, b2, b3, b4, b5⟩ := h'
  refine ⟨fun x hx => ?_, le_trans a2 b2, le_trans b3 a3, ?_, ?_⟩
  · rcases (hU x).1 hx with h | h
    · exact ⟨le_trans b3 (a1 x h).1, le_trans (a1 x h).2 b2⟩
    · exact b1 x h
  · rcases b4 with h | h
    · rw [h]
      rcases a4 with h2 | h2
      · exact Or.inl h2
      · exact Or.inr ((hU _).2 (Or.inl h2))
    · exact Or.inr ((hU _).2 (Or.inr h))
  · rcases b5 with h | h
    · rw [h]
      rcases a5 with h2 | h2
      · exact Or.inl h2
      · exact Or.inr ((hU _).2 (Or.inl h2))
    · exact Or.inr ((hU _).2 (Or.inr h))

omit [Field K] [IsStrictOrderedRing K] in
theorem scan_eq {L : Layer K} (hL : L.Scored) (s : K × K) : ∃ t, scan L s = some t ∧ Scanned L.Has s t := by
  obtain ⟨-, a, ha, hlen⟩ := hL
  obtain ⟨t, e, h⟩ := loop_inv (fun n t => Scanned (fun x => ∃ i, i < n ∧ a.get i = x) s t) (n := L.count)
    (f := fun i st => (do
      let a ← L.scores
      let x ← a.read i
      some (if x > st.1 then x else st.1, if x < st.2 then x else st.2) : Option (K × K))) (s := s)
    ⟨fun x ⟨i, hi, _⟩ => absurd hi (by omega), le_refl _, le_refl _, Or.inl rfl, Or.inl rfl⟩ (by
      intro i hi t ht
      refine ⟨(if a.get i > t.1 then a.get i else t.1, if a.get i < t.2 then a.get i else t.2), ?_, ?_⟩
      · simp [ha, Arr.read_eq (show i < a.len by omega)]
      · refine Scanned.comp (W := fun x => x = a.get i) ht ?_ ?_
        · refine ⟨?_, ?_, ?_, ?_, ?_⟩
          · rintro x rfl
            dsimp only
            constructor
            · split
              · exact le_refl _
              · exact not_lt.mp (by assumption)
            · split
              · exact le_refl _
              · exact not_lt.mp (by assumption)
          · dsimp only
            split
            · exact le_of_lt (by assumption)
            · exact le_refl _
          · dsimp only
            split
            · exact le_of_lt (by assumption)
            · exact le_refl _
          · dsimp only
            split
            · exact Or.inr rfl
            · exact Or.inl rfl
          · dsimp only
            split
            · exact Or.inr rfl
            · exact Or.inl rfl
        · intro x
          constructor
          · rintro ⟨j, hj, rfl⟩
            by_cases h : j = i
            · subst h; exact Or.inr rfl
            · exact Or.inl ⟨j, by omega, rfl⟩
          · rintro (⟨j, hj, rfl⟩ | rfl)
            · exact ⟨j, by omega, rfl⟩
            · exact ⟨i, by omega, rfl⟩)
  refine ⟨t, e, ?_⟩
  have hset : L.Has = fun x => ∃ i, i < L.count ∧ a.get i = x := by
    funext x
    apply propext
    constructor
    · rintro ⟨b, hb, h⟩
      rw [ha] at hb
      obtain rfl := Option.some.inj hb
      exact h
    · intro h
      exact ⟨a, ha, h⟩
  rw [hset]
  exact h

omit [IsStrictOrderedRing K] in
theorem scale_eq {L : Layer K} (hL : L.Scored) {mx mn : K} (h : mn < mx) :
    ∃ L', scale L mx mn = some L' ∧ Image (fun x => (x - mn) / (mx - mn)) L L' := by
  obtain ⟨-, a, ha, hlen⟩ := hL
  have hne : ¬ mx - mn = 0 := by
    intro h0
    exact absurd (sub_eq_zero.mp h0) (ne_of_gt h)
  obtain ⟨t, e, a', r0, r1, r2⟩ := loop_inv (fun n (s : Option (Arr K)) => ∃ a', s = some a' ∧ a'.len = a.len ∧
      ∀ i, a'.get i = if i < n then (a.get i - mn) / (mx - mn) else a.get i) (n := L.count)
    (f := fun i s => (do
      let a ← s
      let x ← a.read i
      (if mx - mn = 0 then none else do
        let a ← a.write i ((x - mn) / (mx - mn))
        some (some a)) : Option (Option (Arr K)))) (s := L.scores)
    ⟨a, ha, rfl, fun i => by simp⟩ (by
      rintro n hn s ⟨b, rfl, hb, hv⟩
      have hl : n < b.len := by omega
      refine ⟨some ⟨b.len, Function.update b.get n ((b.get n - mn) / (mx - mn))⟩, ?_, _, rfl, hb, ?_⟩
      · simp only [Option.bind_eq_bind, Option.bind_some, Arr.read_eq hl]
        rw [if_neg hne, Arr.write_eq _ hl]
        rfl
      · intro i
        dsimp only
        by_cases hi : i = n
        · subst hi
          rw [Function.update_self, hv]
          simp
        · rw [Function.update_of_ne hi, hv]
          by_cases h2 : i < n
          · simp [h2, show i < n + 1 by omega]
          · simp [h2, show ¬ i < n + 1 by omega])
  refine ⟨⟨L.count, L.off, some a'⟩, ?_, rfl, rfl, a, a', ha, rfl, r1, r2⟩
  unfold scale
  rw [e, r0]
  rfl

omit [Field K] [IsStrictOrderedRing K] in
theorem scanAll_eq (l : List (Layer K)) (hl : ∀ L ∈ l, L.Scored) (s : K × K) :
    ∃ t, scanAll l s = some t ∧ Scanned (fun x => ∃ L ∈ l, L.Has x) s t := by
  induction l generalizing s with
  | nil => exact ⟨s, rfl, by simp, le_refl _, le_refl _, Or.inl rfl, Or.inl rfl⟩
  | cons L l ih =>
    obtain ⟨t, e, h⟩ := scan_eq (hl L (by simp)) s
    obtain ⟨u, e2, h2⟩ := ih (fun L hL => hl L (by simp [hL])) t
    exact ⟨u, by simp [scanAll, e, e2], h.comp h2 (fun x => by simp)⟩

omit [Field K] [IsStrictOrderedRing K] in
theorem scanRes_eq (l : List (List (Layer K))) (hl : ∀ L ∈ l.flatten, L.Scored) (s : K × K) :
    ∃ t, scanRes l s = some t ∧ Scanned (fun x => ∃ L ∈ l.flatten, L.Has x) s t := by
  induction l generalizing s with
  | nil => exact ⟨s, rfl, by simp, le_refl _, le_refl _, Or.inl rfl, Or.inl rfl⟩
  | cons r l ih =>
    obtain ⟨t, e, h⟩ := scanAll_eq r (fun L hL => hl L (by simp [hL])) s
    obtain ⟨u, e2, h2⟩ := ih (fun L hL => hl L (by
      rw [List.flatten_cons, List.mem_append]; exact Or.inr hL)) t
    refine ⟨u, by simp [scanRes, e, e2], h.comp h2 (fun x => ?_)⟩
    simp only [List.flatten_cons, List.mem_append]
    constructor
    · rintro ⟨L, h | h, hx⟩
      · exact Or.inl ⟨L, h, hx⟩
      · exact Or.inr ⟨L, h, hx⟩
    · rintro (⟨L, h, hx⟩ | ⟨L, h, hx⟩)
      · exact ⟨L, Or.inl h, hx⟩
      · exact ⟨L, Or.inr h, hx⟩

/-- The scan of numbers on both sides of its starting values finds two of them. -/
theorem unit_of_scan {V : K → Prop} {mx mn : K} {t : K × K} (h : Scanned V (mx, mn) t)
    (h1 : ∃ x, V x ∧ x ≤ mn) (h2 : ∃ x, V x ∧ mx ≤ x) (h3 : ∃ x y, V x ∧ V y ∧ x ≠ y) :
    t.2 < t.1 ∧ UnitScale V (fun x => (x - t.2) / (t.1 - t.2)) := by
  obtain ⟨a1, a2, a3, a4, a5⟩ := h
  dsimp only at a2 a3 a4 a5
  obtain ⟨x1, v1, l1⟩ := h1
  obtain ⟨x2, v2, l2⟩ := h2
  obtain ⟨p, q, vp, vq, hpq⟩ := h3
  have hlt : t.2 < t.1 := by
    have p1 := a1 p vp
    have q1 := a1 q vq
    rcases lt_or_gt_of_ne hpq with h | h
    · linarith [p1.1, q1.2]
    · linarith [q1.1, p1.2]
  have hmax : V t.1 := by
    rcases a4 with h | h
    · have : x2 = t.1 := le_antisymm (a1 x2 v2).2 (by rw [h]; exact l2)
      rw [← this]; exact v2
    · exact h
  have hmin : V t.2 := by
    rcases a5 with h | h
    · have : x1 = t.2 := le_antisymm (by rw [h]; exact l1) (a1 x1 v1).1
      rw [← this]; exact v1
    · exact h
  have hpos : 0 < t.1 - t.2 := by linarith
  refine ⟨hlt, ⟨1 / (t.1 - t.2), - (t.2 / (t.1 - t.2)), fun x => by ring⟩, ?_, ?_, ⟨t.2, hmin, by simp⟩,
    ⟨t.1, hmax, div_self hpos.ne'⟩⟩
  · intro x y hxy
    exact (div_lt_div_iff_of_pos_right hpos).2 (by linarith)
  · intro x hx
    have := a1 x hx
    exact ⟨div_nonneg (by linarith [this.1]) hpos.le, (div_le_one hpos).2 (by linarith [this.2])⟩

theorem each_eq {α : Type} {f : α → Option α} (R : α → α → Prop) (l : List α)
    (h : ∀ x ∈ l, ∃ y, f x = some y ∧ R x y) : ∃ r, each f l = some r ∧ List.Forall₂ R l r := by
  induction l with
  | nil => exact ⟨[], rfl, List.Forall₂.nil⟩
  | cons x l ih =>
    obtain ⟨y, e, hy⟩ := h x (by simp)
    obtain ⟨r, e2, hr⟩ := ih (fun x hx => h x (by simp [hx]))
    exact ⟨y :: r, by simp [each, e, e2], List.Forall₂.cons hy hr⟩

theorem each_none {α : Type} {f : α → Option α} {l : List α} {x : α} (hx : x ∈ l) (h : f x = none) :
    each f l = none := by
  induction l with
  | nil => simp at hx
  | cons y l ih =>
    rw [each]
    rcases List.mem_cons.1 hx with rfl | hx
    · rw [h]; rfl
    · rw [ih hx]
      cases f y <;> rfl

/-! ### C152 -/

/-- The numbers of a layer lie on both sides of the starting values and are not all equal. -/
def Usable (V : K → Prop) (mx mn : K) : Prop :=
  (∃ x, V x ∧ x ≤ mn) ∧ (∃ x, V x ∧ mx ≤ x) ∧ ∃ x y, V x ∧ V y ∧ x ≠ y

/-- C152 (one layer, partial): the scores of a layer become their images under a min-max scale. Missing: layers
whose scores are all equal, all above 999999999 or all below -99999999 (refuted below). -/
theorem C152_layer_partial (L : Layer K) (hL : L.Scored) (hu : Usable L.Has (-99999999) 999999999) :
    ∃ L' f, normLayer L = some L' ∧ UnitScale L.Has f ∧ Image f L L' := by
  obtain ⟨t, e, h⟩ := scan_eq hL (-99999999, 999999999)
  obtain ⟨hlt, hf⟩ := unit_of_scan h hu.1 hu.2.1 hu.2.2
  obtain ⟨L', e2, hi⟩ := scale_eq hL hlt
  refine ⟨L', _, ?_, hf, hi⟩
  rw [normLayer, if_neg (by rw [hL.1]; simp), e]
  simpa using e2

/-- C152 (every layer by itself, partial): each layer of the model gets a scale of its own. -/
theorem C152_internal_partial (m : Mdl K) (hL : ∀ L ∈ m.layers, L.Scored)
    (hu : ∀ L ∈ m.layers, Usable L.Has (-99999999) 999999999) :
    ∃ m', normInternal m = some m' ∧
      List.Forall₂ (fun L L' => ∃ f, UnitScale L.Has f ∧ Image f L L') m.fcls m'.fcls ∧
      List.Forall₂ (fun L L' => ∃ f, UnitScale L.Has f ∧ Image f L L') m.cls m'.cls ∧
      List.Forall₂ (List.Forall₂ (fun L L' => ∃ f, UnitScale L.Has f ∧ Image f L L')) m.rls m'.rls := by
  have hone : ∀ L ∈ m.layers, ∃ L', normLayer L = some L' ∧ ∃ f, UnitScale L.Has f ∧ Image f L L' := by
    intro L h
    obtain ⟨L', f, e, h1, h2⟩ := C152_layer_partial L (hL L h) (hu L h)
    exact ⟨L', e, f, h1, h2⟩
  obtain ⟨a, e1, ha⟩ := each_eq _ m.fcls (fun L h => hone L (by simp [Mdl.layers, h]))
  obtain ⟨b, e2, hb⟩ := each_eq _ m.cls (fun L h => hone L (by simp [Mdl.layers, h]))
  obtain ⟨c, e3, hc⟩ := each_eq _ m.rls (fun r hr => each_eq _ r (fun L h => hone L (by
    simp only [Mdl.layers, List.mem_append, List.mem_flatten]
    exact Or.inr (Or.inr ⟨r, hr, h⟩))))
  exact ⟨⟨a, b, c⟩, by simp [normInternal, e1, e2, e3], ha, hb, hc⟩

/-- C152 (whole model, partial): all layers get the images under one scale, so scores of different layers stay
comparable. Missing: models with a layer that has no scores, and scores that are all equal, all above 9999999 or
all below -9999999 (refuted below). -/
theorem C152_global_partial (m : Mdl K) (hL : ∀ L ∈ m.layers, L.Scored)
    (hu : Usable (fun x => ∃ L ∈ m.layers, L.Has x) (-9999999) 9999999) :
    ∃ m' f, normGlobal m = some m' ∧ UnitScale (fun x => ∃ L ∈ m.layers, L.Has x) f ∧
      List.Forall₂ (Image f) m.fcls m'.fcls ∧ List.Forall₂ (Image f) m.cls m'.cls ∧
      List.Forall₂ (List.Forall₂ (Image f)) m.rls m'.rls := by
  have m1 : ∀ L ∈ m.fcls, L ∈ m.layers := fun L h => by simp [Mdl.layers, h]
  have m2 : ∀ L ∈ m.cls, L ∈ m.layers := fun L h => by simp [Mdl.layers, h]
  have m3 : ∀ L ∈ m.rls.flatten, L ∈ m.layers := fun L h => by
    simp only [Mdl.layers, List.mem_append]; exact Or.inr (Or.inr h)
  obtain ⟨t1, e1, h1⟩ := scanAll_eq m.fcls (fun L h => hL L (m1 L h)) ((-9999999 : K), 9999999)
  obtain ⟨t2, e2, h2⟩ := scanAll_eq m.cls (fun L h => hL L (m2 L h)) t1
  obtain ⟨t3, e3, h3⟩ := scanRes_eq m.rls (fun L h => hL L (m3 L h)) t2
  have hall : Scanned (fun x => ∃ L ∈ m.layers, L.Has x) ((-9999999 : K), 9999999) t3 := by
    refine h1.comp (W := fun x => (∃ L ∈ m.cls, L.Has x) ∨ ∃ L ∈ m.rls.flatten, L.Has x)
      (h2.comp h3 (fun x => Iff.rfl)) (fun x => ?_)
    simp only [Mdl.layers, List.mem_append]
    constructor
    · rintro ⟨L, h | h | h, hx⟩
      · exact Or.inl ⟨L, h, hx⟩
      · exact Or.inr (Or.inl ⟨L, h, hx⟩)
      · exact Or.inr (Or.inr ⟨L, h, hx⟩)
    · rintro (⟨L, h, hx⟩ | ⟨L, h, hx⟩ | ⟨L, h, hx⟩)
      · exact ⟨L, Or.inl h, hx⟩
      · exact ⟨L, Or.inr (Or.inl h), hx⟩
      · exact ⟨L, Or.inr (Or.inr h), hx⟩
  obtain ⟨hlt, hf⟩ := unit_of_scan hall hu.1 hu.2.1 hu.2.2
  have hone : ∀ L ∈ m.layers, ∃ L', givenMaxMin t3.1 t3.2 L = some L' ∧
      Image (fun x => (x - t3.2) / (t3.1 - t3.2)) L L' := by
    intro L h
    obtain ⟨L', e, hi⟩ := scale_eq (hL L h) hlt
    refine ⟨L', ?_, hi⟩
    rw [givenMaxMin, if_neg (by rw [(hL L h).1]; simp), e]
  obtain ⟨a, f1, ha⟩ := each_eq _ m.fcls (fun L h => hone L (m1 L h))
  obtain ⟨b, f2, hb⟩ := each_eq _ m.cls (fun L h => hone L (m2 L h))
  obtain ⟨c, f3, hc⟩ := each_eq _ m.rls (fun r hr => each_eq _ r (fun L h => hone L (m3 L
    (List.mem_flatten.2 ⟨r, hr, h⟩))))
  exact ⟨⟨a, b, c⟩, _, by simp [normGlobal, e1, e2, e3, f1, f2, f3], hf, ha, hb, hc⟩

omit [Field K] [IsStrictOrderedRing K] in
theorem scan_null {L : Layer K} (hc : 0 < L.count) (hs : L.scores = none) (s : K × K) : scan L s = none := by
  obtain ⟨n, hn⟩ : ∃ n, L.count = n + 1 := ⟨L.count - 1, by omega⟩
  unfold scan
  rw [hn, loop]
  cases loop n (fun i st => (do
    let a ← L.scores
    let x ← a.read i
    some (if x > st.1 then x else st.1, if x < st.2 then x else st.2) : Option (K × K))) s with
  | none => rfl
  | some t => simp [hs]

omit [Field K] [IsStrictOrderedRing K] in
theorem scanAll_null {l : List (Layer K)} {L : Layer K} (hL : L ∈ l) (hc : 0 < L.count) (hs : L.scores = none)
    (s : K × K) : scanAll l s = none := by
  induction l generalizing s with
  | nil => simp at hL
  | cons x l ih =>
    rw [scanAll]
    rcases List.mem_cons.1 hL with rfl | h
    · rw [scan_null hc hs]; rfl
    · cases scan x s with
      | none => rfl
      | some t => exact ih h t

omit [Field K] [IsStrictOrderedRing K] in
theorem scanRes_null {l : List (List (Layer K))} {L : Layer K} (hL : L ∈ l.flatten) (hc : 0 < L.count)
    (hs : L.scores = none) (s : K × K) : scanRes l s = none := by
  induction l generalizing s with
  | nil => simp at hL
  | cons r l ih =>
    rw [scanRes]
    rw [List.flatten_cons, List.mem_append] at hL
    rcases hL with h | h
    · rw [scanAll_null h hc hs]; rfl
    · cases scanAll r s with
      | none => rfl
      | some t => exact ih h t

omit [IsStrictOrderedRing K] in
/-- C152 (whole model, refuted): the global version reads through a null pointer for every model with a layer
without scores, pooling layers (`NO_CONVOLUTION`) included: its scan does not test the flags. -/
theorem C152_global_refuted (m : Mdl K) (L : Layer K) (hL : L ∈ m.layers) (hc : 0 < L.count)
    (hs : L.scores = none) : normGlobal m = none := by
  unfold normGlobal
  simp only [Mdl.layers, List.mem_append] at hL
  cases e1 : scanAll m.fcls ((-9999999 : K), 9999999) with
  | none => rfl
  | some t1 =>
    simp only [Option.bind_eq_bind, Option.bind_some]
    cases e2 : scanAll m.cls t1 with
    | none => rfl
    | some t2 =>
      simp only [Option.bind_some]
      rcases hL with h | h | h
      · rw [scanAll_null h hc hs] at e1; simp at e1
      · rw [scanAll_null h hc hs] at e2; simp at e2
      · rw [scanRes_null h hc hs]; rfl

omit [IsStrictOrderedRing K] in
/-- C152 (every layer by itself, refuted): a layer trained by gradient descent has no scores and is not skipped,
so the version per layer reads through a null pointer for every model that has one. -/
theorem C152_internal_refuted (m : Mdl K) (L : Layer K) (hL : L ∈ m.layers) (hc : 0 < L.count)
    (hoff : L.off = false) (hs : L.scores = none) : normInternal m = none := by
  have hn : normLayer L = none := by
    rw [normLayer, if_neg (by rw [hoff]; simp), scan_null hc hs]; rfl
  unfold normInternal
  simp only [Mdl.layers, List.mem_append, List.mem_flatten] at hL
  rcases hL with h | h | ⟨r, hr, h⟩
  · rw [each_none h hn]; rfl
  · rw [each_none h hn]
    cases each normLayer m.fcls <;> rfl
  · rw [each_none hr (each_none h hn)]
    cases each normLayer m.fcls with
    | none => rfl
    | some a => cases each normLayer m.cls <;> rfl

omit [IsStrictOrderedRing K] in
/-- C152 (one layer, refuted): when all scores of a layer are the same number between the starting values there
is no result: every score becomes 0/0. -/
theorem C152_equal_refuted (L : Layer K) (hL : L.Scored) (hc : 0 < L.count) (x : K)
    (hx : ∀ y, L.Has y → y = x) (h1 : x ≤ 999999999) (h2 : -99999999 ≤ x) : normLayer L = none := by
  obtain ⟨t, e, a1, a2, a3, a4, a5⟩ := scan_eq hL (-99999999, 999999999)
  obtain ⟨hoff, a, ha, hlen⟩ := hL
  have hxx : L.Has x := by
    have h0 : L.Has (a.get 0) := ⟨a, ha, 0, hc, rfl⟩
    rwa [hx _ h0] at h0
  have b := a1 x hxx
  dsimp only at a2 a3 a4 a5
  have t1 : t.1 = x := by
    rcases a4 with h | h
    · exact le_antisymm (by rw [h]; exact h2) b.2
    · exact hx _ h
  have t2 : t.2 = x := by
    rcases a5 with h | h
    · exact le_antisymm b.1 (by rw [h]; exact h1)
    · exact hx _ h
  rw [normLayer, if_neg (by rw [hoff]; simp), e]
  simp only [Option.bind_eq_bind, Option.bind_some, t1, t2]
  obtain ⟨n, hn⟩ : ∃ n, L.count = n + 1 := ⟨L.count - 1, by omega⟩
  unfold scale
  rw [hn, loop]
  cases loop n (fun i s => (do
    let a ← s
    let y ← a.read i
    (if x - x = 0 then none else do
      let a ← a.write i ((y - x) / (x - x))
      some (some a)) : Option (Option (Arr K)))) L.scores with
  | none => rfl
  | some s =>
    cases s with
    | none => rfl
    | some b =>
      simp only [Option.bind_eq_bind, Option.bind_some, sub_self, if_true]
      cases b.read n <;> rfl

/-- C152 (one layer, refuted): when all scores are above the starting minimum 999999999, the smallest score does
not become zero: every result is positive. -/
theorem C152_large_refuted (L L' : Layer K) (hL : L.Scored) (hbig : ∀ y, L.Has y → 999999999 < y)
    (hc : 0 < L.count) (h : normLayer L = some L') : ∀ y, L'.Has y → 0 < y := by
  obtain ⟨t, e, a1, a2, a3, a4, a5⟩ := scan_eq hL (-99999999, 999999999)
  dsimp only at a2 a3 a4 a5
  obtain ⟨hoff, a, ha, hlen⟩ := id hL
  have h0 : L.Has (a.get 0) := ⟨a, ha, 0, hc, rfl⟩
  have hlt : t.2 < t.1 := by
    have := hbig _ h0
    have := (a1 _ h0).2
    linarith
  obtain ⟨L2, e2, -, -, b, b', hb, hb', -, hv⟩ := scale_eq hL hlt
  rw [normLayer, if_neg (by rw [hoff]; simp), e] at h
  simp only [Option.bind_eq_bind, Option.bind_some] at h
  rw [e2] at h
  obtain rfl := Option.some.inj h
  rintro y ⟨c, hc', i, hi, rfl⟩
  rw [hb'] at hc'
  obtain rfl := Option.some.inj hc'
  have hcount : L2.count = L.count := by
    obtain ⟨L3, e3, h3, -⟩ := scale_eq hL hlt
    rw [e2] at e3
    rw [Option.some.inj e3]; exact h3
  rw [hv i, if_pos (by omega)]
  have hhas : L.Has (b.get i) := ⟨b, hb, i, by omega, rfl⟩
  have := hbig _ hhas
  exact div_pos (by linarith) (by linarith)

/-! ### The hypotheses are met -/

/-- Three scores 5, 1, 3. -/
def demo : Layer ℚ := ⟨3, false, some ⟨3, fun i => if i = 0 then 5 else if i = 1 then 1 else 3⟩⟩

theorem demo_scored : demo.Scored := ⟨rfl, _, rfl, le_refl _⟩

theorem demo_usable (mx mn : ℚ) (h1 : 1 ≤ mn) (h2 : mx ≤ 5) : Usable demo.Has mx mn :=
  ⟨⟨1, ⟨_, rfl, 1, by decide, rfl⟩, h1⟩, ⟨5, ⟨_, rfl, 0, by decide, rfl⟩, h2⟩,
    1, 5, ⟨_, rfl, 1, by decide, rfl⟩, ⟨_, rfl, 0, by decide, rfl⟩, by norm_num⟩

example : ∃ L' f, normLayer demo = some L' ∧ UnitScale demo.Has f ∧ Image f demo L' :=
  C152_layer_partial demo demo_scored (demo_usable _ _ (by norm_num) (by norm_num))

example : ∃ m' f, normGlobal (⟨[demo], [demo], [[demo], []]⟩ : Mdl ℚ) = some m' ∧
    List.Forall₂ (Image f) [demo] m'.fcls := by
  obtain ⟨m', f, e, -, h, -⟩ := C152_global_partial (⟨[demo], [demo], [[demo], []]⟩ : Mdl ℚ)
    (by intro L h; simp [Mdl.layers] at h; subst h; exact demo_scored)
    (by
      have : (fun x => ∃ L ∈ (⟨[demo], [demo], [[demo], []]⟩ : Mdl ℚ).layers, L.Has x) = demo.Has := by
        funext x; simp [Mdl.layers]
      rw [this]
      exact demo_usable _ _ (by norm_num) (by norm_num))
  exact ⟨m', f, e, h⟩

/-- A pooling layer next to a scored one: `NO_CONVOLUTION`, four kernel weights counted, no scores. -/
example : normGlobal (⟨[demo], [⟨4, true, none⟩], []⟩ : Mdl ℚ) = none :=
  C152_global_refuted _ ⟨4, true, none⟩ (by simp [Mdl.layers]) (by decide) rfl

/-- The version per layer skips the same pooling layer. -/
example : ∃ m', normInternal (⟨[demo], [⟨4, true, none⟩], []⟩ : Mdl ℚ) = some m' := by
  obtain ⟨L', f, e, -⟩ := C152_layer_partial demo demo_scored (demo_usable _ _ (by norm_num) (by norm_num))
  have e2 : normLayer (⟨4, true, none⟩ : Layer ℚ) = some ⟨4, true, none⟩ := rfl
  exact ⟨⟨[L'], [⟨4, true, none⟩], []⟩, by simp [normInternal, each, e, e2]⟩

example : normLayer (⟨2, false, some ⟨2, fun _ => 0⟩⟩ : Layer ℚ) = none :=
  C152_equal_refuted _ ⟨rfl, _, rfl, le_refl _⟩ (by decide) 0 (by
    rintro y ⟨a, ha, i, hi, rfl⟩
    obtain rfl := Option.some.inj ha
    rfl) (by norm_num) (by norm_num)

end LLab.ScoreNorm
