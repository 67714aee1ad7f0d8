import Verif.Net.Flat

/-!
Parameter vectors: weights-only and score copies, convolutional, recurrent and
residual layers, whole models. Property C44.
-/

namespace LLab.Flat

variable {α : Type}

/-! ### Weights and scores of fully-connected layers -/

/-- The listed weights of a fully-connected layer. -/
def flatWFcl (f : Fcl α) : List α :=
  if f.only then [] else f.arr.w ++ (f.arr.nw ++ (f.arr.gamma ++ f.arr.beta))

theorem putWFcl_writes (f : Fcl α) (h : f.Ok) : WritesAt 0 (fun s v => putWFcl f s v) (flatWFcl f) := by
  unfold putWFcl flatWFcl
  cases ho : f.only
  · simp only [Bool.false_eq_true, if_false]
    refine (WritesAt.put 0 0 _ _ rfl h.w).bind ?_
    refine (WritesAt.ite f.noisy (fun c => WritesAt.put _ (f.input * f.output) _ _ (by rw [h.w]; omega) (len_of h.nw c))
      (fun c => nil_of h.nw c)).bind ?_
    have hm1 : mult f * f.input * f.output = f.arr.w.length + f.arr.nw.length := by
      rw [h.w, h.nw]
      unfold mult
      cases f.noisy <;> (simp; try ring)
    refine WritesAt.ite f.norm (fun c => ?_) (fun c => by rw [nil_of h.gamma c, nil_of h.beta c]; rfl)
    refine (WritesAt.put _ (mult f * f.input * f.output) _ _ (by omega) (len_of h.gamma c)).bind ?_
    exact WritesAt.put _ (mult f * f.input * f.output + f.dim) _ _ (by
      have := len_of h.gamma c
      omega) (len_of h.beta c)
  · exact WritesAt.nil 0

theorem getWFcl_reads (f g : Fcl α) (hf : f.Ok) (hg : g.Ok) (hs : SameFcl f g) :
    ReadsAt 0 (fun s v => getWFcl g s v) (flatWFcl f)
      (if f.only then g else { g with arr := ⟨f.arr.w, f.arr.nw, g.arr.b, g.arr.nb, f.arr.gamma, f.arr.beta⟩ }) := by
  unfold getWFcl flatWFcl
  rw [hs.only]
  by_cases ho : g.only = true
  · simp only [if_pos ho]
    exact ReadsAt.pure 0 g
  · simp only [if_neg ho]
    have hw : f.arr.w.length = g.input * g.output := by rw [hf.w, hs.input, hs.output]
    have hnw := hf.nw
    have hga := hf.gamma
    have hbe := hf.beta
    rw [hs.noisy, hs.input, hs.output] at hnw
    rw [hs.norm, hs.dim] at hga hbe
    refine (ReadsAt.get 0 0 _ f.arr.w _ rfl hw hg.w).bind ?_
    refine (ReadsAt.ite (a := f.arr.nw) (x := f.arr.nw) g.noisy
      (fun c => ReadsAt.get _ (g.input * g.output) _ _ _ (by omega) (len_of hnw c) (len_of hg.nw c))
      (fun c => by rw [nil_of hnw c, nil_of hg.nw c]; exact ReadsAt.pure _ _)).bind ?_
    have hm1 : mult g * g.input * g.output = f.arr.w.length + f.arr.nw.length := by
      rw [hw, hnw]
      unfold mult
      cases g.noisy <;> (simp; try ring)
    refine ReadsAt.ite g.norm (fun c => ?_) (fun c => ?_)
    · refine (ReadsAt.get _ (mult g * g.input * g.output) _ f.arr.gamma _ (by omega) (len_of hga c)
        (len_of hg.gamma c)).bind ?_
      have h1 := (ReadsAt.get (0 + f.arr.w.length + f.arr.nw.length + f.arr.gamma.length)
        (mult g * g.input * g.output + g.dim) _ f.arr.beta g.arr.beta (by
          have := len_of hga c
          omega) (len_of hbe c) (len_of hg.beta c)).bind
        (q := fun beta _ _ => some { g with arr := ⟨f.arr.w, f.arr.nw, g.arr.b, g.arr.nb, f.arr.gamma, beta⟩ }) (ReadsAt.pure _ _)
      rw [List.append_nil] at h1
      exact h1
    · rw [nil_of hga c, nil_of hbe c, nil_of hg.gamma c, nil_of hg.beta c]
      exact ReadsAt.pure _ _

/-- The listed scores of a fully-connected layer. -/
def flatSFcl (f : Fcl α) : List α := if !f.edge || f.only then [] else f.scores

theorem putSFcl_writes (f : Fcl α) (h : f.Ok) : WritesAt 0 (fun s v => putSFcl f s v) (flatSFcl f) := by
  unfold putSFcl flatSFcl
  by_cases hc : (!f.edge || f.only) = true
  · simp only [if_pos hc]
    exact WritesAt.nil 0
  · simp only [if_neg hc]
    have he : f.edge = true := by revert hc; cases f.edge <;> simp
    exact WritesAt.put 0 0 _ _ rfl (len_of h.scores he)

theorem getSFcl_reads (f g : Fcl α) (hf : f.Ok) (hg : g.Ok) (hs : SameFcl f g) :
    ReadsAt 0 (fun s v => getSFcl g s v) (flatSFcl f) (if !f.edge || f.only then g else { g with scores := f.scores }) := by
  unfold getSFcl flatSFcl
  rw [hs.only, hs.edge]
  by_cases hc : (!g.edge || g.only) = true
  · simp only [if_pos hc]
    exact ReadsAt.pure 0 g
  · simp only [if_neg hc]
    have he : g.edge = true := by revert hc; cases g.edge <;> simp
    have hsc := hf.scores
    rw [hs.edge, hs.input, hs.output] at hsc
    have h1 := (ReadsAt.get 0 0 _ f.scores g.scores rfl (len_of hsc he) (len_of hg.scores he)).bind
      (q := fun sc _ _ => some { g with scores := sc }) (ReadsAt.pure _ _)
    rw [List.append_nil] at h1
    exact h1

/-! ### Convolutional layers -/

/-- The listed parameters of a convolutional layer. -/
def flatCl (f : Cl α) : List α :=
  if !f.conv then [] else f.kernels.flatten ++ (f.biases ++ (f.gamma.flatten ++ f.beta.flatten))

/-- The listed weights of a convolutional layer. -/
def flatWCl (f : Cl α) : List α :=
  if !f.conv then [] else f.kernels.flatten ++ (f.gamma.flatten ++ f.beta.flatten)

/-- The listed scores of a convolutional layer. -/
def flatSCl (f : Cl α) : List α := if !f.edge then [] else f.scores

/-- Two convolutional layers of the same shape. -/
structure SameCl (f g : Cl α) : Prop where
  n : f.n = g.n
  ks : f.ks = g.ks
  groups : f.groups = g.groups
  dim : f.dim = g.dim
  conv : f.conv = g.conv
  norm : f.norm = g.norm
  edge : f.edge = g.edge

theorem rows_nil {a : List (List α)} {c : Bool} {n : Nat} (h : a.length = if c then n else 0) (hc : c = false) : a = [] := nil_of h hc

theorem putCl_writes (f : Cl α) (h : f.Ok) : WritesAt 0 (fun s v => putCl f s v) (flatCl f) := by
  unfold putCl flatCl
  by_cases hc : (!f.conv) = true
  · simp only [if_pos hc]
    exact WritesAt.nil 0
  · simp only [if_neg hc]
    have hc : f.conv = true := by simpa using hc
    have hk := flatten_length _ _ h.kernels.2
    rw [len_of h.kernels.1 hc] at hk
    have hb := len_of h.biases hc
    refine (WritesAt.rows 0 0 f.ks f.ks 0 _ (by omega) rfl h.kernels.2).bind ?_
    refine (WritesAt.put _ (f.n * f.ks) _ _ (by omega) hb).bind ?_
    refine WritesAt.ite f.norm (fun c => ?_) (fun c => by rw [rows_nil h.gamma.1 c, rows_nil h.beta.1 c]; rfl)
    have hg := flatten_length _ _ h.gamma.2
    rw [len_of h.gamma.1 c] at hg
    refine (WritesAt.rows _ (f.n * f.ks + f.n) f.dim f.dim 0 _ (by omega) rfl h.gamma.2).bind ?_
    exact WritesAt.rows _ (f.n * f.ks + f.n) f.dim f.dim f.groups _ (by omega) rfl h.beta.2

theorem same_rows {a b : List (List α)} {n m m' : Nat} (ha : a.length = m ∧ ∀ k ∈ a, k.length = n)
    (hb : b.length = m' ∧ ∀ k ∈ b, k.length = n) (hm : m = m') : SameRows a b n :=
  ⟨by rw [ha.1, hb.1, hm], ha.2, hb.2⟩

theorem getCl_reads (f g : Cl α) (hf : f.Ok) (hg : g.Ok) (hs : SameCl f g) :
    ReadsAt 0 (fun s v => getCl g s v) (flatCl f)
      (if !f.conv then g else { g with kernels := f.kernels, biases := f.biases, gamma := f.gamma, beta := f.beta }) := by
  unfold getCl flatCl
  rw [hs.conv]
  by_cases hc : (!g.conv) = true
  · simp only [if_pos hc]
    exact ReadsAt.pure 0 g
  · simp only [if_neg hc]
    have hc : g.conv = true := by simpa using hc
    have h1 := hf.kernels
    have h2 := hf.biases
    have h3 := hf.gamma
    have h4 := hf.beta
    rw [hs.conv, hs.n, hs.ks] at h1
    rw [hs.conv, hs.n] at h2
    rw [hs.norm, hs.groups, hs.dim] at h3 h4
    have hk := flatten_length _ _ h1.2
    rw [len_of h1.1 hc] at hk
    have hb := len_of h2 hc
    refine (ReadsAt.rows 0 0 g.ks g.ks 0 _ _ (by omega) rfl (same_rows h1 hg.kernels rfl)).bind ?_
    refine (ReadsAt.get _ (g.n * g.ks) _ f.biases _ (by omega) hb (len_of hg.biases hc)).bind ?_
    refine ReadsAt.ite g.norm (fun c => ?_) (fun c => ?_)
    · have hga := flatten_length _ _ h3.2
      rw [len_of h3.1 c] at hga
      refine (ReadsAt.rows _ (g.n * g.ks + g.n) g.dim g.dim 0 _ _ (by omega) rfl (same_rows h3 hg.gamma rfl)).bind ?_
      have h := (ReadsAt.rows (0 + f.kernels.flatten.length + f.biases.length + f.gamma.flatten.length) (g.n * g.ks + g.n) g.dim g.dim
        g.groups f.beta g.beta (by omega) rfl (same_rows h4 hg.beta rfl)).bind
        (q := fun beta _ _ => some { g with kernels := f.kernels, biases := f.biases, gamma := f.gamma, beta := beta }) (ReadsAt.pure _ _)
      rw [List.append_nil] at h
      exact h
    · have e : ({ g with kernels := f.kernels, biases := f.biases, gamma := f.gamma, beta := f.beta } : Cl α) =
          { g with kernels := f.kernels, biases := f.biases } :=
        Cl.ext rfl rfl rfl rfl rfl rfl rfl rfl rfl (by rw [rows_nil h3.1 c, rows_nil hg.gamma.1 c])
          (by rw [rows_nil h4.1 c, rows_nil hg.beta.1 c]) rfl
      rw [e, rows_nil h3.1 c, rows_nil h4.1 c]
      exact ReadsAt.pure _ _

theorem putWCl_writes (f : Cl α) (h : f.Ok) : WritesAt 0 (fun s v => putWCl f s v) (flatWCl f) := by
  unfold putWCl flatWCl
  by_cases hc : (!f.conv) = true
  · simp only [if_pos hc]
    exact WritesAt.nil 0
  · simp only [if_neg hc]
    have hc : f.conv = true := by simpa using hc
    have hk := flatten_length _ _ h.kernels.2
    rw [len_of h.kernels.1 hc] at hk
    refine (WritesAt.rows 0 0 f.ks f.ks 0 _ (by omega) rfl h.kernels.2).bind ?_
    refine WritesAt.ite f.norm (fun c => ?_) (fun c => by rw [rows_nil h.gamma.1 c, rows_nil h.beta.1 c]; rfl)
    have hg := flatten_length _ _ h.gamma.2
    rw [len_of h.gamma.1 c] at hg
    refine (WritesAt.rows _ (f.n * f.ks) f.dim f.dim 0 _ (by omega) rfl h.gamma.2).bind ?_
    exact WritesAt.rows _ (f.n * f.ks) f.dim f.dim f.groups _ (by omega) rfl h.beta.2

theorem getWCl_reads (f g : Cl α) (hf : f.Ok) (hg : g.Ok) (hs : SameCl f g) :
    ReadsAt 0 (fun s v => getWCl g s v) (flatWCl f)
      (if !f.conv then g else { g with kernels := f.kernels, gamma := f.gamma, beta := f.beta }) := by
  unfold getWCl flatWCl
  rw [hs.conv]
  by_cases hc : (!g.conv) = true
  · simp only [if_pos hc]
    exact ReadsAt.pure 0 g
  · simp only [if_neg hc]
    have hc : g.conv = true := by simpa using hc
    have h1 := hf.kernels
    have h3 := hf.gamma
    have h4 := hf.beta
    rw [hs.conv, hs.n, hs.ks] at h1
    rw [hs.norm, hs.groups, hs.dim] at h3 h4
    have hk := flatten_length _ _ h1.2
    rw [len_of h1.1 hc] at hk
    refine (ReadsAt.rows 0 0 g.ks g.ks 0 _ _ (by omega) rfl (same_rows h1 hg.kernels rfl)).bind ?_
    refine ReadsAt.ite g.norm (fun c => ?_) (fun c => ?_)
    · have hga := flatten_length _ _ h3.2
      rw [len_of h3.1 c] at hga
      refine (ReadsAt.rows _ (g.n * g.ks) g.dim g.dim 0 _ _ (by omega) rfl (same_rows h3 hg.gamma rfl)).bind ?_
      have h := (ReadsAt.rows (0 + f.kernels.flatten.length + f.gamma.flatten.length) (g.n * g.ks) g.dim g.dim
        g.groups f.beta g.beta (by omega) rfl (same_rows h4 hg.beta rfl)).bind
        (q := fun beta _ _ => some { g with kernels := f.kernels, gamma := f.gamma, beta := beta }) (ReadsAt.pure _ _)
      rw [List.append_nil] at h
      exact h
    · have e : ({ g with kernels := f.kernels, gamma := f.gamma, beta := f.beta } : Cl α) =
          { g with kernels := f.kernels } :=
        Cl.ext rfl rfl rfl rfl rfl rfl rfl rfl rfl (by rw [rows_nil h3.1 c, rows_nil hg.gamma.1 c])
          (by rw [rows_nil h4.1 c, rows_nil hg.beta.1 c]) rfl
      rw [e, rows_nil h3.1 c, rows_nil h4.1 c]
      exact ReadsAt.pure _ _

theorem putSCl_writes (f : Cl α) (h : f.Ok) : WritesAt 0 (fun s v => putSCl f s v) (flatSCl f) := by
  unfold putSCl flatSCl
  by_cases hc : (!f.edge) = true
  · simp only [if_pos hc]
    exact WritesAt.nil 0
  · simp only [if_neg hc]
    exact WritesAt.put 0 0 _ _ rfl (len_of h.scores (by simpa using hc))

theorem getSCl_reads (f g : Cl α) (hf : f.Ok) (hg : g.Ok) (hs : SameCl f g) :
    ReadsAt 0 (fun s v => getSCl g s v) (flatSCl f) (if !f.edge then g else { g with scores := f.scores }) := by
  unfold getSCl flatSCl
  rw [hs.edge]
  by_cases hc : (!g.edge) = true
  · simp only [if_pos hc]
    exact ReadsAt.pure 0 g
  · simp only [if_neg hc]
    have he : g.edge = true := by simpa using hc
    have hsc := hf.scores
    rw [hs.edge, hs.n, hs.ks] at hsc
    have h1 := (ReadsAt.get 0 0 _ f.scores g.scores rfl (len_of hsc he) (len_of hg.scores he)).bind
      (q := fun sc _ _ => some { g with scores := sc }) (ReadsAt.pure _ _)
    rw [List.append_nil] at h1
    exact h1

/-! ### Recurrent layers -/

/-- The listed parameters of an LSTM layer. -/
def flatLstm (f : Lstm α) : List α :=
  f.w.flatten ++ (f.u.flatten ++ (f.b.flatten ++ (f.bns.map fun p => p.1 ++ p.2).flatten))

/-- Two LSTM layers of the same shape. -/
structure SameLstm (f g : Lstm α) : Prop where
  inp : f.inp = g.inp
  out : f.out = g.out
  groups : f.groups = g.groups
  dim : f.dim = g.dim
  norm : f.norm = g.norm

theorem WritesAt.pairs (off o dim i : Nat) (rows : List (List α × List α)) (ho : o + i * 2 * dim = off)
    (hr : ∀ r ∈ rows, r.1.length = dim ∧ r.2.length = dim) :
    WritesAt off (fun s v => putPairs (s + o) dim rows i v) (rows.map fun p => p.1 ++ p.2).flatten := by
  induction rows generalizing off i with
  | nil => exact WritesAt.nil off
  | cons r rs ih =>
    unfold putPairs
    obtain ⟨h1, h2⟩ := hr r (by simp)
    rw [List.map_cons, List.flatten_cons, List.append_assoc]
    refine WritesAt.bind (p := fun s v => LLab.Flat.put v (s + o + i * 2 * dim) r.1 dim)
      (q := fun s v => (LLab.Flat.put v (s + o + (i * 2 * dim + dim)) r.2 dim).bind (putPairs (s + o) dim rs (i + 1))) ?_ ?_
    · exact (WritesAt.put off (o + i * 2 * dim) dim r.1 ho h1).congr (fun s v => by rw [Nat.add_assoc]) rfl
    · refine WritesAt.bind (p := fun s v => LLab.Flat.put v (s + o + (i * 2 * dim + dim)) r.2 dim)
        (q := fun s v => putPairs (s + o) dim rs (i + 1) v) ?_ ?_
      · exact (WritesAt.put _ (o + (i * 2 * dim + dim)) dim r.2 (by omega) h2).congr (fun s v => by rw [Nat.add_assoc]) rfl
      · refine ih _ (i + 1) ?_ fun x hx => hr x (by simp [hx])
        rw [h1, h2, ← ho]
        ring

theorem ReadsAt.pairs (off o dim i : Nat) (rows d : List (List α × List α)) (ho : o + i * 2 * dim = off)
    (hl : rows.length = d.length) (hr : ∀ r ∈ rows, r.1.length = dim ∧ r.2.length = dim)
    (hd : ∀ r ∈ d, r.1.length = dim ∧ r.2.length = dim) :
    ReadsAt off (fun s v => getPairs v (s + o) dim d i) (rows.map fun p => p.1 ++ p.2).flatten rows := by
  induction rows generalizing off i d with
  | nil =>
    have : d = [] := List.length_eq_zero_iff.1 hl.symm
    subst this
    exact ReadsAt.pure off []
  | cons r rs ih =>
    cases d with
    | nil => simp at hl
    | cons y ys =>
      unfold getPairs
      obtain ⟨h1, h2⟩ := hr r (by simp)
      obtain ⟨d1, d2⟩ := hd y (by simp)
      rw [List.map_cons, List.flatten_cons, List.append_assoc]
      refine ReadsAt.bind (p := fun s v => LLab.Flat.get v (s + o + i * 2 * dim) y.1 dim) (x := r.1)
        (q := fun g s v => (LLab.Flat.get v (s + o + (i * 2 * dim + dim)) y.2 dim).bind fun b =>
          (getPairs v (s + o) dim ys (i + 1)).bind fun rs => some ((g, b) :: rs)) ?_ ?_
      · exact (ReadsAt.get off (o + i * 2 * dim) dim r.1 y.1 ho h1 d1).congr (fun s v => by rw [Nat.add_assoc]) rfl
      · refine ReadsAt.bind (p := fun s v => LLab.Flat.get v (s + o + (i * 2 * dim + dim)) y.2 dim) (x := r.2)
          (q := fun b s v => (getPairs v (s + o) dim ys (i + 1)).bind fun rs => some ((r.1, b) :: rs)) ?_ ?_
        · exact (ReadsAt.get _ (o + (i * 2 * dim + dim)) dim r.2 y.2 (by omega) h2 d2).congr (fun s v => by rw [Nat.add_assoc]) rfl
        · have h := (ih (off + r.1.length + r.2.length) (i + 1) ys (by rw [h1, h2, ← ho]; ring) (by simpa using hl)
            (fun x hx => hr x (by simp [hx])) (fun x hx => hd x (by simp [hx]))).bind
            (q := fun rs _ _ => some ((r.1, r.2) :: rs)) (ReadsAt.pure _ _)
          rw [List.append_nil] at h
          exact h

theorem putLstm_writes (f : Lstm α) (h : f.Ok) : WritesAt 0 (fun s v => putLstm f s v) (flatLstm f) := by
  unfold putLstm flatLstm
  have hw := flatten_length _ _ h.w.2
  have hu := flatten_length _ _ h.u.2
  have hb := flatten_length _ _ h.b.2
  rw [h.w.1] at hw
  rw [h.u.1] at hu
  rw [h.b.1] at hb
  refine (WritesAt.rows 0 0 _ _ 0 _ (by omega) rfl h.w.2).bind ?_
  refine (WritesAt.rows _ (4 * f.inp * f.out) _ _ 0 _ (by rw [hw]; ring) rfl h.u.2).bind ?_
  refine (WritesAt.rows _ (4 * (f.inp * f.out + f.out * f.out)) _ _ 0 _ (by rw [hw, hu]; ring) rfl h.b.2).bind ?_
  refine WritesAt.ite f.norm (fun c => ?_) (fun c => by rw [nil_of h.bns.1 c]; rfl)
  exact WritesAt.pairs _ (4 * (f.inp * f.out + f.out * f.out + f.out)) _ 0 _ (by rw [hw, hu, hb]; ring) h.bns.2

theorem getLstm_reads (f g : Lstm α) (hf : f.Ok) (hg : g.Ok) (hs : SameLstm f g) :
    ReadsAt 0 (fun s v => getLstm g s v) (flatLstm f) f := by
  unfold getLstm flatLstm
  have h1 := hf.w
  have h2 := hf.u
  have h3 := hf.b
  have h4 := hf.bns
  rw [hs.inp, hs.out] at h1
  rw [hs.out] at h2 h3
  rw [hs.norm, hs.groups, hs.dim] at h4
  have hw := flatten_length _ _ h1.2
  have hu := flatten_length _ _ h2.2
  have hb := flatten_length _ _ h3.2
  rw [h1.1] at hw
  rw [h2.1] at hu
  rw [h3.1] at hb
  refine (ReadsAt.rows 0 0 _ _ 0 f.w _ (by omega) rfl (same_rows h1 hg.w rfl)).bind ?_
  refine (ReadsAt.rows _ (4 * g.inp * g.out) _ _ 0 f.u _ (by rw [hw]; ring) rfl (same_rows h2 hg.u rfl)).bind ?_
  refine (ReadsAt.rows _ (4 * (g.inp * g.out + g.out * g.out)) _ _ 0 f.b _ (by rw [hw, hu]; ring) rfl (same_rows h3 hg.b rfl)).bind ?_
  refine ReadsAt.ite g.norm (fun c => ?_) (fun c => ?_)
  · have h := (ReadsAt.pairs (0 + f.w.flatten.length + f.u.flatten.length + f.b.flatten.length)
      (4 * (g.inp * g.out + g.out * g.out + g.out)) g.dim 0 f.bns g.bns (by rw [hw, hu, hb]; ring) (by rw [h4.1, hg.bns.1])
      h4.2 hg.bns.2).bind (q := fun bns _ _ => some { g with w := f.w, u := f.u, b := f.b, bns := bns }) (ReadsAt.pure _ _)
    rw [List.append_nil] at h
    have e : ({ g with w := f.w, u := f.u, b := f.b, bns := f.bns } : Lstm α) = f :=
      Lstm.ext hs.inp.symm hs.out.symm hs.groups.symm hs.dim.symm hs.norm.symm rfl rfl rfl rfl
    rw [e] at h
    exact h
  · have e : f = { g with w := f.w, u := f.u, b := f.b } :=
      Lstm.ext hs.inp hs.out hs.groups hs.dim hs.norm rfl rfl rfl (by rw [nil_of h4.1 c, nil_of hg.bns.1 c])
    rw [nil_of h4.1 c]
    intro s pre post _
    exact congrArg some e.symm

/-! ### Lists and models -/

/-- The sizes of a list of layers listed one after the other. -/
theorem putList_writes {L : Type} (size : L → Nat) (flat : L → List α) (putL : L → Nat → List α → Option (List α)) (ls : List L)
    (h : ∀ l ∈ ls, WritesAt 0 (fun s v => putL l s v) (flat l)) (hl : ∀ l ∈ ls, (flat l).length = size l)
    (s : Nat) (pre mid post : List α) (hp : pre.length = s) (hm : mid.length = (ls.flatMap flat).length) :
    putList size putL ls s (pre ++ (mid ++ post)) = some (pre ++ (ls.flatMap flat ++ post), s + sizeList size ls) := by
  induction ls generalizing s pre mid with
  | nil =>
    have : mid = [] := List.length_eq_zero_iff.1 hm
    subst this
    rfl
  | cons l ls ih =>
    rw [List.flatMap_cons, List.length_append] at hm
    have l1 : (mid.take (flat l).length).length = (flat l).length := by rw [List.length_take]; omega
    have l2 : (mid.drop (flat l).length).length = (ls.flatMap flat).length := by rw [List.length_drop]; omega
    have h1 := h l (by simp) s pre (mid.take (flat l).length) (mid.drop (flat l).length ++ post) (by omega) l1
    rw [← List.append_assoc (mid.take _), List.take_append_drop] at h1
    unfold putList
    refine (bind_some_of h1).trans ?_
    have h2 := ih (fun x hx => h x (by simp [hx])) (fun x hx => hl x (by simp [hx])) (s + size l) (pre ++ flat l)
      (mid.drop (flat l).length) (by rw [List.length_append, hp, hl l (by simp)]) l2
    rw [List.append_assoc] at h2
    rw [h2]
    simp only [sizeList, List.map_cons, List.sum_cons, List.flatMap_cons, List.append_assoc, Nat.add_assoc]

theorem getList_reads {L : Type} (size : L → Nat) (flat : L → List α) (getL : L → Nat → List α → Option L) (copied : L → L → L)
    (v : List α) (ls gs : List L)
    (h : List.Forall₂ (fun f g => ReadsAt 0 (fun s v => getL g s v) (flat f) (copied f g) ∧ (flat f).length = size g) ls gs)
    (s : Nat) (pre post : List α) (hp : pre.length = s) (hv : v = pre ++ (ls.flatMap flat ++ post)) :
    getList size getL v gs s = some (List.zipWith copied ls gs, s + sizeList size gs) := by
  induction h generalizing s pre with
  | nil => rfl
  | @cons f g ls gs hfg _ ih =>
    obtain ⟨h1, h2⟩ := hfg
    unfold getList
    have e1 : getL g s v = some (copied f g) := by
      rw [hv, List.flatMap_cons, List.append_assoc]
      exact h1 s pre _ (by omega)
    refine (bind_some_of e1).trans ?_
    have e2 := ih (s + size g) (pre ++ flat f) (by rw [List.length_append, hp, h2])
      (by rw [hv, List.flatMap_cons, List.append_assoc, List.append_assoc])
    refine (bind_some_of e2).trans ?_
    simp only [sizeList, List.map_cons, List.sum_cons, Nat.add_assoc, List.zipWith_cons_cons]

/-- The values of a model listed by the layer functions `ff` and `fc`. -/
def flatModel (ff : Fcl α → List α) (fc : Cl α → List α) (m : Model α) : List α :=
  m.fcls.flatMap ff ++ (m.cls.flatMap fc ++ m.rls.flatMap fun cls => cls.flatMap fc)

/-- The layers have the sizes their constructors allocate. -/
structure Model.Ok (m : Model α) : Prop where
  fcls : ∀ f ∈ m.fcls, f.Ok
  cls : ∀ c ∈ m.cls, c.Ok
  rls : ∀ r ∈ m.rls, ∀ c ∈ r, c.Ok

/-- Two models of the same shape. -/
structure SameModel (m g : Model α) : Prop where
  fcls : List.Forall₂ SameFcl m.fcls g.fcls
  cls : List.Forall₂ SameCl m.cls g.cls
  rls : List.Forall₂ (List.Forall₂ SameCl) m.rls g.rls

/-- The model `g` with the values of `m` for the copied arrays. -/
def copiedModel (cf : Fcl α → Fcl α → Fcl α) (cc : Cl α → Cl α → Cl α) (m g : Model α) : Model α :=
  ⟨List.zipWith cf m.fcls g.fcls, List.zipWith cc m.cls g.cls, List.zipWith (List.zipWith cc) m.rls g.rls⟩

theorem flatMap_length {L : Type} (size : L → Nat) (flat : L → List α) (ls : List L) (h : ∀ l ∈ ls, (flat l).length = size l) :
    (ls.flatMap flat).length = sizeList size ls := by
  unfold sizeList
  induction ls with
  | nil => rfl
  | cons l ls ih =>
    rw [List.flatMap_cons, List.length_append, h l (by simp), ih fun x hx => h x (by simp [hx]), List.map_cons, List.sum_cons]

theorem putModel_spec (sf : Fcl α → Nat) (sc : Cl α → Nat) (pf : Fcl α → Nat → List α → Option (List α))
    (pc : Cl α → Nat → List α → Option (List α)) (ff : Fcl α → List α) (fc : Cl α → List α)
    (hpf : ∀ f : Fcl α, f.Ok → WritesAt 0 (fun s v => pf f s v) (ff f)) (hpc : ∀ c : Cl α, c.Ok → WritesAt 0 (fun s v => pc c s v) (fc c))
    (hsf : ∀ f : Fcl α, f.Ok → (ff f).length = sf f) (hsc : ∀ c : Cl α, c.Ok → (fc c).length = sc c) (m : Model α) (hm : m.Ok)
    (pre mid post : List α) (hl : mid.length = (flatModel ff fc m).length) :
    putModel sf sc pf pc m pre.length (pre ++ (mid ++ post)) = some (pre ++ (flatModel ff fc m ++ post)) := by
  unfold flatModel at hl ⊢
  rw [List.length_append, List.length_append] at hl
  obtain ⟨m1, m2, m3, rfl, l1, l2, l3⟩ : ∃ m1 m2 m3, mid = m1 ++ (m2 ++ m3) ∧ m1.length = (m.fcls.flatMap ff).length ∧
      m2.length = (m.cls.flatMap fc).length ∧ m3.length = (m.rls.flatMap fun cls => cls.flatMap fc).length := by
    refine ⟨mid.take (m.fcls.flatMap ff).length, (mid.drop (m.fcls.flatMap ff).length).take (m.cls.flatMap fc).length,
      (mid.drop (m.fcls.flatMap ff).length).drop (m.cls.flatMap fc).length, by rw [List.take_append_drop, List.take_append_drop], ?_, ?_, ?_⟩
    · rw [List.length_take]; omega
    · rw [List.length_take, List.length_drop]; omega
    · rw [List.length_drop, List.length_drop]; omega
  have s1 := flatMap_length sf ff m.fcls fun f hf => hsf f (hm.fcls f hf)
  have s2 := flatMap_length sc fc m.cls fun f hf => hsc f (hm.cls f hf)
  unfold putModel
  have h1 := putList_writes sf ff pf m.fcls (fun f hf => hpf f (hm.fcls f hf)) (fun f hf => hsf f (hm.fcls f hf)) pre.length pre m1
    (m2 ++ (m3 ++ post)) rfl l1
  have h2 := putList_writes sc fc pc m.cls (fun f hf => hpc f (hm.cls f hf)) (fun f hf => hsc f (hm.cls f hf))
    (pre.length + sizeList sf m.fcls) (pre ++ m.fcls.flatMap ff) m2 (m3 ++ post) (by rw [List.length_append, s1]) l2
  have h3 := putList_writes (sizeList sc) (fun cls : List (Cl α) => cls.flatMap fc)
    (fun cls s v => (putList sc pc cls s v).bind fun r => some r.1) m.rls (fun cls hcls => by
      intro s pre mid post hp hmid
      have h := putList_writes sc fc pc cls (fun f hf => hpc f (hm.rls cls hcls f hf)) (fun f hf => hsc f (hm.rls cls hcls f hf)) s pre mid
        post (by omega) hmid
      exact (bind_some_of h).trans rfl)
    (fun cls hcls => flatMap_length sc fc cls fun f hf => hsc f (hm.rls cls hcls f hf))
    (pre.length + sizeList sf m.fcls + sizeList sc m.cls) (pre ++ m.fcls.flatMap ff ++ m.cls.flatMap fc) m3 post
    (by rw [List.length_append, List.length_append, s1, s2]) l3
  simp only [List.append_assoc] at h1 h2 h3 ⊢
  refine (bind_some_of h1).trans ?_
  refine (bind_some_of h2).trans ?_
  exact (bind_some_of h3).trans rfl

theorem forall2_and {L : Type} {R : L → L → Prop} {P : L → Prop} {Q : L → L → Prop} {ls gs : List L} (h : List.Forall₂ R ls gs)
    (hl : ∀ l ∈ ls, P l) (hg : ∀ g ∈ gs, P g) (hq : ∀ l g, P l → P g → R l g → Q l g) : List.Forall₂ Q ls gs := by
  induction h with
  | nil => exact .nil
  | cons h _ ih =>
    exact .cons (hq _ _ (hl _ (by simp)) (hg _ (by simp)) h) (ih (fun x hx => hl x (by simp [hx])) fun x hx => hg x (by simp [hx]))

theorem getModel_spec (sf : Fcl α → Nat) (sc : Cl α → Nat) (gf : Fcl α → Nat → List α → Option (Fcl α))
    (gc : Cl α → Nat → List α → Option (Cl α)) (ff : Fcl α → List α) (fc : Cl α → List α)
    (cf : Fcl α → Fcl α → Fcl α) (cc : Cl α → Cl α → Cl α)
    (hgf : ∀ f g : Fcl α, f.Ok → g.Ok → SameFcl f g → ReadsAt 0 (fun s v => gf g s v) (ff f) (cf f g) ∧ (ff f).length = sf g)
    (hgc : ∀ f g : Cl α, f.Ok → g.Ok → SameCl f g → ReadsAt 0 (fun s v => gc g s v) (fc f) (cc f g) ∧ (fc f).length = sc g)
    (m g : Model α) (hm : m.Ok) (hg : g.Ok) (hs : SameModel m g) (pre post : List α) :
    getModel sf sc gf gc g pre.length (pre ++ (flatModel ff fc m ++ post)) = some (copiedModel cf cc m g) := by
  unfold getModel flatModel
  have f1 := forall2_and hs.fcls hm.fcls hg.fcls hgf
  have f2 := forall2_and hs.cls hm.cls hg.cls hgc
  have f3 : List.Forall₂ (fun f g : List (Cl α) => ReadsAt 0 (fun s v => (getList sc gc v g s).bind fun r => some r.1)
      (f.flatMap fc) (List.zipWith cc f g) ∧ (f.flatMap fc).length = sizeList sc g) m.rls g.rls := by
    refine forall2_and hs.rls hm.rls hg.rls fun l r hl hr hlr => ?_
    have f4 := forall2_and hlr hl hr hgc
    constructor
    · intro s pre post hp
      have := getList_reads sc fc gc cc _ l r f4 s pre post (by omega) rfl
      exact (bind_some_of this).trans rfl
    · unfold sizeList
      clear hlr hl hr
      induction f4 with
      | nil => rfl
      | cons h _ ih => rw [List.flatMap_cons, List.length_append, ih, h.2, List.map_cons, List.sum_cons]
  have len : ∀ {L : Type} (size : L → Nat) (flat : L → List α) (ls gs : List L) (R : L → L → Prop)
      (_ : List.Forall₂ (fun f g => R f g ∧ (flat f).length = size g) ls gs), (ls.flatMap flat).length = sizeList size gs := by
    intro L size flat ls gs R h
    unfold sizeList
    induction h with
    | nil => rfl
    | cons h _ ih => rw [List.flatMap_cons, List.length_append, ih, h.2, List.map_cons, List.sum_cons]
  have s1 := len sf ff _ _ _ f1
  have s2 := len sc fc _ _ _ f2
  have h1 := getList_reads sf ff gf cf _ m.fcls g.fcls f1 pre.length pre
    (m.cls.flatMap fc ++ ((m.rls.flatMap fun cls => cls.flatMap fc) ++ post)) rfl rfl
  have h2 := getList_reads sc fc gc cc _ m.cls g.cls f2 (pre.length + sizeList sf g.fcls) (pre ++ m.fcls.flatMap ff)
    ((m.rls.flatMap fun cls => cls.flatMap fc) ++ post) (by rw [List.length_append, s1]) rfl
  have h3 := getList_reads (sizeList sc) (fun cls : List (Cl α) => cls.flatMap fc)
    (fun cls s v => (getList sc gc v cls s).bind fun r => some r.1) (List.zipWith cc) _ m.rls g.rls f3
    (pre.length + sizeList sf g.fcls + sizeList sc g.cls) (pre ++ m.fcls.flatMap ff ++ m.cls.flatMap fc) post
    (by rw [List.length_append, List.length_append, s1, s2]) rfl
  simp only [List.append_assoc] at h1 h2 h3 ⊢
  refine (bind_some_of h1).trans ?_
  refine (bind_some_of h2).trans ?_
  exact (bind_some_of h3).trans rfl

/-! ### Sizes -/

theorem sizeFcl_eq (f : Fcl α) (h : f.Ok) : (flatFcl f).length = sizeFcl f := by
  unfold flatFcl sizeFcl
  cases f.only
  · simp only [Bool.false_eq_true, if_false, List.length_append, h.w, h.nw, h.b, h.nb, h.gamma, h.beta]
    cases f.noisy <;> cases f.norm <;> simp <;> ring
  · rfl

theorem sizeWFcl_eq (f : Fcl α) (h : f.Ok) : (flatWFcl f).length = sizeWFcl f := by
  unfold flatWFcl sizeWFcl
  cases f.only
  · simp only [Bool.false_eq_true, if_false, List.length_append, h.w, h.nw, h.gamma, h.beta]
    cases f.noisy <;> cases f.norm <;> simp <;> ring
  · rfl

theorem sizeSFcl_eq (f : Fcl α) (h : f.Ok) : (flatSFcl f).length = sizeSFcl f := by
  unfold flatSFcl sizeSFcl
  have := h.scores
  cases he : f.edge <;> cases f.only <;> simp [this, he]

theorem sizeCl_eq (f : Cl α) (h : f.Ok) : (flatCl f).length = sizeCl f := by
  unfold flatCl sizeCl
  cases hc : f.conv
  · rfl
  · simp only [Bool.not_true, Bool.false_eq_true, if_false, List.length_append, flatten_length _ _ h.kernels.2,
      flatten_length _ _ h.gamma.2, flatten_length _ _ h.beta.2, h.kernels.1, h.biases, h.gamma.1, h.beta.1, hc, if_true]
    cases f.norm <;> simp
    ring

theorem sizeWCl_eq (f : Cl α) (h : f.Ok) : (flatWCl f).length = sizeWCl f := by
  unfold flatWCl sizeWCl
  cases hc : f.conv
  · rfl
  · simp only [Bool.not_true, Bool.false_eq_true, if_false, List.length_append, flatten_length _ _ h.kernels.2,
      flatten_length _ _ h.gamma.2, flatten_length _ _ h.beta.2, h.kernels.1, h.gamma.1, h.beta.1, hc, if_true]
    cases f.norm <;> simp
    ring

theorem sizeSCl_eq (f : Cl α) (h : f.Ok) : (flatSCl f).length = sizeSCl f := by
  unfold flatSCl sizeSCl
  have := h.scores
  cases he : f.edge <;> simp [this, he]

theorem sizeLstm_eq (f : Lstm α) (h : f.Ok) : (flatLstm f).length = sizeLstm f := by
  unfold flatLstm sizeLstm
  have hb := flatten_length (f.bns.map fun p => p.1 ++ p.2) (f.dim + f.dim) (by
    intro r hr
    obtain ⟨p, hp, rfl⟩ := List.mem_map.1 hr
    rw [List.length_append, (h.bns.2 p hp).1, (h.bns.2 p hp).2])
  rw [List.length_append, List.length_append, List.length_append, hb, List.length_map, flatten_length _ _ h.w.2,
    flatten_length _ _ h.u.2, flatten_length _ _ h.b.2, h.w.1, h.u.1, h.b.1, h.bns.1]
  cases f.norm <;> simp <;> ring

theorem sizeFcl_same (f g : Fcl α) (h : SameFcl f g) : sizeFcl f = sizeFcl g := by
  unfold sizeFcl
  rw [h.only, h.input, h.output, h.norm, h.dim, h.noisy]

theorem sizeWFcl_same (f g : Fcl α) (h : SameFcl f g) : sizeWFcl f = sizeWFcl g := by
  unfold sizeWFcl
  rw [h.only, h.input, h.output, h.norm, h.dim, h.noisy]

theorem sizeSFcl_same (f g : Fcl α) (h : SameFcl f g) : sizeSFcl f = sizeSFcl g := by
  unfold sizeSFcl
  rw [h.only, h.input, h.output, h.edge]

theorem sizeCl_same (f g : Cl α) (h : SameCl f g) : sizeCl f = sizeCl g := by
  unfold sizeCl
  rw [h.conv, h.norm, h.groups, h.dim, h.n, h.ks]

theorem sizeWCl_same (f g : Cl α) (h : SameCl f g) : sizeWCl f = sizeWCl g := by
  unfold sizeWCl
  rw [h.conv, h.norm, h.groups, h.dim, h.n, h.ks]

theorem sizeSCl_same (f g : Cl α) (h : SameCl f g) : sizeSCl f = sizeSCl g := by
  unfold sizeSCl
  rw [h.edge, h.n, h.ks]

theorem flatModel_length (sf : Fcl α → Nat) (sc : Cl α → Nat) (ff : Fcl α → List α) (fc : Cl α → List α)
    (hsf : ∀ f : Fcl α, f.Ok → (ff f).length = sf f) (hsc : ∀ c : Cl α, c.Ok → (fc c).length = sc c) (m : Model α) (hm : m.Ok) :
    (flatModel ff fc m).length = sizeModel sf sc m := by
  unfold flatModel sizeModel
  rw [List.length_append, List.length_append, flatMap_length sf ff m.fcls fun f hf => hsf f (hm.fcls f hf),
    flatMap_length sc fc m.cls fun f hf => hsc f (hm.cls f hf),
    flatMap_length (sizeList sc) (fun cls : List (Cl α) => cls.flatMap fc) m.rls fun r hr =>
      flatMap_length sc fc r fun f hf => hsc f (hm.rls r hr f hf)]
  omega

/-! ### C44 -/

/-- `r` has the parameters of `m`, layer by layer; layers without parameters
(dropout only, pooling only) are exempt. -/
structure SameParams (m r : Model α) : Prop where
  fcls : List.Forall₂ (fun f g => f.only = true ∨ g.arr = f.arr) m.fcls r.fcls
  cls : List.Forall₂ (fun c d => c.conv = false ∨
    (d.kernels = c.kernels ∧ d.biases = c.biases ∧ d.gamma = c.gamma ∧ d.beta = c.beta)) m.cls r.cls
  rls : List.Forall₂ (List.Forall₂ fun c d => c.conv = false ∨
    (d.kernels = c.kernels ∧ d.biases = c.biases ∧ d.gamma = c.gamma ∧ d.beta = c.beta)) m.rls r.rls

/-- `r` has the weights of `m`. -/
structure SameWeights (m r : Model α) : Prop where
  fcls : List.Forall₂ (fun f g => f.only = true ∨
    (g.arr.w = f.arr.w ∧ g.arr.nw = f.arr.nw ∧ g.arr.gamma = f.arr.gamma ∧ g.arr.beta = f.arr.beta)) m.fcls r.fcls
  cls : List.Forall₂ (fun c d => c.conv = false ∨
    (d.kernels = c.kernels ∧ d.gamma = c.gamma ∧ d.beta = c.beta)) m.cls r.cls
  rls : List.Forall₂ (List.Forall₂ fun c d => c.conv = false ∨
    (d.kernels = c.kernels ∧ d.gamma = c.gamma ∧ d.beta = c.beta)) m.rls r.rls

/-- `r` has the scores of `m`. -/
structure SameScores (m r : Model α) : Prop where
  fcls : List.Forall₂ (fun f g => f.edge = false ∨ f.only = true ∨ g.scores = f.scores) m.fcls r.fcls
  cls : List.Forall₂ (fun c d => c.edge = false ∨ d.scores = c.scores) m.cls r.cls
  rls : List.Forall₂ (List.Forall₂ fun c d => c.edge = false ∨ d.scores = c.scores) m.rls r.rls

theorem zipWith_forall {L : Type} {R Q : L → L → Prop} {c : L → L → L} {ls gs : List L} (h : List.Forall₂ R ls gs)
    (hq : ∀ l g, R l g → Q l (c l g)) : List.Forall₂ Q ls (List.zipWith c ls gs) := by
  induction h with
  | nil => exact .nil
  | cons h _ ih => exact .cons (hq _ _ h) ih

theorem params_read (m g : Model α) (hm : m.Ok) (hg : g.Ok) (hs : SameModel m g) : ∃ r, SameParams m r ∧ ∀ pre post : List α,
    getModel sizeFcl sizeCl getFcl getCl g pre.length (pre ++ (flatModel flatFcl flatCl m ++ post)) = some r := by
  refine ⟨_, ?_, fun pre post =>
    getModel_spec _ _ _ _ _ _ (fun f g => if f.only then g else { g with arr := f.arr })
      (fun f g => if !f.conv then g else { g with kernels := f.kernels, biases := f.biases, gamma := f.gamma, beta := f.beta })
      (fun f g hf hg hs => ⟨getFcl_reads f g hf hg hs, (sizeFcl_eq f hf).trans (sizeFcl_same f g hs)⟩)
      (fun f g hf hg hs => ⟨getCl_reads f g hf hg hs, (sizeCl_eq f hf).trans (sizeCl_same f g hs)⟩) m g hm hg hs pre post⟩
  have hc : ∀ c d : Cl α, SameCl c d → (c.conv = false ∨
      ((if !c.conv then d else { d with kernels := c.kernels, biases := c.biases, gamma := c.gamma, beta := c.beta }).kernels = c.kernels ∧
      (if !c.conv then d else { d with kernels := c.kernels, biases := c.biases, gamma := c.gamma, beta := c.beta }).biases = c.biases ∧
      (if !c.conv then d else { d with kernels := c.kernels, biases := c.biases, gamma := c.gamma, beta := c.beta }).gamma = c.gamma ∧
      (if !c.conv then d else { d with kernels := c.kernels, biases := c.biases, gamma := c.gamma, beta := c.beta }).beta = c.beta)) := by
    intro c d _
    cases c.conv
    · exact Or.inl rfl
    · exact Or.inr ⟨rfl, rfl, rfl, rfl⟩
  refine ⟨zipWith_forall hs.fcls fun f g _ => ?_, zipWith_forall hs.cls hc, zipWith_forall hs.rls fun l r h => zipWith_forall h hc⟩
  cases f.only
  · exact Or.inr rfl
  · exact Or.inl rfl

/-- **C44, parameters.** Writing the parameters of a model `m` to a vector (at any
offset of a larger one) fills exactly the advertised number of positions with the
parameters of its layers one after the other and changes no other position; reading
them back into any model of the same shape, whatever its parameters, gives it the
parameters of `m`. -/
theorem C44_params (m g : Model α) (hm : m.Ok) (hg : g.Ok) (hs : SameModel m g) (pre mid post : List α)
    (hmid : mid.length = sizeModel sizeFcl sizeCl m) :
    (flatModel flatFcl flatCl m).length = sizeModel sizeFcl sizeCl m ∧
    putModel sizeFcl sizeCl putFcl putCl m pre.length (pre ++ (mid ++ post)) = some (pre ++ (flatModel flatFcl flatCl m ++ post)) ∧
    ∃ r, getModel sizeFcl sizeCl getFcl getCl g pre.length (pre ++ (flatModel flatFcl flatCl m ++ post)) = some r ∧ SameParams m r := by
  have hl := flatModel_length sizeFcl sizeCl flatFcl flatCl sizeFcl_eq sizeCl_eq m hm
  obtain ⟨r, h1, h2⟩ := params_read m g hm hg hs
  exact ⟨hl, putModel_spec _ _ _ _ _ _ putFcl_writes putCl_writes sizeFcl_eq sizeCl_eq m hm pre mid post (by rw [hmid, hl]), r,
    h2 pre post, h1⟩

/-- **C44, weights.** The same for the copies of the weights without biases. -/
theorem C44_weights (m g : Model α) (hm : m.Ok) (hg : g.Ok) (hs : SameModel m g) (pre mid post : List α)
    (hmid : mid.length = sizeModel sizeWFcl sizeWCl m) :
    (flatModel flatWFcl flatWCl m).length = sizeModel sizeWFcl sizeWCl m ∧
    putModel sizeWFcl sizeWCl putWFcl putWCl m pre.length (pre ++ (mid ++ post)) = some (pre ++ (flatModel flatWFcl flatWCl m ++ post)) ∧
    ∃ r, getModel sizeWFcl sizeWCl getWFcl getWCl g pre.length (pre ++ (flatModel flatWFcl flatWCl m ++ post)) = some r ∧
      SameWeights m r := by
  have hl := flatModel_length sizeWFcl sizeWCl flatWFcl flatWCl sizeWFcl_eq sizeWCl_eq m hm
  refine ⟨hl, putModel_spec _ _ _ _ _ _ putWFcl_writes putWCl_writes sizeWFcl_eq sizeWCl_eq m hm pre mid post (by rw [hmid, hl]), _,
    getModel_spec _ _ _ _ _ _
      (fun f g => if f.only then g else { g with arr := ⟨f.arr.w, f.arr.nw, g.arr.b, g.arr.nb, f.arr.gamma, f.arr.beta⟩ })
      (fun f g => if !f.conv then g else { g with kernels := f.kernels, gamma := f.gamma, beta := f.beta })
      (fun f g hf hg hs => ⟨getWFcl_reads f g hf hg hs, (sizeWFcl_eq f hf).trans (sizeWFcl_same f g hs)⟩)
      (fun f g hf hg hs => ⟨getWCl_reads f g hf hg hs, (sizeWCl_eq f hf).trans (sizeWCl_same f g hs)⟩) m g hm hg hs pre post, ?_⟩
  have hc : ∀ c d : Cl α, SameCl c d → (c.conv = false ∨
      ((if !c.conv then d else { d with kernels := c.kernels, gamma := c.gamma, beta := c.beta }).kernels = c.kernels ∧
      (if !c.conv then d else { d with kernels := c.kernels, gamma := c.gamma, beta := c.beta }).gamma = c.gamma ∧
      (if !c.conv then d else { d with kernels := c.kernels, gamma := c.gamma, beta := c.beta }).beta = c.beta)) := by
    intro c d _
    cases c.conv
    · exact Or.inl rfl
    · exact Or.inr ⟨rfl, rfl, rfl⟩
  refine ⟨zipWith_forall hs.fcls fun f g _ => ?_, zipWith_forall hs.cls hc, zipWith_forall hs.rls fun l r h => zipWith_forall h hc⟩
  cases f.only
  · exact Or.inr ⟨rfl, rfl, rfl, rfl⟩
  · exact Or.inl rfl

/-- **C44, scores.** The same for the copies of the edge-popup scores. -/
theorem C44_scores (m g : Model α) (hm : m.Ok) (hg : g.Ok) (hs : SameModel m g) (pre mid post : List α)
    (hmid : mid.length = sizeModel sizeSFcl sizeSCl m) :
    (flatModel flatSFcl flatSCl m).length = sizeModel sizeSFcl sizeSCl m ∧
    putModel sizeSFcl sizeSCl putSFcl putSCl m pre.length (pre ++ (mid ++ post)) = some (pre ++ (flatModel flatSFcl flatSCl m ++ post)) ∧
    ∃ r, getModel sizeSFcl sizeSCl getSFcl getSCl g pre.length (pre ++ (flatModel flatSFcl flatSCl m ++ post)) = some r ∧
      SameScores m r := by
  have hl := flatModel_length sizeSFcl sizeSCl flatSFcl flatSCl sizeSFcl_eq sizeSCl_eq m hm
  refine ⟨hl, putModel_spec _ _ _ _ _ _ putSFcl_writes putSCl_writes sizeSFcl_eq sizeSCl_eq m hm pre mid post (by rw [hmid, hl]), _,
    getModel_spec _ _ _ _ _ _ (fun f g => if !f.edge || f.only then g else { g with scores := f.scores })
      (fun f g => if !f.edge then g else { g with scores := f.scores })
      (fun f g hf hg hs => ⟨getSFcl_reads f g hf hg hs, (sizeSFcl_eq f hf).trans (sizeSFcl_same f g hs)⟩)
      (fun f g hf hg hs => ⟨getSCl_reads f g hf hg hs, (sizeSCl_eq f hf).trans (sizeSCl_same f g hs)⟩) m g hm hg hs pre post, ?_⟩
  have hc : ∀ c d : Cl α, SameCl c d → (c.edge = false ∨ (if !c.edge then d else { d with scores := c.scores }).scores = c.scores) := by
    intro c d _
    cases c.edge
    · exact Or.inl rfl
    · exact Or.inr rfl
  refine ⟨zipWith_forall hs.fcls fun f g _ => ?_, zipWith_forall hs.cls hc, zipWith_forall hs.rls fun l r h => zipWith_forall h hc⟩
  cases f.edge
  · exact Or.inl rfl
  · cases f.only
    · exact Or.inr (Or.inr rfl)
    · exact Or.inr (Or.inl rfl)

/-- **C44, recurrent models.** `memcopy_params_to_vector_rmodel` and
`memcopy_vector_to_params_rmodel` (`/repo/src/rmodel.c` 2305-2311, 2357-2363):
reading the vector back into any recurrent model of the same shape gives exactly the
layers that were written. -/
theorem C44_rmodel (m g : List (Lstm α)) (hm : ∀ l ∈ m, l.Ok) (hg : ∀ l ∈ g, l.Ok) (hs : List.Forall₂ SameLstm m g)
    (pre mid post : List α) (hmid : mid.length = sizeList sizeLstm m) :
    ∃ n, putList sizeLstm putLstm m pre.length (pre ++ (mid ++ post)) = some (pre ++ (m.flatMap flatLstm ++ post), n) ∧
    (m.flatMap flatLstm).length = sizeList sizeLstm m ∧
    ∃ k, getList sizeLstm getLstm (pre ++ (m.flatMap flatLstm ++ post)) g pre.length = some (m, k) := by
  have hl := flatMap_length sizeLstm flatLstm m fun l h => sizeLstm_eq l (hm l h)
  refine ⟨_, putList_writes sizeLstm flatLstm putLstm m (fun l h => putLstm_writes l (hm l h)) (fun l h => sizeLstm_eq l (hm l h))
    pre.length pre mid post rfl (by rw [hmid, hl]), hl, pre.length + sizeList sizeLstm g, ?_⟩
  have h1 := getList_reads sizeLstm flatLstm getLstm (fun f _ => f) _ m g (forall2_and hs hm hg fun f g hf hg hs =>
    ⟨getLstm_reads f g hf hg hs, by
      rw [sizeLstm_eq f hf]
      unfold sizeLstm
      rw [hs.inp, hs.out, hs.norm, hs.groups, hs.dim]⟩) pre.length pre post rfl rfl
  have e : List.zipWith (fun (f : Lstm α) (_ : Lstm α) => f) m g = m := by
    clear h1 hmid hl hm hg
    induction hs with
    | nil => rfl
    | cons _ _ ih => rw [List.zipWith_cons_cons, ih]
  rw [e] at h1
  exact h1

/-- The five models of a dueling network satisfy `P` in pairs. -/
structure DqnRel (P : Model α → Model α → Prop) (d e : Dqn α) : Prop where
  shared : P d.shared e.shared
  vHidden : P d.vHidden e.vHidden
  vLast : P d.vLast e.vLast
  aHidden : P d.aHidden e.aHidden
  aLast : P d.aLast e.aLast

theorem sizeModel_same (sf : Fcl α → Nat) (sc : Cl α → Nat) (hf : ∀ f g : Fcl α, SameFcl f g → sf f = sf g)
    (hc : ∀ f g : Cl α, SameCl f g → sc f = sc g) (m g : Model α) (h : SameModel m g) : sizeModel sf sc m = sizeModel sf sc g := by
  have gen : ∀ {L : Type} (size : L → Nat) (R : L → L → Prop) (_ : ∀ a b, R a b → size a = size b) (l k : List L) (_ : List.Forall₂ R l k),
      sizeList size l = sizeList size k := by
    intro L size R hR l k h
    unfold sizeList
    induction h with
    | nil => rfl
    | cons h _ ih => rw [List.map_cons, List.sum_cons, List.map_cons, List.sum_cons, ih, hR _ _ h]
  unfold sizeModel
  rw [gen sf SameFcl hf _ _ h.fcls, gen sc SameCl hc _ _ h.cls, gen (sizeList sc) _ (gen sc SameCl hc) _ _ h.rls]

/-- **C44, dueling networks.** The parameters of the five models of a dueling network
are written one after the other, filling exactly the advertised number of positions,
and reading them back into any network of the same shape gives it the same
parameters. -/
theorem C44_dueling (d e : Dqn α) (hd : DqnRel (fun m g => m.Ok ∧ g.Ok ∧ SameModel m g) d e) (pre mid post : List α)
    (hmid : mid.length = sizeDqn (sizeModel sizeFcl sizeCl) d) :
    ∃ w, w.length = sizeDqn (sizeModel sizeFcl sizeCl) d ∧
    putDqn (sizeModel sizeFcl sizeCl) (putModel sizeFcl sizeCl putFcl putCl) d pre.length (pre ++ (mid ++ post)) =
      some (pre ++ (w ++ post)) ∧
    ∃ r, getDqn (sizeModel sizeFcl sizeCl) (getModel sizeFcl sizeCl getFcl getCl) e pre.length (pre ++ (w ++ post)) = some r ∧
      DqnRel SameParams d r := by
  set F : Model α → List α := flatModel flatFcl flatCl with hF
  set S : Model α → Nat := sizeModel sizeFcl sizeCl with hS
  have hsz : ∀ m g : Model α, SameModel m g → S m = S g := sizeModel_same _ _ sizeFcl_same sizeCl_same
  have hw : ∀ m : Model α, m.Ok → WritesAt 0 (fun s v => putModel sizeFcl sizeCl putFcl putCl m s v) (F m) := by
    intro m hm s pre mid post hp hl
    have := putModel_spec sizeFcl sizeCl putFcl putCl flatFcl flatCl putFcl_writes putCl_writes sizeFcl_eq sizeCl_eq m hm pre mid post hl
    rw [show s = pre.length by omega]
    exact this
  have hr : ∀ m g : Model α, m.Ok ∧ g.Ok ∧ SameModel m g → ∃ r, SameParams m r ∧
      ReadsAt 0 (fun s v => getModel sizeFcl sizeCl getFcl getCl g s v) (F m) r := by
    intro m g ⟨hm, hg, hs⟩
    obtain ⟨r, h1, h2⟩ := params_read m g hm hg hs
    refine ⟨r, h1, fun s pre post hp => ?_⟩
    rw [show s = pre.length by omega]
    exact h2 pre post
  have hlen : ∀ m g : Model α, m.Ok ∧ g.Ok ∧ SameModel m g → (F m).length = S m ∧ (F m).length = S g := by
    intro m g ⟨hm, hg, hs⟩
    have := flatModel_length sizeFcl sizeCl flatFcl flatCl sizeFcl_eq sizeCl_eq m hm
    exact ⟨this, this.trans (hsz m g hs)⟩
  obtain ⟨a1, b1⟩ := hlen _ _ hd.shared
  obtain ⟨a2, b2⟩ := hlen _ _ hd.vHidden
  obtain ⟨a3, b3⟩ := hlen _ _ hd.vLast
  obtain ⟨a4, b4⟩ := hlen _ _ hd.aHidden
  obtain ⟨a5, b5⟩ := hlen _ _ hd.aLast
  have ws : ∀ (off o : Nat) (m : Model α), m.Ok → o = off → WritesAt off (fun s v => putModel sizeFcl sizeCl putFcl putCl m (s + o) v) (F m) := by
    rintro off o m hm rfl s pre mid post hp hl
    exact hw m hm (s + o) pre mid post (by omega) hl
  have rs : ∀ (off o : Nat) (m g : Model α) (r : Model α), ReadsAt 0 (fun s v => getModel sizeFcl sizeCl getFcl getCl g s v) (F m) r → o = off →
      ReadsAt off (fun s v => getModel sizeFcl sizeCl getFcl getCl g (s + o) v) (F m) r := by
    rintro off o m g r h rfl s pre post hp
    exact h (s + o) pre post (by omega)
  have W : WritesAt 0 (fun s v => putDqn S (putModel sizeFcl sizeCl putFcl putCl) d s v)
      (F d.shared ++ (F d.vHidden ++ (F d.vLast ++ (F d.aHidden ++ F d.aLast)))) := by
    unfold putDqn
    refine (hw _ hd.shared.1).bind ?_
    refine (ws _ (S d.shared) _ hd.vHidden.1 (by omega)).bind ?_
    refine (ws _ (S d.shared + S d.vHidden) _ hd.vLast.1 (by omega)).bind ?_
    refine (ws _ (S d.shared + S d.vHidden + S d.vLast) _ hd.aHidden.1 (by omega)).bind ?_
    exact ws _ (S d.shared + S d.vHidden + S d.vLast + S d.aHidden) _ hd.aLast.1 (by omega)
  obtain ⟨r1, p1, q1⟩ := hr _ _ hd.shared
  obtain ⟨r2, p2, q2⟩ := hr _ _ hd.vHidden
  obtain ⟨r3, p3, q3⟩ := hr _ _ hd.vLast
  obtain ⟨r4, p4, q4⟩ := hr _ _ hd.aHidden
  obtain ⟨r5, p5, q5⟩ := hr _ _ hd.aLast
  have R : ReadsAt 0 (fun s v => getDqn S (getModel sizeFcl sizeCl getFcl getCl) e s v)
      (F d.shared ++ (F d.vHidden ++ (F d.vLast ++ (F d.aHidden ++ (F d.aLast ++ []))))) ⟨r1, r2, r3, r4, r5⟩ := by
    unfold getDqn
    refine ReadsAt.bind q1 ?_
    refine (rs _ (S e.shared) _ _ _ q2 (by omega)).bind ?_
    refine (rs _ (S e.shared + S e.vHidden) _ _ _ q3 (by omega)).bind ?_
    refine (rs _ (S e.shared + S e.vHidden + S e.vLast) _ _ _ q4 (by omega)).bind ?_
    refine (rs _ (S e.shared + S e.vHidden + S e.vLast + S e.aHidden) _ _ _ q5 (by omega)).bind ?_
    exact ReadsAt.pure _ _
  rw [List.append_nil] at R
  have hlw : (F d.shared ++ (F d.vHidden ++ (F d.vLast ++ (F d.aHidden ++ F d.aLast)))).length = sizeDqn S d := by
    unfold sizeDqn
    simp only [List.length_append]
    omega
  exact ⟨_, hlw, W pre.length pre mid post (by omega) (by rw [hmid, hlw]), _, R pre.length pre post (by omega), p1, p2, p3, p4, p5⟩

/-- A noisy normalised fully-connected layer, a convolutional layer with group
normalisation and a residual layer holding a pooling-only layer. -/
example : (⟨[⟨1, 2, 1, true, true, false, false, ⟨[1, 2], [3, 4], [5, 6], [7, 8], [9], [10]⟩, []⟩],
    [⟨2, 1, 1, 2, true, true, false, [[1], [2]], [3, 4], [[5, 6]], [[7, 8]], []⟩],
    [[⟨1, 4, 0, 0, false, false, false, [], [], [], [], []⟩]]⟩ : Model Nat).Ok := by
  refine ⟨?_, ?_, ?_⟩
  · intro f hf
    rw [List.mem_singleton.1 hf]
    exact ⟨rfl, rfl, rfl, rfl, rfl, rfl, rfl⟩
  · intro f hf
    rw [List.mem_singleton.1 hf]
    exact ⟨⟨rfl, by simp⟩, rfl, ⟨rfl, by simp⟩, ⟨rfl, by simp⟩, fun _ => rfl, rfl⟩
  · intro r hr f hf
    rw [List.mem_singleton.1 hr] at hf
    rw [List.mem_singleton.1 hf]
    exact ⟨⟨rfl, by simp⟩, rfl, ⟨rfl, by simp⟩, ⟨rfl, by simp⟩, by simp, rfl⟩

end LLab.Flat
