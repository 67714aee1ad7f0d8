import Verif.Save.Model

/-!
Recurrent models: `recurrent_network` (`/repo/src/rmodel.c` 38-116), `save_rmodel`
(341-402), `load_rmodel` (410-474). Properties C82, C83.
-/

namespace LLab.Save

variable {α : Type}

/-- The modelled part of `rmodel`. -/
@[ext] structure RNet (α : Type) where
  layers : Nat
  lstms : List (Lstm α)
  window : Int
  hiddenStateMode : Int
deriving DecidableEq

/-- The position of an LSTM layer. The constructor of layers refuses negative ones. -/
def Lstm.pos (l : Lstm α) : Nat := l.args.layer.toNat

/-- The check of the sizes of consecutive layers (`/repo/src/rmodel.c` 97-102). -/
def sizesMatch : List (Lstm α) → Bool
  | a :: b :: l => decide (b.args.inputSize = a.args.outputSize) && sizesMatch (b :: l)
  | _ => true

/-- `recurrent_network` (`/repo/src/rmodel.c` 38-116). `some none` is `exit(1)`; an
overflow of a row of the table of positions is `none`. The table is filled as in
`network`, see `Network.seqCheck`. -/
def recurrentNetwork (layers : Nat) (lstms : List (Lstm α)) (window mode : Int) : Option (Option (RNet α)) :=
  if layers = 0 ∨ lstms = [] then some none
  else if lstms.any (fun l => decide (l.args.window ≠ window)) then some none
  else
    (Network.exch Lstm.pos lstms).bind fun lstms =>
      (Network.seqCheck layers (lstms.map Lstm.pos) layers 0).bind fun b =>
        if !b then some none
        else if !sizesMatch lstms then some none
        else some (some ⟨layers, lstms, window, mode⟩)

/-- `save_rmodel` (`/repo/src/rmodel.c` 341-402): header and layers go to the same file. -/
def saveRModel (m : RNet α) : Option (File α) :=
  (m.lstms.mapM saveLstm).bind fun l =>
    some (.int m.layers :: .int m.lstms.length :: .int m.window :: .int m.hiddenStateMode :: l.flatten)

/-- `load_rmodel` (`/repo/src/rmodel.c` 410-474). -/
def loadRModel [Zero α] [One α] (rndW rndU : Nat → Nat → α) : Read α (RNet α) := do
  let layers ← rdInt
  let n ← rdInt
  let window ← rdInt
  let mode ← rdInt
  let lstms ← rdMany (loadLstm rndW rndU) n.toNat
  Read.lift (if layers < 0 then none else (recurrentNetwork layers.toNat lstms window mode).bind fun r => r)

theorem sizesMatch_iff : (l : List (Lstm α)) →
    (sizesMatch l = true ↔ ∀ i a b, l[i]? = some a → l[i + 1]? = some b → b.args.inputSize = a.args.outputSize)
  | [] => by simp [sizesMatch]
  | [x] => by
    simp only [sizesMatch, true_iff]
    intro i a b h1 h2
    simp at h2
  | a :: b :: l => by
    rw [sizesMatch, Bool.and_eq_true, decide_eq_true_eq, sizesMatch_iff (b :: l)]
    constructor
    · rintro ⟨h1, h2⟩ i x y e1 e2
      cases i with
      | zero => simp at e1 e2; rw [← e1, ← e2]; exact h1
      | succ i => exact h2 i x y (by simpa using e1) (by simpa using e2)
    · intro h
      exact ⟨h 0 a b rfl rfl, fun i x y e1 e2 => h (i + 1) x y (by simpa using e1) (by simpa using e2)⟩

/-- **C83 (partial: distinct positions).** For every list of LSTM layers at distinct
positions, `recurrent_network` succeeds exactly when there are layers, the positions
`0, …, layers-1` are all there, all windows are the given one and each layer has the
output size of the one before it as its input size; the stored layers are the given ones
in increasing order. -/
theorem C83_rnetwork_partial (layers : Nat) (lstms : List (Lstm α)) (window mode : Int)
    (hnd : (lstms.map Lstm.pos).Nodup) :
    ∃ r, recurrentNetwork layers lstms window mode = some r ∧
      ∃ sorted : List (Lstm α), sorted.Perm lstms ∧ (sorted.Pairwise fun a b => a.pos < b.pos) ∧
        ((∃ m, r = some m) ↔ 0 < layers ∧ (∀ i < layers, ∃ l ∈ lstms, l.pos = i) ∧ (∀ l ∈ lstms, l.args.window = window) ∧
          ∀ i a b, sorted[i]? = some a → sorted[i + 1]? = some b → b.args.inputSize = a.args.outputSize) ∧
        ∀ m, r = some m → m = ⟨layers, sorted, window, mode⟩ := by
  obtain ⟨s, e, hp, hs⟩ := Network.exch_spec Lstm.pos lstms
  have hnd' : (s.map Lstm.pos).Nodup := (hp.map _).nodup_iff.mpr hnd
  have hlt : s.Pairwise fun a b => a.pos < b.pos := by
    have h2 : s.Pairwise fun a b => a.pos ≠ b.pos := List.pairwise_map.1 hnd'
    exact (hs.and h2).imp fun {a b} hab => lt_of_le_of_ne hab.1 hab.2
  obtain ⟨b, eb, hb⟩ := Network.seqCheck_nodup layers (s.map Lstm.pos) hnd' layers (le_refl _) 0 (by omega)
  have hb' : b = true ↔ ∀ i < layers, ∃ l ∈ lstms, l.pos = i := by
    rw [hb]
    constructor
    · intro h i hi
      obtain ⟨l, h1, h2⟩ := List.mem_map.mp (h i (by omega) hi)
      exact ⟨l, hp.mem_iff.mp h1, h2⟩
    · intro h i _ hi
      obtain ⟨l, h1, h2⟩ := h i hi
      exact List.mem_map.mpr ⟨l, hp.mem_iff.mpr h1, h2⟩
  have hz := sizesMatch_iff s
  unfold recurrentNetwork
  by_cases c0 : layers = 0 ∨ lstms = []
  · rw [if_pos c0]
    refine ⟨_, rfl, s, hp, hlt, ⟨by simp, ?_⟩, by simp⟩
    rintro ⟨h1, h2, -⟩
    rcases c0 with c0 | rfl
    · omega
    · obtain ⟨l, hl, -⟩ := h2 0 h1
      simp at hl
  rw [if_neg c0]
  by_cases c1 : lstms.any (fun l => decide (l.args.window ≠ window)) = true
  · rw [if_pos c1]
    refine ⟨_, rfl, s, hp, hlt, ⟨by simp, ?_⟩, by simp⟩
    rintro ⟨-, -, h3, -⟩
    obtain ⟨l, hl, h⟩ := List.any_eq_true.mp c1
    exact absurd (h3 l hl) (of_decide_eq_true h)
  rw [if_neg c1, e, Option.bind_some, eb, Option.bind_some]
  have hw : ∀ l ∈ lstms, l.args.window = window := by
    intro l hl
    by_contra hne
    exact c1 (List.any_eq_true.mpr ⟨l, hl, decide_eq_true hne⟩)
  have hl0 : 0 < layers := by omega
  cases b with
  | false =>
    refine ⟨_, if_pos rfl, s, hp, hlt, ⟨by simp, ?_⟩, by simp⟩
    rintro ⟨-, h2, -⟩
    exact absurd (hb'.mpr h2) (by simp)
  | true =>
    rw [if_neg (by simp)]
    cases c2 : sizesMatch s with
    | false =>
      refine ⟨_, if_pos rfl, s, hp, hlt, ⟨by simp, ?_⟩, by simp⟩
      rintro ⟨-, -, -, h4⟩
      rw [hz.mpr h4] at c2
      simp at c2
    | true =>
      refine ⟨_, if_neg (by simp), s, hp, hlt, ⟨fun _ => ⟨hl0, hb'.mp rfl, hw, hz.mp c2⟩, fun _ => ⟨_, rfl⟩⟩, ?_⟩
      rintro m hm
      exact (Option.some.inj hm).symm

/-- An LSTM layer of size 1 at position `p`. -/
def lstm1 (p : Int) (inp out : Nat) : Lstm ℚ :=
  ⟨⟨inp, out, 0, 0, 0, 0, p, 2, 0, 0, 1, GRADIENT_DESCENT, FULLY_FEED_FORWARD⟩, 1,
    List.replicate 4 ⟨List.replicate (out * inp) 3, List.replicate (out * out) 4, List.replicate out 5, [], [], [], []⟩, []⟩

/-- Two layers listed in the wrong order. -/
example : ((([lstm1 1 1 2, lstm1 0 3 1] : List (Lstm ℚ)).map Lstm.pos).Nodup) ∧
    recurrentNetwork 2 [lstm1 1 1 2, lstm1 0 3 1] 2 0 = some (some ⟨2, [lstm1 0 3 1, lstm1 1 1 2], 2, 0⟩) := by
  decide +kernel

/-- **C83, refuted without distinct positions.** Two layers both at position 0 are
accepted as a network of two layers: the number of layers seen is right, so the missing
position 1 is not reported, and duplicates are not looked for. -/
theorem C83_duplicate_refuted :
    recurrentNetwork 2 [lstm1 0 1 1, lstm1 0 1 1] 2 0 = some (some ⟨2, [lstm1 0 1 1, lstm1 0 1 1], 2, 0⟩) := by
  decide +kernel

/-- Well-formed layers whose scores, if they are saved, exist. -/
structure RNet.WF [Zero α] (m : RNet α) : Prop where
  lstms : ∀ l ∈ m.lstms, l.WF
  scores : ∀ l ∈ m.lstms, l.args.edge → l.args.trainingMode = EDGE_POPUP

/-- Building again from a model's own layers gives the model. -/
theorem recurrentNetwork_self {layers : Nat} {lstms : List (Lstm α)} {window mode : Int} {m : RNet α}
    (h : recurrentNetwork layers lstms window mode = some (some m)) :
    recurrentNetwork m.layers m.lstms m.window m.hiddenStateMode = some (some m) := by
  obtain ⟨s, e, hp, hs⟩ := Network.exch_spec Lstm.pos lstms
  have e' := Network.exch_sorted Lstm.pos s hs
  unfold recurrentNetwork at h
  by_cases c0 : layers = 0 ∨ lstms = []
  · rw [if_pos c0] at h
    simp at h
  rw [if_neg c0] at h
  by_cases c1 : lstms.any (fun l => decide (l.args.window ≠ window)) = true
  · rw [if_pos c1] at h
    simp at h
  rw [if_neg c1, e, Option.bind_some] at h
  have hm : m = ⟨layers, s, window, mode⟩ := by
    cases b : Network.seqCheck layers (s.map Lstm.pos) layers 0 with
    | none => rw [b] at h; simp at h
    | some b =>
      rw [b, Option.bind_some] at h
      split at h
      · simp at h
      · split at h
        · simp at h
        · exact (Option.some.inj (Option.some.inj h)).symm
  rw [hm] at h ⊢
  dsimp only
  unfold recurrentNetwork
  rw [if_neg, if_neg, e', Option.bind_some]
  · exact h
  · intro c
    obtain ⟨l, hl, hc⟩ := List.any_eq_true.mp c
    exact c1 (List.any_eq_true.mpr ⟨l, hp.mem_iff.mp hl, hc⟩)
  · rintro (c | c)
    · exact c0 (Or.inl c)
    · rw [c] at hp
      exact c0 (Or.inr hp.nil_eq.symm)

/-- **C82 for recurrent models (partial: new file, scores only with edge-popup
training).** A recurrent model made by `recurrent_network` and saved under a number not
used before is loaded back unchanged. -/
theorem C82_rmodel_partial [Zero α] [One α] (rndW rndU : Nat → Nat → α) (m : RNet α) (h : m.WF)
    (hb : ∃ layers lstms window mode, recurrentNetwork layers lstms window mode = some (some m))
    (n : Nat) (d : Disk α) (hd : d "" n = []) :
    ∃ w, saveRModel m = some w ∧ loadFrom (loadRModel rndW rndU) "" n (append d "" n w) = some m := by
  obtain ⟨layers, lstms, window, mode, hb⟩ := hb
  have hb' := recurrentNetwork_self hb
  refine ⟨.int m.layers :: .int m.lstms.length :: .int m.window :: .int m.hiddenStateMode :: m.lstms.flatMap lstmCells, ?_, ?_⟩
  · unfold saveRModel
    rw [mapM_eq (w := lstmCells) _ fun l hl => saveLstm_eq (h.lstms l hl) (h.scores l hl), Option.bind_some,
      List.flatMap_def]
  · have : Rd (loadRModel rndW rndU) (.int m.layers :: .int m.lstms.length :: .int m.window :: .int m.hiddenStateMode ::
        m.lstms.flatMap lstmCells) m := by
      unfold loadRModel
      refine Rd.int (Rd.int (Rd.int (Rd.int (Rd.last (x := m.lstms) ?_ ?_))))
      · rw [Int.toNat_natCast]
        exact Rd.many m.lstms fun l hl => loadLstm_rd rndW rndU (h.lstms l hl) (h.scores l hl)
      · refine Rd.lift' ?_
        rw [if_neg (by omega), Int.toNat_natCast, hb']
        rfl
    have := this []
    rw [List.append_nil] at this
    unfold loadFrom append
    rw [if_pos ⟨rfl, rfl⟩, hd, List.nil_append, this]
    rfl

theorem lstm1_wf : (lstm1 0 3 1).WF :=
  ⟨by unfold LstmArgs.ok lstm1; simp [GROUP_NORMALIZATION, LSTM_RESIDUAL], rfl, rfl, by
    intro g hg
    rw [show g = ⟨List.replicate 3 3, [4], [5], [], [], [], []⟩ by simpa [lstm1] using hg]
    exact ⟨rfl, rfl, rfl, rfl, rfl, rfl, rfl⟩, rfl, by simp [lstm1]⟩

example : (RNet.mk 1 [lstm1 0 3 1] 2 0).WF ∧
    ∃ layers lstms window mode, recurrentNetwork layers lstms window mode = some (some (RNet.mk 1 [lstm1 0 3 1] 2 0)) :=
  ⟨⟨by simp [lstm1_wf], by simp [lstm1, LstmArgs.edge, GRADIENT_DESCENT, EDGE_POPUP, FULLY_FEED_FORWARD]⟩,
    1, [lstm1 0 3 1], 2, 0, by decide +kernel⟩

end LLab.Save
