import Verif.Common.Loop
import Verif.Common.Mat
import Mathlib.Data.List.Perm.Basic
import Mathlib.Data.List.Perm.Lattice
import Mathlib.Data.List.Nodup
import Mathlib.Data.List.Count
import Mathlib.Data.List.TakeWhile
import Mathlib.Data.List.Sort
import Mathlib.Data.Multiset.Range

/-!
`network` (`/repo/src/model.c` 43-317): the constructor that checks the positions of
the layers and sorts them. Property C46, and C79 on residual layers.

A layer is its position, the size of its output and an identity `tag` standing for
everything else. `exit(1)` is the result `exit`, undefined behaviour is `none`.
-/

namespace LLab.Network

/-- A convolutional or fully-connected layer. -/
structure Layer where
  layer : Nat
  size : Nat
  tag : Nat
deriving DecidableEq

/-- A residual layer: `size` is `channels*input_rows*input_cols`. -/
structure Rl where
  cls : List Layer
  size : Nat
  tag : Nat
deriving DecidableEq

/-- Where the output of the model is taken from. -/
inductive Out where
  | fcl (l : Layer)
  | cl (l : Layer)
  | rl (r : Rl)
deriving DecidableEq

/-- The constructed model. -/
structure Model where
  rls : List Rl
  cls : List Layer
  fcls : List Layer
  out : Out
deriving DecidableEq

/-- Result of the constructor. -/
inductive Res where
  | exit
  | ok (m : Model)
deriving DecidableEq

/-- `if(key(l[i]) > key(l[j])) swap(l[i],l[j])` -/
def exchStep {γ : Type} (key : γ → Nat) (i j : Nat) (l : List γ) : Option (List γ) :=
  (l[i]?).bind fun x => (l[j]?).bind fun y => some (if key x > key y then (l.set i y).set j x else l)

/-- The exchange sort used for all layer arrays (`/repo/src/model.c` 93-103, 106-114,
133-141, 144-152). -/
def exch {γ : Type} (key : γ → Nat) (l : List γ) : Option (List γ) :=
  loop l.length (fun i l' => loopFrom (i + 1) l.length (fun j l' => exchStep key i j l') l') l

/-- `rls[i]->cls[0]->layer`; a residual layer without layers would be read out of
bounds, which the callers below exclude. -/
def Rl.first (r : Rl) : Nat := (r.cls.head?.map Layer.layer).getD 0

/-- `rls[i]->cls[n_cl-1]->layer` -/
def Rl.last (r : Rl) : Nat := (r.cls.getLast?.map Layer.layer).getD 0

/-- The overlap check (`/repo/src/model.c` 118-130): for `i < j`, some layer of `j`
between the first and the last of `i`. -/
def overlaps : List Rl → Bool
  | [] => false
  | r :: rest => (rest.any fun s => s.cls.any fun c => decide (c.layer ≤ r.last ∧ r.first ≤ c.layer)) || overlaps rest

/-- The positions in the order in which `sla` is filled: residual, convolutional,
fully-connected. -/
def ids (rls : List Rl) (cls fcls : List Layer) : List Nat :=
  (rls.flatMap fun r => r.cls.map Layer.layer) ++ cls.map Layer.layer ++ fcls.map Layer.layer

/-- The sequence check (`/repo/src/model.c` 155-188): for every `i < layers` the
layers at position `i` are entered in the row `sla[i]` of `layers` cells (more of
them overflow it), and a missing position is an error unless all layers have been
seen. `some false`: `exit(1)`. -/
def seqCheck (layers : Nat) (l : List Nat) : Nat → Nat → Option Bool
  | 0, _ => some true
  | n + 1, position =>
    let i := layers - (n + 1)
    let k := l.count i
    if k > layers then none
    else if k = 0 ∧ position + k ≠ layers then some false
    else seqCheck layers l n (position + k)

/-- Two different indices with the same position in one array. -/
def dupIn (l : List Nat) : Bool :=
  (List.range l.length).any fun i => (List.range l.length).any fun j => decide (i ≠ j) && decide (l[i]? = l[j]?)

/-- The same position in two arrays. -/
def cross (l l' : List Nat) : Bool := l.any fun x => l'.any fun y => decide (x = y)

/-- The checks for equal positions (`/repo/src/model.c` 190-248). -/
def dups (rl cl fcl : List Nat) : Bool :=
  dupIn fcl || cross fcl cl || cross fcl rl || dupIn cl || cross cl rl || dupIn rl

/-- The choice of the output layer (`/repo/src/model.c` 270-314): the kind of the
first empty row of `sla`, or of the last row. `sla[i][0]` is the kind of the first
layer entered at position `i`; the final error for a pooling-only last layer is not
modelled. -/
def output (layers : Nat) (rls : List Rl) (cls fcls : List Layer) : Option Out :=
  let has := fun i => i ∈ ids rls cls fcls
  let i := ((List.range layers).takeWhile fun i => decide (has i)).length
  let i := if i = layers then i - 1 else i
  if i ∈ rls.flatMap (fun r => r.cls.map Layer.layer) then rls.getLast?.map Out.rl
  else if i ∈ cls.map Layer.layer then cls.getLast?.map Out.cl
  else if i ∈ fcls.map Layer.layer then fcls.getLast?.map Out.fcl
  else rls.getLast?.map Out.rl

/-- The size check of a residual layer (`/repo/src/model.c` 64-80), made on the last
layer of the array as given, before sorting. -/
def sizeOk (r : Rl) : Option Bool := r.cls.getLast?.map fun c => decide (c.size = r.size)

/-- `network` (`/repo/src/model.c` 43-317). -/
def network (layers : Nat) (rls : List Rl) (cls fcls : List Layer) : Option Res :=
  if layers = 0 ∨ (rls = [] ∧ cls = [] ∧ fcls = []) then some .exit
  else
    (rls.mapM sizeOk).bind fun oks =>
      if oks.any (fun b => !b) then some .exit
      else
        (rls.mapM fun r => (exch Layer.layer r.cls).bind fun c => some { r with cls := c }).bind fun rls =>
          (exch Rl.first rls).bind fun rls =>
            if overlaps rls then some .exit
            else
              (exch Layer.layer cls).bind fun cls => (exch Layer.layer fcls).bind fun fcls =>
                (seqCheck layers (ids rls cls fcls) layers 0).bind fun b =>
                  if !b then some .exit
                  else if dups (rls.flatMap fun r => r.cls.map Layer.layer) (cls.map Layer.layer) (fcls.map Layer.layer) then
                    some .exit
                  else (output layers rls cls fcls).bind fun o => some (.ok ⟨rls, cls, fcls, o⟩)

/-! ### The exchange sort -/

/-- Key at an index. -/
def keyAt {γ : Type} (key : γ → Nat) (l : List γ) (p : Nat) : Nat := ((l[p]?).map key).getD 0

theorem exch_spec {γ : Type} (key : γ → Nat) (l : List γ) :
    ∃ l', exch key l = some l' ∧ l'.Perm l ∧ l'.Pairwise fun a b => key a ≤ key b := by
  have main := loop_inv (n := l.length) (s := l)
    (f := fun i l' => loopFrom (i + 1) l.length (fun j l' => exchStep key i j l') l')
    (fun i l' => l'.Perm l ∧ ∀ p, p < i → ∀ q, p < q → q < l.length → keyAt key l' p ≤ keyAt key l' q)
    ⟨List.Perm.refl _, by intros; omega⟩ (by
      rintro i hi s ⟨hp, hs⟩
      have inner := loop_inv (n := l.length - (i + 1)) (s := s)
        (f := fun j l' => exchStep key i (i + 1 + j) l')
        (fun j l' => l'.Perm l ∧ (∀ p, p < i → ∀ q, p < q → q < l.length → keyAt key l' p ≤ keyAt key l' q) ∧
          ∀ q, i < q → q < i + 1 + j → keyAt key l' i ≤ keyAt key l' q)
        ⟨hp, hs, by intros; omega⟩ (by
          rintro j hj t ⟨tp, t1, t2⟩
          have hl : t.length = l.length := tp.length_eq
          have h1 : i < t.length := by omega
          have h2 : i + 1 + j < t.length := by omega
          have e : exchStep key i (i + 1 + j) t =
              some (if key t[i] > key t[i + 1 + j] then (t.set i t[i + 1 + j]).set (i + 1 + j) t[i] else t) := by
            unfold exchStep
            rw [List.getElem?_eq_getElem h1, List.getElem?_eq_getElem h2]
            rfl
          refine ⟨_, e, ?_⟩
          have k1 : keyAt key t i = key t[i] := by unfold keyAt; rw [List.getElem?_eq_getElem h1]; rfl
          have k2 : keyAt key t (i + 1 + j) = key t[i + 1 + j] := by unfold keyAt; rw [List.getElem?_eq_getElem h2]; rfl
          split_ifs with hgt
          · have ks : ∀ p, keyAt key ((t.set i t[i + 1 + j]).set (i + 1 + j) t[i]) p =
                if p = i + 1 + j then keyAt key t i else if p = i then keyAt key t (i + 1 + j) else keyAt key t p := by
              intro p
              rw [k1, k2]
              unfold keyAt
              rw [List.getElem?_set, List.getElem?_set]
              by_cases hp1 : p = i + 1 + j
              · subst hp1
                rw [if_pos rfl, if_pos (by simpa using h2), if_pos rfl]
                rfl
              · rw [if_neg (Ne.symm hp1), if_neg hp1]
                by_cases hp2 : p = i
                · subst hp2
                  rw [if_pos rfl, if_pos (by simpa using h1), if_pos rfl]
                  rfl
                · rw [if_neg (Ne.symm hp2), if_neg hp2]
            refine ⟨(List.set_set_perm h1 h2).trans tp, ?_, ?_⟩
            · intro p hp q hpq hq
              rw [ks p, ks q, if_neg (by omega), if_neg (by omega)]
              split_ifs
              · exact t1 p hp i (by omega) (by omega)
              · exact t1 p hp _ (by omega) (by omega)
              · exact t1 p hp q hpq hq
            · intro q hq1 hq2
              rw [ks i, ks q, if_neg (by omega), if_pos rfl]
              split_ifs with c1 c2
              · omega
              · omega
              · have := t2 q hq1 (by omega)
                omega
          · refine ⟨tp, t1, ?_⟩
            intro q hq1 hq2
            by_cases hq : q = i + 1 + j
            · subst hq; omega
            · exact t2 q hq1 (by omega))
      obtain ⟨t, e, tp, t1, t2⟩ := inner
      refine ⟨t, e, tp, ?_⟩
      intro p hp q hpq hq
      by_cases h : p = i
      · subst h
        exact t2 q hpq (by omega)
      · exact t1 p (by omega) q hpq hq)
  obtain ⟨l', e, hp, hs⟩ := main
  refine ⟨l', e, hp, ?_⟩
  rw [List.pairwise_iff_getElem]
  intro i j h1 h2 hij
  have := hs i (by rw [← hp.length_eq]; exact h1) j hij (by rw [← hp.length_eq]; exact h2)
  unfold keyAt at this
  rwa [List.getElem?_eq_getElem h1, List.getElem?_eq_getElem h2] at this

/-! ### Specification -/

/-- All layers of one residual layer come before all layers of the other. -/
def Apart (r s : Rl) : Prop :=
  (∀ a ∈ r.cls, ∀ b ∈ s.cls, a.layer < b.layer) ∨ ∀ a ∈ r.cls, ∀ b ∈ s.cls, b.layer < a.layer

/-- Every residual layer's last listed layer has the size of its input. -/
def SizesOk (rls : List Rl) : Prop := ∀ r ∈ rls, ∀ c ∈ r.cls.getLast?, c.size = r.size

/-- `r'` is `r` with its layers sorted. -/
def SortedRl (r r' : Rl) : Prop :=
  r'.size = r.size ∧ r'.tag = r.tag ∧ r'.cls.Perm r.cls ∧ r'.cls.Pairwise fun a b => a.layer ≤ b.layer

/-! ### Lemmas -/

theorem dupIn_iff (l : List Nat) : dupIn l = true ↔ ¬ l.Nodup := by
  unfold dupIn
  rw [List.nodup_iff_getElem?_ne_getElem?]
  simp only [List.any_eq_true, List.mem_range, Bool.and_eq_true, decide_eq_true_eq]
  constructor
  · rintro ⟨i, hi, j, hj, hne, e⟩ h
    rcases Nat.lt_or_gt_of_ne hne with hlt | hlt
    · exact h i j hlt hj e
    · exact h j i hlt hi e.symm
  · intro h
    by_contra hcon
    refine h fun i j hij hj e => hcon ⟨i, by omega, j, hj, by omega, e⟩

theorem cross_iff (l l' : List Nat) : cross l l' = true ↔ ∃ x ∈ l, x ∈ l' := by
  unfold cross
  simp

theorem dups_iff (rl cl fcl : List Nat) : dups rl cl fcl = true ↔ ¬ (rl ++ cl ++ fcl).Nodup := by
  unfold dups
  simp only [Bool.or_eq_true, dupIn_iff, cross_iff]
  rw [List.nodup_append, List.nodup_append]
  constructor
  · rintro (((((h | ⟨x, h1, h2⟩) | ⟨x, h1, h2⟩) | h) | ⟨x, h1, h2⟩) | h) ⟨⟨n1, n2, n3⟩, n4, n5⟩
    · exact h n4
    · exact n5 x (by simp [h2]) x h1 rfl
    · exact n5 x (by simp [h2]) x h1 rfl
    · exact h n2
    · exact n3 x h2 x h1 rfl
    · exact h n1
  · intro h
    by_contra hcon
    simp only [not_or, not_not, not_exists, not_and] at hcon
    obtain ⟨⟨⟨⟨⟨a1, a2⟩, a3⟩, a4⟩, a5⟩, a6⟩ := hcon
    refine h ⟨⟨a6, a4, fun x hx y hy e => a5 y hy (e ▸ hx)⟩, a1, fun x hx y hy e => ?_⟩
    subst e
    rcases List.mem_append.1 hx with hx | hx
    · exact a3 x hy hx
    · exact a2 x hy hx

theorem seqCheck_some (layers : Nat) (l : List Nat) (h : ∀ i, i < layers → l.count i ≤ layers) (n : Nat) (hn : n ≤ layers) (pos : Nat) :
    ∃ b, seqCheck layers l n pos = some b := by
  induction n generalizing pos with
  | zero => exact ⟨true, rfl⟩
  | succ n ih =>
    unfold seqCheck
    dsimp only
    rw [if_neg (by have := h (layers - (n + 1)) (by omega); omega)]
    split_ifs
    · exact ⟨false, rfl⟩
    · exact ih (by omega) _

theorem seqCheck_nodup (layers : Nat) (l : List Nat) (hl : l.Nodup) (n : Nat) (hn : n ≤ layers) (pos : Nat)
    (hp : pos ≤ layers - n) : ∃ b, seqCheck layers l n pos = some b ∧ (b = true ↔ ∀ i, layers - n ≤ i → i < layers → i ∈ l) := by
  induction n generalizing pos with
  | zero => exact ⟨true, rfl, by simp; intros; omega⟩
  | succ n ih =>
    unfold seqCheck
    dsimp only
    have hc : l.count (layers - (n + 1)) ≤ 1 := List.nodup_iff_count_le_one.1 hl _
    rw [if_neg (by omega)]
    by_cases hm : layers - (n + 1) ∈ l
    · have h1 : l.count (layers - (n + 1)) = 1 := List.count_eq_one_of_mem hl hm
      rw [if_neg (by omega)]
      obtain ⟨b, e, hb⟩ := ih (by omega) (pos + l.count (layers - (n + 1))) (by omega)
      refine ⟨b, e, hb.trans ⟨fun h i h1 h2 => ?_, fun h i h1 h2 => h i (by omega) h2⟩⟩
      by_cases hi : i = layers - (n + 1)
      · rw [hi]; exact hm
      · exact h i (by omega) h2
    · rw [List.count_eq_zero_of_not_mem hm, if_pos (by omega)]
      refine ⟨false, rfl, by simp only [Bool.false_eq_true, false_iff]; exact fun h => hm (h _ (le_refl _) (by omega))⟩

theorem mapM_some_iff {α β : Type} (f : α → Option β) (g : α → β) (l : List α) (h : ∀ x ∈ l, f x = some (g x)) :
    l.mapM f = some (l.map g) := by
  induction l with
  | nil => rfl
  | cons x l ih =>
    rw [List.mapM_cons, h x (by simp), ih fun y hy => h y (by simp [hy])]
    rfl

theorem mapM_rel {α β : Type} (f : α → Option β) (P : α → β → Prop) (l : List α)
    (h : ∀ x ∈ l, ∃ y, f x = some y ∧ P x y) : ∃ l', l.mapM f = some l' ∧ List.Forall₂ P l l' := by
  induction l with
  | nil => exact ⟨[], rfl, .nil⟩
  | cons x l ih =>
    obtain ⟨y, e, hp⟩ := h x (by simp)
    obtain ⟨l', e', hp'⟩ := ih fun z hz => h z (by simp [hz])
    refine ⟨y :: l', ?_, .cons hp hp'⟩
    rw [List.mapM_cons, e, e']
    rfl

theorem ids_rl_perm (rls rls1 : List Rl) (h : List.Forall₂ SortedRl rls rls1) :
    (rls1.flatMap fun r => r.cls.map Layer.layer).Perm (rls.flatMap fun r => r.cls.map Layer.layer) := by
  induction h with
  | nil => exact List.Perm.refl _
  | cons hp _ ih =>
    rw [List.flatMap_cons, List.flatMap_cons]
    exact (hp.2.2.1.map _).append ih

theorem nonempty_of (rls r1 : List Rl) (h : List.Forall₂ SortedRl rls r1) (hne : ∀ r ∈ rls, r.cls ≠ []) :
    ∀ r ∈ r1, r.cls ≠ [] := by
  induction h with
  | nil => simp
  | @cons a b l l1 hab _ ih =>
    intro r hr
    rcases List.mem_cons.1 hr with rfl | hr
    · intro e
      have h := hab.2.2.1
      rw [e] at h
      exact hne a (by simp) h.nil_eq.symm
    · exact ih (fun x hx => hne x (by simp [hx])) r hr

theorem first_le (r : Rl) (h : r.cls.Pairwise fun a b => a.layer ≤ b.layer) (c : Layer) (hc : c ∈ r.cls) :
    r.first ≤ c.layer := by
  unfold Rl.first
  cases hl : r.cls with
  | nil => simp [hl] at hc
  | cons x l =>
    rw [hl] at h hc
    rcases List.mem_cons.1 hc with rfl | hc
    · exact le_refl _
    · exact (List.pairwise_cons.1 h).1 c hc

theorem le_last (r : Rl) (h : r.cls.Pairwise fun a b => a.layer ≤ b.layer) (c : Layer) (hc : c ∈ r.cls) :
    c.layer ≤ r.last := by
  unfold Rl.last
  rcases List.eq_nil_or_concat' r.cls with hl | ⟨l, x, hl⟩
  · simp [hl] at hc
  · rw [hl] at h hc ⊢
    rw [List.getLast?_append]
    rcases List.mem_append.1 hc with hc | hc
    · exact (List.pairwise_append.1 h).2.2 c hc x (by simp)
    · rw [List.mem_singleton.1 hc]
      exact le_refl _

theorem first_mem (r : Rl) (h : r.cls ≠ []) : ∃ c ∈ r.cls, c.layer = r.first := by
  unfold Rl.first
  cases hl : r.cls with
  | nil => exact absurd hl h
  | cons x l => exact ⟨x, by simp, rfl⟩

theorem last_mem (r : Rl) (h : r.cls ≠ []) : ∃ c ∈ r.cls, c.layer = r.last := by
  unfold Rl.last
  rcases List.eq_nil_or_concat' r.cls with hl | ⟨l, x, hl⟩
  · exact absurd hl h
  · rw [hl]
    exact ⟨x, by simp, by simp⟩

theorem overlaps_iff (rls : List Rl) (h1 : rls.Pairwise fun r s => r.first ≤ s.first)
    (h2 : ∀ r ∈ rls, r.cls ≠ [] ∧ r.cls.Pairwise fun a b => a.layer ≤ b.layer) :
    overlaps rls = false ↔ rls.Pairwise fun r s => ∀ a ∈ r.cls, ∀ b ∈ s.cls, a.layer < b.layer := by
  induction rls with
  | nil => simp [overlaps]
  | cons r l ih =>
    obtain ⟨h3, h4⟩ := List.pairwise_cons.1 h1
    rw [List.pairwise_cons, ← ih h4 fun s hs => h2 s (by simp [hs])]
    rw [show overlaps (r :: l) = ((l.any fun s => s.cls.any fun c => decide (c.layer ≤ r.last ∧ r.first ≤ c.layer)) ||
      overlaps l) from rfl, Bool.or_eq_false_iff]
    refine and_congr_left fun _ => ?_
    rw [← Bool.not_eq_true]
    simp only [List.any_eq_true, decide_eq_true_eq, not_exists, not_and]
    obtain ⟨hn, hs⟩ := h2 r (by simp)
    constructor
    · intro h s hsl a ha b hb
      have g1 := h3 s hsl
      have g2 := first_le s (h2 s (by simp [hsl])).2 b hb
      have g3 := le_last r hs a ha
      have := h s hsl b hb
      omega
    · intro h s hsl b hb hle
      obtain ⟨c, hc, e⟩ := last_mem r hn
      have := h s hsl c hc b hb
      omega

/-- The order between residual layers that the result has. -/
def Before (r s : Rl) : Prop := ∀ a ∈ r.cls, ∀ b ∈ s.cls, a.layer < b.layer

theorem apart_symm : ∀ r s : Rl, Apart r s → Apart s r := by
  rintro r s (h | h)
  · exact Or.inr fun a ha b hb => h b hb a ha
  · exact Or.inl fun a ha b hb => h b hb a ha

theorem apart_sorted (rls rls1 : List Rl) (h : List.Forall₂ SortedRl rls rls1) :
    rls1.Pairwise Apart ↔ rls.Pairwise Apart := by
  induction h with
  | nil => simp
  | @cons r r1 l l1 hr hl ih =>
    rw [List.pairwise_cons, List.pairwise_cons, ih]
    refine and_congr_left fun hdrop => ?_
    clear hdrop
    have mem : ∀ {a : Layer}, a ∈ r1.cls ↔ a ∈ r.cls := hr.2.2.1.mem_iff
    clear ih
    induction hl with
    | nil => simp
    | @cons s s1 l l1 hs _ ih2 =>
      rw [List.forall_mem_cons, List.forall_mem_cons]
      refine and_congr ?_ ih2
      have mem2 : ∀ {a : Layer}, a ∈ s1.cls ↔ a ∈ s.cls := hs.2.2.1.mem_iff
      unfold Apart
      simp only [mem, mem2]

theorem output_spec (layers : Nat) (hl : 0 < layers) (rls : List Rl) (cls fcls : List Layer)
    (h : ∀ i, i < layers → i ∈ ids rls cls fcls) :
    ∃ o, output layers rls cls fcls = some o ∧
      (layers - 1 ∈ rls.flatMap (fun r => r.cls.map Layer.layer) → ∃ r, rls.getLast? = some r ∧ o = .rl r) ∧
      (layers - 1 ∉ rls.flatMap (fun r => r.cls.map Layer.layer) → layers - 1 ∈ cls.map Layer.layer →
        ∃ r, cls.getLast? = some r ∧ o = .cl r) ∧
      (layers - 1 ∉ rls.flatMap (fun r => r.cls.map Layer.layer) → layers - 1 ∉ cls.map Layer.layer →
        ∃ r, fcls.getLast? = some r ∧ o = .fcl r) := by
  have ht : ((List.range layers).takeWhile fun i => decide (i ∈ ids rls cls fcls)).length = layers := by
    rw [List.takeWhile_eq_self_iff.2, List.length_range]
    intro x hx
    simpa using h x (List.mem_range.1 hx)
  unfold output
  dsimp only
  rw [ht, if_pos rfl]
  by_cases c1 : layers - 1 ∈ rls.flatMap fun r => r.cls.map Layer.layer
  · rw [if_pos c1]
    have : rls ≠ [] := by rintro rfl; simp at c1
    refine ⟨.rl (rls.getLast this), by rw [List.getLast?_eq_some_getLast this]; rfl,
      fun _ => ⟨_, List.getLast?_eq_some_getLast this, rfl⟩, fun h => absurd c1 h, fun h => absurd c1 h⟩
  · rw [if_neg c1]
    by_cases c2 : layers - 1 ∈ cls.map Layer.layer
    · rw [if_pos c2]
      have : cls ≠ [] := by rintro rfl; simp at c2
      exact ⟨.cl (cls.getLast this), by rw [List.getLast?_eq_some_getLast this]; rfl,
        fun h => absurd h c1, fun _ _ => ⟨_, List.getLast?_eq_some_getLast this, rfl⟩, fun _ h => absurd c2 h⟩
    · have c3 : layers - 1 ∈ fcls.map Layer.layer := by
        have := h (layers - 1) (by omega)
        unfold ids at this
        rw [List.mem_append, List.mem_append] at this
        tauto
      rw [if_neg c2, if_pos c3]
      have : fcls ≠ [] := by rintro rfl; simp at c3
      exact ⟨.fcl (fcls.getLast this), by rw [List.getLast?_eq_some_getLast this]; rfl,
        fun h => absurd h c1, fun _ h => absurd h c2, fun _ _ => ⟨_, List.getLast?_eq_some_getLast this, rfl⟩⟩

/-- What an accepted list of layers satisfies. -/
def Accepts (layers : Nat) (rls : List Rl) (cls fcls : List Layer) : Prop :=
  0 < layers ∧ SizesOk rls ∧ rls.Pairwise Apart ∧ (ids rls cls fcls).Nodup ∧ ∀ i, i < layers → i ∈ ids rls cls fcls

/-- The stored model: the same layers, each kind in increasing position order. -/
structure Stores (rls : List Rl) (cls fcls : List Layer) (m : Model) : Prop where
  fcls : m.fcls.Perm fcls ∧ m.fcls.Pairwise fun a b => a.layer < b.layer
  cls : m.cls.Perm cls ∧ m.cls.Pairwise fun a b => a.layer < b.layer
  rls : ∃ r1, List.Forall₂ SortedRl rls r1 ∧ m.rls.Perm r1
  order : m.rls.Pairwise Before

theorem strict_of (l : List Layer) (h : l.Pairwise fun a b => a.layer ≤ b.layer) (hn : (l.map Layer.layer).Nodup) :
    l.Pairwise fun a b => a.layer < b.layer := by
  have h2 : l.Pairwise fun a b => a.layer ≠ b.layer := List.pairwise_map.1 hn
  exact (h.and h2).imp fun {a b} hab => lt_of_le_of_ne hab.1 hab.2

/-- The last layer of the model: it is at position `p`. -/
def OutAt (m : Model) (p : Nat) : Prop :=
  match m.out with
  | .fcl l => l ∈ m.fcls ∧ l.layer = p
  | .cl l => l ∈ m.cls ∧ l.layer = p
  | .rl r => r ∈ m.rls ∧ ∃ c ∈ r.cls, c.layer = p

/-- The general behaviour of the constructor on residual layers that are not empty
and layer lists that do not overflow a row of `sla`. -/
theorem network_spec (layers : Nat) (rls : List Rl) (cls fcls : List Layer) (hne : ∀ r ∈ rls, r.cls ≠ [])
    (hov : ∀ i, i < layers → (ids rls cls fcls).count i ≤ layers) :
    ∃ r, network layers rls cls fcls = some r ∧ ((∃ m, r = .ok m) ↔ Accepts layers rls cls fcls) ∧
      ∀ m, r = .ok m → Stores rls cls fcls m ∧
        ∃ o, output layers m.rls m.cls m.fcls = some o ∧ m.out = o := by
  unfold network
  by_cases h0 : layers = 0 ∨ (rls = [] ∧ cls = [] ∧ fcls = [])
  · rw [if_pos h0]
    refine ⟨_, rfl, ⟨by rintro ⟨m, hm⟩; simp at hm, fun h => ?_⟩, by simp⟩
    exfalso
    rcases h0 with h0 | ⟨rfl, rfl, rfl⟩
    · exact absurd h.1 (by omega)
    · have := h.2.2.2.2 0 h.1
      simp [ids] at this
  rw [if_neg h0]
  have hl0 : 0 < layers := by omega
  have e1 : rls.mapM sizeOk = some (rls.map fun r => decide (∀ c ∈ r.cls.getLast?, c.size = r.size)) := by
    refine mapM_some_iff _ _ _ fun r hr => ?_
    unfold sizeOk
    rw [List.getLast?_eq_some_getLast (hne r hr)]
    simp
  rw [bind_some_of e1]
  by_cases hsz : SizesOk rls
  swap
  · rw [if_pos]
    · exact ⟨_, rfl, ⟨by rintro ⟨m, hm⟩; simp at hm, fun h => absurd h.2.1 hsz⟩, by simp⟩
    · rw [List.any_eq_true]
      unfold SizesOk at hsz
      simp only [not_forall] at hsz
      obtain ⟨r, hr, c, hc, hcs⟩ := hsz
      refine ⟨false, List.mem_map.2 ⟨r, hr, ?_⟩, rfl⟩
      rw [decide_eq_false_iff_not]
      exact fun h => hcs (h c hc)
  rw [if_neg (by
    rw [List.any_eq_true]
    rintro ⟨b, hb, hb'⟩
    obtain ⟨r, hr, rfl⟩ := List.mem_map.1 hb
    rw [decide_eq_true (hsz r hr)] at hb'
    simp at hb')]
  obtain ⟨r1, e2, hr1⟩ := mapM_rel (fun r : Rl => (exch Layer.layer r.cls).bind fun c => some { r with cls := c }) SortedRl rls
    (by
      intro r hr
      obtain ⟨c, e, hp, hs⟩ := exch_spec Layer.layer r.cls
      exact ⟨{ r with cls := c }, by rw [e]; rfl, rfl, rfl, hp, hs⟩)
  rw [bind_some_of e2]
  obtain ⟨r2, e3, hr2, hs2⟩ := exch_spec Rl.first r1
  rw [bind_some_of e3]
  obtain ⟨cls', e4, hc, hcs⟩ := exch_spec Layer.layer cls
  obtain ⟨fcls', e5, hf, hfs⟩ := exch_spec Layer.layer fcls
  have hok1 : ∀ r ∈ r1, r.cls ≠ [] ∧ r.cls.Pairwise fun a b => a.layer ≤ b.layer := by
    clear e1 e2 e3 hr2 hs2 hov h0 hsz
    induction hr1 with
    | nil => simp
    | @cons a b l l1 hab _ ih =>
      intro r hr
      rcases List.mem_cons.1 hr with rfl | hr
      · refine ⟨fun e => hne a (by simp) ?_, hab.2.2.2⟩
        have := hab.2.2.1
        rw [e] at this
        exact this.nil_eq.symm
      · exact ih (fun x hx => hne x (by simp [hx])) r hr
  have hok2 : ∀ r ∈ r2, r.cls ≠ [] ∧ r.cls.Pairwise fun a b => a.layer ≤ b.layer := fun r hr => hok1 r (hr2.mem_iff.1 hr)
  have hap : overlaps r2 = false ↔ rls.Pairwise Apart := by
    rw [overlaps_iff r2 hs2 hok2, ← apart_sorted rls r1 hr1, ← hr2.pairwise_iff (fun {x y} => apart_symm x y)]
    constructor
    · exact fun h => h.imp fun hb => Or.inl hb
    · intro h
      refine ((h.and hs2).imp_of_mem ?_)
      rintro r s hr hs ⟨h1 | h1, h2⟩
      · exact h1
      · exfalso
        obtain ⟨a, ha, e⟩ := first_mem r (hok2 r hr).1
        obtain ⟨b, hb, e'⟩ := first_mem s (hok2 s hs).1
        have := h1 a ha b hb
        omega
  have hids : (ids r2 cls' fcls').Perm (ids rls cls fcls) := by
    unfold ids
    refine List.Perm.append (List.Perm.append ?_ (hc.map _)) (hf.map _)
    exact (hr2.flatMap_right _).trans (ids_rl_perm rls r1 hr1)
  by_cases hover : overlaps r2 = true
  · rw [if_pos hover]
    refine ⟨_, rfl, ⟨by rintro ⟨m, hm⟩; simp at hm, fun h => ?_⟩, by simp⟩
    rw [hap.2 h.2.2.1] at hover
    simp at hover
  rw [if_neg hover, bind_some_of e4, bind_some_of e5]
  have hapart : rls.Pairwise Apart := hap.1 (by simpa using hover)
  by_cases hnd : (ids rls cls fcls).Nodup
  · obtain ⟨b, eb, hb⟩ := seqCheck_nodup layers (ids r2 cls' fcls') (hids.nodup_iff.2 hnd) layers (le_refl _) 0 (by omega)
    rw [bind_some_of eb]
    have hb' : b = true ↔ ∀ i, i < layers → i ∈ ids rls cls fcls := by
      rw [hb]
      constructor
      · exact fun h i hi => hids.mem_iff.1 (h i (by omega) hi)
      · exact fun h i _ hi => hids.mem_iff.2 (h i hi)
    cases b with
    | false =>
      refine ⟨_, if_pos rfl, ⟨by rintro ⟨m, hm⟩; simp at hm, fun h => ?_⟩, by simp⟩
      exact absurd (hb'.2 h.2.2.2.2) (by simp)
    | true =>
      rw [if_neg (by simp), if_neg (by
        rw [dups_iff, not_not]
        exact hids.nodup_iff.2 hnd)]
      have hall := hb'.1 rfl
      obtain ⟨o, eo, _⟩ := output_spec layers hl0 r2 cls' fcls' fun i hi => hids.mem_iff.2 (hall i hi)
      rw [bind_some_of eo]
      refine ⟨_, rfl, ⟨fun _ => ⟨hl0, hsz, hapart, hnd, hall⟩, fun _ => ⟨_, rfl⟩⟩, ?_⟩
      rintro m hm
      obtain rfl := (Res.ok.inj hm).symm
      have hn2 := hids.nodup_iff.2 hnd
      unfold ids at hn2
      obtain ⟨n1, n2, _⟩ := List.nodup_append.1 hn2
      obtain ⟨_, n3, _⟩ := List.nodup_append.1 n1
      refine ⟨⟨⟨hf, strict_of _ hfs n2⟩, ⟨hc, strict_of _ hcs n3⟩, ⟨r1, hr1, hr2⟩, ?_⟩, o, eo, rfl⟩
      exact (overlaps_iff r2 hs2 hok2).1 (by simpa using hover)
  · obtain ⟨b, eb⟩ := seqCheck_some layers (ids r2 cls' fcls') (fun i hi => by rw [hids.count_eq]; exact hov i hi) layers (le_refl _) 0
    rw [bind_some_of eb]
    have hd : dups (r2.flatMap fun r => r.cls.map Layer.layer) (cls'.map Layer.layer) (fcls'.map Layer.layer) = true := by
      rw [dups_iff]
      exact fun h => hnd (hids.nodup_iff.1 h)
    refine ⟨.exit, ?_, ⟨by rintro ⟨m, hm⟩; simp at hm, fun h => absurd h.2.2.2.1 hnd⟩, by simp⟩
    cases b
    · exact if_pos rfl
    · rw [if_neg (by simp), if_pos hd]

/-- **C46 (partial: the documented `layers` = number of layers is required).** For
every list of non-empty residual layers, convolutional and fully-connected layers
with as many layers as `layers` says, `network` never misbehaves; it succeeds
exactly when the positions are exactly `0, …, layers-1`, each once, residual layers
do not overlap and have matching sizes; the stored layers are the given ones, each
kind in increasing order; and the output is taken from the layer at the last
position. -/
theorem C46_network_partial (layers : Nat) (rls : List Rl) (cls fcls : List Layer) (hne : ∀ r ∈ rls, r.cls ≠ [])
    (hcount : (ids rls cls fcls).length = layers) :
    ∃ r, network layers rls cls fcls = some r ∧
      ((∃ m, r = .ok m) ↔
        0 < layers ∧ SizesOk rls ∧ rls.Pairwise Apart ∧ (ids rls cls fcls).Perm (List.range layers)) ∧
      ∀ m, r = .ok m → Stores rls cls fcls m ∧ OutAt m (layers - 1) := by
  obtain ⟨r, e, hacc, hst⟩ := network_spec layers rls cls fcls hne fun i _ => by
    rw [← hcount]
    exact List.count_le_length
  have hiff : Accepts layers rls cls fcls ↔
      0 < layers ∧ SizesOk rls ∧ rls.Pairwise Apart ∧ (ids rls cls fcls).Perm (List.range layers) := by
    unfold Accepts
    refine and_congr_right fun _ => and_congr_right fun _ => and_congr_right fun _ => ?_
    constructor
    · rintro ⟨hnd, hall⟩
      have hsub : (List.range layers).Subperm (ids rls cls fcls) :=
        List.nodup_range.subperm fun x hx => hall x (List.mem_range.1 hx)
      exact (hsub.perm_of_length_le (by rw [hcount, List.length_range])).symm
    · intro hp
      exact ⟨hp.nodup_iff.2 List.nodup_range, fun i hi => hp.mem_iff.2 (List.mem_range.2 hi)⟩
  refine ⟨r, e, hacc.trans hiff, fun m hm => ?_⟩
  obtain ⟨hs, o, eo, ho⟩ := hst m hm
  refine ⟨hs, ?_⟩
  have hA := hacc.1 ⟨m, hm⟩
  obtain ⟨hl, _, _, hperm⟩ := hiff.1 hA
  obtain ⟨r1, hr1, hr1p⟩ := hs.rls
  have hids : (ids m.rls m.cls m.fcls).Perm (List.range layers) := by
    refine List.Perm.trans ?_ hperm
    unfold ids
    refine List.Perm.append (List.Perm.append ?_ (hs.cls.1.map _)) (hs.fcls.1.map _)
    exact (hr1p.flatMap_right _).trans (ids_rl_perm rls r1 hr1)
  have hlt : ∀ x ∈ ids m.rls m.cls m.fcls, x ≤ layers - 1 := by
    intro x hx
    have := List.mem_range.1 (hids.mem_iff.1 hx)
    omega
  obtain ⟨o', eo', h1, h2, h3⟩ := output_spec layers hl m.rls m.cls m.fcls fun i hi => hids.mem_iff.2 (List.mem_range.2 hi)
  have hoo : m.out = o' := by
    rw [ho]
    exact Option.some.inj (eo.symm.trans eo')
  have lastKey : ∀ (l : List Layer) (x : Layer), l.getLast? = some x → l.Pairwise (fun a b => a.layer < b.layer) →
      layers - 1 ∈ l.map Layer.layer → (∀ y ∈ l, y.layer ≤ layers - 1) → x ∈ l ∧ x.layer = layers - 1 := by
    intro l x hx hp hm hle
    have hxm := List.mem_of_getLast? hx
    refine ⟨hxm, ?_⟩
    obtain ⟨y, hy, ey⟩ := List.mem_map.1 hm
    obtain ⟨l0, rfl⟩ : ∃ l0, l = l0 ++ [x] := by
      rcases List.eq_nil_or_concat' l with rfl | ⟨l0, z, rfl⟩
      · simp at hx
      · simp at hx
        exact ⟨l0, by rw [hx]⟩
    have := hle x hxm
    rcases List.mem_append.1 hy with hy | hy
    · have := (List.pairwise_append.1 hp).2.2 y hy x (by simp)
      omega
    · rw [List.mem_singleton.1 hy] at ey
      exact ey
  unfold OutAt
  rw [hoo]
  by_cases c1 : layers - 1 ∈ m.rls.flatMap fun r => r.cls.map Layer.layer
  · obtain ⟨r', hr', rfl⟩ := h1 c1
    have hrm := List.mem_of_getLast? hr'
    refine ⟨hrm, ?_⟩
    obtain ⟨s, hsm, hmem⟩ := List.mem_flatMap.1 c1
    obtain ⟨c, hcm, ec⟩ := List.mem_map.1 hmem
    obtain ⟨l0, hl0⟩ : ∃ l0, m.rls = l0 ++ [r'] := by
      rcases List.eq_nil_or_concat' m.rls with h | ⟨l0, z, h⟩
      · rw [h] at hr'; simp at hr'
      · rw [h] at hr'
        simp at hr'
        exact ⟨l0, by rw [h, hr']⟩
    rw [hl0] at hsm
    rcases List.mem_append.1 hsm with hsm | hsm
    · exfalso
      have hb := hs.order
      rw [hl0] at hb
      have hbefore := (List.pairwise_append.1 hb).2.2 s hsm r' (by simp)
      have hne' : r'.cls ≠ [] := by
        exact nonempty_of rls r1 hr1 hne r' (hr1p.mem_iff.1 hrm)
      obtain ⟨d, hd, _⟩ := first_mem r' hne'
      have g1 := hbefore c hcm d hd
      have g2 := hlt d.layer (by
        unfold ids
        rw [List.mem_append, List.mem_append]
        exact Or.inl (Or.inl (List.mem_flatMap.2 ⟨r', hrm, List.mem_map.2 ⟨d, hd, rfl⟩⟩)))
      omega
    · rw [List.mem_singleton.1 hsm] at hcm
      exact ⟨c, hcm, ec⟩
  · by_cases c2 : layers - 1 ∈ m.cls.map Layer.layer
    · obtain ⟨x, hx, rfl⟩ := h2 c1 c2
      exact lastKey m.cls x hx hs.cls.2 c2 fun y hy => hlt _ (by
        unfold ids
        rw [List.mem_append, List.mem_append]
        exact Or.inl (Or.inr (List.mem_map.2 ⟨y, hy, rfl⟩)))
    · obtain ⟨x, hx, rfl⟩ := h3 c1 c2
      have c3 : layers - 1 ∈ m.fcls.map Layer.layer := by
        have := hids.mem_iff.2 (List.mem_range.2 (show layers - 1 < layers by omega))
        unfold ids at this
        rw [List.mem_append, List.mem_append] at this
        tauto
      exact lastKey m.fcls x hx hs.fcls.2 c3 fun y hy => hlt _ (by
        unfold ids
        rw [List.mem_append, List.mem_append]
        exact Or.inr (List.mem_map.2 ⟨y, hy, rfl⟩))

/-- A network with one residual layer of two layers (listed in the wrong order), a
convolutional and a fully-connected layer. -/
example : network 4 [⟨[⟨2, 5, 1⟩, ⟨1, 5, 0⟩], 5, 9⟩] [⟨0, 5, 2⟩] [⟨3, 4, 3⟩] =
    some (.ok ⟨[⟨[⟨1, 5, 0⟩, ⟨2, 5, 1⟩], 5, 9⟩], [⟨0, 5, 2⟩], [⟨3, 4, 3⟩], .fcl ⟨3, 4, 3⟩⟩) := by decide

/-- **C46, refuted without the count.** A layer at a position beyond `layers` is
accepted, and then provides the output; and with two layers at position 0 of one the
table of positions overflows before the duplicate is noticed. -/
theorem C46_count_refuted :
    network 1 [] [] [⟨0, 1, 0⟩, ⟨5, 1, 1⟩] = some (.ok ⟨[], [], [⟨0, 1, 0⟩, ⟨5, 1, 1⟩], .fcl ⟨5, 1, 1⟩⟩) ∧
    network 1 [] [] [⟨0, 1, 0⟩, ⟨0, 1, 1⟩] = none := by decide

/-- **C79, sizes (partial: the layers of every residual layer are given in increasing
order).** Then the last stored layer of every residual layer of an accepted model
has the size of the residual layer's input, so the skip connection can be added. -/
theorem C79_size_partial (layers : Nat) (rls : List Rl) (cls fcls : List Layer) (hne : ∀ r ∈ rls, r.cls ≠ [])
    (hcount : (ids rls cls fcls).length = layers)
    (hsort : ∀ r ∈ rls, r.cls.Pairwise fun a b => a.layer < b.layer) (m : Model)
    (hm : network layers rls cls fcls = some (.ok m)) : ∀ r ∈ m.rls, ∃ c, r.cls.getLast? = some c ∧ c.size = r.size := by
  obtain ⟨r0, e, hacc, hst⟩ := C46_network_partial layers rls cls fcls hne hcount
  rw [hm] at e
  have e := (Option.some.inj e).symm
  have hsz := (hacc.1 ⟨m, e⟩).2.1
  obtain ⟨hs, _⟩ := hst m e
  obtain ⟨r1, hf, hp⟩ := hs.rls
  intro r hr
  obtain ⟨s, hsm, h1, _, h3, h4⟩ : ∃ s ∈ rls, SortedRl s r := by
    have hr1 := hp.mem_iff.1 hr
    clear hp hs hst hacc hm hsz hsort hcount hne
    induction hf with
    | nil => simp at hr1
    | cons h _ ih =>
      rcases List.mem_cons.1 hr1 with rfl | hr1
      · exact ⟨_, by simp, h⟩
      · obtain ⟨s, a, b⟩ := ih hr1
        exact ⟨s, by simp [a], b⟩
  have heq : r.cls = s.cls := by
    refine List.Perm.eq_of_pairwise (le := fun a b : Layer => a.layer ≤ b.layer) ?_ h4
      ((hsort s hsm).imp fun h => le_of_lt h) h3
    intro a b ha hb hab hba
    have hinj : ∀ x ∈ s.cls, ∀ y ∈ s.cls, x.layer = y.layer → x = y :=
      List.inj_on_of_nodup_map (f := Layer.layer) (List.pairwise_map.2 ((hsort s hsm).imp fun h => ne_of_lt h))
    exact hinj a (h3.mem_iff.1 ha) b hb (le_antisymm hab hba)
  have hne' := hne s hsm
  refine ⟨s.cls.getLast hne', by rw [heq, List.getLast?_eq_some_getLast hne'], ?_⟩
  rw [h1]
  exact hsz s hsm _ (List.getLast?_eq_some_getLast hne')

example : network 2 [⟨[⟨0, 7, 0⟩, ⟨1, 4, 1⟩], 4, 9⟩] [] [] =
    some (.ok ⟨[⟨[⟨0, 7, 0⟩, ⟨1, 4, 1⟩], 4, 9⟩], [], [], .rl ⟨[⟨0, 7, 0⟩, ⟨1, 4, 1⟩], 4, 9⟩⟩) := by decide

/-- **C79, refuted: other layers inside a residual layer.** A residual layer on
positions 0 and 2 with a fully-connected layer at position 1 is accepted. -/
theorem C79_interleaved_refuted :
    ∃ m, network 3 [⟨[⟨0, 4, 0⟩, ⟨2, 4, 1⟩], 4, 9⟩] [] [⟨1, 4, 2⟩] = some (.ok m) ∧ m.rls.map Rl.cls = [[⟨0, 4, 0⟩, ⟨2, 4, 1⟩]] := by
  refine ⟨⟨[⟨[⟨0, 4, 0⟩, ⟨2, 4, 1⟩], 4, 9⟩], [], [⟨1, 4, 2⟩], .rl ⟨[⟨0, 4, 0⟩, ⟨2, 4, 1⟩], 4, 9⟩⟩, by decide, rfl⟩

/-- **C79, refuted: sizes.** The size check is made before sorting: a residual layer
whose true last layer has the wrong size is accepted when its layers are given in
the reverse order, and one with the right size is rejected. -/
theorem C79_size_refuted :
    network 2 [⟨[⟨1, 7, 0⟩, ⟨0, 4, 1⟩], 4, 9⟩] [] [] =
      some (.ok ⟨[⟨[⟨0, 4, 1⟩, ⟨1, 7, 0⟩], 4, 9⟩], [], [], .rl ⟨[⟨0, 4, 1⟩, ⟨1, 7, 0⟩], 4, 9⟩⟩) ∧
    network 2 [⟨[⟨1, 4, 0⟩, ⟨0, 7, 1⟩], 4, 9⟩] [] [] = some .exit := by decide

end LLab.Network
