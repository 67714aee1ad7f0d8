import Verif.Replay.BufferProps
import Verif.Replay.SampleProps

/-!
The replay buffer of EfficientZero (`/repo/src/efficientzero.c` 31-335, 388-678): construction,
`add_experience_efficientzero` with its three kinds of sampling, and the priority update.
Property C154.

State vectors are opaque values, the null pointer is `none`. `pw c` stands for
`pow(1.0/(double)c, alpha_priorization)`. Memory management is not modelled. The training function
of the file (685-985) is commented out in the source.
-/

open scoped Classical

namespace LLab.Replay.Efficient

variable {S F : Type} [Field F] [LinearOrder F]

/-! ### Model -/

/-- The arrays allocated for each `sampling_flag` (`/repo/src/efficientzero.c` 224-292); the others
are null. -/
inductive Samp (F : Type) where
  /-- `RANKED_SAMPLING`: the heap, and `ranked_values` with its tree and total. -/
  | ranked (heap : Heap F) (tab : Ranked F)
  /-- `REWARD_SAMPLING`: positive, negative and neutral classes. -/
  | reward (pos neg neu : Cls F)
  /-- `UNIFORM_SAMPLING`: `uniform_sampling_indices`. -/
  | uniform (ind : Arr Nat)

/-- The replay part of `struct efficientzero`. -/
structure EZ (S F : Type) where
  cap : Nat
  st : Arr (Option S)
  st1 : Arr (Option S)
  rewards : Arr F
  values : Arr F
  actions : Arr Int
  nonterm : Arr Int
  cur : Nat
  samp : Samp F

/-- The arguments of `add_experience_efficientzero`. -/
structure Exper (S F : Type) where
  state : S
  next : S
  value : F
  action : Int
  reward : F
  nonterminal : Int

/-- `/repo/src/efficientzero.c` 462-464, 501-503. -/
def EZ.length (z : EZ S F) : Option Nat :=
  if z.cap = 0 then none
  else do
    let l ← z.st.read (z.cap - 1)
    some (if l.isNone then z.cur else z.cap)

/-- The bookkeeping at `/repo/src/efficientzero.c` 654-675. The branches are
`add_buffer_state_efficientzero` (390-401), `update_buffer_state_efficientzero` (461-467),
`add_buffer_state_reward_sampling_efficientzero` (423-458) and
`update_buffer_state_reward_sampling_efficientzero` (500-625); the text of these four functions is
that of `rainbow.c` 1291-1526, so their models are shared with it. -/
noncomputable def EZ.record (pw : Int → F) (z : EZ S F) (wasNull : Bool) (previous : F) : Option (Samp F) :=
  match z.samp with
  | .ranked h t =>
    if wasNull then do
      let h ← h.add 100 z.cur
      let t ← t.add z.cur (pw (z.cur + 1))
      some (.ranked h t)
    else do
      let pos ← h.rev.read z.cur
      let top ← h.at 0
      let n ← z.length
      let h ← h.update n pos top
      some (.ranked h t)
  | .reward p n q => do
    let b : RBuf F := ⟨z.cap, ⟨z.st.len, fun i => (z.st.get i).isSome⟩, z.rewards, z.cur, p, n, q⟩
    let b ← (if wasNull then b.addState z.cur else b.updateState pw z.cur previous)
    some (.reward b.pos b.neg b.neu)
  | .uniform ind =>
    if wasNull then do
      let ind ← ind.write z.cur z.cur
      some (.uniform ind)
    else some (.uniform ind)

/-- `add_experience_efficientzero` (`/repo/src/efficientzero.c` 629-680). -/
noncomputable def EZ.add (pw : Int → F) (z : EZ S F) (e : Exper S F) : Option (EZ S F) := do
  let old ← z.st.read z.cur
  let previous ← (if old.isNone then some 0 else z.rewards.read z.cur)
  let st ← z.st.write z.cur (some e.state)
  let st1 ← z.st1.write z.cur (some e.next)
  let rewards ← z.rewards.write z.cur e.reward
  let values ← z.values.write z.cur e.value
  let actions ← z.actions.write z.cur e.action
  let nonterm ← z.nonterm.write z.cur e.nonterminal
  let z1 : EZ S F := ⟨z.cap, st, st1, rewards, values, actions, nonterm, z.cur, z.samp⟩
  let samp ← z1.record pw old.isNone previous
  some { z1 with samp := samp, cur := (z1.cur + 1) % z1.cap }

/-- `update_buffer_state_efficientzero(r, reverse_error_indices[slot], error)`
(`/repo/src/efficientzero.c` 461-467); without ranked sampling the arrays are null. -/
def EZ.setPriority (z : EZ S F) (slot : Nat) (error : F) : Option (EZ S F) :=
  match z.samp with
  | .ranked h t => do
    let pos ← h.rev.read slot
    let n ← z.length
    let h ← h.update n pos error
    some { z with samp := .ranked h t }
  | _ => none

/-- The three values of `sampling_flag`. -/
inductive Mode where
  | ranked | reward | uniform

/-- The sampling arrays after `calloc` (`/repo/src/efficientzero.c` 224-292). -/
def Samp.init (cap : Nat) : Mode → Samp F
  | .ranked => .ranked ⟨⟨cap, fun _ => 0⟩, ⟨cap, fun _ => 0⟩, ⟨cap, fun _ => 0⟩⟩ ⟨⟨cap, fun _ => 0⟩, ⟨cap, fun _ => 0⟩, 0⟩
  | .reward => .reward (Cls.init cap) (Cls.init cap) (Cls.init cap)
  | .uniform => .uniform ⟨cap, fun _ => 0⟩

/-- The buffer after `calloc` (`/repo/src/efficientzero.c` 211-222). -/
def EZ.init (cap : Nat) (mode : Mode) : EZ S F :=
  ⟨cap, ⟨cap, fun _ => none⟩, ⟨cap, fun _ => none⟩, ⟨cap, fun _ => 0⟩, ⟨cap, fun _ => 0⟩, ⟨cap, fun _ => 0⟩, ⟨cap, fun _ => 0⟩, 0,
    Samp.init cap mode⟩

/-- An operation on the buffer. -/
inductive EOp (S F : Type) where
  | add (e : Exper S F)
  | setPriority (slot : Nat) (error : F)

/-- One operation. -/
noncomputable def EZ.step (pw : Int → F) (z : EZ S F) : EOp S F → Option (EZ S F)
  | .add e => z.add pw e
  | .setPriority slot error => z.setPriority slot error

/-- A history. -/
noncomputable def EZ.run (pw : Int → F) : EZ S F → List (EOp S F) → Option (EZ S F)
  | z, [] => some z
  | z, o :: os => do
    let z' ← z.step pw o
    EZ.run pw z' os

/-- The arguments of `init_efficientzero` that it checks or computes with
(`/repo/src/efficientzero.c` 31-36); `gdOk` etc. say that the flag is one of the listed ones. -/
structure Params (F : Type) where
  mode : Option Mode
  (decayOk ffOk trainOk gdOk : Bool)
  (batch threads : Int)
  (cap nStep : Nat)
  (alpha beta betaIncrease gamma lambda tau beta1 beta2 beta3 kPercentage clipping adaptive lr lrMin lrMax lrDecay momentum : F)
  model : Bool

/-- `x < 0 || x > 1` -/
def outside (x : F) : Prop := x < 0 ∨ x > 1

/-- `init_efficientzero` (`/repo/src/efficientzero.c` 31-335): the checks (38-178) in order, where
`none` stands for `exit(1)`, the buffer, and the discount of 321-324. -/
noncomputable def create (p : Params F) : Option (EZ S F × F) :=
  match p.mode with
  | none => none
  | some mode =>
    if outside p.betaIncrease then none
    else if p.decayOk = false then none
    else if p.ffOk = false then none
    else if p.trainOk = false then none
    else if p.gdOk = false then none
    else if p.batch ≤ 0 then none
    else if p.threads ≤ 0 then none
    else if p.threads > p.batch then none
    else if p.cap ≤ 1 then none
    else if p.nStep = 0 then none
    else if outside p.alpha then none
    else if outside p.beta then none
    else if outside p.gamma then none
    else if outside p.tau then none
    else if outside p.beta1 then none
    else if outside p.beta2 then none
    else if outside p.beta3 then none
    else if outside p.kPercentage then none
    else if p.clipping < 0 then none
    else if outside p.adaptive then none
    else if outside p.lr then none
    else if outside p.lambda then none
    else if outside p.lrMin then none
    else if outside p.lrMax then none
    else if outside p.lrDecay then none
    else if outside p.momentum then none
    else if p.lrMin > p.lrMax then none
    else if p.model = false then none
    else some (EZ.init p.cap mode, (List.range p.nStep).foldl (fun g _ => g * p.lambda) 1)

/-! ### Specification -/

/-- Slot `s` holds experience `e`, all six fields. -/
def EZ.Holds (z : EZ S F) (s : Nat) (e : Exper S F) : Prop :=
  z.st.get s = some e.state ∧ z.st1.get s = some e.next ∧ z.rewards.get s = e.reward ∧ z.values.get s = e.value ∧
    z.actions.get s = e.action ∧ z.nonterm.get s = e.nonterminal

/-- The buffer holds the last `cap` of the experiences `es`, and nothing else. -/
def EZ.Stores (z : EZ S F) (cap : Nat) (es : List (Exper S F)) : Prop :=
  z.length = some (min es.length cap) ∧ (∀ (k : Nat) e, es[k]? = some e → es.length ≤ k + cap → z.Holds (k % cap) e) ∧
    ∀ s, s < cap → es.length ≤ s → z.st.get s = none

/-- The experiences added by a history. -/
def eadded : List (EOp S F) → List (Exper S F)
  | [] => []
  | .add e :: os => e :: eadded os
  | .setPriority _ _ :: os => eadded os

/-- The operation seen by the priorities. -/
def EOp.toOp : EOp S F → Op S F
  | .add e => .add ⟨e.state, e.next, e.action, e.reward, e.nonterminal⟩
  | .setPriority slot error => .setPriority slot error

/-- The parameters the constructor documents. -/
structure Params.Valid (p : Params F) : Prop where
  flags : p.mode.isSome ∧ p.decayOk ∧ p.ffOk ∧ p.trainOk ∧ p.gdOk ∧ p.model
  sizes : 1 ≤ p.threads ∧ p.threads ≤ p.batch ∧ 2 ≤ p.cap ∧ 1 ≤ p.nStep
  unit : ∀ x ∈ [p.alpha, p.beta, p.betaIncrease, p.gamma, p.lambda, p.tau, p.beta1, p.beta2, p.beta3, p.kPercentage, p.adaptive, p.lr, p.lrMin,
    p.lrMax, p.lrDecay, p.momentum], 0 ≤ x ∧ x ≤ 1
  clipping : 0 ≤ p.clipping
  rates : p.lrMin ≤ p.lrMax

/-! ### The ring -/

/-- Invariant of the ring after the experiences `es`. -/
structure RingInv (z : EZ S F) (cap : Nat) (es : List (Exper S F)) : Prop where
  hcap : z.cap = cap
  lens : z.st.len = cap ∧ z.st1.len = cap ∧ z.rewards.len = cap ∧ z.values.len = cap ∧ z.actions.len = cap ∧ z.nonterm.len = cap
  cur : z.cur = es.length % cap
  empty : ∀ s, s < cap → es.length ≤ s → z.st.get s = none
  holds : ∀ (k : Nat) e, es[k]? = some e → es.length ≤ k + cap → z.Holds (k % cap) e

omit [Field F] [LinearOrder F] in
theorem RingInv.filled {z : EZ S F} {cap : Nat} {es : List (Exper S F)} (i : RingInv z cap es) (hc : 0 < cap) {s : Nat}
    (hs : s < min es.length cap) : z.st.get s ≠ none := by
  have hs1 : s < cap := lt_of_lt_of_le hs (min_le_right _ _)
  have hs2 : s < es.length := lt_of_lt_of_le hs (min_le_left _ _)
  set q := (es.length - 1 - s) / cap with hq
  have h1 : s + cap * q < es.length := by
    have := Nat.mul_div_le (es.length - 1 - s) cap
    rw [← hq] at this; omega
  have h2 : es.length ≤ s + cap * q + cap := by
    have := Nat.lt_mul_div_succ (es.length - 1 - s) hc
    rw [← hq, Nat.mul_add] at this
    omega
  obtain ⟨e, he⟩ : ∃ e, es[s + cap * q]? = some e := ⟨_, List.getElem?_eq_getElem h1⟩
  have := (i.holds _ e he h2).1
  rw [Nat.add_mul_mod_self_left, Nat.mod_eq_of_lt hs1] at this
  rw [this]
  exact Option.some_ne_none _

omit [Field F] [LinearOrder F] in
theorem RingInv.length_eq {z : EZ S F} {cap : Nat} {es : List (Exper S F)} (i : RingInv z cap es) (hc : 0 < cap) :
    z.length = some (min es.length cap) := by
  unfold EZ.length
  rw [i.hcap, if_neg (by omega), Arr.read_eq (by rw [i.lens.1]; omega)]
  simp only [Option.bind_eq_bind, Option.bind_some]
  by_cases hf : cap ≤ es.length
  · have := i.filled hc (s := cap - 1) (by rw [Nat.min_eq_right hf]; omega)
    rw [if_neg (by simpa using this), Nat.min_eq_right hf]
  · rw [i.empty (cap - 1) (by omega) (by omega), i.cur, Nat.mod_eq_of_lt (by omega), Nat.min_eq_left (by omega)]
    rfl

/-- The buffer after the six writes. -/
def EZ.put (z : EZ S F) (e : Exper S F) : EZ S F :=
  ⟨z.cap, ⟨z.st.len, Function.update z.st.get z.cur (some e.state)⟩, ⟨z.st1.len, Function.update z.st1.get z.cur (some e.next)⟩,
    ⟨z.rewards.len, Function.update z.rewards.get z.cur e.reward⟩, ⟨z.values.len, Function.update z.values.get z.cur e.value⟩,
    ⟨z.actions.len, Function.update z.actions.get z.cur e.action⟩, ⟨z.nonterm.len, Function.update z.nonterm.get z.cur e.nonterminal⟩,
    z.cur, z.samp⟩

omit [Field F] [LinearOrder F] in
theorem RingInv.put {z : EZ S F} {cap : Nat} {es : List (Exper S F)} (i : RingInv z cap es) (hc : 0 < cap) (e : Exper S F) (s' : Samp F) :
    RingInv { z.put e with samp := s', cur := (z.cur + 1) % z.cap } cap (es ++ [e]) := by
  have hcl : z.cur < cap := by rw [i.cur]; exact Nat.mod_lt _ hc
  refine ⟨i.hcap, i.lens, ?_, ?_, ?_⟩
  · show (z.cur + 1) % z.cap = _
    rw [i.hcap, i.cur, List.length_append]
    simp
  · intro s hs hge
    rw [List.length_append, List.length_singleton] at hge
    have hne : s ≠ z.cur := by
      rw [i.cur, Nat.mod_eq_of_lt (by omega)]
      omega
    show Function.update z.st.get z.cur (some e.state) s = none
    rw [Function.update_of_ne hne]
    exact i.empty s hs (by omega)
  · intro k e' hk hlen
    rw [List.length_append, List.length_singleton] at hlen
    by_cases hke : k = es.length
    · subst hke
      rw [List.getElem?_append_right le_rfl] at hk
      simp at hk
      subst hk
      simp [EZ.Holds, EZ.put, i.cur]
    · have hk2 : k < es.length := by
        have := (List.getElem?_eq_some_iff.1 hk).1
        simp only [List.length_append, List.length_cons, List.length_nil] at this
        omega
      rw [List.getElem?_append_left hk2] at hk
      have hne : k % cap ≠ z.cur := by
        rw [i.cur]
        exact C10_slots_distinct cap (es.length + 1) k es.length (by omega) (by omega) (by omega) (by omega) (by omega)
      have := i.holds k e' hk (by omega)
      simpa [EZ.Holds, EZ.put, Function.update_apply, hne] using this

theorem add_eq {z : EZ S F} {cap : Nat} {es : List (Exper S F)} (i : RingInv z cap es) (hc : 0 < cap) (pw : Int → F) (e : Exper S F) :
    z.add pw e = ((z.put e).record pw (z.st.get z.cur).isNone (if (z.st.get z.cur).isNone then 0 else z.rewards.get z.cur)).bind fun s =>
      some { z.put e with samp := s, cur := (z.cur + 1) % z.cap } := by
  have hcl : z.cur < cap := by rw [i.cur]; exact Nat.mod_lt _ hc
  obtain ⟨l1, l2, l3, l4, l5, l6⟩ := i.lens
  have hprev : (if (z.st.get z.cur).isNone then some (0 : F) else z.rewards.read z.cur) =
      some (if (z.st.get z.cur).isNone then 0 else z.rewards.get z.cur) := by
    rw [Arr.read_eq (by omega)]
    split_ifs <;> rfl
  unfold EZ.add
  rw [Arr.read_eq (by omega)]
  rw [Arr.write_eq _ (by omega), Arr.write_eq _ (by omega), Arr.write_eq _ (by omega), Arr.write_eq _ (by omega),
    Arr.write_eq _ (by omega), Arr.write_eq _ (by omega)]
  have hb : ∀ {α β : Type} {o : Option α} {a : α} {f : α → Option β}, o = some a → o.bind f = f a := by
    intro α β o a f h
    rw [h]
    rfl
  refine (hb rfl).trans ((hb hprev).trans ?_)
  rfl

omit [Field F] [LinearOrder F] in
/-- Whether the slot at the current index is empty. -/
theorem RingInv.null {z : EZ S F} {cap : Nat} {es : List (Exper S F)} (i : RingInv z cap es) (hc : 0 < cap) :
    (z.st.get z.cur).isNone = decide (es.length < cap) := by
  have hcl : z.cur < cap := by rw [i.cur]; exact Nat.mod_lt _ hc
  by_cases h : es.length < cap
  · rw [i.empty z.cur hcl (by rw [i.cur, Nat.mod_eq_of_lt h])]
    simp [h]
  · have := i.filled hc (s := z.cur) (by omega)
    cases hz : z.st.get z.cur with
    | none => exact absurd hz this
    | some x => simp [h]

/-! ### Ranked sampling -/

/-- The rank table after `m` insertions. -/
def TabOk (w : Nat → F) (cap m : Nat) (t : Ranked F) : Prop :=
  t.ranked.len = cap ∧ t.cum.len = cap ∧ (∀ q, q < cap → t.ranked.get q = firstW w m q) ∧
    (∀ p, p < cap → t.cum.get p = sumBelow (firstW w m) cap p) ∧ t.sum = ∑ q ∈ Finset.range cap, firstW w m q

theorem TabOk.add {w : Nat → F} {cap m : Nat} {t : Ranked F} (h : TabOk w cap m t) (hm : m < cap) :
    ∃ t', t.add m (w m) = some t' ∧ TabOk w cap (m + 1) t' := by
  obtain ⟨h1, h2, h3, h4, h5⟩ := h
  obtain ⟨s', e, r⟩ := addAll_aux w cap 1 m t (by omega) h1 h2 h3 h4 h5
  refine ⟨s', ?_, r⟩
  simp only [Ranked.addAll, Option.bind_eq_bind] at e
  cases ht : t.add m (w m) with
  | none => rw [ht] at e; cases e
  | some x => rw [ht] at e; exact e

/-- Invariant of ranked sampling. -/
structure RankInv (pw : Int → F) (cap k : Nat) (h : Heap F) (t : Ranked F) : Prop where
  sized : h.Sized cap
  bij : h.Bij (min k cap)
  ordered : h.Ordered (min k cap)
  tab : TabOk (fun q => pw (q + 1)) cap (min k cap) t

theorem rank_add {pw : Int → F} {z : EZ S F} {cap : Nat} {es : List (Exper S F)} (i : RingInv z cap es) (hc : 0 < cap) {h : Heap F} {t : Ranked F}
    (hz : z.samp = .ranked h t) (r : RankInv pw cap es.length h t) (e : Exper S F) :
    ∃ z' h' t' top, z.add pw e = some z' ∧ RingInv z' cap (es ++ [e]) ∧ z'.samp = .ranked h' t' ∧ RankInv pw cap (es.length + 1) h' t' ∧
      (es.length = 0 → top = 100) ∧ (es.length ≠ 0 → top = h.val 0) ∧
      ∀ s, h'.values.get s = if s = es.length % cap then top else h.values.get s := by
  have hcl : z.cur < cap := by rw [i.cur]; exact Nat.mod_lt _ hc
  rw [add_eq i hc pw e, i.null hc]
  have hsamp : (z.put e).samp = .ranked h t := hz
  have hcurp : (z.put e).cur = z.cur := rfl
  by_cases hf : es.length < cap
  · have hm : min es.length cap = es.length := by omega
    have hm2 : min (es.length + 1) cap = es.length + 1 := by omega
    have hcur : z.cur = es.length := by rw [i.cur, Nat.mod_eq_of_lt hf]
    have hb := r.bij
    have ho := r.ordered
    have ht := r.tab
    rw [hm] at hb ho ht
    obtain ⟨h', e1, s1, b1, o1, v1⟩ := add_spec 100 r.sized hb ho hf
    obtain ⟨t', e2, t1⟩ := ht.add hf
    refine ⟨_, h', t', if es.length = 0 then 100 else h.val 0, ?_, i.put hc e (.ranked h' t'), rfl, ⟨s1, ?_, ?_, ?_⟩, ?_, ?_, ?_⟩
    · simp only [EZ.record, hsamp, hcurp, hcur, decide_true, hf, if_true, e1, Option.bind_eq_bind, Option.bind_some]
      rw [e2]
      rfl
    · rw [hm2]; exact b1
    · rw [hm2]; exact o1
    · rw [hm2]; exact t1
    · intro h0; simp [h0]
    · intro h0; simp [h0]
    · intro s
      rw [v1 s, Nat.mod_eq_of_lt hf]
  · have hm : min es.length cap = cap := by omega
    have hm2 : min (es.length + 1) cap = cap := by omega
    have hb := r.bij
    have ho := r.ordered
    rw [hm] at hb ho
    have w : Wf h cap cap := ⟨r.sized, hb, le_rfl⟩
    have hrv := hb.2 z.cur hcl
    have hr : h.rev.read z.cur = some (h.rev.get z.cur) := Arr.read_eq (by rw [r.sized.2.2]; omega)
    have hat := w.at_eq (p := 0) hc
    obtain ⟨h', e1, w1, o1, v1⟩ := update_spec (pos := h.rev.get z.cur) (h.val 0) w ho hrv.1
    have hlen : (z.put e).length = some cap := by
      unfold EZ.length
      have hcp : (z.put e).cap = cap := i.hcap
      rw [hcp, if_neg (by omega), Arr.read_eq (a := (z.put e).st) (show cap - 1 < z.st.len by rw [i.lens.1]; omega)]
      have : (z.put e).st.get (cap - 1) ≠ none := by
        show Function.update z.st.get z.cur (some e.state) (cap - 1) ≠ none
        rw [Function.update_apply]
        split_ifs
        · simp
        · exact i.filled hc (by omega)
      simp only [Option.bind_eq_bind, Option.bind_some]
      rw [if_neg (by simpa using this)]
    refine ⟨_, h', t, h.val 0, ?_, i.put hc e (.ranked h' t), rfl, ⟨w1.sized, ?_, ?_, ?_⟩, ?_, ?_, ?_⟩
    · simp only [EZ.record, hsamp, hcurp, hf, decide_false, Bool.false_eq_true, if_false, Option.bind_eq_bind, hr, hat, hlen, Option.bind_some, e1]
    · rw [hm2]; exact w1.bij
    · rw [hm2]; exact o1
    · rw [hm2]; have := r.tab; rwa [hm] at this
    · intro h0; omega
    · intro _; rfl
    · intro s
      rw [v1 s, hrv.2, i.cur]

theorem rank_set {pw : Int → F} {z : EZ S F} {cap : Nat} {es : List (Exper S F)} (i : RingInv z cap es) (hc : 0 < cap) {h : Heap F} {t : Ranked F}
    (hz : z.samp = .ranked h t) (r : RankInv pw cap es.length h t) {slot : Nat} (hs : slot < min es.length cap) (error : F) :
    ∃ z' h', z.setPriority slot error = some z' ∧ RingInv z' cap es ∧ z'.samp = .ranked h' t ∧ RankInv pw cap es.length h' t ∧
      ∀ s, h'.values.get s = if s = slot then error else h.values.get s := by
  have hb := r.bij.2 slot hs
  have hr : h.rev.read slot = some (h.rev.get slot) := Arr.read_eq (by rw [r.sized.2.2]; omega)
  obtain ⟨h', e', w', o', v'⟩ := update_spec (pos := h.rev.get slot) error ⟨r.sized, r.bij, min_le_right _ _⟩ r.ordered hb.1
  refine ⟨{ z with samp := .ranked h' t }, h', ?_, ⟨i.hcap, i.lens, i.cur, i.empty, i.holds⟩, rfl, ⟨w'.sized, w'.bij, o', r.tab⟩, fun s => ?_⟩
  · simp only [EZ.setPriority, hz, hr, i.length_eq hc, e', Option.bind_eq_bind, Option.bind_some]
  · rw [v' s, hb.2]

theorem rank_run {pw : Int → F} {cap : Nat} (hc : 0 < cap) : ∀ (ops : List (EOp S F)) (z : EZ S F) (es : List (Exper S F)) (h : Heap F) (t : Ranked F),
    RingInv z cap es → z.samp = .ranked h t → RankInv pw cap es.length h t → Legal cap es.length (ops.map EOp.toOp) →
    ∃ z' h' t', z.run pw ops = some z' ∧ RingInv z' cap (es ++ eadded ops) ∧ z'.samp = .ranked h' t' ∧
      RankInv pw cap (es ++ eadded ops).length h' t' ∧ Prio cap 100 es.length h.values.get (ops.map EOp.toOp) h'.values.get := by
  intro ops
  induction ops with
  | nil =>
    intro z es h t i hz r _
    exact ⟨z, h, t, rfl, by simpa [eadded] using i, hz, by simpa [eadded] using r, .done _ _⟩
  | cons o os ih =>
    intro z es h t i hz r hl
    cases o with
    | add e =>
      obtain ⟨z1, h1, t1, top, e1, i1, hz1, r1, p0, p1, v1⟩ := rank_add i hc hz r e
      obtain ⟨z2, h2, t2, e2, i2, hz2, r2, p2⟩ := ih z1 (es ++ [e]) h1 t1 i1 hz1 (by simpa using r1) (by simpa [Legal, EOp.toOp] using hl)
      refine ⟨z2, h2, t2, by simp [EZ.run, EZ.step, e1, e2], by simpa [eadded] using i2, hz2, by simpa [eadded] using r2, ?_⟩
      refine .add _ _ _ _ top _ p0 ?_ ?_
      · intro h0
        have ht := p1 h0
        have hm : 0 < min es.length cap := by omega
        refine ⟨⟨h.ind.get 0, (r.bij.1 0 hm).1, by rw [ht]; rfl⟩, fun s hs => ?_⟩
        have hb := r.bij.2 s hs
        have := ordered_top r.ordered _ hb.1
        rw [Heap.val, hb.2] at this
        rw [ht]; exact this
      · have : h1.values.get = Function.update h.values.get (es.length % cap) top := by
          funext s; rw [v1 s, Function.update_apply]
        rw [← this]
        simpa using p2
    | setPriority slot error =>
      obtain ⟨hs, hl'⟩ := hl
      obtain ⟨z1, h1, e1, i1, hz1, r1, v1⟩ := rank_set i hc hz r hs error
      obtain ⟨z2, h2, t2, e2, i2, hz2, r2, p2⟩ := ih z1 es h1 t i1 hz1 r1 hl'
      refine ⟨z2, h2, t2, by simp [EZ.run, EZ.step, e1, e2], by simpa [eadded] using i2, hz2, by simpa [eadded] using r2, ?_⟩
      refine .set _ _ _ _ _ _ ?_
      have : h1.values.get = Function.update h.values.get slot error := by
        funext s; rw [v1 s, Function.update_apply]
      rw [← this]
      exact p2

omit [LinearOrder F] in
theorem RingInv.init (cap : Nat) (mode : Mode) : RingInv (EZ.init cap mode : EZ S F) cap [] := by
  refine ⟨rfl, ⟨rfl, rfl, rfl, rfl, rfl, rfl⟩, ?_, fun _ _ _ => rfl, ?_⟩
  · simp [EZ.init]
  · intro k e hk; simp at hk

omit [Field F] [LinearOrder F] in
theorem RingInv.stores {z : EZ S F} {cap : Nat} {es : List (Exper S F)} (i : RingInv z cap es) (hc : 0 < cap) : z.Stores cap es :=
  ⟨i.length_eq hc, i.holds, i.empty⟩

/-! ### C154 -/

/-- **C154 (ranked sampling).** After any history of insertions and priority updates of filled
slots, nothing was accessed out of bounds, the buffer holds exactly the last `cap` experiences with
their six fields, the heap is ordered with inverse index maps, every slot has the priority the
history asked for, and the rank weights, their total and their tree are those of the filled part. -/
theorem C154_ranked (pw : Int → F) (cap : Nat) (hc : 0 < cap) (ops : List (EOp S F)) (hl : Legal cap 0 (ops.map EOp.toOp)) :
    ∃ (z : EZ S F) (h : Heap F) (t : Ranked F), (EZ.init cap .ranked : EZ S F).run pw ops = some z ∧ z.Stores cap (eadded ops) ∧
      z.samp = .ranked h t ∧ h.Bij (min (eadded ops).length cap) ∧ h.Ordered (min (eadded ops).length cap) ∧
      Prio cap 100 0 (fun _ => 0) (ops.map EOp.toOp) h.values.get ∧
      (∀ q, q < min (eadded ops).length cap → t.ranked.get q = pw (q + 1)) ∧
      t.sum = ∑ q ∈ Finset.range (min (eadded ops).length cap), pw (q + 1) ∧
      ∀ p, p < cap → t.cum.get p = ∑ q ∈ Finset.range (min (eadded ops).length cap), if Below p q then pw (q + 1) else 0 := by
  obtain ⟨z, h, t, e, i, hz, r, p⟩ := rank_run (pw := pw) hc ops (EZ.init cap .ranked) [] _ _ (RingInv.init cap .ranked) rfl (by
    refine ⟨⟨rfl, rfl, rfl⟩, ⟨fun p hp => ?_, fun p hp => ?_⟩, fun p _ hp => ?_, rfl, rfl, fun q _ => ?_, fun p _ => ?_, ?_⟩
    · simp at hp
    · simp at hp
    · simp at hp
    · simp [firstW]
    · simp [firstW, sumBelow]
    · simp [firstW]) hl
  rw [List.nil_append] at i r
  obtain ⟨_, _, q3, q4, q5⟩ := r.tab
  set m := min (eadded ops).length cap with hm
  have hsub : Finset.range m ⊆ Finset.range cap := by
    intro x hx; rw [Finset.mem_range] at hx ⊢; omega
  refine ⟨z, h, t, e, i.stores hc, hz, r.bij, r.ordered, p, ?_, ?_, ?_⟩
  · intro q hq
    rw [q3 q (by omega)]
    simp [firstW, hq]
  · rw [q5]
    symm
    rw [← Finset.sum_subset hsub (f := firstW (fun q => pw (q + 1)) m)]
    · exact Finset.sum_congr rfl fun q hq => by simp [firstW, Finset.mem_range.1 hq]
    · intro q _ hq
      rw [Finset.mem_range] at hq
      simp [firstW, hq]
  · intro p hp
    rw [q4 p hp]
    unfold sumBelow
    symm
    rw [← Finset.sum_subset hsub (f := fun q => if Below p q then firstW (fun q => pw (q + 1)) m q else 0)]
    · exact Finset.sum_congr rfl fun q hq => by simp [firstW, Finset.mem_range.1 hq]
    · intro q _ hq
      rw [Finset.mem_range] at hq
      simp [firstW, hq]

/-- What `addState` and `updateState` leave alone. -/
theorem addState_frame {b b' : RBuf F} {i : Nat} (h : b.addState i = some b') :
    b'.cap = b.cap ∧ b'.filled = b.filled ∧ b'.rewards = b.rewards ∧ b'.cur = b.cur := by
  simp only [RBuf.addState, Option.bind_eq_bind, Option.bind_eq_some_iff] at h
  obtain ⟨r, _, h⟩ := h
  split_ifs at h <;> simp only [Option.bind_eq_some_iff, Option.some.injEq] at h <;> obtain ⟨_, _, rfl⟩ := h <;> exact ⟨rfl, rfl, rfl, rfl⟩

theorem updateState_frame {pw : Int → F} {b b' : RBuf F} {i : Nat} {prev : F} (h : b.updateState pw i prev = some b') :
    b'.cap = b.cap ∧ b'.filled = b.filled ∧ b'.rewards = b.rewards ∧ b'.cur = b.cur := by
  simp only [RBuf.updateState, Option.bind_eq_bind, Option.bind_eq_some_iff] at h
  obtain ⟨r, _, h⟩ := h
  split_ifs at h <;> simp only [Option.bind_eq_some_iff, Option.some.injEq] at h <;>
    first
    | (obtain ⟨_, _, rfl⟩ := h; exact ⟨rfl, rfl, rfl, rfl⟩)
    | (obtain ⟨_, _, _, _, rfl⟩ := h; exact ⟨rfl, rfl, rfl, rfl⟩)

/-- The buffer as the reward classes see it. -/
def EZ.classes (z : EZ S F) (p n q : Cls F) : RBuf F := ⟨z.cap, ⟨z.st.len, fun i => (z.st.get i).isSome⟩, z.rewards, z.cur, p, n, q⟩

theorem reward_add {pw : Int → F} (hpw : pw 1 = 1) {z : EZ S F} {cap : Nat} {es : List (Exper S F)} (i : RingInv z cap es) (hc : 0 < cap)
    {p n q : Cls F} (hz : z.samp = .reward p n q) {s : Slots F} (r : RInv pw cap es.length (z.classes p n q) s) (e : Exper S F) :
    ∃ z' p' n' q', z.add pw e = some z' ∧ RingInv z' cap (es ++ [e]) ∧ z'.samp = .reward p' n' q' ∧
      RInv pw cap (es.length + 1) (z'.classes p' n' q') (Function.update s (es.length % cap) (some (e.reward, 1))) := by
  have hcl : z.cur < cap := by rw [i.cur]; exact Nat.mod_lt _ hc
  obtain ⟨b', eb, rb⟩ := r.add hc hpw e.reward
  have hst := i.lens.1
  have hrl := i.lens.2.2.1
  -- the run of the classes
  set b1 : RBuf F := (z.put e).classes p n q with hb1
  have hfl : (⟨z.st.len, Function.update (fun i => (z.st.get i).isSome) z.cur true⟩ : Arr Bool) =
      ⟨z.st.len, fun i => (Function.update z.st.get z.cur (some e.state) i).isSome⟩ := by
    congr 1
    funext j
    by_cases hj : j = z.cur
    · subst hj; simp
    · simp [hj]
  have hrun : (z.classes p n q).add pw e.reward = (if (z.st.get z.cur).isSome then b1.updateState pw z.cur (z.rewards.get z.cur) else b1.addState z.cur).bind
      fun b2 => some { b2 with cur := (b2.cur + 1) % b2.cap } := by
    unfold RBuf.add
    have c1 : (z.classes p n q).filled.read (z.classes p n q).cur = some (z.st.get z.cur).isSome :=
      Arr.read_eq (a := (z.classes p n q).filled) (show z.cur < z.st.len by omega)
    have c2 : (z.classes p n q).rewards.read (z.classes p n q).cur = some (z.rewards.get z.cur) :=
      Arr.read_eq (a := (z.classes p n q).rewards) (show z.cur < z.rewards.len by omega)
    have c3 : (z.classes p n q).filled.write (z.classes p n q).cur true = some b1.filled := by
      refine (Arr.write_eq (a := (z.classes p n q).filled) true (show z.cur < z.st.len by omega)).trans ?_
      exact congrArg some hfl
    have c4 : (z.classes p n q).rewards.write (z.classes p n q).cur e.reward = some b1.rewards :=
      Arr.write_eq (a := (z.classes p n q).rewards) e.reward (show z.cur < z.rewards.len by omega)
    rw [c1, c2, c3, c4]
    simp only [Option.bind_eq_bind, Option.bind_some]
    cases (z.st.get z.cur).isSome <;> rfl
  rw [hrun] at eb
  obtain ⟨b2, e2, e3⟩ := Option.bind_eq_some_iff.1 eb
  obtain rfl := Option.some.inj e3
  have hfr : b2.cap = b1.cap ∧ b2.filled = b1.filled ∧ b2.rewards = b1.rewards ∧ b2.cur = b1.cur := by
    split_ifs at e2
    · exact updateState_frame e2
    · exact addState_frame e2
  have hrec : (z.put e).record pw (z.st.get z.cur).isNone (if (z.st.get z.cur).isNone then 0 else z.rewards.get z.cur) =
      some (.reward b2.pos b2.neg b2.neu) := by
    have hsamp : (z.put e).samp = .reward p n q := hz
    unfold EZ.record
    rw [hsamp]
    cases hs : z.st.get z.cur with
    | none =>
      rw [hs] at e2
      simp only [Option.isSome_none, Bool.false_eq_true, if_false] at e2
      show ((b1.addState z.cur).bind fun b => some (Samp.reward b.pos b.neg b.neu)) = _
      rw [e2]
      rfl
    | some x =>
      rw [hs] at e2
      simp only [Option.isSome_some, if_true] at e2
      show ((b1.updateState pw z.cur (z.rewards.get z.cur)).bind fun b => some (Samp.reward b.pos b.neg b.neu)) = _
      rw [e2]
      rfl
  refine ⟨_, b2.pos, b2.neg, b2.neu, ?_, i.put hc e (.reward b2.pos b2.neg b2.neu), rfl, ?_⟩
  · rw [add_eq i hc pw e, hrec]
    rfl
  · convert rb using 1
    obtain ⟨f1, f2, f3, f4⟩ := hfr
    rw [f4, f1, f2, f3]
    rfl

/-- **C154 (reward sampling).** After any insertions, the buffer holds exactly the last `cap`
experiences with their six fields, and the counters, subtree sums, totals and member counts of the
positive, negative and neutral classes describe exactly the stored rewards. -/
theorem C154_reward (pw : Int → F) (hpw : pw 1 = 1) (cap : Nat) (hc : 0 < cap) (es : List (Exper S F)) :
    ∃ (z : EZ S F) (p n q : Cls F), (EZ.init cap .reward : EZ S F).run pw (es.map EOp.add) = some z ∧ z.Stores cap es ∧ z.samp = .reward p n q ∧
      let slots := absRun cap 0 (fun _ => none) (es.map fun e => ROp.add e.reward)
      ClsOk pw cap p (classCount (fun r => r > 0) slots) ∧ ClsOk pw cap n (classCount (fun r => r < 0) slots) ∧
      ClsOk pw cap q (classCount (fun r => r = 0) slots) := by
  have run : ∀ (l : List (Exper S F)) (z : EZ S F) (es : List (Exper S F)) (p n q : Cls F) (s : Slots F), RingInv z cap es → z.samp = .reward p n q →
      RInv pw cap es.length (z.classes p n q) s → ∃ z' p' n' q', z.run pw (l.map EOp.add) = some z' ∧ RingInv z' cap (es ++ l) ∧
        z'.samp = .reward p' n' q' ∧ RInv pw cap (es ++ l).length (z'.classes p' n' q') (absRun cap es.length s (l.map fun e => ROp.add e.reward)) := by
    intro l
    induction l with
    | nil =>
      intro z es p n q s i hz r
      exact ⟨z, p, n, q, rfl, by simpa using i, hz, by simpa [absRun] using r⟩
    | cons e l ih =>
      intro z es p n q s i hz r
      obtain ⟨z1, p1, n1, q1, e1, i1, hz1, r1⟩ := reward_add hpw i hc hz r e
      obtain ⟨z2, p2, n2, q2, e2, i2, hz2, r2⟩ := ih z1 (es ++ [e]) p1 n1 q1 _ i1 hz1 (by simpa using r1)
      refine ⟨z2, p2, n2, q2, by simp [EZ.run, EZ.step, e1, e2], by simpa using i2, hz2, ?_⟩
      rw [List.append_assoc, List.singleton_append] at r2
      simpa [absRun] using r2
  obtain ⟨z, p, n, q, e, i, hz, r⟩ := run es (EZ.init cap .reward) [] _ _ _ _ (RingInv.init cap .reward) rfl (RInv.init pw cap)
  rw [List.nil_append] at i r
  exact ⟨z, p, n, q, e, i.stores hc, hz, r.pos, r.neg, r.neu⟩

/-- **C154 (uniform sampling).** After any insertions, the buffer holds exactly the last `cap`
experiences with their six fields, and the sampling indices name every filled slot once. -/
theorem C154_uniform (pw : Int → F) (cap : Nat) (hc : 0 < cap) (es : List (Exper S F)) :
    ∃ (z : EZ S F) (ind : Arr Nat), (EZ.init cap .uniform : EZ S F).run pw (es.map EOp.add) = some z ∧ z.Stores cap es ∧ z.samp = .uniform ind ∧
      ind.len = cap ∧ ∀ k, k < min es.length cap → ind.get k = k := by
  have run : ∀ (l : List (Exper S F)) (z : EZ S F) (es : List (Exper S F)) (ind : Arr Nat), RingInv z cap es → z.samp = .uniform ind →
      (ind.len = cap ∧ ∀ k, k < min es.length cap → ind.get k = k) → ∃ z' ind', z.run pw (l.map EOp.add) = some z' ∧ RingInv z' cap (es ++ l) ∧
        z'.samp = .uniform ind' ∧ ind'.len = cap ∧ ∀ k, k < min (es ++ l).length cap → ind'.get k = k := by
    intro l
    induction l with
    | nil =>
      intro z es ind i hz r
      exact ⟨z, ind, rfl, by simpa using i, hz, by simpa using r⟩
    | cons e l ih =>
      intro z es ind i hz r
      have hcl : z.cur < cap := by rw [i.cur]; exact Nat.mod_lt _ hc
      obtain ⟨ind', hrec, hok⟩ : ∃ ind', (z.put e).record pw (z.st.get z.cur).isNone (if (z.st.get z.cur).isNone then 0 else z.rewards.get z.cur) =
          some (.uniform ind') ∧ ind'.len = cap ∧ ∀ k, k < min (es ++ [e]).length cap → ind'.get k = k := by
        have hsamp : (z.put e).samp = .uniform ind := hz
        have hcurp : (z.put e).cur = z.cur := rfl
        rw [i.null hc]
        simp only [EZ.record, hsamp, hcurp, List.length_append, List.length_singleton]
        by_cases hf : es.length < cap
        · have hcur : z.cur = es.length := by rw [i.cur, Nat.mod_eq_of_lt hf]
          rw [Arr.write_eq _ (show z.cur < ind.len by omega)]
          refine ⟨⟨ind.len, Function.update ind.get z.cur z.cur⟩, by simp [hf], r.1, fun k hk => ?_⟩
          show Function.update ind.get z.cur z.cur k = k
          by_cases hkc : k = z.cur
          · subst hkc; simp
          · rw [Function.update_of_ne hkc]
            exact r.2 k (by omega)
        · exact ⟨ind, by simp [hf], r.1, fun k hk => r.2 k (by omega)⟩
      obtain ⟨z2, ind2, e2, i2, hz2, r2⟩ := ih _ (es ++ [e]) ind' (i.put hc e (.uniform ind')) rfl hok
      refine ⟨z2, ind2, ?_, by simpa using i2, hz2, by simpa using r2⟩
      simp only [List.map_cons, EZ.run, EZ.step, add_eq i hc pw e, hrec, Option.bind_eq_bind, Option.bind_some]
      exact e2
  obtain ⟨z, ind, e, i, hz, r⟩ := run es (EZ.init cap .uniform) [] _ (RingInv.init cap .uniform) rfl ⟨rfl, fun k hk => by simp at hk⟩
  rw [List.nil_append] at i r
  exact ⟨z, ind, e, i.stores hc, hz, r⟩

/-! ### Construction -/

theorem outside_iff {x : F} : outside x ↔ ¬ (0 ≤ x ∧ x ≤ 1) := by
  unfold outside
  rw [not_and_or, not_le, not_le]

theorem ite_none_iff {α : Type} {c : Prop} [Decidable c] {x : Option α} {r : α} : (if c then none else x) = some r ↔ ¬ c ∧ x = some r := by
  by_cases h : c <;> simp [h]

/-- **C154 (construction).** `init_efficientzero` accepts exactly the documented parameters; it
then returns an empty buffer of the chosen kind whose discount is the `n`-step power of
`lambda_value`. -/
theorem C154_create_partial (p : Params F) (r : EZ S F × F) :
    create p = some r ↔ p.Valid ∧ ∃ mode, p.mode = some mode ∧ r = (EZ.init p.cap mode, p.lambda ^ p.nStep) := by
  have hpow : (List.range p.nStep).foldl (fun g _ => g * p.lambda) 1 = p.lambda ^ p.nStep := by
    generalize p.nStep = n
    induction n with
    | zero => simp
    | succ n ih => rw [List.range_succ, List.foldl_append, ih, pow_succ]; rfl
  unfold create
  constructor
  · intro h
    cases hm : p.mode with
    | none => rw [hm] at h; cases h
    | some mode =>
      rw [hm] at h
      simp only at h
      rw [hpow] at h
      simp only [ite_none_iff, outside_iff, not_not, Bool.not_eq_false] at h
      obtain ⟨a1, a2, a3, a4, a5, a6, a7, a8, a9, a10, a11, a12, a13, a14, a15, a16, a17, a18, a19, a20, a21, a22, a23, a24, a25, a26, a27, a28, h⟩ := h
      refine ⟨⟨⟨by rw [hm]; rfl, a2, a3, a4, a5, a28⟩, ⟨by omega, by omega, by omega, by omega⟩, ?_, not_lt.1 a19, not_lt.1 a27⟩, mode, rfl,
        (Option.some.inj h).symm⟩
      simp only [List.mem_cons, List.not_mem_nil, or_false, forall_eq_or_imp, forall_eq]
      exact ⟨a11, a12, a1, a13, a22, a14, a15, a16, a17, a18, a20, a21, a23, a24, a25, a26⟩
  · rintro ⟨⟨⟨_, f1, f2, f3, f4, f5⟩, ⟨s1, s2, s3, s4⟩, hu, hcl, hr⟩, mode, hm, rfl⟩
    have hno : ∀ x ∈ [p.alpha, p.beta, p.betaIncrease, p.gamma, p.lambda, p.tau, p.beta1, p.beta2, p.beta3, p.kPercentage, p.adaptive, p.lr, p.lrMin,
        p.lrMax, p.lrDecay, p.momentum], ¬ outside x := fun x hx => by rw [outside_iff, not_not]; exact hu x hx
    simp only [List.mem_cons, List.not_mem_nil, or_false, forall_eq_or_imp, forall_eq] at hno
    obtain ⟨u1, u2, u3, u4, u5, u6, u7, u8, u9, u10, u11, u12, u13, u14, u15, u16⟩ := hno
    rw [hm]
    simp only [ite_none_iff, Bool.not_eq_false, hpow]
    exact ⟨u3, f1, f2, f3, f4, by omega, by omega, by omega, by omega, by omega, u1, u2, u4, u6, u7, u8, u9, u10, not_lt.2 hcl, u11, u12, u5, u13, u14,
      u15, u16, not_lt.2 hr, f5, trivial⟩

/-- **C154 (construction, refuted).** The discount does not depend on the argument `gamma`: two
calls that differ only in it build the same buffer. -/
theorem C154_gamma_refuted (p : Params F) (g : F) (hg : 0 ≤ g ∧ g ≤ 1) (r : EZ S F × F) (h : create p = some r) :
    create { p with gamma := g } = some r := by
  rw [C154_create_partial] at h ⊢
  obtain ⟨⟨a, b, c, d, e⟩, f⟩ := h
  refine ⟨⟨a, b, ?_, d, e⟩, f⟩
  simp only [List.mem_cons, List.not_mem_nil, or_false, forall_eq_or_imp, forall_eq] at c ⊢
  tauto

/-! ### Concrete cases -/

/-- A legal ranked history with wrap-around. -/
def demoEOps : List (EOp Nat ℚ) :=
  [.add ⟨0, 1, 7, 0, 5, 1⟩, .add ⟨1, 2, 8, 1, -6, 1⟩, .setPriority 0 7, .add ⟨2, 3, 9, 0, 4, 1⟩, .setPriority 1 300, .add ⟨3, 4, 2, 1, 0, 0⟩]

example : Legal 3 0 (demoEOps.map EOp.toOp) := by simp [Legal, demoEOps, EOp.toOp]

example : ∃ z : EZ Nat ℚ, (EZ.init 3 .ranked : EZ Nat ℚ).run (fun c => (1 / c : ℚ)) demoEOps = some z ∧ z.Holds 0 ⟨3, 4, 2, 1, 0, 0⟩ ∧
    z.Holds 1 ⟨1, 2, 8, 1, -6, 1⟩ := by
  obtain ⟨z, _, _, e, ⟨_, h, _⟩, _⟩ := C154_ranked (S := Nat) (F := ℚ) (fun c => (1 / c : ℚ)) 3 (by omega) demoEOps (by simp [Legal, demoEOps, EOp.toOp])
  exact ⟨z, e, h 3 _ rfl (by decide), h 1 _ rfl (by decide)⟩

/-- The negative class of two stored rewards, one of them negative. -/
example : ∃ (z : EZ Nat ℚ) (p n q : Cls ℚ), (EZ.init 2 .reward : EZ Nat ℚ).run (fun c => (1 / c : ℚ))
    ([⟨0, 1, 7, 0, 5, 1⟩, ⟨1, 2, 8, 1, -6, 1⟩, ⟨2, 3, 9, 0, 4, 1⟩].map EOp.add) = some z ∧ z.samp = .reward p n q ∧ n.length = 1 := by
  obtain ⟨z, p, n, q, e, _, hz, _, h, _⟩ := C154_reward (S := Nat) (F := ℚ) (fun c => (1 / c : ℚ)) (by simp) 2 (by omega)
    [⟨0, 1, 7, 0, 5, 1⟩, ⟨1, 2, 8, 1, -6, 1⟩, ⟨2, 3, 9, 0, 4, 1⟩]
  refine ⟨z, p, n, q, e, hz, ?_⟩
  rw [h.length]
  rw [Finset.sum_range_succ, Finset.sum_range_one]
  norm_num [classCount, absRun, Function.update_apply]

/-- Valid parameters. -/
def demoParams : Params ℚ :=
  ⟨some .ranked, true, true, true, true, 4, 2, 100, 3, 1/2, 1/2, 0, 1, 1/2, 0, 1/2, 1/2, 1/2, 1, 0, 0, 1/10, 0, 1, 0, 0, true⟩

example : ∃ r : EZ Nat ℚ × ℚ, create demoParams = some r ∧ r.2 = 1 / 8 := by
  refine ⟨(EZ.init 100 .ranked, 1 / 8), (C154_create_partial _ _).2 ⟨⟨?_, ?_, ?_, ?_, ?_⟩, .ranked, rfl, ?_⟩, rfl⟩
  · simp [demoParams]
  · simp [demoParams]
  · simp only [demoParams, List.mem_cons, List.not_mem_nil, or_false, forall_eq_or_imp, forall_eq]
    norm_num
  · simp [demoParams]
  · simp [demoParams]
  · simp only [demoParams]
    norm_num

end LLab.Replay.Efficient
