import Verif.Replay.CumTreeLemmas

/-!
Model of the bookkeeping for reward-class sampling: `add_buffer_state_reward_sampling`,
`update_buffer_state_reward_sampling` (`/repo/src/rainbow.c` 1324-1359, 1401-1526), the
reward-sampling branch of `add_experience` (1530-1582) and of the end of `train_rainbow`
(1844-1878).

`pw c` stands for `pow(1.0/(double)c, alpha_priorization)`; the exponent is a
constant of the run. `filled` stands for the test `buffer_state_t[i] != NULL`.
-/

open scoped Classical

namespace LLab.Replay

variable {F : Type} [Field F] [LinearOrder F]

/-- The four fields kept per reward class: `*_ranked_values`,
`*_recursive_cumulative_ranked_values`, `*_sum_error_priorization_buffer`,
`*_rewards_length`. -/
structure Cls (F : Type) where
  ranked : Arr Int
  cum : Arr F
  sum : F
  length : Int

/-- An experience enters a class (`/repo/src/rainbow.c` 1329-1335 and the like). -/
def Cls.enter (c : Cls F) (i : Nat) : Option (Cls F) := do
  let ranked ← c.ranked.write i 1
  let cum ← cumUp (i + 1) c.cum i true 1
  some ⟨ranked, cum, c.sum + 1, c.length + 1⟩

/-- An experience leaves a class (`/repo/src/rainbow.c` 1416-1420 and the like). -/
def Cls.leave (pw : Int → F) (c : Cls F) (i : Nat) : Option (Cls F) := do
  let x ← c.ranked.read i
  let ranked ← c.ranked.write i 0
  let cum ← cumUp (i + 1) c.cum i true (-(pw x))
  some ⟨ranked, cum, c.sum - pw x, c.length - 1⟩

/-- An experience is replaced by another of the same class
(`/repo/src/rainbow.c` 1409-1413 and the like). -/
def Cls.refresh (pw : Int → F) (c : Cls F) (i : Nat) : Option (Cls F) := do
  let x ← c.ranked.read i
  let ranked ← c.ranked.write i 1
  let cum ← cumUp (i + 1) c.cum i true (1 - pw x)
  some ⟨ranked, cum, c.sum + (1 - pw x), c.length⟩

/-- A sampled experience is counted once more (`/repo/src/rainbow.c` 1848-1854 and
the like). -/
def Cls.bump (pw : Int → F) (c : Cls F) (i : Nat) : Option (Cls F) := do
  let x ← c.ranked.read i
  let ranked ← c.ranked.write i (x + 1)
  let cum ← cumUp (i + 1) c.cum i true (pw (x + 1) - pw x)
  some ⟨ranked, cum, c.sum - pw x + pw (x + 1), c.length⟩

/-- The part of `struct rainbow` used by reward sampling. -/
structure RBuf (F : Type) where
  cap : Nat
  filled : Arr Bool
  rewards : Arr F
  cur : Nat
  pos : Cls F
  neg : Cls F
  neu : Cls F

/-- `add_buffer_state_reward_sampling` (`/repo/src/rainbow.c` 1324-1359). -/
def RBuf.addState (b : RBuf F) (i : Nat) : Option (RBuf F) := do
  let rew ← b.rewards.read i
  if rew > 0 then do
    let c ← b.pos.enter i
    some { b with pos := c }
  else if rew < 0 then do
    let c ← b.neg.enter i
    some { b with neg := c }
  else do
    let c ← b.neu.enter i
    some { b with neu := c }

/-- `update_buffer_state_reward_sampling` (`/repo/src/rainbow.c` 1401-1526). -/
def RBuf.updateState (pw : Int → F) (b : RBuf F) (i : Nat) (previous : F) : Option (RBuf F) := do
  let rew ← b.rewards.read i
  if previous > 0 then
    if rew > 0 then do
      let c ← b.pos.refresh pw i
      some { b with pos := c }
    else if rew < 0 then do
      let c ← b.pos.leave pw i
      let d ← b.neg.enter i
      some { b with pos := c, neg := d }
    else do
      let c ← b.pos.leave pw i
      let d ← b.neu.enter i
      some { b with pos := c, neu := d }
  else if previous < 0 then
    if rew < 0 then do
      let c ← b.neg.refresh pw i
      some { b with neg := c }
    else if rew > 0 then do
      let c ← b.neg.leave pw i
      let d ← b.pos.enter i
      some { b with neg := c, pos := d }
    else do
      let c ← b.neg.leave pw i
      let d ← b.neu.enter i
      some { b with neg := c, neu := d }
  else
    if rew = 0 then do
      let c ← b.neu.refresh pw i
      some { b with neu := c }
    else if rew > 0 then do
      let c ← b.neu.leave pw i
      let d ← b.pos.enter i
      some { b with neu := c, pos := d }
    else do
      let c ← b.neu.leave pw i
      let d ← b.neg.enter i
      some { b with neu := c, neg := d }

/-- `add_experience` with reward sampling (`/repo/src/rainbow.c` 1530-1582), reward
field only. -/
def RBuf.add (pw : Int → F) (b : RBuf F) (reward : F) : Option (RBuf F) := do
  let f ← b.filled.read b.cur
  let previous ← b.rewards.read b.cur
  let filled ← b.filled.write b.cur true
  let rewards ← b.rewards.write b.cur reward
  let b1 : RBuf F := { b with filled, rewards }
  let b2 ← if f then b1.updateState pw b1.cur previous else b1.addState b1.cur
  some { b2 with cur := (b2.cur + 1) % b2.cap }

/-- The use-counter update of one sampled slot (`/repo/src/rainbow.c` 1847-1875). -/
def RBuf.used (pw : Int → F) (b : RBuf F) (slot : Nat) : Option (RBuf F) := do
  let rew ← b.rewards.read slot
  if rew > 0 then do
    let c ← b.pos.bump pw slot
    some { b with pos := c }
  else if rew < 0 then do
    let c ← b.neg.bump pw slot
    some { b with neg := c }
  else do
    let c ← b.neu.bump pw slot
    some { b with neu := c }

/-- Operations of a history. -/
inductive ROp (F : Type) where
  | add (reward : F)
  | used (slot : Nat)

/-- One operation. -/
def RBuf.step (pw : Int → F) (b : RBuf F) : ROp F → Option (RBuf F)
  | .add r => b.add pw r
  | .used s => b.used pw s

/-- A history. -/
def RBuf.run (pw : Int → F) : RBuf F → List (ROp F) → Option (RBuf F)
  | b, [] => some b
  | b, o :: os => do
    let b' ← b.step pw o
    RBuf.run pw b' os

/-- Freshly allocated (`calloc`) class. -/
def Cls.init (cap : Nat) : Cls F := ⟨⟨cap, fun _ => 0⟩, ⟨cap, fun _ => 0⟩, 0, 0⟩

/-- Freshly allocated buffer. -/
def RBuf.init (cap : Nat) : RBuf F :=
  ⟨cap, ⟨cap, fun _ => false⟩, ⟨cap, fun _ => 0⟩, 0, Cls.init cap, Cls.init cap, Cls.init cap⟩

/-! ### Specification -/

/-- Contents of a slot: reward and number of uses plus one. -/
abbrev Slots (F : Type) := Nat → Option (F × Int)

/-- The abstract buffer: a new experience replaces the slot `k % cap` with use
count 1, a use increments the slot's count. -/
def absRun (cap : Nat) : Nat → Slots F → List (ROp F) → Slots F
  | _, s, [] => s
  | k, s, .add r :: os => absRun cap (k + 1) (Function.update s (k % cap) (some (r, 1))) os
  | k, s, .used i :: os =>
    absRun cap k (Function.update s i ((s i).map fun x => (x.1, x.2 + 1))) os

/-- Uses only name filled slots. -/
def RLegal (cap : Nat) : Nat → List (ROp F) → Prop
  | _, [] => True
  | k, .add _ :: os => RLegal cap (k + 1) os
  | k, .used i :: os => i < min k cap ∧ RLegal cap k os

/-- Counter of a slot in the class selected by `sel`: its count when the slot's
reward is in the class, else 0. -/
noncomputable def classCount (sel : F → Prop) (s : Slots F) (i : Nat) : Int :=
  match s i with
  | some (r, u) => if sel r then u else 0
  | none => 0

/-- Sampling weight of a counter. -/
def wt (pw : Int → F) (c : Int) : F := if c > 0 then pw c else 0

/-- The fields of a class describe the counters `f`: use counts, subtree sums,
total weight, number of members. -/
structure ClsOk (pw : Int → F) (cap : Nat) (c : Cls F) (f : Nat → Int) : Prop where
  rlen : c.ranked.len = cap
  clen : c.cum.len = cap
  ranked : ∀ i, i < cap → c.ranked.get i = f i
  cum : ∀ p, p < cap → c.cum.get p = sumBelow (fun q => wt pw (f q)) cap p
  sum : c.sum = ∑ q ∈ Finset.range cap, wt pw (f q)
  length : c.length = ∑ q ∈ Finset.range cap, if f q > 0 then 1 else 0

theorem sum_update_range {M : Type} [AddCommGroup M] {β : Type} (g : β → M) (f : Nat → β)
    {n i : Nat} (hi : i < n) (v : β) :
    ∑ q ∈ Finset.range n, g (Function.update f i v q) =
      (∑ q ∈ Finset.range n, g (f q)) + (g v - g (f i)) := by
  have : ∀ q ∈ Finset.range n, g (Function.update f i v q) =
      g (f q) + (if q = i then g v - g (f i) else 0) := by
    intro q _
    by_cases hq : q = i
    · subst hq; simp
    · simp [hq]
  rw [Finset.sum_congr rfl this, Finset.sum_add_distrib,
    Finset.sum_ite_eq' (Finset.range n) i (fun _ => g v - g (f i)), if_pos (Finset.mem_range.2 hi)]

theorem ClsOk.set {pw : Int → F} {cap : Nat} {c : Cls F} {f : Nat → Int} (h : ClsOk pw cap c f)
    {i : Nat} (hi : i < cap) (y : Int) (d s : F) (l : Int) (hd : d = wt pw y - wt pw (f i))
    (hs : s = c.sum + d)
    (hl : l = c.length + ((if y > 0 then 1 else 0) - (if f i > 0 then 1 else 0))) :
    ∃ r a, c.ranked.write i y = some r ∧ cumUp (i + 1) c.cum i true d = some a ∧
      ClsOk pw cap ⟨r, a, s, l⟩ (Function.update f i y) := by
  obtain ⟨a, e, la, ga⟩ := cumUp_spec c.cum i d (by rw [h.clen]; exact hi)
  refine ⟨_, a, Arr.write_eq y (by rw [h.rlen]; exact hi), e, ?_⟩
  refine ⟨h.rlen, la.trans h.clen, ?_, ?_, ?_, ?_⟩
  · intro j hj
    by_cases hji : j = i
    · subst hji; simp
    · simp [hji, h.ranked j hj]
  · intro p hp
    simp only [ga p, h.cum p hp]
    have : (fun q => wt pw (Function.update f i y q)) =
        Function.update (fun q => wt pw (f q)) i (wt pw y) := by
      funext q
      by_cases hq : q = i
      · subst hq; simp
      · simp [hq]
    rw [this, sumBelow_update _ hi, hd]
  · simp only [hs, h.sum, hd]
    exact (sum_update_range (wt pw) f hi y).symm
  · simp only [hl, h.length]
    exact (sum_update_range (fun c : Int => if c > 0 then (1 : Int) else 0) f hi y).symm

theorem ClsOk.enter {pw : Int → F} {cap : Nat} {c : Cls F} {f : Nat → Int} (h : ClsOk pw cap c f)
    (hpw : pw 1 = 1) {i : Nat} (hi : i < cap) (h0 : f i = 0) :
    ∃ c', c.enter i = some c' ∧ ClsOk pw cap c' (Function.update f i 1) := by
  obtain ⟨r, a, e1, e2, ok⟩ := h.set hi 1 1 (c.sum + 1) (c.length + 1) (by simp [wt, h0, hpw]) rfl
    (by simp [h0])
  exact ⟨_, by simp [Cls.enter, e1, e2], ok⟩

theorem ClsOk.leave {pw : Int → F} {cap : Nat} {c : Cls F} {f : Nat → Int} (h : ClsOk pw cap c f)
    {i : Nat} (hi : i < cap) (h0 : 0 < f i) :
    ∃ c', c.leave pw i = some c' ∧ ClsOk pw cap c' (Function.update f i 0) := by
  obtain ⟨r, a, e1, e2, ok⟩ := h.set hi 0 (-(pw (f i))) (c.sum - pw (f i)) (c.length - 1)
    (by simp [wt, h0]) (by ring) (by simp [h0]; ring)
  have hr : c.ranked.read i = some (f i) := by
    rw [Arr.read_eq (by rw [h.rlen]; exact hi), h.ranked i hi]
  exact ⟨_, by simp [Cls.leave, hr, e1, e2], ok⟩

theorem ClsOk.refresh {pw : Int → F} {cap : Nat} {c : Cls F} {f : Nat → Int} (h : ClsOk pw cap c f)
    (hpw : pw 1 = 1) {i : Nat} (hi : i < cap) (h0 : 0 < f i) :
    ∃ c', c.refresh pw i = some c' ∧ ClsOk pw cap c' (Function.update f i 1) := by
  obtain ⟨r, a, e1, e2, ok⟩ := h.set hi 1 (1 - pw (f i)) (c.sum + (1 - pw (f i))) c.length
    (by simp [wt, h0, hpw]) (by ring) (by simp [h0])
  have hr : c.ranked.read i = some (f i) := by
    rw [Arr.read_eq (by rw [h.rlen]; exact hi), h.ranked i hi]
  exact ⟨_, by simp [Cls.refresh, hr, e1, e2], ok⟩

theorem ClsOk.bump {pw : Int → F} {cap : Nat} {c : Cls F} {f : Nat → Int} (h : ClsOk pw cap c f)
    {i : Nat} (hi : i < cap) (h0 : 0 < f i) :
    ∃ c', c.bump pw i = some c' ∧ ClsOk pw cap c' (Function.update f i (f i + 1)) := by
  have h1 : 0 < f i + 1 := by omega
  obtain ⟨r, a, e1, e2, ok⟩ := h.set hi (f i + 1) (pw (f i + 1) - pw (f i))
    (c.sum - pw (f i) + pw (f i + 1)) c.length
    (by simp [wt, h0, h1]) (by ring) (by simp [h0, h1])
  have hr : c.ranked.read i = some (f i) := by
    rw [Arr.read_eq (by rw [h.rlen]; exact hi), h.ranked i hi]
  exact ⟨_, by simp [Cls.bump, hr, e1, e2], ok⟩

/-- Positive, negative and neutral classes. -/
def isPos (r : F) : Prop := r > 0
def isNeg (r : F) : Prop := r < 0
def isNeu (r : F) : Prop := r = 0

/-- The buffer represents the abstract slots after `k` insertions. -/
structure RInv (pw : Int → F) (cap k : Nat) (b : RBuf F) (s : Slots F) : Prop where
  hcap : b.cap = cap
  flen : b.filled.len = cap
  wlen : b.rewards.len = cap
  cur : b.cur = k % cap
  filled : ∀ i, i < cap → (b.filled.get i = true ↔ i < k)
  slot : ∀ i, i < cap → i < k → ∃ u, s i = some (b.rewards.get i, u) ∧ 0 < u
  noslot : ∀ i, i < cap → k ≤ i → s i = none
  pos : ClsOk pw cap b.pos (classCount isPos s)
  neg : ClsOk pw cap b.neg (classCount isNeg s)
  neu : ClsOk pw cap b.neu (classCount isNeu s)

theorem classCount_update (sel : F → Prop) (s : Slots F) (i : Nat) (v : Option (F × Int)) :
    classCount sel (Function.update s i v) =
      Function.update (classCount sel s) i
        (match v with | some (r, u) => if sel r then u else 0 | none => 0) := by
  funext j
  by_cases hj : j = i
  · subst hj; simp [classCount]
  · simp [classCount, hj]

theorem classCount_some {sel : F → Prop} {s : Slots F} {i : Nat} {r : F} {u : Int}
    (h : s i = some (r, u)) : classCount sel s i = if sel r then u else 0 := by
  simp [classCount, h]

theorem update_self_eq {f : Nat → Int} {i : Nat} {v : Int} (h : f i = v) :
    Function.update f i v = f := by
  rw [← h]; exact Function.update_eq_self i f

theorem RInv.used {pw : Int → F} {cap k : Nat} {b : RBuf F} {s : Slots F} (h : RInv pw cap k b s)
    {i : Nat} (hi : i < min k cap) :
    ∃ b', b.used pw i = some b' ∧
      RInv pw cap k b' (Function.update s i ((s i).map fun x => (x.1, x.2 + 1))) := by
  have hic : i < cap := by omega
  obtain ⟨u, hu, hu0⟩ := h.slot i hic (by omega)
  have hr : b.rewards.read i = some (b.rewards.get i) := Arr.read_eq (by rw [h.wlen]; exact hic)
  set rew := b.rewards.get i with hrew
  -- facts shared by the three cases
  have hslot : ∀ j, j < cap → j < k →
      ∃ u', Function.update s i ((s i).map fun x => (x.1, x.2 + 1)) j = some (b.rewards.get j, u') ∧
        0 < u' := by
    intro j hj hjk
    by_cases hji : j = i
    · subst hji
      exact ⟨u + 1, by simp [hu, hrew], by omega⟩
    · obtain ⟨u', h1, h2⟩ := h.slot j hj hjk
      exact ⟨u', by simp [hji, h1], h2⟩
  have hnos : ∀ j, j < cap → k ≤ j →
      Function.update s i ((s i).map fun x => (x.1, x.2 + 1)) j = none := by
    intro j hj hjk
    have hji : j ≠ i := by omega
    simp [hji, h.noslot j hj hjk]
  have hcc : ∀ sel : F → Prop, classCount sel (Function.update s i ((s i).map fun x => (x.1, x.2 + 1)))
      = Function.update (classCount sel s) i (if sel rew then u + 1 else 0) := by
    intro sel
    rw [classCount_update, hu]
    rfl
  have hsame : ∀ sel : F → Prop, ¬ sel rew → classCount sel
      (Function.update s i ((s i).map fun x => (x.1, x.2 + 1))) = classCount sel s := by
    intro sel hn
    rw [hcc, if_neg hn]
    exact update_self_eq (by rw [classCount_some hu, if_neg hn])
  have hyes : ∀ sel : F → Prop, sel rew → classCount sel
      (Function.update s i ((s i).map fun x => (x.1, x.2 + 1))) =
      Function.update (classCount sel s) i (classCount sel s i + 1) := by
    intro sel hs
    rw [hcc, if_pos hs, classCount_some hu, if_pos hs]
  rcases lt_trichotomy rew 0 with hlt | heq | hgt
  · have hn1 : ¬ rew > 0 := not_lt.2 hlt.le
    have hn0 : ¬ isNeu rew := hlt.ne
    obtain ⟨c', e, ok⟩ := h.neg.bump hic (by rw [classCount_some hu, if_pos (show isNeg rew from hlt)]; exact hu0)
    refine ⟨{ b with neg := c' }, by simp [RBuf.used, hr, hn1, hlt, e], ?_⟩
    exact ⟨h.hcap, h.flen, h.wlen, h.cur, h.filled, hslot, hnos, by rw [hsame isPos hn1]; exact h.pos,
      by rw [hyes isNeg hlt]; exact ok, by rw [hsame isNeu hn0]; exact h.neu⟩
  · have hn1 : ¬ rew > 0 := by rw [heq]; exact lt_irrefl _
    have hn2 : ¬ rew < 0 := by rw [heq]; exact lt_irrefl _
    obtain ⟨c', e, ok⟩ := h.neu.bump hic (by rw [classCount_some hu, if_pos (show isNeu rew from heq)]; exact hu0)
    refine ⟨{ b with neu := c' }, by simp [RBuf.used, hr, hn1, hn2, e], ?_⟩
    exact ⟨h.hcap, h.flen, h.wlen, h.cur, h.filled, hslot, hnos, by rw [hsame isPos hn1]; exact h.pos,
      by rw [hsame isNeg hn2]; exact h.neg, by rw [hyes isNeu heq]; exact ok⟩
  · have hn2 : ¬ rew < 0 := not_lt.2 hgt.le
    have hn0 : ¬ isNeu rew := hgt.ne'
    obtain ⟨c', e, ok⟩ := h.pos.bump hic (by rw [classCount_some hu, if_pos (show isPos rew from hgt)]; exact hu0)
    refine ⟨{ b with pos := c' }, by simp [RBuf.used, hr, hgt, e], ?_⟩
    exact ⟨h.hcap, h.flen, h.wlen, h.cur, h.filled, hslot, hnos, by rw [hyes isPos hgt]; exact ok,
      by rw [hsame isNeg hn2]; exact h.neg, by rw [hsame isNeu hn0]; exact h.neu⟩

theorem RInv.add {pw : Int → F} {cap k : Nat} {b : RBuf F} {s : Slots F} (h : RInv pw cap k b s)
    (hc : 0 < cap) (hpw : pw 1 = 1) (rew : F) :
    ∃ b', b.add pw rew = some b' ∧
      RInv pw cap (k + 1) b' (Function.update s (k % cap) (some (rew, 1))) := by
  have hcl : k % cap < cap := Nat.mod_lt _ hc
  set i := k % cap with hidef
  have hfr : b.filled.read i = some (b.filled.get i) := Arr.read_eq (by rw [h.flen]; exact hcl)
  have hrr : b.rewards.read i = some (b.rewards.get i) := Arr.read_eq (by rw [h.wlen]; exact hcl)
  have hfw := Arr.write_eq (a := b.filled) true (by rw [h.flen]; exact hcl : i < b.filled.len)
  have hrw := Arr.write_eq (a := b.rewards) rew (by rw [h.wlen]; exact hcl : i < b.rewards.len)
  set fl : Arr Bool := ⟨b.filled.len, Function.update b.filled.get i true⟩ with hfl
  set rw' : Arr F := ⟨b.rewards.len, Function.update b.rewards.get i rew⟩ with hrw'
  have hread1 : rw'.read i = some rew := by
    rw [Arr.read_eq (by simp [hrw', h.wlen, hcl])]; simp [hrw']
  set s' := Function.update s i (some (rew, 1)) with hs'
  have hcc : ∀ sel : F → Prop, classCount sel s' =
      Function.update (classCount sel s) i (if sel rew then 1 else 0) := by
    intro sel; rw [hs', classCount_update]
  have hik : k < cap → i = k := fun hk => Nat.mod_eq_of_lt hk
  have hle : i ≤ k := Nat.mod_le _ _
  have hfilled : ∀ j, j < cap → (fl.get j = true ↔ j < k + 1) := by
    intro j hj
    by_cases hji : j = i
    · subst hji
      simp [hfl]; omega
    · simp only [hfl, Function.update_apply, hji, if_false]
      rw [h.filled j hj]
      constructor
      · intro h; omega
      · intro h2
        by_contra h3
        have : j = k := by omega
        have := hik (by omega)
        omega
  have hslot : ∀ j, j < cap → j < k + 1 → ∃ u, s' j = some (rw'.get j, u) ∧ 0 < u := by
    intro j hj hjk
    by_cases hji : j = i
    · subst hji
      exact ⟨1, by simp [hs', hrw'], by omega⟩
    · have hjk' : j < k := by
        by_contra h3
        have : j = k := by omega
        have := hik (by omega)
        omega
      obtain ⟨u, h1, h2⟩ := h.slot j hj hjk'
      exact ⟨u, by simp [hs', hrw', hji, h1], h2⟩
  have hnos : ∀ j, j < cap → k + 1 ≤ j → s' j = none := by
    intro j hj hjk
    have hji : j ≠ i := by omega
    simp [hs', hji, h.noslot j hj (by omega)]
  have hcur' : (i + 1) % cap = (k + 1) % cap := by simp [hidef]
  have hcure : b.cur = i := h.cur
  -- final assembly
  have fin : ∀ p n z : Cls F, ClsOk pw cap p (classCount isPos s') →
      ClsOk pw cap n (classCount isNeg s') → ClsOk pw cap z (classCount isNeu s') →
      RInv pw cap (k + 1) ⟨b.cap, fl, rw', (i + 1) % b.cap, p, n, z⟩ s' := by
    intro p n z h1 h2 h3
    exact ⟨h.hcap, h.flen, h.wlen, by simp only [h.hcap]; exact hcur', hfilled, hslot, hnos, h1, h2, h3⟩
  by_cases hkc : k < cap
  · -- fresh slot
    have hf : b.filled.get i = false := by
      rw [← Bool.not_eq_true, h.filled i hcl, hik hkc]; omega
    have hsn : s i = none := h.noslot i hcl (by rw [hik hkc])
    have hz : ∀ sel : F → Prop, classCount sel s i = 0 := by intro sel; simp [classCount, hsn]
    have hsame : ∀ sel : F → Prop, ¬ sel rew → classCount sel s' = classCount sel s := by
      intro sel hn
      rw [hcc, if_neg hn]; exact update_self_eq (hz sel)
    have hyes : ∀ sel : F → Prop, sel rew →
        classCount sel s' = Function.update (classCount sel s) i 1 := by
      intro sel hn
      rw [hcc, if_pos hn]
    rcases lt_trichotomy rew 0 with hlt | heq | hgt
    · have hn1 : ¬ rew > 0 := not_lt.2 hlt.le
      obtain ⟨c', e, ok⟩ := h.neg.enter hpw hcl (hz _)
      refine ⟨_, ?_, fin b.pos c' b.neu (by rw [hsame isPos hn1]; exact h.pos)
        (by rw [hyes isNeg hlt]; exact ok) (by rw [hsame isNeu hlt.ne]; exact h.neu)⟩
      simp [RBuf.add, hcure, hfr, hrr, hfw, hrw, hf, RBuf.addState, hread1, hn1, hlt, e]
    · have hn1 : ¬ rew > 0 := by rw [heq]; exact lt_irrefl _
      have hn2 : ¬ rew < 0 := by rw [heq]; exact lt_irrefl _
      obtain ⟨c', e, ok⟩ := h.neu.enter hpw hcl (hz _)
      refine ⟨_, ?_, fin b.pos b.neg c' (by rw [hsame isPos hn1]; exact h.pos)
        (by rw [hsame isNeg hn2]; exact h.neg) (by rw [hyes isNeu heq]; exact ok)⟩
      simp [RBuf.add, hcure, hfr, hrr, hfw, hrw, hf, RBuf.addState, hread1, hn1, hn2, e]
    · have hn2 : ¬ rew < 0 := not_lt.2 hgt.le
      obtain ⟨c', e, ok⟩ := h.pos.enter hpw hcl (hz _)
      refine ⟨_, ?_, fin c' b.neg b.neu (by rw [hyes isPos hgt]; exact ok)
        (by rw [hsame isNeg hn2]; exact h.neg) (by rw [hsame isNeu hgt.ne']; exact h.neu)⟩
      simp [RBuf.add, hcure, hfr, hrr, hfw, hrw, hf, RBuf.addState, hread1, hgt, e]
  · -- replacement
    have hik' : i < k := by omega
    have hf : b.filled.get i = true := (h.filled i hcl).2 hik'
    obtain ⟨u, hu, hu0⟩ := h.slot i hcl hik'
    set prev := b.rewards.get i with hprev
    have hstep : b.add pw rew = ((⟨b.cap, fl, rw', i, b.pos, b.neg, b.neu⟩ : RBuf F).updateState pw i
        prev).bind fun b2 => some { b2 with cur := (b2.cur + 1) % b2.cap } := by
      simp [RBuf.add, hcure, hfr, hrr, hfw, hrw, hf]
    -- the four per-class cases
    have hcnt : ∀ sel : F → Prop, classCount sel s i = if sel prev then u else 0 := by
      intro sel; exact classCount_some hu
    have same : ∀ (sel : F → Prop) (c : Cls F), ClsOk pw cap c (classCount sel s) → ¬ sel prev →
        ¬ sel rew → ClsOk pw cap c (classCount sel s') := by
      intro sel c hok h1 h2
      rw [hcc, if_neg h2, update_self_eq (by rw [hcnt, if_neg h1])]; exact hok
    have ent : ∀ (sel : F → Prop) (c : Cls F), ClsOk pw cap c (classCount sel s) → ¬ sel prev →
        sel rew → ∃ c', c.enter i = some c' ∧ ClsOk pw cap c' (classCount sel s') := by
      intro sel c hok h1 h2
      rw [hcc, if_pos h2]
      exact hok.enter hpw hcl (by rw [hcnt, if_neg h1])
    have lea : ∀ (sel : F → Prop) (c : Cls F), ClsOk pw cap c (classCount sel s) → sel prev →
        ¬ sel rew → ∃ c', c.leave pw i = some c' ∧ ClsOk pw cap c' (classCount sel s') := by
      intro sel c hok h1 h2
      rw [hcc, if_neg h2]
      exact hok.leave hcl (by rw [hcnt, if_pos h1]; exact hu0)
    have ref : ∀ (sel : F → Prop) (c : Cls F), ClsOk pw cap c (classCount sel s) → sel prev →
        sel rew → ∃ c', c.refresh pw i = some c' ∧ ClsOk pw cap c' (classCount sel s') := by
      intro sel c hok h1 h2
      rw [hcc, if_pos h2]
      exact hok.refresh hpw hcl (by rw [hcnt, if_pos h1]; exact hu0)
    rw [hstep]
    rcases lt_trichotomy prev 0 with pl | pe | pg
    · have p1 : ¬ prev > 0 := not_lt.2 pl.le
      have p0 : ¬ prev = 0 := pl.ne
      rcases lt_trichotomy rew 0 with hlt | heq | hgt
      · have hn1 : ¬ rew > 0 := not_lt.2 hlt.le
        obtain ⟨c, e, ok⟩ := ref isNeg b.neg h.neg pl hlt
        refine ⟨_, ?_, fin b.pos c b.neu (same _ _ h.pos p1 hn1) ok (same _ _ h.neu p0 hlt.ne)⟩
        simp [RBuf.updateState, hread1, p1, pl, hlt, e]
      · have hn1 : ¬ rew > 0 := by rw [heq]; exact lt_irrefl _
        have hn2 : ¬ rew < 0 := by rw [heq]; exact lt_irrefl _
        obtain ⟨c, e, ok⟩ := lea isNeg b.neg h.neg pl hn2
        obtain ⟨d, e2, ok2⟩ := ent isNeu b.neu h.neu p0 heq
        refine ⟨_, ?_, fin b.pos c d (same _ _ h.pos p1 hn1) ok ok2⟩
        simp [RBuf.updateState, hread1, p1, pl, hn1, hn2, e, e2]
      · have hn2 : ¬ rew < 0 := not_lt.2 hgt.le
        obtain ⟨c, e, ok⟩ := lea isNeg b.neg h.neg pl hn2
        obtain ⟨d, e2, ok2⟩ := ent isPos b.pos h.pos p1 hgt
        refine ⟨_, ?_, fin d c b.neu ok2 ok (same _ _ h.neu p0 hgt.ne')⟩
        simp [RBuf.updateState, hread1, p1, pl, hgt, hn2, e, e2]
    · have p1 : ¬ prev > 0 := by rw [pe]; exact lt_irrefl _
      have p2 : ¬ prev < 0 := by rw [pe]; exact lt_irrefl _
      rcases lt_trichotomy rew 0 with hlt | heq | hgt
      · have hn1 : ¬ rew > 0 := not_lt.2 hlt.le
        obtain ⟨c, e, ok⟩ := lea isNeu b.neu h.neu pe hlt.ne
        obtain ⟨d, e2, ok2⟩ := ent isNeg b.neg h.neg p2 hlt
        refine ⟨_, ?_, fin b.pos d c (same _ _ h.pos p1 hn1) ok2 ok⟩
        simp [RBuf.updateState, hread1, p1, p2, hn1, hlt.ne, e, e2]
      · have hn1 : ¬ rew > 0 := by rw [heq]; exact lt_irrefl _
        have hn2 : ¬ rew < 0 := by rw [heq]; exact lt_irrefl _
        obtain ⟨c, e, ok⟩ := ref isNeu b.neu h.neu pe heq
        refine ⟨_, ?_, fin b.pos b.neg c (same _ _ h.pos p1 hn1) (same _ _ h.neg p2 hn2) ok⟩
        simp [RBuf.updateState, hread1, p1, p2, heq, e]
      · have hn2 : ¬ rew < 0 := not_lt.2 hgt.le
        obtain ⟨c, e, ok⟩ := lea isNeu b.neu h.neu pe hgt.ne'
        obtain ⟨d, e2, ok2⟩ := ent isPos b.pos h.pos p1 hgt
        refine ⟨_, ?_, fin d b.neg c ok2 (same _ _ h.neg p2 hn2) ok⟩
        simp [RBuf.updateState, hread1, p1, p2, hgt, hgt.ne', e, e2]
    · have p2 : ¬ prev < 0 := not_lt.2 pg.le
      have p0 : ¬ prev = 0 := pg.ne'
      rcases lt_trichotomy rew 0 with hlt | heq | hgt
      · have hn1 : ¬ rew > 0 := not_lt.2 hlt.le
        obtain ⟨c, e, ok⟩ := lea isPos b.pos h.pos pg hn1
        obtain ⟨d, e2, ok2⟩ := ent isNeg b.neg h.neg p2 hlt
        refine ⟨_, ?_, fin c d b.neu ok ok2 (same _ _ h.neu p0 hlt.ne)⟩
        simp [RBuf.updateState, hread1, pg, hn1, hlt, e, e2]
      · have hn1 : ¬ rew > 0 := by rw [heq]; exact lt_irrefl _
        have hn2 : ¬ rew < 0 := by rw [heq]; exact lt_irrefl _
        obtain ⟨c, e, ok⟩ := lea isPos b.pos h.pos pg hn1
        obtain ⟨d, e2, ok2⟩ := ent isNeu b.neu h.neu p0 heq
        refine ⟨_, ?_, fin c b.neg d ok (same _ _ h.neg p2 hn2) ok2⟩
        simp [RBuf.updateState, hread1, pg, hn1, hn2, e, e2]
      · have hn2 : ¬ rew < 0 := not_lt.2 hgt.le
        obtain ⟨c, e, ok⟩ := ref isPos b.pos h.pos pg hgt
        refine ⟨_, ?_, fin c b.neg b.neu ok (same _ _ h.neg p2 hn2) (same _ _ h.neu p0 hgt.ne')⟩
        simp [RBuf.updateState, hread1, pg, hgt, e]

theorem RInv.init (pw : Int → F) (cap : Nat) : RInv pw cap 0 (RBuf.init cap) (fun _ => none) := by
  have hcls : ∀ sel : F → Prop, ClsOk pw cap (Cls.init cap) (classCount sel (fun _ => none)) := by
    intro sel
    have : classCount sel (fun _ => none) = fun _ => 0 := by funext i; rfl
    rw [this]
    refine ⟨rfl, rfl, fun _ _ => rfl, ?_, ?_, ?_⟩
    · intro p _; simp [Cls.init, sumBelow, wt]
    · simp [Cls.init, wt]
    · simp [Cls.init]
  exact ⟨rfl, rfl, rfl, by simp [RBuf.init], fun i _ => by simp [RBuf.init], fun i _ h => by omega,
    fun _ _ _ => rfl, hcls _, hcls _, hcls _⟩

theorem RInv.run {pw : Int → F} {cap : Nat} (hc : 0 < cap) (hpw : pw 1 = 1) :
    ∀ (ops : List (ROp F)) (k : Nat) (b : RBuf F) (s : Slots F), RInv pw cap k b s →
      RLegal cap k ops →
      ∃ b' k', b.run pw ops = some b' ∧ RInv pw cap k' b' (absRun cap k s ops) := by
  intro ops
  induction ops with
  | nil => intro k b s h _; exact ⟨b, k, rfl, h⟩
  | cons o os ih =>
    intro k b s h hl
    cases o with
    | add r =>
      obtain ⟨b1, e1, i1⟩ := h.add hc hpw r
      obtain ⟨b2, k2, e2, i2⟩ := ih (k + 1) b1 _ i1 hl
      exact ⟨b2, k2, by simp [RBuf.run, RBuf.step, e1, e2], i2⟩
    | used j =>
      obtain ⟨b1, e1, i1⟩ := h.used hl.1
      obtain ⟨b2, k2, e2, i2⟩ := ih k b1 _ i1 hl.2
      exact ⟨b2, k2, by simp [RBuf.run, RBuf.step, e1, e2], i2⟩

end LLab.Replay
