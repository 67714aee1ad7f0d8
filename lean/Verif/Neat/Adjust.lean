import Verif.Neat.GenomeLife
import Verif.Sort.Props
import Mathlib.Data.List.Sort

/-!
Property C174: `adjust_genome` (`/repo/src/neat_utils.c` 883-938) puts the nodes of a genome and the connections of each of its nodes in
the order of their innovation numbers, with `quick_sort_int` as in `Verif.Sort.QuickSort`.

Memory as in `Verif.Neat.GenomeLife`: the arrays of a node are part of its block. The arrays local to the function are lists.
-/

namespace LLab.Neat.Adjust

open LLab.Neat.Life

variable {F : Type}

/-! ### Model -/

/-- The lines that sort an array by the numbers of its members: collect the numbers and the positions, sort the positions, collect the
members (`/repo/src/neat_utils.c` 890-898 for the nodes, 906-914 and 922-930 for the connections). -/
def sortBy {β : Type} (num : β → Option Nat) (l : List β) : Option (List β) :=
  (l.mapM num).bind fun A => (Sort.quickSort A (List.range l.length) 0 ((l.length : Int) - 1)).bind fun I => I.mapM fun i => l[i]?

/-- `in_connections[j]->innovation_number` (`/repo/src/neat_utils.c` 907, 923). -/
def connNum (h : Heap F) (c : Option Nat) : Option Nat := c.bind fun c => (h.cn c).map Cn.inn

/-- `all_nodes[i]->innovation_number` (`/repo/src/neat_utils.c` 891). -/
def nodeNum (h : Heap F) (p : Nat) : Option Nat := (h.nd p).map Nd.inn

/-- One round of the second loop (`/repo/src/neat_utils.c` 904-935). -/
def adjustNode (p : Nat) (h : Heap F) : Option (Heap F) :=
  (h.nd p).bind fun N => (sortBy (connNum h) N.ins).bind fun l => (setIns p l h).bind fun h =>
    (h.nd p).bind fun N => (sortBy (connNum h) N.outs).bind fun l => setOuts p l h

/-- The second loop (`/repo/src/neat_utils.c` 903-936). -/
def adjustAll : List Nat → Heap F → Option (Heap F)
  | [], h => some h
  | p :: ps, h => (adjustNode p h).bind (adjustAll ps)

/-- `adjust_genome` (`/repo/src/neat_utils.c` 883-938): the memory and the new array of nodes. -/
def adjust (nodes : List Nat) (h : Heap F) : Option (Heap F × List Nat) :=
  (sortBy (nodeNum h) nodes).bind fun l => (adjustAll l h).map fun h => (h, l)

/-! ### Specification -/

/-- In ascending order of the numbers. -/
def Ordered {β : Type} (num : β → Option Nat) (l : List β) : Prop := l.Pairwise fun x y => ∃ a b, num x = some a ∧ num y = some b ∧ a ≤ b

/-- No two members of the list have the same number. -/
def Distinct {β : Type} (num : β → Option Nat) (l : List β) : Prop := ∀ x ∈ l, ∀ y ∈ l, num x = num y → x = y

/-- The nodes and their connections are live. -/
def Whole (h : Heap F) (nodes : List Nat) : Prop :=
  ∀ p ∈ nodes, ∃ N, h.nd p = some N ∧ (∀ c ∈ N.ins, ∃ k, connNum h c = some k) ∧ ∀ c ∈ N.outs, ∃ k, connNum h c = some k

/-! ### Lemmas -/

theorem mapM_iff {β γ : Type} (g : β → Option γ) : ∀ (I : List β) (r : List γ), I.mapM g = some r ↔ I.map g = r.map some
  | [], r => by cases r <;> simp
  | i :: I, r => by
    rw [List.mapM_cons]
    cases hg : g i with
    | none => cases r <;> simp [hg]
    | some x =>
      cases hm : I.mapM g with
      | none =>
        cases r with
        | nil => simp
        | cons y r =>
          have : ¬ I.map g = r.map some := fun c => by rw [(mapM_iff g I r).mpr c] at hm; cases hm
          simp [hg, this]
      | some s =>
        have hs := (mapM_iff g I s).mp hm
        cases r with
        | nil => simp
        | cons y r =>
          simp only [Option.bind_eq_bind, Option.bind_some, List.map_cons, hg, Option.pure_def, Option.some.injEq, List.cons.injEq, hs]
          rw [List.map_inj_right (fun _ _ => Option.some.inj)]

theorem mapM_total {β γ : Type} (g : β → Option γ) : ∀ I : List β, (∀ i ∈ I, ∃ x, g i = some x) → ∃ r, I.mapM g = some r
  | [], _ => ⟨[], rfl⟩
  | i :: I, h => by
    obtain ⟨x, hx⟩ := h i (by simp)
    obtain ⟨r, hr⟩ := mapM_total g I fun j hj => h j (List.mem_cons_of_mem _ hj)
    exact ⟨x :: r, by rw [List.mapM_cons, hx, hr]; rfl⟩

theorem sortBy_spec {β : Type} (num : β → Option Nat) (l : List β) (hl : ∀ x ∈ l, ∃ k, num x = some k) :
    ∃ r, sortBy num l = some r ∧ r.Perm l ∧ Ordered num r := by
  obtain ⟨A, hA⟩ := mapM_total num l hl
  have hA' := (mapM_iff num l A).mp hA
  have hlen : A.length = l.length := by have := congrArg List.length hA'; simpa using this.symm
  obtain ⟨I, hI, hperm, _, hord⟩ := Sort.C01_quick_sort A (List.range l.length) 0 ((l.length : Int) - 1) (by omega) (by simp) (by
    intro k _ hk x hx
    rw [List.getElem?_range (by omega)] at hx
    cases hx
    omega)
  obtain ⟨r, hr⟩ := mapM_total (fun i => l[i]?) I (fun i hi => by
    have : i < l.length := List.mem_range.mp (hperm.mem_iff.mp hi)
    exact ⟨l[i], List.getElem?_eq_getElem this⟩)
  have hr' := (mapM_iff _ I r).mp hr
  have hrange : (List.range l.length).map (fun i => l[i]?) = l.map some := by
    apply List.ext_getElem?
    intro i
    by_cases hi : i < l.length
    · simp [hi]
    · simp [hi]
  refine ⟨r, by rw [sortBy, hA, Option.bind_some, hI, Option.bind_some, hr], ?_, ?_⟩
  · have h1 : (r.map some).Perm (l.map some) := by
      rw [← hr', ← hrange]
      exact hperm.map _
    exact (List.map_perm_map_iff (Option.some_injective _)).mp h1
  · rw [Ordered, List.pairwise_iff_getElem]
    intro i j hi hj hij
    have hrl : r.length = I.length := by have := congrArg List.length hr'; simpa using this.symm
    have hIl : I.length = l.length := by rw [hperm.length_eq, List.length_range]
    obtain ⟨a, b, x, y, ha, hb, hx, hy, hxy⟩ := hord i j (by omega) (by omega) (by omega)
    have pick : ∀ (k c : Nat) (hk : k < r.length), I[k]? = some c → l[c]? = some r[k] := fun k c hk hc => by
      have := congrArg (fun q => q[k]?) hr'
      simp only [List.getElem?_map, hc, Option.map_some, List.getElem?_eq_getElem hk, Option.some.injEq] at this
      exact this
    have numb : ∀ (c : Nat) (x : Nat) (z : β), l[c]? = some z → A[c]? = some x → num z = some x := fun c x z hz hx => by
      have := congrArg (fun q => q[c]?) hA'
      simp only [List.getElem?_map, hz, hx, Option.map_some, Option.some.injEq] at this
      exact this
    exact ⟨x, y, numb a x _ (pick i a hi ha) hx, numb b y _ (pick j b hj hb) hy, hxy⟩

theorem ordered_unique {β : Type} (num : β → Option Nat) (l r : List β) (hp : l.Perm r) (hd : Distinct num l) (hl : Ordered num l)
    (hr : Ordered num r) : l = r := by
  refine List.Perm.eq_of_pairwise (fun x y hx hy h1 h2 => ?_) hl hr hp
  obtain ⟨a, b, e1, e2, h1⟩ := h1
  obtain ⟨c, d, e3, e4, h2⟩ := h2
  rw [e1] at e4
  rw [e2] at e3
  cases e4
  cases e3
  exact hd x hx y (hp.mem_iff.mpr hy) (by rw [e1, e2, Nat.le_antisymm h1 h2])

theorem adjustNode_spec (p : Nat) (h : Heap F) (N : Nd F) (hN : h.nd p = some N) (h1 : ∀ c ∈ N.ins, ∃ k, connNum h c = some k)
    (h2 : ∀ c ∈ N.outs, ∃ k, connNum h c = some k) : ∃ ins outs, adjustNode p h =
      some ⟨h.next, Function.update h.nd p (some { N with ins := ins, outs := outs }), h.cn⟩ ∧ ins.Perm N.ins ∧ outs.Perm N.outs ∧
      Ordered (connNum h) ins ∧ Ordered (connNum h) outs := by
  obtain ⟨ins, e1, p1, o1⟩ := sortBy_spec (connNum h) N.ins h1
  obtain ⟨outs, e2, p2, o2⟩ := sortBy_spec (connNum h) N.outs h2
  refine ⟨ins, outs, ?_, p1, p2, o1, o2⟩
  rw [adjustNode, hN, Option.bind_some, e1, Option.bind_some, setIns, hN, Option.bind_some, Option.bind_some]
  simp only [Function.update_self, Option.bind_some]
  have hc : connNum (⟨h.next, Function.update h.nd p (some { N with ins := ins }), h.cn⟩ : Heap F) = connNum h := rfl
  rw [hc, e2, Option.bind_some, setOuts]
  simp only [Function.update_self, Option.bind_some, Function.update_idem]

theorem adjustAll_spec : ∀ (ps : List Nat) (h : Heap F), Whole h ps → ∃ h', adjustAll ps h = some h' ∧ h'.cn = h.cn ∧ h'.next = h.next ∧
    (∀ p, p ∉ ps → h'.nd p = h.nd p) ∧ ∀ p ∈ ps, ∀ N, h.nd p = some N → ∃ ins outs, h'.nd p = some { N with ins := ins, outs := outs } ∧
      ins.Perm N.ins ∧ outs.Perm N.outs ∧ Ordered (connNum h) ins ∧ Ordered (connNum h) outs
  | [], h, _ => ⟨h, rfl, rfl, rfl, fun _ _ => rfl, fun p hp => absurd hp (by simp)⟩
  | q :: ps, h, hw => by
    obtain ⟨M, hM, hM1, hM2⟩ := hw q (by simp)
    obtain ⟨i1, o1, e1, pi, po, oi, oo⟩ := adjustNode_spec q h M hM hM1 hM2
    obtain ⟨h', e2, hc, hn, hout, hin⟩ := adjustAll_spec ps ⟨h.next, Function.update h.nd q (some { M with ins := i1, outs := o1 }), h.cn⟩ (fun p hp => by
      by_cases hpq : p = q
      · subst hpq
        exact ⟨_, Function.update_self .., fun c hc => hM1 c (pi.mem_iff.mp hc), fun c hc => hM2 c (po.mem_iff.mp hc)⟩
      · obtain ⟨N, h1, h2, h3⟩ := hw p (List.mem_cons_of_mem _ hp)
        exact ⟨N, (Function.update_of_ne hpq _ _).trans h1, h2, h3⟩)
    refine ⟨h', by rw [adjustAll, e1, Option.bind_some, e2], hc, hn, fun p hp => ?_, fun p hp N hN => ?_⟩
    · rw [hout p (fun c => hp (List.mem_cons_of_mem _ c))]
      exact Function.update_of_ne (fun c => hp (by simp [c])) _ _
    · by_cases hpq : p = q
      · subst hpq
        rw [hM] at hN
        cases hN
        by_cases hps : p ∈ ps
        · obtain ⟨i2, o2, e, a, b, c, d⟩ := hin p hps _ (Function.update_self ..)
          exact ⟨i2, o2, e, a.trans pi, b.trans po, c, d⟩
        · exact ⟨i1, o1, by rw [hout p hps]; exact Function.update_self .., pi, po, oi, oo⟩
      · have hps : p ∈ ps := (List.mem_cons.mp hp).resolve_left hpq
        exact hin p hps N ((Function.update_of_ne hpq _ _).trans hN)

/-! ### Theorems -/

/-- The nodes are listed in the order of their numbers, and so are the connections of each node; no node and no connection is lost,
doubled or otherwise changed. -/
theorem C174_order (nodes : List Nat) (h : Heap F) (hw : Whole h nodes) : ∃ h' nodes', adjust nodes h = some (h', nodes') ∧
    nodes'.Perm nodes ∧ Ordered (nodeNum h) nodes' ∧ h'.cn = h.cn ∧ h'.next = h.next ∧ (∀ p, p ∉ nodes → h'.nd p = h.nd p) ∧
    ∀ p ∈ nodes, ∀ N, h.nd p = some N → ∃ ins outs, h'.nd p = some { N with ins := ins, outs := outs } ∧ ins.Perm N.ins ∧
      outs.Perm N.outs ∧ Ordered (connNum h) ins ∧ Ordered (connNum h) outs := by
  obtain ⟨l, e, hp, ho⟩ := sortBy_spec (nodeNum h) nodes (fun p hp => by
    obtain ⟨N, hN, _⟩ := hw p hp
    exact ⟨N.inn, by rw [nodeNum, hN]; rfl⟩)
  obtain ⟨h', e', hc, hn, hout, hin⟩ := adjustAll_spec l h (fun p hp' => hw p (hp.mem_iff.mp hp'))
  exact ⟨h', l, by rw [adjust, e, Option.bind_some, e']; rfl, hp, ho, hc, hn, fun p hq => hout p fun c => hq (hp.mem_iff.mp c),
    fun p hq => hin p (hp.mem_iff.mpr hq)⟩

/-- The numbers of the order are the innovation numbers of the nodes and of the connections pointed at. -/
theorem C174_numbers (h : Heap F) (p : Nat) (c : Option Nat) (k : Nat) :
    (nodeNum h p = some k ↔ ∃ N, h.nd p = some N ∧ N.inn = k) ∧ (connNum h c = some k ↔ ∃ q C, c = some q ∧ h.cn q = some C ∧ C.inn = k) := by
  refine ⟨by simp [nodeNum], ?_⟩
  cases c <;> simp [connNum]

/-- The order is canonical: if no two nodes and no two connections on one side of a node share a number, two listings of the same
genome, which may differ in the order of the nodes and of the connections of each node, become the same. -/
theorem C174_canonical (nodes nodes2 : List Nat) (h h2 : Heap F) (hw : Whole h nodes) (hp : nodes2.Perm nodes) (hc : h2.cn = h.cn)
    (hd : Distinct (nodeNum h) nodes)
    (hs : ∀ p ∈ nodes, ∀ N, h.nd p = some N → Distinct (connNum h) N.ins ∧ Distinct (connNum h) N.outs ∧
      ∃ ins outs, h2.nd p = some { N with ins := ins, outs := outs } ∧ ins.Perm N.ins ∧ outs.Perm N.outs) :
    ∃ h' h2' nodes', adjust nodes h = some (h', nodes') ∧ adjust nodes2 h2 = some (h2', nodes') ∧ ∀ p ∈ nodes', h'.nd p = h2'.nd p := by
  have hcn : connNum h2 = connNum h := by funext c; rw [connNum, connNum, hc]
  have hw2 : Whole h2 nodes2 := fun p hp2 => by
    obtain ⟨N, hN, h1, h3⟩ := hw p (hp.mem_iff.mp hp2)
    obtain ⟨_, _, ins, outs, e, a, b⟩ := hs p (hp.mem_iff.mp hp2) N hN
    rw [hcn]
    exact ⟨_, e, fun c hc' => h1 c (a.mem_iff.mp hc'), fun c hc' => h3 c (b.mem_iff.mp hc')⟩
  obtain ⟨h', l, e, lp, lo, _, _, _, hin⟩ := C174_order nodes h hw
  obtain ⟨h2', l2, e2, lp2, lo2, _, _, _, hin2⟩ := C174_order nodes2 h2 hw2
  have hnn : ∀ p ∈ nodes, nodeNum h2 p = nodeNum h p := fun p hp' => by
    obtain ⟨N, hN, _⟩ := hw p hp'
    obtain ⟨_, _, ins, outs, e, _⟩ := hs p hp' N hN
    rw [nodeNum, nodeNum, hN, e]; rfl
  have lo2' : Ordered (nodeNum h) l2 := by
    refine List.Pairwise.imp_of_mem (fun {x y} hx hy hxy => ?_) lo2
    obtain ⟨a, b, e1, e2, hab⟩ := hxy
    have hx' := hp.mem_iff.mp (lp2.mem_iff.mp hx)
    have hy' := hp.mem_iff.mp (lp2.mem_iff.mp hy)
    exact ⟨a, b, (hnn x hx').symm.trans e1, (hnn y hy').symm.trans e2, hab⟩
  have hl : l = l2 := ordered_unique (nodeNum h) l l2 (lp.trans (lp2.trans hp).symm)
    (fun x hx y hy => hd x (lp.mem_iff.mp hx) y (lp.mem_iff.mp hy)) lo lo2'
  subst hl
  refine ⟨h', h2', l, e, e2, fun p hpl => ?_⟩
  have hpn := lp.mem_iff.mp hpl
  obtain ⟨N, hN, _⟩ := hw p hpn
  obtain ⟨d1, d2, ins, outs, e3, a, b⟩ := hs p hpn N hN
  obtain ⟨i1, o1, f1, p1, q1, r1, s1⟩ := hin p hpn N hN
  obtain ⟨i2, o2, f2, p2, q2, r2, s2⟩ := hin2 p (hp.mem_iff.mpr hpn) _ e3
  rw [hcn] at r2 s2
  have ei : i1 = i2 := ordered_unique (connNum h) i1 i2 (p1.trans (p2.trans a).symm) (fun x hx y hy => d1 x (p1.mem_iff.mp hx) y (p1.mem_iff.mp hy)) r1 r2
  have eo : o1 = o2 := ordered_unique (connNum h) o1 o2 (q1.trans (q2.trans b).symm) (fun x hx y hy => d2 x (q1.mem_iff.mp hx) y (q1.mem_iff.mp hy)) s1 s2
  rw [f1, f2, ei, eo]

/-- A genome of two nodes listed in the wrong order, the first with two incoming connections in the wrong order. -/
def sample : Heap Nat :=
  ⟨4, fun p => if p = 0 then some ⟨9, 0, 0, [some 2, some 3], [], none⟩ else if p = 1 then some ⟨5, 0, 0, [], [some 2, some 3], none⟩ else none,
    fun c => if c = 2 then some ⟨8, true, 1, some 1, some 0⟩ else if c = 3 then some ⟨7, true, 1, some 1, some 0⟩ else none⟩

/-- The hypotheses are met by it, and it is put in order. -/
example : Whole sample [0, 1] ∧ Distinct (nodeNum sample) [0, 1] ∧ ∃ h', adjust [0, 1] sample = some (h', [1, 0]) ∧
    (h'.nd 0).map Nd.ins = some [some 3, some 2] := by
  have hw : Whole sample [0, 1] := by
    intro p hp
    simp only [List.mem_cons, List.not_mem_nil, or_false] at hp
    rcases hp with rfl | rfl
    · exact ⟨_, rfl, by simp [connNum, sample], by simp⟩
    · exact ⟨_, rfl, by simp, by simp [connNum, sample]⟩
  have hd : Distinct (nodeNum sample) [0, 1] := by
    intro x hx y hy
    simp only [List.mem_cons, List.not_mem_nil, or_false] at hx hy
    rcases hx with rfl | rfl <;> rcases hy with rfl | rfl <;> simp [nodeNum, sample]
  obtain ⟨h', l, e, lp, lo, _, _, _, hin⟩ := C174_order [0, 1] sample hw
  have hl : l = [1, 0] := ordered_unique (nodeNum sample) l [1, 0] (lp.trans (List.Perm.swap 1 0 []))
    (fun x hx y hy => hd x (lp.mem_iff.mp hx) y (lp.mem_iff.mp hy)) lo (by simp [Ordered, nodeNum, sample])
  subst hl
  obtain ⟨ins, outs, f, pi, _, oi, _⟩ := hin 0 (by simp) _ rfl
  have hi : ins = [some 3, some 2] := ordered_unique (connNum sample) ins [some 3, some 2] (pi.trans (List.Perm.swap (some 3) (some 2) []))
    (fun x hx y hy => by
      have hx := pi.mem_iff.mp hx
      have hy := pi.mem_iff.mp hy
      simp only [List.mem_cons, List.not_mem_nil, or_false] at hx hy
      rcases hx with rfl | rfl <;> rcases hy with rfl | rfl <;> simp [connNum, sample]) oi (by simp [Ordered, connNum, sample])
  exact ⟨hw, hd, h', e, by rw [f, hi]; rfl⟩

end LLab.Neat.Adjust
