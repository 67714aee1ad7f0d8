import Verif.RL.DdpgLife

/-!
Property C179: the life of transformers: `transf`, `free_transf` and `copy_transf` (`/repo/src/transformer.c` 46-67, 76-92, 130-161); the two functions
without learning parameters (101-116, 169-200) do the same with other encoders and decoders.

The memory is that of `Verif.Aco.NodeLife`. An encoder or decoder counts as one block, which its copy makes and its `free` function
frees. `none` is undefined behaviour or the end of the program with an error.
-/

namespace LLab.Transf.TransfLife

open LLab.Aco.NodeLife LLab.RL.DdpgLife

/-! ### Model -/

/-- `transformer` (`/repo/src/llab.h`): the arrays of encoders and decoders, the latter null if there is none, and what they hold; the matrix of
connections, null or an array with its rows; the three rates of the optimisers. -/
structure Tr (β : Type) where
  adr : Nat
  teArr : Nat
  te : List Nat
  tdArr : Option Nat
  td : List Nat
  conns : Option (Nat × List (Nat × List Nat))
  betas : β × β × β

/-- `transf` (`/repo/src/transformer.c` 46-67) with the array of encoders not null; `std` are the usual rates. -/
def transf {β : Type} (std : β × β × β) (teArr : Nat) (te : List Nat) (tdArr : Option Nat) (td : List Nat) (conns : Option (Nat × List (Nat × List Nat)))
    (h : Heap) : Option (Heap × Tr β) :=
  if te.length = 0 ∨ (td.length ≠ 0 ∧ tdArr = none) then none else some (h.alloc, ⟨h.next, teArr, te, tdArr, td, conns, std⟩)

/-- The rows of the copied matrix (`/repo/src/transformer.c` 148-153): `n` rows of `nd` numbers. -/
def copyRows (nd : Nat) : Nat → List (Nat × List Nat) → Heap → Option (Heap × List (Nat × List Nat))
  | 0, _, h => some (h, [])
  | _ + 1, [], _ => none
  | n + 1, r :: rs, h => if r.2.length < nd then none else (copyRows nd n rs h.alloc).bind fun x => some (x.1, (h.next, r.2.take nd) :: x.2)

/-- The copied matrix (`/repo/src/transformer.c` 146-154), null if the original is or there is no decoder. -/
def copyConns {β : Type} (t : Tr β) (h : Heap) : Option (Heap × Option (Nat × List (Nat × List Nat))) :=
  match t.conns with
  | none => some (h, none)
  | some c => if t.td.length = 0 then some (h, none)
    else (copyRows t.td.length t.te.length c.2 h.alloc).bind fun r => some (r.1, some (h.next, r.2))

/-- `copy_transf` (`/repo/src/transformer.c` 130-161). -/
def copy {β : Type} (std : β × β × β) (t : Tr β) (h : Heap) : Option (Heap × Tr β) :=
  if t.te.length = 0 then none
  else
    let d : Heap × Option Nat := if t.td.length = 0 then (h.alloc, none) else (h.alloc.alloc, some h.alloc.next)
    let e := allocs t.te.length d.1
    let f := allocs t.td.length e.1
    (copyConns t f.1).bind fun c =>
      (transf std h.next e.2 d.2 f.2 c.2 c.1).bind fun r => some (r.1, { r.2 with betas := t.betas })

/-- `free_transf` (`/repo/src/transformer.c` 76-92): a row of the matrix is read for every encoder. -/
def freeTr {β : Type} (t : Tr β) (h : Heap) : Option Heap :=
  match t.conns with
  | none => if t.te.length = 0 then freeList (t.te ++ (t.td ++ (t.teArr :: (t.tdArr.toList ++ [t.adr])))) h else none
  | some c => if c.2.length < t.te.length then none
    else freeList (t.te ++ (t.td ++ (t.teArr :: (t.tdArr.toList ++ ((c.2.take t.te.length).map Prod.fst ++ [c.1, t.adr]))))) h

/-! ### Specification -/

/-- All blocks of a transformer. -/
def owned {β : Type} (t : Tr β) : List Nat :=
  t.adr :: t.teArr :: (t.te ++ (t.tdArr.toList ++ (t.td ++ ((t.conns.map Prod.fst).toList ++ ((t.conns.map fun c => c.2.map Prod.fst).getD [])))))

/-- The matrix of connections, without addresses. -/
def matrix {β : Type} (t : Tr β) : List (List Nat) := (t.conns.map fun c => c.2.map Prod.snd).getD []

/-- A transformer with encoders and decoders, a row of connections for every encoder and in it a number for every decoder. -/
structure Whole {β : Type} (t : Tr β) : Prop where
  te : t.te ≠ []
  td : t.td ≠ []
  arr : t.tdArr.isSome = true
  conns : t.conns.isSome = true
  rows : (matrix t).length = t.te.length
  cols : ∀ r ∈ matrix t, r.length = t.td.length

/-- Its blocks are distinct and live. -/
def Alive {β : Type} (t : Tr β) (h : Heap) : Prop := (owned t).Nodup ∧ ∀ q ∈ owned t, h.live q = true

/-! ### Lemmas -/

theorem copyRows_spec (nd : Nat) : ∀ (rs : List (Nat × List Nat)) (h : Heap), (∀ r ∈ rs, r.2.length = nd) →
    ∃ x, copyRows nd rs.length rs h = some x ∧ Grow h x.1 (x.2.map Prod.fst) ∧ x.2.map Prod.snd = rs.map Prod.snd
  | [], h, _ => ⟨(h, []), rfl, grow_refl h, rfl⟩
  | r :: rs, h, hr => by
    obtain ⟨x, e, g, m⟩ := copyRows_spec nd rs h.alloc fun r hm => hr r (List.mem_cons_of_mem _ hm)
    have hl := hr r List.mem_cons_self
    refine ⟨(x.1, (h.next, r.2.take nd) :: x.2), ?_, ?_, ?_⟩
    · rw [List.length_cons, copyRows, if_neg (by omega), e]; rfl
    · exact (grow_alloc h).trans g
    · rw [List.map_cons, List.map_cons, m, List.take_of_length_le (by omega)]

/-- Freeing a whole transformer frees its blocks. -/
theorem free_spec {β : Type} (t : Tr β) (hw : Whole t) (h : Heap) (ha : Alive t h) :
    ∃ h', freeTr t h = some h' ∧ h'.next = h.next ∧ ∀ q, h'.live q = true ↔ h.live q = true ∧ q ∉ owned t := by
  obtain ⟨c, hc⟩ := Option.isSome_iff_exists.mp hw.conns
  have hrows : c.2.length = t.te.length := by
    have := hw.rows
    simp only [matrix, hc, Option.map_some, Option.getD_some, List.length_map] at this
    exact this
  have hp : (t.te ++ (t.td ++ (t.teArr :: (t.tdArr.toList ++ ((c.2.take t.te.length).map Prod.fst ++ [c.1, t.adr]))))).Perm (owned t) := by
    unfold owned
    rw [hc, List.take_of_length_le (by omega)]
    simp only [Option.map_some, Option.toList_some, Option.getD_some]
    refine List.perm_iff_count.mpr fun z => ?_
    simp only [List.count_append, List.count_cons, List.count_nil]
    omega
  obtain ⟨h', e, hn, hq⟩ := freeList_spec _ h (hp.nodup_iff.mpr ha.1) (fun q hm => ha.2 q (hp.mem_iff.mp hm))
  refine ⟨h', ?_, hn, fun q => by rw [hq q, hp.mem_iff]⟩
  unfold freeTr
  rw [hc]
  dsimp only
  rw [if_neg (by omega)]
  exact e

/-- The copy of a whole transformer. -/
theorem copy_spec {β : Type} (std : β × β × β) (t : Tr β) (hw : Whole t) (h : Heap) :
    ∃ h' t', copy std t h = some (h', t') ∧ Grow h h' (owned t') ∧ Whole t' ∧ matrix t' = matrix t ∧ t'.te.length = t.te.length ∧
      t'.td.length = t.td.length ∧ t'.betas = t.betas := by
  obtain ⟨c, hc⟩ := Option.isSome_iff_exists.mp hw.conns
  have hm : matrix t = c.2.map Prod.snd := by simp [matrix, hc]
  have hrows : c.2.length = t.te.length := by
    have := hw.rows
    rw [hm, List.length_map] at this
    exact this
  have hte : t.te.length ≠ 0 := fun x => hw.te (List.length_eq_zero_iff.mp x)
  have htd : t.td.length ≠ 0 := fun x => hw.td (List.length_eq_zero_iff.mp x)
  obtain ⟨ge, le⟩ := grow_allocs t.te.length h.alloc.alloc
  obtain ⟨gf, lf⟩ := grow_allocs t.td.length (allocs t.te.length h.alloc.alloc).1
  obtain ⟨x, ex, gx, mx⟩ := copyRows_spec t.td.length c.2 (allocs t.td.length (allocs t.te.length h.alloc.alloc).1).1.alloc (fun r hr =>
    hw.cols r.2 (by rw [hm]; exact List.mem_map_of_mem hr))
  rw [hrows] at ex
  have g := (grow_alloc h).trans ((grow_alloc h.alloc).trans (ge.trans (gf.trans ((grow_alloc _).trans (gx.trans (grow_alloc x.1))))))
  refine ⟨x.1.alloc, ⟨x.1.next, h.next, (allocs t.te.length h.alloc.alloc).2, some h.alloc.next,
    (allocs t.td.length (allocs t.te.length h.alloc.alloc).1).2, some ((allocs t.td.length (allocs t.te.length h.alloc.alloc).1).1.next, x.2), t.betas⟩,
    ?_, ?_, ⟨?_, ?_, rfl, rfl, ?_, ?_⟩, ?_, le, lf, rfl⟩
  · unfold copy
    rw [if_neg hte]
    dsimp only
    rw [if_neg htd]
    dsimp only
    unfold copyConns
    rw [hc]
    dsimp only
    rw [if_neg htd, ex]
    simp only [Option.bind_some]
    unfold transf
    rw [if_neg (by rw [le, lf]; simp [hte])]
    rfl
  · refine g.perm ?_
    unfold owned
    simp only [Option.map_some, Option.toList_some, Option.getD_some]
    refine List.perm_iff_count.mpr fun z => ?_
    simp only [List.count_append, List.count_cons, List.count_nil]
    omega
  · intro c; exact hte (by rw [← le]; exact List.length_eq_zero_iff.mpr c)
  · intro c; exact htd (by rw [← lf]; exact List.length_eq_zero_iff.mpr c)
  · show (x.2.map Prod.snd).length = (allocs t.te.length h.alloc.alloc).2.length
    rw [mx, List.length_map, hrows, le]
  · show ∀ r ∈ x.2.map Prod.snd, r.length = (allocs t.td.length (allocs t.te.length h.alloc.alloc).1).2.length
    rw [mx, lf, ← hm]
    exact hw.cols
  · show x.2.map Prod.snd = matrix t
    rw [mx, hm]

/-! ### Theorems -/

/-- The copy of a transformer with encoders and decoders has as many of each, the same connections and the same rates, in distinct new blocks. -/
theorem C179_copy_partial {β : Type} (std : β × β × β) (t : Tr β) (hw : Whole t) (h0 : Heap) (hs : Sane h0) (ha : Alive t h0) :
    ∃ h t', copy std t h0 = some (h, t') ∧ matrix t' = matrix t ∧ t'.te.length = t.te.length ∧ t'.td.length = t.td.length ∧ t'.betas = t.betas ∧
      Alive t' h ∧ Alive t h ∧ ∀ q ∈ owned t', q ∉ owned t ∧ h0.live q = false := by
  obtain ⟨h, t', e, g, _, m, a, b, c⟩ := copy_spec std t hw h0
  refine ⟨h, t', e, m, a, b, c, ⟨g.nodup, fun q hq => (g.live q).mpr (Or.inr hq)⟩, ⟨ha.1, fun q hq => (g.live q).mpr (Or.inl (ha.2 q hq))⟩, fun q hq => ?_⟩
  have hdead : h0.live q = false := by
    cases hl : h0.live q
    · rfl
    · have := hs q hl
      have := (g.fresh q hq).1
      omega
  exact ⟨fun x => (by rw [ha.2 q x] at hdead; cases hdead), hdead⟩

/-- The copy can be freed, and then the memory is as before it was made, so the original is whole; the original can be freed first and the copy after it; either
way all blocks of both are freed and no other. -/
theorem C179_free_partial {β : Type} (std : β × β × β) (t : Tr β) (hw : Whole t) (h0 h : Heap) (t' : Tr β) (hs : Sane h0) (ha : Alive t h0)
    (hc : copy std t h0 = some (h, t')) :
    (∃ h1 h2, freeTr t' h = some h1 ∧ (∀ q, h1.live q = h0.live q) ∧ freeTr t h1 = some h2 ∧ ∀ q, h2.live q = true ↔ h0.live q = true ∧ q ∉ owned t) ∧
    ∃ h1 h2, freeTr t h = some h1 ∧ freeTr t' h1 = some h2 ∧ ∀ q, h2.live q = true ↔ h0.live q = true ∧ q ∉ owned t := by
  obtain ⟨k, t1, e, g, hw', _⟩ := copy_spec std t hw h0
  rw [e] at hc
  cases hc
  have hdis : ∀ q ∈ owned t', h0.live q ≠ true := fun q hq hl => by
    have := hs q hl
    have := (g.fresh q hq).1
    omega
  have hb : ∀ {a b : Bool}, (a = true ↔ b = true) → a = b := by
    intro a b
    cases a <;> cases b <;> simp
  constructor
  · obtain ⟨h1, e1, _, q1⟩ := free_spec t' hw' h ⟨g.nodup, fun q hq => (g.live q).mpr (Or.inr hq)⟩
    have same : ∀ q, h1.live q = true ↔ h0.live q = true := fun q => by
      rw [q1 q, g.live q]
      constructor
      · rintro ⟨c | c, d⟩
        · exact c
        · exact absurd c d
      · exact fun c => ⟨Or.inl c, fun hm => hdis q hm c⟩
    obtain ⟨h2, e2, _, q2⟩ := free_spec t hw h1 ⟨ha.1, fun q hq => (same q).mpr (ha.2 q hq)⟩
    exact ⟨h1, h2, e1, fun q => hb (same q), e2, fun q => by rw [q2 q, same q]⟩
  · obtain ⟨h1, e1, _, q1⟩ := free_spec t hw h ⟨ha.1, fun q hq => (g.live q).mpr (Or.inl (ha.2 q hq))⟩
    obtain ⟨h2, e2, _, q2⟩ := free_spec t' hw' h1 ⟨g.nodup, fun q hq => (q1 q).mpr ⟨(g.live q).mpr (Or.inr hq), fun hm => hdis q hq (ha.2 q hm)⟩⟩
    refine ⟨h1, h2, e1, e2, fun q => ?_⟩
    rw [q2 q, q1 q, g.live q]
    constructor
    · rintro ⟨⟨c | c, d⟩, x⟩
      · exact ⟨c, d⟩
      · exact absurd c x
    · rintro ⟨c, d⟩
      exact ⟨⟨Or.inl c, d⟩, fun hm => hdis q hm c⟩

/-- A transformer of encoders alone should be copied and freed as well: the copy is made, whatever matrix the original has, but cannot be freed, since its
matrix is null and read. -/
theorem C179_encoders_refuted {β : Type} (std : β × β × β) (t : Tr β) (hte : t.te ≠ []) (htd : t.td = []) (h : Heap) :
    ∃ h' t', copy std t h = some (h', t') ∧ ∀ k, freeTr t' k = none := by
  have hl : t.te.length ≠ 0 := fun x => hte (List.length_eq_zero_iff.mp x)
  have ht : t.td.length = 0 := by rw [htd]; rfl
  have hcc : ∀ k : Heap, copyConns t k = some (k, none) := fun k => by
    unfold copyConns
    cases t.conns with
    | none => rfl
    | some c => dsimp only; rw [if_pos ht]
  have le := (grow_allocs t.te.length h.alloc).2
  refine ⟨(allocs t.td.length (allocs t.te.length h.alloc).1).1.alloc, ⟨(allocs t.td.length (allocs t.te.length h.alloc).1).1.next, h.next,
    (allocs t.te.length h.alloc).2, none, (allocs t.td.length (allocs t.te.length h.alloc).1).2, none, t.betas⟩, ?_, fun k => ?_⟩
  · unfold copy
    rw [if_neg hl]
    dsimp only
    rw [if_pos ht]
    dsimp only
    rw [hcc]
    simp only [Option.bind_some]
    unfold transf
    rw [if_neg (by rw [le, (grow_allocs _ _).2]; simp [hl, ht])]
    rfl
  · show (if (allocs t.te.length h.alloc).2.length = 0 then _ else none) = none
    rw [if_neg (by rw [le]; exact hl)]

/-- So it is for a transformer made without a matrix. -/
theorem C179_null_refuted {β : Type} (std : β × β × β) (teArr : Nat) (te : List Nat) (tdArr : Option Nat) (td : List Nat) (h h' : Heap) (t : Tr β)
    (ht : transf std teArr te tdArr td none h = some (h', t)) : ∀ k, freeTr t k = none := by
  unfold transf at ht
  split at ht
  · cases ht
  · rename_i hn
    cases ht
    intro k
    rw [not_or] at hn
    show (if te.length = 0 then _ else none) = none
    rw [if_neg hn.1]

/-- The hypotheses are met by two encoders, two decoders and a matrix of two rows. -/
example : ∃ (t : Tr Nat) (h : Heap), Whole t ∧ Sane h ∧ Alive t h ∧ matrix t = [[1, 0], [1, 1]] :=
  ⟨⟨0, 1, [2, 3], some 4, [5, 6], some (7, [(8, [1, 0]), (9, [1, 1])]), (1, 2, 3)⟩, ⟨10, fun q => decide (q < 10)⟩,
    ⟨by decide, by decide, rfl, rfl, rfl, by decide⟩, fun q hq => by simpa using hq, ⟨by decide, by decide⟩, rfl⟩

end LLab.Transf.TransfLife
