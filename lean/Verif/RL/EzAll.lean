import Verif.Common.Loop

/-!
Operations over all networks of an EfficientZero model: construction, preparation for use without
training, the four resets, edge-popup training, optimiser constants, copying, pasting and release
(`/repo/src/efficientzeromodel.c` 27-220, 234-310, 336-362, 417-445, 463-775, 1020-1128, 1442-1482).
A network is any type `M`, a recurrent network any type `R`; the operation done on one network is a
parameter. Property C148.
-/

namespace LLab.EzAll

variable {M R : Type}

/-! ### Model -/

/-- The arrays of copies that exist only when `batch_size > 1` (`/repo/src/efficientzeromodel.c` 68-105). -/
structure Bank (M R : Type) where
  h : List M
  g : List M
  f : List M
  fp : List M
  fv : List M
  rr : List R
  p1 : Option (List M)
  p2 : Option (List M)

/-- An `efficientzeromodel`; a missing optional is a NULL pointer. The eight arrays of copies are NULL together. -/
structure Ez (M R : Type) where
  batch : Nat
  window : Nat
  p1 : Option M
  p2 : Option M
  h : M
  g : M
  f : M
  fp : M
  fv : M
  r : M
  rt : M
  rr : R
  br : List M
  brt : List M
  bank : Option (Bank M R)

/-- The networks handed to `init_efficientzero_model`. -/
structure Parts (M R : Type) where
  p1 : Option M
  p2 : Option M
  h : M
  g : M
  f : M
  fp : M
  fv : M
  r : M
  rt : M
  rr : R

/-- `init_efficientzero_model` (`/repo/src/efficientzeromodel.c` 27-120); `none` is `exit(1)`. The NULL checks of
the eight main networks are the type. `cm`, `cr` copy a network without its learning parameters. -/
def init (cm : M → M) (cr : R → R) (p : Parts M R) (threads window : Nat) : Option (Ez M R) :=
  if threads < 1 ∨ window < 2 then none
  else if p.p1.isSome ≠ p.p2.isSome then none
  else some
    { batch := threads, window := window, p1 := p.p1, p2 := p.p2, h := p.h, g := p.g, f := p.f, fp := p.fp, fv := p.fv, r := p.r,
      rt := p.rt, rr := p.rr, br := List.replicate (threads * window) (cm p.r), brt := List.replicate (threads * window) (cm p.rt),
      bank := if 1 < threads then
        some ⟨List.replicate threads (cm p.h), List.replicate threads (cm p.g), List.replicate threads (cm p.f),
          List.replicate threads (cm p.fp), List.replicate threads (cm p.fv), List.replicate threads (cr p.rr),
          p.p1.map fun q => List.replicate threads (cm q), p.p2.map fun q => List.replicate threads (cm q)⟩
        else none }

/-- `for(i = 0; i < n; i++) op(a[i]);` `none` when the loop leaves the array. -/
def each {X : Type} (n : Nat) (op : X → X) (a : List X) : Option (List X) :=
  loop n (fun i a => (a[i]?).map fun x => a.set i (op x)) a

/-- The same loop over an array that may be NULL: reading through NULL is undefined, an empty loop is not. -/
def eachNull {X : Type} (n : Nat) (op : X → X) (a : Option (List X)) : Option (Option (List X)) :=
  match a with
  | some l => (each n op l).map some
  | none => if n = 0 then some none else none

/-- `make_efficientzeromodel_only_for_ff` (`/repo/src/efficientzeromodel.c` 120-176): `op` on every network.
The arrays `batch_p1`, `batch_p2` are read when `p1`, `p2` are not NULL. -/
def makeFF (op : M → M) (opr : R → R) (m : Ez M R) : Option (Ez M R) := do
  let br ← each (m.batch * m.window) op m.br
  let brt ← each (m.batch * m.window) op m.brt
  let bank ← (if 1 < m.batch then
    match m.bank with
    | none => none
    | some b => do
      let h ← each m.batch op b.h
      let g ← each m.batch op b.g
      let f ← each m.batch op b.f
      let fv ← each m.batch op b.fv
      let fp ← each m.batch op b.fp
      let rr ← each m.batch opr b.rr
      let p1 ← (if m.p1.isSome then eachNull m.batch op b.p1 else some b.p1)
      let p2 ← (if m.p2.isSome then eachNull m.batch op b.p2 else some b.p2)
      return some ⟨h, g, f, fp, fv, rr, p1, p2⟩
    else some m.bank)
  return { m with p1 := m.p1.map op, p2 := m.p2.map op, h := op m.h, g := op m.g, f := op m.f, fp := op m.fp, fv := op m.fv, r := op m.r,
                  rt := op m.rt, rr := opr m.rr, br := br, brt := brt, bank := bank }

/-- `reset_efficientzeromodel` (`/repo/src/efficientzeromodel.c` 1020-1032 with 234-304, 417-424); `op` is `reset_model`,
which ignores NULL, `opb` is `reset_model_without_learning_parameters`. -/
def resetAll (op opb : M → M) (opr : R → R) (m : Ez M R) : Option (Ez M R) := do
  let br ← each m.window opb m.br
  let brt ← each m.window opb m.brt
  return { m with g := op m.g, h := op m.h, p1 := m.p1.map op, p2 := m.p2.map op, f := op m.f, fv := op m.fv, fp := op m.fp,
                  br := br, brt := brt, rr := opr m.rr }

/-- `reset_efficientzeromodel_only_for_ff` (`/repo/src/efficientzeromodel.c` 1034-1045 with 237-310, 426-433). Line 1038
names the function of the dynamics network but does not call it. -/
def resetFF (op : M → M) (opr : R → R) (m : Ez M R) : Option (Ez M R) := do
  let br ← each m.window op m.br
  let brt ← each m.window op m.brt
  return { m with h := op m.h, p1 := m.p1.map op, p2 := m.p2.map op, f := op m.f, fv := op m.fv, fp := op m.fp,
                  br := br, brt := brt, rr := opr m.rr }

/-- The resets of the copies of the batch. `check` says whether the projection networks are tested for NULL first. -/
def resetBank (check : Bool) (op : M → M) (opr : R → R) (m : Ez M R) : Option (Ez M R) :=
  match m.bank with
  | none => if m.batch = 0 then some m else none
  | some b => do
    let g ← each m.batch op b.g
    let h ← each m.batch op b.h
    let p1 ← (if check && m.p1.isNone then some b.p1 else eachNull m.batch op b.p1)
    let p2 ← (if check && m.p2.isNone then some b.p2 else eachNull m.batch op b.p2)
    let f ← each m.batch op b.f
    let fv ← each m.batch op b.fv
    let fp ← each m.batch op b.fp
    let br ← each (m.window * m.batch) op m.br
    let brt ← each (m.window * m.batch) op m.brt
    let rr ← each m.batch opr b.rr
    return { m with br := br, brt := brt, bank := some ⟨h, g, f, fp, fv, rr, p1, p2⟩ }

/-- `reset_efficientzeromodel_without_learning_parameters` (`/repo/src/efficientzeromodel.c` 1047-1061 with 463-775). -/
def resetBatch (op : M → M) (opr : R → R) (m : Ez M R) : Option (Ez M R) := resetBank true op opr m

/-- `reset_efficientzeromodel_only_for_ff_without_learning_parameters` (`/repo/src/efficientzeromodel.c` 1063-1075):
no NULL check of the projection networks. -/
def resetBatchFF (op : M → M) (opr : R → R) (m : Ez M R) : Option (Ez M R) := resetBank false op opr m

/-- `set_efficientzero_model_training_edge_popup` (`/repo/src/efficientzeromodel.c` 336-362). -/
def setEdge (op : M → M) (opr : R → R) (m : Ez M R) : Option (Ez M R) := do
  let m := { m with h := op m.h, g := op m.g, f := op m.f, fp := op m.fp, fv := op m.fv, r := op m.r, rt := op m.rt, rr := opr m.rr }
  if 1 < m.batch then
    match m.bank with
    | none => none
    | some b => do
      let h ← each m.batch op b.h
      let f ← each m.batch op b.f
      let fp ← each m.batch op b.fp
      let fv ← each m.batch op b.fv
      let g ← each m.batch op b.g
      let rr ← each m.batch opr b.rr
      let br ← each (m.batch * m.window) op m.br
      let brt ← each (m.batch * m.window) op m.brt
      return { m with br := br, brt := brt, bank := some ⟨h, g, f, fp, fv, rr, b.p1, b.p2⟩ }
  else return m

/-- `set_efficientzero_model_beta` and `set_efficientzero_model_beta_adamond`
(`/repo/src/efficientzeromodel.c` 1442-1482): the ten networks, not the copies. -/
def setBeta (op : M → M) (opr : R → R) (m : Ez M R) : Ez M R :=
  { m with p1 := m.p1.map op, p2 := m.p2.map op, h := op m.h, g := op m.g, f := op m.f, fp := op m.fp, fv := op m.fv, r := op m.r,
           rt := op m.rt, rr := opr m.rr }

/-- The networks of a model. -/
def Ez.parts (m : Ez M R) : Parts M R := ⟨m.p1, m.p2, m.h, m.g, m.f, m.fp, m.fv, m.r, m.rt, m.rr⟩

/-- `copy_efficientzero_model` (`/repo/src/efficientzeromodel.c` 1077-1094): `full`, `fullr` copy a network with its parameters. -/
def copy (full : M → M) (fullr : R → R) (cm : M → M) (cr : R → R) (m : Ez M R) : Option (Ez M R) :=
  init cm cr ⟨m.p1.map full, m.p2.map full, full m.h, full m.g, full m.f, full m.fp, full m.fv, full m.r, full m.rt, fullr m.rr⟩ m.batch m.window

/-- `paste_model(p,q)` returns when `p` is NULL and reads `q` otherwise. -/
def pasteOpt (op : M → M → M) (p q : Option M) : Option (Option M) :=
  match p, q with
  | none, q => some q
  | some _, none => none
  | some p, some q => some (some (op p q))

/-- `paste_efficientzero_model(m,copy)` and, with the mixing operation, `slow_paste_efficientzero_model`
(`/repo/src/efficientzeromodel.c` 1096-1128); the result is the new `copy`. -/
def paste (op : M → M → M) (opr : R → R → R) (m c : Ez M R) : Option (Ez M R) := do
  let p1 ← pasteOpt op m.p1 c.p1
  let p2 ← pasteOpt op m.p2 c.p2
  return { c with p1 := p1, p2 := p2, h := op m.h c.h, g := op m.g c.g, f := op m.f c.f, fv := op m.fv c.fv, fp := op m.fp c.fp,
                  r := op m.r c.r, rt := op m.rt c.rt, rr := opr m.rr c.rr }

/-- The first `n` pointers of an array, in the order a loop releases them; `none` when it is shorter. -/
def freeEach {X : Type} (n : Nat) (a : List X) : Option (List X) :=
  loop n (fun i acc => (a[i]?).map fun x => acc ++ [x]) []

/-- `if(p != NULL) for(...) free(batch_p[i])`. -/
def freeOpt (n : Nat) (p : Option M) (a : Option (List M)) : Option (List M) :=
  if p.isSome then
    match a with
    | none => if n = 0 then some [] else none
    | some a => freeEach n a
  else some []

/-- `free_efficientzero_model` (`/repo/src/efficientzeromodel.c` 178-226), as the networks released with
`free_model…` and with `free_rmodel…`. The order of the calls inside one turn of the loop is by array; the arrays
themselves and the structure are released after. -/
def free (m : Ez M R) : Option (List M × List R) := do
  let bank ← (if 1 < m.batch then
    match m.bank with
    | none => none
    | some b => do
      let h ← freeEach m.batch b.h
      let g ← freeEach m.batch b.g
      let f ← freeEach m.batch b.f
      let fv ← freeEach m.batch b.fv
      let fp ← freeEach m.batch b.fp
      let rr ← freeEach m.batch b.rr
      let p1 ← freeOpt m.batch m.p1 b.p1
      let p2 ← freeOpt m.batch m.p2 b.p2
      return (h ++ g ++ f ++ fv ++ fp ++ p1 ++ p2, rr)
    else some ([], []))
  let br ← freeEach (m.batch * m.window) m.br
  let brt ← freeEach (m.batch * m.window) m.brt
  return (bank.1 ++ br ++ brt ++ [m.h, m.g, m.f, m.fp, m.fv, m.r, m.rt] ++ m.p1.toList ++ m.p2.toList, bank.2 ++ [m.rr])

/-! ### Specification -/

/-- The arrays have the lengths given at construction. -/
structure Ez.Ok (m : Ez M R) : Prop where
  batch : 1 ≤ m.batch
  window : 2 ≤ m.window
  both : m.p1.isSome = m.p2.isSome
  br : m.br.length = m.batch * m.window
  brt : m.brt.length = m.batch * m.window
  single : m.batch = 1 → m.bank = none
  multi : 1 < m.batch → ∃ b, m.bank = some b ∧ b.h.length = m.batch ∧ b.g.length = m.batch ∧ b.f.length = m.batch ∧
    b.fp.length = m.batch ∧ b.fv.length = m.batch ∧ b.rr.length = m.batch ∧ (b.p1.isSome = m.p1.isSome) ∧ (b.p2.isSome = m.p2.isSome) ∧
    (∀ l ∈ b.p1, l.length = m.batch) ∧ (∀ l ∈ b.p2, l.length = m.batch)

/-- `op` on the copies kept for the batch. -/
def Bank.map (op : M → M) (opr : R → R) (b : Bank M R) : Bank M R :=
  ⟨b.h.map op, b.g.map op, b.f.map op, b.fp.map op, b.fv.map op, b.rr.map opr, b.p1.map (List.map op), b.p2.map (List.map op)⟩

/-- Every network there is, copies included. -/
def Ez.models (m : Ez M R) : List M :=
  [m.h, m.g, m.f, m.fp, m.fv, m.r, m.rt] ++ m.p1.toList ++ m.p2.toList ++ m.br ++ m.brt ++
    (match m.bank with
    | none => []
    | some b => b.h ++ b.g ++ b.f ++ b.fp ++ b.fv ++ b.p1.getD [] ++ b.p2.getD [])

/-- Every recurrent network there is. -/
def Ez.rmodels (m : Ez M R) : List R :=
  m.rr :: (match m.bank with
    | none => []
    | some b => b.rr)

/-! ### Proofs -/

theorem each_take {X : Type} (op : X → X) (a : List X) : ∀ n, n ≤ a.length → each n op a = some ((a.take n).map op ++ a.drop n)
  | 0, _ => by simp [each, loop]
  | n + 1, h => by
    have ih := each_take op a n (by omega)
    unfold each at ih ⊢
    simp only [loop]
    rw [ih]
    have hl : n = ((a.take n).map op).length := by
      rw [List.length_map, List.length_take]
      omega
    have hx : n < a.length := by omega
    have hd : a.drop n = a[n] :: a.drop (n + 1) := List.drop_eq_getElem_cons hx
    have hg : ((a.take n).map op ++ a.drop n)[n]? = some a[n] := by
      rw [List.getElem?_append_right (by omega), ← hl, Nat.sub_self, hd]
      rfl
    show Option.map _ (((a.take n).map op ++ a.drop n)[n]?) = _
    rw [hg]
    simp only [Option.map_some, Option.some.injEq]
    rw [List.set_append_right _ _ (by omega), ← hl, Nat.sub_self, hd, List.set_cons_zero, List.take_succ_eq_append_getElem hx, List.map_append,
      List.append_assoc]
    rfl

theorem each_all {X : Type} (op : X → X) {a : List X} {n : Nat} (h : a.length = n) : each n op a = some (a.map op) := by
  rw [each_take op a n (by omega), ← h, List.take_length, List.drop_length, List.append_nil]

theorem eachNull_all {X : Type} (op : X → X) {a : Option (List X)} {n : Nat} (h : ∀ l ∈ a, l.length = n) (hs : a.isSome) :
    eachNull n op a = some (a.map (List.map op)) := by
  cases a with
  | none => cases hs
  | some l =>
    show Option.map some (each n op l) = _
    rw [each_all op (h l rfl)]
    rfl

theorem freeEach_all {X : Type} {a : List X} {n : Nat} (h : a.length = n) : freeEach n a = some a := by
  have : ∀ k, k ≤ a.length → freeEach k a = some (a.take k) := by
    intro k
    induction k with
    | zero => intro _; simp [freeEach, loop]
    | succ k ih =>
      intro hk
      have e := ih (by omega)
      unfold freeEach at e ⊢
      simp only [loop]
      rw [e]
      show Option.map _ (a[k]?) = _
      rw [List.getElem?_eq_getElem (by omega : k < a.length), List.take_succ_eq_append_getElem (by omega : k < a.length)]
      rfl
  rw [this n (by omega), ← h, List.take_length]

/-- **C148 (construction).** A model made by the constructor has arrays of the declared lengths, the given
networks, and every copy is made from its own network. -/
theorem C148_init (cm : M → M) (cr : R → R) (p : Parts M R) (threads window : Nat) (ht : 1 ≤ threads) (hw : 2 ≤ window)
    (hp : p.p1.isSome = p.p2.isSome) :
    ∃ m, init cm cr p threads window = some m ∧ m.Ok ∧ m.parts = p ∧ m.batch = threads ∧ m.window = window ∧
      (∀ x ∈ m.br, x = cm p.r) ∧ (∀ x ∈ m.brt, x = cm p.rt) ∧
      ∀ b ∈ m.bank, (∀ x ∈ b.h, x = cm p.h) ∧ (∀ x ∈ b.g, x = cm p.g) ∧ (∀ x ∈ b.f, x = cm p.f) ∧ (∀ x ∈ b.fp, x = cm p.fp) ∧
        (∀ x ∈ b.fv, x = cm p.fv) ∧ (∀ x ∈ b.rr, x = cr p.rr) ∧ (∀ l ∈ b.p1, ∀ x ∈ l, some x = p.p1.map cm) ∧
        (∀ l ∈ b.p2, ∀ x ∈ l, some x = p.p2.map cm) := by
  unfold init
  rw [if_neg (by omega), if_neg (fun e => e hp)]
  refine ⟨_, rfl, ⟨ht, hw, hp, by simp, by simp, ?_, ?_⟩, rfl, rfl, rfl, ?_, ?_, ?_⟩
  · intro h
    exact if_neg (by dsimp only at h; omega)
  · intro h
    dsimp only at h
    refine ⟨_, if_pos h, ?_⟩
    simp
  · exact fun x hx => List.eq_of_mem_replicate hx
  · exact fun x hx => List.eq_of_mem_replicate hx
  · intro b hb
    dsimp only at hb
    by_cases h : 1 < threads
    · rw [if_pos h] at hb
      obtain rfl := Option.some.inj hb
      refine ⟨fun x hx => List.eq_of_mem_replicate hx, fun x hx => List.eq_of_mem_replicate hx, fun x hx => List.eq_of_mem_replicate hx,
        fun x hx => List.eq_of_mem_replicate hx, fun x hx => List.eq_of_mem_replicate hx, fun x hx => List.eq_of_mem_replicate hx, ?_, ?_⟩
      · intro l hl x hx
        obtain ⟨q, e, rfl⟩ := Option.map_eq_some_iff.mp hl
        rw [e, List.eq_of_mem_replicate hx]
        rfl
      · intro l hl x hx
        obtain ⟨q, e, rfl⟩ := Option.map_eq_some_iff.mp hl
        rw [e, List.eq_of_mem_replicate hx]
        rfl
    · rw [if_neg h] at hb
      cases hb

/-- **C148 (no training).** `make_efficientzeromodel_only_for_ff` prepares every network and every copy, once. -/
theorem C148_make_ff (op : M → M) (opr : R → R) (m : Ez M R) (h : m.Ok) :
    makeFF op opr m = some
      { batch := m.batch, window := m.window, p1 := m.p1.map op, p2 := m.p2.map op, h := op m.h, g := op m.g, f := op m.f, fp := op m.fp,
        fv := op m.fv, r := op m.r, rt := op m.rt, rr := opr m.rr, br := m.br.map op, brt := m.brt.map op,
        bank := m.bank.map (Bank.map op opr) } := by
  unfold makeFF
  rw [each_all op h.br, each_all op h.brt]
  by_cases hb : 1 < m.batch
  · obtain ⟨b, e, h1, h2, h3, h4, h5, h6, h7, h8, h9, h10⟩ := h.multi hb
    rw [if_pos hb, e]
    have e1 : (if m.p1.isSome then eachNull m.batch op b.p1 else some b.p1) = some (b.p1.map (List.map op)) := by
      by_cases c : m.p1.isSome
      · rw [if_pos c, eachNull_all op h9 (by rw [h7, c])]
      · rw [if_neg c]
        have : b.p1 = none := by
          rw [← Option.not_isSome_iff_eq_none, h7]
          exact c
        rw [this]
        rfl
    have e2 : (if m.p2.isSome then eachNull m.batch op b.p2 else some b.p2) = some (b.p2.map (List.map op)) := by
      by_cases c : m.p2.isSome
      · rw [if_pos c, eachNull_all op h10 (by rw [h8, c])]
      · rw [if_neg c]
        have : b.p2 = none := by
          rw [← Option.not_isSome_iff_eq_none, h8]
          exact c
        rw [this]
        rfl
    dsimp only
    rw [each_all op h1, each_all op h2, each_all op h3, each_all op h4, each_all op h5, each_all opr h6, e1, e2]
    rfl
  · have hn : m.bank = none := h.single (by have := h.batch; omega)
    rw [if_neg hb, hn]
    rfl

/-- **C148 (reset of the copies, partial: batch of two or more).** `reset_efficientzeromodel_without_learning_parameters`
resets every copy and leaves the networks alone. -/
theorem C148_reset_batch_partial (op : M → M) (opr : R → R) (m : Ez M R) (h : m.Ok) (hb : 1 < m.batch) :
    resetBatch op opr m = some { m with br := m.br.map op, brt := m.brt.map op, bank := m.bank.map (Bank.map op opr) } := by
  obtain ⟨b, e, h1, h2, h3, h4, h5, h6, h7, h8, h9, h10⟩ := h.multi hb
  unfold resetBatch resetBank
  rw [e]
  have e1 : (if (true && m.p1.isNone) = true then some b.p1 else eachNull m.batch op b.p1) = some (b.p1.map (List.map op)) := by
    cases c : m.p1 with
    | some q => exact eachNull_all op h9 (by rw [h7, c]; rfl)
    | none =>
      have : b.p1 = none := by
        rw [← Option.not_isSome_iff_eq_none, h7, c]
        simp
      rw [this]
      rfl
  have e2 : (if (true && m.p2.isNone) = true then some b.p2 else eachNull m.batch op b.p2) = some (b.p2.map (List.map op)) := by
    cases c : m.p2 with
    | some q => exact eachNull_all op h10 (by rw [h8, c]; rfl)
    | none =>
      have : b.p2 = none := by
        rw [← Option.not_isSome_iff_eq_none, h8, c]
        simp
      rw [this]
      rfl
  dsimp only
  rw [each_all op h1, each_all op h2, each_all op h3, each_all op h4, each_all op h5, each_all opr h6, e1, e2,
    each_all op (by rw [h.br, Nat.mul_comm] : m.br.length = m.window * m.batch),
    each_all op (by rw [h.brt, Nat.mul_comm] : m.brt.length = m.window * m.batch)]
  rfl

/-- **C148 (refuted, reset of the copies with one thread).** Every model made for one thread: both resets of the
copies read through a NULL array, although the copies of the reward networks exist. -/
theorem C148_reset_batch_refuted (op : M → M) (opr : R → R) (m : Ez M R) (h : m.Ok) (hb : m.batch = 1) :
    resetBatch op opr m = none ∧ resetBatchFF op opr m = none := by
  unfold resetBatch resetBatchFF resetBank
  rw [h.single hb]
  constructor <;> exact if_neg (by omega)

/-- **C148 (reset of the copies for use without training, partial: with projections, batch of two or more).** -/
theorem C148_reset_batch_ff_partial (op : M → M) (opr : R → R) (m : Ez M R) (h : m.Ok) (hb : 1 < m.batch) (hp : m.p1.isSome) :
    resetBatchFF op opr m = some { m with br := m.br.map op, brt := m.brt.map op, bank := m.bank.map (Bank.map op opr) } := by
  obtain ⟨b, e, h1, h2, h3, h4, h5, h6, h7, h8, h9, h10⟩ := h.multi hb
  unfold resetBatchFF resetBank
  rw [e]
  have e1 : (if (false && m.p1.isNone) = true then some b.p1 else eachNull m.batch op b.p1) = some (b.p1.map (List.map op)) :=
    eachNull_all op h9 (by rw [h7, hp])
  have e2 : (if (false && m.p2.isNone) = true then some b.p2 else eachNull m.batch op b.p2) = some (b.p2.map (List.map op)) :=
    eachNull_all op h10 (by rw [h8, ← h.both, hp])
  dsimp only
  rw [each_all op h1, each_all op h2, each_all op h3, each_all op h4, each_all op h5, each_all opr h6, e1, e2,
    each_all op (by rw [h.br, Nat.mul_comm] : m.br.length = m.window * m.batch),
    each_all op (by rw [h.brt, Nat.mul_comm] : m.brt.length = m.window * m.batch)]
  rfl

/-- **C148 (refuted, without projections).** Every model without the two projection networks: the reset of the
copies for use without training reads through NULL. -/
theorem C148_reset_batch_ff_refuted (op : M → M) (opr : R → R) (m : Ez M R) (h : m.Ok) (hp : m.p1 = none) : resetBatchFF op opr m = none := by
  by_cases hb : 1 < m.batch
  · obtain ⟨b, e, h1, h2, -, -, -, -, h7, -⟩ := h.multi hb
    have hn : b.p1 = none := by
      rw [← Option.not_isSome_iff_eq_none, h7, hp]
      simp
    have e1 : (if (false && m.p1.isNone) = true then some b.p1 else eachNull m.batch op b.p1) = none := by
      rw [hn, if_neg (by simp)]
      exact if_neg (by omega)
    unfold resetBatchFF resetBank
    rw [e]
    dsimp only
    rw [each_all op h1, each_all op h2, e1]
    rfl
  · exact (C148_reset_batch_refuted op opr m h (by have := h.batch; omega)).2

/-- **C148 (reset, partial: not the reward and temporal networks, and only one window of their copies).** -/
theorem C148_reset_partial (op opb : M → M) (opr : R → R) (m : Ez M R) (h : m.Ok) :
    resetAll op opb opr m = some
      { m with p1 := m.p1.map op, p2 := m.p2.map op, h := op m.h, g := op m.g, f := op m.f, fp := op m.fp, fv := op m.fv, rr := opr m.rr,
               br := (m.br.take m.window).map opb ++ m.br.drop m.window, brt := (m.brt.take m.window).map opb ++ m.brt.drop m.window } := by
  have hw : m.window ≤ m.batch * m.window := Nat.le_mul_of_pos_left _ h.batch
  unfold resetAll
  rw [each_take opb m.br m.window (by rw [h.br]; exact hw), each_take opb m.brt m.window (by rw [h.brt]; exact hw)]
  rfl

/-- **C148 (refuted, reset).** Whatever the model: the reset leaves the reward network and the temporal network
as they were, with the derivatives they hold. -/
theorem C148_reset_refuted (op opb : M → M) (opr : R → R) (m : Ez M R) (h : m.Ok) :
    ∃ m', resetAll op opb opr m = some m' ∧ m'.r = m.r ∧ m'.rt = m.rt ∧ m'.br.drop m.window = m.br.drop m.window := by
  refine ⟨_, C148_reset_partial op opb opr m h, rfl, rfl, ?_⟩
  have hl : ((m.br.take m.window).map opb).length = m.window := by
    rw [List.length_map, List.length_take, h.br]
    exact Nat.min_eq_left (Nat.le_mul_of_pos_left _ h.batch)
  show List.drop m.window ((m.br.take m.window).map opb ++ m.br.drop m.window) = _
  rw [List.drop_append_of_le_length (by omega), List.drop_of_length_le (by omega), List.nil_append]

/-- **C148 (reset for use without training, partial: not the dynamics, reward and temporal networks).** -/
theorem C148_reset_ff_partial (op : M → M) (opr : R → R) (m : Ez M R) (h : m.Ok) :
    resetFF op opr m = some
      { m with p1 := m.p1.map op, p2 := m.p2.map op, h := op m.h, f := op m.f, fp := op m.fp, fv := op m.fv, rr := opr m.rr,
               br := (m.br.take m.window).map op ++ m.br.drop m.window, brt := (m.brt.take m.window).map op ++ m.brt.drop m.window } := by
  have hw : m.window ≤ m.batch * m.window := Nat.le_mul_of_pos_left _ h.batch
  unfold resetFF
  rw [each_take op m.br m.window (by rw [h.br]; exact hw), each_take op m.brt m.window (by rw [h.brt]; exact hw)]
  rfl

/-- **C148 (refuted, reset for use without training).** Whatever the model: the dynamics network is not reset. -/
theorem C148_reset_ff_refuted (op : M → M) (opr : R → R) (m : Ez M R) (h : m.Ok) :
    ∃ m', resetFF op opr m = some m' ∧ m'.g = m.g ∧ m'.r = m.r ∧ m'.rt = m.rt :=
  ⟨_, C148_reset_ff_partial op opr m h, rfl, rfl, rfl⟩

/-- **C148 (edge-popup, partial: without projections and for two or more threads).** Every network and every
copy is set. -/
theorem C148_edge_partial (op : M → M) (opr : R → R) (m : Ez M R) (h : m.Ok) (hb : 1 < m.batch) (hp : m.p1 = none) :
    setEdge op opr m = makeFF op opr m := by
  rw [C148_make_ff op opr m h]
  obtain ⟨b, e, h1, h2, h3, h4, h5, h6, h7, h8, h9, h10⟩ := h.multi hb
  have hp2 : m.p2 = none := by
    rw [← Option.not_isSome_iff_eq_none, ← h.both, hp]
    simp
  have n1 : b.p1 = none := by
    rw [← Option.not_isSome_iff_eq_none, h7, hp]
    simp
  have n2 : b.p2 = none := by
    rw [← Option.not_isSome_iff_eq_none, h8, hp2]
    simp
  unfold setEdge
  dsimp only
  rw [if_pos hb, e]
  dsimp only
  rw [each_all op h1, each_all op h2, each_all op h3, each_all op h4, each_all op h5, each_all opr h6, each_all op h.br, each_all op h.brt]
  rw [hp, hp2, n1, n2]
  unfold Bank.map
  rw [Option.map_some, n1, n2]
  rfl

/-- **C148 (refuted, edge-popup).** Whatever the model: the projection networks and their copies stay as they were;
with one thread so do the copies of the reward and temporal networks, through which every reward is computed. -/
theorem C148_edge_refuted (op : M → M) (opr : R → R) (m : Ez M R) (h : m.Ok) :
    ∃ m', setEdge op opr m = some m' ∧ m'.p1 = m.p1 ∧ m'.p2 = m.p2 ∧ (m'.bank.bind Bank.p1) = (m.bank.bind Bank.p1) ∧
      (m'.bank.bind Bank.p2) = (m.bank.bind Bank.p2) ∧ (m.batch = 1 → m'.br = m.br ∧ m'.brt = m.brt) := by
  unfold setEdge
  dsimp only
  by_cases hb : 1 < m.batch
  · obtain ⟨b, e, h1, h2, h3, h4, h5, h6, h7, h8, h9, h10⟩ := h.multi hb
    rw [if_pos hb, e]
    dsimp only
    rw [each_all op h1, each_all op h2, each_all op h3, each_all op h4, each_all op h5, each_all opr h6, each_all op h.br, each_all op h.brt]
    exact ⟨_, rfl, rfl, rfl, rfl, rfl, fun hc => by omega⟩
  · rw [if_neg hb]
    exact ⟨_, rfl, rfl, rfl, rfl, rfl, fun _ => ⟨rfl, rfl⟩⟩

/-- **C148 (optimiser constants).** Each of the ten networks is set once; nothing else changes. -/
theorem C148_beta (op : M → M) (opr : R → R) (m : Ez M R) :
    (setBeta op opr m).parts = ⟨m.p1.map op, m.p2.map op, op m.h, op m.g, op m.f, op m.fp, op m.fv, op m.r, op m.rt, opr m.rr⟩ ∧
      (setBeta op opr m).bank = m.bank ∧ (setBeta op opr m).br = m.br ∧ (setBeta op opr m).brt = m.brt := ⟨rfl, rfl, rfl, rfl⟩

/-- **C148 (copy).** A copy has the batch size, the window and the networks of the original, each copied, and fresh
copies for its batch; when copying changes nothing and the copies are fresh, it equals the original. -/
theorem C148_copy (cm : M → M) (cr : R → R) (p : Parts M R) (threads window : Nat) (m : Ez M R) (hm : init cm cr p threads window = some m) :
    copy id id cm cr m = some m := by
  have hc := hm
  unfold init at hc
  by_cases c1 : threads < 1 ∨ window < 2
  · rw [if_pos c1] at hc
    cases hc
  by_cases c2 : p.p1.isSome ≠ p.p2.isSome
  · rw [if_neg c1, if_pos c2] at hc
    cases hc
  rw [if_neg c1, if_neg c2] at hc
  obtain rfl := Option.some.inj hc
  unfold copy
  dsimp only
  rw [Option.map_id]
  exact hm

/-- **C148 (copied networks).** Whatever copying a network does, each copied network is the copy of its own original. -/
theorem C148_copy_parts (full cm : M → M) (fullr cr : R → R) (m : Ez M R) (h : m.Ok) :
    ∃ c, copy full fullr cm cr m = some c ∧ c.Ok ∧ c.batch = m.batch ∧ c.window = m.window ∧
      c.parts = ⟨m.p1.map full, m.p2.map full, full m.h, full m.g, full m.f, full m.fp, full m.fv, full m.r, full m.rt, fullr m.rr⟩ := by
  obtain ⟨c, e, ok, ep, eb, ew, -⟩ := C148_init cm cr
    ⟨m.p1.map full, m.p2.map full, full m.h, full m.g, full m.f, full m.fp, full m.fv, full m.r, full m.rt, fullr m.rr⟩ m.batch m.window
    h.batch h.window (by dsimp only; rw [Option.isSome_map, Option.isSome_map, h.both])
  exact ⟨c, e, ok, eb, ew, ep⟩

/-- **C148 (paste).** Between models that both have, or both lack, the projection networks, `copy` receives
each network of `m` in its own place; its batch copies are untouched. -/
theorem C148_paste (op : M → M → M) (opr : R → R → R) (m c : Ez M R) (hm : m.Ok) (hc : c.Ok) (hp : m.p1.isSome = c.p1.isSome) :
    ∃ c', paste op opr m c = some c' ∧ c'.Ok ∧ c'.bank = c.bank ∧ c'.br = c.br ∧ c'.brt = c.brt ∧
      c'.h = op m.h c.h ∧ c'.g = op m.g c.g ∧ c'.f = op m.f c.f ∧ c'.fp = op m.fp c.fp ∧ c'.fv = op m.fv c.fv ∧ c'.r = op m.r c.r ∧
      c'.rt = op m.rt c.rt ∧ c'.rr = opr m.rr c.rr ∧ (∀ x ∈ m.p1, ∀ y ∈ c.p1, c'.p1 = some (op x y)) ∧
      (∀ x ∈ m.p2, ∀ y ∈ c.p2, c'.p2 = some (op x y)) ∧ (m.p1 = none → c'.p1 = none ∧ c'.p2 = none) := by
  have hmb := hm.both
  have hcb := hc.both
  unfold paste
  cases e1 : m.p1 with
  | none =>
    have ec1 : c.p1 = none := by
      rw [← Option.not_isSome_iff_eq_none, ← hp, e1]
      simp
    have e2 : m.p2 = none := by
      rw [← Option.not_isSome_iff_eq_none, ← hmb, e1]
      simp
    have ec2 : c.p2 = none := by
      rw [← Option.not_isSome_iff_eq_none, ← hcb, ec1]
      simp
    rw [e2, ec1, ec2]
    refine ⟨_, rfl, ⟨hc.batch, hc.window, rfl, hc.br, hc.brt, hc.single, ?_⟩, rfl, rfl, rfl, rfl, rfl, rfl, rfl, rfl, rfl, rfl, rfl, ?_, ?_,
      fun _ => ⟨rfl, rfl⟩⟩
    · intro hb
      obtain ⟨b, e, h1, h2, h3, h4, h5, h6, h7, h8, h9, h10⟩ := hc.multi hb
      exact ⟨b, e, h1, h2, h3, h4, h5, h6, by rw [h7, ec1], by rw [h8, ec2], h9, h10⟩
    · intro x hx
      cases hx
    · intro x hx
      cases hx
  | some x =>
    obtain ⟨y, ec1⟩ := Option.isSome_iff_exists.mp (show c.p1.isSome by rw [← hp, e1]; rfl)
    obtain ⟨x2, e2⟩ := Option.isSome_iff_exists.mp (show m.p2.isSome by rw [← hmb, e1]; rfl)
    obtain ⟨y2, ec2⟩ := Option.isSome_iff_exists.mp (show c.p2.isSome by rw [← hcb, ec1]; rfl)
    rw [e2, ec1, ec2]
    refine ⟨_, rfl, ⟨hc.batch, hc.window, rfl, hc.br, hc.brt, hc.single, ?_⟩, rfl, rfl, rfl, rfl, rfl, rfl, rfl, rfl, rfl, rfl, rfl, ?_, ?_, ?_⟩
    · intro hb
      obtain ⟨b, e, h1, h2, h3, h4, h5, h6, h7, h8, h9, h10⟩ := hc.multi hb
      exact ⟨b, e, h1, h2, h3, h4, h5, h6, by rw [h7, ec1]; rfl, by rw [h8, ec2]; rfl, h9, h10⟩
    · intro a ha b hb
      obtain rfl := Option.some.inj ha
      obtain rfl := Option.some.inj hb
      rfl
    · intro a ha b hb
      obtain rfl := Option.some.inj ha
      obtain rfl := Option.some.inj hb
      rfl
    · intro a
      cases a

/-- **C148 (release).** Releasing a model releases every network and every copy exactly once. -/
theorem C148_free (m : Ez M R) (h : m.Ok) : ∃ ms rs, free m = some (ms, rs) ∧ ms.Perm m.models ∧ rs.Perm m.rmodels := by
  classical
  unfold free
  rw [freeEach_all h.br, freeEach_all h.brt]
  by_cases hb : 1 < m.batch
  · obtain ⟨b, e, h1, h2, h3, h4, h5, h6, h7, h8, h9, h10⟩ := h.multi hb
    have aux : ∀ {p : Option M} {a : Option (List M)}, a.isSome = p.isSome → (∀ l ∈ a, l.length = m.batch) →
        freeOpt m.batch p a = some (a.getD []) := by
      intro p a hs hl
      unfold freeOpt
      cases a with
      | none => rw [if_neg (by rw [← hs]; simp)]; rfl
      | some l =>
        rw [if_pos (by rw [← hs]; rfl)]
        exact freeEach_all (hl l rfl)
    rw [if_pos hb, e]
    dsimp only
    rw [freeEach_all h1, freeEach_all h2, freeEach_all h3, freeEach_all h4, freeEach_all h5, freeEach_all h6, aux h7 h9, aux h8 h10]
    refine ⟨_, _, rfl, ?_, ?_⟩
    · unfold Ez.models
      rw [e]
      dsimp only
      rw [List.perm_iff_count]
      intro x
      simp only [List.count_append]
      omega
    · unfold Ez.rmodels
      rw [e]
      exact List.perm_append_singleton _ _
  · have hn : m.bank = none := h.single (by have := h.batch; omega)
    rw [if_neg hb]
    refine ⟨_, _, rfl, ?_, ?_⟩
    · unfold Ez.models
      rw [hn]
      dsimp only
      rw [List.perm_iff_count]
      intro x
      simp only [List.count_append, List.count_nil]
      omega
    · unfold Ez.rmodels
      rw [hn]
      exact List.Perm.refl _

/-! ### A concrete model -/

/-- Ten networks, each a number. -/
def parts1 (p : Option Nat) : Parts Nat Nat := ⟨p, p, 10, 20, 30, 40, 50, 60, 70, 80⟩

example (p : Option Nat) (t : Nat) (ht : 1 ≤ t) : ∃ m, init (· + 1) (· + 1) (parts1 p) t 2 = some m ∧ m.Ok := by
  obtain ⟨m, e, h, -⟩ := C148_init (· + 1) (· + 1) (parts1 p) t 2 ht (by omega) rfl
  exact ⟨m, e, h⟩

/-- With two threads the reset of the networks leaves two of the four copies of the reward network, and the reward network. -/
example : ((init (· + 1) (· + 1) (parts1 (some 5)) 2 2).bind fun m => (resetAll (fun _ => 0) (fun _ => 0) (fun _ => 0) m).map fun m' =>
    (m'.g, m'.r, m'.br)) = some (0, 60, [0, 0, 61, 61]) := by decide

/-- The reset for use without training leaves the dynamics network. -/
example : ((init (· + 1) (· + 1) (parts1 none) 2 2).bind fun m => (resetFF (fun _ => 0) (fun _ => 0) m).map fun m' => (m'.h, m'.g)) =
    some (0, 20) := by decide

example : ((init (· + 1) (· + 1) (parts1 (some 5)) 1 2).bind fun m => (setEdge (fun _ => 0) (fun _ => 0) m).map fun m' => (m'.h, m'.p1, m'.br)) =
    some (0, some 5, [61, 61]) := by decide

example : ((init (· + 1) (· + 1) (parts1 (some 5)) 3 2).bind fun m => (resetBatch (fun _ => 0) (fun _ => 0) m).map fun m' => (m'.h, m'.brt)) =
    some (10, [0, 0, 0, 0, 0, 0]) := by decide

example : ((init (· + 1) (· + 1) (parts1 (some 5)) 2 2).bind free).map (fun x => x.1.length) = some 31 := by decide

end LLab.EzAll
