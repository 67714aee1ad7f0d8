import Verif.Net.FlatModel

/-!
Parameter vectors of an EfficientZero model and of recurrent layers
(`/repo/src/efficientzeromodel.c` 1183-1440, `/repo/src/rmodel.c` 2251-2400,
`/repo/src/recurrent_layers.c` 1977-2141). The parts are the models of `Net/FlatModel.lean`. Property C149.
-/

namespace LLab.Flat

variable {α L : Type}

/-! ### Model: recurrent layers -/

/-- `get_array_size_weights_lstm` (`/repo/src/recurrent_layers.c` 1989-1998) -/
def sizeWLstm (f : Lstm α) : Nat :=
  4 * (f.inp * f.out + f.out * f.out) + if f.norm then f.groups * (f.dim * 2) else 0

/-- `memcopy_weights_to_vector_lstm` (`/repo/src/recurrent_layers.c` 2105-2120) -/
def putWLstm (f : Lstm α) (s : Nat) (v : List α) : Option (List α) :=
  (putRows s (f.inp * f.out) (f.inp * f.out) f.w 0 v).bind fun v =>
    (putRows (s + 4 * f.inp * f.out) (f.out * f.out) (f.out * f.out) f.u 0 v).bind fun v =>
      if f.norm then putPairs (s + 4 * (f.inp * f.out + f.out * f.out)) f.dim f.bns 0 v else some v

/-- `memcopy_vector_to_weights_lstm` (`/repo/src/recurrent_layers.c` 2080-2095) -/
def getWLstm (f : Lstm α) (s : Nat) (v : List α) : Option (Lstm α) :=
  (getRows v s (f.inp * f.out) (f.inp * f.out) f.w 0).bind fun w =>
    (getRows v (s + 4 * f.inp * f.out) (f.out * f.out) (f.out * f.out) f.u 0).bind fun u =>
      if f.norm then
        (getPairs v (s + 4 * (f.inp * f.out + f.out * f.out)) f.dim f.bns 0).bind fun bns => some { f with w := w, u := u, bns := bns }
      else some { f with w := w, u := u }

/-- The scores of a recurrent layer; the arrays are NULL unless the layer was made for edge-popup
(`/repo/src/recurrent_layers.c` 136-162, 206-218). -/
structure SLstm (α : Type) where
  inp : Nat
  out : Nat
  scores : Option (List (List α) × List (List α))

/-- `get_array_size_scores_lstm` (`/repo/src/recurrent_layers.c` 1977-1979): the same whether or not there are scores. -/
def sizeSLstm (f : SLstm α) : Nat := 4 * (f.inp * f.out + f.out * f.out)

/-- `memcopy_scores_to_vector_lstm` (`/repo/src/recurrent_layers.c` 2035-2043) -/
def putSLstm (f : SLstm α) (s : Nat) (v : List α) : Option (List α) :=
  f.scores.bind fun sc =>
    (putRows s (f.inp * f.out) (f.inp * f.out) sc.1 0 v).bind fun v =>
      putRows (s + 4 * f.inp * f.out) (f.out * f.out) (f.out * f.out) sc.2 0 v

/-- `memcopy_vector_to_scores_lstm` (`/repo/src/recurrent_layers.c` 2130-2138) -/
def getSLstm (f : SLstm α) (s : Nat) (v : List α) : Option (SLstm α) :=
  f.scores.bind fun sc =>
    (getRows v s (f.inp * f.out) (f.inp * f.out) sc.1 0).bind fun w =>
      (getRows v (s + 4 * f.inp * f.out) (f.out * f.out) (f.out * f.out) sc.2 0).bind fun u => some { f with scores := some (w, u) }

/-! ### Model: EfficientZero -/

/-- The ten networks; `L` is the type of the recurrent layers. -/
structure EzVec (α L : Type) where
  p1 : Option (Model α)
  p2 : Option (Model α)
  h : Model α
  g : Model α
  f : Model α
  fp : Model α
  fv : Model α
  r : Model α
  rt : Model α
  rr : List L

/-- `if(p != NULL) sum += size(p)` -/
def sizeOpt (size : Model α → Nat) (p : Option (Model α)) : Nat :=
  match p with
  | none => 0
  | some m => size m

/-- `get_array_size_params_efficientzero_model` and the score and weight variants
(`/repo/src/efficientzeromodel.c` 1183-1241). -/
def sizeEz (size : Model α → Nat) (sizeL : L → Nat) (e : EzVec α L) : Nat :=
  sizeOpt size e.p1 + sizeOpt size e.p2 + size e.h + size e.g + size e.f + size e.fp + size e.fv + size e.r + size e.rt + sizeList sizeL e.rr

/-- `copy(m,vector+sum); sum += size(m);` -/
def putNext (size : Model α → Nat) (putM : Model α → Nat → List α → Option (List α)) (m : Model α) (s : Nat) (v : List α) :
    Option (List α × Nat) :=
  (putM m s v).bind fun v => some (v, s + size m)

/-- The same under `if(p != NULL)`. -/
def putNextOpt (size : Model α → Nat) (putM : Model α → Nat → List α → Option (List α)) (p : Option (Model α)) (s : Nat) (v : List α) :
    Option (List α × Nat) :=
  match p with
  | none => some (v, s)
  | some m => putNext size putM m s v

/-- `memcopy_params_to_vector_efficientzero_model` and the weight and score variants
(`/repo/src/efficientzeromodel.c` 1306-1373, 1407-1440). -/
def putEz (size : Model α → Nat) (putM : Model α → Nat → List α → Option (List α)) (sizeL : L → Nat)
    (putL : L → Nat → List α → Option (List α)) (e : EzVec α L) (s : Nat) (v : List α) : Option (List α × Nat) :=
  (putNextOpt size putM e.p1 s v).bind fun x => (putNextOpt size putM e.p2 x.2 x.1).bind fun x =>
    (putNext size putM e.h x.2 x.1).bind fun x => (putNext size putM e.g x.2 x.1).bind fun x =>
      (putNext size putM e.f x.2 x.1).bind fun x => (putNext size putM e.fp x.2 x.1).bind fun x =>
        (putNext size putM e.fv x.2 x.1).bind fun x => (putNext size putM e.r x.2 x.1).bind fun x =>
          (putNext size putM e.rt x.2 x.1).bind fun x => putList sizeL putL e.rr x.2 x.1

/-- `copy(vector+sum,m); sum += size(m);` -/
def getNext (size : Model α → Nat) (getM : Model α → Nat → List α → Option (Model α)) (m : Model α) (s : Nat) (v : List α) :
    Option (Model α × Nat) :=
  (getM m s v).bind fun r => some (r, s + size m)

/-- The same under `if(p != NULL)`. -/
def getNextOpt (size : Model α → Nat) (getM : Model α → Nat → List α → Option (Model α)) (p : Option (Model α)) (s : Nat) (v : List α) :
    Option (Option (Model α) × Nat) :=
  match p with
  | none => some (none, s)
  | some m => (getNext size getM m s v).bind fun x => some (some x.1, x.2)

/-- `memcopy_vector_to_params_efficientzero_model` and the score and weight variants
(`/repo/src/efficientzeromodel.c` 1243-1304, 1375-1405). -/
def getEz (size : Model α → Nat) (getM : Model α → Nat → List α → Option (Model α)) (sizeL : L → Nat)
    (getL : L → Nat → List α → Option L) (e : EzVec α L) (s : Nat) (v : List α) : Option (EzVec α L × Nat) :=
  (getNextOpt size getM e.p1 s v).bind fun p1 => (getNextOpt size getM e.p2 p1.2 v).bind fun p2 =>
    (getNext size getM e.h p2.2 v).bind fun h => (getNext size getM e.g h.2 v).bind fun g =>
      (getNext size getM e.f g.2 v).bind fun f => (getNext size getM e.fp f.2 v).bind fun fp =>
        (getNext size getM e.fv fp.2 v).bind fun fv => (getNext size getM e.r fv.2 v).bind fun r =>
          (getNext size getM e.rt r.2 v).bind fun rt => (getList sizeL getL v e.rr rt.2).bind fun rr =>
            some (⟨p1.1, p2.1, h.1, g.1, f.1, fp.1, fv.1, r.1, rt.1, rr.1⟩, rr.2)

/-! ### Specification -/

/-- Two optional models related by `P`, or both missing. -/
def OptRel (P : Model α → Model α → Prop) : Option (Model α) → Option (Model α) → Prop
  | none, none => True
  | some a, some b => P a b
  | _, _ => False

/-- The parts are related in pairs. -/
structure EzRel (P : Model α → Model α → Prop) (Q : L → L → Prop) (d e : EzVec α L) : Prop where
  p1 : OptRel P d.p1 e.p1
  p2 : OptRel P d.p2 e.p2
  h : P d.h e.h
  g : P d.g e.g
  f : P d.f e.f
  fp : P d.fp e.fp
  fv : P d.fv e.fv
  r : P d.r e.r
  rt : P d.rt e.rt
  rr : List.Forall₂ Q d.rr e.rr

/-- Two models with arrays of the allocated sizes and of the same shape. -/
def Shaped (m g : Model α) : Prop := m.Ok ∧ g.Ok ∧ SameModel m g

/-- The same for recurrent layers. -/
def ShapedL (f g : Lstm α) : Prop := f.Ok ∧ g.Ok ∧ SameLstm f g

/-- The scores have the sizes allocated for edge-popup. -/
def SLstm.Ok (f : SLstm α) : Prop :=
  ∃ w u, f.scores = some (w, u) ∧ (w.length = 4 ∧ ∀ k ∈ w, k.length = f.inp * f.out) ∧ (u.length = 4 ∧ ∀ k ∈ u, k.length = f.out * f.out)

/-- Two layers made for edge-popup, of the same sizes. -/
def ShapedS (f g : SLstm α) : Prop := f.Ok ∧ g.Ok ∧ f.inp = g.inp ∧ f.out = g.out

/-- `r` has the weights and normalisation parameters of `f` and its own biases. -/
def SameLstmWeights (f r : Lstm α) : Prop := r.w = f.w ∧ r.u = f.u ∧ r.bns = f.bns

/-! ### Proofs -/

/-- `p` writes exactly `w` and moves past it. -/
def Wtr (p : Nat → List α → Option (List α × Nat)) (w : List α) : Prop :=
  ∀ pre mid post, mid.length = w.length → p pre.length (pre ++ (mid ++ post)) = some (pre ++ (w ++ post), (pre ++ w).length)

/-- `p` reads `w`, gives `x` and moves past it. -/
def Rdr {β : Type} (p : Nat → List α → Option (β × Nat)) (w : List α) (x : β) : Prop :=
  ∀ pre post, p pre.length (pre ++ (w ++ post)) = some (x, (pre ++ w).length)

theorem Wtr.bind {p q : Nat → List α → Option (List α × Nat)} {w w' : List α} (hp : Wtr p w) (hq : Wtr q w') :
    Wtr (fun s v => (p s v).bind fun x => q x.2 x.1) (w ++ w') := by
  intro pre mid post hm
  rw [List.length_append] at hm
  have e : mid = mid.take w.length ++ mid.drop w.length := (List.take_append_drop _ _).symm
  rw [e, List.append_assoc]
  dsimp only
  rw [hp pre _ _ (by rw [List.length_take]; omega)]
  dsimp only [Option.bind_some]
  rw [← List.append_assoc pre, hq (pre ++ w) _ post (by rw [List.length_drop]; omega)]
  simp only [List.append_assoc]

theorem Rdr.bind {β γ : Type} {p : Nat → List α → Option (β × Nat)} {q : β → Nat → List α → Option (γ × Nat)} {w w' : List α} {x : β} {y : γ}
    (hp : Rdr p w x) (hq : Rdr (q x) w' y) : Rdr (fun s v => (p s v).bind fun r => q r.1 r.2 v) (w ++ w') y := by
  intro pre post
  dsimp only
  rw [List.append_assoc, hp pre]
  dsimp only [Option.bind_some]
  rw [← List.append_assoc pre, hq (pre ++ w) post, List.append_assoc]

theorem Rdr.pure {β : Type} (x : β) : Rdr (α := α) (fun s _ => some (x, s)) [] x := by
  intro pre post
  rw [List.append_nil]

/-- What is needed of the layer functions of one kind of vector. -/
structure KindM (size : Model α → Nat) (putM : Model α → Nat → List α → Option (List α)) (getM : Model α → Nat → List α → Option (Model α))
    (flat : Model α → List α) (P : Model α → Model α → Prop) : Prop where
  len : ∀ m g, Shaped m g → (flat m).length = size m ∧ size m = size g
  put : ∀ m g, Shaped m g → ∀ pre mid post : List α, mid.length = (flat m).length →
    putM m pre.length (pre ++ (mid ++ post)) = some (pre ++ (flat m ++ post))
  get : ∀ m g, Shaped m g → ∃ r, P m r ∧ ∀ pre post : List α, getM g pre.length (pre ++ (flat m ++ post)) = some r

/-- The same for the recurrent part. -/
structure KindL (sizeL : L → Nat) (putL : L → Nat → List α → Option (List α)) (getL : L → Nat → List α → Option L)
    (flat : L → List α) (S Q : L → L → Prop) : Prop where
  len : ∀ m g, List.Forall₂ S m g → (m.flatMap flat).length = sizeList sizeL m
  put : ∀ m g, List.Forall₂ S m g → Wtr (putList sizeL putL m) (m.flatMap flat)
  get : ∀ m g, List.Forall₂ S m g → ∃ r, List.Forall₂ Q m r ∧ Rdr (fun s v => getList sizeL getL v g s) (m.flatMap flat) r

/-- The values of an optional model. -/
def flatOpt (flat : Model α → List α) (p : Option (Model α)) : List α :=
  match p with
  | none => []
  | some m => flat m

section
variable {size : Model α → Nat} {putM : Model α → Nat → List α → Option (List α)} {getM : Model α → Nat → List α → Option (Model α)}
  {flat : Model α → List α} {P : Model α → Model α → Prop} {sizeL : L → Nat} {putL : L → Nat → List α → Option (List α)}
  {getL : L → Nat → List α → Option L} {flatL : L → List α} {S Q : L → L → Prop}

theorem KindM.next (k : KindM size putM getM flat P) {m g : Model α} (h : Shaped m g) : Wtr (putNext size putM m) (flat m) := by
  intro pre mid post hm
  unfold putNext
  rw [k.put m g h pre mid post hm, Option.bind_some, List.length_append, (k.len m g h).1]

theorem KindM.nextOpt (k : KindM size putM getM flat P) {p q : Option (Model α)} (h : OptRel Shaped p q) :
    Wtr (putNextOpt size putM p) (flatOpt flat p) := by
  cases p with
  | none =>
    intro pre mid post hm
    have : mid = [] := List.length_eq_zero_iff.mp hm
    subst this
    show some _ = _
    rw [flatOpt, List.append_nil]
  | some m =>
    cases q with
    | none => cases h
    | some g => exact k.next h

theorem KindM.read (k : KindM size putM getM flat P) {m g : Model α} (h : Shaped m g) : ∃ r, P m r ∧ Rdr (getNext size getM g) (flat m) r := by
  obtain ⟨r, hr, e⟩ := k.get m g h
  refine ⟨r, hr, fun pre post => ?_⟩
  unfold getNext
  rw [e, Option.bind_some, List.length_append, (k.len m g h).1, (k.len m g h).2]

theorem KindM.readOpt (k : KindM size putM getM flat P) {p q : Option (Model α)} (h : OptRel Shaped p q) :
    ∃ r, OptRel P p r ∧ Rdr (getNextOpt size getM q) (flatOpt flat p) r := by
  cases p with
  | none =>
    cases q with
    | none => exact ⟨none, trivial, Rdr.pure none⟩
    | some g => cases h
  | some m =>
    cases q with
    | none => cases h
    | some g =>
      obtain ⟨r, hr, e⟩ := k.read h
      refine ⟨some r, hr, fun pre post => ?_⟩
      show (getNext size getM g pre.length (pre ++ (flat m ++ post))).bind _ = _
      rw [e]
      rfl

theorem KindM.lenOpt (k : KindM size putM getM flat P) {p q : Option (Model α)} (h : OptRel Shaped p q) :
    (flatOpt flat p).length = sizeOpt size p := by
  cases p with
  | none => rfl
  | some m =>
    cases q with
    | none => cases h
    | some g => exact (k.len m g h).1

/-- The round trip for any kind of vector. -/
theorem ez_round (k : KindM size putM getM flat P) (kl : KindL sizeL putL getL flatL S Q) (d e : EzVec α L) (h : EzRel Shaped S d e)
    (pre mid post : List α) (hmid : mid.length = sizeEz size sizeL d) :
    ∃ w n, w.length = sizeEz size sizeL d ∧ putEz size putM sizeL putL d pre.length (pre ++ (mid ++ post)) = some (pre ++ (w ++ post), n) ∧
      ∃ r n', getEz size getM sizeL getL e pre.length (pre ++ (w ++ post)) = some (r, n') ∧ EzRel P Q d r := by
  obtain ⟨r1, c1, q1⟩ := k.readOpt h.p1
  obtain ⟨r2, c2, q2⟩ := k.readOpt h.p2
  obtain ⟨r3, c3, q3⟩ := k.read h.h
  obtain ⟨r4, c4, q4⟩ := k.read h.g
  obtain ⟨r5, c5, q5⟩ := k.read h.f
  obtain ⟨r6, c6, q6⟩ := k.read h.fp
  obtain ⟨r7, c7, q7⟩ := k.read h.fv
  obtain ⟨r8, c8, q8⟩ := k.read h.r
  obtain ⟨r9, c9, q9⟩ := k.read h.rt
  obtain ⟨r10, c10, q10⟩ := kl.get _ _ h.rr
  have W := (k.nextOpt h.p1).bind ((k.nextOpt h.p2).bind ((k.next h.h).bind ((k.next h.g).bind ((k.next h.f).bind ((k.next h.fp).bind
    ((k.next h.fv).bind ((k.next h.r).bind ((k.next h.rt).bind (kl.put _ _ h.rr)))))))))
  set w := flatOpt flat d.p1 ++ (flatOpt flat d.p2 ++ (flat d.h ++ (flat d.g ++ (flat d.f ++ (flat d.fp ++ (flat d.fv ++ (flat d.r ++
    (flat d.rt ++ d.rr.flatMap flatL)))))))) with hw
  have hl : w.length = sizeEz size sizeL d := by
    rw [hw]
    simp only [List.length_append]
    rw [k.lenOpt h.p1, k.lenOpt h.p2, (k.len _ _ h.h).1, (k.len _ _ h.g).1, (k.len _ _ h.f).1, (k.len _ _ h.fp).1, (k.len _ _ h.fv).1,
      (k.len _ _ h.r).1, (k.len _ _ h.rt).1, kl.len _ _ h.rr]
    unfold sizeEz
    omega
  refine ⟨w, _, hl, W pre mid post (by rw [hmid, hl]), ⟨r1, r2, r3, r4, r5, r6, r7, r8, r9, r10⟩, (pre ++ w).length, ?_,
    ⟨c1, c2, c3, c4, c5, c6, c7, c8, c9, c10⟩⟩
  have R : Rdr (getEz size getM sizeL getL e) (w ++ []) ⟨r1, r2, r3, r4, r5, r6, r7, r8, r9, r10⟩ := by
    rw [hw]
    simp only [List.append_assoc]
    have R9 := Rdr.bind (q := fun (z : List L) s _ => some ((⟨r1, r2, r3, r4, r5, r6, r7, r8, r9, z⟩ : EzVec α L), s)) q10 (Rdr.pure _)
    have R8 := Rdr.bind (q := fun (z : Model α) s v => (getList sizeL getL v e.rr s).bind fun y9 => 
      some ((⟨r1, r2, r3, r4, r5, r6, r7, r8, z, y9.1⟩ : EzVec α L), y9.2)) q9 R9
    have R7 := Rdr.bind (q := fun (z : Model α) s v => (getNext size getM e.rt s v).bind fun y8 => (getList sizeL getL v e.rr y8.2).bind fun y9 => 
      some ((⟨r1, r2, r3, r4, r5, r6, r7, z, y8.1, y9.1⟩ : EzVec α L), y9.2)) q8 R8
    have R6 := Rdr.bind (q := fun (z : Model α) s v => (getNext size getM e.r s v).bind fun y7 => (getNext size getM e.rt y7.2 v).bind fun y8 => (getList sizeL getL v e.rr y8.2).bind fun y9 => 
      some ((⟨r1, r2, r3, r4, r5, r6, z, y7.1, y8.1, y9.1⟩ : EzVec α L), y9.2)) q7 R7
    have R5 := Rdr.bind (q := fun (z : Model α) s v => (getNext size getM e.fv s v).bind fun y6 => (getNext size getM e.r y6.2 v).bind fun y7 => (getNext size getM e.rt y7.2 v).bind fun y8 => (getList sizeL getL v e.rr y8.2).bind fun y9 => 
      some ((⟨r1, r2, r3, r4, r5, z, y6.1, y7.1, y8.1, y9.1⟩ : EzVec α L), y9.2)) q6 R6
    have R4 := Rdr.bind (q := fun (z : Model α) s v => (getNext size getM e.fp s v).bind fun y5 => (getNext size getM e.fv y5.2 v).bind fun y6 => (getNext size getM e.r y6.2 v).bind fun y7 => (getNext size getM e.rt y7.2 v).bind fun y8 => (getList sizeL getL v e.rr y8.2).bind fun y9 => 
      some ((⟨r1, r2, r3, r4, z, y5.1, y6.1, y7.1, y8.1, y9.1⟩ : EzVec α L), y9.2)) q5 R5
    have R3 := Rdr.bind (q := fun (z : Model α) s v => (getNext size getM e.f s v).bind fun y4 => (getNext size getM e.fp y4.2 v).bind fun y5 => (getNext size getM e.fv y5.2 v).bind fun y6 => (getNext size getM e.r y6.2 v).bind fun y7 => (getNext size getM e.rt y7.2 v).bind fun y8 => (getList sizeL getL v e.rr y8.2).bind fun y9 => 
      some ((⟨r1, r2, r3, z, y4.1, y5.1, y6.1, y7.1, y8.1, y9.1⟩ : EzVec α L), y9.2)) q4 R4
    have R2 := Rdr.bind (q := fun (z : Model α) s v => (getNext size getM e.g s v).bind fun y3 => (getNext size getM e.f y3.2 v).bind fun y4 => (getNext size getM e.fp y4.2 v).bind fun y5 => (getNext size getM e.fv y5.2 v).bind fun y6 => (getNext size getM e.r y6.2 v).bind fun y7 => (getNext size getM e.rt y7.2 v).bind fun y8 => (getList sizeL getL v e.rr y8.2).bind fun y9 => 
      some ((⟨r1, r2, z, y3.1, y4.1, y5.1, y6.1, y7.1, y8.1, y9.1⟩ : EzVec α L), y9.2)) q3 R3
    have R1 := Rdr.bind (q := fun (z : Option (Model α)) s v => (getNext size getM e.h s v).bind fun y2 => (getNext size getM e.g y2.2 v).bind fun y3 => (getNext size getM e.f y3.2 v).bind fun y4 => (getNext size getM e.fp y4.2 v).bind fun y5 => (getNext size getM e.fv y5.2 v).bind fun y6 => (getNext size getM e.r y6.2 v).bind fun y7 => (getNext size getM e.rt y7.2 v).bind fun y8 => (getList sizeL getL v e.rr y8.2).bind fun y9 => 
      some ((⟨r1, z, y2.1, y3.1, y4.1, y5.1, y6.1, y7.1, y8.1, y9.1⟩ : EzVec α L), y9.2)) q2 R2
    have R0 := Rdr.bind (q := fun (z : Option (Model α)) s v => (getNextOpt size getM e.p2 s v).bind fun y1 => (getNext size getM e.h y1.2 v).bind fun y2 => (getNext size getM e.g y2.2 v).bind fun y3 => (getNext size getM e.f y3.2 v).bind fun y4 => (getNext size getM e.fp y4.2 v).bind fun y5 => (getNext size getM e.fv y5.2 v).bind fun y6 => (getNext size getM e.r y6.2 v).bind fun y7 => (getNext size getM e.rt y7.2 v).bind fun y8 => (getList sizeL getL v e.rr y8.2).bind fun y9 => 
      some ((⟨z, y1.1, y2.1, y3.1, y4.1, y5.1, y6.1, y7.1, y8.1, y9.1⟩ : EzVec α L), y9.2)) q1 R1
    exact R0
  rw [List.append_nil] at R
  exact R pre post

end

theorem kindParams : KindM (α := α) (sizeModel sizeFcl sizeCl) (putModel sizeFcl sizeCl putFcl putCl) (getModel sizeFcl sizeCl getFcl getCl)
    (flatModel flatFcl flatCl) SameParams where
  len m g h := ⟨flatModel_length _ _ _ _ sizeFcl_eq sizeCl_eq m h.1, sizeModel_same _ _ sizeFcl_same sizeCl_same m g h.2.2⟩
  put m _ h pre mid post hm := putModel_spec _ _ _ _ _ _ putFcl_writes putCl_writes sizeFcl_eq sizeCl_eq m h.1 pre mid post hm
  get m g h := params_read m g h.1 h.2.1 h.2.2

theorem kindWeights : KindM (α := α) (sizeModel sizeWFcl sizeWCl) (putModel sizeWFcl sizeWCl putWFcl putWCl)
    (getModel sizeWFcl sizeWCl getWFcl getWCl) (flatModel flatWFcl flatWCl) SameWeights where
  len m g h := ⟨flatModel_length _ _ _ _ sizeWFcl_eq sizeWCl_eq m h.1, sizeModel_same _ _ sizeWFcl_same sizeWCl_same m g h.2.2⟩
  put m _ h pre mid post hm := putModel_spec _ _ _ _ _ _ putWFcl_writes putWCl_writes sizeWFcl_eq sizeWCl_eq m h.1 pre mid post hm
  get m g h := by
    have key : ∀ pre post : List α, ∃ r, getModel sizeWFcl sizeWCl getWFcl getWCl g pre.length (pre ++ (flatModel flatWFcl flatWCl m ++ post)) = some r ∧
        SameWeights m r := fun pre post =>
      (C44_weights m g h.1 h.2.1 h.2.2 pre (flatModel flatWFcl flatWCl m) post
        (flatModel_length _ _ _ _ sizeWFcl_eq sizeWCl_eq m h.1)).2.2
    obtain ⟨r, e, hr⟩ := key [] []
    have hs := getModel_spec _ _ _ _ _ _
      (fun f g => if f.only then g else { g with arr := ⟨f.arr.w, f.arr.nw, g.arr.b, g.arr.nb, f.arr.gamma, f.arr.beta⟩ })
      (fun f g => if !f.conv then g else { g with kernels := f.kernels, gamma := f.gamma, beta := f.beta })
      (fun f g hf hg hs => ⟨getWFcl_reads f g hf hg hs, (sizeWFcl_eq f hf).trans (sizeWFcl_same f g hs)⟩)
      (fun f g hf hg hs => ⟨getWCl_reads f g hf hg hs, (sizeWCl_eq f hf).trans (sizeWCl_same f g hs)⟩) m g h.1 h.2.1 h.2.2
    refine ⟨r, hr, fun pre post => ?_⟩
    rw [hs pre post, ← e, ← hs [] []]

theorem kindScores : KindM (α := α) (sizeModel sizeSFcl sizeSCl) (putModel sizeSFcl sizeSCl putSFcl putSCl)
    (getModel sizeSFcl sizeSCl getSFcl getSCl) (flatModel flatSFcl flatSCl) SameScores where
  len m g h := ⟨flatModel_length _ _ _ _ sizeSFcl_eq sizeSCl_eq m h.1, sizeModel_same _ _ sizeSFcl_same sizeSCl_same m g h.2.2⟩
  put m _ h pre mid post hm := putModel_spec _ _ _ _ _ _ putSFcl_writes putSCl_writes sizeSFcl_eq sizeSCl_eq m h.1 pre mid post hm
  get m g h := by
    have key : ∀ pre post : List α, ∃ r, getModel sizeSFcl sizeSCl getSFcl getSCl g pre.length (pre ++ (flatModel flatSFcl flatSCl m ++ post)) = some r ∧
        SameScores m r := fun pre post =>
      (C44_scores m g h.1 h.2.1 h.2.2 pre (flatModel flatSFcl flatSCl m) post
        (flatModel_length _ _ _ _ sizeSFcl_eq sizeSCl_eq m h.1)).2.2
    obtain ⟨r, e, hr⟩ := key [] []
    have hs := getModel_spec _ _ _ _ _ _ (fun f g => if !f.edge || f.only then g else { g with scores := f.scores })
      (fun f g => if !f.edge then g else { g with scores := f.scores })
      (fun f g hf hg hs => ⟨getSFcl_reads f g hf hg hs, (sizeSFcl_eq f hf).trans (sizeSFcl_same f g hs)⟩)
      (fun f g hf hg hs => ⟨getSCl_reads f g hf hg hs, (sizeSCl_eq f hf).trans (sizeSCl_same f g hs)⟩) m g h.1 h.2.1 h.2.2
    refine ⟨r, hr, fun pre post => ?_⟩
    rw [hs pre post, ← e, ← hs [] []]

theorem forall2_left {S : L → L → Prop} {T : L → Prop} {m g : List L} (h : List.Forall₂ S m g) (ht : ∀ a b, S a b → T a) : ∀ l ∈ m, T l := by
  induction h with
  | nil => intro l hl; cases hl
  | cons h _ ih =>
    intro l hl
    rcases List.mem_cons.mp hl with rfl | hl
    · exact ht _ _ h
    · exact ih l hl

/-- A kind of recurrent vector from its layer functions. -/
theorem kindL_of {sizeL : L → Nat} {putL : L → Nat → List α → Option (List α)} {getL : L → Nat → List α → Option L} {flat : L → List α}
    {S Q : L → L → Prop} (c : L → L → L) (hlen : ∀ f g, S f g → (flat f).length = sizeL f ∧ sizeL f = sizeL g)
    (hput : ∀ f g, S f g → WritesAt 0 (fun s v => putL f s v) (flat f)) (hget : ∀ f g, S f g → ReadsAt 0 (fun s v => getL g s v) (flat f) (c f g))
    (hq : ∀ f g, S f g → Q f (c f g)) : KindL sizeL putL getL flat S Q where
  len m g h := flatMap_length sizeL flat m (forall2_left h fun a b hab => (hlen a b hab).1)
  put m g h := by
    intro pre mid post hm
    rw [putList_writes sizeL flat putL m (forall2_left h fun a b hab => hput a b hab) (forall2_left h fun a b hab => (hlen a b hab).1)
      pre.length pre mid post rfl hm, List.length_append, flatMap_length sizeL flat m (forall2_left h fun a b hab => (hlen a b hab).1)]
  get m g h := by
    refine ⟨List.zipWith c m g, zipWith_forall h hq, fun pre post => ?_⟩
    have f2 : List.Forall₂ (fun f g => ReadsAt 0 (fun s v => getL g s v) (flat f) (c f g) ∧ (flat f).length = sizeL g) m g :=
      h.imp fun f g hfg => ⟨hget f g hfg, (hlen f g hfg).1.trans (hlen f g hfg).2⟩
    dsimp only
    rw [getList_reads sizeL flat getL c _ m g f2 pre.length pre post rfl rfl, List.length_append]
    have e : (m.flatMap flat).length = sizeList sizeL g := by
      clear f2
      induction h with
      | nil => rfl
      | cons h _ ih =>
        rw [List.flatMap_cons, List.length_append, ih, (hlen _ _ h).1, (hlen _ _ h).2]
        simp [sizeList]
    rw [e]

theorem sizeLstm_same {f g : Lstm α} (h : SameLstm f g) : sizeLstm f = sizeLstm g := by
  unfold sizeLstm
  rw [h.inp, h.out, h.norm, h.groups, h.dim]

/-- The listed weights of a recurrent layer. -/
def flatWLstm (f : Lstm α) : List α := f.w.flatten ++ (f.u.flatten ++ (f.bns.map fun p => p.1 ++ p.2).flatten)

theorem pairs_length (dim : Nat) (l : List (List α × List α)) (h : ∀ k ∈ l, k.1.length = dim ∧ k.2.length = dim) :
    (l.map fun p => p.1 ++ p.2).flatten.length = l.length * (dim * 2) := by
  induction l with
  | nil => simp
  | cons a l ih =>
    rw [List.map_cons, List.flatten_cons, List.length_append, ih fun k hk => h k (by simp [hk]), List.length_append, (h a (by simp)).1,
      (h a (by simp)).2, List.length_cons]
    ring

theorem sizeWLstm_eq {f : Lstm α} (h : f.Ok) : (flatWLstm f).length = sizeWLstm f := by
  unfold flatWLstm sizeWLstm
  rw [List.length_append, List.length_append, flatten_length _ _ h.w.2, flatten_length _ _ h.u.2, pairs_length _ _ h.bns.2, h.w.1, h.u.1, h.bns.1]
  cases f.norm <;> simp <;> ring

theorem putWLstm_writes {f : Lstm α} (h : f.Ok) : WritesAt 0 (fun s v => putWLstm f s v) (flatWLstm f) := by
  unfold putWLstm flatWLstm
  have hw := flatten_length _ _ h.w.2
  have hu := flatten_length _ _ h.u.2
  rw [h.w.1] at hw
  rw [h.u.1] at hu
  refine (WritesAt.rows 0 0 _ _ 0 _ (by omega) rfl h.w.2).bind ?_
  refine (WritesAt.rows _ (4 * f.inp * f.out) _ _ 0 _ (by rw [hw]; ring) rfl h.u.2).bind ?_
  refine WritesAt.ite f.norm (fun c => ?_) (fun c => by rw [nil_of h.bns.1 c]; rfl)
  exact WritesAt.pairs _ (4 * (f.inp * f.out + f.out * f.out)) _ 0 _ (by rw [hw, hu]; ring) h.bns.2

theorem getWLstm_reads {f g : Lstm α} (hf : f.Ok) (hg : g.Ok) (hs : SameLstm f g) :
    ReadsAt 0 (fun s v => getWLstm g s v) (flatWLstm f) { g with w := f.w, u := f.u, bns := f.bns } := by
  unfold getWLstm flatWLstm
  have h1 := hf.w
  have h2 := hf.u
  have h4 := hf.bns
  rw [hs.inp, hs.out] at h1
  rw [hs.out] at h2
  rw [hs.norm, hs.groups, hs.dim] at h4
  have hw := flatten_length _ _ h1.2
  have hu := flatten_length _ _ h2.2
  rw [h1.1] at hw
  rw [h2.1] at hu
  refine (ReadsAt.rows 0 0 _ _ 0 f.w _ (by omega) rfl (same_rows h1 hg.w rfl)).bind ?_
  refine (ReadsAt.rows _ (4 * g.inp * g.out) _ _ 0 f.u _ (by rw [hw]; ring) rfl (same_rows h2 hg.u rfl)).bind ?_
  refine ReadsAt.ite g.norm (fun c => ?_) (fun c => ?_)
  · have h := (ReadsAt.pairs (0 + f.w.flatten.length + f.u.flatten.length)
      (4 * (g.inp * g.out + g.out * g.out)) g.dim 0 f.bns g.bns (by rw [hw, hu]; ring) (by rw [h4.1, hg.bns.1])
      h4.2 hg.bns.2).bind (q := fun bns _ _ => some { g with w := f.w, u := f.u, bns := bns }) (ReadsAt.pure _ _)
    rw [List.append_nil] at h
    exact h
  · have e : ({ g with w := f.w, u := f.u } : Lstm α) = { g with w := f.w, u := f.u, bns := f.bns } := by
      rw [nil_of h4.1 c]
      exact Lstm.ext rfl rfl rfl rfl rfl rfl rfl rfl (nil_of hg.bns.1 c)
    rw [nil_of h4.1 c] at e ⊢
    intro s pre post _
    exact congrArg some e

theorem sizeSLstm_eq {f : SLstm α} {w u : List (List α)} (hw : w.length = 4 ∧ ∀ k ∈ w, k.length = f.inp * f.out)
    (hu : u.length = 4 ∧ ∀ k ∈ u, k.length = f.out * f.out) : (w.flatten ++ u.flatten).length = sizeSLstm f := by
  unfold sizeSLstm
  rw [List.length_append, flatten_length _ _ hw.2, flatten_length _ _ hu.2, hw.1, hu.1]
  ring

/-- The listed scores of a recurrent layer. -/
def flatSLstm (f : SLstm α) : List α :=
  match f.scores with
  | none => []
  | some sc => sc.1.flatten ++ sc.2.flatten

theorem putSLstm_writes {f : SLstm α} (h : f.Ok) : WritesAt 0 (fun s v => putSLstm f s v) (flatSLstm f) := by
  obtain ⟨w, u, e, hw, hu⟩ := h
  unfold putSLstm flatSLstm
  rw [e]
  have hl := flatten_length _ _ hw.2
  rw [hw.1] at hl
  exact (WritesAt.rows 0 0 _ _ 0 _ (by omega) rfl hw.2).bind (WritesAt.rows _ (4 * f.inp * f.out) _ _ 0 _ (by rw [hl]; ring) rfl hu.2)

theorem getSLstm_reads {f g : SLstm α} (hs : ShapedS f g) :
    ReadsAt 0 (fun s v => getSLstm g s v) (flatSLstm f) { g with scores := f.scores } := by
  obtain ⟨⟨w, u, e, hw, hu⟩, ⟨w', u', e', hw', hu'⟩, hi, ho⟩ := hs
  unfold getSLstm flatSLstm
  rw [e, e']
  rw [hi, ho] at hw
  rw [ho] at hu
  have hl := flatten_length _ _ hw.2
  rw [hw.1] at hl
  have h := (ReadsAt.rows 0 0 _ _ 0 w _ (by omega) rfl (same_rows hw hw' rfl)).bind
    (q := fun w s v => (getRows v (s + 4 * g.inp * g.out) (g.out * g.out) (g.out * g.out) u' 0).bind fun u => some { g with scores := some (w, u) })
    ((ReadsAt.rows _ (4 * g.inp * g.out) _ _ 0 u _ (by rw [hl]; ring) rfl (same_rows hu hu' rfl)).bind
      (q := fun u _ _ => some { g with scores := some (w, u) }) (ReadsAt.pure _ _))
  rw [List.append_nil] at h
  exact h

theorem kindLParams : KindL (α := α) sizeLstm putLstm getLstm flatLstm ShapedL (fun f r => r = f) :=
  kindL_of (fun f _ => f) (fun f _ h => ⟨sizeLstm_eq f h.1, sizeLstm_same h.2.2⟩) (fun f _ h => putLstm_writes f h.1)
    (fun f g h => getLstm_reads f g h.1 h.2.1 h.2.2) fun _ _ _ => rfl

theorem kindLWeights : KindL (α := α) sizeWLstm putWLstm getWLstm flatWLstm ShapedL SameLstmWeights :=
  kindL_of (fun f g => { g with w := f.w, u := f.u, bns := f.bns })
    (fun f _ h => ⟨sizeWLstm_eq h.1, by
      unfold sizeWLstm
      rw [h.2.2.inp, h.2.2.out, h.2.2.norm, h.2.2.groups, h.2.2.dim]⟩)
    (fun f _ h => putWLstm_writes h.1) (fun f g h => getWLstm_reads h.1 h.2.1 h.2.2) fun _ _ _ => ⟨rfl, rfl, rfl⟩

theorem kindLScores : KindL (α := α) sizeSLstm putSLstm getSLstm flatSLstm ShapedS (fun f r => r.scores = f.scores) :=
  kindL_of (fun f g => { g with scores := f.scores })
    (fun f g h => ⟨by
      obtain ⟨⟨w, u, e, hw, hu⟩, -⟩ := h
      unfold flatSLstm
      rw [e]
      exact sizeSLstm_eq hw hu, by
      unfold sizeSLstm
      rw [h.2.2.1, h.2.2.2]⟩)
    (fun f _ h => putSLstm_writes h.1) (fun f g h => getSLstm_reads h) fun _ _ _ => rfl

/-- **C149, parameters.** The parameters of the ten networks of an EfficientZero model fill exactly the advertised
number of positions of the vector, nothing else is written, and reading them into any model of the same shape
gives it the same parameters. -/
theorem C149_params (d e : EzVec α (Lstm α)) (h : EzRel Shaped ShapedL d e) (pre mid post : List α)
    (hmid : mid.length = sizeEz (sizeModel sizeFcl sizeCl) sizeLstm d) :
    ∃ w n, w.length = sizeEz (sizeModel sizeFcl sizeCl) sizeLstm d ∧
      putEz (sizeModel sizeFcl sizeCl) (putModel sizeFcl sizeCl putFcl putCl) sizeLstm putLstm d pre.length (pre ++ (mid ++ post)) =
        some (pre ++ (w ++ post), n) ∧
      ∃ r n', getEz (sizeModel sizeFcl sizeCl) (getModel sizeFcl sizeCl getFcl getCl) sizeLstm getLstm e pre.length (pre ++ (w ++ post)) =
        some (r, n') ∧ EzRel SameParams (fun f r => r = f) d r :=
  ez_round kindParams kindLParams d e h pre mid post hmid

/-- **C149, weights.** The same without the biases. -/
theorem C149_weights (d e : EzVec α (Lstm α)) (h : EzRel Shaped ShapedL d e) (pre mid post : List α)
    (hmid : mid.length = sizeEz (sizeModel sizeWFcl sizeWCl) sizeWLstm d) :
    ∃ w n, w.length = sizeEz (sizeModel sizeWFcl sizeWCl) sizeWLstm d ∧
      putEz (sizeModel sizeWFcl sizeWCl) (putModel sizeWFcl sizeWCl putWFcl putWCl) sizeWLstm putWLstm d pre.length (pre ++ (mid ++ post)) =
        some (pre ++ (w ++ post), n) ∧
      ∃ r n', getEz (sizeModel sizeWFcl sizeWCl) (getModel sizeWFcl sizeWCl getWFcl getWCl) sizeWLstm getWLstm e pre.length
        (pre ++ (w ++ post)) = some (r, n') ∧ EzRel SameWeights SameLstmWeights d r :=
  ez_round kindWeights kindLWeights d e h pre mid post hmid

/-- **C149, scores (partial: every recurrent layer made for edge-popup).** Missing: recurrent layers without
scores, for which the copy fails (`C149_scores_refuted`). -/
theorem C149_scores_partial (d e : EzVec α (SLstm α)) (h : EzRel Shaped ShapedS d e) (pre mid post : List α)
    (hmid : mid.length = sizeEz (sizeModel sizeSFcl sizeSCl) sizeSLstm d) :
    ∃ w n, w.length = sizeEz (sizeModel sizeSFcl sizeSCl) sizeSLstm d ∧
      putEz (sizeModel sizeSFcl sizeSCl) (putModel sizeSFcl sizeSCl putSFcl putSCl) sizeSLstm putSLstm d pre.length (pre ++ (mid ++ post)) =
        some (pre ++ (w ++ post), n) ∧
      ∃ r n', getEz (sizeModel sizeSFcl sizeSCl) (getModel sizeSFcl sizeSCl getSFcl getSCl) sizeSLstm getSLstm e pre.length
        (pre ++ (w ++ post)) = some (r, n') ∧ EzRel SameScores (fun f r => r.scores = f.scores) d r :=
  ez_round kindScores kindLScores d e h pre mid post hmid

theorem putList_none {sizeL : L → Nat} {putL : L → Nat → List α → Option (List α)} {ls : List L} (h : ∃ l ∈ ls, ∀ s v, putL l s v = none) :
    ∀ s v, putList sizeL putL ls s v = none := by
  induction ls with
  | nil =>
    obtain ⟨l, hl, -⟩ := h
    cases hl
  | cons a ls ih =>
    intro s v
    obtain ⟨l, hl, hn⟩ := h
    unfold putList
    rcases List.mem_cons.mp hl with rfl | hl
    · rw [hn]
      rfl
    · cases putL a s v with
      | none => rfl
      | some v' => exact ih ⟨l, hl, hn⟩ _ _

/-- **C149 (refuted, scores).** Whatever the networks: when one recurrent layer was not made for edge-popup, copying
the scores reads through a NULL pointer, although a size is advertised for that layer; the layers of the other
kinds are skipped in that case. -/
theorem C149_scores_refuted (d : EzVec α (SLstm α)) (l : SLstm α) (hl : l ∈ d.rr) (hn : l.scores = none)
    (size : Model α → Nat) (putM : Model α → Nat → List α → Option (List α)) (s : Nat) (v : List α) :
    putEz size putM sizeSLstm putSLstm d s v = none ∧ (0 < l.out → 0 < sizeSLstm l) := by
  have key : ∀ s v, putList sizeSLstm putSLstm d.rr s v = none := putList_none ⟨l, hl, fun s v => by
    unfold putSLstm
    rw [hn]
    rfl⟩
  refine ⟨?_, fun ho => ?_⟩
  · unfold putEz
    simp only [key]
    simp
  · unfold sizeSLstm
    have := Nat.mul_pos ho ho
    omega

/-! ### Concrete models -/

/-- A model with one fully-connected layer of one weight. -/
def tiny (x : Nat) : Model Nat := ⟨[⟨1, 1, 1, false, false, false, true, ⟨[x], [], [x + 1], [], [], []⟩, [x + 2]⟩], [], []⟩

theorem tiny_shaped (x y : Nat) : Shaped (tiny x) (tiny y) := by
  refine ⟨⟨?_, ?_, ?_⟩, ⟨?_, ?_, ?_⟩, .cons ⟨rfl, rfl, rfl, rfl, rfl, rfl, rfl⟩ .nil, .nil, .nil⟩
  · intro f hf
    obtain rfl := List.mem_singleton.mp hf
    constructor <;> rfl
  · intro f hf
    cases hf
  · intro f hf
    cases hf
  · intro f hf
    obtain rfl := List.mem_singleton.mp hf
    constructor <;> rfl
  · intro f hf
    cases hf
  · intro f hf
    cases hf

/-- A recurrent layer with one input and one output. -/
def tinyL (x : Nat) : Lstm Nat :=
  ⟨1, 1, 1, 1, true, [[x], [x], [x], [x]], [[x], [x], [x], [x]], [[x], [x], [x], [x]], [([x], [x])]⟩

theorem tinyL_shaped (x y : Nat) : ShapedL (tinyL x) (tinyL y) := by
  refine ⟨⟨⟨rfl, by simp [tinyL]⟩, ⟨rfl, by simp [tinyL]⟩, ⟨rfl, by simp [tinyL]⟩, ⟨rfl, by simp [tinyL]⟩⟩,
    ⟨⟨rfl, by simp [tinyL]⟩, ⟨rfl, by simp [tinyL]⟩, ⟨rfl, by simp [tinyL]⟩, ⟨rfl, by simp [tinyL]⟩⟩, rfl, rfl, rfl, rfl, rfl⟩

/-- Scores of such a layer. -/
def tinyS (x : Nat) : SLstm Nat := ⟨1, 1, some ([[x], [x], [x], [x]], [[x], [x], [x], [x]])⟩

theorem tinyS_shaped (x y : Nat) : ShapedS (tinyS x) (tinyS y) :=
  ⟨⟨_, _, rfl, ⟨rfl, by simp [tinyS]⟩, ⟨rfl, by simp [tinyS]⟩⟩, ⟨_, _, rfl, ⟨rfl, by simp [tinyS]⟩, ⟨rfl, by simp [tinyS]⟩⟩, rfl, rfl⟩

/-- An EfficientZero model of such networks. -/
def tinyEz (l : Nat → L) (x : Nat) : EzVec Nat L :=
  ⟨some (tiny x), some (tiny (x + 10)), tiny (x + 20), tiny (x + 30), tiny (x + 40), tiny (x + 50), tiny (x + 60), tiny (x + 70), tiny (x + 80),
    [l x, l (x + 1)]⟩

example (x y : Nat) : EzRel Shaped ShapedL (tinyEz tinyL x) (tinyEz tinyL y) := by
  constructor
  all_goals first | exact tiny_shaped _ _ | exact .cons (tinyL_shaped _ _) (.cons (tinyL_shaped _ _) .nil)

example (x y : Nat) : EzRel Shaped ShapedS (tinyEz tinyS x) (tinyEz tinyS y) := by
  constructor
  all_goals first | exact tiny_shaped _ _ | exact .cons (tinyS_shaped _ _) (.cons (tinyS_shaped _ _) .nil)

/-- Nine models of two parameters and two recurrent layers of fourteen. -/
example : sizeEz (sizeModel sizeFcl sizeCl) sizeLstm (tinyEz tinyL 1) = 46 := by decide

example : putEz (sizeModel sizeSFcl sizeSCl) (putModel sizeSFcl sizeSCl putSFcl putSCl) sizeSLstm putSLstm
    (tinyEz (fun _ => (⟨1, 1, none⟩ : SLstm Nat)) 1) 0 (List.replicate 25 0) = none := by decide

end LLab.Flat
