import Verif.Layers.BatchNorm

/-!
Batch normalisation in steps, one instance at a time (`batch_normalization_feed_forward_first_step`, `…_second_step`,
`batch_normalization_back_prop_first_step`, `…_second_step`, `/repo/src/normalization.c` 245-293, 363-377, 400-414). Property C168.

The library offers the normalisation of a batch also in two halves, so that the instances can be run by different threads: the first half is run once, the second
once for each instance. The code of the first halves is that of the loops `meanLoop`, `varLoop` and `bpFirst` of `Verif.Layers.BatchNorm`.
-/

namespace LLab.BatchNorm

open Finset

/-! ### Model -/

/-- The body of the loop of `batch_normalization_feed_forward_second_step` (`/repo/src/normalization.c` 288-291), state `(temp_vectors, outputs)`. -/
noncomputable def normCell (x : Mat ℝ) (gamma beta mean var : Arr ℝ) (eps : ℝ) (i j : Nat) (st : Mat ℝ × Mat ℝ) : Option (Mat ℝ × Mat ℝ) := do
  let v ← x.read i j
  let m ← mean.read j
  let s ← var.read j
  let temp ← st.1.write i j ((v - m) / Real.sqrt (s + eps))
  let t ← temp.read i j
  let g ← gamma.read j
  let b ← beta.read j
  let out ← st.2.write i j (t * g + b)
  some (temp, out)

/-- `batch_normalization_feed_forward_second_step` (`/repo/src/normalization.c` 286-293) for instance `i`. -/
noncomputable def secondStep (size : Nat) (x : Mat ℝ) (gamma beta mean var : Arr ℝ) (eps : ℝ) (i : Nat) (st : Mat ℝ × Mat ℝ) : Option (Mat ℝ × Mat ℝ) :=
  loop size (fun j st => normCell x gamma beta mean var eps i j st) st

/-- `batch_normalization_feed_forward_first_step` (`/repo/src/normalization.c` 245-268), then a second half `rest`. -/
noncomputable def inHalves (batch size : Nat) (x : Mat ℝ) (st : FF) (rest : Arr ℝ → Arr ℝ → Mat ℝ × Mat ℝ → Option (Mat ℝ × Mat ℝ)) : Option FF := do
  let mean ← meanLoop batch size x st.mean
  let var ← varLoop batch size x mean st.var
  let r ← rest mean var (st.temp, st.out)
  some ⟨mean, var, r.1, r.2⟩

/-- The body of the inner loop of `batch_normalization_back_prop_second_step` (`/repo/src/normalization.c` 405-411). -/
noncomputable def backCell (batch : Nat) (x : Mat ℝ) (mean var : Arr ℝ) (eps : ℝ) (tempArr : Arr ℝ) (tve : Mat ℝ) (i j z : Nat) (ie : Mat ℝ) : Option (Mat ℝ) := do
  let t ← tve.read j z
  let xi ← x.read i z
  let xj ← x.read j z
  let m ← mean.read z
  let s ← var.read z
  let ta ← tempArr.read z
  ie.addAt j z (t * coef batch (decide (i = j)) xi xj m s ta eps)

/-- `batch_normalization_back_prop_second_step` (`/repo/src/normalization.c` 400-414) for instance `j`. -/
noncomputable def backStep (batch size : Nat) (x : Mat ℝ) (mean var : Arr ℝ) (eps : ℝ) (tempArr : Arr ℝ) (tve : Mat ℝ) (j : Nat) (ie : Mat ℝ) : Option (Mat ℝ) :=
  loop batch (fun i ie => loop size (fun z ie => backCell batch x mean var eps tempArr tve i j z ie) ie) ie

/-- `batch_normalization_back_prop_first_step` (`/repo/src/normalization.c` 363-377), then a second half `rest`. -/
noncomputable def backInHalves (batch size : Nat) (x temp : Mat ℝ) (gamma mean : Arr ℝ) (e : Mat ℝ) (st : BP)
    (rest : Arr ℝ → Mat ℝ → Mat ℝ → Option (Mat ℝ)) : Option BP := do
  let st ← bpFirst batch size x temp gamma mean e st
  let ie ← rest st.tempArr st.tve st.inErr
  some { st with inErr := ie }

/-- Running `f` on the members of a list, in their order. -/
def runAll {A σ : Type} (f : A → σ → Option σ) : List A → σ → Option σ
  | [], s => some s
  | a :: l, s => (f a s).bind (runAll f l)

/-! ### Lemmas -/

theorem runAll_append {A σ : Type} (f : A → σ → Option σ) : ∀ (l l' : List A) (s : σ), runAll f (l ++ l') s = (runAll f l s).bind (runAll f l')
  | [], _, _ => rfl
  | a :: l, l', s => by
    show (f a s).bind (runAll f (l ++ l')) = ((f a s).bind (runAll f l)).bind (runAll f l')
    cases f a s with
    | none => rfl
    | some s' => exact runAll_append f l l' s'

theorem runAll_flatMap {A B σ : Type} (f : B → σ → Option σ) (g : A → List B) : ∀ (l : List A) (s : σ), runAll f (l.flatMap g) s = runAll (fun a s => runAll f (g a) s) l s
  | [], _ => rfl
  | a :: l, s => by
    rw [List.flatMap_cons, runAll_append]
    show _ = (runAll f (g a) s).bind (runAll (fun a s => runAll f (g a) s) l)
    cases runAll f (g a) s with
    | none => rfl
    | some s' => exact runAll_flatMap f g l s'

theorem runAll_map {A B σ : Type} (f : B → σ → Option σ) (g : A → B) : ∀ (l : List A) (s : σ), runAll f (l.map g) s = runAll (fun a s => f (g a) s) l s
  | [], _ => rfl
  | a :: l, s => by
    show (f (g a) s).bind (runAll f (l.map g)) = (f (g a) s).bind (runAll (fun a s => f (g a) s) l)
    cases f (g a) s with
    | none => rfl
    | some s' => exact runAll_map f g l s'

theorem loop_runAll {σ : Type} (f : Nat → σ → Option σ) (s : σ) : ∀ n, loop n f s = runAll f (List.range n) s
  | 0 => rfl
  | n + 1 => by
    rw [List.range_succ, runAll_append, ← loop_runAll f s n]
    show (loop n f s).bind (f n) = (loop n f s).bind (fun s' => (f n s').bind some)
    cases loop n f s with
    | none => rfl
    | some s' =>
      show f n s' = (f n s').bind some
      cases f n s' <;> rfl

/-- All cells of the rows `rows`. -/
def cellsOf (rows : List Nat) (size : Nat) : List (Nat × Nat) := rows.flatMap fun i => (List.range size).map fun j => (i, j)

theorem mem_cellsOf (rows : List Nat) (size i j : Nat) : (i, j) ∈ cellsOf rows size ↔ i ∈ rows ∧ j < size := by
  rw [cellsOf, List.mem_flatMap]
  constructor
  · rintro ⟨a, ha, h⟩
    obtain ⟨b, hb, e⟩ := List.mem_map.1 h
    cases e
    exact ⟨ha, List.mem_range.1 hb⟩
  · rintro ⟨h1, h2⟩
    exact ⟨i, h1, List.mem_map.2 ⟨j, List.mem_range.2 h2, rfl⟩⟩

theorem rows_cells {σ : Type} (f : Nat → Nat → σ → Option σ) (rows : List Nat) (size : Nat) (s : σ) :
    runAll (fun i s => loop size (fun j s => f i j s) s) rows s = runAll (fun c s => f c.1 c.2 s) (cellsOf rows size) s := by
  rw [cellsOf, runAll_flatMap]
  congr 1
  funext i s
  rw [loop_runAll, runAll_map]

/-- What the cells of a list hold after it was run. -/
theorem runAll_norm (x : Mat ℝ) (gamma beta mean var : Arr ℝ) (eps : ℝ) (batch size : Nat) (hr : batch ≤ x.rows) (hc : size ≤ x.cols) (hm : size ≤ mean.len)
    (hv : size ≤ var.len) (hg : size ≤ gamma.len) (hbe : size ≤ beta.len) : ∀ (cs : List (Nat × Nat)) (temp out : Mat ℝ),
    (batch ≤ temp.rows ∧ size ≤ temp.cols) → (batch ≤ out.rows ∧ size ≤ out.cols) → (∀ c ∈ cs, c.1 < batch ∧ c.2 < size) →
    runAll (fun c st => normCell x gamma beta mean var eps c.1 c.2 st) cs (temp, out) =
      some (⟨temp.rows, temp.cols, fun i j => if (i, j) ∈ cs then (x.get i j - mean.get j) / Real.sqrt (var.get j + eps) else temp.get i j⟩,
        ⟨out.rows, out.cols, fun i j => if (i, j) ∈ cs then (x.get i j - mean.get j) / Real.sqrt (var.get j + eps) * gamma.get j + beta.get j else out.get i j⟩)
  | [], temp, out, _, _, _ => by simp [runAll]
  | (i, j) :: cs, temp, out, ht, ho, hcs => by
    obtain ⟨hi, hj⟩ := hcs (i, j) (by simp)
    dsimp only at hi hj
    have e : normCell x gamma beta mean var eps i j (temp, out) =
        some (⟨temp.rows, temp.cols, fun r c => if r = i ∧ c = j then (x.get i j - mean.get j) / Real.sqrt (var.get j + eps) else temp.get r c⟩,
          ⟨out.rows, out.cols, fun r c => if r = i ∧ c = j then (x.get i j - mean.get j) / Real.sqrt (var.get j + eps) * gamma.get j + beta.get j else out.get r c⟩) := by
      rw [normCell]
      simp only [Option.bind_eq_bind]
      rw [Mat.read_eq (by omega) (by omega), Arr.read_eq (by omega), Arr.read_eq (by omega)]
      simp only [Option.bind_some]
      rw [Mat.write_eq _ (by omega) (by omega)]
      simp only [Option.bind_some]
      rw [Mat.read_eq (by dsimp only; omega) (by dsimp only; omega), Arr.read_eq (by omega), Arr.read_eq (by omega)]
      simp only [Option.bind_some]
      rw [Mat.write_eq _ (by omega) (by omega)]
      simp
    show (normCell x gamma beta mean var eps i j (temp, out)).bind _ = _
    rw [e, Option.bind_some]
    refine (runAll_norm x gamma beta mean var eps batch size hr hc hm hv hg hbe cs _ _ ?_ ?_ (fun c hc => hcs c (by simp [hc]))).trans ?_
    · exact ht
    · exact ho
    congr 2
    · congr 1
      funext r c
      dsimp only
      by_cases h1 : (r, c) ∈ cs
      · rw [if_pos h1, if_pos (by simp [h1])]
      · rw [if_neg h1]
        by_cases h2 : r = i ∧ c = j
        · rw [if_pos h2, if_pos (by simp [h2]), h2.1, h2.2]
        · rw [if_neg h2, if_neg (by simp [h1, h2])]
    · congr 1
      funext r c
      dsimp only
      by_cases h1 : (r, c) ∈ cs
      · rw [if_pos h1, if_pos (by simp [h1])]
      · rw [if_neg h1]
        by_cases h2 : r = i ∧ c = j
        · rw [if_pos h2, if_pos (by simp [h2]), h2.1, h2.2]
        · rw [if_neg h2, if_neg (by simp [h1, h2])]

/-- What one cell of the backward pass adds. -/
noncomputable def added (batch : Nat) (x : Mat ℝ) (mean var : Arr ℝ) (eps : ℝ) (tempArr : Arr ℝ) (tve : Mat ℝ) (i j z : Nat) : Nat → Nat → ℝ :=
  Pi.single j (Pi.single z (tve.get j z * coef batch (decide (i = j)) (x.get i z) (x.get j z) (mean.get z) (var.get z) (tempArr.get z) eps))

theorem runAll_add {A : Type} (f : A → Mat ℝ → Option (Mat ℝ)) (S : A → Nat → Nat → ℝ) (rows cols : Nat) : ∀ (l : List A) (g : Nat → Nat → ℝ),
    (∀ a ∈ l, ∀ g, f a ⟨rows, cols, g⟩ = some ⟨rows, cols, g + S a⟩) → runAll f l ⟨rows, cols, g⟩ = some ⟨rows, cols, g + (l.map S).sum⟩
  | [], g, _ => by simp [runAll]
  | a :: l, g, h => by
    show (f a ⟨rows, cols, g⟩).bind _ = _
    rw [h a (by simp), Option.bind_some, runAll_add f S rows cols l _ (fun b hb => h b (by simp [hb])), List.map_cons, List.sum_cons, add_assoc]

theorem sum_range_list {M : Type} [AddCommMonoid M] (f : Nat → M) : ∀ n, ((List.range n).map f).sum = ∑ i ∈ range n, f i
  | 0 => rfl
  | n + 1 => by
    rw [List.range_succ, List.map_append, List.sum_append, sum_range_list f n, Finset.sum_range_succ]
    simp

theorem backCell_eq (batch size : Nat) (x : Mat ℝ) (mean var : Arr ℝ) (eps : ℝ) (tempArr : Arr ℝ) (tve : Mat ℝ) (rows cols : Nat)
    (hx : batch ≤ x.rows ∧ size ≤ x.cols) (ht : batch ≤ tve.rows ∧ size ≤ tve.cols) (hm : size ≤ mean.len) (hv : size ≤ var.len) (hta : size ≤ tempArr.len)
    (hi : batch ≤ rows ∧ size ≤ cols) (i j z : Nat) (hi' : i < batch) (hj : j < batch) (hz : z < size) (g : Nat → Nat → ℝ) :
    backCell batch x mean var eps tempArr tve i j z ⟨rows, cols, g⟩ = some ⟨rows, cols, g + added batch x mean var eps tempArr tve i j z⟩ := by
  rw [backCell, Mat.read_eq (by omega) (by omega), Mat.read_eq (by omega) (by omega), Mat.read_eq (by omega) (by omega),
    Arr.read_eq (by omega), Arr.read_eq (by omega), Arr.read_eq (by omega)]
  simp only [Option.bind_eq_bind, Option.bind_some]
  exact Mat.addAt_mk _ (by omega) (by omega)

/-! ### Theorems -/

/-- **C168 (forward, in any interleaving).** Normalising a batch in halves, the cells of the second halves in any order and interleaving (each at least once), gives the
same means, variances, normalised vectors and outputs as normalising it at once. -/
theorem C168_forward_interleaved (batch size : Nat) (hb : 1 ≤ batch) (x : Mat ℝ) (gamma beta : Arr ℝ) (eps : ℝ) (st : FF) (hr : batch ≤ x.rows) (hc : size ≤ x.cols)
    (hg : size ≤ gamma.len) (hbe : size ≤ beta.len) (hm : size ≤ st.mean.len) (hv : size ≤ st.var.len)
    (ht : batch ≤ st.temp.rows ∧ size ≤ st.temp.cols) (ho : batch ≤ st.out.rows ∧ size ≤ st.out.cols)
    (zm : ∀ j, j < size → st.mean.get j = 0) (zv : ∀ j, j < size → st.var.get j = 0)
    (cells : List (Nat × Nat)) (hcells : ∀ i j, (i, j) ∈ cells ↔ i < batch ∧ j < size) :
    ∃ st', ff batch size x gamma beta eps st = some st' ∧
      inHalves batch size x st (fun mean var => runAll (fun c st => normCell x gamma beta mean var eps c.1 c.2 st) cells) = some st' := by
  obtain ⟨m, e1, l1, h1⟩ := meanLoop_eq batch size hb x st.mean hr hc hm zm
  obtain ⟨v, e2, l2, h2⟩ := varLoop_eq batch size hb x m st.var hr hc (by omega) hv h1 zv
  have hmem : ∀ c : Nat × Nat, c ∈ cells ↔ c ∈ cellsOf (List.range batch) size := by
    rintro ⟨i, j⟩
    rw [hcells, mem_cellsOf, List.mem_range]
  have hn : normLoop batch size x gamma beta m v eps (st.temp, st.out) = runAll (fun c st => normCell x gamma beta m v eps c.1 c.2 st) (cellsOf (List.range batch) size) (st.temp, st.out) := by
    rw [← rows_cells (fun i j st => normCell x gamma beta m v eps i j st), ← loop_runAll]
    rfl
  have r1 := runAll_norm x gamma beta m v eps batch size hr hc (by omega) (by omega) hg hbe (cellsOf (List.range batch) size) st.temp st.out ht ho
    (fun c hc' => (hcells c.1 c.2).1 ((hmem c).2 hc'))
  have r2 := runAll_norm x gamma beta m v eps batch size hr hc (by omega) (by omega) hg hbe cells st.temp st.out ht ho (fun c hc' => (hcells c.1 c.2).1 hc')
  simp only [← hmem] at r1
  rw [← r2, ← hn] at r1
  refine ⟨⟨m, v, (⟨st.temp.rows, st.temp.cols, fun i j => if (i, j) ∈ cells then (x.get i j - m.get j) / Real.sqrt (v.get j + eps) else st.temp.get i j⟩ : Mat ℝ),
      (⟨st.out.rows, st.out.cols, fun i j => if (i, j) ∈ cells then (x.get i j - m.get j) / Real.sqrt (v.get j + eps) * gamma.get j + beta.get j else st.out.get i j⟩ : Mat ℝ)⟩, ?_, ?_⟩
  · unfold ff
    rw [e1]
    simp only [Option.bind_eq_bind, Option.bind_some]
    rw [e2]
    simp only [Option.bind_some]
    rw [r1, r2]
    rfl
  · unfold inHalves
    rw [e1]
    simp only [Option.bind_eq_bind, Option.bind_some]
    rw [e2]
    simp only [Option.bind_some]
    rw [r2]
    rfl

/-- **C168 (forward).** The second half may be run for the instances in any order. -/
theorem C168_forward (batch size : Nat) (hb : 1 ≤ batch) (x : Mat ℝ) (gamma beta : Arr ℝ) (eps : ℝ) (st : FF) (hr : batch ≤ x.rows) (hc : size ≤ x.cols)
    (hg : size ≤ gamma.len) (hbe : size ≤ beta.len) (hm : size ≤ st.mean.len) (hv : size ≤ st.var.len)
    (ht : batch ≤ st.temp.rows ∧ size ≤ st.temp.cols) (ho : batch ≤ st.out.rows ∧ size ≤ st.out.cols)
    (zm : ∀ j, j < size → st.mean.get j = 0) (zv : ∀ j, j < size → st.var.get j = 0)
    (order : List Nat) (ho' : ∀ i, i ∈ order ↔ i < batch) :
    ∃ st', ff batch size x gamma beta eps st = some st' ∧
      inHalves batch size x st (fun mean var => runAll (fun i st => secondStep size x gamma beta mean var eps i st) order) = some st' := by
  obtain ⟨st', e1, e2⟩ := C168_forward_interleaved batch size hb x gamma beta eps st hr hc hg hbe hm hv ht ho zm zv (cellsOf order size)
    (fun i j => by rw [mem_cellsOf, ho'])
  refine ⟨st', e1, ?_⟩
  rw [← e2]
  congr 1
  funext mean var s
  exact rows_cells (fun i j st => normCell x gamma beta mean var eps i j st) order size s

/-- **C168 (backward).** The errors of a batch computed in halves, the second half once for each instance in any order, are those computed at once. -/
theorem C168_backward (batch size : Nat) (x temp : Mat ℝ) (gamma mean var : Arr ℝ) (e : Mat ℝ) (eps : ℝ) (st : BP)
    (hx : batch ≤ x.rows ∧ size ≤ x.cols) (ht : batch ≤ temp.rows ∧ size ≤ temp.cols)
    (he : batch ≤ e.rows ∧ size ≤ e.cols) (hg : size ≤ gamma.len) (hm : size ≤ mean.len) (hv : size ≤ var.len)
    (h1 : size ≤ st.gammaErr.len) (h2 : size ≤ st.betaErr.len) (h3 : size ≤ st.tempArr.len)
    (h4 : batch ≤ st.tve.rows ∧ size ≤ st.tve.cols) (h5 : batch ≤ st.inErr.rows ∧ size ≤ st.inErr.cols)
    (order : List Nat) (hp : order.Perm (List.range batch)) :
    ∃ st', bp batch size x temp gamma mean var e eps st = some st' ∧
      backInHalves batch size x temp gamma mean e st (fun ta tve => runAll (fun j ie => backStep batch size x mean var eps ta tve j ie) order) = some st' := by
  obtain ⟨q, e1, hi, ⟨l1, l2, l3, l4, l5⟩, -, -⟩ := bpFirst_eq batch size x temp gamma mean e st hx ht he hg hm h1 h2 h3 h4
  have e2 := bpSecond_eq batch size x mean var eps q.tempArr q.tve st.inErr.rows st.inErr.cols st.inErr.get hx (by omega) hm hv (by omega) h5
  have e3 : runAll (fun j ie => backStep batch size x mean var eps q.tempArr q.tve j ie) order ⟨st.inErr.rows, st.inErr.cols, st.inErr.get⟩ =
      some ⟨st.inErr.rows, st.inErr.cols, st.inErr.get + (order.map fun j => ∑ i ∈ range batch, ∑ z ∈ range size, added batch x mean var eps q.tempArr q.tve i j z).sum⟩ := by
    refine runAll_add _ _ _ _ order _ (fun j hj g => ?_)
    have hj' : j < batch := List.mem_range.1 (hp.mem_iff.1 hj)
    rw [backStep]
    refine loop_act (fun g => Mat.mk st.inErr.rows st.inErr.cols g) _ ?_ g
    intro i hi' g
    refine loop_act (fun g => Mat.mk st.inErr.rows st.inErr.cols g) _ ?_ g
    intro z hz g
    exact backCell_eq batch size x mean var eps q.tempArr q.tve _ _ hx (by omega) hm hv (by omega) h5 i j z hi' hj' hz g
  have hs : (order.map fun j => ∑ i ∈ range batch, ∑ z ∈ range size, added batch x mean var eps q.tempArr q.tve i j z).sum =
      ∑ i ∈ range batch, ∑ j ∈ range batch, ∑ z ∈ range size, added batch x mean var eps q.tempArr q.tve i j z := by
    rw [(hp.map _).sum_eq, sum_range_list, Finset.sum_comm]
  rw [hs] at e3
  refine ⟨{ q with inErr := ⟨st.inErr.rows, st.inErr.cols, st.inErr.get + ∑ i ∈ range batch, ∑ j ∈ range batch, ∑ z ∈ range size, added batch x mean var eps q.tempArr q.tve i j z⟩ },
    ?_, ?_⟩
  · unfold bp
    rw [e1]
    simp only [Option.bind_eq_bind, Option.bind_some]
    rw [hi, e2]
    rfl
  · unfold backInHalves
    rw [e1]
    simp only [Option.bind_eq_bind, Option.bind_some]
    rw [hi, e3]
    rfl

/-- **C168 (backward, in any interleaving).** The same for the single additions of the second halves, in any order, each exactly once. -/
theorem C168_backward_interleaved (batch size : Nat) (x temp : Mat ℝ) (gamma mean var : Arr ℝ) (e : Mat ℝ) (eps : ℝ) (st : BP)
    (hx : batch ≤ x.rows ∧ size ≤ x.cols) (ht : batch ≤ temp.rows ∧ size ≤ temp.cols)
    (he : batch ≤ e.rows ∧ size ≤ e.cols) (hg : size ≤ gamma.len) (hm : size ≤ mean.len) (hv : size ≤ var.len)
    (h1 : size ≤ st.gammaErr.len) (h2 : size ≤ st.betaErr.len) (h3 : size ≤ st.tempArr.len)
    (h4 : batch ≤ st.tve.rows ∧ size ≤ st.tve.cols) (h5 : batch ≤ st.inErr.rows ∧ size ≤ st.inErr.cols)
    (cells : List (Nat × Nat × Nat)) (hn : cells.Nodup) (hcells : ∀ i j z, (i, j, z) ∈ cells ↔ i < batch ∧ j < batch ∧ z < size) :
    ∃ st', bp batch size x temp gamma mean var e eps st = some st' ∧
      backInHalves batch size x temp gamma mean e st (fun ta tve => runAll (fun c ie => backCell batch x mean var eps ta tve c.1 c.2.1 c.2.2 ie) cells) = some st' := by
  obtain ⟨q, e1, hi, ⟨l1, l2, l3, l4, l5⟩, -, -⟩ := bpFirst_eq batch size x temp gamma mean e st hx ht he hg hm h1 h2 h3 h4
  have e2 := bpSecond_eq batch size x mean var eps q.tempArr q.tve st.inErr.rows st.inErr.cols st.inErr.get hx (by omega) hm hv (by omega) h5
  have e3 : runAll (fun c ie => backCell batch x mean var eps q.tempArr q.tve c.1 c.2.1 c.2.2 ie) cells ⟨st.inErr.rows, st.inErr.cols, st.inErr.get⟩ =
      some ⟨st.inErr.rows, st.inErr.cols, st.inErr.get + (cells.map fun c => added batch x mean var eps q.tempArr q.tve c.1 c.2.1 c.2.2).sum⟩ := by
    refine runAll_add _ _ _ _ cells _ (fun c hc g => ?_)
    obtain ⟨k1, k2, k3⟩ := (hcells c.1 c.2.1 c.2.2).1 hc
    exact backCell_eq batch size x mean var eps q.tempArr q.tve _ _ hx (by omega) hm hv (by omega) h5 _ _ _ k1 k2 k3 g
  have hs : (cells.map fun c => added batch x mean var eps q.tempArr q.tve c.1 c.2.1 c.2.2).sum =
      ∑ i ∈ range batch, ∑ j ∈ range batch, ∑ z ∈ range size, added batch x mean var eps q.tempArr q.tve i j z := by
    have hf : cells.toFinset = range batch ×ˢ (range batch ×ˢ range size) := by
      ext ⟨i, j, z⟩
      rw [List.mem_toFinset, hcells, Finset.mem_product, Finset.mem_product, Finset.mem_range, Finset.mem_range, Finset.mem_range]
    rw [← List.sum_toFinset _ hn, hf, Finset.sum_product]
    refine Finset.sum_congr rfl fun i _ => ?_
    rw [Finset.sum_product]
  rw [hs] at e3
  refine ⟨{ q with inErr := ⟨st.inErr.rows, st.inErr.cols, st.inErr.get + ∑ i ∈ range batch, ∑ j ∈ range batch, ∑ z ∈ range size, added batch x mean var eps q.tempArr q.tve i j z⟩ },
    ?_, ?_⟩
  · unfold bp
    rw [e1]
    simp only [Option.bind_eq_bind, Option.bind_some]
    rw [hi, e2]
    rfl
  · unfold backInHalves
    rw [e1]
    simp only [Option.bind_eq_bind, Option.bind_some]
    rw [hi, e3]
    rfl

/-- Non-vacuity: two instances, the second one first. -/
example : ∃ st', inHalves 2 1 ⟨2, 1, fun i _ => i⟩ ⟨⟨1, fun _ => 0⟩, ⟨1, fun _ => 0⟩, ⟨2, 1, fun _ _ => 0⟩, ⟨2, 1, fun _ _ => 0⟩⟩
    (fun mean var => runAll (fun i st => secondStep 1 ⟨2, 1, fun i _ => i⟩ ⟨1, fun _ => 3⟩ ⟨1, fun _ => 5⟩ mean var 1 i st) [1, 0]) = some st' := by
  obtain ⟨st', -, h⟩ := C168_forward 2 1 (by omega) ⟨2, 1, fun i _ => i⟩ ⟨1, fun _ => 3⟩ ⟨1, fun _ => 5⟩ 1
    ⟨⟨1, fun _ => 0⟩, ⟨1, fun _ => 0⟩, ⟨2, 1, fun _ _ => 0⟩, ⟨2, 1, fun _ _ => 0⟩⟩ (by simp) (by simp) (by simp) (by simp) (by simp) (by simp) (by simp) (by simp)
    (by simp) (by simp) [1, 0] (by intro i; simp; omega)
  exact ⟨st', h⟩

end LLab.BatchNorm
