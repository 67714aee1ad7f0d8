import Verif.Train.Update

/-!
`update_lstm_layer_*` and the normalisation step of `update_rmodel`
(`/repo/src/update.c` 852-1000, 1128-1215). Property C42 for recurrent models.
-/

namespace LLab.Update

open LLab.Optim

/-- The parameters and gradients of an `lstm`; the four gates are the rows. -/
structure Lstm where
  mode : Mode
  input : Nat
  output : Nat
  w : Mat Cell
  dw : Mat ℝ
  u : Mat Cell
  du : Mat ℝ
  b : Mat Cell
  db : Mat ℝ
  ws : Mat Cell
  dws : Mat ℝ
  us : Mat Cell
  dus : Mat ℝ

/-- Allocation sizes of an `lstm`. -/
structure Lstm.WF (l : Lstm) : Prop where
  w : l.w.rows = 4 ∧ l.w.cols = l.output * l.input
  dw : l.dw.rows = 4 ∧ l.dw.cols = l.output * l.input
  u : l.u.rows = 4 ∧ l.u.cols = l.output * l.output
  du : l.du.rows = 4 ∧ l.du.cols = l.output * l.output
  b : l.b.rows = 4 ∧ l.b.cols = l.output
  db : l.db.rows = 4 ∧ l.db.cols = l.output
  ws : l.ws.rows = 4 ∧ l.ws.cols = l.output * l.input
  dws : l.dws.rows = 4 ∧ l.dws.cols = l.output * l.input
  us : l.us.rows = 4 ∧ l.us.cols = l.output * l.output
  dus : l.dus.rows = 4 ∧ l.dus.cols = l.output * l.output

/-- A Nesterov step on a score whose velocity is kept in the weight's `d1`
(`/repo/src/update.c` 862, 872: `&u_scores[j][k]`, `&d1_u[j][k]`). -/
noncomputable def scoreNesterov (B : ℝ) (o : Opt) (sc pa : Mat Cell) (g : Mat ℝ) (j k : Nat) : Option (Mat Cell × Mat Cell) :=
  (sc.read j k).bind fun c => (pa.read j k).bind fun p => (g.read j k).bind fun d =>
    let r := stepCell B o d { c with d1 := p.d1 }
    (sc.write j k { c with p := r.p }).bind fun sc' =>
      (pa.write j k { p with d1 := r.d1 }).bind fun pa' => some (sc', pa')

/-- An AdaMod step on a score whose running step size is kept in the weight's
`d3` (`/repo/src/update.c` 958, 968: `&d3_w[j][k]`, `&d3_u[j][k]`). -/
noncomputable def scoreAdamod (B : ℝ) (o : Opt) (sc pa : Mat Cell) (g : Mat ℝ) (j k : Nat) : Option (Mat Cell × Mat Cell) :=
  (sc.read j k).bind fun c => (pa.read j k).bind fun p => (g.read j k).bind fun d =>
    let r := stepCell B o d { c with d3 := p.d3 }
    (sc.write j k { r with d3 := c.d3 }).bind fun sc' =>
      (pa.write j k { p with d3 := r.d3 }).bind fun pa' => some (sc', pa')

/-- The edge-popup branch of the loop over `w`: the Nesterov variant works on
`u_scores` (`/repo/src/update.c` 861-863), the others on `w_scores` (889, 923,
957, 990). -/
noncomputable def lstmScoreW (B : ℝ) (o : Opt) (j k : Nat) (l : Lstm) : Option Lstm :=
  match o with
  | .nesterov _ _ => (scoreNesterov B o l.us l.u l.dus j k).bind fun r => some { l with us := r.1, u := r.2 }
  | .adamod _ _ _ _ _ _ _ => (scoreAdamod B o l.ws l.w l.dws j k).bind fun r => some { l with ws := r.1, w := r.2 }
  | _ => (stepAtM B o l.ws l.dws j k).bind fun ws => some { l with ws := ws }

/-- The edge-popup branch of the loop over `u` (`/repo/src/update.c` 871-873,
898, 932, 967, 1000). -/
noncomputable def lstmScoreU (B : ℝ) (o : Opt) (j k : Nat) (l : Lstm) : Option Lstm :=
  match o with
  | .nesterov _ _ => (scoreNesterov B o l.us l.u l.dus j k).bind fun r => some { l with us := r.1, u := r.2 }
  | .adamod _ _ _ _ _ _ _ => (scoreAdamod B o l.us l.u l.dus j k).bind fun r => some { l with us := r.1, u := r.2 }
  | _ => (stepAtM B o l.us l.dus j k).bind fun us => some { l with us := us }

/-- One iteration of the loop over `w` (`/repo/src/update.c` 857-864). -/
noncomputable def lstmW (B : ℝ) (o : Opt) (j k : Nat) (l : Lstm) : Option Lstm :=
  if l.mode = .gradientDescent then (stepAtM B o l.w l.dw j k).bind fun w => some { l with w := w }
  else if l.mode = .edgePopup then lstmScoreW B o j k l else some l

/-- One iteration of the loop over `u` (`/repo/src/update.c` 865-874). -/
noncomputable def lstmU (B : ℝ) (o : Opt) (j k : Nat) (l : Lstm) : Option Lstm :=
  if l.mode = .gradientDescent then
    (stepAtM B o l.u l.du j k).bind fun u =>
      if k < l.output ∧ l.mode ≠ .freezeBiases then
        (stepAtM B o l.b l.db j k).bind fun b => some { l with u := u, b := b }
      else some { l with u := u }
  else if l.mode = .edgePopup then lstmScoreU B o j k l else some l

/-- `update_lstm_layer_*` for one layer (`/repo/src/update.c` 852-1000). -/
noncomputable def lstmUpdate (B : ℝ) (o : Opt) (l : Lstm) : Option Lstm :=
  loop 4 (fun j l' => (loop (l.output * l.input) (fun k l' => lstmW B o j k l') l').bind fun l' =>
    loop (l.output * l.output) (fun k l' => lstmU B o j k l') l') l

/-! ### Specification and proof -/

/-- Every cell of `a` makes one step. -/
def MovedM (B : ℝ) (o : Opt) (g : Mat ℝ) (a a' : Mat Cell) : Prop :=
  a'.rows = a.rows ∧ a'.cols = a.cols ∧
    ∀ j, j < a.rows → ∀ k, k < a.cols → a'.get j k = stepCell B o (g.get j k) (a.get j k)

/-- Cells before `(r, s)` in row-major order (within `n` cells per row) have
made their step. -/
noncomputable def preM (B : ℝ) (o : Opt) (r s n : Nat) (g : Mat ℝ) (a : Mat Cell) : Mat Cell :=
  ⟨a.rows, a.cols, fun j k => if k < n ∧ (j < r ∨ (j = r ∧ k < s)) then stepCell B o (g.get j k) (a.get j k) else a.get j k⟩

theorem preM_zero (B : ℝ) (o : Opt) (n : Nat) (g : Mat ℝ) (a : Mat Cell) : preM B o 0 0 n g a = a := by
  simp [preM]

theorem preM_row (B : ℝ) (o : Opt) (r s n : Nat) (g : Mat ℝ) (a : Mat Cell) (h : n ≤ s) :
    preM B o r s n g a = preM B o (r + 1) 0 n g a := by
  unfold preM
  congr 1
  funext j k
  refine if_congr ?_ rfl rfl
  omega

theorem preM_step {B : ℝ} {o : Opt} {r s n : Nat} {g : Mat ℝ} {a : Mat Cell} (h1 : r < a.rows) (h2 : n ≤ a.cols) (hs : s < n)
    (h3 : r < g.rows) (h4 : n ≤ g.cols) :
    stepAtM B o (preM B o r s n g a) g r s = some (preM B o r (s + 1) n g a) := by
  unfold stepAtM
  rw [Mat.read_eq (by exact h1) (by exact (by omega : s < a.cols)), Mat.read_eq h3 (by omega)]
  dsimp only [Option.bind_some]
  rw [Mat.write_eq _ (by exact h1) (by exact (by omega : s < a.cols))]
  unfold preM
  congr 2
  funext j k
  by_cases hc : j = r ∧ k = s
  · obtain ⟨rfl, rfl⟩ := hc
    simp [hs]
  · rw [if_neg hc]
    refine if_congr ?_ rfl rfl
    omega

theorem movedM_pre (B : ℝ) (o : Opt) (n : Nat) (g : Mat ℝ) (a : Mat Cell) (h1 : a.rows = 4) (h2 : a.cols = n) :
    MovedM B o g a (preM B o 4 0 n g a) := by
  refine ⟨rfl, rfl, fun j hj k hk => ?_⟩
  unfold preM
  dsimp only
  rw [if_pos ⟨by omega, Or.inl (by omega)⟩]

theorem loop_id {σ : Type} (n : Nat) (f : Nat → σ → Option σ) (s : σ) (h : ∀ i, f i s = some s) : loop n f s = some s := by
  induction n with
  | zero => rfl
  | succ n ih => simp [loop, ih, h]

/-- **C42, LSTM layers.** In gradient-descent mode every weight, recurrent weight
and bias of the four gates makes exactly one step and the scores none. -/
theorem C42_lstm (B : ℝ) (o : Opt) (l : Lstm) (h : l.WF) (hm : l.mode = .gradientDescent) :
    ∃ l', lstmUpdate B o l = some l' ∧ MovedM B o l.dw l.w l'.w ∧ MovedM B o l.du l.u l'.u ∧ MovedM B o l.db l.b l'.b ∧
      l' = { l with w := l'.w, u := l'.u, b := l'.b } := by
  have e : lstmUpdate B o l = some { l with
      w := preM B o 4 0 (l.output * l.input) l.dw l.w,
      u := preM B o 4 0 (l.output * l.output) l.du l.u,
      b := preM B o 4 0 l.output l.db l.b } := by
    unfold lstmUpdate
    obtain ⟨l', e, rfl⟩ := loop_inv (σ := Lstm) (n := 4) (s := l) (f := fun j l' =>
      (loop (l.output * l.input) (fun k l' => lstmW B o j k l') l').bind fun l' =>
        loop (l.output * l.output) (fun k l' => lstmU B o j k l') l')
      (fun j l' => l' = { l with
        w := preM B o j 0 (l.output * l.input) l.dw l.w,
        u := preM B o j 0 (l.output * l.output) l.du l.u,
        b := preM B o j 0 l.output l.db l.b })
      (by simp only [preM_zero])
      (by
        rintro j hj _ rfl
        obtain ⟨l1, e1, rfl⟩ := loop_inv (σ := Lstm) (n := l.output * l.input) (s := { l with
            w := preM B o j 0 (l.output * l.input) l.dw l.w,
            u := preM B o j 0 (l.output * l.output) l.du l.u,
            b := preM B o j 0 l.output l.db l.b }) (f := fun k l' => lstmW B o j k l')
          (fun k l' => l' = { l with
            w := preM B o j k (l.output * l.input) l.dw l.w,
            u := preM B o j 0 (l.output * l.output) l.du l.u,
            b := preM B o j 0 l.output l.db l.b }) rfl
          (by
            rintro k hk _ rfl
            refine ⟨_, ?_, rfl⟩
            unfold lstmW
            rw [if_pos hm]
            exact bind_some_of (preM_step (by rw [h.w.1]; exact hj) (by rw [h.w.2]) hk (by rw [h.dw.1]; exact hj)
              (by rw [h.dw.2])))
        obtain ⟨l2, e2, rfl⟩ := loop_inv (σ := Lstm) (n := l.output * l.output) (s := { l with
            w := preM B o j (l.output * l.input) (l.output * l.input) l.dw l.w,
            u := preM B o j 0 (l.output * l.output) l.du l.u,
            b := preM B o j 0 l.output l.db l.b }) (f := fun k l' => lstmU B o j k l')
          (fun k l' => l' = { l with
            w := preM B o j (l.output * l.input) (l.output * l.input) l.dw l.w,
            u := preM B o j k (l.output * l.output) l.du l.u,
            b := preM B o j k l.output l.db l.b }) rfl
          (by
            rintro k hk _ rfl
            refine ⟨_, ?_, rfl⟩
            unfold lstmU
            rw [if_pos hm]
            refine (bind_some_of (preM_step (by rw [h.u.1]; exact hj) (by rw [h.u.2]) hk (by rw [h.du.1]; exact hj)
              (by rw [h.du.2]))).trans ?_
            by_cases hb : k < l.output
            · rw [if_pos ⟨hb, by rw [hm]; simp⟩]
              exact bind_some_of (preM_step (by rw [h.b.1]; exact hj) (by rw [h.b.2]) hb (by rw [h.db.1]; exact hj)
                (by rw [h.db.2]))
            · rw [if_neg (fun hc => hb hc.1)]
              rw [preM_row B o j k l.output l.db l.b (by omega), preM_row B o j (k + 1) l.output l.db l.b (by omega)])
        refine ⟨_, (bind_some_of e1).trans e2, ?_⟩
        rw [preM_row B o j (l.output * l.input) _ _ _ (le_refl _), preM_row B o j (l.output * l.output) _ _ _ (le_refl _),
          preM_row B o j (l.output * l.output) l.output l.db l.b (Nat.le_mul_self _)])
    exact e
  refine ⟨_, e, movedM_pre B o _ _ _ h.w.1 h.w.2, movedM_pre B o _ _ _ h.u.1 h.u.2, movedM_pre B o _ _ _ h.b.1 h.b.2, rfl⟩

/-- **C42, frozen LSTM layers.** Nothing moves. -/
theorem C42_lstm_frozen (B : ℝ) (o : Opt) (l : Lstm) (hm : l.mode = .freezeTraining) : lstmUpdate B o l = some l := by
  unfold lstmUpdate
  refine loop_id _ _ _ fun j => ?_
  refine (bind_some_of (loop_id _ _ _ fun k => ?_)).trans (loop_id _ _ _ fun k => ?_)
  · simp [lstmW, hm]
  · simp [lstmU, hm]

/-- **C42, LSTM biases mode, refuted.** In freeze-biases mode, where the weights
are trainable, `update_lstm_layer_*` moves nothing at all, whatever the gradients
and the optimiser. -/
theorem C42_lstm_freeze_biases_refuted (B : ℝ) (o : Opt) (l : Lstm) (hm : l.mode = .freezeBiases) :
    lstmUpdate B o l = some l := by
  unfold lstmUpdate
  refine loop_id _ _ _ fun j => ?_
  refine (bind_some_of (loop_id _ _ _ fun k => ?_)).trans (loop_id _ _ _ fun k => ?_)
  · simp [lstmW, hm]
  · simp [lstmU, hm]

/-- **C42, LSTM scores, partial.** With Adam, RAdam or diffGrad every score makes
exactly one step in edge-popup mode and the weights none. -/
theorem C42_lstm_scores_partial (B : ℝ) (o : Opt) (l : Lstm) (h : l.WF) (hm : l.mode = .edgePopup)
    (ho : (∀ lr m, o ≠ .nesterov lr m) ∧ ∀ lr b1 b2 b3 bb1 bb2 eps, o ≠ .adamod lr b1 b2 b3 bb1 bb2 eps) :
    ∃ l', lstmUpdate B o l = some l' ∧ MovedM B o l.dws l.ws l'.ws ∧ MovedM B o l.dus l.us l'.us ∧
      l' = { l with ws := l'.ws, us := l'.us } := by
  have sw : ∀ j k (l : Lstm), lstmScoreW B o j k l = (stepAtM B o l.ws l.dws j k).bind fun ws => some { l with ws := ws } := by
    intro j k l
    unfold lstmScoreW
    split
    · exact absurd rfl (ho.1 _ _)
    · exact absurd rfl (ho.2 _ _ _ _ _ _ _)
    · rfl
  have su : ∀ j k (l : Lstm), lstmScoreU B o j k l = (stepAtM B o l.us l.dus j k).bind fun us => some { l with us := us } := by
    intro j k l
    unfold lstmScoreU
    split
    · exact absurd rfl (ho.1 _ _)
    · exact absurd rfl (ho.2 _ _ _ _ _ _ _)
    · rfl
  have e : lstmUpdate B o l = some { l with
      ws := preM B o 4 0 (l.output * l.input) l.dws l.ws,
      us := preM B o 4 0 (l.output * l.output) l.dus l.us } := by
    unfold lstmUpdate
    obtain ⟨l', e, rfl⟩ := loop_inv (σ := Lstm) (n := 4) (s := l) (f := fun j l' =>
      (loop (l.output * l.input) (fun k l' => lstmW B o j k l') l').bind fun l' =>
        loop (l.output * l.output) (fun k l' => lstmU B o j k l') l')
      (fun j l' => l' = { l with
        ws := preM B o j 0 (l.output * l.input) l.dws l.ws,
        us := preM B o j 0 (l.output * l.output) l.dus l.us })
      (by simp only [preM_zero])
      (by
        rintro j hj _ rfl
        obtain ⟨l1, e1, rfl⟩ := loop_inv (σ := Lstm) (n := l.output * l.input) (s := { l with
            ws := preM B o j 0 (l.output * l.input) l.dws l.ws,
            us := preM B o j 0 (l.output * l.output) l.dus l.us }) (f := fun k l' => lstmW B o j k l')
          (fun k l' => l' = { l with
            ws := preM B o j k (l.output * l.input) l.dws l.ws,
            us := preM B o j 0 (l.output * l.output) l.dus l.us }) rfl
          (by
            rintro k hk _ rfl
            refine ⟨_, ?_, rfl⟩
            unfold lstmW
            rw [if_neg (by rw [hm]; simp), if_pos hm, sw]
            exact bind_some_of (preM_step (by rw [h.ws.1]; exact hj) (by rw [h.ws.2]) hk (by rw [h.dws.1]; exact hj)
              (by rw [h.dws.2])))
        obtain ⟨l2, e2, rfl⟩ := loop_inv (σ := Lstm) (n := l.output * l.output) (s := { l with
            ws := preM B o j (l.output * l.input) (l.output * l.input) l.dws l.ws,
            us := preM B o j 0 (l.output * l.output) l.dus l.us }) (f := fun k l' => lstmU B o j k l')
          (fun k l' => l' = { l with
            ws := preM B o j (l.output * l.input) (l.output * l.input) l.dws l.ws,
            us := preM B o j k (l.output * l.output) l.dus l.us }) rfl
          (by
            rintro k hk _ rfl
            refine ⟨_, ?_, rfl⟩
            unfold lstmU
            rw [if_neg (by rw [hm]; simp), if_pos hm, su]
            exact bind_some_of (preM_step (by rw [h.us.1]; exact hj) (by rw [h.us.2]) hk (by rw [h.dus.1]; exact hj)
              (by rw [h.dus.2])))
        refine ⟨_, (bind_some_of e1).trans e2, ?_⟩
        rw [preM_row B o j (l.output * l.input) _ _ _ (le_refl _), preM_row B o j (l.output * l.output) _ _ _ (le_refl _)])
    exact e
  exact ⟨_, e, movedM_pre B o _ _ _ h.ws.1 h.ws.2, movedM_pre B o _ _ _ h.us.1 h.us.2, rfl⟩

/-- The input scores after a run of Nesterov edge-popup steps are the original
ones. -/
theorem lstm_ws_nesterov (B lr m : ℝ) (l l' : Lstm) (hm : l.mode = .edgePopup)
    (e : lstmUpdate B (.nesterov lr m) l = some l') : l'.ws = l.ws := by
  have key : ∀ (n : Nat) (f : Nat → Lstm → Option Lstm) (s s' : Lstm),
      (∀ i t t', t.mode = .edgePopup → t.ws = l.ws → f i t = some t' → t'.mode = .edgePopup ∧ t'.ws = l.ws) →
      s.mode = .edgePopup → s.ws = l.ws → loop n f s = some s' → s'.mode = .edgePopup ∧ s'.ws = l.ws := by
    intro n f s s' hf h1 h2 h
    induction n generalizing s' with
    | zero => cases h; exact ⟨h1, h2⟩
    | succ n ih =>
      simp only [loop, Option.bind_eq_bind, Option.bind_eq_some_iff] at h
      obtain ⟨t, ht, h⟩ := h
      obtain ⟨a, b⟩ := ih t ht
      exact hf n t s' a b h
  have sn : ∀ j k (t t' : Lstm), t.mode = .edgePopup → t.ws = l.ws →
      ((scoreNesterov B (.nesterov lr m) t.us t.u t.dus j k).bind fun r => some { t with us := r.1, u := r.2 }) = some t' →
      t'.mode = .edgePopup ∧ t'.ws = l.ws := by
    intro j k t t' h1 h2 h
    obtain ⟨r, _, h⟩ := Option.bind_eq_some_iff.1 h
    cases h
    exact ⟨h1, h2⟩
  refine (key 4 _ l l' ?_ hm rfl e).2
  intro j t t' h1 h2 h
  obtain ⟨t1, e1, h⟩ := Option.bind_eq_some_iff.1 h
  obtain ⟨a, b⟩ := key _ _ t t1 (fun k s s' q1 q2 q => by
    rw [lstmW, if_neg (by rw [q1]; simp), if_pos q1] at q
    exact sn j k s s' q1 q2 q) h1 h2 e1
  exact key _ _ t1 t' (fun k s s' q1 q2 q => by
    rw [lstmU, if_neg (by rw [q1]; simp), if_pos q1] at q
    exact sn j k s s' q1 q2 q) a b h

/-- **C42, LSTM scores with Nesterov, refuted.** In edge-popup mode the Nesterov
variant never moves any input score (`w_scores`), whatever the gradients; and when
the input is wider than the output it runs past the end of `u_scores`. -/
theorem C42_lstm_scores_refuted :
    (∀ (B lr m : ℝ) (l l' : Lstm), l.mode = .edgePopup → lstmUpdate B (.nesterov lr m) l = some l' → l'.ws = l.ws) ∧
    ∃ l : Lstm, l.WF ∧ l.mode = .edgePopup ∧ lstmUpdate 1 (.nesterov 1 0) l = none := by
  refine ⟨fun B lr m l l' hm e => lstm_ws_nesterov B lr m l l' hm e, ?_⟩
  refine ⟨⟨.edgePopup, 2, 1, ⟨4, 2, fun _ _ => zeroCell⟩, ⟨4, 2, fun _ _ => 1⟩, ⟨4, 1, fun _ _ => zeroCell⟩, ⟨4, 1, fun _ _ => 1⟩,
    ⟨4, 1, fun _ _ => zeroCell⟩, ⟨4, 1, fun _ _ => 1⟩, ⟨4, 2, fun _ _ => zeroCell⟩, ⟨4, 2, fun _ _ => 1⟩,
    ⟨4, 1, fun _ _ => zeroCell⟩, ⟨4, 1, fun _ _ => 1⟩⟩,
    ⟨⟨rfl, rfl⟩, ⟨rfl, rfl⟩, ⟨rfl, rfl⟩, ⟨rfl, rfl⟩, ⟨rfl, rfl⟩, ⟨rfl, rfl⟩, ⟨rfl, rfl⟩, ⟨rfl, rfl⟩, ⟨rfl, rfl⟩, ⟨rfl, rfl⟩⟩, rfl, ?_⟩
  simp [lstmUpdate, loop, lstmW, lstmScoreW, scoreNesterov, Mat.read, Mat.write]

/-- The optimiser `update_rmodel` uses for the normalisation layers of its LSTM
layers (`/repo/src/update.c` 1152-1161). The RADAM call passes
`beta1_adam, beta2_adam, t` where the callee (838) expects
`t, beta1_adam, beta2_adam`; a float passed as an integer is truncated and the
integer passed as a float is converted. -/
noncomputable def rmodelNorm : Opt → Opt
  | .radam lr b1 b2 bb1 bb2 eps t => .radam lr b2 (t : ℝ) bb1 bb2 eps ⌊b1⌋₊
  | o => o

/-- **C42, recurrent models, partial.** For every optimiser but RAdam the
normalisation parameters make exactly the step of that optimiser. -/
theorem C42_rmodel_norm_partial (B : ℝ) (o : Opt) (ho : ∀ lr b1 b2 bb1 bb2 eps t, o ≠ .radam lr b1 b2 bb1 bb2 eps t) (b : Bn)
    (h : b.WF) : ∃ b', bnUpdate B (rmodelNorm o) b = some b' ∧ BnMoved (normB B o) o 1 b b' := by
  have : rmodelNorm o = o := by
    cases o with
    | radam lr b1 b2 bb1 bb2 eps t => exact absurd rfl (ho _ _ _ _ _ _ _)
    | _ => rfl
  rw [this]
  exact ⟨_, bnUpdate_eq B o b h, bnMoved_iter B o 1 b⟩

/-- **C42, recurrent models with RAdam, refuted.** From the second time step on,
a nonzero gradient makes the second moment of a fresh normalisation parameter
negative: the arguments are passed in the wrong order. -/
theorem C42_rmodel_radam_refuted (B lr b1 b2 bb1 bb2 eps dp : ℝ) (t : Nat) (ht : 2 ≤ t) (hB : B ≠ 0) (hd : dp ≠ 0) (c : Cell)
    (hc : c.d2 = 0) : (stepCell B (rmodelNorm (.radam lr b1 b2 bb1 bb2 eps t)) dp c).d2 < 0 := by
  have e : (stepCell B (rmodelNorm (.radam lr b1 b2 bb1 bb2 eps t)) dp c).d2 = (1 - (t : ℝ)) * (dp / B * (dp / B)) := by
    simp only [rmodelNorm, stepCell, radam, hc]
    split_ifs <;> simp
  rw [e]
  have h1 : (2 : ℝ) ≤ t := by exact_mod_cast ht
  have h2 : 0 < dp / B * (dp / B) := mul_self_pos.2 (div_ne_zero hd hB)
  nlinarith

end LLab.Update
