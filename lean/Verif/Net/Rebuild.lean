import Verif.Net.Network

/-!
Building a model again from its own layers, as `load_model` does
(`/repo/src/model.c` 1057-1140). Property C82.
-/

namespace LLab.Network

/-- The exchange sort leaves a sorted array alone. -/
theorem exch_sorted {γ : Type} (key : γ → Nat) (l : List γ) (h : l.Pairwise fun a b => key a ≤ key b) :
    exch key l = some l := by
  obtain ⟨l', e, h1⟩ := loop_inv (n := l.length) (s := l)
    (f := fun i l' => loopFrom (i + 1) l.length (fun j l' => exchStep key i j l') l') (fun _ s => s = l) rfl (by
      rintro i hi s rfl
      refine loop_inv (n := s.length - (i + 1)) (s := s) (f := fun j l' => exchStep key i (i + 1 + j) l')
        (fun _ t => t = s) rfl ?_
      rintro j hj t rfl
      have h1 : i + 1 + j < t.length := by omega
      have := List.pairwise_iff_getElem.1 h i (i + 1 + j) hi h1 (by omega)
      refine ⟨t, ?_, rfl⟩
      unfold exchStep
      rw [List.getElem?_eq_getElem hi, List.getElem?_eq_getElem h1, Option.bind_some, Option.bind_some,
        if_neg (by omega)])
  rw [h1] at e
  exact e

theorem mapM_exch {rls rls1 : List Rl}
    (h : (rls.mapM fun r => (exch Layer.layer r.cls).bind fun c => some { r with cls := c }) = some rls1) :
    ∀ r ∈ rls1, r.cls.Pairwise fun a b => a.layer ≤ b.layer := by
  induction rls generalizing rls1 with
  | nil => cases h; simp
  | cons r l ih =>
    obtain ⟨c, e, -, hs⟩ := exch_spec Layer.layer r.cls
    rw [List.mapM_cons, e] at h
    cases hl : (l.mapM fun r => (exch Layer.layer r.cls).bind fun c => some { r with cls := c }) with
    | none => rw [hl] at h; simp at h
    | some r1 =>
      rw [hl] at h
      cases h
      intro s hs'
      rcases List.mem_cons.mp hs' with rfl | hs'
      · exact hs
      · exact ih hl s hs'

/-- **C82, building again (partial: the sizes are checked again).** A model's own layers
are accepted again, provided the stored last layer of every residual layer has the size
of its input, and give the same model. -/
theorem C82_rebuild_partial (layers : Nat) (rls : List Rl) (cls fcls : List Layer) (m : Model)
    (hm : network layers rls cls fcls = some (.ok m))
    (hsz : ∀ r ∈ m.rls, ∃ c, r.cls.getLast? = some c ∧ c.size = r.size) :
    network layers m.rls m.cls m.fcls = some (.ok m) := by
  have key : ∀ rls cls fcls, ¬(layers = 0 ∨ (rls = [] ∧ cls = [] ∧ fcls = [])) →
      rls = m.rls → cls = m.cls → fcls = m.fcls →
      (∀ r ∈ rls, r.cls.Pairwise fun a b => a.layer ≤ b.layer) → (rls.Pairwise fun a b => a.first ≤ b.first) →
      (cls.Pairwise fun a b => a.layer ≤ b.layer) → (fcls.Pairwise fun a b => a.layer ≤ b.layer) →
      network layers rls cls fcls = if overlaps rls then some .exit else
        (seqCheck layers (ids rls cls fcls) layers 0).bind fun b =>
          if !b then some .exit
          else if dups (rls.flatMap fun r => r.cls.map Layer.layer) (cls.map Layer.layer) (fcls.map Layer.layer) then
            some .exit
          else (output layers rls cls fcls).bind fun o => some (.ok ⟨rls, cls, fcls, o⟩) := by
    intro rls cls fcls h0 e1 e2 e3 s1 s2 s3 s4
    have a1 : rls.mapM sizeOk = some (rls.map fun _ => true) := by
      refine mapM_some_iff _ _ _ fun r hr => ?_
      obtain ⟨c, k1, k2⟩ := hsz r (e1 ▸ hr)
      unfold sizeOk
      rw [k1, Option.map_some, decide_eq_true k2]
    have a2 : (rls.mapM fun r => (exch Layer.layer r.cls).bind fun c => some { r with cls := c }) = some rls := by
      rw [mapM_some_iff _ (fun r => r) rls, List.map_id']
      intro r hr
      rw [exch_sorted _ _ (s1 r hr)]
      rfl
    unfold network
    rw [if_neg h0, a1, Option.bind_some, if_neg (by simp), a2, Option.bind_some, exch_sorted _ _ s2, Option.bind_some,
      exch_sorted _ _ s3, Option.bind_some, exch_sorted _ _ s4, Option.bind_some]
  unfold network at hm
  by_cases h0 : layers = 0 ∨ (rls = [] ∧ cls = [] ∧ fcls = [])
  · rw [if_pos h0] at hm
    simp at hm
  rw [if_neg h0] at hm
  cases b1 : rls.mapM sizeOk with
  | none => rw [b1] at hm; simp at hm
  | some oks =>
  rw [b1, Option.bind_some] at hm
  by_cases ha : (oks.any fun b => !b) = true
  · rw [if_pos ha] at hm
    simp at hm
  rw [if_neg ha] at hm
  cases b2 : (rls.mapM fun r => (exch Layer.layer r.cls).bind fun c => some { r with cls := c }) with
  | none => rw [b2] at hm; simp at hm
  | some rls1 =>
  rw [b2, Option.bind_some] at hm
  obtain ⟨rls2, b3, p3, s3⟩ := exch_spec Rl.first rls1
  rw [b3, Option.bind_some] at hm
  obtain ⟨cls1, b4, p4, s4⟩ := exch_spec Layer.layer cls
  rw [b4, Option.bind_some] at hm
  obtain ⟨fcls1, b5, p5, s5⟩ := exch_spec Layer.layer fcls
  rw [b5, Option.bind_some] at hm
  have hlen : rls1.length = rls.length := by
    obtain ⟨r, e, hf⟩ := mapM_rel (fun r : Rl => (exch Layer.layer r.cls).bind fun c => some { r with cls := c })
      (fun _ _ => True) rls (fun r _ => by
        obtain ⟨c, e, -⟩ := exch_spec Layer.layer r.cls
        exact ⟨{ r with cls := c }, by rw [e]; rfl, trivial⟩)
    rw [b2] at e
    cases e
    exact hf.length_eq.symm
  have h0' : ¬(layers = 0 ∨ (rls2 = [] ∧ cls1 = [] ∧ fcls1 = [])) := by
    rintro (h | ⟨h1, h2, h3⟩)
    · exact h0 (Or.inl h)
    · refine h0 (Or.inr ⟨?_, ?_, ?_⟩) <;> apply List.length_eq_zero_iff.mp
      · rw [← hlen, ← p3.length_eq, h1]; rfl
      · rw [← p4.length_eq, h2]; rfl
      · rw [← p5.length_eq, h3]; rfl
  have hm' := hm
  split at hm'
  · simp at hm'
  cases b6 : seqCheck layers (ids rls2 cls1 fcls1) layers 0 with
  | none => rw [b6] at hm'; simp at hm'
  | some b =>
  rw [b6, Option.bind_some] at hm'
  split at hm'
  · simp at hm'
  split at hm'
  · simp at hm'
  cases b7 : output layers rls2 cls1 fcls1 with
  | none => rw [b7] at hm'; simp at hm'
  | some o =>
  rw [b7, Option.bind_some] at hm'
  have hmm : (⟨rls2, cls1, fcls1, o⟩ : Model) = m := by
    cases hm'; rfl
  have e1 : rls2 = m.rls := by rw [← hmm]
  have e2 : cls1 = m.cls := by rw [← hmm]
  have e3 : fcls1 = m.fcls := by rw [← hmm]
  have k := key rls2 cls1 fcls1 h0' e1 e2 e3 (fun r hr => mapM_exch b2 r (p3.mem_iff.mp hr)) s3 s4 s5
  rw [hm, e1, e2, e3] at k
  exact k

/-- A model whose residual layer was given in increasing order is rebuilt. -/
example : ∃ m, network 4 [⟨[⟨1, 5, 0⟩, ⟨2, 5, 1⟩], 5, 9⟩] [⟨0, 5, 2⟩] [⟨3, 4, 3⟩] = some (.ok m) ∧
    (∀ r ∈ m.rls, ∃ c, r.cls.getLast? = some c ∧ c.size = r.size) ∧
    network 4 m.rls m.cls m.fcls = some (.ok m) :=
  ⟨⟨[⟨[⟨1, 5, 0⟩, ⟨2, 5, 1⟩], 5, 9⟩], [⟨0, 5, 2⟩], [⟨3, 4, 3⟩], .fcl ⟨3, 4, 3⟩⟩, by decide, by simp, by decide⟩

/-- **C82, building again, refuted in general.** The layers of a residual layer are
sorted after the size of the last listed one has been checked: a model built from layers
listed in another order is not accepted when built again from its own layers. -/
theorem C82_rebuild_refuted : ∃ layers rls cls fcls m, network layers rls cls fcls = some (.ok m) ∧
    network layers m.rls m.cls m.fcls = some .exit :=
  ⟨2, [⟨[⟨1, 4, 0⟩, ⟨0, 5, 1⟩], 5, 9⟩], [], [], ⟨[⟨[⟨0, 5, 1⟩, ⟨1, 4, 0⟩], 5, 9⟩], [], [], .rl ⟨[⟨0, 5, 1⟩, ⟨1, 4, 0⟩], 5, 9⟩⟩,
    by decide, by decide⟩

end LLab.Network
