import Mathlib.Data.List.Basic
import Mathlib.Tactic.Common

/-! Model of the shared list file (`/repo/src/utils.c` 1161-1249) and property
`C09`.  A file is the list of its characters.  A claimed line carries a `;`
before its newline. -/

namespace LLab.Files

/-- The loop of `read_files_from_file` while nothing is claimed yet
(`/repo/src/utils.c` 1170-1188).  `temp` are the characters stored so far in the
buffer of `ps` bytes.  Result: characters written to the new file and the
claimed name.  `none`: the buffer overflows, or the line is empty so that
`temp[count-1]` is `temp[-1]`.  Once a line is claimed the rest is copied. -/
def claimLoop (ps : Nat) : List Char → List Char → Option (List Char × Option (List Char))
  | [], _ => some ([], none)
  | c :: cs, temp =>
    if c ≠ '\n' then
      if temp.length < ps then
        (claimLoop ps cs (temp ++ [c])).map (fun r => (c :: r.1, r.2))
      else none
    else
      match temp.getLast? with
      | none => none
      | some l =>
        if l ≠ ';' then
          if temp.length < ps then some (';' :: '\n' :: cs, some temp) else none
        else (claimLoop ps cs []).map (fun r => ('\n' :: r.1, r.2))

/-- `read_files_from_file(file, package_size)` (`/repo/src/utils.c` 1161-1197):
new contents of the file and the returned name. -/
def claim (ps : Nat) (file : List Char) : Option (List Char × Option (List Char)) :=
  claimLoop ps file []

/-- The loop of `set_files_free_from_file` (`/repo/src/utils.c` 1208-1229), with
its buffer of 1024 bytes.  Names are assumed not to contain NUL, so `strcmp`
is equality. -/
def releaseLoop (target : List Char) : List Char → List Char → Option (List Char)
  | [], _ => some []
  | c :: cs, temp =>
    if c ≠ '\n' ∧ c ≠ ';' then
      if temp.length < 1024 then (releaseLoop target cs (temp ++ [c])).map (c :: ·) else none
    else if c = ';' then
      if temp.length < 1024 then
        if temp ≠ target then (releaseLoop target cs []).map (';' :: ·)
        else releaseLoop target cs []
      else none
    else (releaseLoop target cs []).map ('\n' :: ·)

/-- `set_files_free_from_file(file_to_free, file)` (`/repo/src/utils.c` 1200-1233). -/
def release (target file : List Char) : Option (List Char) := releaseLoop target file []

/-- `remove_occupied_sets(file)` (`/repo/src/utils.c` 1236-1249). -/
def releaseAll (file : List Char) : List Char := file.filter (· ≠ ';')

/-! ### Specification -/

/-- One line: a name and whether it is claimed. -/
abbrev Entry := List Char × Bool

/-- The text of a line. -/
def renderEntry (e : Entry) : List Char := e.1 ++ (if e.2 then [';'] else []) ++ ['\n']

/-- The text of a list file. -/
def render (L : List Entry) : List Char := L.flatMap renderEntry

/-- A usable name: not empty, without the two special characters, and fitting
the buffers together with a terminator. -/
def GoodName (ps : Nat) (n : List Char) : Prop :=
  n ≠ [] ∧ '\n' ∉ n ∧ ';' ∉ n ∧ n.length + 1 ≤ ps ∧ n.length + 1 ≤ 1024

/-- Claiming the first free line. -/
def specClaim : List Entry → List Entry × Option (List Char)
  | [] => ([], none)
  | (n, false) :: L => ((n, true) :: L, some n)
  | (n, true) :: L => ((n, true) :: (specClaim L).1, (specClaim L).2)

/-- Releasing a name. -/
def specRelease (target : List Char) (L : List Entry) : List Entry :=
  L.map (fun e => if e.1 = target then (e.1, false) else e)

/-- Releasing everything. -/
def specReleaseAll (L : List Entry) : List Entry := L.map (fun e => (e.1, false))

/-! ### Lemmas -/

theorem claimLoop_name (ps : Nat) : ∀ (n rest temp : List Char), '\n' ∉ n →
    temp.length + n.length ≤ ps →
    claimLoop ps (n ++ rest) temp =
      (claimLoop ps rest (temp ++ n)).map (fun r => (n ++ r.1, r.2)) := by
  intro n
  induction n with
  | nil => intro rest temp _ _; simp
  | cons c n ih =>
    intro rest temp hn hl
    have hc : c ≠ '\n' := by
      intro e; subst e; simp at hn
    have hn' : '\n' ∉ n := by
      intro h; exact hn (by simp [h])
    simp only [List.length_cons] at hl
    rw [List.cons_append, claimLoop, if_pos hc, if_pos (by omega),
      ih rest (temp ++ [c]) hn' (by simp; omega)]
    simp [Option.map_map, Function.comp_def]

theorem claim_render (ps : Nat) : ∀ L : List Entry, (∀ e ∈ L, GoodName ps e.1) →
    claim ps (render L) = some (render (specClaim L).1, (specClaim L).2) := by
  intro L
  induction L with
  | nil => intro _; rfl
  | cons e L ih =>
    intro hg
    obtain ⟨n, b⟩ := e
    obtain ⟨hne, hnl, hsc, hl, _⟩ := hg (n, b) (by simp)
    simp only at hne hnl hsc hl
    have ih' := ih (fun e he => hg e (by simp [he]))
    have hlast : ∃ l, n.getLast? = some l ∧ l ≠ ';' := by
      refine ⟨n.getLast hne, List.getLast?_eq_some_getLast hne, ?_⟩
      intro e
      exact hsc (e ▸ List.getLast_mem hne)
    obtain ⟨l, hl1, hl2⟩ := hlast
    cases b with
    | false =>
      have : render ((n, false) :: L) = n ++ ('\n' :: render L) := by
        simp [render, renderEntry]
      rw [claim, this, claimLoop_name ps n _ [] hnl (by simp; omega)]
      simp only [List.nil_append, claimLoop, ne_eq, not_true_eq_false, if_false, hl1, hl2,
        not_false_eq_true, if_true]
      rw [if_pos (by omega)]
      simp [specClaim, render, renderEntry]
    | true =>
      have : render ((n, true) :: L) = (n ++ [';']) ++ ('\n' :: render L) := by
        simp [render, renderEntry]
      rw [claim, this, claimLoop_name ps (n ++ [';']) _ [] (by simp [hnl]) (by simp; omega)]
      simp only [List.nil_append, claimLoop, ne_eq, not_true_eq_false, if_false,
        List.getLast?_concat]
      rw [claim] at ih'
      rw [ih']
      simp [specClaim, render, renderEntry]

theorem releaseLoop_name (target : List Char) : ∀ (n rest temp : List Char), '\n' ∉ n → ';' ∉ n →
    temp.length + n.length ≤ 1024 →
    releaseLoop target (n ++ rest) temp =
      (releaseLoop target rest (temp ++ n)).map (n ++ ·) := by
  intro n
  induction n with
  | nil => intro rest temp _ _ _; simp
  | cons c n ih =>
    intro rest temp hn hs hl
    have hc : c ≠ '\n' ∧ c ≠ ';' := by
      refine ⟨?_, ?_⟩
      · intro e; subst e; simp at hn
      · intro e; subst e; simp at hs
    simp only [List.length_cons] at hl
    rw [List.cons_append, releaseLoop, if_pos hc, if_pos (by omega),
      ih rest (temp ++ [c]) (fun h => hn (by simp [h])) (fun h => hs (by simp [h])) (by simp; omega)]
    simp [Option.map_map, Function.comp_def]

theorem release_render (ps : Nat) (target : List Char) : ∀ L : List Entry,
    (∀ e ∈ L, GoodName ps e.1) → release target (render L) = some (render (specRelease target L)) := by
  intro L
  induction L with
  | nil => intro _; rfl
  | cons e L ih =>
    intro hg
    obtain ⟨n, b⟩ := e
    obtain ⟨hne, hnl, hsc, _, hl⟩ := hg (n, b) (by simp)
    simp only at hne hnl hsc hl
    have ih' := ih (fun e he => hg e (by simp [he]))
    rw [release] at ih'
    have hnl' : ('\n' : Char) ≠ ';' := by decide
    cases b with
    | false =>
      have : render ((n, false) :: L) = n ++ ('\n' :: render L) := by
        simp [render, renderEntry]
      rw [release, this, releaseLoop_name target n _ [] hnl hsc (by simp; omega)]
      simp only [List.nil_append, releaseLoop, ne_eq, not_true_eq_false, false_and, if_false, hnl', ih']
      simp [specRelease, render, renderEntry]
    | true =>
      have : render ((n, true) :: L) = n ++ (';' :: '\n' :: render L) := by
        simp [render, renderEntry]
      rw [release, this, releaseLoop_name target n _ [] hnl hsc (by simp; omega)]
      simp only [List.nil_append, releaseLoop, ne_eq, not_true_eq_false, false_and, and_false,
        if_false, if_true, hnl', ih']
      rw [if_pos (by omega)]
      by_cases ht : n = target
      · simp [specRelease, render, renderEntry, ht]
      · simp [specRelease, render, renderEntry, ht]

theorem releaseAll_render (ps : Nat) : ∀ L : List Entry,
    (∀ e ∈ L, GoodName ps e.1) → releaseAll (render L) = render (specReleaseAll L) := by
  intro L
  induction L with
  | nil => intro _; rfl
  | cons e L ih =>
    intro hg
    obtain ⟨n, b⟩ := e
    obtain ⟨hne, hnl, hsc, _, hl⟩ := hg (n, b) (by simp)
    simp only at hsc
    have ih' := ih (fun e he => hg e (by simp [he]))
    have hf : n.filter (· ≠ ';') = n := by
      rw [List.filter_eq_self]
      intro a ha
      simp only [ne_eq, decide_eq_true_eq]
      intro e; subst e; exact hsc ha
    have hcons : ∀ b, render ((n, b) :: L) = renderEntry (n, b) ++ render L := by
      intro b; simp [render]
    have hR : render (specReleaseAll ((n, b) :: L)) = n ++ ['\n'] ++ render (specReleaseAll L) := by
      simp [specReleaseAll, render, renderEntry]
    rw [hR, ← ih', hcons, releaseAll, List.filter_append]
    congr 1
    cases b <;> simp [renderEntry] <;> simpa using hf

theorem specClaim_names (L : List Entry) : (specClaim L).1.map Prod.fst = L.map Prod.fst := by
  induction L with
  | nil => rfl
  | cons e L ih =>
    obtain ⟨n, b⟩ := e
    cases b <;> simp [specClaim, ih]

theorem specRelease_names (t : List Char) (L : List Entry) :
    (specRelease t L).map Prod.fst = L.map Prod.fst := by
  simp only [specRelease, List.map_map]
  apply List.map_congr_left
  intro e _
  simp only [Function.comp]
  split <;> rfl

theorem specReleaseAll_names (L : List Entry) :
    (specReleaseAll L).map Prod.fst = L.map Prod.fst := by
  simp [specReleaseAll]

/-! ### Histories -/

/-- A call made by some worker. -/
inductive Op where
  | claim
  | release (name : List Char)
  | releaseAll

/-- One call on the file contents: new contents and the name returned (for a
claim). -/
def step (ps : Nat) (file : List Char) : Op → Option (List Char × Option (List Char))
  | .claim => claim ps file
  | .release n => (release n file).map (fun f => (f, none))
  | .releaseAll => some (releaseAll file, none)

/-- A history of calls: final contents and the answers in order. -/
def run (ps : Nat) : List Op → List Char → Option (List Char × List (Option (List Char)))
  | [], file => some (file, [])
  | o :: os, file =>
    match step ps file o with
    | none => none
    | some (file', r) => (run ps os file').map (fun q => (q.1, r :: q.2))

/-- The specified effect of one call. -/
def specStep (L : List Entry) : Op → List Entry × Option (List Char)
  | .claim => specClaim L
  | .release n => (specRelease n L, none)
  | .releaseAll => (specReleaseAll L, none)

theorem specStep_names (L : List Entry) (o : Op) :
    (specStep L o).1.map Prod.fst = L.map Prod.fst := by
  cases o with
  | claim => exact specClaim_names L
  | release n => exact specRelease_names n L
  | releaseAll => exact specReleaseAll_names L

theorem good_of_names {ps : Nat} {L L' : List Entry} (h : L'.map Prod.fst = L.map Prod.fst)
    (hg : ∀ e ∈ L, GoodName ps e.1) : ∀ e ∈ L', GoodName ps e.1 := by
  intro e he
  have : e.1 ∈ L.map Prod.fst := h ▸ List.mem_map_of_mem he
  obtain ⟨e', he', ee⟩ := List.mem_map.1 this
  exact ee ▸ hg e' he'

theorem step_render {ps : Nat} {L : List Entry} (hg : ∀ e ∈ L, GoodName ps e.1) (o : Op) :
    step ps (render L) o = some (render (specStep L o).1, (specStep L o).2) := by
  cases o with
  | claim => exact claim_render ps L hg
  | release n => simp [step, specStep, release_render ps n L hg]
  | releaseAll => simp [step, specStep, releaseAll_render ps L hg]

/-- Names claimed in a specification state. -/
def Claimed (L : List Entry) (n : List Char) : Prop := ∀ b, (n, b) ∈ L → b = true

theorem specClaim_result {L : List Entry} {n : List Char} (h : (specClaim L).2 = some n) :
    (n, false) ∈ L := by
  induction L with
  | nil => simp [specClaim] at h
  | cons e L ih =>
    obtain ⟨m, b⟩ := e
    cases b with
    | false => simp [specClaim] at h; subst h; simp
    | true => simp only [specClaim] at h; exact List.mem_cons_of_mem _ (ih h)

theorem specClaim_claimed {L : List Entry} {n : List Char} (hd : (L.map Prod.fst).Nodup)
    (h : (specClaim L).2 = some n) : Claimed (specClaim L).1 n := by
  induction L with
  | nil => simp [specClaim] at h
  | cons e L ih =>
    obtain ⟨m, b⟩ := e
    simp only [List.map_cons, List.nodup_cons] at hd
    cases b with
    | false =>
      simp only [specClaim, Option.some.injEq] at h
      subst h
      intro b hb
      simp only [specClaim, List.mem_cons] at hb
      rcases hb with hb | hb
      · cases hb; rfl
      · exact absurd (List.mem_map_of_mem (f := Prod.fst) hb) hd.1
    | true =>
      simp only [specClaim] at h
      intro b hb
      simp only [specClaim, List.mem_cons] at hb
      rcases hb with hb | hb
      · cases hb; rfl
      · exact ih hd.2 h b hb

theorem specStep_claimed {L : List Entry} {n : List Char} (o : Op) (hc : Claimed L n)
    (ho : o ≠ .release n) (ho2 : o ≠ .releaseAll) : Claimed (specStep L o).1 n := by
  cases o with
  | releaseAll => exact absurd rfl ho2
  | release m =>
    intro b hb
    simp only [specStep, specRelease, List.mem_map] at hb
    obtain ⟨e, he, hb⟩ := hb
    by_cases hm : e.1 = m
    · rw [if_pos hm] at hb
      have e1 : e.1 = n := congrArg Prod.fst hb
      exact absurd (by rw [← hm, e1]) ho
    · rw [if_neg hm] at hb
      subst hb
      exact hc b he
  | claim =>
    simp only [specStep]
    clear ho ho2
    induction L with
    | nil => exact hc
    | cons e L ih =>
      obtain ⟨m, b⟩ := e
      cases b with
      | false =>
        intro b hb
        simp only [specClaim, List.mem_cons] at hb
        rcases hb with hb | hb
        · cases hb; rfl
        · exact hc b (List.mem_cons_of_mem _ hb)
      | true =>
        intro b hb
        simp only [specClaim, List.mem_cons] at hb
        rcases hb with hb | hb
        · cases hb; rfl
        · exact ih (fun b hb => hc b (List.mem_cons_of_mem _ hb)) b hb

/-! ### Properties -/

/-- **C09, effect of one call.** On the text of a well-formed list file, a claim
marks exactly the first free line and returns its name (or reports that there is
none and changes nothing), a release clears the marks of exactly that name, and
the reset clears all marks. -/
theorem C09_effect (ps : Nat) (L : List Entry) (hg : ∀ e ∈ L, GoodName ps e.1) :
    claim ps (render L) = some (render (specClaim L).1, (specClaim L).2) ∧
    (∀ n, release n (render L) = some (render (specRelease n L))) ∧
    releaseAll (render L) = render (specReleaseAll L) :=
  ⟨claim_render ps L hg, fun n => release_render ps n L hg, releaseAll_render ps L hg⟩

/-- **C09, histories are defined.** Every history of calls on a well-formed list
file runs without undefined behaviour and ends in a list file with the same
names in the same order. -/
theorem C09_history (ps : Nat) (ops : List Op) : ∀ (L : List Entry), (∀ e ∈ L, GoodName ps e.1) →
    ∃ L' rs, run ps ops (render L) = some (render L', rs) ∧
      L'.map Prod.fst = L.map Prod.fst ∧ rs.length = ops.length := by
  induction ops with
  | nil => intro L _; exact ⟨L, [], rfl, rfl, rfl⟩
  | cons o ops ih =>
    intro L hg
    obtain ⟨L', rs, e, hn, hl⟩ := ih (specStep L o).1 (good_of_names (specStep_names L o) hg)
    refine ⟨L', (specStep L o).2 :: rs, ?_, hn.trans (specStep_names L o), by simp [hl]⟩
    simp [run, step_render hg o, e]

/-- **C09, mutual exclusion.** If a claim returns `n` on a well-formed list file
with distinct names, then after any further calls by any workers, none of which
releases `n` or resets the file, no claim returns `n`. -/
theorem C09_exclusive (ps : Nat) (L : List Entry) (hg : ∀ e ∈ L, GoodName ps e.1)
    (hd : (L.map Prod.fst).Nodup) (n : List Char) (ops : List Op)
    (hops : ∀ o ∈ ops, o ≠ .release n ∧ o ≠ .releaseAll) (file1 : List Char)
    (h1 : claim ps (render L) = some (file1, some n))
    (file2 : List Char) (rs : List (Option (List Char))) (h2 : run ps ops file1 = some (file2, rs)) :
    (∀ r ∈ rs, r ≠ some n) ∧ ∀ file3 r, claim ps file2 = some (file3, r) → r ≠ some n := by
  rw [claim_render ps L hg, Option.some.injEq, Prod.mk.injEq] at h1
  obtain ⟨rfl, hr⟩ := h1
  have hc := specClaim_claimed hd hr
  have hg1 := good_of_names (specClaim_names L) hg
  generalize (specClaim L).1 = M at hc hg1 h2
  clear hr hd hg L
  induction ops generalizing M rs with
  | nil =>
    simp only [run, Option.some.injEq, Prod.mk.injEq] at h2
    obtain ⟨rfl, rfl⟩ := h2
    refine ⟨by simp, ?_⟩
    intro file3 r h hrn
    rw [claim_render ps M hg1] at h
    simp only [Option.some.injEq, Prod.mk.injEq] at h
    have := hc false (specClaim_result (h.2.trans hrn))
    simp at this
  | cons o ops ih =>
    have ho := hops o (by simp)
    have hstep := step_render hg1 o
    simp only [run, hstep] at h2
    obtain ⟨⟨f, rs'⟩, e, h2'⟩ := Option.map_eq_some_iff.1 h2
    simp only [Prod.mk.injEq] at h2'
    obtain ⟨rfl, rfl⟩ := h2'
    obtain ⟨i1, i2⟩ := ih (fun o ho => hops o (by simp [ho])) rs' _
      (specStep_claimed o hc ho.1 ho.2) (good_of_names (specStep_names M o) hg1) e
    refine ⟨?_, i2⟩
    intro r hr
    rw [List.mem_cons] at hr
    rcases hr with hr | hr
    · subst hr
      intro hn
      cases o with
      | claim =>
        have := hc false (specClaim_result hn)
        simp at this
      | release m => simp [specStep] at hn
      | releaseAll => simp [specStep] at hn
    · exact i1 r hr

/-- **C09, release restores.** Releasing a name that was just claimed gives back
the file as it was before the claim. -/
theorem C09_release_restores (ps : Nat) (L : List Entry) (hg : ∀ e ∈ L, GoodName ps e.1)
    (hd : (L.map Prod.fst).Nodup) (n : List Char) (file1 : List Char)
    (h1 : claim ps (render L) = some (file1, some n)) : release n file1 = some (render L) := by
  rw [claim_render ps L hg, Option.some.injEq, Prod.mk.injEq] at h1
  obtain ⟨rfl, hr⟩ := h1
  rw [release_render ps n _ (good_of_names (specClaim_names L) hg)]
  congr 2
  clear hg
  induction L with
  | nil => rfl
  | cons e L ih =>
    obtain ⟨m, b⟩ := e
    simp only [List.map_cons, List.nodup_cons] at hd
    cases b with
    | false =>
      simp only [specClaim, Option.some.injEq] at hr
      subst hr
      simp only [specClaim, specRelease, List.map_cons, if_true, List.cons.injEq, true_and]
      conv_rhs => rw [← List.map_id L]
      apply List.map_congr_left
      intro e he
      rw [if_neg]
      · rfl
      · intro h
        exact hd.1 (h ▸ List.mem_map_of_mem he)
    | true =>
      simp only [specClaim] at hr
      have hmem := specClaim_result hr
      have hne : m ≠ n := by
        intro h
        subst h
        exact hd.1 (List.mem_map_of_mem (f := Prod.fst) hmem)
      simp only [specClaim, specRelease, List.map_cons, if_neg hne, List.cons.injEq, true_and]
      exact ih hd.2 hr

/-- Non-vacuity: three files, two successive claims get different names. -/
example : ∃ f1 f2, claim 256 (render [(['a'], true), (['b', '1'], false), (['c'], false)]) =
      some (f1, some ['b', '1']) ∧ claim 256 f1 = some (f2, some ['c']) ∧
      (∀ e ∈ [((['a'] : List Char), true), (['b', '1'], false), (['c'], false)], GoodName 256 e.1) := by
  refine ⟨_, _, rfl, rfl, ?_⟩
  simp [GoodName]

/-- Edge of the claim: an empty first line makes the code read `temp[-1]`. -/
example : claim 256 ['\n', 'a', '\n'] = none := rfl

end LLab.Files
