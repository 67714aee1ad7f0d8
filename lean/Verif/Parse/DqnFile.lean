import Verif.Parse.ModelFile

/-!
The parser of the description of a dueling categorical network (`/repo/src/parser.c`
1423-1621, `parse_dueling_categorical_dqn_file`; the other five functions are copies).
Property C133.
-/

namespace LLab.Parse

variable {α : Type}

/-- Why a run stops: undefined behaviour, or the error exit of the parser. -/
inductive Fault where
  | ub
  | error
  deriving DecidableEq

/-- `"shared_hidden_layers"`. -/
def secShared : List Char := ['s', 'h', 'a', 'r', 'e', 'd', '_', 'h', 'i', 'd', 'd', 'e', 'n', '_', 'l', 'a', 'y', 'e', 'r', 's']

/-- `"v_hidden_layers"`. -/
def secV : List Char := ['v', '_', 'h', 'i', 'd', 'd', 'e', 'n', '_', 'l', 'a', 'y', 'e', 'r', 's']

/-- `"v_linear_last_layer"`. -/
def secVV : List Char := ['v', '_', 'l', 'i', 'n', 'e', 'a', 'r', '_', 'l', 'a', 's', 't', '_', 'l', 'a', 'y', 'e', 'r']

/-- `"a_hidden_layers"`. -/
def secA : List Char := ['a', '_', 'h', 'i', 'd', 'd', 'e', 'n', '_', 'l', 'a', 'y', 'e', 'r', 's']

/-- `"a_linear_last_layer"`. -/
def secAA : List Char := ['a', '_', 'l', 'i', 'n', 'e', 'a', 'r', '_', 'l', 'a', 's', 't', '_', 'l', 'a', 'y', 'e', 'r']

/-- The names of the sections, in the order in which they are looked for. -/
def secNames : List (List Char) := [secShared, secV, secVV, secA, secAA]

/-- `!memcmp(name,temp,strlen(name))`. -/
def matchName (b : Buf) (name : List Char) : Bool := decide (∀ k, k < name.length → b k = name[k]?)

/-- The variables of the two loops: `temp`, `counter`, `lines`, how many of the flags `shar`, `v_hid`,
`v_lin`, `a_hid`, `a_lin` are set (each is only looked for when those before it are), and the
indices and lengths of the sections (`/repo/src/parser.c` 1439-1441). -/
structure Dq where
  buf : Buf
  cnt : Nat
  lines : Nat
  stage : Nat
  idx : List Nat
  lens : List Nat

/-- The variables at the start of a loop. The buffer keeps its characters between the loops,
which nothing depends on. -/
def Dq.init : Dq := ⟨fun _ => none, 0, 0, 0, [], []⟩

/-- A character that is no separator. -/
def Dq.char (c : Char) (s : Dq) : Except Fault Dq :=
  match s.buf.put s.cnt c with
  | none => .error .ub
  | some b => .ok { s with buf := b, cnt := s.cnt + 1 }

/-- The name of a section was found at `i` (`/repo/src/parser.c` 1538-1539, 1549-1551, 1561-1563,
1573-1575, 1586-1589). -/
def Dq.found (n i : Nat) (s : Dq) : Dq :=
  { s with
    stage := s.stage + 1
    idx := s.idx ++ [i + 2]
    lens := s.lens ++ (if s.stage = 0 then [] else [i - (secNames.getD s.stage []).length - s.idx.getLastD 0]) ++
      (if s.stage = 4 then [n - (i + 2)] else []) }

/-- The character `;` at `i`, followed by `next`, in a file of `n` characters
(`/repo/src/parser.c` 1447-1502, 1528-1601). -/
def Dq.semi (n i : Nat) (next : Option Char) (s : Dq) : Except Fault Dq :=
  match s.buf.put s.cnt '\x00' with
  | none => .error .ub
  | some b =>
    if s.stage = 0 then
      if n ≤ i + 2 ∨ s.lines ≠ 0 ∨ next ≠ some '\n' ∨ matchName b secShared = false then .error .error
      else .ok { (s.found n i) with buf := b, cnt := 0, lines := s.lines + 1 }
    else if s.stage < 5 then
      if n ≤ i + 2 ∨ next ≠ some '\n' ∨ matchName b (secNames.getD s.stage []) = false then
        .ok { s with buf := b, cnt := 0, lines := s.lines + 1 }
      else .ok { (s.found n i) with buf := b, cnt := 0, lines := s.lines + 1 }
    else if secNames.any (matchName b) then .error .error
    else .ok { s with buf := b, cnt := 0, lines := s.lines + 1 }

/-- The two loops over the file: the first (`stop = false`, `/repo/src/parser.c` 1442-1507) goes
to the end, the second (`stop = true`, 1516-1608) leaves at the last name. -/
def Dq.scan (stop : Bool) (n : Nat) : List Char → Nat → Dq → Except Fault Dq
  | [], _, s => .ok s
  | c :: rest, i, s =>
    if c ≠ ';' ∧ c ≠ '\n' then (s.char c).bind (Dq.scan stop n rest (i + 1))
    else if c = ';' then (s.semi n i rest.head?).bind fun s' =>
      if stop ∧ s'.stage = 5 then .ok s' else Dq.scan stop n rest (i + 1) s'
    else Dq.scan stop n rest (i + 1) { s with cnt := 0, lines := s.lines + 1 }

/-- The texts handed to `parse_model_str` (`/repo/src/parser.c` 1509-1615). -/
def splitDqn (file : List Char) : Except Fault (List (List Char)) :=
  (Dq.scan false file.length file 0 Dq.init).bind fun s =>
    if s.stage ≠ 5 then .error .error
    else (Dq.scan true file.length file 0 Dq.init).bind fun s =>
      .ok ((s.idx.zip s.lens).map fun p => (file.drop p.1).take p.2)

/-- The arguments of `dueling_categorical_dqn_init`: the number of actions, the number of
positions, and the five models in the order of the file. -/
structure DqnArgs (α : Type) where
  actions : Nat
  positions : Nat
  models : List (Net α)

/-- The last lines (`/repo/src/parser.c` 1611-1620) with `out` the number of outputs of a
model. -/
def finishDqn (out : Net α → Nat) (ms : List (Net α)) : Except Fault (DqnArgs α) :=
  match ms with
  | [sh, v, vv, a, aa] =>
    if out vv = 0 then .error .ub
    else if out aa % out vv ≠ 0 then .error .error
    else .ok ⟨out aa / out vv, out vv, [sh, v, vv, a, aa]⟩
  | _ => .error .ub

/-- The models are parsed one after the other. -/
def parseAll (atof : List Char → α) (toInt : α → Int) : List (List Char) → Except Fault (List (Net α))
  | [] => .ok []
  | t :: ts => match parseModel atof toInt t with
    | none => .error .ub
    | some m => (parseAll atof toInt ts).bind fun ms => .ok (m :: ms)

/-- `parse_dueling_categorical_dqn_file` (`/repo/src/parser.c` 1423-1623), after reading the
file. -/
def parseDqn (atof : List Char → α) (toInt : α → Int) (out : Net α → Nat) (file : List Char) : Except Fault (DqnArgs α) :=
  (splitDqn file).bind fun secs => (parseAll atof toInt secs).bind (finishDqn out)

/-! ### Specification -/

/-- The text of a section: lines of fields followed by `;`. -/
def secText (lines : List (List (List Char))) : List Char :=
  lines.flatMap fun l => (l.flatMap fun t => t ++ [';']) ++ ['\n']

/-- The lines of a section: the fields are short and do not start with the name of a section. -/
def Clean (lines : List (List (List Char))) : Prop :=
  ∀ l ∈ lines, ∀ t ∈ l, Field t ∧ ∀ name ∈ secNames, ¬ name <+: t

/-- A description with its five sections. -/
def dqnFile (sh v vv a aa : List Char) : List Char :=
  secShared ++ [';', '\n'] ++ sh ++ (secV ++ [';', '\n'] ++ v ++ (secVV ++ [';', '\n'] ++ vv ++
    (secA ++ [';', '\n'] ++ a ++ (secAA ++ [';', '\n'] ++ aa))))

/-! ### Proofs -/

theorem written (b : Buf) (t : List Char) (ht : Field t) :
    ∃ b' b2, b.puts 0 t = some b' ∧ b'.put t.length '\x00' = some b2 ∧ (∀ j, j < t.length → b2 j = t[j]?) ∧
      b2 t.length = some '\x00' := by
  have hs := ht.short
  obtain ⟨b', h1, -, h3, -⟩ := puts_some b 0 t (by omega)
  refine ⟨b', _, h1, put_some b' t.length '\x00' (by omega), fun j hj => ?_, Function.update_self _ _ _⟩
  rw [Function.update_of_ne (by omega), ← h3 j hj, Nat.zero_add]

theorem match_iff (b : Buf) (t name : List Char) (h1 : ∀ j, j < t.length → b j = t[j]?) (h2 : b t.length = some '\x00')
    (hn : '\x00' ∉ name) : matchName b name = true ↔ name <+: t := by
  unfold matchName
  rw [decide_eq_true_iff, List.prefix_iff_getElem?]
  constructor
  · intro h k hk
    have hkt : k < t.length := by
      by_contra hge
      have := h t.length (by omega)
      rw [h2] at this
      exact hn (List.mem_of_getElem? this.symm)
    have := h k hk
    rw [h1 k hkt, List.getElem?_eq_getElem hk] at this
    exact this
  · intro h k hk
    have := h k hk
    have hkt : k < t.length := by
      by_contra hge
      rw [List.getElem?_eq_none (by omega)] at this
      cases this
    rw [h1 k hkt, this, List.getElem?_eq_getElem hk]

theorem names_clean : ∀ name ∈ secNames, '\x00' ∉ name := by decide

theorem names_field : ∀ name ∈ secNames, Field name := by
  intro name h
  simp only [secNames, List.mem_cons, List.not_mem_nil, or_false] at h
  rcases h with rfl | rfl | rfl | rfl | rfl <;> exact ⟨by decide, by decide, by decide, by decide⟩

theorem scan_chars (stop : Bool) (n : Nat) (t rest : List Char) (hs : ';' ∉ t) (hl : '\n' ∉ t) (i : Nat) (s : Dq) (b : Buf)
    (hb : s.buf.puts s.cnt t = some b) :
    Dq.scan stop n (t ++ rest) i s = Dq.scan stop n rest (i + t.length) { s with buf := b, cnt := s.cnt + t.length } := by
  induction t generalizing i s with
  | nil =>
    cases hb
    rfl
  | cons c t ih =>
    obtain ⟨b1, h1, h2⟩ := Option.bind_eq_some_iff.1 (show (s.buf.put s.cnt c).bind _ = some b from hb)
    have hc1 : c ≠ ';' := fun e => hs (by rw [e]; exact List.mem_cons_self)
    have hc2 : c ≠ '\n' := fun e => hl (by rw [e]; exact List.mem_cons_self)
    show Dq.scan stop n (c :: (t ++ rest)) i s = _
    rw [Dq.scan.eq_2, if_pos ⟨hc1, hc2⟩]
    unfold Dq.char
    rw [h1]
    show Dq.scan stop n (t ++ rest) (i + 1) { s with buf := b1, cnt := s.cnt + 1 } = _
    rw [ih (fun h => hs (List.mem_cons_of_mem c h)) (fun h => hl (List.mem_cons_of_mem c h)) (i + 1) _ h2, List.length_cons]
    have e1 : i + 1 + t.length = i + (t.length + 1) := by omega
    have e2 : s.cnt + 1 + t.length = s.cnt + (t.length + 1) := by omega
    dsimp only
    rw [e1, e2]

/-- A token and its separator. -/
theorem scan_token (stop : Bool) (n : Nat) (t rest : List Char) (ht : Field t) (i : Nat) (s : Dq) (h0 : s.cnt = 0) :
    ∃ b b2, b.put t.length '\x00' = some b2 ∧ (∀ name ∈ secNames, (matchName b2 name = true ↔ name <+: t)) ∧
      Dq.scan stop n (t ++ ';' :: rest) i s = (Dq.semi n (i + t.length) rest.head? { s with buf := b, cnt := t.length }).bind
        fun s' => if stop ∧ s'.stage = 5 then .ok s' else Dq.scan stop n rest (i + t.length + 1) s' := by
  obtain ⟨b', b2, h1, h2, h3, h4⟩ := written s.buf t ht
  refine ⟨b', b2, h2, fun name hname => match_iff b2 t name h3 h4 (names_clean name hname), ?_⟩
  rw [scan_chars stop n t (';' :: rest) ht.semi ht.line i s b' (by rw [h0]; exact h1), h0, Nat.zero_add]
  rw [Dq.scan.eq_2, if_neg (by simp), if_pos rfl]

/-- A token that is no name changes nothing but the buffer and the number of lines. -/
theorem scan_plain (stop : Bool) (n : Nat) (t rest : List Char) (ht : Field t) (hno : ∀ name ∈ secNames, ¬ name <+: t) (i : Nat)
    (s : Dq) (h0 : s.cnt = 0) (h1 : 1 ≤ s.stage) (h5 : stop = false ∨ s.stage < 5) :
    ∃ b2, Dq.scan stop n (t ++ ';' :: rest) i s =
      Dq.scan stop n rest (i + t.length + 1) { s with buf := b2, cnt := 0, lines := s.lines + 1 } := by
  obtain ⟨b, b2, e1, e2, e3⟩ := scan_token stop n t rest ht i s h0
  refine ⟨b2, ?_⟩
  have hfalse : ∀ name ∈ secNames, matchName b2 name = false := by
    intro name hn
    have := (e2 name hn).not.2 (hno name hn)
    simpa using this
  rw [e3]
  have hsemi : Dq.semi n (i + t.length) rest.head? { s with buf := b, cnt := t.length } =
      .ok { s with buf := b2, cnt := 0, lines := s.lines + 1 } := by
    unfold Dq.semi
    dsimp only
    rw [e1]
    dsimp only
    rw [if_neg (by omega)]
    by_cases hst : s.stage < 5
    · rw [if_pos hst, if_pos]
      right
      right
      refine hfalse _ ?_
      have : s.stage = 1 ∨ s.stage = 2 ∨ s.stage = 3 ∨ s.stage = 4 := by omega
      rcases this with h | h | h | h <;> rw [h] <;> decide
    · rw [if_neg hst, if_neg]
      intro hany
      obtain ⟨name, hn, hm⟩ := List.any_eq_true.1 hany
      rw [hfalse name hn] at hm
      cases hm
  rw [hsemi]
  show (if stop = true ∧ s.stage = 5 then _ else _) = _
  rw [if_neg]
  rintro ⟨h, h'⟩
  rcases h5 with h5 | h5
  · rw [h5] at h
    cases h
  · omega

theorem scan_line_end (stop : Bool) (n : Nat) (rest : List Char) (i : Nat) (s : Dq) :
    Dq.scan stop n ('\n' :: rest) i s = Dq.scan stop n rest (i + 1) { s with cnt := 0, lines := s.lines + 1 } := by
  rw [Dq.scan.eq_2, if_neg (by simp), if_neg (by decide)]

theorem scan_fields (stop : Bool) (n : Nat) (l : List (List Char)) (hl : ∀ t ∈ l, Field t ∧ ∀ name ∈ secNames, ¬ name <+: t)
    (rest : List Char) (i : Nat) (s : Dq) (h0 : s.cnt = 0) (h1 : 1 ≤ s.stage) (h5 : stop = false ∨ s.stage < 5) :
    ∃ b k, Dq.scan stop n ((l.flatMap fun t => t ++ [';']) ++ rest) i s =
      Dq.scan stop n rest (i + (l.flatMap fun t => t ++ [';']).length) { s with buf := b, cnt := 0, lines := k } := by
  induction l generalizing i s with
  | nil =>
    refine ⟨s.buf, s.lines, ?_⟩
    rw [← h0]
    rfl
  | cons t l ih =>
    obtain ⟨ht, hno⟩ := hl t List.mem_cons_self
    obtain ⟨b2, e⟩ := scan_plain stop n t ((l.flatMap fun t => t ++ [';']) ++ rest) ht hno i s h0 h1 h5
    obtain ⟨b, k, e'⟩ := ih (fun t h => hl t (List.mem_cons_of_mem _ h)) (i + t.length + 1)
      { s with buf := b2, cnt := 0, lines := s.lines + 1 } rfl h1 h5
    refine ⟨b, k, ?_⟩
    have e1 : ((t :: l).flatMap fun t => t ++ [';']) ++ rest = t ++ ';' :: ((l.flatMap fun t => t ++ [';']) ++ rest) := by simp
    have e2 : i + ((t :: l).flatMap fun t => t ++ [';']).length = i + t.length + 1 + (l.flatMap fun t => t ++ [';']).length := by
      rw [List.flatMap_cons, List.length_append, List.length_append, List.length_singleton]
      omega
    rw [e1, e, e', e2]

/-- A section without names is passed over. -/
theorem scan_section (stop : Bool) (n : Nat) (lines : List (List (List Char))) (hl : Clean lines) (rest : List Char) (i : Nat)
    (s : Dq) (h0 : s.cnt = 0) (h1 : 1 ≤ s.stage) (h5 : stop = false ∨ s.stage < 5) :
    ∃ b k, Dq.scan stop n (secText lines ++ rest) i s =
      Dq.scan stop n rest (i + (secText lines).length) { s with buf := b, cnt := 0, lines := k } := by
  induction lines generalizing i s with
  | nil =>
    refine ⟨s.buf, s.lines, ?_⟩
    rw [← h0]
    rfl
  | cons l lines ih =>
    obtain ⟨b, k, e⟩ := scan_fields stop n l (hl l List.mem_cons_self) ('\n' :: (secText lines ++ rest)) i s h0 h1 h5
    rw [scan_line_end] at e
    obtain ⟨b', k', e'⟩ := ih (fun l h => hl l (List.mem_cons_of_mem _ h)) (i + (l.flatMap fun t => t ++ [';']).length + 1)
      { s with buf := b, cnt := 0, lines := k + 1 } rfl h1 h5
    refine ⟨b', k', ?_⟩
    have e1 : secText (l :: lines) ++ rest = (l.flatMap fun t => t ++ [';']) ++ '\n' :: (secText lines ++ rest) := by
      unfold secText
      simp
    have e2 : i + (secText (l :: lines)).length = i + (l.flatMap fun t => t ++ [';']).length + 1 + (secText lines).length := by
      have : secText (l :: lines) = (l.flatMap fun t => t ++ [';']) ++ '\n' :: secText lines := by
        unfold secText
        simp
      rw [this, List.length_append, List.length_cons]
      omega
    rw [e1, e, e', e2]

/-- A token that starts with the name looked for. -/
theorem scan_name (stop : Bool) (n : Nat) (t rest : List Char) (ht : Field t) (i : Nat) (s : Dq) (h0 : s.cnt = 0)
    (h1 : s.stage < 5) (hl : s.stage = 0 → s.lines = 0) (hm : secNames.getD s.stage [] <+: t) (hn : i + t.length + 2 < n) :
    ∃ b, Dq.scan stop n (t ++ ';' :: '\n' :: rest) i s =
      if stop = true ∧ s.stage = 4 then .ok { (s.found n (i + t.length)) with buf := b, cnt := 0, lines := s.lines + 1 }
      else Dq.scan stop n rest (i + t.length + 2) { (s.found n (i + t.length)) with buf := b, cnt := 0, lines := s.lines + 2 } := by
  obtain ⟨b, b2, e1, e2, e3⟩ := scan_token stop n t ('\n' :: rest) ht i s h0
  refine ⟨b2, ?_⟩
  have hmem : secNames.getD s.stage [] ∈ secNames := by
    have : s.stage = 0 ∨ s.stage = 1 ∨ s.stage = 2 ∨ s.stage = 3 ∨ s.stage = 4 := by omega
    rcases this with h | h | h | h | h <;> rw [h] <;> decide
  have hmatch := (e2 _ hmem).2 hm
  have hsemi : Dq.semi n (i + t.length) ('\n' :: rest).head? { s with buf := b, cnt := t.length } =
      .ok { (s.found n (i + t.length)) with buf := b2, cnt := 0, lines := s.lines + 1 } := by
    unfold Dq.semi
    dsimp only
    rw [e1]
    dsimp only
    by_cases h : s.stage = 0
    · rw [if_pos h, if_neg]
      · rfl
      · rw [h] at hmatch
        rw [show matchName b2 secShared = true from hmatch, hl h]
        simp
        omega
    · rw [if_neg h, if_pos h1, if_neg]
      · rfl
      · rw [hmatch]
        simp
        omega
  rw [e3, hsemi]
  show (if stop = true ∧ s.stage + 1 = 5 then _ else _) = _
  by_cases h : stop = true ∧ s.stage = 4
  · rw [if_pos h, if_pos ⟨h.1, by omega⟩]
  · rw [if_neg h, if_neg (fun h' => h ⟨h'.1, by omega⟩), scan_line_end]

/-- A section and the name after it, from the start of the section. -/
theorem scan_part (stop : Bool) (n : Nat) (lines : List (List (List Char))) (hl : Clean lines) (t rest : List Char) (ht : Field t)
    (i : Nat) (s : Dq) (h0 : s.cnt = 0) (h1 : 1 ≤ s.stage) (h4 : s.stage ≤ 4) (hm : secNames.getD s.stage [] <+: t)
    (hi : s.idx.getLastD 0 = i) (hn : n = i + (secText lines).length + t.length + 2 + rest.length) (hrest : rest ≠ []) :
    ∃ b k, Dq.scan stop n (secText lines ++ (t ++ ';' :: '\n' :: rest)) i s =
      if stop = true ∧ s.stage = 4 then
        .ok ⟨b, 0, k, s.stage + 1, s.idx ++ [i + (secText lines).length + t.length + 2],
          s.lens ++ [(secText lines).length + (t.length - (secNames.getD s.stage []).length)] ++
            (if s.stage = 4 then [rest.length] else [])⟩
      else Dq.scan stop n rest (i + (secText lines).length + t.length + 2)
        ⟨b, 0, k, s.stage + 1, s.idx ++ [i + (secText lines).length + t.length + 2],
          s.lens ++ [(secText lines).length + (t.length - (secNames.getD s.stage []).length)] ++
            (if s.stage = 4 then [rest.length] else [])⟩ := by
  obtain ⟨b1, k1, e1⟩ := scan_section stop n lines hl (t ++ ';' :: '\n' :: rest) i s h0 h1 (Or.inr (by omega))
  have hpos : 0 < rest.length := List.length_pos_of_ne_nil hrest
  obtain ⟨b2, e2⟩ := scan_name stop n t rest ht (i + (secText lines).length) { s with buf := b1, cnt := 0, lines := k1 } rfl
    (by show s.stage < 5; omega) (fun h => absurd h (by show s.stage ≠ 0; omega)) hm (by omega)
  have hle : (secNames.getD s.stage []).length ≤ t.length := hm.length_le
  have hlen : i + (secText lines).length + t.length - (secNames.getD s.stage []).length - i =
      (secText lines).length + (t.length - (secNames.getD s.stage []).length) := by omega
  have hlast : n - (i + (secText lines).length + t.length + 2) = rest.length := by omega
  have hfound : Dq.found n (i + (secText lines).length + t.length) { s with buf := b1, cnt := 0, lines := k1 } =
      ⟨b1, 0, k1, s.stage + 1, s.idx ++ [i + (secText lines).length + t.length + 2],
        s.lens ++ [(secText lines).length + (t.length - (secNames.getD s.stage []).length)] ++
          (if s.stage = 4 then [rest.length] else [])⟩ := by
    unfold Dq.found
    dsimp only
    rw [hi, hlen, hlast, if_neg (by omega)]
  rw [hfound] at e2
  by_cases h : stop = true ∧ s.stage = 4
  · refine ⟨b2, k1 + 1, ?_⟩
    rw [e1, e2, if_pos h, if_pos h]
  · refine ⟨b2, k1 + 2, ?_⟩
    rw [e1, e2, if_neg h, if_neg h]

/-- A description whose section names may be followed by more characters. -/
def dqnTokens (t0 t1 t2 t3 t4 sh v vv a aa : List Char) : List Char :=
  t0 ++ ';' :: '\n' :: (sh ++ (t1 ++ ';' :: '\n' :: (v ++ (t2 ++ ';' :: '\n' :: (vv ++ (t3 ++ ';' :: '\n' :: (a ++
    (t4 ++ ';' :: '\n' :: aa))))))))

theorem cut (pre sec post : List Char) (i : Nat) (h : pre.length = i) (k : Nat) (file : List Char) (hf : file = pre ++ (sec ++ post)) :
    (file.drop i).take (sec.length + k) = sec ++ post.take k := by
  rw [hf, ← h, List.drop_left, List.take_append, List.take_of_length_le (by omega)]
  congr 2
  omega

theorem split_of (file : List Char) (S1 S2 : Dq) (h1 : Dq.scan false file.length file 0 Dq.init = .ok S1) (h5 : S1.stage = 5)
    (h2 : Dq.scan true file.length file 0 Dq.init = .ok S2) :
    splitDqn file = .ok ((S2.idx.zip S2.lens).map fun p => (file.drop p.1).take p.2) := by
  unfold splitDqn
  rw [h1]
  show (if S1.stage ≠ 5 then _ else _) = _
  rw [if_neg (fun h => h h5), h2]
  rfl

/-- What the parser hands over for any description whose five tokens start with the names. -/
theorem split_general (t0 t1 t2 t3 t4 : List Char) (f0 : Field t0) (f1 : Field t1) (f2 : Field t2) (f3 : Field t3) (f4 : Field t4)
    (m0 : secShared <+: t0) (m1 : secV <+: t1) (m2 : secVV <+: t2) (m3 : secA <+: t3) (m4 : secAA <+: t4)
    (sh v vv a aa : List (List (List Char))) (c0 : Clean sh) (c1 : Clean v) (c2 : Clean vv) (c3 : Clean a) (c4 : Clean aa)
    (hne : aa ≠ []) :
    splitDqn (dqnTokens t0 t1 t2 t3 t4 (secText sh) (secText v) (secText vv) (secText a) (secText aa)) =
      .ok [secText sh ++ t1.take (t1.length - secV.length), secText v ++ t2.take (t2.length - secVV.length),
        secText vv ++ t3.take (t3.length - secA.length), secText a ++ t4.take (t4.length - secAA.length), secText aa] := by
  have haa : secText aa ≠ [] := by
    cases aa with
    | nil => exact absurd rfl hne
    | cons l aa =>
      unfold secText
      simp
  set R4 : List Char := secText aa with hR4
  set R3 : List Char := secText a ++ (t4 ++ ';' :: '\n' :: R4) with hR3
  set R2 : List Char := secText vv ++ (t3 ++ ';' :: '\n' :: R3) with hR2
  set R1 : List Char := secText v ++ (t2 ++ ';' :: '\n' :: R2) with hR1
  set R0 : List Char := secText sh ++ (t1 ++ ';' :: '\n' :: R1) with hR0
  have hfile : dqnTokens t0 t1 t2 t3 t4 (secText sh) (secText v) (secText vv) (secText a) R4 = t0 ++ ';' :: '\n' :: R0 := rfl
  have l3 : R3.length = (secText a).length + (t4.length + (R4.length + 1 + 1)) := by
    rw [hR3, List.length_append, List.length_append, List.length_cons, List.length_cons]
  have l2 : R2.length = (secText vv).length + (t3.length + (R3.length + 1 + 1)) := by
    rw [hR2, List.length_append, List.length_append, List.length_cons, List.length_cons]
  have l1 : R1.length = (secText v).length + (t2.length + (R2.length + 1 + 1)) := by
    rw [hR1, List.length_append, List.length_append, List.length_cons, List.length_cons]
  have l0 : R0.length = (secText sh).length + (t1.length + (R1.length + 1 + 1)) := by
    rw [hR0, List.length_append, List.length_append, List.length_cons, List.length_cons]
  have hn : (t0 ++ ';' :: '\n' :: R0).length = t0.length + (R0.length + 1 + 1) := by
    rw [List.length_append, List.length_cons, List.length_cons]
  have hne3 : R3 ≠ [] := fun h => by rw [h] at l3; simp at l3
  have hne2 : R2 ≠ [] := fun h => by rw [h] at l2; simp at l2
  have hne1 : R1 ≠ [] := fun h => by rw [h] at l1; simp at l1
  have p4 : 0 < R4.length := List.length_pos_of_ne_nil haa
  -- both loops up to the last name
  have run : ∀ stop : Bool, ∃ b k, Dq.scan stop (t0 ++ ';' :: '\n' :: R0).length (t0 ++ ';' :: '\n' :: R0) 0 Dq.init =
      let S : Dq := ⟨b, 0, k, 5, [t0.length + 2, t0.length + 2 + (secText sh).length + t1.length + 2,
        t0.length + 2 + (secText sh).length + t1.length + 2 + (secText v).length + t2.length + 2,
        t0.length + 2 + (secText sh).length + t1.length + 2 + (secText v).length + t2.length + 2 + (secText vv).length + t3.length + 2,
        t0.length + 2 + (secText sh).length + t1.length + 2 + (secText v).length + t2.length + 2 + (secText vv).length + t3.length + 2 +
          (secText a).length + t4.length + 2],
        [(secText sh).length + (t1.length - secV.length), (secText v).length + (t2.length - secVV.length),
         (secText vv).length + (t3.length - secA.length), (secText a).length + (t4.length - secAA.length), R4.length]⟩
      if stop = true then .ok S
      else Dq.scan stop (t0 ++ ';' :: '\n' :: R0).length R4 (t0.length + 2 + (secText sh).length + t1.length + 2 + (secText v).length +
        t2.length + 2 + (secText vv).length + t3.length + 2 + (secText a).length + t4.length + 2) S := by
    intro stop
    obtain ⟨b0, e0⟩ := scan_name stop (t0 ++ ';' :: '\n' :: R0).length t0 R0 f0 0 Dq.init rfl (by decide) (fun _ => rfl) m0 (by omega)
    rw [if_neg (fun h => absurd h.2 (by decide))] at e0
    have hS0 : ({ (Dq.init.found (t0 ++ ';' :: '\n' :: R0).length (0 + t0.length)) with buf := b0, cnt := 0, lines := Dq.init.lines + 2 } : Dq) =
        ⟨b0, 0, 2, 1, [t0.length + 2], []⟩ := by
      unfold Dq.found Dq.init
      simp
    rw [hS0, Nat.zero_add] at e0
    obtain ⟨b1, k1, e1⟩ := scan_part stop (t0 ++ ';' :: '\n' :: R0).length sh c0 t1 R1 f1 (t0.length + 2)
      ⟨b0, 0, 2, 1, [t0.length + 2], []⟩ rfl (Nat.le_of_ble_eq_true rfl) (Nat.le_of_ble_eq_true rfl) m1 rfl (by omega) hne1
    rw [if_neg (fun h => absurd (show (1 : Nat) = 4 from h.2) (by decide))] at e1
    obtain ⟨b2, k2, e2⟩ := scan_part stop (t0 ++ ';' :: '\n' :: R0).length v c1 t2 R2 f2 (t0.length + 2 + (secText sh).length + t1.length + 2)
      ⟨b1, 0, k1, 2, [t0.length + 2] ++ [t0.length + 2 + (secText sh).length + t1.length + 2],
        [] ++ [(secText sh).length + (t1.length - secV.length)] ++ []⟩ rfl (Nat.le_of_ble_eq_true rfl) (Nat.le_of_ble_eq_true rfl) m2 rfl (by omega) hne2
    rw [if_neg (fun h => absurd (show (2 : Nat) = 4 from h.2) (by decide))] at e2
    obtain ⟨b3, k3, e3⟩ := scan_part stop (t0 ++ ';' :: '\n' :: R0).length vv c2 t3 R3 f3
      (t0.length + 2 + (secText sh).length + t1.length + 2 + (secText v).length + t2.length + 2)
      ⟨b2, 0, k2, 3, [t0.length + 2, t0.length + 2 + (secText sh).length + t1.length + 2,
        t0.length + 2 + (secText sh).length + t1.length + 2 + (secText v).length + t2.length + 2],
        [(secText sh).length + (t1.length - secV.length), (secText v).length + (t2.length - secVV.length)]⟩ rfl (Nat.le_of_ble_eq_true rfl) (Nat.le_of_ble_eq_true rfl)
      m3 rfl (by omega) hne3
    rw [if_neg (fun h => absurd (show (3 : Nat) = 4 from h.2) (by decide))] at e3
    obtain ⟨b4, k4, e4⟩ := scan_part stop (t0 ++ ';' :: '\n' :: R0).length a c3 t4 R4 f4
      (t0.length + 2 + (secText sh).length + t1.length + 2 + (secText v).length + t2.length + 2 + (secText vv).length + t3.length + 2)
      ⟨b3, 0, k3, 4, [t0.length + 2, t0.length + 2 + (secText sh).length + t1.length + 2,
        t0.length + 2 + (secText sh).length + t1.length + 2 + (secText v).length + t2.length + 2,
        t0.length + 2 + (secText sh).length + t1.length + 2 + (secText v).length + t2.length + 2 + (secText vv).length + t3.length + 2],
        [(secText sh).length + (t1.length - secV.length), (secText v).length + (t2.length - secVV.length),
         (secText vv).length + (t3.length - secA.length)]⟩ rfl (Nat.le_of_ble_eq_true rfl) (Nat.le_of_ble_eq_true rfl) m4 rfl (by omega) haa
    refine ⟨b4, k4, ?_⟩
    rw [e0]
    refine (e1.trans (e2.trans (e3.trans (e4.trans ?_))))
    dsimp only
    by_cases hs : stop = true
    · rw [if_pos ⟨hs, rfl⟩, if_pos hs]
      rfl
    · rw [if_neg (fun h => hs h.1), if_neg hs]
      rfl
  rw [hfile]
  obtain ⟨b, k, e⟩ := run false
  obtain ⟨b', k', e'⟩ := run true
  dsimp only at e e'
  rw [if_neg (by decide)] at e
  rw [if_pos rfl] at e'
  obtain ⟨b5, k5, e5⟩ := scan_section false (t0 ++ ';' :: '\n' :: R0).length aa c4 [] (t0.length + 2 + (secText sh).length + t1.length + 2 +
    (secText v).length + t2.length + 2 + (secText vv).length + t3.length + 2 + (secText a).length + t4.length + 2)
    ⟨b, 0, k, 5, [t0.length + 2, t0.length + 2 + (secText sh).length + t1.length + 2,
        t0.length + 2 + (secText sh).length + t1.length + 2 + (secText v).length + t2.length + 2,
        t0.length + 2 + (secText sh).length + t1.length + 2 + (secText v).length + t2.length + 2 + (secText vv).length + t3.length + 2,
        t0.length + 2 + (secText sh).length + t1.length + 2 + (secText v).length + t2.length + 2 + (secText vv).length + t3.length + 2 +
          (secText a).length + t4.length + 2],
        [(secText sh).length + (t1.length - secV.length), (secText v).length + (t2.length - secVV.length),
         (secText vv).length + (t3.length - secA.length), (secText a).length + (t4.length - secAA.length), R4.length]⟩ rfl (Nat.le_of_ble_eq_true rfl)
    (Or.inl rfl)
  rw [List.append_nil, ← hR4] at e5
  refine (split_of _ _ _ (e.trans e5) rfl e').trans ?_
  congr 1
  have d0 := cut (t0 ++ [';', '\n']) (secText sh) (t1 ++ ';' :: '\n' :: R1) (t0.length + 2) (by simp) (t1.length - secV.length)
    (t0 ++ ';' :: '\n' :: R0) (by simp [hR0])
  have d1 := cut (t0 ++ [';', '\n'] ++ secText sh ++ t1 ++ [';', '\n']) (secText v) (t2 ++ ';' :: '\n' :: R2)
    (t0.length + 2 + (secText sh).length + t1.length + 2) (by simp; omega) (t2.length - secVV.length)
    (t0 ++ ';' :: '\n' :: R0) (by simp [hR0, hR1])
  have d2 := cut (t0 ++ [';', '\n'] ++ secText sh ++ t1 ++ [';', '\n'] ++ secText v ++ t2 ++ [';', '\n']) (secText vv) (t3 ++ ';' :: '\n' :: R3)
    (t0.length + 2 + (secText sh).length + t1.length + 2 + (secText v).length + t2.length + 2) (by simp; omega) (t3.length - secA.length)
    (t0 ++ ';' :: '\n' :: R0) (by simp [hR0, hR1, hR2])
  have d3 := cut (t0 ++ [';', '\n'] ++ secText sh ++ t1 ++ [';', '\n'] ++ secText v ++ t2 ++ [';', '\n'] ++ secText vv ++ t3 ++ [';', '\n'])
    (secText a) (t4 ++ ';' :: '\n' :: R4)
    (t0.length + 2 + (secText sh).length + t1.length + 2 + (secText v).length + t2.length + 2 + (secText vv).length + t3.length + 2)
    (by simp; omega) (t4.length - secAA.length) (t0 ++ ';' :: '\n' :: R0) (by simp [hR0, hR1, hR2, hR3])
  have d4 := cut (t0 ++ [';', '\n'] ++ secText sh ++ t1 ++ [';', '\n'] ++ secText v ++ t2 ++ [';', '\n'] ++ secText vv ++ t3 ++ [';', '\n'] ++
    secText a ++ t4 ++ [';', '\n']) R4 []
    (t0.length + 2 + (secText sh).length + t1.length + 2 + (secText v).length + t2.length + 2 + (secText vv).length + t3.length + 2 +
      (secText a).length + t4.length + 2)
    (by simp; omega) 0 (t0 ++ ';' :: '\n' :: R0) (by simp [hR0, hR1, hR2, hR3])
  have take_le : ∀ (t post : List Char) (k : Nat), k ≤ t.length → (t ++ post).take k = t.take k := by
    intro t post k h
    rw [List.take_append_of_le_length h]
  rw [take_le t1 _ _ (by omega)] at d0
  rw [take_le t2 _ _ (by omega)] at d1
  rw [take_le t3 _ _ (by omega)] at d2
  rw [take_le t4 _ _ (by omega)] at d3
  rw [List.take_nil, List.append_nil, Nat.add_zero] at d4
  simp only [List.zip_cons_cons, List.zip_nil_left, List.map_cons, List.map_nil]
  rw [d0, d1, d2, d3, d4]

/-- **C133.** For every description with its five sections, in any of which no field starts
with the name of a section: the texts handed to the model parser are exactly the five
sections. -/
theorem C133_sections_partial (sh v vv a aa : List (List (List Char))) (c0 : Clean sh) (c1 : Clean v) (c2 : Clean vv) (c3 : Clean a)
    (c4 : Clean aa) (hne : aa ≠ []) :
    splitDqn (dqnFile (secText sh) (secText v) (secText vv) (secText a) (secText aa)) =
      .ok [secText sh, secText v, secText vv, secText a, secText aa] := by
  have := split_general secShared secV secVV secA secAA (names_field _ (by decide)) (names_field _ (by decide)) (names_field _ (by decide))
    (names_field _ (by decide)) (names_field _ (by decide)) (List.prefix_refl _) (List.prefix_refl _) (List.prefix_refl _)
    (List.prefix_refl _) (List.prefix_refl _) sh v vv a aa c0 c1 c2 c3 c4 hne
  simp only [Nat.sub_self, List.take_zero, List.append_nil] at this
  rw [← this]
  congr 1

/-- **C133 refuted for the names.** Only the start of a token is compared: a token that goes on
after the name, as in `v_hidden_layers_2;`, is accepted as the name, and its
first characters are handed over as part of the section before it. -/
theorem C133_name_prefix_refuted (x : List Char) (hx : x ≠ []) (hf : Field (secV ++ x)) (sh v vv a aa : List (List (List Char)))
    (c0 : Clean sh) (c1 : Clean v) (c2 : Clean vv) (c3 : Clean a) (c4 : Clean aa) (hne : aa ≠ []) :
    ∃ t, splitDqn (dqnTokens secShared (secV ++ x) secVV secA secAA (secText sh) (secText v) (secText vv) (secText a) (secText aa)) =
      .ok [t, secText v, secText vv, secText a, secText aa] ∧ t = secText sh ++ (secV ++ x).take x.length ∧ t ≠ secText sh := by
  refine ⟨secText sh ++ (secV ++ x).take x.length, ?_, rfl, ?_⟩
  · have := split_general secShared (secV ++ x) secVV secA secAA (names_field _ (by decide)) hf (names_field _ (by decide))
      (names_field _ (by decide)) (names_field _ (by decide)) (List.prefix_refl _) (List.prefix_append _ _) (List.prefix_refl _)
      (List.prefix_refl _) (List.prefix_refl _) sh v vv a aa c0 c1 c2 c3 c4 hne
    simp only [Nat.sub_self, List.take_zero, List.append_nil, List.length_append, Nat.add_sub_cancel_left] at this
    exact this
  · intro h
    have := congrArg List.length h
    rw [List.length_append, List.length_take, List.length_append] at this
    have hpos := List.length_pos_of_ne_nil hx
    omega

/-! ### The five models -/

/-- The lines of a model description. -/
def modelLines (hdr : List (List Char)) (ls : List Layer) : List (List (List Char)) := hdr :: ls.flatMap fun l => [[l.name], l.params]

theorem model_text (hdr : List (List Char)) (ls : List Layer) : secText (modelLines hdr ls) = modelFile hdr ls := by
  unfold secText modelLines modelFile
  rw [List.flatMap_cons]
  congr 1
  induction ls with
  | nil => rfl
  | cons l ls ih =>
    rw [List.flatMap_cons, List.flatMap_append, ih, List.flatMap_cons]
    congr 1
    unfold Layer.lines
    simp

/-- A description of one model. -/
structure Desc where
  hdr : List (List Char)
  layers : List Layer

/-- What is asked of the description of one model. -/
structure Desc.Ok (atof : List Char → α) (toInt : α → Int) (d : Desc) : Prop where
  layer : ∀ l ∈ d.layers, l.Ok
  header : Header d.hdr (d.layers.filter Layer.isFull).length (d.layers.filter Layer.isConv).length
    (d.layers.filter Layer.isRes).length (blocksOf atof toInt d.layers).length
  few : (d.layers.filter Layer.isCl).length ≤ 1024
  clean : Clean (modelLines d.hdr d.layers)

/-- The text. -/
def Desc.text (d : Desc) : List Char := modelFile d.hdr d.layers

/-- **C133, the models.** For every description of five well-formed models such that the number
of outputs of the last divides as it must: the parser builds exactly the five models, each
from its own section, with the number of actions that belongs to the outputs. -/
theorem C133_models_partial (atof : List Char → α) (toInt : α → Int) (out : Net α → Nat) (sh v vv a aa : Desc)
    (h0 : sh.Ok atof toInt) (h1 : v.Ok atof toInt) (h2 : vv.Ok atof toInt) (h3 : a.Ok atof toInt) (h4 : aa.Ok atof toInt)
    (hv : out (netOf atof toInt vv.layers) ≠ 0) (k : Nat)
    (hk : out (netOf atof toInt aa.layers) = k * out (netOf atof toInt vv.layers)) :
    parseDqn atof toInt out (dqnFile sh.text v.text vv.text a.text aa.text) =
      .ok ⟨k, out (netOf atof toInt vv.layers), [netOf atof toInt sh.layers, netOf atof toInt v.layers, netOf atof toInt vv.layers,
        netOf atof toInt a.layers, netOf atof toInt aa.layers]⟩ := by
  have hs := C133_sections_partial _ _ _ _ _ h0.clean h1.clean h2.clean h3.clean h4.clean (by unfold modelLines; simp)
  rw [model_text, model_text, model_text, model_text, model_text] at hs
  have hp : ∀ d : Desc, d.Ok atof toInt → parseModel atof toInt d.text = some (netOf atof toInt d.layers) := fun d hd =>
    C132_parse_partial atof toInt d.hdr d.layers hd.layer hd.header hd.few
  have hall : parseAll atof toInt [sh.text, v.text, vv.text, a.text, aa.text] = .ok [netOf atof toInt sh.layers,
      netOf atof toInt v.layers, netOf atof toInt vv.layers, netOf atof toInt a.layers, netOf atof toInt aa.layers] := by
    simp only [parseAll, hp sh h0, hp v h1, hp vv h2, hp a h3, hp aa h4]
    rfl
  unfold parseDqn
  show (splitDqn (dqnFile (modelFile _ _) (modelFile _ _) (modelFile _ _) (modelFile _ _) (modelFile _ _))).bind _ = _
  rw [hs]
  show (parseAll atof toInt [sh.text, v.text, vv.text, a.text, aa.text]).bind _ = _
  rw [hall]
  show finishDqn out [netOf atof toInt sh.layers, netOf atof toInt v.layers, netOf atof toInt vv.layers, netOf atof toInt a.layers,
    netOf atof toInt aa.layers] = _
  unfold finishDqn
  dsimp only
  rw [if_neg hv, hk, Nat.mul_mod_left, if_neg (by decide), Nat.mul_div_cancel _ (Nat.pos_of_ne_zero hv)]

/-- The description of the examples: one fully connected layer. -/
def demoDesc : Desc := ⟨[nameFull], [.full (ones 11)]⟩

theorem demoDesc_ok : demoDesc.Ok codeOf id := by
  have hF : Field nameFull := ⟨by decide, by decide, by decide, by decide⟩
  have h1 : Field ['1'] := ⟨by decide, by decide, by decide, by decide⟩
  refine ⟨?_, ⟨?_, by decide, by decide, by decide, by decide +kernel⟩, by decide, ?_⟩
  · intro l hl
    rw [List.mem_singleton.1 hl]
    exact ⟨rfl, fun t ht => by rw [List.eq_of_mem_replicate (show t ∈ List.replicate 11 ['1'] from ht)]; exact h1⟩
  · intro t ht
    rw [List.mem_singleton.1 ht]
    exact hF
  · have k1 : ∀ name ∈ secNames, ¬ name <+: nameFull := by decide
    have k2 : ∀ name ∈ secNames, ¬ name <+: ['1'] := by decide
    intro l hl t ht
    simp only [modelLines, demoDesc, List.flatMap_cons, List.flatMap_nil, List.append_nil, List.mem_cons, List.not_mem_nil,
      or_false] at hl
    rcases hl with rfl | rfl | rfl
    · rw [List.mem_singleton.1 ht]
      exact ⟨hF, k1⟩
    · rw [List.mem_singleton.1 ht]
      exact ⟨hF, k1⟩
    · rw [List.eq_of_mem_replicate (show t ∈ List.replicate 11 ['1'] from ht)]
      exact ⟨h1, k2⟩

/-- Non-vacuity: five copies of the example. -/
example : ∃ r, parseDqn codeOf id (fun _ => 6) (dqnFile demoDesc.text demoDesc.text demoDesc.text demoDesc.text demoDesc.text) = .ok r ∧
    r.actions = 1 ∧ r.models.length = 5 :=
  ⟨_, C133_models_partial codeOf id (fun _ => 6) demoDesc demoDesc demoDesc demoDesc demoDesc demoDesc_ok demoDesc_ok demoDesc_ok
    demoDesc_ok demoDesc_ok (by decide) 1 rfl, rfl, rfl⟩

/-- Non-vacuity of the refutation: `v_hidden_layers_2`. -/
example : Field (secV ++ ['_', '2']) := ⟨by decide, by decide, by decide, by decide⟩

/-- **C133, the order of the sections.** A file whose first token does not start with
`shared_hidden_layers`, or is not alone on the first line, is rejected with an error. -/
theorem C133_first_name (t rest : List Char) (ht : Field t) (h : ¬ secShared <+: t ∨ rest.head? ≠ some '\n') :
    splitDqn (t ++ ';' :: rest) = .error .error := by
  obtain ⟨b, b2, e1, e2, e3⟩ := scan_token false (t ++ ';' :: rest).length t rest ht 0 Dq.init rfl
  unfold splitDqn
  rw [e3]
  unfold Dq.semi
  dsimp only
  rw [e1]
  dsimp only
  rw [if_pos (show Dq.init.stage = 0 from rfl), if_pos]
  · rfl
  · rcases h with h | h
    · right
      right
      right
      have := (e2 secShared (by decide)).not.2 h
      simpa using this
    · exact Or.inr (Or.inr (Or.inl h))

example : splitDqn (secV ++ ';' :: '\n' :: []) = .error .error :=
  C133_first_name secV ['\n'] (names_field _ (by decide)) (Or.inl (by decide))

end LLab.Parse
