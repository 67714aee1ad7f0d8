import Verif.Parse.Text

/-!
The data set parsers (`/repo/src/parser.c` 28-292). Property C131.

`atof` is a parameter. Reading the file (`read_file_in_char_vector`) gives its characters;
`none` is undefined behaviour: a write outside of an array, or reading what was never
written.
-/

namespace LLab.Parse

variable {α : Type}

/-- The arrays of one kind: `rows` arrays of `cols` floats (`float** input`). -/
structure Tab (α : Type) where
  rows : Nat
  cols : Nat
  get : Nat → Nat → α

/-- `input[r][c] = v`. -/
def Tab.write (t : Tab α) (r c : Nat) (v : α) : Option (Tab α) :=
  if r < t.rows ∧ c < t.cols then some { t with get := fun r' c' => if r' = r ∧ c' = c then v else t.get r' c' } else none

/-- The variables of the csv parsers: `temp2`, `counter`, `counter2`, `counter3`, the arrays. -/
structure Csv (α : Type) where
  buf : Buf
  cnt : Nat
  col : Nat
  row : Nat
  inp : Tab α
  out : Tab α

/-- The write of a value (`/repo/src/parser.c` 94-105, 163-174). -/
def Csv.store (n : Nat) (v : α) (s : Csv α) : Option (Csv α) :=
  if s.col < n then (s.inp.write s.row s.col v).map fun t => { s with inp := t, col := s.col + 1 }
  else (s.out.write s.row (s.col - n) v).map fun t => { s with out := t, col := s.col + 1 }

/-- The end of a field: terminate the string, convert it, store it. -/
def Csv.field (atof : List Char → α) (n : Nat) (s : Csv α) : Option (Csv α) :=
  (s.buf.put s.cnt '\x00').bind fun b => b.cstr.bind fun t => Csv.store n (atof t) { s with buf := b, cnt := 0 }

/-- One more character of a field. -/
def Csv.char (c : Char) (s : Csv α) : Option (Csv α) :=
  (s.buf.put s.cnt c).map fun b => { s with buf := b, cnt := s.cnt + 1 }

/-- One character in `multiple_instance_single_csv_file_parser` (`/repo/src/parser.c` 156-181). -/
def Csv.stepMany (atof : List Char → α) (n : Nat) (s : Csv α) (c : Char) : Option (Csv α) :=
  if c ≠ ';' ∧ c ≠ '\n' then s.char c
  else if c ≠ '\n' then s.field atof n
  else some { s with row := s.row + 1, col := 0, cnt := 0 }

/-- One character in `single_instance_single_csv_file_parser` (`/repo/src/parser.c` 87-107):
a line end is a character like any other. -/
def Csv.stepOne (atof : List Char → α) (n : Nat) (s : Csv α) (c : Char) : Option (Csv α) :=
  if c ≠ ';' then s.char c else s.field atof n

/-- The variables at the start. -/
def Csv.init (inp out : Tab α) : Csv α := ⟨fun _ => none, 0, 0, 0, inp, out⟩

/-- `multiple_instance_single_csv_file_parser` (`/repo/src/parser.c` 147-189). -/
def csvMany (atof : List Char → α) (n : Nat) (file : List Char) (inp out : Tab α) : Option (Tab α × Tab α) :=
  (file.foldlM (Csv.stepMany atof n) (Csv.init inp out)).map fun s => (s.inp, s.out)

/-- `single_instance_single_csv_file_parser` (`/repo/src/parser.c` 77-115), with arrays of
one row. -/
def csvOne (atof : List Char → α) (n : Nat) (file : List Char) (inp out : Tab α) : Option (Tab α × Tab α) :=
  (file.foldlM (Csv.stepOne atof n) (Csv.init inp out)).map fun s => (s.inp, s.out)

/-- One character in `multiple_instance_single_file_parser` (`/repo/src/parser.c` 270-288). -/
def charStep (atof : List Char → α) (n : Nat) (s : Csv α) (c : Char) : Option (Csv α) :=
  if c ≠ '\n' then Csv.store n (atof [c]) s else some { s with row := s.row + 1, col := 0 }

/-- `multiple_instance_single_file_parser` (`/repo/src/parser.c` 260-292). -/
def charMany (atof : List Char → α) (n : Nat) (file : List Char) (inp out : Tab α) : Option (Tab α × Tab α) :=
  (file.foldlM (charStep atof n) (Csv.init inp out)).map fun s => (s.inp, s.out)

/-- `single_instance_single_file_parser` (`/repo/src/parser.c` 203-228): every character is a
value (`z` is `col`). -/
def charOne (atof : List Char → α) (n : Nat) (file : List Char) (inp out : Tab α) : Option (Tab α × Tab α) :=
  (file.foldlM (fun s c => Csv.store n (atof [c]) s) (Csv.init inp out)).map fun s => (s.inp, s.out)

/-! ### Specification -/

/-- A file: every field followed by `;`, every row by a line end. -/
def csvFile (rows : List (List (List Char))) : List Char :=
  rows.flatMap fun r => (r.flatMap fun t => t ++ [';']) ++ ['\n']

/-- The value of field `c` of row `r`, with what was there before for missing ones. -/
def valueAt (atof : List Char → α) (rows : List (List (List Char))) (r c : Nat) (old : α) : α :=
  match rows[r]? with
  | none => old
  | some fs => match fs[c]? with
    | none => old
    | some t => atof t

/-- The arrays hold the values of the rows, and what was there before elsewhere. -/
def Holds (atof : List Char → α) (n : Nat) (rows : List (List (List Char))) (inp out : Tab α) (r : Tab α × Tab α) : Prop :=
  (∀ i c, c < n → r.1.get i c = valueAt atof rows i c (inp.get i c)) ∧
    (∀ i c, r.2.get i c = valueAt atof rows i (n + c) (out.get i c)) ∧
    r.1.rows = inp.rows ∧ r.1.cols = inp.cols ∧ r.2.rows = out.rows ∧ r.2.cols = out.cols

/-- The arrays are large enough for the rows. -/
structure Fits (n : Nat) (rows : List (List (List Char))) (inp out : Tab α) : Prop where
  inRows : rows.length ≤ inp.rows
  inCols : n ≤ inp.cols
  outRows : rows.length ≤ out.rows
  outCols : ∀ r ∈ rows, r.length ≤ n + out.cols

/-! ### Proofs -/

/-- The values of a row, inputs first. -/
def Csv.cell (n : Nat) (s : Csv α) (r c : Nat) : α := if c < n then s.inp.get r c else s.out.get r (c - n)

/-- Same array sizes. -/
def SameSizes (s s' : Csv α) : Prop :=
  s'.inp.rows = s.inp.rows ∧ s'.inp.cols = s.inp.cols ∧ s'.out.rows = s.out.rows ∧ s'.out.cols = s.out.cols

/-- There is room for a field in the current place. -/
def Room (n : Nat) (s : Csv α) (row col : Nat) : Prop :=
  row < s.inp.rows ∧ n ≤ s.inp.cols ∧ row < s.out.rows ∧ col < n + s.out.cols

theorem store_some (n : Nat) (v : α) (s : Csv α) (h : Room n s s.row s.col) :
    ∃ s', Csv.store n v s = some s' ∧ s'.buf = s.buf ∧ s'.cnt = s.cnt ∧ s'.col = s.col + 1 ∧ s'.row = s.row ∧ SameSizes s s' ∧
      ∀ r c, s'.cell n r c = if r = s.row ∧ c = s.col then v else s.cell n r c := by
  obtain ⟨h1, h2, h3, h4⟩ := h
  unfold Csv.store
  by_cases hc : s.col < n
  · rw [if_pos hc]
    unfold Tab.write
    rw [if_pos ⟨h1, by omega⟩]
    refine ⟨_, rfl, rfl, rfl, rfl, rfl, ⟨rfl, rfl, rfl, rfl⟩, fun r c => ?_⟩
    unfold Csv.cell
    dsimp only
    by_cases hcn : c < n
    · rw [if_pos hcn, if_pos hcn]
    · rw [if_neg hcn, if_neg hcn, if_neg (by omega)]
  · rw [if_neg hc]
    unfold Tab.write
    rw [if_pos ⟨h3, by omega⟩]
    refine ⟨_, rfl, rfl, rfl, rfl, rfl, ⟨rfl, rfl, rfl, rfl⟩, fun r c => ?_⟩
    unfold Csv.cell
    dsimp only
    by_cases hcn : c < n
    · rw [if_pos hcn, if_pos hcn, if_neg (by omega)]
    · rw [if_neg hcn, if_neg hcn]
      by_cases hr : r = s.row ∧ c = s.col
      · rw [if_pos hr, if_pos (by omega)]
      · rw [if_neg hr, if_neg (by omega)]

/-- What a step function does with the characters of a field and its separator. -/
structure Reads (atof : List Char → α) (n : Nat) (step : Csv α → Char → Option (Csv α)) : Prop where
  char : ∀ s c, c ≠ ';' → c ≠ '\n' → step s c = s.char c
  semi : ∀ s, step s ';' = s.field atof n

theorem chars_eq {atof : List Char → α} {n : Nat} {step : Csv α → Char → Option (Csv α)} (hR : Reads atof n step) (t : List Char)
    (hs : ';' ∉ t) (hl : '\n' ∉ t) (s : Csv α) :
    t.foldlM step s = (s.buf.puts s.cnt t).map fun b => { s with buf := b, cnt := s.cnt + t.length } := by
  induction t generalizing s with
  | nil => rfl
  | cons c t ih =>
    have hc : step s c = s.char c := hR.char s c (fun e => hs (by rw [e]; exact List.mem_cons_self))
      (fun e => hl (by rw [e]; exact List.mem_cons_self))
    rw [List.foldlM_cons, hc]
    show (Csv.char c s).bind _ = _
    unfold Csv.char
    cases hp : s.buf.put s.cnt c with
    | none =>
      show none = ((s.buf.put s.cnt c).bind _).map _
      rw [hp]
      rfl
    | some b =>
      show t.foldlM step { s with buf := b, cnt := s.cnt + 1 } = ((s.buf.put s.cnt c).bind _).map _
      rw [hp, ih (fun h => hs (List.mem_cons_of_mem c h)) (fun h => hl (List.mem_cons_of_mem c h))]
      show (b.puts (s.cnt + 1) t).map _ = (b.puts (s.cnt + 1) t).map _
      congr 1
      funext b'
      rw [List.length_cons]
      congr 1
      show s.cnt + 1 + t.length = s.cnt + (t.length + 1)
      omega

theorem field_some {atof : List Char → α} {n : Nat} {step : Csv α → Char → Option (Csv α)} (hR : Reads atof n step) (t : List Char)
    (ht : Field t) (s : Csv α) (h0 : s.cnt = 0) (h : Room n s s.row s.col) :
    ∃ s', (t ++ [';']).foldlM step s = some s' ∧ s'.cnt = 0 ∧ s'.col = s.col + 1 ∧ s'.row = s.row ∧ SameSizes s s' ∧
      ∀ r c, s'.cell n r c = if r = s.row ∧ c = s.col then atof t else s.cell n r c := by
  obtain ⟨b', b2, h1, h2, h3⟩ := field_written s.buf t ht
  obtain ⟨s', e1, e2, e3, e4, e5, e6, e7⟩ := store_some n (atof t) { s with buf := b2, cnt := 0 } h
  refine ⟨s', ?_, e3, e4, e5, e6, e7⟩
  rw [List.foldlM_append, chars_eq hR t ht.semi ht.line s, h0, h1]
  show (step { s with buf := b', cnt := 0 + t.length } ';').bind _ = _
  rw [hR.semi]
  unfold Csv.field
  dsimp only
  rw [Nat.zero_add, h2]
  show ((b2.cstr).bind _).bind _ = _
  rw [h3]
  show (Csv.store n (atof t) _).bind _ = _
  rw [e1]
  rfl

theorem fields_some {atof : List Char → α} {n : Nat} {step : Csv α → Char → Option (Csv α)} (hR : Reads atof n step)
    (fs : List (List Char)) (hf : ∀ t ∈ fs, Field t) (s : Csv α) (h0 : s.cnt = 0)
    (hroom : fs ≠ [] → Room n s s.row (s.col + fs.length - 1)) :
    ∃ s', (fs.flatMap fun t => t ++ [';']).foldlM step s = some s' ∧ s'.cnt = 0 ∧ s'.row = s.row ∧ SameSizes s s' ∧
      ∀ r c, s'.cell n r c = if r = s.row ∧ s.col ≤ c then (fs[c - s.col]?).elim (s.cell n r c) atof else s.cell n r c := by
  induction fs generalizing s with
  | nil =>
    refine ⟨s, rfl, h0, rfl, ⟨rfl, rfl, rfl, rfl⟩, fun r c => ?_⟩
    simp
  | cons t fs ih =>
    obtain ⟨r1, r2, r3, r4⟩ := hroom (by simp)
    rw [List.length_cons] at r4
    obtain ⟨s1, e1, e2, e3, e4, ⟨z1, z2, z3, z4⟩, e6⟩ := field_some hR t (hf t List.mem_cons_self) s h0 ⟨r1, r2, r3, by omega⟩
    obtain ⟨s2, f1, f2, f3, ⟨y1, y2, y3, y4⟩, f5⟩ := ih (fun t ht => hf t (List.mem_cons_of_mem _ ht)) s1 e2 (by
      intro hne
      refine ⟨by rw [z1, e4]; exact r1, by rw [z2]; exact r2, by rw [z3, e4]; exact r3, ?_⟩
      rw [z4, e3]
      omega)
    refine ⟨s2, ?_, f2, f3.trans e4, ⟨y1.trans z1, y2.trans z2, y3.trans z3, y4.trans z4⟩, fun r c => ?_⟩
    · rw [List.flatMap_cons, List.foldlM_append]
      show Option.bind _ _ = _
      rw [e1]
      exact f1
    · rw [f5, e4, e3, e6]
      by_cases hr : r = s.row
      · subst hr
        rcases Nat.lt_trichotomy c s.col with hc | hc | hc
        · rw [if_neg (by omega), if_neg (by omega), if_neg (by omega)]
        · subst hc
          rw [if_neg (by omega), if_pos ⟨rfl, rfl⟩, if_pos ⟨rfl, Nat.le_refl _⟩, Nat.sub_self]
          rfl
        · rw [if_pos ⟨rfl, by omega⟩, if_neg (by omega), if_pos ⟨rfl, by omega⟩, show c - s.col = (c - (s.col + 1)) + 1 by omega]
          rfl
      · rw [if_neg (fun h => hr h.1), if_neg (fun h => hr h.1), if_neg (fun h => hr h.1)]

theorem reads_many (atof : List Char → α) (n : Nat) : Reads atof n (Csv.stepMany atof n) where
  char s c h1 h2 := by
    unfold Csv.stepMany
    rw [if_pos ⟨h1, h2⟩]
  semi s := by
    unfold Csv.stepMany
    rw [if_neg (by simp), if_pos (by decide)]

theorem reads_one (atof : List Char → α) (n : Nat) : Reads atof n (Csv.stepOne atof n) where
  char s c h1 _ := by
    unfold Csv.stepOne
    rw [if_pos h1]
  semi s := by
    unfold Csv.stepOne
    rw [if_neg (by simp)]

/-- From cells to arrays. -/
theorem holds_of_cells (atof : List Char → α) (n : Nat) (rows : List (List (List Char))) (inp out : Tab α) (s : Csv α)
    (hz : SameSizes (Csv.init inp out) s)
    (h : ∀ r c, s.cell n r c = valueAt atof rows r c ((Csv.init inp out).cell n r c)) : Holds atof n rows inp out (s.inp, s.out) := by
  refine ⟨fun i c hc => ?_, fun i c => ?_, hz.1, hz.2.1, hz.2.2.1, hz.2.2.2⟩
  · have := h i c
    unfold Csv.cell at this
    rw [if_pos hc, if_pos hc] at this
    exact this
  · have := h i (n + c)
    unfold Csv.cell at this
    rw [if_neg (by omega), if_neg (by omega), Nat.add_sub_cancel_left] at this
    exact this

theorem many_rows (atof : List Char → α) (n : Nat) (rows : List (List (List Char))) (hf : ∀ r ∈ rows, ∀ t ∈ r, Field t) (s : Csv α)
    (h0 : s.cnt = 0) (hc : s.col = 0) (h1 : s.row + rows.length ≤ s.inp.rows) (h2 : n ≤ s.inp.cols)
    (h3 : s.row + rows.length ≤ s.out.rows) (h4 : ∀ r ∈ rows, r.length ≤ n + s.out.cols) :
    ∃ s', (csvFile rows).foldlM (Csv.stepMany atof n) s = some s' ∧ SameSizes s s' ∧
      ∀ r c, s'.cell n r c = if s.row ≤ r then valueAt atof rows (r - s.row) c (s.cell n r c) else s.cell n r c := by
  induction rows generalizing s with
  | nil =>
    refine ⟨s, rfl, ⟨rfl, rfl, rfl, rfl⟩, fun r c => ?_⟩
    unfold valueAt
    simp
  | cons fs rows ih =>
    have hlen : (fs :: rows).length = rows.length + 1 := rfl
    rw [hlen] at h1 h3
    obtain ⟨s1, e1, e2, e3, ⟨z1, z2, z3, z4⟩, e5⟩ := fields_some (reads_many atof n) fs (hf fs List.mem_cons_self) s h0 (by
      intro hne
      have hpos : 0 < fs.length := List.length_pos_of_ne_nil hne
      have := h4 fs List.mem_cons_self
      exact ⟨by omega, h2, by omega, by omega⟩)
    set s2 : Csv α := { s1 with row := s1.row + 1, col := 0, cnt := 0 } with hs2
    obtain ⟨s3, f1, ⟨y1, y2, y3, y4⟩, f3⟩ := ih (fun r hr => hf r (List.mem_cons_of_mem _ hr)) s2 rfl rfl
      (by show s1.row + 1 + rows.length ≤ s1.inp.rows; rw [e3, z1]; omega)
      (by show n ≤ s1.inp.cols; rw [z2]; exact h2)
      (by show s1.row + 1 + rows.length ≤ s1.out.rows; rw [e3, z3]; omega)
      (fun r hr => by show r.length ≤ n + s1.out.cols; rw [z4]; exact h4 r (List.mem_cons_of_mem _ hr))
    refine ⟨s3, ?_, ⟨y1.trans z1, y2.trans z2, y3.trans z3, y4.trans z4⟩, fun r c => ?_⟩
    · show ((fs.flatMap fun t => t ++ [';']) ++ ['\n'] ++ csvFile rows).foldlM _ s = _
      rw [List.append_assoc, List.foldlM_append]
      show Option.bind _ _ = _
      rw [e1]
      show (['\n'] ++ csvFile rows).foldlM (Csv.stepMany atof n) s1 = _
      rw [List.cons_append, List.foldlM_cons, List.nil_append]
      show (Csv.stepMany atof n s1 '\n').bind _ = _
      have : Csv.stepMany atof n s1 '\n' = some s2 := by
        unfold Csv.stepMany
        rw [if_neg (by simp), if_neg (by simp)]
      rw [this]
      exact f1
    · rw [f3]
      show (if s1.row + 1 ≤ r then valueAt atof rows (r - (s1.row + 1)) c (s1.cell n r c) else s1.cell n r c) = _
      rw [e5, e3, hc]
      rcases Nat.lt_trichotomy r s.row with hr | hr | hr
      · rw [if_neg (by omega), if_neg (by omega), if_neg (by omega)]
      · subst hr
        rw [if_neg (by omega), if_pos ⟨rfl, Nat.zero_le c⟩, if_pos (Nat.le_refl _), Nat.sub_self, Nat.sub_zero]
        unfold valueAt
        show _ = match fs[c]? with
          | none => _
          | some t => atof t
        cases fs[c]? <;> rfl
      · rw [if_pos (by omega), if_neg (by omega), if_pos (by omega), show r - s.row = (r - (s.row + 1)) + 1 by omega]
        rfl

/-- **C131, several instances.** For every table of fields (no separator or NUL in a field, at
most 255 characters) and arrays large enough for it: from the file with every field followed
by `;` and every row by a line end, the values of the first `n` fields of each row are in
that row of the inputs, those of the others in that row of the outputs, and nothing else has
changed. -/
theorem C131_csv_rows_partial (atof : List Char → α) (n : Nat) (rows : List (List (List Char))) (inp out : Tab α)
    (hf : ∀ r ∈ rows, ∀ t ∈ r, Field t) (h : Fits n rows inp out) :
    ∃ r, csvMany atof n (csvFile rows) inp out = some r ∧ Holds atof n rows inp out r := by
  obtain ⟨s, e1, e2, e3⟩ := many_rows atof n rows hf (Csv.init inp out) rfl rfl (by simpa [Csv.init] using h.inRows) h.inCols
    (by simpa [Csv.init] using h.outRows) h.outCols
  refine ⟨(s.inp, s.out), ?_, holds_of_cells atof n rows inp out s e2 fun r c => ?_⟩
  · unfold csvMany
    rw [e1]
    rfl
  · rw [e3]
    show (if 0 ≤ r then valueAt atof rows (r - 0) c _ else _) = _
    rw [if_pos (Nat.zero_le r), Nat.sub_zero]

/-- **C131, one instance.** The same for a file with one row; what follows the last `;` is
ignored. -/
theorem C131_csv_single_partial (atof : List Char → α) (n : Nat) (fs : List (List Char)) (rest : List Char) (inp out : Tab α)
    (hf : ∀ t ∈ fs, Field t) (hrest : ';' ∉ rest) (hshort : rest.length ≤ 256) (h : Fits n [fs] inp out) :
    ∃ r, csvOne atof n ((fs.flatMap fun t => t ++ [';']) ++ rest) inp out = some r ∧ Holds atof n [fs] inp out r := by
  have hlen : ([fs] : List (List (List Char))).length = 1 := rfl
  obtain ⟨s, e1, e2, e3, e4, e5⟩ := fields_some (reads_one atof n) fs hf (Csv.init inp out) rfl (by
    intro hne
    have hpos : 0 < fs.length := List.length_pos_of_ne_nil hne
    have h1 := h.inRows
    have h2 := h.outRows
    have h3 := h.outCols fs List.mem_cons_self
    rw [hlen] at h1 h2
    refine ⟨h1, h.inCols, h2, ?_⟩
    show 0 + fs.length - 1 < n + out.cols
    omega)
  have hrun : ∀ (t : List Char), ';' ∉ t → ∀ s : Csv α, t.foldlM (Csv.stepOne atof n) s =
      (s.buf.puts s.cnt t).map fun b => { s with buf := b, cnt := s.cnt + t.length } := by
    intro t
    induction t with
    | nil => exact fun _ s => rfl
    | cons c t ih =>
      intro ht s
      have hc : Csv.stepOne atof n s c = s.char c := by
        unfold Csv.stepOne
        rw [if_pos (fun e => ht (by rw [e]; exact List.mem_cons_self))]
      rw [List.foldlM_cons, hc]
      show (Csv.char c s).bind _ = ((s.buf.put s.cnt c).bind _).map _
      unfold Csv.char
      cases s.buf.put s.cnt c with
      | none => rfl
      | some b =>
        show t.foldlM _ _ = (b.puts (s.cnt + 1) t).map _
        rw [ih (fun h => ht (List.mem_cons_of_mem c h))]
        congr 1
        funext b'
        rw [List.length_cons]
        congr 1
        show s.cnt + 1 + t.length = s.cnt + (t.length + 1)
        omega
  obtain ⟨b', hb, -⟩ := puts_some s.buf 0 rest (by omega)
  refine ⟨(s.inp, s.out), ?_, holds_of_cells atof n [fs] inp out s e4 fun r c => ?_⟩
  · unfold csvOne
    rw [List.foldlM_append]
    show (Option.bind _ _).map _ = _
    rw [e1]
    show (rest.foldlM (Csv.stepOne atof n) s).map _ = _
    rw [hrun rest hrest s, e2, hb]
    rfl
  · rw [e5]
    show (if r = 0 ∧ 0 ≤ c then (fs[c - 0]?).elim _ atof else _) = _
    rw [Nat.sub_zero]
    unfold valueAt
    cases r with
    | zero =>
      rw [if_pos ⟨rfl, Nat.zero_le c⟩]
      show _ = match fs[c]? with
          | none => _
          | some t => atof t
      cases fs[c]? <;> rfl
    | succ r =>
      rw [if_neg (by omega)]
      rfl

/-- A decimal conversion for the examples: the number of characters. -/
def demoAtof (t : List Char) : Nat := t.length

/-- Non-vacuity: two rows of two inputs and one output. -/
example : ∃ r, csvMany demoAtof 2 (csvFile [[['1'], ['2', '.'], ['3']], [['4', '4', '4'], ['5'], []]]) ⟨2, 2, fun _ _ => 9⟩
    ⟨2, 1, fun _ _ => 9⟩ = some r ∧ r.1.get 1 0 = 3 ∧ r.1.get 0 1 = 2 ∧ r.2.get 1 0 = 0 := by
  obtain ⟨r, h1, h2⟩ := C131_csv_rows_partial demoAtof 2 [[['1'], ['2', '.'], ['3']], [['4', '4', '4'], ['5'], []]]
    ⟨2, 2, fun _ _ => 9⟩ ⟨2, 1, fun _ _ => 9⟩ (by
      intro r hr t ht
      simp only [List.mem_cons, List.not_mem_nil, or_false] at hr
      rcases hr with rfl | rfl <;> simp only [List.mem_cons, List.not_mem_nil, or_false] at ht <;>
        rcases ht with rfl | rfl | rfl <;> exact ⟨by decide, by decide, by decide, by decide⟩)
    ⟨by decide, by decide, by decide, by decide⟩
  exact ⟨r, h1, h2.1 1 0 (by decide), h2.1 0 1 (by decide), h2.2.1 1 0⟩

/-- **C131 refuted for long fields.** A file whose first field has 256 characters or more
writes past the end of the buffer, whatever follows. -/
theorem C131_long_field_refuted (atof : List Char → α) (n : Nat) (t rest : List Char) (hs : ';' ∉ t) (hl : '\n' ∉ t)
    (h : 256 ≤ t.length) (inp out : Tab α) : csvMany atof n (t ++ ';' :: rest) inp out = none ∧
      csvOne atof n (t ++ ';' :: rest) inp out = none := by
  have gen : ∀ step, Reads atof n step → (t ++ ';' :: rest).foldlM step (Csv.init inp out) = none := by
    intro step hR
    rw [List.foldlM_append, chars_eq hR t hs hl]
    by_cases h' : t.length = 256
    · show ((Buf.puts (fun _ => none) 0 t).map _).bind _ = none
      cases (Buf.puts (fun _ => none) 0 t) with
      | none => rfl
      | some b =>
        show (step _ ';').bind _ = none
        rw [hR.semi]
        unfold Csv.field Buf.put
        dsimp only
        rw [if_neg (by show ¬ 0 + t.length < 256; omega)]
        rfl
    · show ((Buf.puts (fun _ => none) 0 t).map _).bind _ = none
      rw [puts_none _ 0 t (by omega) (by omega)]
      rfl
  exact ⟨by unfold csvMany; rw [gen _ (reads_many atof n)]; rfl, by unfold csvOne; rw [gen _ (reads_one atof n)]; rfl⟩

/-- **C131 refuted for rows without a final separator.** As in ordinary csv files: the last
field of the only row is not stored, and whatever it is the result is the same. -/
theorem C131_no_final_separator_refuted (atof : List Char → α) (n : Nat) (fs : List (List Char)) (t t' : List Char) (inp out : Tab α)
    (hf : ∀ x ∈ fs, Field x) (ht : Field t) (ht' : Field t') (h : Fits n [fs] inp out) :
    csvMany atof n ((fs.flatMap fun x => x ++ [';']) ++ (t ++ ['\n'])) inp out =
      csvMany atof n ((fs.flatMap fun x => x ++ [';']) ++ (t' ++ ['\n'])) inp out ∧
    (csvMany atof n ((fs.flatMap fun x => x ++ [';']) ++ (t ++ ['\n'])) inp out).isSome := by
  have hlen : ([fs] : List (List (List Char))).length = 1 := rfl
  obtain ⟨s, e1, e2, e3, e4, e5⟩ := fields_some (reads_many atof n) fs hf (Csv.init inp out) rfl (by
    intro hne
    have hpos : 0 < fs.length := List.length_pos_of_ne_nil hne
    have h1 := h.inRows
    have h2 := h.outRows
    have h3 := h.outCols fs List.mem_cons_self
    rw [hlen] at h1 h2
    refine ⟨h1, h.inCols, h2, ?_⟩
    show 0 + fs.length - 1 < n + out.cols
    omega)
  have key : ∀ t, Field t → csvMany atof n ((fs.flatMap fun x => x ++ [';']) ++ (t ++ ['\n'])) inp out = some (s.inp, s.out) := by
    intro t ht
    obtain ⟨b', hb, -⟩ := puts_some s.buf 0 t (by have := ht.short; omega)
    unfold csvMany
    rw [List.foldlM_append]
    show (Option.bind _ _).map _ = _
    rw [e1]
    show ((t ++ ['\n']).foldlM (Csv.stepMany atof n) s).map _ = _
    rw [List.foldlM_append, chars_eq (reads_many atof n) t ht.semi ht.line, e2, hb]
    show ((Csv.stepMany atof n _ '\n').bind _).map _ = _
    unfold Csv.stepMany
    rw [if_neg (by simp), if_neg (by simp)]
    rfl
  rw [key t ht, key t' ht']
  exact ⟨rfl, rfl⟩

/-- Non-vacuity: the row `1;2` with one input and one output. -/
example : (csvMany demoAtof 1 ['1', ';', '2', '2', '\n'] ⟨1, 1, fun _ _ => 9⟩ ⟨1, 1, fun _ _ => 9⟩).map
    (fun r => (r.1.get 0 0, r.2.get 0 0)) = some (1, 9) := by
  decide

/-! ### One character per value -/

theorem store_run (atof : List Char → α) (n : Nat) (t : List Char) (s : Csv α)
    (hroom : t ≠ [] → Room n s s.row (s.col + t.length - 1)) :
    ∃ s', t.foldlM (fun s c => Csv.store n (atof [c]) s) s = some s' ∧ s'.row = s.row ∧ SameSizes s s' ∧
      ∀ r c, s'.cell n r c = if r = s.row ∧ s.col ≤ c then (t[c - s.col]?).elim (s.cell n r c) (fun x => atof [x]) else s.cell n r c := by
  induction t generalizing s with
  | nil =>
    refine ⟨s, rfl, rfl, ⟨rfl, rfl, rfl, rfl⟩, fun r c => ?_⟩
    simp
  | cons x t ih =>
    obtain ⟨r1, r2, r3, r4⟩ := hroom (by simp)
    rw [List.length_cons] at r4
    obtain ⟨s1, e1, -, -, e3, e4, ⟨z1, z2, z3, z4⟩, e6⟩ := store_some n (atof [x]) s ⟨r1, r2, r3, by omega⟩
    obtain ⟨s2, f1, f2, ⟨y1, y2, y3, y4⟩, f5⟩ := ih s1 (by
      intro hne
      refine ⟨by rw [z1, e4]; exact r1, by rw [z2]; exact r2, by rw [z3, e4]; exact r3, ?_⟩
      rw [z4, e3]
      omega)
    refine ⟨s2, ?_, f2.trans e4, ⟨y1.trans z1, y2.trans z2, y3.trans z3, y4.trans z4⟩, fun r c => ?_⟩
    · rw [List.foldlM_cons]
      show Option.bind _ _ = _
      rw [e1]
      exact f1
    · rw [f5, e4, e3, e6]
      by_cases hr : r = s.row
      · subst hr
        rcases Nat.lt_trichotomy c s.col with hc | hc | hc
        · rw [if_neg (by omega), if_neg (by omega), if_neg (by omega)]
        · subst hc
          rw [if_neg (by omega), if_pos ⟨rfl, rfl⟩, if_pos ⟨rfl, Nat.le_refl _⟩, Nat.sub_self]
          rfl
        · rw [if_pos ⟨rfl, by omega⟩, if_neg (by omega), if_pos ⟨rfl, by omega⟩, show c - s.col = (c - (s.col + 1)) + 1 by omega]
          rfl
      · rw [if_neg (fun h => hr h.1), if_neg (fun h => hr h.1), if_neg (fun h => hr h.1)]

/-- The fields of a row of characters. -/
def charFields (t : List Char) : List (List Char) := t.map fun c => [c]

theorem chars_many (atof : List Char → α) (n : Nat) (rows : List (List Char)) (hl : ∀ r ∈ rows, '\n' ∉ r) (s : Csv α)
    (hc : s.col = 0) (h1 : s.row + rows.length ≤ s.inp.rows) (h2 : n ≤ s.inp.cols)
    (h3 : s.row + rows.length ≤ s.out.rows) (h4 : ∀ r ∈ rows, r.length ≤ n + s.out.cols) :
    ∃ s', (rows.flatMap fun r => r ++ ['\n']).foldlM (charStep atof n) s = some s' ∧ SameSizes s s' ∧
      ∀ r c, s'.cell n r c = if s.row ≤ r then valueAt atof (rows.map charFields) (r - s.row) c (s.cell n r c) else s.cell n r c := by
  induction rows generalizing s with
  | nil =>
    refine ⟨s, rfl, ⟨rfl, rfl, rfl, rfl⟩, fun r c => ?_⟩
    unfold valueAt
    simp
  | cons fs rows ih =>
    have hlen : (fs :: rows).length = rows.length + 1 := rfl
    rw [hlen] at h1 h3
    obtain ⟨s1, e1, e3, ⟨z1, z2, z3, z4⟩, e5⟩ := store_run atof n fs s (by
      intro hne
      have hpos : 0 < fs.length := List.length_pos_of_ne_nil hne
      have := h4 fs List.mem_cons_self
      exact ⟨by omega, h2, by omega, by omega⟩)
    have e1' : fs.foldlM (charStep atof n) s = some s1 := by
      rw [← e1]
      have : ∀ (t : List Char), '\n' ∉ t → ∀ s : Csv α,
          t.foldlM (charStep atof n) s = t.foldlM (fun s c => Csv.store n (atof [c]) s) s := by
        intro t
        induction t with
        | nil => exact fun _ _ => rfl
        | cons x t iht =>
          intro hx s
          rw [List.foldlM_cons, List.foldlM_cons]
          have hx' : charStep atof n s x = Csv.store n (atof [x]) s := by
            unfold charStep
            rw [if_pos (fun e => hx (by rw [e]; exact List.mem_cons_self))]
          rw [hx']
          congr 1
          funext s'
          exact iht (fun h => hx (List.mem_cons_of_mem _ h)) s'
      exact this fs (hl fs List.mem_cons_self) s
    set s2 : Csv α := { s1 with row := s1.row + 1, col := 0 } with hs2
    obtain ⟨s3, f1, ⟨y1, y2, y3, y4⟩, f3⟩ := ih (fun r hr => hl r (List.mem_cons_of_mem _ hr)) s2 rfl
      (by show s1.row + 1 + rows.length ≤ s1.inp.rows; rw [e3, z1]; omega)
      (by show n ≤ s1.inp.cols; rw [z2]; exact h2)
      (by show s1.row + 1 + rows.length ≤ s1.out.rows; rw [e3, z3]; omega)
      (fun r hr => by show r.length ≤ n + s1.out.cols; rw [z4]; exact h4 r (List.mem_cons_of_mem _ hr))
    refine ⟨s3, ?_, ⟨y1.trans z1, y2.trans z2, y3.trans z3, y4.trans z4⟩, fun r c => ?_⟩
    · rw [List.flatMap_cons, List.append_assoc, List.foldlM_append]
      show Option.bind _ _ = _
      rw [e1']
      show (['\n'] ++ rows.flatMap fun r => r ++ ['\n']).foldlM (charStep atof n) s1 = _
      rw [List.cons_append, List.foldlM_cons, List.nil_append]
      show (charStep atof n s1 '\n').bind _ = _
      have : charStep atof n s1 '\n' = some s2 := by
        unfold charStep
        rw [if_neg (by simp)]
      rw [this]
      exact f1
    · rw [f3]
      show (if s1.row + 1 ≤ r then valueAt atof (rows.map charFields) (r - (s1.row + 1)) c (s1.cell n r c) else s1.cell n r c) = _
      rw [e5, e3, hc]
      rcases Nat.lt_trichotomy r s.row with hr | hr | hr
      · rw [if_neg (by omega), if_neg (by omega), if_neg (by omega)]
      · subst hr
        rw [if_neg (by omega), if_pos ⟨rfl, Nat.zero_le c⟩, if_pos (Nat.le_refl _), Nat.sub_self, Nat.sub_zero]
        unfold valueAt charFields
        show _ = match (fs.map fun c => [c])[c]? with
          | none => _
          | some t => atof t
        rw [List.getElem?_map]
        cases fs[c]? <;> rfl
      · rw [if_pos (by omega), if_neg (by omega), if_pos (by omega), show r - s.row = (r - (s.row + 1)) + 1 by omega]
        rfl

/-- **C131, one character per value.** The parser for several instances takes every
character of a line as a value, for every table of characters and arrays large enough. -/
theorem C131_char_rows_partial (atof : List Char → α) (n : Nat) (rows : List (List Char)) (inp out : Tab α)
    (hl : ∀ r ∈ rows, '\n' ∉ r) (h : Fits n (rows.map charFields) inp out) :
    ∃ r, charMany atof n (rows.flatMap fun r => r ++ ['\n']) inp out = some r ∧ Holds atof n (rows.map charFields) inp out r := by
  obtain ⟨s, e1, e2, e3⟩ := chars_many atof n rows hl (Csv.init inp out) rfl (by simpa [Csv.init] using h.inRows) h.inCols
    (by simpa [Csv.init] using h.outRows) (fun r hr => by
      have := h.outCols (charFields r) (List.mem_map_of_mem hr)
      simpa [charFields, Csv.init] using this)
  refine ⟨(s.inp, s.out), ?_, holds_of_cells atof n _ inp out s e2 fun r c => ?_⟩
  · unfold charMany
    rw [e1]
    rfl
  · rw [e3]
    show (if 0 ≤ r then valueAt atof _ (r - 0) c _ else _) = _
    rw [if_pos (Nat.zero_le r), Nat.sub_zero]

/-- Non-vacuity. -/
example : (charMany demoAtof 2 ['1', '0', '1', '\n', '0', '0', '1', '\n'] ⟨2, 2, fun _ _ => 9⟩ ⟨2, 1, fun _ _ => 9⟩).map
    (fun r => (r.1.get 1 1, r.2.get 1 0)) = some (1, 1) := by
  decide

/-- **C131, one instance, one character per value.** -/
theorem C131_char_single_partial (atof : List Char → α) (n : Nat) (t : List Char) (inp out : Tab α)
    (h : Fits n [charFields t] inp out) :
    ∃ r, charOne atof n t inp out = some r ∧ Holds atof n [charFields t] inp out r := by
  have hlen : ([charFields t] : List (List (List Char))).length = 1 := rfl
  obtain ⟨s, e1, e2, e3, e4⟩ := store_run atof n t (Csv.init inp out) (by
    intro hne
    have hpos : 0 < t.length := List.length_pos_of_ne_nil hne
    have h1 := h.inRows
    have h2 := h.outRows
    have h3 := h.outCols (charFields t) List.mem_cons_self
    rw [hlen] at h1 h2
    have : (charFields t).length = t.length := by simp [charFields]
    refine ⟨h1, h.inCols, h2, ?_⟩
    show 0 + t.length - 1 < n + out.cols
    omega)
  refine ⟨(s.inp, s.out), ?_, holds_of_cells atof n _ inp out s e3 fun r c => ?_⟩
  · unfold charOne
    rw [e1]
    rfl
  · rw [e4]
    show (if r = 0 ∧ 0 ≤ c then (t[c - 0]?).elim _ _ else _) = _
    rw [Nat.sub_zero]
    unfold valueAt
    cases r with
    | zero =>
      rw [if_pos ⟨rfl, Nat.zero_le c⟩]
      show _ = match (charFields t)[c]? with
          | none => _
          | some t => atof t
      unfold charFields
      rw [List.getElem?_map]
      cases t[c]? <;> rfl
    | succ r =>
      rw [if_neg (by omega)]
      rfl

/-- **C131 refuted for files that end with a line end.** The parser of one instance takes the
line end as one more value: with arrays of exactly the size of the data it writes past the end of
the outputs. -/
theorem C131_line_end_refuted (atof : List Char → α) (n m : Nat) (t : List Char) (ht : t.length = n + m)
    (gi go : Nat → Nat → α) : charOne atof n (t ++ ['\n']) ⟨1, n, gi⟩ ⟨1, m, go⟩ = none := by
  have hcol : ∀ (t : List Char) (s s' : Csv α), t.foldlM (fun s c => Csv.store n (atof [c]) s) s = some s' →
      s'.col = s.col + t.length ∧ SameSizes s s' := by
    intro t
    induction t with
    | nil =>
      intro s s' h
      cases h
      exact ⟨rfl, rfl, rfl, rfl, rfl⟩
    | cons x t ih =>
      intro s s' h
      rw [List.foldlM_cons] at h
      obtain ⟨s1, h1, h2⟩ := Option.bind_eq_some_iff.1 h
      obtain ⟨i1, i2, i3, i4, i5⟩ := ih s1 s' h2
      have : s1.col = s.col + 1 ∧ SameSizes s s1 := by
        unfold Csv.store at h1
        by_cases hc : s.col < n
        · rw [if_pos hc] at h1
          obtain ⟨tb, hw, rfl⟩ := Option.map_eq_some_iff.1 h1
          unfold Tab.write at hw
          by_cases hb : s.row < s.inp.rows ∧ s.col < s.inp.cols
          · rw [if_pos hb] at hw
            cases hw
            exact ⟨rfl, rfl, rfl, rfl, rfl⟩
          · rw [if_neg hb] at hw
            cases hw
        · rw [if_neg hc] at h1
          obtain ⟨tb, hw, rfl⟩ := Option.map_eq_some_iff.1 h1
          unfold Tab.write at hw
          by_cases hb : s.row < s.out.rows ∧ s.col - n < s.out.cols
          · rw [if_pos hb] at hw
            cases hw
            exact ⟨rfl, rfl, rfl, rfl, rfl⟩
          · rw [if_neg hb] at hw
            cases hw
      obtain ⟨j1, j2, j3, j4, j5⟩ := this
      exact ⟨by rw [i1, j1, List.length_cons]; omega, i2.trans j2, i3.trans j3, i4.trans j4, i5.trans j5⟩
  unfold charOne
  rw [List.foldlM_append]
  show (Option.bind _ _).map _ = none
  cases hr : t.foldlM (fun s c => Csv.store n (atof [c]) s) (Csv.init (⟨1, n, gi⟩ : Tab α) ⟨1, m, go⟩) with
  | none => rfl
  | some s =>
    obtain ⟨h1, -, -, -, h5⟩ := hcol t _ s hr
    have h1' : s.col = n + m := by rw [h1, ht]; show 0 + (n + m) = _; omega
    show ((Csv.store n (atof ['\n']) s).bind _).map _ = none
    unfold Csv.store
    rw [if_neg (by omega)]
    unfold Tab.write
    have h5' : s.out.cols = m := h5
    rw [if_neg (by omega)]
    rfl

/-- Non-vacuity of `C131_char_single_partial`. -/
example : (charOne demoAtof 2 ['1', '0', '1'] ⟨1, 2, fun _ _ => 9⟩ ⟨1, 1, fun _ _ => 9⟩).map
    (fun r => (r.1.get 0 1, r.2.get 0 0)) = some (1, 1) := by
  decide

/-! ### The files of digits -/

/-- `atoi` of a string of one character: its digit, 0 for anything else. -/
def digit (c : Char) : Nat := if c.isDigit then c.toNat - '0'.toNat else 0

/-- `get_inputs_from_multiple_instances_single_char_binary_file_with_single_softmax_output`
(`/repo/src/parser.c` 28-45); reading after the end of the file is `none`. -/
def digitInputs (atof : List Char → α) (n inst : Nat) (file : List Char) : Option (List (List α)) :=
  (List.range inst).mapM fun i => (List.range n).mapM fun j => file[i * (n + 1) + j]?.map fun c => atof [c]

/-- `get_outputs_from_multiple_instances_single_char_binary_file_with_single_softmax_output`
(`/repo/src/parser.c` 47-64); `none` also when the class is not below `output_dimension`. -/
def digitOutputs (zero one : α) (n m inst : Nat) (file : List Char) : Option (List (List α)) :=
  (List.range inst).mapM fun i => file[i * (n + 1) + n]?.bind fun c =>
    if digit c < m then some ((List.range m).map fun k => if k = digit c then one else zero) else none

theorem mapM_range_some {β : Type} (N : Nat) (f : Nat → Option β) (g : Nat → β) (h : ∀ i, i < N → f i = some (g i)) :
    (List.range N).mapM f = some ((List.range N).map g) := by
  have key : ∀ l : List Nat, (∀ i ∈ l, i < N) → l.mapM f = some (l.map g) := by
    intro l
    induction l with
    | nil => exact fun _ => rfl
    | cons a l ih =>
      intro hl
      rw [List.mapM_cons, h a (hl a List.mem_cons_self), ih fun i hi => hl i (List.mem_cons_of_mem _ hi)]
      rfl
  exact key _ fun i hi => List.mem_range.1 hi

/-- The `j`-th character of the `i`-th record. -/
theorem record_at (n : Nat) (rows : List (List Char)) (hr : ∀ r ∈ rows, r.length = n + 1) (rest : List Char) (i : Nat) (hi : i < rows.length)
    (j : Nat) (hj : j < n + 1) : (rows.flatten ++ rest)[i * (n + 1) + j]? = (rows[i]'hi)[j]? := by
  induction rows generalizing i with
  | nil => exact absurd hi (Nat.not_lt_zero _)
  | cons r rows ih =>
    have hlen := hr r List.mem_cons_self
    cases i with
    | zero =>
      rw [Nat.zero_mul, Nat.zero_add, List.flatten_cons, List.append_assoc, List.getElem?_append_left (by omega)]
      rfl
    | succ i =>
      have e : (i + 1) * (n + 1) + j = r.length + (i * (n + 1) + j) := by
        rw [hlen, Nat.succ_mul]
        omega
      rw [e, List.flatten_cons, List.append_assoc, List.getElem?_append_right (by omega), Nat.add_sub_cancel_left]
      exact ih (fun r hr' => hr r (List.mem_cons_of_mem _ hr')) i (by simpa using hi)

/-- **C131, files of digits.** For every list of records, each of `n` characters and the
character of its class, written one after the other: the inputs are the values of the characters of each
record, and when the classes are below the number of outputs the outputs are one at the class
and zero elsewhere. -/
theorem C131_digits_partial (atof : List Char → α) (zero one : α) (n m : Nat) (rows : List (List Char × Char))
    (hr : ∀ r ∈ rows, r.1.length = n) (rest : List Char) :
    digitInputs atof n rows.length ((rows.map fun r => r.1 ++ [r.2]).flatten ++ rest) =
      some (rows.map fun r => r.1.map fun c => atof [c]) ∧
    ((∀ r ∈ rows, digit r.2 < m) →
      digitOutputs zero one n m rows.length ((rows.map fun r => r.1 ++ [r.2]).flatten ++ rest) =
        some (rows.map fun r => (List.range m).map fun k => if k = digit r.2 then one else zero)) := by
  have hlen : ∀ r ∈ rows.map (fun r => r.1 ++ [r.2]), r.length = n + 1 := by
    intro r hm
    obtain ⟨r', h', rfl⟩ := List.mem_map.1 hm
    rw [List.length_append, hr r' h']
    rfl
  have at' : ∀ i (hi : i < rows.length) j, j < n + 1 →
      ((rows.map fun r => r.1 ++ [r.2]).flatten ++ rest)[i * (n + 1) + j]? = (rows[i].1 ++ [rows[i].2])[j]? := by
    intro i hi j hj
    rw [record_at n _ hlen rest i (by simpa using hi) j hj, List.getElem_map]
  have back : ∀ {β : Type} (f : List Char × Char → β) (d : β),
      (List.range rows.length).map (fun i => (rows[i]?.map f).getD d) = rows.map f := by
    intro β f d
    refine List.ext_getElem (by simp) fun i h1 h2 => ?_
    rw [List.length_map, List.length_range] at h1
    simp [List.getElem?_eq_getElem h1]
  constructor
  · unfold digitInputs
    rw [mapM_range_some _ _ (fun i => (rows[i]?.map fun r => r.1.map fun c => atof [c]).getD []) ?_, back]
    intro i hi
    rw [List.getElem?_eq_getElem hi]
    have hn := hr _ (List.getElem_mem hi)
    rw [mapM_range_some _ _ (fun j => (rows[i].1[j]?.map fun c => atof [c]).getD (atof [])) ?_]
    · congr 1
      refine List.ext_getElem (by simp [hn]) fun j h1 h2 => ?_
      rw [List.length_map, List.length_range] at h1
      simp [List.getElem?_eq_getElem (show j < rows[i].1.length by omega)]
    · intro j hj
      rw [at' i hi j (by omega), List.getElem?_append_left (by omega), List.getElem?_eq_getElem (by omega)]
      rfl
  · intro hm
    unfold digitOutputs
    rw [mapM_range_some _ _ (fun i => (rows[i]?.map fun r => (List.range m).map fun k => if k = digit r.2 then one else zero).getD []) ?_, back]
    intro i hi
    rw [List.getElem?_eq_getElem hi]
    have hn := hr _ (List.getElem_mem hi)
    rw [at' i hi n (by omega), List.getElem?_append_right (by omega), hn, Nat.sub_self]
    show (if digit rows[i].2 < m then _ else _) = _
    rw [if_pos (hm _ (List.getElem_mem hi))]
    rfl

example : digitOutputs 0 1 2 3 2 ['0', '1', '2', '1', '1', '0'] = some [[0, 0, 1], [1, 0, 0]] := by decide

/-- **C131 refuted for line ends and classes.** With a line end after every record of at
least one character the second record starts with the line end; and a class that is
not below the number of outputs is written outside of the array. -/
theorem C131_digits_refuted (atof : List Char → α) (zero one : α) (n m : Nat) (r r' : List Char) (c c' : Char) (hr : r.length = n)
    (rest : List Char) (hn : 0 < n) :
    (∀ ins, digitInputs atof n 2 (r ++ [c] ++ ['\n'] ++ (r' ++ [c'] ++ rest)) = some ins → ∃ x, ins[1]? = some (atof ['\n'] :: x)) ∧
    (m ≤ digit c → digitOutputs zero one n m 1 (r ++ [c] ++ rest) = none) := by
  constructor
  · intro ins h
    obtain ⟨k, rfl⟩ : ∃ k, n = k + 1 := ⟨n - 1, by omega⟩
    have e2 : List.range 2 = [0, 1] := rfl
    unfold digitInputs at h
    rw [e2, List.mapM_cons, List.mapM_cons, List.mapM_nil] at h
    obtain ⟨a, -, h⟩ := Option.bind_eq_some_iff.1 h
    obtain ⟨bs, h1, h⟩ := Option.bind_eq_some_iff.1 h
    obtain ⟨b, h2, h1⟩ := Option.bind_eq_some_iff.1 h1
    obtain ⟨bb, h3, h1⟩ := Option.bind_eq_some_iff.1 h1
    cases h3
    cases h1
    cases h
    rw [List.range_succ_eq_map, List.mapM_cons] at h2
    obtain ⟨x, hx, h2⟩ := Option.bind_eq_some_iff.1 h2
    obtain ⟨y, hy, h2⟩ := Option.bind_eq_some_iff.1 h2
    cases h2
    refine ⟨y, ?_⟩
    have e : (r ++ [c] ++ ['\n'] ++ (r' ++ [c'] ++ rest))[1 * (k + 1 + 1) + 0]? = some '\n' := by
      rw [List.append_assoc, List.getElem?_append_right (by simp [hr])]
      simp [hr]
    rw [e] at hx
    cases hx
    rfl
  · intro hm
    unfold digitOutputs
    have e : (r ++ [c] ++ rest)[0 * (n + 1) + n]? = some c := by
      rw [List.append_assoc, List.getElem?_append_right (by simp [hr])]
      simp [hr]
    have e1 : List.range 1 = [0] := rfl
    rw [e1, List.mapM_cons, e]
    show (if digit c < m then _ else none : Option _).bind _ = _
    rw [if_neg (by omega)]
    rfl

example : digitInputs (fun t => t) 2 2 ['0', '1', '2', '\n', '1', '1', '0'] = some [[['0'], ['1']], [['\n'], ['1']]] := by decide

end LLab.Parse
