import Mathlib.Data.List.Basic
import Mathlib.Order.Lattice
import Mathlib.Algebra.Order.Group.Nat
import Mathlib.Tactic.Linarith
import Mathlib.Tactic.NormNum

/-! Model of `itoa_n` (`/repo/src/utils.c` 146-164) and `get_files`
(911-928); property `C05`. -/

namespace LLab.Utils

/-- `digit[i%10]` (`/repo/src/utils.c` 147, 160). -/
def digitChar (d : Nat) : Char :=
  if d = 0 then '0' else if d = 1 then '1' else if d = 2 then '2' else if d = 3 then '3'
  else if d = 4 then '4' else if d = 5 then '5' else if d = 6 then '6' else if d = 7 then '7'
  else if d = 8 then '8' else '9'

/-- `do { ++p; shifter = shifter/10; } while(shifter);`
(`/repo/src/utils.c` 153-157): the final value of `p`. -/
def countLoop (p shifter : Nat) : Nat :=
  if shifter / 10 = 0 then p + 1 else countLoop (p + 1) (shifter / 10)
termination_by shifter
decreasing_by omega

/-- `*p = c;` -/
def writeAt (b : List Char) (p : Nat) (c : Char) : Option (List Char) :=
  if p < b.length then some (b.set p c) else none

/-- `do { *--p = digit[i%10]; i = i/10; } while(i);`
(`/repo/src/utils.c` 159-162).  `p = 0` would write before the buffer. -/
def fillLoop (b : List Char) (p i : Nat) : Option (List Char) :=
  match p with
  | 0 => none
  | p + 1 =>
    match writeAt b p (digitChar (i % 10)) with
    | none => none
    | some b' => if i / 10 = 0 then some b' else fillLoop b' p (i / 10)

/-- `itoa_n(i, b)` (`/repo/src/utils.c` 146-164).  `b` is the caller's buffer.
`none` is undefined behaviour: a write outside `b`, or the overflow of
`i *= -1` for `INT_MIN`. -/
def itoaN (i : Int) (b : List Char) : Option (List Char) :=
  if i < 0 then
    if i = -2147483648 then none
    else do
      let b0 ← writeAt b 0 '-'
      let n := (-i).toNat
      let p := countLoop 1 n
      let b1 ← writeAt b0 p '\x00'
      fillLoop b1 p n
  else do
    let n := i.toNat
    let p := countLoop 0 n
    let b1 ← writeAt b p '\x00'
    fillLoop b1 p n

/-- The C string held by a buffer: the characters before the first NUL. -/
def cString (b : List Char) : List Char := b.takeWhile (· ≠ '\x00')

/-! ### Specification: reading a decimal numeral -/

/-- Value of a decimal digit character. -/
def digitVal (c : Char) : Option Nat :=
  if '0' ≤ c ∧ c ≤ '9' then some (c.toNat - '0'.toNat) else none

/-- Left-to-right evaluation of a digit string. -/
def readNatFrom : Nat → List Char → Option Nat
  | acc, [] => some acc
  | acc, c :: cs => do
    let d ← digitVal c
    readNatFrom (acc * 10 + d) cs

/-- Reading an integer numeral with optional minus sign. -/
def readInt : List Char → Option Int
  | [] => none
  | c :: cs =>
    if c = '-' ∧ cs ≠ [] then (readNatFrom 0 cs).map (fun n : Nat => -(n : Int))
    else (readNatFrom 0 (c :: cs)).map (fun n : Nat => (n : Int))

/-! ### Lemmas -/

theorem digitVal_digitChar {d : Nat} (h : d < 10) : digitVal (digitChar d) = some d := by
  have : d = 0 ∨ d = 1 ∨ d = 2 ∨ d = 3 ∨ d = 4 ∨ d = 5 ∨ d = 6 ∨ d = 7 ∨ d = 8 ∨ d = 9 := by omega
  rcases this with h | h | h | h | h | h | h | h | h | h <;> subst h <;> decide

theorem digitChar_ne_nul (d : Nat) : digitChar d ≠ '\x00' := by
  unfold digitChar
  repeat' split
  all_goals decide

theorem digitChar_ne_minus (d : Nat) : digitChar d ≠ '-' := by
  unfold digitChar
  repeat' split
  all_goals decide

/-- Digits of `n`, most significant first. -/
def digitsOf (n : Nat) : List Char :=
  if n / 10 = 0 then [digitChar (n % 10)] else digitsOf (n / 10) ++ [digitChar (n % 10)]
termination_by n
decreasing_by omega

theorem digitsOf_ne_nil (n : Nat) : digitsOf n ≠ [] := by
  rw [digitsOf]; split <;> simp

theorem countLoop_eq (n : Nat) : ∀ p, countLoop p n = p + (digitsOf n).length := by
  induction n using Nat.strong_induction_on with
  | _ n ih =>
    intro p
    rw [countLoop, digitsOf]
    split
    · simp
    · next h => rw [ih (n / 10) (by omega)]; simp; omega

theorem readNatFrom_append (xs ys : List Char) : ∀ acc,
    readNatFrom acc (xs ++ ys) = (readNatFrom acc xs).bind (fun a => readNatFrom a ys) := by
  induction xs with
  | nil => intro acc; simp [readNatFrom]
  | cons x xs ih =>
    intro acc
    simp only [List.cons_append, readNatFrom]
    cases digitVal x with
    | none => rfl
    | some d => simp [ih]

theorem readNatFrom_digitsOf (n : Nat) : readNatFrom 0 (digitsOf n) = some n := by
  induction n using Nat.strong_induction_on with
  | _ n ih =>
    rw [digitsOf]
    split
    · next h =>
      simp only [readNatFrom, digitVal_digitChar (Nat.mod_lt n (by omega : 10 > 0))]
      simp; omega
    · next h =>
      rw [readNatFrom_append, ih (n / 10) (by omega)]
      simp only [Option.bind_some, readNatFrom, digitVal_digitChar (Nat.mod_lt n (by omega : 10 > 0))]
      simp; omega

theorem digitsOf_ne_nul (n : Nat) : ∀ c ∈ digitsOf n, c ≠ '\x00' := by
  induction n using Nat.strong_induction_on with
  | _ n ih =>
    intro c hc
    rw [digitsOf] at hc
    split at hc
    · simp at hc; subst hc; exact digitChar_ne_nul _
    · rw [List.mem_append] at hc
      rcases hc with hc | hc
      · exact ih (n / 10) (by omega) c hc
      · simp at hc; subst hc; exact digitChar_ne_nul _

theorem digitsOf_ne_minus (n : Nat) : ∀ c ∈ digitsOf n, c ≠ '-' := by
  induction n using Nat.strong_induction_on with
  | _ n ih =>
    intro c hc
    rw [digitsOf] at hc
    split at hc
    · simp at hc; subst hc; exact digitChar_ne_minus _
    · rw [List.mem_append] at hc
      rcases hc with hc | hc
      · exact ih (n / 10) (by omega) c hc
      · simp at hc; subst hc; exact digitChar_ne_minus _

/-- No leading zero: the first digit of a positive number is not `0`. -/
theorem digitsOf_head (n : Nat) (hn : 0 < n) : (digitsOf n).head? ≠ some '0' := by
  induction n using Nat.strong_induction_on with
  | _ n ih =>
    rw [digitsOf]
    split
    · next h =>
      have h9 : n % 10 ≠ 0 := by omega
      have hlt : n % 10 < 10 := Nat.mod_lt _ (by omega)
      intro e
      simp only [List.head?_cons, Option.some.injEq] at e
      have := digitVal_digitChar hlt
      rw [e] at this
      have h0 : digitVal '0' = some 0 := by decide
      rw [h0] at this
      simp at this
      omega
    · next h =>
      rw [List.head?_append_of_ne_nil _ (digitsOf_ne_nil _)]
      exact ih (n / 10) (by omega) (by omega)

theorem fillLoop_eq (n : Nat) : ∀ (pre mid post : List Char),
    mid.length = (digitsOf n).length →
    fillLoop (pre ++ mid ++ post) (pre.length + mid.length) n = some (pre ++ digitsOf n ++ post) := by
  induction n using Nat.strong_induction_on with
  | _ n ih =>
    intro pre mid post hlen
    rcases List.eq_nil_or_concat mid with hm | ⟨mid', c, hm⟩
    · subst hm
      have := digitsOf_ne_nil n
      simp only [List.length_nil] at hlen
      exact absurd (List.length_eq_zero_iff.1 hlen.symm) this
    · rw [List.concat_eq_append] at hm
      subst hm
      have hp : pre.length + (mid' ++ [c]).length = (pre.length + mid'.length) + 1 := by
        simp; omega
      rw [hp, fillLoop]
      have hw : writeAt (pre ++ (mid' ++ [c]) ++ post) (pre.length + mid'.length)
          (digitChar (n % 10)) = some (pre ++ mid' ++ (digitChar (n % 10) :: post)) := by
        rw [writeAt, if_pos (by simp)]
        congr 1
        have e1 : pre ++ (mid' ++ [c]) ++ post = (pre ++ mid') ++ (c :: post) := by simp
        rw [e1, List.set_append_right _ _ (by simp)]
        simp
      rw [hw]
      simp only
      rw [digitsOf] at hlen ⊢
      split
      · next h =>
        rw [if_pos h] at hlen
        have : mid' = [] := by
          simpa using hlen
        subst this
        simp [h]
      · next h =>
        rw [if_neg h] at hlen
        rw [ih (n / 10) (by omega) pre mid' _ (by simpa using hlen)]
        simp [h]

theorem writeAt_mid (pre : List Char) (x c : Char) (post : List Char) :
    writeAt (pre ++ x :: post) pre.length c = some (pre ++ c :: post) := by
  rw [writeAt, if_pos (by simp), List.set_append_right _ _ (by simp)]
  simp

theorem digitsOf_length_le (k : Nat) : ∀ n, n < 10 ^ (k + 1) → (digitsOf n).length ≤ k + 1 := by
  induction k with
  | zero =>
    intro n h
    rw [digitsOf, if_pos (by omega)]
    simp
  | succ k ih =>
    intro n h
    rw [digitsOf]
    split
    · simp
    · have := ih (n / 10) (by rw [Nat.div_lt_iff_lt_mul (by omega)]; rw [pow_succ] at h; exact h)
      simp; omega

theorem cString_of (s post : List Char) (h : ∀ c ∈ s, c ≠ '\x00') :
    cString (s ++ '\x00' :: post) = s := by
  rw [cString, List.takeWhile_append_of_pos (by simpa using h)]
  simp

/-- The text written by `itoa_n`. -/
def itoaText (i : Int) : List Char :=
  if i < 0 then '-' :: digitsOf (-i).toNat else digitsOf i.toNat

theorem itoaN_text (i : Int) (h1 : -2147483648 < i) (h2 : i ≤ 2147483647) (b : List Char)
    (hb : 12 ≤ b.length) : ∃ b', itoaN i b = some b' ∧ b'.length = b.length ∧ cString b' = itoaText i := by
  have split_at : ∀ (l : List Char) (k : Nat), k < l.length →
      ∃ mid x post, l = mid ++ x :: post ∧ mid.length = k := by
    intro l k hk
    refine ⟨l.take k, l[k], l.drop (k + 1), ?_, by simp; omega⟩
    rw [← List.drop_eq_getElem_cons hk, List.take_append_drop]
  by_cases hneg : i < 0
  · have hne : ¬ i = -2147483648 := by omega
    set n := (-i).toNat with hn
    have hlen : (digitsOf n).length ≤ 10 := digitsOf_length_le 9 n (by norm_num; omega)
    obtain ⟨x, rest, rfl⟩ : ∃ x rest, b = x :: rest := by
      cases b with
      | nil => simp at hb
      | cons x rest => exact ⟨x, rest, rfl⟩
    obtain ⟨mid, y, post, e, hmid⟩ := split_at rest (digitsOf n).length (by simp at hb; omega)
    subst e
    refine ⟨['-'] ++ digitsOf n ++ '\x00' :: post, ?_, ?_, ?_⟩
    · simp only [itoaN, hneg, if_true, hne, if_false]
      have w0 : writeAt (x :: (mid ++ y :: post)) 0 '-' = some (['-'] ++ mid ++ y :: post) := by
        simp [writeAt]
      have w1 : writeAt (['-'] ++ mid ++ y :: post) (countLoop 1 n) '\x00' =
          some (['-'] ++ mid ++ '\x00' :: post) := by
        have : countLoop 1 n = (['-'] ++ mid).length := by
          rw [countLoop_eq]; simp; omega
        rw [this]; exact writeAt_mid _ _ _ _
      rw [w0]
      simp only [Option.bind_eq_bind, Option.bind_some]
      rw [← hn, w1]
      simp only [Option.bind_some]
      have : countLoop 1 n = (['-'] : List Char).length + mid.length := by
        rw [countLoop_eq]; simp; omega
      rw [this]
      exact fillLoop_eq n ['-'] mid _ hmid
    · simp; omega
    · rw [cString_of]
      · simp [itoaText, hneg, hn]
      · intro c hc
        rw [List.mem_append] at hc
        rcases hc with hc | hc
        · simp at hc; subst hc; decide
        · exact digitsOf_ne_nul n c hc
  · set n := i.toNat with hn
    have hlen : (digitsOf n).length ≤ 10 := digitsOf_length_le 9 n (by norm_num; omega)
    obtain ⟨mid, y, post, e, hmid⟩ := split_at b (digitsOf n).length (by omega)
    subst e
    refine ⟨[] ++ digitsOf n ++ '\x00' :: post, ?_, ?_, ?_⟩
    · simp only [itoaN, hneg, if_false]
      have w1 : writeAt (mid ++ y :: post) (countLoop 0 n) '\x00' =
          some (mid ++ '\x00' :: post) := by
        have : countLoop 0 n = mid.length := by
          rw [countLoop_eq]; omega
        rw [this]; exact writeAt_mid _ _ _ _
      rw [← hn, w1]
      simp only [Option.bind_eq_bind, Option.bind_some]
      have : countLoop 0 n = ([] : List Char).length + mid.length := by
        rw [countLoop_eq]; simp; omega
      rw [this]
      exact fillLoop_eq n [] mid _ hmid
    · simp; omega
    · rw [List.nil_append, cString_of _ _ (digitsOf_ne_nul n)]
      simp [itoaText, hneg, hn]

theorem readInt_itoaText (i : Int) : readInt (itoaText i) = some i := by
  unfold itoaText
  split
  · next h =>
    have h1 := readNatFrom_digitsOf (-i).toNat
    rw [readInt, if_pos ⟨rfl, digitsOf_ne_nil _⟩, h1]
    simp only [Option.map_some]
    congr 1
    omega
  · next h =>
    have h1 := readNatFrom_digitsOf i.toNat
    have h2 := digitsOf_ne_minus i.toNat
    cases hd : digitsOf i.toNat with
    | nil => exact absurd hd (digitsOf_ne_nil _)
    | cons c cs =>
      rw [hd] at h1 h2
      have hc : c ≠ '-' := h2 c (by simp)
      rw [readInt, if_neg (fun hh => hc hh.1), h1]
      simp only [Option.map_some]
      congr 1
      omega

/-! ### Properties -/

/-- **C05, round trip.** For every C `int` except `INT_MIN` and every buffer of
at least 12 characters, `itoa_n` writes inside the buffer a NUL-terminated
decimal numeral whose value is the argument. -/
theorem C05_itoa_round_trip (i : Int) (h1 : -2147483648 < i) (h2 : i ≤ 2147483647)
    (b : List Char) (hb : 12 ≤ b.length) :
    ∃ b', itoaN i b = some b' ∧ b'.length = b.length ∧ readInt (cString b') = some i := by
  obtain ⟨b', e, l, t⟩ := itoaN_text i h1 h2 b hb
  exact ⟨b', e, l, by rw [t, readInt_itoaText]⟩

/-- **C05, distinct names.** Two different arguments never produce the same
text, whatever the buffers contained before. -/
theorem C05_itoa_injective (i j : Int) (hi1 : -2147483648 < i) (hi2 : i ≤ 2147483647)
    (hj1 : -2147483648 < j) (hj2 : j ≤ 2147483647) (b c : List Char)
    (hb : 12 ≤ b.length) (hc : 12 ≤ c.length) (b' c' : List Char)
    (eb : itoaN i b = some b') (ec : itoaN j c = some c') (h : cString b' = cString c') : i = j := by
  obtain ⟨b1, e1, _, r1⟩ := C05_itoa_round_trip i hi1 hi2 b hb
  obtain ⟨c1, e2, _, r2⟩ := C05_itoa_round_trip j hj1 hj2 c hc
  rw [eb] at e1; cases e1
  rw [ec] at e2; cases e2
  rw [h, r2] at r1
  exact (Option.some.inj r1).symm

/-- **C05, canonical form.** A positive argument is written without leading
zero, zero as `0`. -/
theorem C05_itoa_canonical (i : Int) (h1 : 0 ≤ i) (h2 : i ≤ 2147483647) (b : List Char)
    (hb : 12 ≤ b.length) (b' : List Char) (e : itoaN i b = some b') :
    (i = 0 → cString b' = ['0']) ∧ (0 < i → (cString b').head? ≠ some '0') := by
  obtain ⟨b1, e1, _, t⟩ := itoaN_text i (by omega) h2 b hb
  rw [e] at e1; cases e1
  rw [t, itoaText, if_neg (by omega)]
  constructor
  · intro h; subst h; rw [digitsOf]; rfl
  · intro h; exact digitsOf_head _ (by omega)

/-- **C05, excluded argument.** `INT_MIN` overflows. -/
theorem C05_itoa_int_min (b : List Char) : itoaN (-2147483648) b = none := by
  simp [itoaN]

/-- The file name built by `get_files` for number `k`: `./` ++ numeral ++ `.bin`
(`/repo/src/utils.c` 911-928). -/
def fileName (b' : List Char) : List Char := ['.', '/'] ++ cString b' ++ ['.', 'b', 'i', 'n']

/-- **C05, file names.** Different numbers give different file names. -/
theorem C05_file_names_distinct (i j : Int) (hi1 : -2147483648 < i) (hi2 : i ≤ 2147483647)
    (hj1 : -2147483648 < j) (hj2 : j ≤ 2147483647) (b c b' c' : List Char)
    (hb : 12 ≤ b.length) (hc : 12 ≤ c.length)
    (eb : itoaN i b = some b') (ec : itoaN j c = some c') (h : fileName b' = fileName c') :
    i = j := by
  apply C05_itoa_injective i j hi1 hi2 hj1 hj2 b c hb hc b' c' eb ec
  simpa [fileName] using h

example : (itoaN (-407) (List.replicate 12 'x')).map cString = some ['-', '4', '0', '7'] := by
  decide +kernel

end LLab.Utils
