import Mathlib.Data.List.Basic
import Mathlib.Logic.Function.Basic

/-!
The character buffer `temp2` of the parsers of `/repo/src/parser.c`, and what C string
functions see in it.
-/

namespace LLab.Parse

/-- A buffer of 256 characters from `malloc`: `none` is a character never written
(`char* temp2 = (char*)malloc(sizeof(char)*256)`). -/
abbrev Buf := Nat → Option Char

/-- `temp2[i] = c`: undefined outside of the buffer. -/
def Buf.put (b : Buf) (i : Nat) (c : Char) : Option Buf :=
  if i < 256 then some (Function.update b i (some c)) else none

/-- The string a C function reads from position `i` on: up to the first NUL. Reading a
character never written, or past the end, is undefined. -/
def Buf.cstrFrom (b : Buf) : Nat → Nat → Option (List Char)
  | 0, _ => none
  | f + 1, i => (b i).bind fun c => if c = '\x00' then some [] else (Buf.cstrFrom b f (i + 1)).map (c :: ·)

/-- The string at the start of the buffer. -/
def Buf.cstr (b : Buf) : Option (List Char) := b.cstrFrom 256 0

/-- Writing a list of characters from position `i` on. -/
def Buf.puts (b : Buf) : Nat → List Char → Option Buf
  | _, [] => some b
  | i, c :: cs => (b.put i c).bind fun b' => Buf.puts b' (i + 1) cs

/-- A field of a file: no separator, no NUL, and short enough for the buffer. -/
structure Field (t : List Char) : Prop where
  short : t.length ≤ 255
  semi : ';' ∉ t
  line : '\n' ∉ t
  nul : '\x00' ∉ t

theorem puts_some (b : Buf) (i : Nat) (t : List Char) (h : i + t.length ≤ 256) :
    ∃ b', b.puts i t = some b' ∧ (∀ j, j < i → b' j = b j) ∧ (∀ j, j < t.length → b' (i + j) = t[j]?) ∧
      ∀ j, i + t.length ≤ j → b' j = b j := by
  induction t generalizing b i with
  | nil => exact ⟨b, rfl, fun _ _ => rfl, fun j hj => absurd hj (Nat.not_lt_zero j), fun _ _ => rfl⟩
  | cons c t ih =>
    have hl : (c :: t).length = t.length + 1 := rfl
    rw [hl] at h
    obtain ⟨b', h1, h2, h3, h4⟩ := ih (Function.update b i (some c)) (i + 1) (by omega)
    refine ⟨b', ?_, fun j hj => ?_, fun j hj => ?_, fun j hj => ?_⟩
    · show (b.put i c).bind _ = _
      unfold Buf.put
      rw [if_pos (by omega)]
      exact h1
    · rw [h2 j (by omega), Function.update_of_ne (by omega)]
    · cases j with
      | zero =>
        show b' i = some c
        rw [h2 i (by omega), Function.update_self]
      | succ j =>
        show b' (i + (j + 1)) = t[j]?
        rw [← h3 j (by rw [hl] at hj; omega)]
        congr 1
        omega
    · rw [hl] at hj
      rw [h4 j (by omega), Function.update_of_ne (by omega)]

theorem puts_none (b : Buf) (i : Nat) (t : List Char) (h : 256 < i + t.length) (hi : i ≤ 256) : b.puts i t = none := by
  induction t generalizing b i with
  | nil =>
    simp at h
    omega
  | cons c t ih =>
    show (b.put i c).bind _ = none
    unfold Buf.put
    by_cases h' : i < 256
    · rw [if_pos h']
      exact ih _ (i + 1) (by rw [List.length_cons] at h; omega) (by omega)
    · rw [if_neg h']
      rfl

theorem cstrFrom_eq (b : Buf) (t : List Char) (i f : Nat) (hf : t.length < f) (h : ∀ j, j < t.length → b (i + j) = t[j]?)
    (h0 : b (i + t.length) = some '\x00') (hn : '\x00' ∉ t) : b.cstrFrom f i = some t := by
  induction t generalizing i f with
  | nil =>
    cases f with
    | zero => omega
    | succ f =>
      show (b i).bind _ = _
      have h0' : b i = some '\x00' := h0
      rw [h0']
      rfl
  | cons c t ih =>
    cases f with
    | zero => omega
    | succ f =>
      have hl : (c :: t).length = t.length + 1 := rfl
      have hc : b i = some c := h 0 (by rw [hl]; omega)
      have hne : c ≠ '\x00' := fun e => hn (by rw [e]; exact List.mem_cons_self)
      have := ih (i + 1) f (by rw [hl] at hf; omega) (fun j hj => by
        have := h (j + 1) (by rw [hl]; omega)
        rw [show i + 1 + j = i + (j + 1) by omega]
        exact this) (by
        rw [hl] at h0
        rw [show i + 1 + t.length = i + (t.length + 1) by omega]
        exact h0) (fun hm => hn (List.mem_cons_of_mem c hm))
      show (b i).bind _ = _
      rw [hc]
      show (if c = '\x00' then _ else _) = _
      rw [if_neg hne, this]
      rfl

/-- After a field and its terminator have been written, the string in the buffer is the
field. -/
theorem cstr_field (b b' b2 : Buf) (t : List Char) (ht : Field t) (h1 : b.puts 0 t = some b')
    (h2 : b'.put t.length '\x00' = some b2) : b2.cstr = some t := by
  have hs := ht.short
  obtain ⟨b'', e1, -, e3, -⟩ := puts_some b 0 t (by omega)
  rw [h1] at e1
  cases e1
  unfold Buf.put at h2
  rw [if_pos (by omega)] at h2
  cases h2
  refine cstrFrom_eq _ t 0 256 (by omega) (fun j hj => ?_) ?_ ht.nul
  · rw [Function.update_of_ne (by omega)]
    exact e3 j hj
  · rw [Nat.zero_add, Function.update_self]

theorem put_some (b : Buf) (i : Nat) (c : Char) (h : i < 256) : b.put i c = some (Function.update b i (some c)) := by
  unfold Buf.put
  rw [if_pos h]

/-- A field can be written and terminated. -/
theorem field_written (b : Buf) (t : List Char) (ht : Field t) :
    ∃ b' b2, b.puts 0 t = some b' ∧ b'.put t.length '\x00' = some b2 ∧ b2.cstr = some t := by
  obtain ⟨b', h1, -⟩ := puts_some b 0 t (by have := ht.short; omega)
  have h2 := put_some b' t.length '\x00' (by have := ht.short; omega)
  exact ⟨b', _, h1, h2, cstr_field b b' _ t ht h1 h2⟩

end LLab.Parse
