import Mathlib.Data.List.Basic
import Mathlib.Order.Lattice
import Mathlib.Algebra.Order.Ring.Int

/-!
Files as sequences of four-byte cells, and the reading and writing primitives used by
the `save_*`/`load_*` functions (`fwrite(p,size,1,f)` and `fread(p,size,1,f)` followed by
`if(i != 1) exit(1)`).

A cell remembers whether an `int` or a `float` was written; reading it as the other kind
(a reinterpretation of bits) is not modelled and gives `none`, as do the end of the
program by `exit(1)` and undefined behaviour. `convert_data` is the identity, as on the
little-endian machines the library is used on (see `Verif/Utils/Bytes.lean` for what it
does on others).
-/

namespace LLab.Save

/-- Four bytes of a file. -/
inductive Cell (α : Type) where
  | int (z : Int)
  | flt (a : α)
deriving DecidableEq

/-- A file, from its first byte. -/
abbrev File (α : Type) := List (Cell α)

/-- A reading function: from the rest of the file to a value and what is left. -/
abbrev Read (α β : Type) := File α → Option (β × File α)

namespace Read
variable {α β γ : Type}

/-- Nothing is read. -/
def pure (b : β) : Read α β := fun s => some (b, s)

/-- One reading after another. -/
def bind (p : Read α β) (f : β → Read α γ) : Read α γ := fun s => (p s).bind fun r => f r.1 r.2

/-- A computation that does not read. -/
def lift (o : Option β) : Read α β := fun s => o.map fun b => (b, s)

instance : Monad (Read α) where
  pure := pure
  bind := bind

end Read

variable {α : Type}

/-- `fread(&x,sizeof(int),1,fr); if(i != 1) exit(1)` -/
def rdInt : Read α Int
  | .int z :: s => some (z, s)
  | _ => none

/-- `fread(&x,sizeof(float),1,fr); if(i != 1) exit(1)` -/
def rdFlt : Read α α
  | .flt a :: s => some (a, s)
  | _ => none

/-- `n` consecutive cells of kind `int`. -/
def rdIntN : Nat → Read α (List Int)
  | 0 => Read.pure []
  | n + 1 => do let x ← rdInt; let l ← rdIntN n; return x :: l

/-- `n` consecutive cells of kind `float`. -/
def rdFltN : Nat → Read α (List α)
  | 0 => Read.pure []
  | n + 1 => do let x ← rdFlt; let l ← rdFltN n; return x :: l

/-- `fread(p,sizeof(int)*n,1,fr); if(i != 1) exit(1)`; with `n = 0` the call returns 0. -/
def rdInts (n : Nat) : Read α (List Int) := if n = 0 then Read.lift none else rdIntN n

/-- `fread(p,sizeof(float)*n,1,fr); if(i != 1) exit(1)` -/
def rdFlts (n : Nat) : Read α (List α) := if n = 0 then Read.lift none else rdFltN n

/-- `k` objects one after another. -/
def rdMany {β : Type} (p : Read α β) : Nat → Read α (List β)
  | 0 => Read.pure []
  | n + 1 => do let x ← p; let l ← rdMany p n; return x :: l

/-- `fwrite(p,sizeof(int)*n,1,fw); if(i != 1) exit(1)`: the array must have `n`
elements, and with `n = 0` the call returns 0. -/
def wrInts (l : List Int) (n : Nat) : Option (File α) :=
  if n = 0 ∨ l.length < n then none else some ((l.take n).map .int)

/-- `fwrite(p,sizeof(float)*n,1,fw); if(i != 1) exit(1)` -/
def wrFlts (l : List α) (n : Nat) : Option (File α) :=
  if n = 0 ∨ l.length < n then none else some ((l.take n).map .flt)

/-- `copy_array(src,dst,n)` and `copy_int_array` (`/repo/src/utils.c`). -/
def copyN {β : Type} (src dst : List β) (n : Nat) : Option (List β) :=
  if src.length < n ∨ dst.length < n then none else some (src.take n ++ dst.drop n)

/-! ### Reading back what was written -/

/-- `p` reads exactly the cells `w` and returns `x`, whatever follows. -/
def Rd {β : Type} (p : Read α β) (w : File α) (x : β) : Prop := ∀ rest, p (w ++ rest) = some (x, rest)

section
variable {β γ : Type}

theorem Rd.pure (x : β) : Rd (α := α) (Pure.pure x) [] x := fun _ => rfl

theorem Rd.bind {p : Read α β} {f : β → Read α γ} {w1 w2 w : File α} {x : β} {y : γ}
    (h1 : Rd p w1 x) (h2 : Rd (f x) w2 y) (e : w = w1 ++ w2) : Rd (p >>= f) w y := by
  intro rest
  subst e
  show (p (w1 ++ w2 ++ rest)).bind _ = _
  rw [List.append_assoc, h1, Option.bind_some]
  exact h2 rest

theorem Rd.int {f : Int → Read α γ} {w : File α} {z : Int} {y : γ} (h : Rd (f z) w y) :
    Rd (rdInt >>= f) (.int z :: w) y :=
  Rd.bind (w1 := [.int z]) (fun _ => rfl) h rfl

theorem Rd.flt {f : α → Read α γ} {w : File α} {a : α} {y : γ} (h : Rd (f a) w y) :
    Rd (rdFlt >>= f) (.flt a :: w) y :=
  Rd.bind (w1 := [.flt a]) (fun _ => rfl) h rfl

theorem Rd.lift {o : Option β} {f : β → Read α γ} {w : File α} {x : β} {y : γ} (e : o = some x)
    (h : Rd (f x) w y) : Rd (Read.lift o >>= f) w y := by
  subst e
  exact Rd.bind (w1 := []) (fun _ => rfl) h rfl

theorem Rd.last {p : Read α β} {f : β → Read α γ} {w : File α} {x : β} {y : γ}
    (h1 : Rd p w x) (h2 : Rd (f x) [] y) : Rd (p >>= f) w y := Rd.bind h1 h2 (by simp)

theorem Rd.lift' {o : Option β} {x : β} (e : o = some x) : Rd (α := α) (Read.lift o) [] x := by
  subst e
  exact fun _ => rfl

theorem Rd.intN : (l : List Int) → Rd (α := α) (rdIntN l.length) (l.map .int) l
  | [] => Rd.pure _
  | _ :: l => Rd.int (Rd.bind (Rd.intN l) (Rd.pure _) (by simp))

theorem Rd.fltN : (l : List α) → Rd (rdFltN l.length) (l.map .flt) l
  | [] => Rd.pure _
  | _ :: l => Rd.flt (Rd.bind (Rd.fltN l) (Rd.pure _) (by simp))

theorem Rd.ints {l : List Int} {n : Nat} (e : l.length = n) (h : n ≠ 0) : Rd (α := α) (rdInts n) (l.map .int) l := by
  subst e
  unfold rdInts
  rw [if_neg h]
  exact Rd.intN l

theorem Rd.flts {l : List α} {n : Nat} (e : l.length = n) (h : n ≠ 0) : Rd (rdFlts n) (l.map .flt) l := by
  subst e
  unfold rdFlts
  rw [if_neg h]
  exact Rd.fltN l

theorem Rd.ite {c : Prop} [Decidable c] {p q : Read α β} {w v : File α} {x : β} (h1 : c → Rd p w x)
    (h2 : ¬c → Rd q v x) : Rd (if c then p else q) (if c then w else v) x := by
  split
  · next h => exact h1 h
  · next h => exact h2 h

theorem Rd.many {p : Read α β} {g : β → File α} : (l : List β) → (∀ x ∈ l, Rd p (g x) x) →
    Rd (rdMany p l.length) (l.flatMap g) l
  | [], _ => Rd.pure _
  | x :: l, h =>
    Rd.bind (h x (by simp)) (Rd.bind (Rd.many l fun y hy => h y (by simp [hy])) (Rd.pure _) rfl) (by simp)

theorem wrInts_eq {l : List Int} {n : Nat} (e : l.length = n) (h : n ≠ 0) :
    wrInts (α := α) l n = some (l.map .int) := by
  subst e; simp [wrInts, h]

theorem wrFlts_eq {l : List α} {n : Nat} (e : l.length = n) (h : n ≠ 0) :
    wrFlts l n = some (l.map .flt) := by
  subst e; simp [wrFlts, h]

theorem copyN_eq {src dst : List β} {n : Nat} (e : src.length = n) (e' : dst.length = n) :
    copyN src dst n = some src := by
  subst e
  unfold copyN
  rw [if_neg (by omega), List.take_length, List.drop_eq_nil_of_le (by omega), List.append_nil]

theorem mapM_eq {g : β → Option (File α)} {w : β → File α} : (l : List β) → (∀ x ∈ l, g x = some (w x)) →
    l.mapM g = some (l.map w)
  | [], _ => rfl
  | x :: l, h => by
    rw [List.mapM_cons, h x (by simp), mapM_eq l fun y hy => h y (by simp [hy])]
    rfl

end

end LLab.Save
