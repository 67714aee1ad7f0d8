import Verif.Net.ResNet
import Verif.Save.Cells

/-!
Property C137: the vector nodes of `/repo/src/vector.c` (43-518), which apply an elementwise
operation, an activation, a dropout, a cut or a concatenation to the outputs of other structures.

Real arithmetic; sizes are natural numbers. `none` is undefined behaviour or `exit`.
-/

namespace LLab.VNode

open Finset LLab.Chain LLab.CNet

/-! ### Model -/

/-- `action` (`/repo/src/llab.h` 184-193). -/
inductive Action where
  | none | add | sub | mul | resize | concat | div | inverse | neg | getMax
deriving DecidableEq

/-- What the pointer `output` is: not set, a block of its own, or a place inside the array of
another structure. -/
inductive Ptr where
  | uninit | owned | inside
deriving DecidableEq

/-- `vector_struct` (`/repo/src/llab.h`); `v = none` is a null pointer, `err` is `input_error`. -/
structure Node where
  v : Option (Arr ℝ)
  vSize : Nat
  outSize : Nat
  inSize : Nat
  index : Nat
  action : Action
  act : Act
  drop : Drop
  threshold : ℝ
  output : Arr ℝ
  ptr : Ptr
  err : Arr ℝ

/-- An array of `n` zeros. -/
def zeros (n : Nat) : Arr ℝ := ⟨n, fun _ => 0⟩

/-- `create_vector` (`/repo/src/vector.c` 43-60): with `RESIZE` no output is allocated. -/
def create (v : Option (Arr ℝ)) (vSize outSize : Nat) (action : Action) (act : Act) (drop : Drop) (index : Nat) (threshold : ℝ)
    (inSize : Nat) : Node :=
  { v := v, vSize := vSize, outSize := outSize, inSize := inSize, index := index, action := action, act := act, drop := drop,
    threshold := threshold, output := if action ≠ .resize then zeros outSize else zeros 0,
    ptr := if action ≠ .resize then .owned else .uninit, err := zeros inSize }

/-- `set_vector_with_value` (`/repo/src/utils.c` 1141-1146). -/
def setValue (a : ℝ) (v : Arr ℝ) (n : Nat) : Option (Arr ℝ) := loop n (fun i (v : Arr ℝ) => v.write i a) v

/-- `reset_vector` (`/repo/src/vector.c` 71-80): the output, or with `RESIZE` the error. -/
def reset (n : Node) : Option Node :=
  if n.action ≠ .resize then (setValue 0 n.output n.outSize).map fun o => { n with output := o }
  else (setValue 0 n.err n.inSize).map fun o => { n with err := o }

/-- `free_vector` (`/repo/src/vector.c` 63-69): whether `free(v->output)` is defined. -/
def canFree (n : Node) : Prop := n.ptr = .owned

/-- The loop of `GET_MAX` (`/repo/src/vector.c` 355-361): largest value so far and its index. -/
noncomputable def scanMax (x : Arr ℝ) (n : Nat) : Option (ℝ × Option Nat) :=
  loop n (fun i (s : ℝ × Option Nat) => (x.read i).bind fun a => some (if s.1 < a then (a, some i) else s)) (-1, none)

/-- The output with an elementwise operation on `v` (`/repo/src/vector.c` 301-331). -/
noncomputable def withV (op : ℝ → ℝ → ℝ) (x : Arr ℝ) (n : Node) : Option Node :=
  if n.outSize ≠ n.vSize then none
  else n.v.bind fun v => (Vec.zip1D op x v n.output n.outSize).map fun o => { n with output := o }

/-- The output with an operation on the input alone (`/repo/src/vector.c` 332-347). -/
noncomputable def alone (op : ℝ → ℝ) (x : Arr ℝ) (n : Node) : Option Node :=
  if n.outSize ≠ n.vSize then none
  else (Vec.map1D op x n.output n.outSize).map fun o => { n with output := o }

/-- `ff_vector(input1,NULL,v)` (`/repo/src/vector.c` 284-389). With `RESIZE` the output is a
pointer into the input; the model keeps the values found there. -/
noncomputable def ff1 (draw : Nat → Bool) (x : Arr ℝ) (n : Node) : Option Node :=
  match n.drop with
  | .train =>
    if n.vSize ≠ n.outSize then none
    else n.v.bind fun v => (setValue 1 v n.vSize).bind fun v => (setMask draw v n.outSize).bind fun v =>
      (Vec.zip1D (fun a b => a * b) x v n.output n.outSize).map fun o => { n with v := some v, output := o }
  | .test => (Vec.map1D (fun a => a * (1 - n.threshold)) x n.output n.outSize).map fun o => { n with output := o }
  | .off =>
    match n.action with
    | .add => withV (fun a b => a + b) x n
    | .sub => withV (fun a b => a - b) x n
    | .mul => withV (fun a b => a * b) x n
    | .div => withV (fun a b => a / b) x n
    | .inverse => alone (fun a => 1 / a) x n
    | .neg => alone (fun a => a * (-1)) x n
    | .getMax =>
      if n.outSize ≠ n.vSize then none
      else (scanMax x n.outSize).bind fun s => s.2.bind fun i => (n.output.write i 1).map fun o => { n with output := o }
    | .resize => if n.index ≤ x.len then some { n with output := x.view n.index, ptr := .inside } else none
    | .none => (actArray n.act x n.output n.outSize).map fun o => { n with output := o }
    | .concat => (actArray n.act x n.output n.outSize).map fun o => { n with output := o }

/-- `ff_vector(input1,input2,v)` (`/repo/src/vector.c` 391-416). The last test is an assignment
(`v->action = CONCATENATE`): every other action becomes a concatenation. -/
noncomputable def ff2 (x y : Arr ℝ) (n : Node) : Option Node :=
  match n.action with
  | .add => if n.outSize ≠ n.vSize then none else (Vec.zip1D (fun a b => a + b) x y n.output n.outSize).map fun o => { n with output := o }
  | .sub => (Vec.zip1D (fun a b => a - b) x y n.output n.outSize).map fun o => { n with output := o }
  | .mul => (Vec.zip1D (fun a b => a * b) x y n.output n.outSize).map fun o => { n with output := o }
  | .div => (Vec.zip1D (fun a b => a / b) x y n.output n.outSize).map fun o => { n with output := o }
  | _ =>
    if n.outSize < n.index then none
    else (Vec.map1D (fun a => a) x n.output n.index).bind fun o =>
      (o.onView n.index fun v => Vec.map1D (fun a => a) y v (n.outSize - n.index)).map fun o => { n with action := .concat, output := o }

/-- `input_error` is written and returned. -/
def ret (n : Node) (o : Option (Arr ℝ)) : Option (Node × Arr ℝ) := o.map fun g => ({ n with err := g }, g)

/-- The error through an activation: the derivative at the input times the error
(`/repo/src/vector.c` 463-487). -/
noncomputable def actErr (d : ℝ → ℝ) (x e : Arr ℝ) (n : Node) : Option (Node × Arr ℝ) :=
  (Vec.map1D d x (zeros n.outSize) n.outSize).bind fun t => ret n (Vec.zip1D (fun a b => a * b) t e n.err n.outSize)

/-- `bp_vector(input1,NULL,v,output_error)` (`/repo/src/vector.c` 421-494). The branch for dropout
tests `v->action == DROPOUT`, that is `ADDITION`, which has been dealt with before: it is never
taken. -/
noncomputable def bp1 (x : Arr ℝ) (n : Node) (e : Arr ℝ) : Option (Node × Arr ℝ) :=
  match n.action with
  | .add => some (n, e)
  | .concat => some (n, e)
  | .mul => if n.outSize ≠ n.vSize then none else n.v.bind fun v => ret n (Vec.zip1D (fun a b => a * b) e v n.err n.outSize)
  | .div => if n.outSize ≠ n.vSize then none else n.v.bind fun v => ret n (Vec.zip1D (fun a b => a / b) e v n.err n.outSize)
  | .sub => some (n, e)
  | .inverse => (Vec.zip1D (fun a b => a / b) e x n.err n.outSize).bind fun g =>
      (Vec.zip1D (fun a b => a / b) g x g n.outSize).bind fun g => ret n (Vec.map1D (fun a => a * (-1)) g g n.outSize)
  | .neg => ret n (Vec.map1D (fun a => a * (-1)) e n.err n.outSize)
  | .resize => ret n (n.err.onView n.index fun v => Vec.map1D (fun a => a) e v (min n.outSize n.inSize))
  | _ =>
    match n.act with
    | .none => some (n, n.err)
    | .sigmoid => actErr LLab.Act.dSigmoid x e n
    | .tanh => actErr LLab.Act.dTanhh x e n
    | .relu => actErr LLab.Act.dRelu x e n
    | .leaky => actErr LLab.Act.dLeakyRelu x e n
    | .elu => actErr (fun z => LLab.Act.dElu z 1) x e n
    | .softmax => ret n (Softmax.derivativeSoftmax n.err n.output e n.outSize)

/-- `bp_vector(input1,input2,v,output_error)` (`/repo/src/vector.c` 421-423, 497-516). -/
noncomputable def bp2 (x y : Arr ℝ) (n : Node) (e : Arr ℝ) : Option (Node × Arr ℝ) :=
  match n.action with
  | .add => some (n, e)
  | .concat => some (n, e)
  | .mul => (Vec.zip1D (fun a b => a * b) e y n.err n.outSize).bind fun g =>
      ret n (g.onView n.outSize fun w => Vec.zip1D (fun a b => a * b) e x w n.outSize)
  | .div => (Vec.zip1D (fun a b => a / b) e y n.err n.outSize).bind fun g =>
      ret n (g.onView n.outSize fun w => (Vec.zip1D (fun a b => a * b) e x w n.outSize).bind fun w =>
        (Vec.zip1D (fun a b => a / b) w y w n.outSize).bind fun w => (Vec.zip1D (fun a b => a / b) w y w n.outSize).bind fun w =>
          Vec.map1D (fun a => a * (-1)) w w n.outSize)
  | .sub => (Vec.map1D (fun a => a) e n.err n.outSize).bind fun g =>
      ret n (g.onView n.outSize fun w => Vec.map1D (fun a => a * (-1)) e w n.outSize)
  | _ => some (n, n.err)

/-- The number of an action in a file (`/repo/src/llab.h` 184-193). -/
def Action.code : Action → Int
  | .none => 0 | .add => 1 | .sub => 2 | .mul => 3 | .resize => 4 | .concat => 5 | .div => 6 | .inverse => 7 | .neg => 8 | .getMax => 9

/-- The action with a number; the others act as `NO_ACTION`. -/
def Action.ofCode (z : Int) : Action :=
  if z = 1 then .add else if z = 2 then .sub else if z = 3 then .mul else if z = 4 then .resize else if z = 5 then .concat
  else if z = 6 then .div else if z = 7 then .inverse else if z = 8 then .neg else if z = 9 then .getMax else .none

/-- The number of an activation (`/repo/src/llab.h` 78-84). -/
def actCode : Act → Int
  | .none => 0 | .sigmoid => 1 | .relu => 2 | .softmax => 3 | .tanh => 4 | .leaky => 5 | .elu => 6

/-- The activation with a number; the others do nothing in a vector node. -/
def actOf (z : Int) : Act :=
  if z = 1 then .sigmoid else if z = 2 then .relu else if z = 3 then .softmax else if z = 4 then .tanh else if z = 5 then .leaky
  else if z = 6 then .elu else .none

/-- The number of a dropout flag (`/repo/src/llab.h` 92-94). -/
def dropCode : Drop → Int
  | .off => 0 | .train => 1 | .test => 2

/-- The dropout with a number. -/
def dropOf (z : Int) : Drop := if z = 1 then .train else if z = 2 then .test else .off

open LLab.Save in
/-- `save_vector` (`/repo/src/vector.c` 102-207): the cells appended to the file. -/
def save (n : Node) : Option (File ℝ) :=
  (match n.v with
    | none => some [Cell.int 1]
    | some a => (wrFlts ((List.range a.len).map a.get) n.vSize).map fun w => Cell.int 0 :: w).map fun w =>
  ([Cell.int n.inSize, Cell.int n.vSize, Cell.int n.outSize, Cell.int n.action.code, Cell.int (actCode n.act), Cell.int (dropCode n.drop),
    Cell.int n.index, Cell.flt n.threshold] : File ℝ) ++ w

open LLab.Save in
/-- `load_vector` (`/repo/src/vector.c` 209-282). The numbers are read into a second variable `v`
that hides the first: `create_vector` gets the null pointer. -/
def load : Read ℝ Node := do
  let inSize ← rdInt
  let vSize ← rdInt
  let outSize ← rdInt
  let action ← rdInt
  let act ← rdInt
  let drop ← rdInt
  let index ← rdInt
  let threshold ← rdFlt
  let isNull ← rdInt
  let v : Option (Arr ℝ) := none
  if isNull = 0 then do
    let _ ← rdFlts vSize.toNat
    return create v vSize.toNat outSize.toNat (.ofCode action) (actOf act) (dropOf drop) index.toNat threshold inSize.toNat
  else
    return create v vSize.toNat outSize.toNat (.ofCode action) (actOf act) (dropOf drop) index.toNat threshold inSize.toNat

/-- `copy_vector` (`/repo/src/vector.c` 83-90). -/
def copy (n : Node) : Option Node :=
  match n.v with
  | none => some (create none n.vSize n.outSize n.action n.act n.drop n.index n.threshold n.inSize)
  | some a => (Vec.map1D (fun x => x) a (zeros n.vSize) n.vSize).map fun v =>
      create (some v) n.vSize n.outSize n.action n.act n.drop n.index n.threshold n.inSize

/-- `paste_vector(v,copy)` (`/repo/src/vector.c` 93-96). -/
def paste (n c : Node) : Option Node :=
  n.v.bind fun a => c.v.bind fun b => (Vec.map1D (fun x => x) a b n.vSize).map fun v => { c with v := some v }

/-! ### Specification -/

/-- A node with one input as a function; `w` are the numbers of `v`. -/
noncomputable def fn1 (a : Action) (act : Act) (m idx : Nat) (w x : Nat → ℝ) (k : Nat) : ℝ :=
  match a with
  | .add => x k + w k
  | .sub => x k - w k
  | .mul => x k * w k
  | .div => x k / w k
  | .inverse => 1 / x k
  | .neg => -x k
  | .resize => x (idx + k)
  | _ => actFn act m x k

/-- A node with two inputs as a function: everything that is no arithmetic is a concatenation. -/
noncomputable def fn2 (a : Action) (idx : Nat) (x y : Nat → ℝ) (k : Nat) : ℝ :=
  match a with
  | .add => x k + y k
  | .sub => x k - y k
  | .mul => x k * y k
  | .div => x k / y k
  | _ => if k < idx then x k else y (k - idx)

/-- The four arithmetic actions. -/
def Arith (a : Action) : Prop := a = .add ∨ a = .sub ∨ a = .mul ∨ a = .div

instance (a : Action) : Decidable (Arith a) := by unfold Arith; infer_instance

/-- The numbers of `v`. -/
def Node.w (n : Node) : Nat → ℝ := (n.v.map Arr.get).getD fun _ => 0

/-- A node for one input as it is created: `v` there when needed, the sizes equal where the code
asks for it, the error array cleared. -/
structure Ready1 (n : Node) : Prop where
  lout : n.action ≠ .resize → n.outSize ≤ n.output.len
  lerr : n.inSize ≤ n.err.len
  zerr : ∀ k, k < n.inSize → n.err.get k = 0
  hv : Arith n.action → ∃ a, n.v = some a ∧ n.outSize ≤ a.len
  vsize : Arith n.action ∨ n.action = .inverse ∨ n.action = .neg → n.vSize = n.outSize
  io : n.action ≠ .resize → n.inSize = n.outSize
  ri : n.action = .resize → n.index + n.outSize ≤ n.inSize

/-- The nodes with one input that compute something differentiable. -/
def Plain1 (n : Node) : Prop := n.action ≠ .getMax ∧ n.action ≠ .concat ∧ (n.action = .none → n.act ≠ .none)

/-- No division by zero and no rectifier at zero. -/
def Smooth1 (n : Node) (x : Nat → ℝ) : Prop :=
  (n.action = .div → ∀ k, k < n.outSize → n.w k ≠ 0) ∧ (n.action = .inverse → ∀ k, k < n.outSize → x k ≠ 0) ∧
  (n.action = .none → n.act = .relu ∨ n.act = .leaky ∨ n.act = .elu → ∀ k, k < n.outSize → x k ≠ 0)

/-- How many numbers of the first input are used. -/
def in1 (n : Node) : Nat := if Arith n.action then n.outSize else n.index

/-- How many numbers of the second input are used. -/
def in2 (n : Node) : Nat := if Arith n.action then n.outSize else n.outSize - n.index

/-- Where the error of the second input begins: a sum has the same error for both. -/
def off2 (n : Node) : Nat := if n.action = .add then 0 else if Arith n.action then n.outSize else n.index

/-- A node for two inputs. -/
structure Ready2 (n : Node) : Prop where
  lout : n.outSize ≤ n.output.len
  lerr : Arith n.action → n.action ≠ .add → n.outSize + n.outSize ≤ n.err.len
  vsize : n.action = .add → n.vSize = n.outSize
  idx : ¬Arith n.action → n.index ≤ n.outSize

/-! ### Proof -/

theorem setValue_eq (a : ℝ) (v : Arr ℝ) (n : Nat) (h : n ≤ v.len) :
    setValue a v n = some ⟨v.len, fun k => if k < n then a else v.get k⟩ := by
  unfold setValue
  apply loop_fill (v := fun _ => a)
  intro i hi c hc _
  exact Arr.write_eq _ (by omega)

theorem Pull.slice (n m idx : Nat) (h : idx + m ≤ n) (x e : Nat → ℝ) :
    Pull n m (fun x k => x (idx + k)) x e (fun i => if idx ≤ i ∧ i < idx + m then e (i - idx) else 0) := by
  intro c c' t0 _ hd
  refine ⟨fun k => c' (idx + k), fun k hk => hd _ (by omega), ?_⟩
  have h1 : ∑ i ∈ range n, (if idx ≤ i ∧ i < idx + m then e (i - idx) else 0) * c' i =
      ∑ i ∈ Ico idx (idx + m), e (i - idx) * c' i := by
    rw [← Finset.sum_subset (s₁ := Ico idx (idx + m)) (s₂ := range n)
      (f := fun i => (if idx ≤ i ∧ i < idx + m then e (i - idx) else 0) * c' i)]
    · refine Finset.sum_congr rfl fun i hi => ?_
      rw [Finset.mem_Ico] at hi
      rw [if_pos hi]
    · intro i hi
      rw [Finset.mem_Ico] at hi
      rw [Finset.mem_range]
      omega
    · intro i _ hi
      rw [Finset.mem_Ico] at hi
      rw [if_neg hi, zero_mul]
  rw [h1, Finset.sum_Ico_eq_sum_range, Nat.add_sub_cancel_left]
  refine Finset.sum_congr rfl fun k _ => ?_
  rw [Nat.add_sub_cancel_left]

theorem withV_eq (op : ℝ → ℝ → ℝ) (x a : Arr ℝ) (n : Node) (h1 : n.vSize = n.outSize) (h2 : n.v = some a) (h3 : n.outSize ≤ a.len)
    (h4 : n.outSize ≤ x.len) (h5 : n.outSize ≤ n.output.len) :
    withV op x n = some { n with output := ⟨n.output.len, fun k => if k < n.outSize then op (x.get k) (a.get k) else n.output.get k⟩ } := by
  unfold withV
  rw [if_neg (not_not.2 h1.symm), h2, Option.bind_some, Vec.zip1D_eq _ _ _ _ _ h4 h3 h5]
  rfl

theorem alone_eq (op : ℝ → ℝ) (x : Arr ℝ) (n : Node) (h1 : n.vSize = n.outSize) (h4 : n.outSize ≤ x.len) (h5 : n.outSize ≤ n.output.len) :
    alone op x n = some { n with output := ⟨n.output.len, fun k => if k < n.outSize then op (x.get k) else n.output.get k⟩ } := by
  unfold alone
  rw [if_neg (not_not.2 h1.symm), Vec.C64_map _ _ _ _ h4 h5]
  rfl

theorem zip_ex (op : ℝ → ℝ → ℝ) (x y o : Arr ℝ) (n : Nat) (h1 : n ≤ x.len) (h2 : n ≤ y.len) (h3 : n ≤ o.len) :
    ∃ g, Vec.zip1D op x y o n = some g ∧ g.len = o.len ∧ ∀ k, k < n → g.get k = op (x.get k) (y.get k) :=
  ⟨_, Vec.zip1D_eq op x y o n h1 h2 h3, rfl, fun _ hk => if_pos hk⟩

theorem map_ex (op : ℝ → ℝ) (x o : Arr ℝ) (n : Nat) (h1 : n ≤ x.len) (h3 : n ≤ o.len) :
    ∃ g, Vec.map1D op x o n = some g ∧ g.len = o.len ∧ ∀ k, k < n → g.get k = op (x.get k) :=
  ⟨_, Vec.C64_map op x o n h1 h3, rfl, fun _ hk => if_pos hk⟩

theorem actErr_eq (d : ℝ → ℝ) (x e : Arr ℝ) (n : Node) (hx : n.outSize ≤ x.len) (he : n.outSize ≤ e.len) (hr : n.outSize ≤ n.err.len) :
    ∃ g, actErr d x e n = some ({ n with err := g }, g) ∧ n.outSize ≤ g.len ∧ ∀ k, k < n.outSize → g.get k = d (x.get k) * e.get k := by
  unfold actErr
  obtain ⟨t, et, lt, vt⟩ := map_ex d x (zeros n.outSize) n.outSize hx (Nat.le_refl _)
  obtain ⟨g, eg, lg, vg⟩ := zip_ex (fun a b => a * b) t e n.err n.outSize (by rw [lt]; exact Nat.le_refl _) he hr
  rw [et, Option.bind_some, eg]
  exact ⟨g, rfl, by omega, fun k hk => by rw [vg k hk, vt k hk]⟩

/-- The forward pass and the pull-back of the backward pass. -/
theorem one_run (draw : Nat → Bool) (n : Node) (x : Arr ℝ) (hr : Ready1 n) (hd : n.drop = .off) (hp : Plain1 n) (hx : n.inSize ≤ x.len) :
    ∃ n', ff1 draw x n = some n' ∧ n.outSize ≤ n'.output.len ∧
      (∀ k, k < n.outSize → n'.output.get k = fn1 n.action n.act n.outSize n.index n.w x.get k) ∧
      (Smooth1 n x.get → ∀ e : Arr ℝ, n.outSize ≤ e.len → ∃ n'' g, bp1 x n' e = some (n'', g) ∧ n.inSize ≤ g.len ∧
        Pull n.inSize n.outSize (fn1 n.action n.act n.outSize n.index n.w) x.get e.get g.get) := by
  obtain ⟨v, vSize, outSize, inSize, index, action, act, drop, threshold, output, ptr, err⟩ := n
  dsimp only at hd hp hx
  obtain ⟨lout, lerr, zerr, hv, vsize, io, ri⟩ := hr
  obtain ⟨hp1, hp2, hp3⟩ := hp
  dsimp only at *
  subst hd
  cases action with
  | getMax => exact absurd rfl hp1
  | concat => exact absurd rfl hp2
  | add =>
    obtain ⟨a, rfl, la⟩ := hv (Or.inl rfl)
    obtain rfl := vsize (Or.inl (Or.inl rfl))
    obtain rfl := io (by decide)
    have lo := lout (by decide)
    refine ⟨_, withV_eq _ x a _ rfl rfl la hx lo, lo, fun k hk => if_pos hk, fun _ e he => ⟨_, _, rfl, he, ?_⟩⟩
    exact (Pull.diag (fun k t => t + a.get k) (fun _ => 1) x.get e.get fun k _ => (hasDerivAt_id' _).add_const _).congr
      (fun _ _ => rfl) fun k _ => (one_mul _).symm
  | sub =>
    obtain ⟨a, rfl, la⟩ := hv (Or.inr (Or.inl rfl))
    obtain rfl := vsize (Or.inl (Or.inr (Or.inl rfl)))
    obtain rfl := io (by decide)
    have lo := lout (by decide)
    refine ⟨_, withV_eq _ x a _ rfl rfl la hx lo, lo, fun k hk => if_pos hk, fun _ e he => ⟨_, _, rfl, he, ?_⟩⟩
    exact (Pull.diag (fun k t => t - a.get k) (fun _ => 1) x.get e.get fun k _ => (hasDerivAt_id' _).sub_const _).congr
      (fun _ _ => rfl) fun k _ => (one_mul _).symm
  | mul =>
    obtain ⟨a, rfl, la⟩ := hv (Or.inr (Or.inr (Or.inl rfl)))
    obtain rfl := vsize (Or.inl (Or.inr (Or.inr (Or.inl rfl))))
    obtain rfl := io (by decide)
    have lo := lout (by decide)
    refine ⟨_, withV_eq _ x a _ rfl rfl la hx lo, lo, fun k hk => if_pos hk, fun _ e he => ?_⟩
    obtain ⟨g, eg, lg, vg⟩ := zip_ex (fun a b => a * b) e a err _ he la lerr
    refine ⟨_, g, by
      unfold bp1
      dsimp only
      rw [if_neg (not_not.2 rfl), Option.bind_some, eg]
      rfl, by omega, ?_⟩
    refine (Pull.diag (fun k t => t * a.get k) (fun k => 1 * a.get k) x.get e.get fun k _ => (hasDerivAt_id' _).mul_const _).congr
      (fun _ _ => rfl) fun k hk => ?_
    rw [vg k hk]
    ring
  | div =>
    obtain ⟨a, rfl, la⟩ := hv (Or.inr (Or.inr (Or.inr rfl)))
    obtain rfl := vsize (Or.inl (Or.inr (Or.inr (Or.inr rfl))))
    obtain rfl := io (by decide)
    have lo := lout (by decide)
    refine ⟨_, withV_eq _ x a _ rfl rfl la hx lo, lo, fun k hk => if_pos hk, fun _ e he => ?_⟩
    obtain ⟨g, eg, lg, vg⟩ := zip_ex (fun a b => a / b) e a err _ he la lerr
    refine ⟨_, g, by
      unfold bp1
      dsimp only
      rw [if_neg (not_not.2 rfl), Option.bind_some, eg]
      rfl, by omega, ?_⟩
    refine (Pull.diag (fun k t => t / a.get k) (fun k => 1 / a.get k) x.get e.get fun k _ => (hasDerivAt_id' _).div_const _).congr
      (fun _ _ => rfl) fun k hk => ?_
    rw [vg k hk]
    ring
  | inverse =>
    obtain rfl := vsize (Or.inr (Or.inl rfl))
    obtain rfl := io (by decide)
    have lo := lout (by decide)
    refine ⟨_, alone_eq _ x _ rfl hx lo, lo, fun k hk => if_pos hk, fun hs e he => ?_⟩
    obtain ⟨g, eg, lg, vg⟩ := zip_ex (fun a b => a / b) e x err inSize he hx lerr
    obtain ⟨g', eg', lg', vg'⟩ := zip_ex (fun a b => a / b) g x g inSize (by omega) hx (by omega)
    obtain ⟨g'', eg'', lg'', vg''⟩ := map_ex (fun a => a * (-1)) g' g' inSize (by omega) (by omega)
    refine ⟨_, g'', by
      unfold bp1
      dsimp only
      rw [eg, Option.bind_some, eg', Option.bind_some, eg'']
      rfl, by omega, ?_⟩
    have hne : ∀ k, k < inSize → x.get k ≠ 0 := hs.2.1 rfl
    refine (Pull.diag (fun _ t => 1 / t) (fun k => (0 * x.get k - 1 * 1) / x.get k ^ 2) x.get e.get fun k hk =>
      (hasDerivAt_const (x.get k) (1 : ℝ)).div (hasDerivAt_id' _) (hne k hk)).congr (fun _ _ => rfl) fun k hk => ?_
    have := hne k hk
    rw [vg'' k hk, vg' k hk, vg k hk]
    field_simp
    ring
  | neg =>
    obtain rfl := vsize (Or.inr (Or.inr rfl))
    obtain rfl := io (by decide)
    have lo := lout (by decide)
    refine ⟨_, alone_eq _ x _ rfl hx lo, lo, fun k hk => (if_pos hk).trans (mul_neg_one _), fun hs e he => ?_⟩
    obtain ⟨g, eg, lg, vg⟩ := map_ex (fun a => a * (-1)) e err _ he lerr
    refine ⟨_, g, by
      unfold bp1
      dsimp only
      rw [eg]
      rfl, by omega, ?_⟩
    refine (Pull.diag (fun _ t => -t) (fun _ => -1) x.get e.get fun k _ => (hasDerivAt_id' _).neg).congr (fun _ _ => rfl) fun k hk => ?_
    rw [vg k hk]
    ring
  | resize =>
    have hri := ri rfl
    have hi : index ≤ x.len := by omega
    refine ⟨_, if_pos hi, ?_, fun k hk => rfl, fun _ e he => ?_⟩
    · dsimp only [Arr.view_len]; omega
    · have em := Vec.C64_map (fun a : ℝ => a) e (err.view index) outSize he (by rw [Arr.view_len]; omega)
      obtain ⟨g, ev, lg, vg⟩ : ∃ g, (err.onView index fun v => Vec.map1D (fun a => a) e v outSize) = some g ∧ g.len = err.len ∧
          ∀ i, g.get i = if index ≤ i then (if i - index < outSize then e.get (i - index) else err.get (index + (i - index))) else err.get i :=
        ⟨_, Arr.onView_eq em, rfl, fun i => rfl⟩
      have hm : min outSize inSize = outSize := by omega
      refine ⟨_, g, by
        unfold bp1
        dsimp only
        rw [hm, ev]
        rfl, by omega, ?_⟩
      refine (Pull.slice inSize outSize index hri x.get e.get).congr (fun _ _ => rfl) fun i hi => ?_
      rw [vg i]
      by_cases h1 : index ≤ i
      · by_cases h2 : i < index + outSize
        · rw [if_pos h1, if_pos (by omega), if_pos ⟨h1, h2⟩]
        · rw [if_pos h1, if_neg (by omega), if_neg (fun h => h2 h.2), Nat.add_sub_cancel' h1]
          exact zerr i hi
      · rw [if_neg h1, if_neg (fun h => h1 h.1)]
        exact zerr i hi
  | none =>
    obtain rfl := io (by decide)
    have lo := lout (by decide)
    have ha := hp3 rfl
    obtain ⟨p, ep, lp, vp⟩ := actArray_run act x output inSize hx lo
    refine ⟨_, by
      unfold ff1
      dsimp only
      rw [ep]
      rfl, lp, fun k hk => vp ha k hk, fun hs e he => ?_⟩
    have hs : act = .relu ∨ act = .leaky ∨ act = .elu → ∀ k, k < inSize → x.get k ≠ 0 := hs.2.2 rfl
    have hpull : Pull inSize inSize (actFn act inSize) x.get e.get (pulled act inSize x.get e.get) := Pull.act act inSize x.get e.get hs
    have go : ∀ (m : Node) (d : ℝ → ℝ), m.outSize = inSize → m.err = err → (∀ k, k < inSize → pulled act inSize x.get e.get k = d (x.get k) * e.get k) →
        ∃ n'' g, actErr d x e m = some (n'', g) ∧ inSize ≤ g.len ∧ Pull inSize inSize (actFn act inSize) x.get e.get g.get := by
      intro m d h1 h2 h3
      obtain ⟨g, eg, lg, vg⟩ := actErr_eq d x e m (by rw [h1]; exact hx) (by rw [h1]; exact he) (by rw [h1, h2]; exact lerr)
      rw [h1] at lg vg
      exact ⟨_, g, eg, lg, hpull.congr (fun _ _ => rfl) fun k hk => (vg k hk).trans (h3 k hk).symm⟩
    unfold bp1
    dsimp only
    cases act with
    | none => exact absurd rfl ha
    | sigmoid => exact go _ _ rfl rfl fun k _ => rfl
    | tanh => exact go _ _ rfl rfl fun k _ => rfl
    | relu => exact go _ _ rfl rfl fun k _ => rfl
    | leaky => exact go _ _ rfl rfl fun k _ => rfl
    | elu => exact go _ _ rfl rfl fun k _ => rfl
    | softmax =>
      dsimp only
      rw [Softmax.derivativeSoftmax_eq _ _ _ _ lp he lerr]
      refine ⟨_, _, rfl, lerr, hpull.congr (fun _ _ => rfl) fun k hk => ?_⟩
      dsimp only
      rw [zerr k hk, zero_add, Finset.sum_eq_single k]
      · refine Finset.sum_congr rfl fun i hi => ?_
        have hi := Finset.mem_range.1 hi
        have e1 : ∀ j, j < inSize → p.get j = Softmax.smax inSize x.get j := fun j hj => vp ha j hj
        rw [if_pos rfl, e1 i hi, e1 k hk]
      · intro j _ hj
        refine Finset.sum_eq_zero fun i _ => ?_
        rw [if_neg (fun h => hj h.symm)]
      · intro h
        exact absurd (Finset.mem_range.2 hk) h

/-- The forward pass and the pull-backs of the backward pass in both inputs. -/
theorem two_run (n : Node) (x y : Arr ℝ) (hr : Ready2 n) (hx : in1 n ≤ x.len) (hy : in2 n ≤ y.len) :
    ∃ n', ff2 x y n = some n' ∧ n.outSize ≤ n'.output.len ∧
      (∀ k, k < n.outSize → n'.output.get k = fn2 n.action n.index x.get y.get k) ∧
      ((n.action = .div → ∀ k, k < n.outSize → y.get k ≠ 0) → ∀ e : Arr ℝ, n.outSize ≤ e.len → ∃ n'' g, bp2 x y n' e = some (n'', g) ∧
        Pull (in1 n) n.outSize (fun x => fn2 n.action n.index x y.get) x.get e.get g.get ∧
        Pull (in2 n) n.outSize (fun y => fn2 n.action n.index x.get y) y.get e.get (fun i => g.get (off2 n + i))) := by
  obtain ⟨v, vSize, outSize, inSize, index, action, act, drop, threshold, output, ptr, err⟩ := n
  obtain ⟨lo, lerr, vsize, idx⟩ := hr
  dsimp only at *
  have cat : ¬Arith action → action ≠ .add → ∀ n : Node, n = ⟨v, vSize, outSize, inSize, index, action, act, drop, threshold, output, ptr, err⟩ →
      in1 n ≤ x.len → in2 n ≤ y.len → ∃ o, (Vec.map1D (fun a => a) x output index).bind (fun o =>
        (o.onView index fun v => Vec.map1D (fun a => a) y v (outSize - index))) = some o ∧ outSize ≤ o.len ∧
        (∀ k, k < outSize → o.get k = if k < index then x.get k else y.get (k - index)) ∧
        ∀ e : Nat → ℝ, Pull (in1 n) outSize (fun x k => if k < index then x k else y.get (k - index)) x.get e e ∧
          Pull (in2 n) outSize (fun y k => if k < index then x.get k else y (k - index)) y.get e (fun i => e (off2 n + i)) := by
    rintro ha ha' n rfl h1 h2
    have hi := idx ha
    unfold in1 at h1
    unfold in2 at h2
    dsimp only at h1 h2
    rw [if_neg ha] at h1 h2
    obtain ⟨o, eo, lo', vo⟩ := map_ex (fun a => a) x output index h1 (by omega)
    have em := Vec.C64_map (fun a : ℝ => a) y (o.view index) (outSize - index) h2 (by rw [Arr.view_len]; omega)
    obtain ⟨g, ev, lg, vg⟩ : ∃ g, (o.onView index fun v => Vec.map1D (fun a => a) y v (outSize - index)) = some g ∧ g.len = o.len ∧
        ∀ i, g.get i = if index ≤ i then (if i - index < outSize - index then y.get (i - index) else o.get (index + (i - index))) else o.get i :=
      ⟨_, Arr.onView_eq em, rfl, fun i => rfl⟩
    refine ⟨g, by rw [eo, Option.bind_some, ev], by omega, fun k hk => ?_, fun e => ⟨?_, ?_⟩⟩
    · rw [vg k]
      by_cases h : k < index
      · rw [if_neg (by omega), if_pos h, vo k h]
      · rw [if_pos (by omega), if_pos (by omega), if_neg h]
    · unfold in1
      dsimp only
      rw [if_neg ha]
      intro c c' t0 _ hd
      refine ⟨fun k => if k < index then c' k else 0, fun k hk => ?_, ?_⟩
      · by_cases h : k < index
        · simp only [if_pos h]; exact hd k h
        · simp only [if_neg h]; exact hasDerivAt_const _ _
      · rw [← Finset.sum_subset (s₁ := range index) (s₂ := range outSize)
          (f := fun k => e k * (if k < index then c' k else 0))]
        · refine Finset.sum_congr rfl fun k hk => ?_
          rw [if_pos (Finset.mem_range.1 hk)]
        · intro k hk
          rw [Finset.mem_range] at *
          omega
        · intro k _ hk
          rw [Finset.mem_range] at hk
          rw [if_neg hk, mul_zero]
    · unfold in2 off2
      dsimp only
      rw [if_neg ha, if_neg ha', if_neg ha]
      intro c c' t0 _ hd
      refine ⟨fun k => if k < index then 0 else c' (k - index), fun k hk => ?_, ?_⟩
      · by_cases h : k < index
        · simp only [if_pos h]; exact hasDerivAt_const _ _
        · simp only [if_neg h]; exact hd _ (by omega)
      · rw [← Finset.sum_subset (s₁ := Ico index outSize) (s₂ := range outSize)
          (f := fun k => e k * (if k < index then 0 else c' (k - index)))]
        · rw [Finset.sum_Ico_eq_sum_range]
          refine Finset.sum_congr rfl fun k hk => ?_
          rw [if_neg (by omega), Nat.add_sub_cancel_left]
        · intro k hk
          rw [Finset.mem_Ico] at hk
          rw [Finset.mem_range]
          omega
        · intro k hk hk'
          rw [Finset.mem_range] at hk
          rw [Finset.mem_Ico] at hk'
          rw [if_pos (by omega), mul_zero]
  -- the pull-backs of the arithmetic actions, cell by cell
  have ew : ∀ (f : ℝ → ℝ → ℝ) (d1 d2 : Nat → ℝ) (e g : Nat → ℝ) (off : Nat),
      (∀ k, k < outSize → HasDerivAt (fun t => f t (y.get k)) (d1 k) (x.get k)) →
      (∀ k, k < outSize → HasDerivAt (fun t => f (x.get k) t) (d2 k) (y.get k)) →
      (∀ k, k < outSize → g k = d1 k * e k) → (∀ k, k < outSize → g (off + k) = d2 k * e k) →
      Pull outSize outSize (fun x k => f (x k) (y.get k)) x.get e g ∧
        Pull outSize outSize (fun y k => f (x.get k) (y k)) y.get e (fun i => g (off + i)) := by
    intro f d1 d2 e g off h1 h2 h3 h4
    exact ⟨(Pull.diag (fun k t => f t (y.get k)) d1 x.get e h1).congr (fun _ _ => rfl) h3,
      (Pull.diag (fun k t => f (x.get k) t) d2 y.get e h2).congr (fun _ _ => rfl) h4⟩
  have other : ∀ a, action = a → ¬Arith a → a ≠ .add → (∀ n : Node, n.action = a → ff2 x y n = if n.outSize < n.index then none
      else (Vec.map1D (fun a => a) x n.output n.index).bind fun o =>
        (o.onView n.index fun v => Vec.map1D (fun a => a) y v (n.outSize - n.index)).map fun o => { n with action := .concat, output := o }) →
      (∀ x y : Nat → ℝ, fn2 a index x y = fun k => if k < index then x k else y (k - index)) →
      ∃ n', ff2 x y ⟨v, vSize, outSize, inSize, index, action, act, drop, threshold, output, ptr, err⟩ = some n' ∧ outSize ≤ n'.output.len ∧
      (∀ k, k < outSize → n'.output.get k = fn2 action index x.get y.get k) ∧
      ((action = .div → ∀ k, k < outSize → y.get k ≠ 0) → ∀ e : Arr ℝ, outSize ≤ e.len → ∃ n'' g, bp2 x y n' e = some (n'', g) ∧
        Pull (in1 ⟨v, vSize, outSize, inSize, index, action, act, drop, threshold, output, ptr, err⟩) outSize
          (fun x => fn2 action index x y.get) x.get e.get g.get ∧
        Pull (in2 ⟨v, vSize, outSize, inSize, index, action, act, drop, threshold, output, ptr, err⟩) outSize
          (fun y => fn2 action index x.get y) y.get e.get
          (fun i => g.get (off2 ⟨v, vSize, outSize, inSize, index, action, act, drop, threshold, output, ptr, err⟩ + i))) := by
    rintro a rfl h1 h2 h3 h4
    obtain ⟨o, eo, lo', vo, po⟩ := cat h1 h2 _ rfl hx hy
    refine ⟨{ v := v, vSize := vSize, outSize := outSize, inSize := inSize, index := index, action := .concat, act := act, drop := drop, threshold := threshold, output := o, ptr := ptr, err := err }, ?_, lo', fun k hk => ?_, fun _ e he => ⟨_, e, rfl, ?_⟩⟩
    · rw [h3 _ rfl]
      have hi := idx h1
      dsimp only
      rw [if_neg (by omega)]
      obtain ⟨o1, e1, e2⟩ := Option.bind_eq_some_iff.1 eo
      rw [e1, Option.bind_some, e2]
      rfl
    · rw [h4]; exact vo k hk
    · simp only [h4]
      exact po e.get
  cases action with
  | none => exact other _ rfl (by decide) (by decide) (fun n h => by unfold ff2; rw [h]) fun _ _ => rfl
  | resize => exact other _ rfl (by decide) (by decide) (fun n h => by unfold ff2; rw [h]) fun _ _ => rfl
  | concat => exact other _ rfl (by decide) (by decide) (fun n h => by unfold ff2; rw [h]) fun _ _ => rfl
  | inverse => exact other _ rfl (by decide) (by decide) (fun n h => by unfold ff2; rw [h]) fun _ _ => rfl
  | neg => exact other _ rfl (by decide) (by decide) (fun n h => by unfold ff2; rw [h]) fun _ _ => rfl
  | getMax => exact other _ rfl (by decide) (by decide) (fun n h => by unfold ff2; rw [h]) fun _ _ => rfl
  | add =>
    obtain rfl := vsize rfl
    have hx : vSize ≤ x.len := hx
    have hy : vSize ≤ y.len := hy
    obtain ⟨o, eo, lo', vo⟩ := zip_ex (fun a b => a + b) x y output vSize hx hy lo
    refine ⟨_, by
      unfold ff2
      dsimp only
      rw [if_neg (not_not.2 rfl), eo]
      rfl, by dsimp only; omega, vo, fun _ e he => ⟨_, e, rfl, ?_⟩⟩
    exact ew (fun a b => a + b) (fun _ => 1) (fun _ => 1) e.get e.get 0 (fun k _ => (hasDerivAt_id' _).add_const _)
      (fun k _ => (hasDerivAt_id' _).const_add _) (fun k _ => (one_mul _).symm) (fun k _ => by rw [Nat.zero_add, one_mul])
  | sub =>
    have hx : outSize ≤ x.len := hx
    have hy : outSize ≤ y.len := hy
    have le := lerr (by decide) (by decide)
    obtain ⟨o, eo, lo', vo⟩ := zip_ex (fun a b => a - b) x y output outSize hx hy lo
    refine ⟨_, by
      unfold ff2
      dsimp only
      rw [eo]
      rfl, by dsimp only; omega, vo, fun _ e he => ?_⟩
    obtain ⟨g1, e1, l1, v1⟩ := map_ex (fun a => a) e err outSize he (by omega)
    obtain ⟨w, e2, l2, v2⟩ := map_ex (fun a => a * (-1)) e (g1.view outSize) outSize he (by rw [Arr.view_len]; omega)
    obtain ⟨g, eg, vg⟩ : ∃ g, (g1.onView outSize fun w => Vec.map1D (fun a => a * (-1)) e w outSize) = some g ∧
        ∀ i, g.get i = if outSize ≤ i then w.get (i - outSize) else g1.get i := ⟨_, Arr.onView_eq e2, fun i => rfl⟩
    refine ⟨_, g, by
      unfold bp2
      dsimp only
      rw [e1, Option.bind_some, eg]
      rfl, ?_⟩
    refine ew (fun a b => a - b) (fun _ => 1) (fun _ => -1) e.get g.get outSize (fun k _ => (hasDerivAt_id' _).sub_const _)
      (fun k _ => (hasDerivAt_id' _).const_sub _) (fun k hk => ?_) (fun k hk => ?_)
    · rw [vg, if_neg (by omega), v1 k hk, one_mul]
    · rw [vg, if_pos (by omega), Nat.add_sub_cancel_left, v2 k hk]; ring
  | mul =>
    have hx : outSize ≤ x.len := hx
    have hy : outSize ≤ y.len := hy
    have le := lerr (by decide) (by decide)
    obtain ⟨o, eo, lo', vo⟩ := zip_ex (fun a b => a * b) x y output outSize hx hy lo
    refine ⟨_, by
      unfold ff2
      dsimp only
      rw [eo]
      rfl, by dsimp only; omega, vo, fun _ e he => ?_⟩
    obtain ⟨g1, e1, l1, v1⟩ := zip_ex (fun a b => a * b) e y err outSize he hy (by omega)
    obtain ⟨w, e2, l2, v2⟩ := zip_ex (fun a b => a * b) e x (g1.view outSize) outSize he hx (by rw [Arr.view_len]; omega)
    obtain ⟨g, eg, vg⟩ : ∃ g, (g1.onView outSize fun w => Vec.zip1D (fun a b => a * b) e x w outSize) = some g ∧
        ∀ i, g.get i = if outSize ≤ i then w.get (i - outSize) else g1.get i := ⟨_, Arr.onView_eq e2, fun i => rfl⟩
    refine ⟨_, g, by
      unfold bp2
      dsimp only
      rw [e1, Option.bind_some, eg]
      rfl, ?_⟩
    refine ew (fun a b => a * b) (fun k => 1 * y.get k) (fun k => x.get k * 1) e.get g.get outSize (fun k _ => (hasDerivAt_id' _).mul_const _)
      (fun k _ => (hasDerivAt_id' _).const_mul _) (fun k hk => ?_) (fun k hk => ?_)
    · rw [vg, if_neg (by omega), v1 k hk]; ring
    · rw [vg, if_pos (by omega), Nat.add_sub_cancel_left, v2 k hk]; ring
  | div =>
    have hx : outSize ≤ x.len := hx
    have hy : outSize ≤ y.len := hy
    have le := lerr (by decide) (by decide)
    obtain ⟨o, eo, lo', vo⟩ := zip_ex (fun a b => a / b) x y output outSize hx hy lo
    refine ⟨_, by
      unfold ff2
      dsimp only
      rw [eo]
      rfl, by dsimp only; omega, vo, fun hne e he => ?_⟩
    have hne := hne rfl
    obtain ⟨g1, e1, l1, v1⟩ := zip_ex (fun a b => a / b) e y err outSize he hy (by omega)
    have lw : outSize ≤ (g1.view outSize).len := by rw [Arr.view_len]; omega
    obtain ⟨w, e2, l2, v2⟩ := zip_ex (fun a b => a * b) e x (g1.view outSize) outSize he hx lw
    obtain ⟨w2, e3, l3, v3⟩ := zip_ex (fun a b => a / b) w y w outSize (by omega) hy (by omega)
    obtain ⟨w3, e4, l4, v4⟩ := zip_ex (fun a b => a / b) w2 y w2 outSize (by omega) hy (by omega)
    obtain ⟨w4, e5, l5, v5⟩ := map_ex (fun a => a * (-1)) w3 w3 outSize (by omega) (by omega)
    obtain ⟨g, eg, vg⟩ : ∃ g, (g1.onView outSize fun w => (Vec.zip1D (fun a b => a * b) e x w outSize).bind fun w =>
        (Vec.zip1D (fun a b => a / b) w y w outSize).bind fun w => (Vec.zip1D (fun a b => a / b) w y w outSize).bind fun w =>
          Vec.map1D (fun a => a * (-1)) w w outSize) = some g ∧
        ∀ i, g.get i = if outSize ≤ i then w4.get (i - outSize) else g1.get i :=
      ⟨_, Arr.onView_eq (b := w4) (by rw [e2, Option.bind_some, e3, Option.bind_some, e4, Option.bind_some, e5]), fun i => rfl⟩
    refine ⟨_, g, by
      unfold bp2
      dsimp only
      rw [e1, Option.bind_some, eg]
      rfl, ?_⟩
    refine ew (fun a b => a / b) (fun k => 1 / y.get k) (fun k => (0 * y.get k - x.get k * 1) / y.get k ^ 2) e.get g.get outSize
      (fun k _ => (hasDerivAt_id' _).div_const _)
      (fun k hk => (hasDerivAt_const (y.get k) (x.get k)).div (hasDerivAt_id' _) (hne k hk)) (fun k hk => ?_) (fun k hk => ?_)
    · rw [vg, if_neg (by omega), v1 k hk]; ring
    · have := hne k hk
      rw [vg, if_pos (by omega), Nat.add_sub_cancel_left, v5 k hk, v4 k hk, v3 k hk, v2 k hk]
      field_simp
      ring

/-! ### Theorems -/

/-- What a node with one input computes, as a function of the input. -/
noncomputable def Node.fn (n : Node) : (Nat → ℝ) → Nat → ℝ := fn1 n.action n.act n.outSize n.index n.w

/-- The forward pass with one input and no dropout: the sum, difference, product or quotient with
`v`, the inverse, the opposite, the part of the input from `index` on, or the activation. -/
theorem C137_forward (draw : Nat → Bool) (n : Node) (x : Arr ℝ) (hr : Ready1 n) (hd : n.drop = .off) (hp : Plain1 n) (hx : n.inSize ≤ x.len) :
    ∃ n', ff1 draw x n = some n' ∧ n.outSize ≤ n'.output.len ∧ ∀ k, k < n.outSize → n'.output.get k = n.fn x.get k := by
  obtain ⟨n', h1, h2, h3, _⟩ := one_run draw n x hr hd hp hx
  exact ⟨n', h1, h2, h3⟩

/-- The backward pass with one input and no dropout: for every loss whose derivatives by the
outputs are the given errors, the array returned holds the derivatives by the inputs. -/
theorem C137_gradient_partial (draw : Nat → Bool) (n : Node) (x e : Arr ℝ) (ℓ : Nat → ℝ → ℝ) (hr : Ready1 n) (hd : n.drop = .off) (hp : Plain1 n)
    (hx : n.inSize ≤ x.len) (hs : Smooth1 n x.get) (he : n.outSize ≤ e.len)
    (hl : ∀ k, k < n.outSize → HasDerivAt (ℓ k) (e.get k) (n.fn x.get k)) :
    ∃ n' n'' g, ff1 draw x n = some n' ∧ bp1 x n' e = some (n'', g) ∧ ∀ i, i < n.inSize →
      HasDerivAt (fun t => ∑ k ∈ range n.outSize, ℓ k (n.fn (Function.update x.get i t) k)) (g.get i) (x.get i) := by
  obtain ⟨n', h1, h2, h3, h4⟩ := one_run draw n x hr hd hp hx
  obtain ⟨n'', g, h5, _, h6⟩ := h4 hs e he
  exact ⟨n', n'', g, h1, h5, fun i hi => Pull.coord h6 ℓ hl i hi⟩

/-- With two inputs: the forward pass, and the derivatives by both inputs in the array returned. -/
theorem C137_two_inputs (n : Node) (x y e : Arr ℝ) (ℓ : Nat → ℝ → ℝ) (hr : Ready2 n) (hx : in1 n ≤ x.len) (hy : in2 n ≤ y.len)
    (hs : n.action = .div → ∀ k, k < n.outSize → y.get k ≠ 0) (he : n.outSize ≤ e.len)
    (hl : ∀ k, k < n.outSize → HasDerivAt (ℓ k) (e.get k) (fn2 n.action n.index x.get y.get k)) :
    ∃ n' n'' g, ff2 x y n = some n' ∧ (∀ k, k < n.outSize → n'.output.get k = fn2 n.action n.index x.get y.get k) ∧
      bp2 x y n' e = some (n'', g) ∧
      (∀ i, i < in1 n → HasDerivAt (fun t => ∑ k ∈ range n.outSize, ℓ k (fn2 n.action n.index (Function.update x.get i t) y.get k))
        (g.get i) (x.get i)) ∧
      ∀ i, i < in2 n → HasDerivAt (fun t => ∑ k ∈ range n.outSize, ℓ k (fn2 n.action n.index x.get (Function.update y.get i t) k))
        (g.get (off2 n + i)) (y.get i) := by
  obtain ⟨n', h1, h2, h3, h4⟩ := two_run n x y hr hx hy
  obtain ⟨n'', g, h5, h6, h7⟩ := h4 hs e he
  exact ⟨n', n'', g, h1, h3, h5, fun i hi => Pull.coord h6 ℓ hl i hi, fun i hi => Pull.coord h7 ℓ hl i hi⟩

/-- Not as asked: a node with two inputs whose action is none of the four arithmetic ones is a
concatenation from then on, whatever its action was. -/
theorem C137_two_inputs_refuted (n n' : Node) (x y : Arr ℝ) (ha : ¬Arith n.action) (h : ff2 x y n = some n') : n'.action = .concat := by
  unfold ff2 at h
  have go : (if n.outSize < n.index then none else (Vec.map1D (fun a => a) x n.output n.index).bind fun o =>
      (o.onView n.index fun v => Vec.map1D (fun a => a) y v (n.outSize - n.index)).map fun o => { n with action := .concat, output := o }) = some n' →
      n'.action = .concat := by
    intro h
    by_cases hc : n.outSize < n.index
    · rw [if_pos hc] at h; cases h
    · rw [if_neg hc] at h
      obtain ⟨o, _, h⟩ := Option.bind_eq_some_iff.1 h
      obtain ⟨o', _, rfl⟩ := Option.map_eq_some_iff.1 h
      rfl
  cases hk : n.action with
  | add => exact absurd (Or.inl hk) ha
  | sub => exact absurd (Or.inr (Or.inl hk)) ha
  | mul => exact absurd (Or.inr (Or.inr (Or.inl hk))) ha
  | div => exact absurd (Or.inr (Or.inr (Or.inr hk))) ha
  | none => rw [hk] at h; exact go h
  | resize => rw [hk] at h; exact go h
  | concat => rw [hk] at h; exact go h
  | inverse => rw [hk] at h; exact go h
  | neg => rw [hk] at h; exact go h
  | getMax => rw [hk] at h; exact go h

/-- The scan: nothing above -1, or the first of the largest. -/
theorem scanMax_run (x : Arr ℝ) (n : Nat) (hx : n ≤ x.len) :
    ∃ s, scanMax x n = some s ∧ ((s = (-1, none) ∧ ∀ k, k < n → x.get k ≤ -1) ∨
      ∃ m, m < n ∧ s = (x.get m, some m) ∧ -1 < x.get m ∧ (∀ k, k < n → x.get k ≤ x.get m) ∧ ∀ k, k < m → x.get k < x.get m) := by
  unfold scanMax
  refine loop_inv (P := fun i s => (s = (-1, none) ∧ ∀ k, k < i → x.get k ≤ -1) ∨
      ∃ m, m < i ∧ s = (x.get m, some m) ∧ -1 < x.get m ∧ (∀ k, k < i → x.get k ≤ x.get m) ∧ ∀ k, k < m → x.get k < x.get m) ?_ ?_
  · exact Or.inl ⟨rfl, fun k hk => absurd hk (Nat.not_lt_zero k)⟩
  · intro i s hi hP
    rw [Arr.read_eq (by omega), Option.bind_some]
    refine ⟨_, rfl, ?_⟩
    rcases hP with ⟨rfl, h⟩ | ⟨m, hm, rfl, h1, h2, h3⟩
    · by_cases hc : -1 < x.get i
      · right
        refine ⟨i, by omega, if_pos hc, hc, fun k hk => ?_, fun k hk => lt_of_le_of_lt (h k hk) hc⟩
        rcases Nat.lt_succ_iff_lt_or_eq.1 hk with hk | rfl
        · exact (lt_of_le_of_lt (h k hk) hc).le
        · exact le_refl _
      · left
        refine ⟨if_neg hc, fun k hk => ?_⟩
        rcases Nat.lt_succ_iff_lt_or_eq.1 hk with hk | rfl
        · exact h k hk
        · exact not_lt.1 hc
    · right
      by_cases hc : x.get m < x.get i
      · refine ⟨i, by omega, if_pos hc, h1.trans hc, fun k hk => ?_, fun k hk => lt_of_le_of_lt (h2 k hk) hc⟩
        rcases Nat.lt_succ_iff_lt_or_eq.1 hk with hk | rfl
        · exact (lt_of_le_of_lt (h2 k hk) hc).le
        · exact le_refl _
      · refine ⟨m, by omega, if_neg hc, h1, fun k hk => ?_, h3⟩
        rcases Nat.lt_succ_iff_lt_or_eq.1 hk with hk | rfl
        · exact h2 k hk
        · exact not_lt.1 hc

/-- `GET_MAX` on a cleared output and inputs that are not all at most -1: one at the first of the
largest inputs, zero elsewhere. -/
theorem C137_getMax_partial (draw : Nat → Bool) (n : Node) (x : Arr ℝ) (ha : n.action = .getMax) (hd : n.drop = .off) (hv : n.vSize = n.outSize)
    (hx : n.outSize ≤ x.len) (ho : n.outSize ≤ n.output.len) (hz : ∀ k, k < n.outSize → n.output.get k = 0) (hb : ∃ k, k < n.outSize ∧ -1 < x.get k) :
    ∃ n' m, ff1 draw x n = some n' ∧ m < n.outSize ∧ (∀ k, k < n.outSize → x.get k ≤ x.get m) ∧ (∀ k, k < m → x.get k < x.get m) ∧
      ∀ k, k < n.outSize → n'.output.get k = if k = m then 1 else 0 := by
  obtain ⟨s, es, hs⟩ := scanMax_run x n.outSize hx
  rcases hs with ⟨_, h⟩ | ⟨m, hm, rfl, _, h2, h3⟩
  · obtain ⟨k, hk, hk'⟩ := hb
    exact absurd hk' (not_lt.2 (h k hk))
  · refine ⟨_, m, by
      unfold ff1
      rw [hd, ha]
      dsimp only
      rw [if_neg (not_not.2 hv.symm), es, Option.bind_some, Option.bind_some, Arr.write_eq _ (by omega), Option.map_some], hm, h2, h3, fun k hk => ?_⟩
    dsimp only
    by_cases h : k = m
    · rw [if_pos h, h, Function.update_self]
    · rw [if_neg h, Function.update_of_ne h, hz k hk]

/-- `GET_MAX` writes in front of the output array when every input is at most -1. -/
theorem C137_getMax_refuted (draw : Nat → Bool) (n : Node) (x : Arr ℝ) (ha : n.action = .getMax) (hd : n.drop = .off)
    (hx : n.outSize ≤ x.len) (hb : ∀ k, k < n.outSize → x.get k ≤ -1) : ff1 draw x n = none := by
  obtain ⟨s, es, hs⟩ := scanMax_run x n.outSize hx
  unfold ff1
  rw [hd, ha]
  dsimp only
  by_cases hv : n.outSize ≠ n.vSize
  · rw [if_pos hv]
  · rw [if_neg hv, es, Option.bind_some]
    rcases hs with ⟨rfl, _⟩ | ⟨m, hm, _, h1, _⟩
    · rfl
    · exact absurd h1 (not_lt.2 (hb m hm))

/-- The forward pass with dropout in training: the inputs drawn are zero, the others stay. -/
theorem C137_dropout (draw : Nat → Bool) (n : Node) (x a : Arr ℝ) (hd : n.drop = .train) (hv : n.v = some a) (hs : n.vSize = n.outSize)
    (la : n.outSize ≤ a.len) (hx : n.outSize ≤ x.len) (ho : n.outSize ≤ n.output.len) :
    ∃ n', ff1 draw x n = some n' ∧ ∀ k, k < n.outSize → n'.output.get k = if draw k then 0 else x.get k := by
  have e1 := setValue_eq 1 a n.outSize la
  have e2 := setMask_eq draw ⟨a.len, fun k => if k < n.outSize then 1 else a.get k⟩ n.outSize la
  obtain ⟨o, eo, _, vo⟩ := zip_ex (fun a b => a * b) x _ n.output n.outSize hx
    (show n.outSize ≤ (⟨a.len, fun k => if k < n.outSize then (if draw k then 0 else if k < n.outSize then 1 else a.get k)
      else if k < n.outSize then 1 else a.get k⟩ : Arr ℝ).len from la) ho
  refine ⟨_, by
    unfold ff1
    rw [hd]
    dsimp only
    rw [if_neg (not_not.2 hs), hv, Option.bind_some, hs, e1, Option.bind_some, e2, Option.bind_some, eo, Option.map_some], fun k hk => ?_⟩
  dsimp only
  rw [vo k hk]
  dsimp only
  rw [if_pos hk, if_pos hk]
  by_cases h : draw k <;> simp [h]

/-- The forward pass with dropout in testing: everything times one minus the threshold. -/
theorem C137_dropout_test (draw : Nat → Bool) (n : Node) (x : Arr ℝ) (hd : n.drop = .test) (hx : n.outSize ≤ x.len) (ho : n.outSize ≤ n.output.len) :
    ∃ n', ff1 draw x n = some n' ∧ ∀ k, k < n.outSize → n'.output.get k = x.get k * (1 - n.threshold) := by
  obtain ⟨o, eo, _, vo⟩ := map_ex (fun a => a * (1 - n.threshold)) x n.output n.outSize hx ho
  exact ⟨_, by unfold ff1; rw [hd]; dsimp only; rw [eo, Option.map_some], vo⟩

/-- The backward pass of a dropout node returns the error array as it was, whatever the errors
and the mask: zeros, in a node just created. -/
theorem C137_dropout_refuted (draw : Nat → Bool) (n : Node) (x a e : Arr ℝ) (hn : n.action = .none) (hact : n.act = .none) (hd : n.drop = .train)
    (hv : n.v = some a) (hs : n.vSize = n.outSize) (la : n.outSize ≤ a.len) (hx : n.outSize ≤ x.len) (ho : n.outSize ≤ n.output.len) :
    ∃ n', ff1 draw x n = some n' ∧ bp1 x n' e = some (n', n.err) := by
  obtain ⟨n', h, _⟩ := C137_dropout draw n x a hd hv hs la hx ho
  refine ⟨n', h, ?_⟩
  unfold ff1 at h
  rw [hd] at h
  dsimp only at h
  rw [if_neg (not_not.2 hs), hv, Option.bind_some] at h
  obtain ⟨v1, _, h⟩ := Option.bind_eq_some_iff.1 h
  obtain ⟨v2, _, h⟩ := Option.bind_eq_some_iff.1 h
  obtain ⟨o, _, rfl⟩ := Option.map_eq_some_iff.1 h
  unfold bp1
  dsimp only
  rw [hn, hact]

/-- The error of a soft-max node is added to the one of the last time, and `reset_vector` does
not clear it: the same pass a second time returns twice the derivatives. -/
theorem C137_softmax_refuted (draw : Nat → Bool) (n : Node) (x e : Arr ℝ) (hr : Ready1 n) (hn : n.action = .none) (hact : n.act = .softmax)
    (hd : n.drop = .off) (hx : n.inSize ≤ x.len) (he : n.outSize ≤ e.len) :
    ∃ n1 n2 g n3 n4 n5 g', ff1 draw x n = some n1 ∧ bp1 x n1 e = some (n2, g) ∧ reset n2 = some n3 ∧ ff1 draw x n3 = some n4 ∧
      bp1 x n4 e = some (n5, g') ∧ ∀ k, k < n.inSize → g'.get k = 2 * g.get k := by
  obtain ⟨v, vSize, outSize, inSize, index, action, act, drop, threshold, output, ptr, err⟩ := n
  obtain ⟨lout, lerr, zerr, hv, vsize, io, ri⟩ := hr
  dsimp only at *
  subst hn hact hd
  obtain rfl := io (by decide)
  have lo := lout (by decide)
  obtain ⟨p, ep, lp, vp⟩ := actArray_run .softmax x output inSize hx lo
  have e1 := Softmax.derivativeSoftmax_eq err p e inSize lp he lerr
  have e2 := setValue_eq 0 p inSize lp
  obtain ⟨p', ep', lp', vp'⟩ := actArray_run .softmax x ⟨p.len, fun k => if k < inSize then 0 else p.get k⟩ inSize hx lp
  have e3 := Softmax.derivativeSoftmax_eq ⟨err.len, fun k => err.get k + ∑ j ∈ range inSize, ∑ i ∈ range inSize, if k = j then
        (if i = j then p.get i * (1 - p.get j) * e.get i else -(p.get j * p.get i * e.get i)) else 0⟩ p' e inSize lp' he lerr
  refine ⟨_, _, _, _, _, _, _, by unfold ff1; dsimp only; rw [ep, Option.map_some], by unfold bp1; dsimp only; rw [e1]; rfl,
    by unfold reset; dsimp only; rw [if_pos (by decide), e2, Option.map_some], by unfold ff1; dsimp only; rw [ep', Option.map_some],
    by unfold bp1; dsimp only; rw [e3]; rfl, fun k hk => ?_⟩
  dsimp only
  rw [zerr k hk, zero_add, two_mul]
  congr 1
  refine Finset.sum_congr rfl fun j hj => Finset.sum_congr rfl fun i hi => ?_
  have h : ∀ j, j < inSize → p'.get j = p.get j := fun j hj => (vp' (by decide) j hj).trans (vp (by decide) j hj).symm
  rw [h i (Finset.mem_range.1 hi), h j (Finset.mem_range.1 hj)]

/-- Reading what was written gives back everything but the numbers of `v`. -/
theorem C137_load (n : Node) (w rest : Save.File ℝ) (h : save n = some w) :
    load (w ++ rest) = some (create none n.vSize n.outSize n.action n.act n.drop n.index n.threshold n.inSize, rest) := by
  have ha : ∀ a : Action, Action.ofCode a.code = a := by intro a; cases a <;> rfl
  have hb : ∀ a : Act, actOf (actCode a) = a := by intro a; cases a <;> rfl
  have hc : ∀ a : Drop, dropOf (dropCode a) = a := by intro a; cases a <;> rfl
  unfold save at h
  obtain ⟨u, hu, rfl⟩ := Option.map_eq_some_iff.1 h
  refine (show Save.Rd load _ _ from ?_) rest
  refine Save.Rd.int (Save.Rd.int (Save.Rd.int (Save.Rd.int (Save.Rd.int (Save.Rd.int (Save.Rd.int (Save.Rd.flt ?_)))))))
  simp only [ha, hb, hc, Int.toNat_natCast]
  cases hv : n.v with
  | none =>
    rw [hv] at hu
    cases hu
    exact Save.Rd.int (Save.Rd.pure _)
  | some a =>
    rw [hv] at hu
    obtain ⟨u', hu', rfl⟩ := Option.map_eq_some_iff.1 hu
    refine Save.Rd.int ?_
    unfold Save.wrFlts at hu'
    by_cases hc : n.vSize = 0 ∨ ((List.range a.len).map a.get).length < n.vSize
    · rw [if_pos hc] at hu'; cases hu'
    · rw [if_neg hc] at hu'
      cases hu'
      rw [not_or, not_lt] at hc
      exact Save.Rd.last (Save.Rd.flts (List.length_take_of_le hc.2) hc.1) (Save.Rd.pure _)

/-- A node that computes with `v` cannot be used after it was saved and loaded: `v` is null. -/
theorem C137_load_refuted (draw : Nat → Bool) (n n' : Node) (w rest rest' : Save.File ℝ) (x : Arr ℝ) (h : save n = some w) (ha : Arith n.action)
    (hd : n.drop = .off) (hl : load (w ++ rest) = some (n', rest')) : ff1 draw x n' = none := by
  rw [C137_load n w rest h] at hl
  cases hl
  have go : ∀ op, withV op x (create none n.vSize n.outSize n.action n.act n.drop n.index n.threshold n.inSize) = none := by
    intro op
    unfold withV
    by_cases hc : n.outSize = n.vSize
    · exact (if_neg (not_not.2 hc)).trans rfl
    · exact if_pos hc
  unfold ff1
  rw [show (create none n.vSize n.outSize n.action n.act n.drop n.index n.threshold n.inSize).drop = .off from hd,
    show (create none n.vSize n.outSize n.action n.act n.drop n.index n.threshold n.inSize).action = n.action from rfl]
  rcases ha with h | h | h | h <;> rw [h] <;> dsimp only <;> rw [← h] <;> exact go _

/-- A copy is a node just created with the same numbers. -/
theorem C137_copy (n : Node) (hv : ∀ a, n.v = some a → n.vSize ≤ a.len) :
    ∃ c, copy n = some c ∧ c.v.isSome = n.v.isSome ∧ (n.v.isSome → ∀ k, k < n.vSize → c.w k = n.w k) ∧
      c = create c.v n.vSize n.outSize n.action n.act n.drop n.index n.threshold n.inSize := by
  unfold copy
  cases h : n.v with
  | none => exact ⟨_, rfl, rfl, (fun h => by cases h), rfl⟩
  | some a =>
    obtain ⟨v, ev, _, vv⟩ := map_ex (fun x => x) a (zeros n.vSize) n.vSize (hv a h) (Nat.le_refl _)
    dsimp only
    rw [ev, Option.map_some]
    refine ⟨_, rfl, rfl, fun _ k hk => ?_, rfl⟩
    unfold Node.w
    rw [h]
    exact vv k hk

/-- Pasting into another node copies the numbers and nothing else. -/
theorem C137_paste (n c : Node) (a b : Arr ℝ) (ha : n.v = some a) (hb : c.v = some b) (la : n.vSize ≤ a.len) (lb : n.vSize ≤ b.len) :
    ∃ v, paste n c = some { c with v := some v } ∧ v.len = b.len ∧ ∀ k, v.get k = if k < n.vSize then a.get k else b.get k := by
  unfold paste
  rw [ha, hb, Option.bind_some, Option.bind_some, Vec.C64_map _ _ _ _ la lb]
  exact ⟨_, rfl, rfl, fun _ => rfl⟩

/-- One use of a node by its owner. -/
inductive Use : Node → Node → Prop where
  | ff1 {draw x n n'} : ff1 draw x n = some n' → Use n n'
  | ff2 {x y n n'} : ff2 x y n = some n' → Use n n'
  | bp1 {x e n n' g} : bp1 x n e = some (n', g) → Use n n'
  | bp2 {x y e n n' g} : bp2 x y n e = some (n', g) → Use n n'
  | reset {n n'} : reset n = some n' → Use n n'

theorem ret_ptr {n n' : Node} {o : Option (Arr ℝ)} {g : Arr ℝ} (h : ret n o = some (n', g)) : n'.ptr = n.ptr ∧ n'.action = n.action := by
  obtain ⟨b, _, h⟩ := Option.map_eq_some_iff.1 h
  cases h
  exact ⟨rfl, rfl⟩

/-- Only `RESIZE` touches the pointer, and no use makes it one. -/
theorem Use.ptr {n n' : Node} (h : Use n n') : (n'.ptr = n.ptr ∨ (n.action = .resize ∧ n'.ptr = .inside)) ∧
    (n'.action = n.action ∨ n'.action = .concat) := by
  cases h with
  | ff1 h =>
    have hw : ∀ op x, withV op x n = some n' → n'.ptr = n.ptr ∧ n'.action = n.action := by
      intro op x h
      unfold withV at h
      by_cases hc : n.outSize ≠ n.vSize
      · rw [if_pos hc] at h; cases h
      · rw [if_neg hc] at h
        obtain ⟨_, _, h⟩ := Option.bind_eq_some_iff.1 h
        obtain ⟨_, _, rfl⟩ := Option.map_eq_some_iff.1 h
        exact ⟨rfl, rfl⟩
    have hal : ∀ op x, alone op x n = some n' → n'.ptr = n.ptr ∧ n'.action = n.action := by
      intro op x h
      unfold alone at h
      by_cases hc : n.outSize ≠ n.vSize
      · rw [if_pos hc] at h; cases h
      · rw [if_neg hc] at h
        obtain ⟨_, _, rfl⟩ := Option.map_eq_some_iff.1 h
        exact ⟨rfl, rfl⟩
    have fin : n'.ptr = n.ptr ∧ n'.action = n.action → (n'.ptr = n.ptr ∨ (n.action = .resize ∧ n'.ptr = .inside)) ∧
      (n'.action = n.action ∨ n'.action = .concat) := fun h => ⟨Or.inl h.1, Or.inl h.2⟩
    unfold VNode.ff1 at h
    cases hd : n.drop with
    | train =>
      rw [hd] at h
      dsimp only at h
      by_cases hc : n.vSize ≠ n.outSize
      · rw [if_pos hc] at h; cases h
      · rw [if_neg hc] at h
        obtain ⟨_, _, h⟩ := Option.bind_eq_some_iff.1 h
        obtain ⟨_, _, h⟩ := Option.bind_eq_some_iff.1 h
        obtain ⟨_, _, h⟩ := Option.bind_eq_some_iff.1 h
        obtain ⟨_, _, rfl⟩ := Option.map_eq_some_iff.1 h
        exact fin ⟨rfl, rfl⟩
    | test =>
      rw [hd] at h
      obtain ⟨_, _, rfl⟩ := Option.map_eq_some_iff.1 h
      exact fin ⟨rfl, rfl⟩
    | off =>
      rw [hd] at h
      dsimp only at h
      cases ha : n.action <;> rw [ha] at h <;> dsimp only at h <;> rw [← ha]
      case none => obtain ⟨_, _, rfl⟩ := Option.map_eq_some_iff.1 h; exact fin ⟨rfl, ha.symm⟩
      case concat => obtain ⟨_, _, rfl⟩ := Option.map_eq_some_iff.1 h; exact ⟨Or.inl rfl, Or.inl ha.symm⟩
      case add => exact fin (hw _ _ h)
      case sub => exact fin (hw _ _ h)
      case mul => exact fin (hw _ _ h)
      case div => exact fin (hw _ _ h)
      case inverse => exact fin (hal _ _ h)
      case neg => exact fin (hal _ _ h)
      case resize =>
        rename_i draw x
        by_cases hc : n.index ≤ x.len
        · rw [if_pos hc] at h
          cases h
          exact ⟨Or.inr ⟨rfl, rfl⟩, Or.inl ha.symm⟩
        · rw [if_neg hc] at h; cases h
      case getMax =>
        by_cases hc : n.outSize ≠ n.vSize
        · rw [if_pos hc] at h; cases h
        · rw [if_neg hc] at h
          obtain ⟨_, _, h⟩ := Option.bind_eq_some_iff.1 h
          obtain ⟨_, _, h⟩ := Option.bind_eq_some_iff.1 h
          obtain ⟨_, _, rfl⟩ := Option.map_eq_some_iff.1 h
          exact fin ⟨rfl, ha.symm⟩
  | ff2 h =>
    rename_i x y
    by_cases ha : Arith n.action
    · unfold VNode.ff2 at h
      rcases ha with ha | ha | ha | ha <;> rw [ha] at h <;> dsimp only at h
      · by_cases hc : n.outSize ≠ n.vSize
        · rw [if_pos hc] at h; cases h
        · rw [if_neg hc] at h
          obtain ⟨_, _, rfl⟩ := Option.map_eq_some_iff.1 h
          exact ⟨Or.inl rfl, Or.inl ha.symm⟩
      all_goals
        obtain ⟨_, _, rfl⟩ := Option.map_eq_some_iff.1 h
        exact ⟨Or.inl rfl, Or.inl ha.symm⟩
    · refine ⟨Or.inl ?_, Or.inr (C137_two_inputs_refuted n n' x y ha h)⟩
      unfold VNode.ff2 at h
      have go : (if n.outSize < n.index then none else (Vec.map1D (fun a => a) x n.output n.index).bind fun o =>
          (o.onView n.index fun v => Vec.map1D (fun a => a) y v (n.outSize - n.index)).map fun o => { n with action := .concat, output := o }) = some n' →
          n'.ptr = n.ptr := by
        intro h
        by_cases hc : n.outSize < n.index
        · rw [if_pos hc] at h; cases h
        · rw [if_neg hc] at h
          obtain ⟨o, _, h⟩ := Option.bind_eq_some_iff.1 h
          obtain ⟨o', _, rfl⟩ := Option.map_eq_some_iff.1 h
          rfl
      cases hk : n.action with
      | add => exact absurd (Or.inl hk) ha
      | sub => exact absurd (Or.inr (Or.inl hk)) ha
      | mul => exact absurd (Or.inr (Or.inr (Or.inl hk))) ha
      | div => exact absurd (Or.inr (Or.inr (Or.inr hk))) ha
      | none => rw [hk] at h; exact go h
      | resize => rw [hk] at h; exact go h
      | concat => rw [hk] at h; exact go h
      | inverse => rw [hk] at h; exact go h
      | neg => rw [hk] at h; exact go h
      | getMax => rw [hk] at h; exact go h
  | bp1 h =>
    rename_i x e g
    have fin : n'.ptr = n.ptr ∧ n'.action = n.action → (n'.ptr = n.ptr ∨ (n.action = .resize ∧ n'.ptr = .inside)) ∧
      (n'.action = n.action ∨ n'.action = .concat) := fun h => ⟨Or.inl h.1, Or.inl h.2⟩
    have hact : ∀ d, actErr d x e n = some (n', g) → n'.ptr = n.ptr ∧ n'.action = n.action := by
      intro d h
      obtain ⟨_, _, h⟩ := Option.bind_eq_some_iff.1 h
      exact ret_ptr h
    have hsame : some (n, e) = some (n', g) → n'.ptr = n.ptr ∧ n'.action = n.action := by
      intro h; cases h; exact ⟨rfl, rfl⟩
    have hrest : (match n.act with
        | .none => some (n, n.err)
        | .sigmoid => actErr LLab.Act.dSigmoid x e n
        | .tanh => actErr LLab.Act.dTanhh x e n
        | .relu => actErr LLab.Act.dRelu x e n
        | .leaky => actErr LLab.Act.dLeakyRelu x e n
        | .elu => actErr (fun z => LLab.Act.dElu z 1) x e n
        | .softmax => ret n (Softmax.derivativeSoftmax n.err n.output e n.outSize)) = some (n', g) → n'.ptr = n.ptr ∧ n'.action = n.action := by
      intro h
      cases hk : n.act <;> rw [hk] at h <;> dsimp only at h
      case none => cases h; exact ⟨rfl, rfl⟩
      case softmax => exact ret_ptr h
      all_goals exact hact _ h
    have hguard : ∀ f : Arr ℝ → Option (Arr ℝ), (if n.outSize ≠ n.vSize then none else n.v.bind fun v => ret n (f v)) = some (n', g) →
        n'.ptr = n.ptr ∧ n'.action = n.action := by
      intro f h
      by_cases hc : n.outSize ≠ n.vSize
      · rw [if_pos hc] at h; cases h
      · rw [if_neg hc] at h
        obtain ⟨_, _, h⟩ := Option.bind_eq_some_iff.1 h
        exact ret_ptr h
    refine fin ?_
    unfold VNode.bp1 at h
    cases ha : n.action <;> rw [ha] at h <;> dsimp only at h <;> rw [← ha]
    case none => exact hrest h
    case getMax => exact hrest h
    case add => exact hsame h
    case sub => exact hsame h
    case concat => exact hsame h
    case mul => exact hguard _ h
    case div => exact hguard _ h
    case neg => exact ret_ptr h
    case resize => exact ret_ptr h
    case inverse =>
      obtain ⟨_, _, h⟩ := Option.bind_eq_some_iff.1 h
      obtain ⟨_, _, h⟩ := Option.bind_eq_some_iff.1 h
      exact ret_ptr h
  | bp2 h =>
    rename_i x y e g
    have fin : n'.ptr = n.ptr ∧ n'.action = n.action → (n'.ptr = n.ptr ∨ (n.action = .resize ∧ n'.ptr = .inside)) ∧
      (n'.action = n.action ∨ n'.action = .concat) := fun h => ⟨Or.inl h.1, Or.inl h.2⟩
    refine fin ?_
    unfold VNode.bp2 at h
    cases ha : n.action <;> rw [ha] at h <;> dsimp only at h <;> rw [← ha]
    case mul => obtain ⟨_, _, h⟩ := Option.bind_eq_some_iff.1 h; exact ret_ptr h
    case div => obtain ⟨_, _, h⟩ := Option.bind_eq_some_iff.1 h; exact ret_ptr h
    case sub => obtain ⟨_, _, h⟩ := Option.bind_eq_some_iff.1 h; exact ret_ptr h
    all_goals
      cases h
      exact ⟨rfl, rfl⟩
  | reset h =>
    unfold VNode.reset at h
    by_cases hc : n.action ≠ .resize
    · rw [if_pos hc] at h
      obtain ⟨_, _, rfl⟩ := Option.map_eq_some_iff.1 h
      exact ⟨Or.inl rfl, Or.inl rfl⟩
    · rw [if_neg hc] at h
      obtain ⟨_, _, rfl⟩ := Option.map_eq_some_iff.1 h
      exact ⟨Or.inl rfl, Or.inl rfl⟩

/-- A node that is no `RESIZE` can be freed after any history of uses. -/
theorem C137_free (v : Option (Arr ℝ)) (vs os : Nat) (a : Action) (act : Act) (d : Drop) (i : Nat) (t : ℝ) (is : Nat) (n : Node)
    (ha : a ≠ .resize) (h : Relation.ReflTransGen Use (create v vs os a act d i t is) n) : canFree n := by
  have key : n.ptr = .owned ∧ n.action ≠ .resize := by
    induction h with
    | refl => exact ⟨if_pos ha, ha⟩
    | tail _ hu ih =>
      obtain ⟨h1, h2⟩ := hu.ptr
      refine ⟨?_, ?_⟩
      · rcases h1 with h1 | h1
        · rw [h1]; exact ih.1
        · exact absurd h1.1 ih.2
      · rcases h2 with h2 | h2 <;> rw [h2]
        · exact ih.2
        · decide
  exact key.1

/-- A `RESIZE` node can never be freed: its output pointer is not set, or points into the array
of another structure. -/
theorem C137_free_refuted (v : Option (Arr ℝ)) (vs os : Nat) (act : Act) (d : Drop) (i : Nat) (t : ℝ) (is : Nat) (n : Node)
    (h : Relation.ReflTransGen Use (create v vs os .resize act d i t is) n) : ¬canFree n := by
  have key : n.ptr ≠ .owned := by
    induction h with
    | refl => exact (by decide : Ptr.uninit ≠ .owned)
    | tail _ hu ih =>
      rcases hu.ptr.1 with h1 | h1
      · rw [h1]; exact ih
      · rw [h1.2]; decide
  exact key

/-! ### The hypotheses can be met -/

/-- Two numbers. -/
def two (a b : ℝ) : Arr ℝ := ⟨2, fun k => if k = 0 then a else b⟩

/-- A node just created is ready. -/
theorem create_ready (a : Action) (act : Act) (m : Nat) (w : Arr ℝ) (hw : m ≤ w.len) (ha : a ≠ .resize) :
    Ready1 (create (some w) m m a act .off 0 0 m) :=
  ⟨fun _ => by unfold create; dsimp only; rw [if_pos ha]; exact Nat.le_refl _, Nat.le_refl _, fun _ _ => rfl, fun _ => ⟨w, rfl, hw⟩, fun _ => rfl, fun _ => rfl,
    fun h => absurd h ha⟩

example : Ready1 (create (some (two 3 4)) 2 2 .div .none .off 0 0 2) ∧ Plain1 (create (some (two 3 4)) 2 2 .div .none .off 0 0 2) ∧
    Smooth1 (create (some (two 3 4)) 2 2 .div .none .off 0 0 2) (two 1 2).get := by
  refine ⟨create_ready _ _ _ _ (Nat.le_refl _) (by decide), ⟨(fun h => by cases h), (fun h => by cases h), (fun h => by cases h)⟩,
    fun _ k _ => ?_, (fun h => by cases h), (fun h => by cases h)⟩
  show (if k = 0 then (3 : ℝ) else 4) ≠ 0
  split <;> norm_num

example : Ready1 (create none 0 2 .resize .none .off 1 0 4) :=
  ⟨fun h => absurd rfl h, Nat.le_refl _, fun _ _ => rfl, (fun h => by rcases h with h | h | h | h <;> cases h),
    (fun h => by rcases h with (h | h | h | h) | h | h <;> cases h), fun h => absurd rfl h, fun _ => by decide⟩

example : Ready2 (create none 0 2 .mul .none .off 0 0 4) ∧ Ready2 (create none 0 5 .concat .none .off 2 0 0) ∧
    in1 (create none 0 5 .concat .none .off 2 0 0) = 2 ∧ in2 (create none 0 5 .concat .none .off 2 0 0) = 3 :=
  ⟨⟨Nat.le_refl _, fun _ _ => Nat.le_refl _, (fun h => by cases h), fun h => absurd (Or.inr (Or.inr (Or.inl rfl))) h⟩,
    ⟨Nat.le_refl _, (fun h => by rcases h with h | h | h | h <;> cases h), (fun h => by cases h), fun _ => by decide⟩, rfl, rfl⟩

/-- A file with the numbers of `v`. -/
example : (save (create (some (two 3 4)) 2 2 .mul .none .off 0 0 2)).isSome := by
  unfold save create two
  simp [Save.wrFlts]

end LLab.VNode
