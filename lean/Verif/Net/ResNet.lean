import Verif.Net.ConvNet

/-!
Property C136: networks with residual blocks (`/repo/src/model.c` 7154-7461, 8079-8392). The
layers inside and outside the blocks are those of `Verif.Net.ConvNet`.

The backward pass keeps a pointer (`error_residual`) to the error of the block's output while the
convolutions of the block are processed. The model follows the contents of that array: a last
convolution with an activation and without pooling multiplies it in place.
-/

namespace LLab.CNet

open Finset LLab.Chain

/-! ### Model -/

/-- The fields of `rl` (`/repo/src/llab_dt.h`) used by the two passes: the convolutional layers and
the arrays of `cl_output`; `n` is `channels*input_rows*input_cols`, the size of `cl_output`
(`/repo/src/residual_layers.c` 45-58). -/
structure Block where
  n : Nat
  cls : List Cl
  act : Act
  pre : Arr ℝ
  post : Arr ℝ
  temp : Arr ℝ
  temp3 : Arr ℝ

/-- The array of the last convolution. -/
def outCl (x : Arr ℝ) : List Cl → Arr ℝ
  | [] => x
  | c :: cs => outCl c.used cs

/-- The size of that array. -/
def sizeCl (n : Nat) : List Cl → Nat
  | [] => n
  | c :: cs => sizeCl c.sh.nOut cs

/-- The convolutions of a block forward: `ff_cl_cl` with the size check (`/repo/src/model.c`
3100). -/
noncomputable def ffCls : Nat → Arr ℝ → List Cl → Option (List Cl)
  | _, _, [] => some []
  | dim, x, c :: cs =>
    if dim ≠ c.sh.nIn then none
    else (ffCl x c).bind fun c' => (ffCls c'.sh.nOut c'.used cs).bind fun cs' => some (c' :: cs')

/-- The convolutions of a block backward. -/
noncomputable def bpCls (e : Arr ℝ) : Arr ℝ → List Cl → Option (List Cl × Arr ℝ)
  | _, [] => some ([], e)
  | x, c :: cs => (bpCls e c.used cs).bind fun r => (bpCl x r.2 c).bind fun s => some (s.1 :: r.1, s.2)

/-- The activation of `cl_output` (`/repo/src/model.c` 7235-7248, 7424-7437); a soft-max does
nothing. -/
noncomputable def blockAct (a : Act) (pre post : Arr ℝ) (n : Nat) : Option (Arr ℝ) :=
  if a = .none ∨ a = .softmax then some post else actArray a pre post n

/-- A residual block forward (`/repo/src/model.c` 7195-7251, 7317-7441): the convolutions, the sum
with the input of the block and the activation. -/
noncomputable def ffBlock (dim : Nat) (x : Arr ℝ) (b : Block) : Option Block :=
  (ffCls dim x b.cls).bind fun cs =>
    (Vec.zip1D (fun u v => u + v) x (outCl x cs) b.pre (sizeCl dim cs)).bind fun pre =>
      (blockAct b.act pre b.post b.n).bind fun post => some { b with cls := cs, pre := pre, post := post }

/-- The array of a block that the next layer reads (`/repo/src/model.c` 307-310, 7387-7392). -/
def Block.used (b : Block) : Arr ℝ := if b.act ≠ .none then b.post else b.pre

/-- The derivative of the activation of `cl_output` (`/repo/src/model.c` 8147-8162). A soft-max
leaves `temp3` as it is. -/
noncomputable def outDeriv (b : Block) : Option (Arr ℝ) :=
  match b.act with
  | .none => some b.temp3
  | .sigmoid => Vec.map1D LLab.Act.dSigmoid b.pre b.temp3 b.n
  | .relu => Vec.map1D LLab.Act.dRelu b.pre b.temp3 b.n
  | .elu => Vec.map1D (fun z => LLab.Act.dElu z 1) b.pre b.temp3 b.n
  | .softmax => some b.temp3
  | .tanh => Vec.map1D LLab.Act.dTanhh b.pre b.temp3 b.n
  | .leaky => Vec.map1D LLab.Act.dLeakyRelu b.pre b.temp3 b.n

/-- `cl_output->temp` (`/repo/src/model.c` 8163-8168): the error times the derivative, or a copy.
Gives `(temp, temp3)`. -/
noncomputable def outBack (b : Block) (e : Arr ℝ) : Option (Arr ℝ × Arr ℝ) :=
  (outDeriv b).bind fun t3 =>
    (if b.act ≠ .none then Vec.zip1D (fun u v => u * v) t3 e b.temp b.n else Vec.map1D (fun v => v) e b.temp b.n).bind fun t =>
      some (t, t3)

/-- What the backward pass of the convolutions, given from the last to the first, leaves in the
error array it was handed: `bp_cl_cl` without pooling uses that array as `temp` (5533) and
multiplies it by the derivative of the activation in place (5642-5678); a layer that only hands
its input on returns the same array (5485). -/
noncomputable def clobber : List Cl → Arr ℝ → Option (Arr ℝ)
  | [], t => some t
  | c :: cs, t =>
    if c.sh.ident then clobber cs t
    else if c.sh.isPass ∨ c.sh.pool ≠ .none ∨ c.sh.act = .none then some t
    else (bpAct c t).map Prod.fst

/-- An entry of `sla` or the entries of one residual block. -/
inductive RLayer where
  | plain (l : Layer)
  | res (b : Block)

namespace RLayer

/-- The array the next layer reads. -/
def used : RLayer → Arr ℝ
  | plain l => l.used
  | res b => b.used

/-- The numbers a layer gives. -/
def output : RLayer → Nat
  | plain l => l.output
  | res b => b.n

/-- `activation_flag == SOFTMAX`. -/
def soft : RLayer → Prop
  | plain l => l.soft
  | res _ => False

instance (l : RLayer) : Decidable l.soft := by
  cases l <;> unfold soft <;> infer_instance

/-- One layer forward. -/
noncomputable def ff (dim : Nat) (x : Arr ℝ) (draw : Nat → Bool) : RLayer → Option RLayer
  | plain l => if dim ≠ l.input then none else (l.ff x draw).map plain
  | res b => (ffBlock dim x b).map res

end RLayer

/-- `model_tensor_input_ff` (`/repo/src/model.c` 7154-7461). -/
noncomputable def ffRes (draws : Nat → Nat → Bool) : Nat → Arr ℝ → Nat → List RLayer → Option (List RLayer)
  | _, _, _, [] => some []
  | dim, x, i, l :: ls =>
    if l.soft ∧ ls ≠ [] then none
    else (l.ff dim x (draws i)).bind fun l' => (ffRes draws l'.output l'.used (i + 1) ls).bind fun ls' => some (l' :: ls')

/-- `output_layer` (`/repo/src/model.c` 271-315). -/
def outRes (x : Arr ℝ) : List RLayer → Arr ℝ
  | [] => x
  | l :: ls => outRes l.used ls

/-- The next layer is not a block. -/
def nextPlain : List RLayer → Bool
  | .plain _ :: _ => true
  | _ => false

/-- A block of one convolution before a layer that is no block: `count2` is not negative there
(`/repo/src/model.c` 8203-8205, 8254-8257), so that layer is processed with the convolution instead
of `cl_output`, and the activation of `cl_output` is left out. -/
def Block.missed (b : Block) (ls : List RLayer) : Bool := b.cls.length == 1 && nextPlain ls

/-- The array handed to the backward pass of the layer after the block. -/
def Block.seen (b : Block) (x : Arr ℝ) (ls : List RLayer) : Arr ℝ := if b.missed ls then outCl x b.cls else b.used

/-- `sum1D(error1,error_residual,error1,..)` (`/repo/src/model.c` 8189, 8378) when a residual error
is waiting. -/
noncomputable def addPend (e : Arr ℝ) : Option (Arr ℝ × Nat) → Option (Arr ℝ)
  | none => some e
  | some p => Vec.zip1D (fun u v => u + v) e p.1 e p.2

/-- The error of a block's output: the derivative of its activation first, then the residual error
of the next block (`/repo/src/model.c` 8355-8378: `sum1D` comes after the derivative of the
previous block). -/
noncomputable def blockErr (b : Block) (ls : List RLayer) (e : Arr ℝ) (p : Option (Arr ℝ × Nat)) : Option (Arr ℝ × Arr ℝ) :=
  if b.missed ls then (addPend e p).map fun t => (t, b.temp3)
  else (outBack b e).bind fun o => (addPend o.1 p).map fun t => (t, o.2)

/-- `model_tensor_input_bp` (`/repo/src/model.c` 8079-8392), from the last layer to the first:
gives the layers, `error1`, and `error_residual` with its size when it has still to be added. -/
noncomputable def bpRes (e : Arr ℝ) : Arr ℝ → List RLayer → Option (List RLayer × Arr ℝ × Option (Arr ℝ × Nat))
  | _, [] => some ([], e, none)
  | x, .plain l :: ls => (bpRes e l.used ls).bind fun r => (addPend r.2.1 r.2.2).bind fun e' => (l.bp x e').bind fun s =>
      some (.plain s.1 :: r.1, s.2, none)
  | x, .res b :: ls => (bpRes e (b.seen x ls) ls).bind fun r => (blockErr b ls r.2.1 r.2.2).bind fun t =>
      (bpCls t.1 x b.cls).bind fun s => (clobber b.cls.reverse t.1).bind fun q =>
        some (.res { b with cls := s.1, temp := t.1, temp3 := t.2 } :: r.1, s.2, some (q, b.n))

/-- The whole backward pass, with the last `sum1D`. -/
noncomputable def bpResNet (e x : Arr ℝ) (ls : List RLayer) : Option (List RLayer × Arr ℝ) :=
  (bpRes e x ls).bind fun r => (addPend r.2.1 r.2.2).map fun err => (r.1, err)

/-! ### Specification -/

/-- A layer or a residual block as a function: `act (x + inner x)`. -/
inductive RSpec where
  | plain (u : Spec)
  | res (n : Nat) (a : Act) (us : List Spec)

namespace RSpec

/-- The layer. -/
noncomputable def fn : RSpec → (Nat → ℝ) → Nat → ℝ
  | plain u => u.fn
  | res _ a us => fun x k => act1 a (x k + cnet us x k)

/-- The numbers a layer gives. -/
def output : RSpec → Nat
  | plain u => u.output
  | res n _ _ => n

/-- The layer is differentiable at `x`. -/
def Smooth : RSpec → (Nat → ℝ) → Prop
  | plain u, x => u.Smooth x
  | res n a us, x => SmoothAt us x ∧ (a = .relu ∨ a = .leaky ∨ a = .elu → ∀ k, k < n → x k + cnet us x k ≠ 0)

end RSpec

/-- The whole network. -/
noncomputable def rnet : List RSpec → (Nat → ℝ) → Nat → ℝ
  | [], x => x
  | u :: us, x => rnet us (u.fn x)

/-- The number of outputs. -/
def routSize (n : Nat) : List RSpec → Nat
  | [] => n
  | u :: us => routSize u.output us

/-- Every layer is differentiable at the point it is given. -/
def RSmoothAt : List RSpec → (Nat → ℝ) → Prop
  | [], _ => True
  | u :: us, x => u.Smooth x ∧ RSmoothAt us (u.fn x)

/-- The convolutions of a block as functions. -/
noncomputable def inner (cs : List Cl) : List Spec := cs.map fun c => .cl c.unit

/-- The layer of the code as a function, for given draws of the dropout. -/
noncomputable def RLayer.spec (draw : Nat → Bool) : RLayer → RSpec
  | .plain l => .plain (l.spec draw)
  | .res b => .res b.n b.act (inner b.cls)

/-- The layers as functions. -/
noncomputable def rspecs (draws : Nat → Nat → Bool) : Nat → List RLayer → List RSpec
  | _, [] => []
  | i, l :: ls => l.spec (draws i) :: rspecs draws (i + 1) ls

/-- The sizes of the convolutions of a block fit. -/
def FitsCl : Nat → List Cl → Prop
  | _, [] => True
  | n, c :: cs => c.sh.nIn = n ∧ FitsCl c.sh.nOut cs

/-- A block as `residual` makes it and `reset_model` leaves it: its convolutions lead from `n`
numbers to `n` numbers. -/
structure Block.Ready (b : Block) : Prop where
  cls : ∀ c, c ∈ b.cls → c.Ready
  fits : FitsCl b.n b.cls
  size : sizeCl b.n b.cls = b.n
  act : b.act ≠ .softmax
  lpre : b.n ≤ b.pre.len
  lpost : b.n ≤ b.post.len
  lt : b.n ≤ b.temp.len
  lt3 : b.n ≤ b.temp3.len

/-- The arrays of a layer are allocated and cleared. -/
def RLayer.Ready : RLayer → Prop
  | .plain l => l.Ready
  | .res b => b.Ready

/-- The numbers a layer reads. -/
def RLayer.input : RLayer → Nat
  | .plain l => l.input
  | .res b => b.n

/-- Consecutive layers fit, and only the last one may be a soft-max. -/
def RFits : Nat → List RLayer → Prop
  | _, [] => True
  | n, l :: ls => l.input = n ∧ (l.soft → ls = []) ∧ RFits l.output ls

/-- The accumulators of a layer have grown by the derivatives of the objective `J` of this layer. -/
def RGrown (J : RSpec → ℝ) : RLayer → RLayer → RSpec → Prop
  | .plain l, .plain h, .plain u => Grown (fun s => J (.plain s)) l h u
  | .res b, .res h, .res n a us => h.cls.length = b.cls.length ∧
    ∀ l f g u, b.cls[l]? = some f → h.cls[l]? = some g → us[l]? = some u → Grown (fun s => J (.res n a (us.set l s))) (.cl f) (.cl g) u
  | _, _, _ => False

/-- What a backward pass must leave behind for the objective `J` of the network `us` at `x`. -/
def RIsGradientOf (us : List RSpec) (n : Nat) (x : Nat → ℝ) (J : List RSpec → (Nat → ℝ) → ℝ) (fs hs : List RLayer) (err : Arr ℝ) : Prop :=
  hs.length = fs.length ∧
  (∀ i, i < n → HasDerivAt (fun v => J us (Function.update x i v)) (err.get i) (x i)) ∧
  ∀ l f h u, fs[l]? = some f → hs[l]? = some h → us[l]? = some u → RGrown (fun s => J (us.set l s) x) f h u

/-- The error array of a block survives its convolutions, given from the last to the first: the
last one that does anything has a pooling or no activation. -/
def Kept : List Shape → Prop
  | [] => True
  | s :: ss => if s.ident then Kept ss else s.isPass = true ∨ s.pool ≠ .none ∨ s.act = .none

/-- The networks whose gradient is computed: the error of every block survives, a block before
another block has no activation after its sum, and a block before a layer that is no block has at
least two convolutions. -/
def Tame : List RLayer → Prop
  | [] => True
  | .plain _ :: ls => Tame ls
  | [.res b] => Kept (b.cls.map Cl.sh).reverse
  | .res b :: .plain l :: ls => Kept (b.cls.map Cl.sh).reverse ∧ b.cls.length ≠ 1 ∧ Tame (.plain l :: ls)
  | .res b :: .res c :: ls => Kept (b.cls.map Cl.sh).reverse ∧ b.act = .none ∧ Tame (.res c :: ls)

/-! ### Proof -/

theorem Tame.res {b : Block} {ls : List RLayer} (h : Tame (.res b :: ls)) :
    Kept (b.cls.map Cl.sh).reverse ∧ b.missed ls = false ∧ (ls ≠ [] → nextPlain ls = false → b.act = .none) ∧ Tame ls := by
  cases ls with
  | nil =>
    have h : Kept (b.cls.map Cl.sh).reverse := by
      rw [Tame] at h
      exact h
    exact ⟨h, Bool.and_false _, fun h => absurd rfl h, trivial⟩
  | cons l ls =>
    cases l with
    | plain l =>
      have h : Kept (b.cls.map Cl.sh).reverse ∧ b.cls.length ≠ 1 ∧ Tame (.plain l :: ls) := by
        rw [Tame] at h
        exact h
      exact ⟨h.1, by unfold Block.missed; rw [beq_eq_false_iff_ne.2 h.2.1]; rfl, (fun _ h => by cases h), h.2.2⟩
    | res c =>
      have h : Kept (b.cls.map Cl.sh).reverse ∧ b.act = .none ∧ Tame (.res c :: ls) := by
        rw [Tame] at h
        exact h
      exact ⟨h.1, Bool.and_false _, fun _ _ => h.2.1, h.2.2⟩

theorem ffCl_sh {x : Arr ℝ} {c c' : Cl} (h : ffCl x c = some c') : c'.sh = c.sh := by
  unfold ffCl at h
  by_cases h1 : c.sh.act = .softmax
  · rw [if_pos h1] at h; cases h
  rw [if_neg h1] at h
  by_cases h2 : c.sh.ident = true
  · rw [if_pos h2] at h
    rw [← Option.some.inj h]
  rw [if_neg h2] at h
  by_cases h3 : c.sh.isPass = true
  · rw [if_pos h3] at h
    obtain ⟨o, -, h⟩ := Option.bind_eq_some_iff.1 h
    rw [← Option.some.inj h]
  · rw [if_neg h3] at h
    obtain ⟨o, -, h⟩ := Option.bind_eq_some_iff.1 h
    obtain ⟨o, -, h⟩ := Option.bind_eq_some_iff.1 h
    obtain ⟨o, -, h⟩ := Option.bind_eq_some_iff.1 h
    rw [← Option.some.inj h]

theorem ffCls_sh : ∀ (cs gs : List Cl) (dim : Nat) (x : Arr ℝ), ffCls dim x cs = some gs → gs.map Cl.sh = cs.map Cl.sh
  | [], gs, dim, x, h => by
    rw [ffCls] at h
    rw [← Option.some.inj h]
  | c :: cs, gs, dim, x, h => by
    rw [ffCls] at h
    split_ifs at h
    obtain ⟨c', h1, h⟩ := Option.bind_eq_some_iff.1 h
    obtain ⟨cs', h2, h⟩ := Option.bind_eq_some_iff.1 h
    rw [← Option.some.inj h, List.map_cons, List.map_cons, ffCl_sh h1, ffCls_sh cs cs' _ _ h2]

theorem ffCl_soft {x : Arr ℝ} {c : Cl} (h : c.sh.act = .softmax) : ffCl x c = none := by
  unfold ffCl
  rw [if_pos h]

theorem ffNet_cls (draws : Nat → Nat → Bool) : ∀ (cs : List Cl) (dim : Nat) (x : Arr ℝ) (i : Nat),
    ffNet draws dim x i (cs.map .cl) = (ffCls dim x cs).map (List.map .cl)
  | [], _, _, _ => rfl
  | c :: cs, dim, x, i => by
    rw [List.map_cons, ffNet, ffCls]
    by_cases hs : c.sh.act = .softmax
    · have e1 : (Layer.cl c).ff x (draws i) = none := by
        show (ffCl x c).map Layer.cl = none
        rw [ffCl_soft hs]; rfl
      rw [e1, ffCl_soft hs]
      split_ifs <;> rfl
    · rw [if_neg (fun h => hs h.1)]
      have hin : (Layer.cl c).input = c.sh.nIn := rfl
      rw [hin]
      by_cases hd : dim ≠ c.sh.nIn
      · rw [if_pos hd, if_pos hd]; rfl
      · rw [if_neg hd, if_neg hd]
        have e1 : (Layer.cl c).ff x (draws i) = (ffCl x c).map Layer.cl := rfl
        rw [e1]
        cases hc : ffCl x c with
        | none => rfl
        | some c' =>
          simp only [Option.map_some, Option.bind_some]
          have e2 : ffNet draws (Layer.cl c').output (Layer.cl c').used (i + 1) (cs.map .cl) =
            (ffCls c'.sh.nOut c'.used cs).map (List.map .cl) := ffNet_cls draws cs _ _ _
          rw [e2]
          cases ffCls c'.sh.nOut c'.used cs <;> rfl

theorem bpNet_cls (e : Arr ℝ) : ∀ (cs : List Cl) (x : Arr ℝ),
    bpNet e x (cs.map .cl) = (bpCls e x cs).map fun r => (r.1.map .cl, r.2)
  | [], _ => rfl
  | c :: cs, x => by
    rw [List.map_cons, bpNet, bpCls]
    have e2 : bpNet e (Layer.cl c).used (cs.map .cl) = (bpCls e c.used cs).map fun r => (r.1.map .cl, r.2) := bpNet_cls e cs _
    rw [e2]
    cases bpCls e c.used cs with
    | none => rfl
    | some r =>
      simp only [Option.map_some, Option.bind_some]
      have e1 : (Layer.cl c).bp x r.2 = (bpCl x r.2 c).map fun r => (Layer.cl r.1, r.2) := rfl
      rw [e1]
      cases bpCl x r.2 c <;> rfl

theorem outArray_cls : ∀ (cs : List Cl) (x : Arr ℝ), outArray x (cs.map .cl) = outCl x cs
  | [], _ => rfl
  | _ :: cs, _ => outArray_cls cs _

theorem specs_cls (draws : Nat → Nat → Bool) : ∀ (cs : List Cl) (i : Nat), specs draws i (cs.map .cl) = inner cs
  | [], _ => rfl
  | _ :: cs, i => congrArg _ (specs_cls draws cs (i + 1))

theorem outSize_inner : ∀ (cs : List Cl) (n : Nat), outSize n (inner cs) = sizeCl n cs
  | [], _ => rfl
  | _ :: cs, _ => outSize_inner cs _

theorem fits_cls : ∀ (cs : List Cl) (n : Nat), (∀ c, c ∈ cs → c.Ready) → FitsCl n cs → FitsAll n (cs.map .cl)
  | [], _, _, _ => trivial
  | c :: cs, _, hr, h => ⟨h.1, fun hs => absurd hs (hr c (List.mem_cons_self ..)).hact,
      fits_cls cs _ (fun d hd => hr d (List.mem_cons_of_mem _ hd)) h.2⟩

theorem sizeCl_sh : ∀ (cs gs : List Cl) (n : Nat), gs.map Cl.sh = cs.map Cl.sh → sizeCl n gs = sizeCl n cs
  | [], _, _, h => by
    rw [List.map_nil, List.map_eq_nil_iff] at h
    rw [h]
  | c :: cs, [], _, h => by simp at h
  | c :: cs, g :: gs, _, h => by
    rw [List.map_cons, List.map_cons] at h
    injection h with h1 h2
    rw [sizeCl, sizeCl, h1]
    exact sizeCl_sh cs gs _ h2

/-- The convolutions of a block, forward and backward. -/
theorem cls_run (cs : List Cl) (n : Nat) (x : Arr ℝ) (y : Nat → ℝ) (hr : ∀ c, c ∈ cs → c.Ready) (hf : FitsCl n cs) (hx : n ≤ x.len)
    (hy : ∀ i, i < n → x.get i = y i) (hs : SmoothAt (inner cs) y) :
    ∃ gs, ffCls n x cs = some gs ∧ gs.map Cl.sh = cs.map Cl.sh ∧ sizeCl n cs ≤ (outCl x gs).len ∧
    (∀ k, k < sizeCl n cs → (outCl x gs).get k = cnet (inner cs) y k) ∧
    ∀ e : Arr ℝ, sizeCl n cs ≤ e.len → ∃ hs err, bpCls e x gs = some (hs, err) ∧ hs.length = cs.length ∧ n ≤ err.len ∧
      Pull n (sizeCl n cs) (cnet (inner cs)) y e.get err.get ∧
      ∀ l f h u, cs[l]? = some f → hs[l]? = some h → (inner cs)[l]? = some u →
        GrownP (sizeCl n cs) (fun s => cnet ((inner cs).set l s) y) e.get (.cl f) (.cl h) u := by
  have H := net_run (fun _ _ => false) (cs.map .cl) 0 n x y (by
    intro f hf
    obtain ⟨c, hc, rfl⟩ := List.mem_map.1 hf
    exact hr c hc) (fits_cls cs n hr hf) hx hy (by rw [specs_cls]; exact hs)
  rw [specs_cls, outSize_inner] at H
  obtain ⟨gs, e1, h1, h2, h3⟩ := H
  rw [ffNet_cls] at e1
  obtain ⟨gs', e2, rfl⟩ := Option.map_eq_some_iff.1 e1
  rw [outArray_cls] at h1 h2
  refine ⟨gs', e2, ffCls_sh _ _ _ _ e2, h1, h2, fun e he => ?_⟩
  obtain ⟨hs', err, e3, h4, h5, h6, h7⟩ := h3 e he
  rw [bpNet_cls] at e3
  obtain ⟨r, e4, e5⟩ := Option.map_eq_some_iff.1 e3
  injection e5 with e5 e6
  subst e5 e6
  refine ⟨r.1, r.2, e4, by simpa using h4, h5, h6, fun l f h u g1 g2 g3 => ?_⟩
  exact h7 l (.cl f) (.cl h) u (by rw [List.getElem?_map, g1]; rfl) (by rw [List.getElem?_map, g2]; rfl) g3

theorem Pull.skip {n : Nat} {F : (Nat → ℝ) → Nat → ℝ} {x e g : Nat → ℝ} (h : Pull n n F x e g) :
    Pull n n (fun x k => x k + F x k) x e (fun k => g k + e k) := by
  intro c c' t0 hc hd
  obtain ⟨d, h1, h2⟩ := h c c' t0 hc hd
  refine ⟨fun k => c' k + d k, fun k hk => (hd k hk).add (h1 k hk), ?_⟩
  simp only [mul_add, add_mul, Finset.sum_add_distrib, h2]
  rw [add_comm]

theorem clobber_kept : ∀ (cs : List Cl) (t : Arr ℝ), Kept (cs.map Cl.sh) → clobber cs t = some t
  | [], _, _ => rfl
  | c :: cs, t, h => by
    rw [List.map_cons, Kept] at h
    rw [clobber]
    by_cases hi : c.sh.ident = true
    · rw [if_pos hi] at h ⊢
      exact clobber_kept cs t h
    · rw [if_neg hi] at h ⊢
      rw [if_pos h]

theorem outDeriv_run (b : Block) (z : Nat → ℝ) (ha : b.act ≠ .softmax) (lpre : b.n ≤ b.pre.len) (lt3 : b.n ≤ b.temp3.len)
    (vpre : ∀ k, k < b.n → b.pre.get k = z k) :
    ∃ t3, outDeriv b = some t3 ∧ b.n ≤ t3.len ∧ (b.act ≠ .none → ∀ k, k < b.n → t3.get k = dAct b.act (z k)) := by
  have hv : ∀ d : ℝ → ℝ, (∀ v, d v = dAct b.act v) → ∃ t3, Vec.map1D d b.pre b.temp3 b.n = some t3 ∧ b.n ≤ t3.len ∧
      (b.act ≠ .none → ∀ k, k < b.n → t3.get k = dAct b.act (z k)) := by
    intro d hd
    refine ⟨_, Vec.C64_map d b.pre b.temp3 b.n lpre lt3, lt3, fun _ k hk => ?_⟩
    dsimp only
    rw [if_pos hk, hd, vpre k hk]
  unfold outDeriv
  cases h : b.act with
  | none => exact ⟨_, rfl, lt3, fun hn => absurd rfl hn⟩
  | softmax => exact absurd h ha
  | sigmoid => rw [h] at hv; exact hv _ fun v => by simp [dAct, pulled, LLab.Act.dSigmoid, LLab.Act.dSigmoidGiven]
  | relu => rw [h] at hv; exact hv _ fun v => by simp [dAct, pulled]
  | elu => rw [h] at hv; exact hv _ fun v => by simp [dAct, pulled]
  | tanh => rw [h] at hv; exact hv _ fun v => by simp [dAct, pulled]
  | leaky => rw [h] at hv; exact hv _ fun v => by simp [dAct, pulled]

theorem dAct_none (v : ℝ) : dAct .none v = 1 := rfl

/-- The residual error still to be added. -/
def pend : Option (Arr ℝ × Nat) → Nat → ℝ
  | none, _ => 0
  | some q, k => q.1.get k

theorem addPend_run (n : Nat) (e : Arr ℝ) (p : Option (Arr ℝ × Nat)) (he : n ≤ e.len) (hp : ∀ q, p = some q → q.2 = n ∧ n ≤ q.1.len) :
    ∃ t, addPend e p = some t ∧ n ≤ t.len ∧ ∀ k, k < n → t.get k = e.get k + pend p k := by
  cases p with
  | none => exact ⟨e, rfl, he, fun k _ => (add_zero _).symm⟩
  | some q =>
    obtain ⟨rfl, h2⟩ := hp q rfl
    refine ⟨_, Vec.zip1D_eq _ _ _ _ _ he h2 he, he, fun k hk => ?_⟩
    dsimp only
    rw [if_pos hk]
    rfl

theorem outBack_run (b : Block) (z : Nat → ℝ) (e : Arr ℝ) (ha : b.act ≠ .softmax) (lpre : b.n ≤ b.pre.len) (lt : b.n ≤ b.temp.len)
    (lt3 : b.n ≤ b.temp3.len) (he : b.n ≤ e.len) (vpre : ∀ k, k < b.n → b.pre.get k = z k) :
    ∃ t t3, outBack b e = some (t, t3) ∧ b.n ≤ t.len ∧ ∀ k, k < b.n → t.get k = dAct b.act (z k) * e.get k := by
  obtain ⟨t3, e1, h1, h2⟩ := outDeriv_run b z ha lpre lt3 vpre
  unfold outBack
  rw [e1, Option.bind_some]
  by_cases hn : b.act ≠ .none
  · rw [if_pos hn, Vec.zip1D_eq _ _ _ _ _ h1 he lt, Option.bind_some]
    refine ⟨_, _, rfl, lt, fun k hk => ?_⟩
    dsimp only
    rw [if_pos hk, h2 hn k hk]
  · rw [if_neg hn, Vec.C64_map _ _ _ _ he lt, Option.bind_some]
    refine ⟨_, _, rfl, lt, fun k hk => ?_⟩
    dsimp only
    rw [if_pos hk, not_not.1 hn, dAct_none, one_mul]

/-- A block, forward and through its convolutions backward. -/
theorem block_step (x : Arr ℝ) (y : Nat → ℝ) (b : Block) (hr : b.Ready) (hx : b.n ≤ x.len) (hy : ∀ i, i < b.n → x.get i = y i)
    (hs : SmoothAt (inner b.cls) y) :
    ∃ b', ffBlock b.n x b = some b' ∧ b'.n = b.n ∧ b'.act = b.act ∧ b'.cls.map Cl.sh = b.cls.map Cl.sh ∧ b'.temp = b.temp ∧
    b'.temp3 = b.temp3 ∧ b.n ≤ b'.pre.len ∧ (∀ k, k < b.n → b'.pre.get k = y k + cnet (inner b.cls) y k) ∧ b.n ≤ b'.used.len ∧
    (∀ k, k < b.n → b'.used.get k = act1 b.act (y k + cnet (inner b.cls) y k)) ∧ ffCls b.n x b.cls = some b'.cls ∧
    ∀ e : Arr ℝ, b.n ≤ e.len → ∃ hs err, bpCls e x b'.cls = some (hs, err) ∧ hs.length = b.cls.length ∧ b.n ≤ err.len ∧
      Pull b.n b.n (cnet (inner b.cls)) y e.get err.get ∧
      ∀ l f h u, b.cls[l]? = some f → hs[l]? = some h → (inner b.cls)[l]? = some u →
        GrownP b.n (fun s => cnet ((inner b.cls).set l s) y) e.get (.cl f) (.cl h) u := by
  obtain ⟨gs, e1, h1, h2, h3, h4⟩ := cls_run b.cls b.n x y hr.cls hr.fits hx hy hs
  rw [hr.size] at h2 h3 h4
  unfold ffBlock
  rw [e1, Option.bind_some, sizeCl_sh _ _ _ h1, hr.size, Vec.zip1D_eq _ _ _ _ _ hx h2 hr.lpre, Option.bind_some]
  have hp : ∀ k, k < b.n → (if k < b.n then x.get k + (outCl x gs).get k else b.pre.get k) = y k + cnet (inner b.cls) y k := by
    intro k hk
    rw [if_pos hk, hy k hk, h3 k hk]
  unfold blockAct
  by_cases hn : b.act = .none
  · rw [if_pos (Or.inl hn), Option.bind_some]
    refine ⟨_, rfl, rfl, rfl, h1, rfl, rfl, hr.lpre, hp, ?_, ?_, rfl, h4⟩
    · unfold Block.used
      rw [if_neg (not_not.2 hn)]
      exact hr.lpre
    · intro k hk
      unfold Block.used
      rw [if_neg (not_not.2 hn)]
      dsimp only
      rw [hp k hk, hn]
      rfl
  · rw [if_neg (by rintro (h | h); exact hn h; exact hr.act h), actArray_eq b.act hn hr.act _ _ _ (by exact hr.lpre) hr.lpost, Option.bind_some]
    refine ⟨_, rfl, rfl, rfl, h1, rfl, rfl, hr.lpre, hp, ?_, ?_, rfl, h4⟩
    · unfold Block.used
      rw [if_pos hn]
      exact hr.lpost
    · intro k hk
      unfold Block.used
      rw [if_pos hn]
      dsimp only
      rw [hp k hk, if_pos hk]

/-- `RGrown` for all results at once, weighted by `e`. -/
def RGrownP (m : Nat) (F : RSpec → Nat → ℝ) (e : Nat → ℝ) : RLayer → RLayer → RSpec → Prop
  | .plain l, .plain h, .plain u => GrownP m (fun s => F (.plain s)) e l h u
  | .res b, .res h, .res n a us => h.cls.length = b.cls.length ∧
    ∀ l f g u, b.cls[l]? = some f → h.cls[l]? = some g → us[l]? = some u →
      GrownP m (fun s => F (.res n a (us.set l s))) e (.cl f) (.cl g) u
  | _, _, _ => False

theorem set_self {us : List Spec} {l : Nat} {u : Spec} (h : us[l]? = some u) : us.set l u = us := by
  obtain ⟨hlt, hget⟩ := List.getElem?_eq_some_iff.1 h
  rw [← hget, List.set_getElem_self hlt]

theorem RGrownP.map {m m' : Nat} {F F' : RSpec → Nat → ℝ} {e e' : Nat → ℝ} {l h : RLayer} {u : RSpec} (hg : RGrownP m F e l h u)
    (hm : ∀ (s : ℝ → RSpec) (t0 a : ℝ), s t0 = u → Par m (fun v => F (s v)) t0 e a → Par m' (fun v => F' (s v)) t0 e' a) :
    RGrownP m' F' e' l h u := by
  cases l <;> cases h <;> cases u <;> try exact hg.elim
  · have hg : GrownP m (fun s => F (.plain s)) e _ _ _ := hg
    exact hg.map (F' := fun s => F' (.plain s)) fun s t0 a hs hp => hm (fun v => .plain (s v)) t0 a (congrArg _ hs) hp
  · refine ⟨hg.1, fun l f g u h1 h2 h3 => (hg.2 l f g u h1 h2 h3).map fun s t0 a hs hp => ?_⟩
    refine hm (fun v => .res _ _ (List.set _ l (s v))) t0 a ?_ hp
    rw [hs, set_self h3]

theorem RGrownP.loss {m : Nat} {F : RSpec → Nat → ℝ} {e : Nat → ℝ} {l h : RLayer} {u : RSpec} (hg : RGrownP m F e l h u) (ℓ : Nat → ℝ → ℝ)
    (hl : ∀ o, o < m → HasDerivAt (ℓ o) (e o) (F u o)) : RGrown (fun s => ∑ o ∈ range m, ℓ o (F s o)) l h u := by
  cases l <;> cases h <;> cases u <;> try exact hg.elim
  · have hg : GrownP m (fun s => F (.plain s)) e _ _ _ := hg
    exact hg.loss ℓ hl
  · refine ⟨hg.1, fun l f g u h1 h2 h3 => (hg.2 l f g u h1 h2 h3).loss ℓ fun o ho => ?_⟩
    rw [set_self h3]
    exact hl o ho

theorem RLayer.spec_output (l : RLayer) (draw : Nat → Bool) : (l.spec draw).output = l.output := by
  cases l with
  | plain l => exact l.spec_output draw
  | res b => rfl

theorem blockErr_run (b : Block) (ls : List RLayer) (z : Nat → ℝ) (e : Arr ℝ) (p : Option (Arr ℝ × Nat)) (ha : b.act ≠ .softmax)
    (lpre : b.n ≤ b.pre.len) (lt : b.n ≤ b.temp.len) (lt3 : b.n ≤ b.temp3.len) (he : b.n ≤ e.len)
    (vpre : ∀ k, k < b.n → b.pre.get k = z k) (hm : b.missed ls = false) (hp : ∀ q, p = some q → q.2 = b.n ∧ b.n ≤ q.1.len)
    (hn : p ≠ none → b.act = .none) :
    ∃ t t3, blockErr b ls e p = some (t, t3) ∧ b.n ≤ t.len ∧ ∀ k, k < b.n → t.get k = dAct b.act (z k) * (e.get k + pend p k) := by
  obtain ⟨t, t3, e1, h1, h2⟩ := outBack_run b z e ha lpre lt lt3 he vpre
  obtain ⟨s, e2, h3, h4⟩ := addPend_run b.n t p h1 hp
  refine ⟨s, t3, ?_, h3, fun k hk => ?_⟩
  · unfold blockErr
    rw [hm, if_neg (by decide), e1, Option.bind_some, e2]
    rfl
  · rw [h4 k hk, h2 k hk]
    cases p with
    | none => simp [pend]
    | some q => rw [hn (by simp), dAct_none]; ring

theorem length_of_sh {cs gs : List Cl} (h : gs.map Cl.sh = cs.map Cl.sh) : gs.length = cs.length := by
  have := congrArg List.length h
  simpa using this

theorem rnet_run (draws : Nat → Nat → Bool) : ∀ (fs : List RLayer) (i n : Nat) (x : Arr ℝ) (y : Nat → ℝ), (∀ f, f ∈ fs → f.Ready) →
    RFits n fs → n ≤ x.len → (∀ i, i < n → x.get i = y i) → RSmoothAt (rspecs draws i fs) y →
    ∃ gs, ffRes draws n x i fs = some gs ∧ nextPlain gs = nextPlain fs ∧ routSize n (rspecs draws i fs) ≤ (outRes x gs).len ∧
    (∀ k, k < routSize n (rspecs draws i fs) → (outRes x gs).get k = rnet (rspecs draws i fs) y k) ∧
    (Tame fs → ∀ e : Arr ℝ, routSize n (rspecs draws i fs) ≤ e.len → ∃ hs err p, bpRes e x gs = some (hs, err, p) ∧ hs.length = fs.length ∧
      n ≤ err.len ∧ (∀ q, p = some q → q.2 = n ∧ n ≤ q.1.len) ∧ (p ≠ none → fs ≠ [] ∧ nextPlain fs = false) ∧
      Pull n (routSize n (rspecs draws i fs)) (rnet (rspecs draws i fs)) y e.get (fun k => err.get k + pend p k) ∧
      ∀ l f h u, fs[l]? = some f → hs[l]? = some h → (rspecs draws i fs)[l]? = some u →
        RGrownP (routSize n (rspecs draws i fs)) (fun s => rnet ((rspecs draws i fs).set l s) y) e.get f h u)
  | [], i, n, x, y, _, _, hx, hy, _ => by
    refine ⟨[], rfl, rfl, hx, hy, fun _ e he => ⟨[], e, none, rfl, rfl, he, fun q h => (by cases h), fun h => absurd rfl h, ?_, ?_⟩⟩
    · refine (Pull.id n y e.get).congr (fun _ _ => rfl) fun k _ => ?_
      simp [pend]
    · intro l f h u h1
      simp at h1
  | .plain f :: fs, i, n, x, y, hr, hf, hx, hy, hk => by
    obtain ⟨rfl, h2, h3⟩ := hf
    obtain ⟨hk1, hk2⟩ := hk
    obtain ⟨f', ef, ho, hl', hv, hb⟩ := layer_step x y (draws i) f (hr _ (List.mem_cons_self ..)) hx hy hk1
    obtain ⟨gs, eg, -, r1, r2, r3⟩ := rnet_run draws fs (i + 1) f.output f'.used ((f.spec (draws i)).fn y)
      (fun g hg => hr g (List.mem_cons_of_mem _ hg)) h3 hl' hv hk2
    have hos : routSize (RLayer.plain f).input (rspecs draws i (.plain f :: fs)) = routSize f.output (rspecs draws (i + 1) fs) := by
      show routSize (f.spec (draws i)).output _ = _
      rw [Layer.spec_output]
    rw [hos]
    refine ⟨.plain f' :: gs, ?_, rfl, r1, r2, fun ht e he => ?_⟩
    · rw [ffRes, if_neg (by rintro ⟨h, h'⟩; exact h' (h2 h))]
      have e1 : RLayer.ff (RLayer.plain f).input x (draws i) (.plain f) = some (.plain f') := by
        unfold RLayer.ff
        dsimp only
        rw [if_neg (by simp [RLayer.input]), ef]
        rfl
      have e2 : ffRes draws (RLayer.plain f').output (RLayer.plain f').used (i + 1) fs = some gs := by
        show ffRes draws f'.output f'.used (i + 1) fs = some gs
        rw [ho, eg]
      rw [e1, Option.bind_some, e2, Option.bind_some]
    · obtain ⟨hs, err, p, eb, len, lerr, hp, -, hpull, hgr⟩ := r3 ht e he
      obtain ⟨t, et, lt, vt⟩ := addPend_run f.output err p lerr hp
      obtain ⟨h, err', eh, lh, hpl, hg⟩ := hb t lt
      refine ⟨.plain h :: hs, err', none, ?_, by simp [len], lh, fun q h => (by cases h), fun h => absurd rfl h, ?_, ?_⟩
      · rw [bpRes, eb, Option.bind_some]
        dsimp only
        rw [et, Option.bind_some, eh, Option.bind_some]
      · have := hpl.comp (hpull.congr (fun _ _ => rfl) (fun k hk => vt k hk))
        exact this.congr (fun _ _ => rfl) fun k _ => by simp [pend]
      · intro l g h' u h1 h2 h3
        cases l with
        | succ l => exact hgr l g h' u h1 h2 h3
        | zero =>
          obtain rfl : RLayer.plain f = g := by simpa using h1
          obtain rfl : RLayer.plain h = h' := by simpa using h2
          obtain rfl : RSpec.plain (f.spec (draws i)) = u := by simpa [rspecs, RLayer.spec] using h3
          have hpull := hpull.congr (fun _ _ => rfl) (fun k hk => vt k hk)
          show GrownP _ (fun s => rnet (rspecs draws (i + 1) fs) (s.fn y)) e.get f h (f.spec (draws i))
          refine hg.map fun s t0 a hs0 hpar => ?_
          exact hpull.par (F := fun v => (s v).fn y) (by rw [hs0]) hpar
  | .res b :: fs, i, n, x, y, hr, hf, hx, hy, hk => by
    obtain ⟨rfl, h2, h3⟩ := hf
    obtain ⟨⟨hk0, hk1⟩, hk2⟩ := hk
    have hrb : b.Ready := hr _ (List.mem_cons_self ..)
    obtain ⟨b', ef, bn, ba, bsh, bt, bt3, lpre, vpre, lu, vu, -, hb⟩ := block_step x y b hrb hx hy hk0
    obtain ⟨gs, eg, np, r1, r2, r3⟩ := rnet_run draws fs (i + 1) b.n b'.used (fun k => act1 b.act (y k + cnet (inner b.cls) y k))
      (fun g hg => hr g (List.mem_cons_of_mem _ hg)) h3 lu vu hk2
    have hos : routSize (RLayer.res b).input (rspecs draws i (.res b :: fs)) = routSize b.n (rspecs draws (i + 1) fs) := rfl
    rw [hos]
    refine ⟨.res b' :: gs, ?_, rfl, r1, r2, fun ht e he => ?_⟩
    · rw [ffRes, if_neg (by rintro ⟨h, -⟩; exact h)]
      have e1 : RLayer.ff (RLayer.res b).input x (draws i) (.res b) = some (.res b') := by
        show (ffBlock b.n x b).map RLayer.res = _
        rw [ef]
        rfl
      have e2 : ffRes draws (RLayer.res b').output (RLayer.res b').used (i + 1) fs = some gs := by
        show ffRes draws b'.n b'.used (i + 1) fs = some gs
        rw [bn, eg]
      rw [e1, Option.bind_some, e2, Option.bind_some]
    · obtain ⟨t1, t2, t3, t4⟩ := ht.res
      obtain ⟨hs, err, p, eb, len, lerr, hp, hpn, hpull, hgr⟩ := r3 t4 e he
      have hmiss : b'.missed gs = false := by
        unfold Block.missed at t2 ⊢
        rw [np, length_of_sh bsh]
        exact t2
      have hseen : b'.seen x gs = b'.used := by
        unfold Block.seen
        rw [hmiss, if_neg (by decide)]
      obtain ⟨t, tt, et, lt, vt⟩ := blockErr_run b' gs (fun k => y k + cnet (inner b.cls) y k) err p (by rw [ba]; exact hrb.act)
        (by rw [bn]; exact lpre) (by rw [bn, bt]; exact hrb.lt) (by rw [bn, bt3]; exact hrb.lt3) (by rw [bn]; exact lerr)
        (by rw [bn]; exact vpre) hmiss (by rw [bn]; exact hp) (fun h => by rw [ba]; exact t3 (hpn h).1 (hpn h).2)
      rw [bn] at lt vt
      rw [ba] at vt
      obtain ⟨hs', err', eh, lh, le', hpl, hg⟩ := hb t lt
      have hcl : clobber b'.cls.reverse t = some t := clobber_kept _ _ (by rw [List.map_reverse, bsh]; exact t1)
      have hact : Pull b.n b.n (fun (w : Nat → ℝ) k => act1 b.act (w k)) (fun k => y k + cnet (inner b.cls) y k) (fun k => err.get k + pend p k)
          t.get := by
        refine (Pull.diag (fun _ => act1 b.act) (fun k => dAct b.act (y k + cnet (inner b.cls) y k)) _ _ fun k hk =>
          act1_deriv b.act _ fun h => hk1 h k hk).congr (fun _ _ => rfl) fun k hk => vt k hk
      refine ⟨.res { b' with cls := hs', temp := t, temp3 := tt } :: hs, err', some (t, b'.n), ?_, by simp [len], le', ?_, ?_, ?_, ?_⟩
      · rw [bpRes, hseen, eb, Option.bind_some]
        dsimp only
        rw [et, Option.bind_some]
        dsimp only
        rw [eh, Option.bind_some, hcl, Option.bind_some]
      · rintro q hq
        obtain rfl := Option.some.inj hq
        exact ⟨bn, lt⟩
      · exact fun _ => ⟨by simp, rfl⟩
      · exact ((Pull.skip hpl).comp hact).comp hpull
      · intro l g h' u h1 h2 h3
        cases l with
        | succ l => exact hgr l g h' u h1 h2 h3
        | zero =>
          obtain rfl : RLayer.res b = g := by simpa using h1
          obtain rfl : RLayer.res { b' with cls := hs', temp := t, temp3 := tt } = h' := by simpa using h2
          obtain rfl : RSpec.res b.n b.act (inner b.cls) = u := by simpa [rspecs, RLayer.spec] using h3
          refine ⟨lh, fun l f g u g1 g2 g3 => GrownP.map (hg l f g u g1 g2 g3) fun s t0 a hs0 hpar => ?_⟩
          have hsum : Pull b.n b.n (fun (w : Nat → ℝ) k => y k + w k) (cnet (inner b.cls) y) t.get t.get := by
            refine (Pull.diag (fun k v => y k + v) (fun _ => 1) _ _ fun k _ => (hasDerivAt_id' _).const_add _).congr (fun _ _ => rfl) fun k _ => ?_
            rw [one_mul]
          refine ((hsum.comp hact).comp hpull).par (F := fun v => cnet ((inner b.cls).set l (s v)) y) ?_ hpar
          rw [hs0, set_self g3]

/-! ### C136 -/

/-- **C136, forward.** A network with residual blocks computes the composition of its layers, a
block being `act (x + inner x)`. -/
theorem C136_forward (draws : Nat → Nat → Bool) (n : Nat) (x : Arr ℝ) (fs : List RLayer) (hr : ∀ f, f ∈ fs → f.Ready)
    (hf : RFits n fs) (hx : n ≤ x.len) (hk : RSmoothAt (rspecs draws 0 fs) x.get) :
    ∃ gs, ffRes draws n x 0 fs = some gs ∧ routSize n (rspecs draws 0 fs) ≤ (outRes x gs).len ∧
      ∀ k, k < routSize n (rspecs draws 0 fs) → (outRes x gs).get k = rnet (rspecs draws 0 fs) x.get k := by
  obtain ⟨gs, h1, -, h2, h3, -⟩ := rnet_run draws fs 0 n x x.get hr hf hx (fun _ _ => rfl) hk
  exact ⟨gs, h1, h2, h3⟩

/-- **C136, backward (partial).** For the tame networks the backward pass adds to every accumulator
the derivative of the loss in its parameter and returns the derivative in every input. Missing:
blocks whose last convolution has an activation and no pooling, blocks with an activation after the
sum directly before another block, and blocks of one convolution before a layer that is no block;
for these see the refutations. -/
theorem C136_gradient_partial (draws : Nat → Nat → Bool) (n : Nat) (x : Arr ℝ) (fs : List RLayer) (hr : ∀ f, f ∈ fs → f.Ready)
    (hf : RFits n fs) (hx : n ≤ x.len) (hk : RSmoothAt (rspecs draws 0 fs) x.get) (ht : Tame fs) :
    ∃ gs, ffRes draws n x 0 fs = some gs ∧
      ∀ (e : Arr ℝ) (ℓ : Nat → ℝ → ℝ), routSize n (rspecs draws 0 fs) ≤ e.len →
        (∀ o, o < routSize n (rspecs draws 0 fs) → HasDerivAt (ℓ o) (e.get o) (rnet (rspecs draws 0 fs) x.get o)) →
        ∃ hs err, bpResNet e x gs = some (hs, err) ∧
          RIsGradientOf (rspecs draws 0 fs) n x.get
            (fun us x => ∑ o ∈ range (routSize n (rspecs draws 0 fs)), ℓ o (rnet us x o)) fs hs err := by
  obtain ⟨gs, egs, -, -, -, r3⟩ := rnet_run draws fs 0 n x x.get hr hf hx (fun _ _ => rfl) hk
  refine ⟨gs, egs, fun e ℓ he hl => ?_⟩
  obtain ⟨hs, err, p, eb, len, lerr, hp, -, hpull, hgr⟩ := r3 ht e he
  obtain ⟨t, et, lt, vt⟩ := addPend_run n err p lerr hp
  have hpull := hpull.congr (fun _ _ => rfl) (fun k hk => vt k hk)
  refine ⟨hs, t, ?_, len, fun i hi => ?_, fun l f h u h1 h2 h3 => ?_⟩
  · unfold bpResNet
    rw [eb, Option.bind_some]
    dsimp only
    rw [et]
    rfl
  · have hp : Par n (fun v => Function.update x.get i v) (x.get i) t.get (t.get i) := by
      refine ⟨fun k => if k = i then 1 else 0, fun k _ => ?_, ?_⟩
      · by_cases hki : k = i
        · subst hki
          simp only [Function.update_self, if_true]
          exact hasDerivAt_id' (x.get k)
        · simpa [Function.update_of_ne hki, hki] using hasDerivAt_const (x.get i) (x.get k)
      · rw [Finset.sum_eq_single i]
        · simp
        · intro b _ hne
          simp [hne]
        · intro h
          exact absurd (Finset.mem_range.2 hi) h
    refine (hpull.par (by rw [Function.update_eq_self]) hp).loss ℓ fun o ho => ?_
    rw [Function.update_eq_self]
    exact hl o ho
  · refine (hgr l f h u h1 h2 h3).loss ℓ fun o ho => ?_
    obtain ⟨hlt, hget⟩ := List.getElem?_eq_some_iff.1 h3
    rw [← hget, List.set_getElem_self hlt]
    exact hl o ho

/-! ### Where it fails -/

theorem ffCls_last : ∀ (cs : List Cl) (c : Cl) (n : Nat) (x : Arr ℝ) (gs : List Cl), ffCls n x (cs ++ [c]) = some gs →
    ∃ gs0 c', gs = gs0 ++ [c'] ∧ ffCls n x cs = some gs0 ∧ ffCl (outCl x gs0) c = some c'
  | [], c, n, x, gs, h => by
    rw [List.nil_append, ffCls] at h
    split_ifs at h
    obtain ⟨c', h1, h⟩ := Option.bind_eq_some_iff.1 h
    rw [ffCls, Option.bind_some] at h
    exact ⟨[], c', (Option.some.inj h).symm, rfl, h1⟩
  | d :: cs, c, n, x, gs, h => by
    rw [List.cons_append, ffCls] at h
    by_cases hd : n ≠ d.sh.nIn
    · rw [if_pos hd] at h; cases h
    rw [if_neg hd] at h
    obtain ⟨d', h1, h⟩ := Option.bind_eq_some_iff.1 h
    obtain ⟨ts, h2, h⟩ := Option.bind_eq_some_iff.1 h
    obtain ⟨gs0, c', rfl, h3, h4⟩ := ffCls_last cs c _ _ ts h2
    refine ⟨d' :: gs0, c', (Option.some.inj h).symm, ?_, h4⟩
    rw [ffCls, if_neg hd, h1, Option.bind_some, h3, Option.bind_some]

theorem fits_append : ∀ (cs : List Cl) (c : Cl) (n : Nat), FitsCl n (cs ++ [c]) → FitsCl n cs ∧ c.sh.nIn = sizeCl n cs
  | [], _, _, h => ⟨trivial, h.1⟩
  | _ :: cs, c, _, h => ⟨⟨h.1, (fits_append cs c _ h.2).1⟩, (fits_append cs c _ h.2).2⟩

theorem size_append : ∀ (cs : List Cl) (c : Cl) (n : Nat), sizeCl n (cs ++ [c]) = c.sh.nOut
  | [], _, _ => rfl
  | _ :: cs, c, _ => size_append cs c _

theorem smooth_append : ∀ (cs : List Cl) (c : Cl) (y : Nat → ℝ), SmoothAt (inner (cs ++ [c])) y →
    SmoothAt (inner cs) y ∧ c.unit.Smooth (cnet (inner cs) y)
  | [], _, _, h => ⟨trivial, h.1⟩
  | _ :: cs, c, _, h => ⟨⟨h.1, (smooth_append cs c _ h.2).1⟩, (smooth_append cs c _ h.2).2⟩

/-- What is left in the error array of a block whose last convolution has an activation and no
pooling. -/
theorem clobber_run (cs : List Cl) (c : Cl) (n : Nat) (x t : Arr ℝ) (gs : List Cl) (hr : ∀ d, d ∈ cs ++ [c] → d.Ready)
    (hf : FitsCl n (cs ++ [c])) (hx : n ≤ x.len) (hs : SmoothAt (inner (cs ++ [c])) x.get) (hp : c.sh.isPass = false)
    (hpool : c.sh.pool = .none) (ha : c.sh.act ≠ .none) (hff : ffCls n x (cs ++ [c]) = some gs) (ht : c.sh.nOut ≤ t.len) :
    ∃ q, clobber gs.reverse t = some q ∧ c.sh.nOut ≤ q.len ∧ ∀ p, p < c.sh.nOut → c.sh.kind.Inner (p % c.sh.A) →
      q.get p = dAct c.sh.act (c.unit.z (cnet (inner cs) x.get) p) * t.get p := by
  obtain ⟨gs0, c', rfl, h1, h2⟩ := ffCls_last cs c n x gs hff
  obtain ⟨f1, f2⟩ := fits_append cs c n hf
  obtain ⟨s1, s2⟩ := smooth_append cs c _ hs
  obtain ⟨gs1, e1, -, l1, v1, -⟩ := cls_run cs n x x.get (fun d hd => hr d (List.mem_append_left _ hd)) f1 hx (fun _ _ => rfl) s1
  rw [h1] at e1
  obtain rfl := Option.some.inj e1
  have hrc : c.Ready := hr c (by simp)
  have hnot : c.sh.ident = false := by
    unfold Shape.ident
    rw [hp]
    rfl
  have hA : c.sh.nOut = c.sh.nk * c.sh.A := by
    unfold Shape.nOut
    rw [c.sh.B_none hpool]
  obtain ⟨pre, epre, lpre, vpre⟩ := ffKernels_run (outCl x gs0) c hrc hp (by rw [f2]; exact l1)
  have vpre : ∀ p, p < c.sh.nk * c.sh.A → pre.get p = c.unit.z (cnet (inner cs) x.get) p := fun p hp =>
    (vpre p hp).trans (c.unit.z_congr hrc.hK (fun i hi => v1 i (by rw [← f2]; exact hi)) hp)
  have hlpre : c.sh.nk * c.sh.A ≤ pre.len := by rw [lpre]; exact hrc.lpre
  obtain ⟨post, epost, lpost, vpost⟩ := ffAct_run c hrc hp pre hlpre
  have hlpost : c.sh.nk * c.sh.A ≤ post.len := by rw [lpost]; exact hrc.lpost
  have vpost : c.sh.act ≠ .none → ∀ p, p < c.sh.nk * c.sh.A → post.get p = c.unit.actv (c.unit.z (cnet (inner cs) x.get)) p := by
    intro h p hp
    rw [vpost h p hp]
    unfold CUnit.actv
    rw [vpre p hp]
  have hc : c' = { c with pre := pre, post := post } := by
    unfold ffCl at h2
    rw [if_neg hrc.hact, if_neg (by rw [hnot]; decide), if_neg (by rw [hp]; decide), epre, Option.bind_some, epost, Option.bind_some] at h2
    unfold ffPool at h2
    rw [if_pos hpool, Option.bind_some] at h2
    rw [← Option.some.inj h2]
  obtain ⟨o, s, eo, lo, vo⟩ := bpAct_run { c with pre := pre, post := post } hrc.hact (c.unit.z (cnet (inner cs) x.get)) t hlpre hlpost
    (by rw [← hA]; exact ht) hrc.lt3 vpre vpost
  refine ⟨o, ?_, by rw [hA]; exact lo, fun p hp hi => vo p (by rw [← hA]; exact hp) hi⟩
  rw [List.reverse_append, List.reverse_singleton, List.singleton_append, clobber, hc, if_neg (by rw [hnot]; decide),
    if_neg (by rintro (h | h | h); rw [hp] at h; cases h; exact h hpool; exact ha h), eo]
  rfl

theorem Par.coord (n i : Nat) (hi : i < n) (x g : Nat → ℝ) : Par n (fun v => Function.update x i v) (x i) g (g i) := by
  refine ⟨fun k => if k = i then 1 else 0, fun k _ => ?_, ?_⟩
  · by_cases hki : k = i
    · subst hki
      simp only [Function.update_self, if_true]
      exact hasDerivAt_id' (x k)
    · simpa [Function.update_of_ne hki, hki] using hasDerivAt_const (x i) (x k)
  · rw [Finset.sum_eq_single i]
    · simp
    · intro b _ hne
      simp [hne]
    · intro h
      exact absurd (Finset.mem_range.2 hi) h

/-- The derivative of a loss along one input, from a pulled back error. -/
theorem Pull.coord {n m : Nat} {F : (Nat → ℝ) → Nat → ℝ} {x e g : Nat → ℝ} (h : Pull n m F x e g) (ℓ : Nat → ℝ → ℝ)
    (hl : ∀ o, o < m → HasDerivAt (ℓ o) (e o) (F x o)) (i : Nat) (hi : i < n) :
    HasDerivAt (fun v => ∑ o ∈ range m, ℓ o (F (Function.update x i v) o)) (g i) (x i) := by
  refine (h.par (by rw [Function.update_eq_self]) (Par.coord n i hi x g)).loss ℓ fun o ho => ?_
  rw [Function.update_eq_self]
  exact hl o ho

/-- The derivative of the sigmoid is never one. -/
theorem dAct_sigmoid_ne (v : ℝ) : dAct .sigmoid v ≠ 1 := by
  have h : dAct .sigmoid v = LLab.Act.sigmoid v * (1 - LLab.Act.sigmoid v) := by simp [dAct, pulled, LLab.Act.dSigmoidGiven]
  rw [h]
  nlinarith [sq_nonneg (LLab.Act.sigmoid v - 1 / 2)]

/-- **C136, refuted for blocks whose last convolution has an activation and no pooling.** For every
network of one such block, the error returned for an input cell differs from the derivative of the
loss wherever the derivative of that convolution's activation is not one and the error of the
block's sum is not zero: the residual error has been multiplied by the activation's derivative. -/
theorem C136_clobbered_refuted (draws : Nat → Nat → Bool) (b : Block) (cs : List Cl) (c : Cl) (hcls : b.cls = cs ++ [c]) (hr : b.Ready)
    (hp : c.sh.isPass = false) (hpool : c.sh.pool = .none) (ha : c.sh.act ≠ .none) (x e : Arr ℝ) (ℓ : Nat → ℝ → ℝ) (hx : b.n ≤ x.len)
    (hk : RSmoothAt (rspecs draws 0 [.res b]) x.get) (he : b.n ≤ e.len)
    (hl : ∀ o, o < b.n → HasDerivAt (ℓ o) (e.get o) (rnet (rspecs draws 0 [.res b]) x.get o)) :
    ∃ gs hs err, ffRes draws b.n x 0 [.res b] = some gs ∧ bpResNet e x gs = some (hs, err) ∧
      ∀ p, p < b.n → c.sh.kind.Inner (p % c.sh.A) → dAct c.sh.act (c.unit.z (cnet (inner cs) x.get) p) ≠ 1 →
        dAct b.act (x.get p + cnet (inner b.cls) x.get p) * e.get p ≠ 0 →
        ¬HasDerivAt (fun v => ∑ o ∈ range b.n, ℓ o (rnet (rspecs draws 0 [.res b]) (Function.update x.get p v) o)) (err.get p) (x.get p) := by
  obtain ⟨⟨hk0, hk1⟩, -⟩ := hk
  have hk0 : SmoothAt (inner b.cls) x.get := hk0
  obtain ⟨b', ef, bn, ba, bsh, bt, bt3, lpre, vpre, lu, vu, ecls, hb⟩ := block_step x x.get b hr hx (fun _ _ => rfl) hk0
  have hmiss : b'.missed [] = false := by
    unfold Block.missed nextPlain
    exact Bool.and_false _
  obtain ⟨t, tt, et, lt, vt⟩ := blockErr_run b' [] (fun k => x.get k + cnet (inner b.cls) x.get k) e none (by rw [ba]; exact hr.act)
    (by rw [bn]; exact lpre) (by rw [bn, bt]; exact hr.lt) (by rw [bn, bt3]; exact hr.lt3) (by rw [bn]; exact he)
    (by rw [bn]; exact vpre) hmiss (fun q h => by cases h) (fun h => absurd rfl h)
  rw [bn] at lt vt
  rw [ba] at vt
  obtain ⟨hs', err', eh, lh, le', hpl, -⟩ := hb t lt
  have hn : c.sh.nOut = b.n := by rw [← size_append cs c b.n, ← hcls]; exact hr.size
  obtain ⟨q, eq, lq, vq⟩ := clobber_run cs c b.n x t b'.cls (by rw [← hcls]; exact hr.cls) (by rw [← hcls]; exact hr.fits) hx
    (by rw [← hcls]; exact hk0) hp hpool ha (by rw [← hcls]; exact ecls) (by rw [hn]; exact lt)
  rw [hn] at lq vq
  obtain ⟨r, er, lr, vr⟩ := addPend_run b.n err' (some (q, b'.n)) le' (by
    rintro w hw
    obtain rfl := Option.some.inj hw
    exact ⟨bn, lq⟩)
  have hact : Pull b.n b.n (fun (w : Nat → ℝ) k => act1 b.act (w k)) (fun k => x.get k + cnet (inner b.cls) x.get k) e.get t.get := by
    refine (Pull.diag (fun _ => act1 b.act) (fun k => dAct b.act (x.get k + cnet (inner b.cls) x.get k)) _ _ fun k hk =>
      act1_deriv b.act _ fun h => hk1 h k hk).congr (fun _ _ => rfl) fun k hk => ?_
    rw [vt k hk]
    simp [pend]
  refine ⟨[.res b'], [.res { b' with cls := hs', temp := t, temp3 := tt }], r, ?_, ?_, fun p hp hi h1 h2 hd => ?_⟩
  · rw [ffRes, if_neg (by rintro ⟨h, -⟩; exact h)]
    have e1 : RLayer.ff b.n x (draws 0) (.res b) = some (.res b') := by
      show (ffBlock b.n x b).map RLayer.res = _
      rw [ef]
      rfl
    rw [e1]
    rfl
  · unfold bpResNet
    rw [bpRes, bpRes, Option.bind_some, et, Option.bind_some]
    dsimp only
    rw [eh, Option.bind_some, eq, Option.bind_some, Option.bind_some]
    dsimp only
    rw [er]
    rfl
  · have htrue := Pull.coord ((Pull.skip hpl).comp hact) ℓ hl p hp
    have := htrue.unique hd
    rw [vr p hp] at this
    have h3 : q.get p = t.get p := by
      have h4 : err'.get p + t.get p = err'.get p + q.get p := this
      linarith
    rw [vq p hp hi] at h3
    have ht0 : t.get p ≠ 0 := by
      rw [vt p hp]
      simpa [pend] using h2
    exact h1 (mul_right_cancel₀ ht0 (by rw [h3, one_mul]))

theorem ident_bp {c : Cl} (h : c.sh.ident = true) (x e : Arr ℝ) : bpCls e x [c] = some ([c], e) := by
  rw [bpCls, bpCls, Option.bind_some]
  unfold bpCl
  rw [if_pos h]
  rfl

theorem singleton_of_sh {c : Cl} {gs : List Cl} (h : gs.map Cl.sh = [c].map Cl.sh) : ∃ g, gs = [g] ∧ g.sh = c.sh := by
  obtain ⟨g, rfl⟩ := List.length_eq_one_iff.1 (length_of_sh h)
  rw [List.map_singleton, List.map_singleton] at h
  injection h with h
  exact ⟨g, rfl, h⟩

/-- The activation of a block's output, as a pulled back error. -/
theorem Pull.blockAct (b : Block) (y err t : Nat → ℝ) (hk : b.act = .relu ∨ b.act = .leaky ∨ b.act = .elu → ∀ k, k < b.n → y k ≠ 0)
    (ht : ∀ k, k < b.n → t k = dAct b.act (y k) * err k) : Pull b.n b.n (fun (w : Nat → ℝ) k => act1 b.act (w k)) y err t :=
  (Pull.diag (fun _ => act1 b.act) (fun k => dAct b.act (y k)) _ _ fun k hk' => act1_deriv b.act _ fun h => hk h k hk').congr
    (fun _ _ => rfl) fun k hk' => (ht k hk')

/-- **C136, refuted for a block with an activation after its sum directly before another block.**
For every block `b2` whose error survives, after a block that doubles its input and has an
activation, the error returned for an input cell differs from the derivative of the loss wherever
the derivative of the first block's activation is not one and the error of the second block's sum
is not zero: the residual error of the second block is added after the derivative of the first
block's activation has been applied. -/
theorem C136_adjacent_refuted (draws : Nat → Nat → Bool) (b1 b2 : Block) (c : Cl) (hcls : b1.cls = [c]) (hid : c.sh.ident = true)
    (hr1 : b1.Ready) (hr2 : b2.Ready) (hkept : Kept (b2.cls.map Cl.sh).reverse) (hn : b2.n = b1.n) (x e : Arr ℝ) (ℓ : Nat → ℝ → ℝ)
    (hx : b1.n ≤ x.len) (hk : RSmoothAt (rspecs draws 0 [.res b1, .res b2]) x.get) (he : b2.n ≤ e.len)
    (hl : ∀ o, o < b2.n → HasDerivAt (ℓ o) (e.get o) (rnet (rspecs draws 0 [.res b1, .res b2]) x.get o)) :
    ∃ gs hs err, ffRes draws b1.n x 0 [.res b1, .res b2] = some gs ∧ bpResNet e x gs = some (hs, err) ∧
      ∀ p, p < b1.n → dAct b1.act (x.get p + cnet (inner b1.cls) x.get p) ≠ 1 →
        dAct b2.act ((RSpec.res b1.n b1.act (inner b1.cls)).fn x.get p +
          cnet (inner b2.cls) ((RSpec.res b1.n b1.act (inner b1.cls)).fn x.get) p) * e.get p ≠ 0 →
        ¬HasDerivAt (fun v => ∑ o ∈ range b2.n, ℓ o (rnet (rspecs draws 0 [.res b1, .res b2]) (Function.update x.get p v) o))
          (err.get p) (x.get p) := by
  obtain ⟨⟨hk0, hk1⟩, ⟨hk2, hk3⟩, -⟩ := hk
  have hk0 : SmoothAt (inner b1.cls) x.get := hk0
  have hk2 : SmoothAt (inner b2.cls) (fun k => act1 b1.act (x.get k + cnet (inner b1.cls) x.get k)) := hk2
  obtain ⟨b1', ef, bn, ba, bsh, bt, bt3, lpre, vpre, lu, vu, ecls, hb⟩ := block_step x x.get b1 hr1 hx (fun _ _ => rfl) hk0
  obtain ⟨b2', ef', bn', ba', bsh', bt', bt3', lpre', vpre', lu', vu', ecls', hb'⟩ := block_step b1'.used
    (fun k => act1 b1.act (x.get k + cnet (inner b1.cls) x.get k)) b2 hr2 (by rw [hn]; exact lu) (by rw [hn]; exact vu) hk2
  have hmiss' : b2'.missed [] = false := by
    unfold Block.missed nextPlain
    exact Bool.and_false _
  have hmiss : b1'.missed [.res b2'] = false := by
    unfold Block.missed nextPlain
    exact Bool.and_false _
  -- the second block
  obtain ⟨t2, tt2, et2, lt2, vt2⟩ := blockErr_run b2' [] _ e none (by rw [ba']; exact hr2.act)
    (by rw [bn']; exact lpre') (by rw [bn', bt']; exact hr2.lt) (by rw [bn', bt3']; exact hr2.lt3) (by rw [bn']; exact he)
    (by rw [bn']; exact vpre') hmiss' (fun q h => by cases h) (fun h => absurd rfl h)
  rw [bn'] at lt2 vt2
  rw [ba'] at vt2
  obtain ⟨hs2, err2, eh2, lh2, le2, hpl2, -⟩ := hb' t2 lt2
  have hcl2 : clobber b2'.cls.reverse t2 = some t2 := clobber_kept _ _ (by rw [List.map_reverse, bsh']; exact hkept)
  -- the first block
  obtain ⟨o, tt1, eo, lo, vo⟩ := outBack_run b1' (fun k => x.get k + cnet (inner b1.cls) x.get k) err2 (by rw [ba]; exact hr1.act)
    (by rw [bn]; exact lpre) (by rw [bn, bt]; exact hr1.lt) (by rw [bn, bt3]; exact hr1.lt3) (by rw [bn, ← hn]; exact le2)
    (by rw [bn]; exact vpre)
  rw [bn] at lo vo
  rw [ba] at vo
  obtain ⟨t1, et1, lt1, vt1⟩ := addPend_run b1.n o (some (t2, b2'.n)) lo (by
    rintro w hw
    obtain rfl := Option.some.inj hw
    exact ⟨by rw [← hn]; exact bn', by rw [← hn]; exact lt2⟩)
  rw [hcls] at bsh
  obtain ⟨g, hg, hgsh⟩ := singleton_of_sh bsh
  have hgid : g.sh.ident = true := by rw [hgsh]; exact hid
  obtain ⟨r, er, lr, vr⟩ := addPend_run b1.n t1 (some (t1, b1'.n)) lt1 (by
    rintro w hw
    obtain rfl := Option.some.inj hw
    exact ⟨bn, lt1⟩)
  refine ⟨[.res b1', .res b2'], [.res { b1' with cls := [g], temp := t1, temp3 := tt1 }, .res { b2' with cls := hs2, temp := t2, temp3 := tt2 }], r,
    ?_, ?_, fun p hp h1 h2 hd => ?_⟩
  · rw [ffRes, if_neg (by rintro ⟨h, -⟩; exact h)]
    have e1 : RLayer.ff b1.n x (draws 0) (.res b1) = some (.res b1') := by
      show (ffBlock b1.n x b1).map RLayer.res = _
      rw [ef]
      rfl
    have e2 : RLayer.ff b1'.n b1'.used (draws (0 + 1)) (.res b2) = some (.res b2') := by
      show (ffBlock b1'.n b1'.used b2).map RLayer.res = _
      rw [bn, ← hn, ef']
      rfl
    rw [e1, Option.bind_some, ffRes, if_neg (by rintro ⟨h, -⟩; exact h)]
    show ((RLayer.ff b1'.n b1'.used (draws (0 + 1)) (.res b2)).bind _).bind _ = _
    rw [e2]
    rfl
  · have hseen : b1'.seen x [.res b2'] = b1'.used := by
      unfold Block.seen
      rw [hmiss, if_neg (by decide)]
    have hbe : blockErr b1' [.res b2'] err2 (some (t2, b2'.n)) = some (t1, tt1) := by
      unfold blockErr
      rw [hmiss, if_neg (by decide), eo, Option.bind_some, et1]
      rfl
    have hc1 : clobber [g].reverse t1 = some t1 := by
      rw [List.reverse_singleton, clobber, if_pos hgid, clobber]
    unfold bpResNet
    rw [bpRes, hseen, bpRes, bpRes, Option.bind_some, et2, Option.bind_some]
    dsimp only
    rw [eh2, Option.bind_some, hcl2, Option.bind_some, Option.bind_some, hbe, Option.bind_some]
    dsimp only
    rw [hg, ident_bp hgid, Option.bind_some, hc1, Option.bind_some, Option.bind_some]
    dsimp only
    rw [er]
    rfl
  · -- the right error of the first block
    have hT := hb ⟨b1.n, fun k => dAct b1.act (x.get k + cnet (inner b1.cls) x.get k) * (err2.get k + t2.get k)⟩ (Nat.le_refl _)
    obtain ⟨hs1, err1, eh1, -, -, hpl1, -⟩ := hT
    rw [hg, ident_bp hgid] at eh1
    obtain ⟨-, rfl⟩ := Prod.mk.inj (Option.some.inj eh1)
    have hact1 := Pull.blockAct b1 (fun k => x.get k + cnet (inner b1.cls) x.get k) (fun k => err2.get k + t2.get k) _ hk1 (fun _ _ => rfl)
    have hact2 := Pull.blockAct b2 _ e.get t2.get hk3 (fun k hk => by rw [vt2 k hk, show pend none k = 0 from rfl, add_zero]; rfl)
    have hall2 := (Pull.skip hpl2).comp hact2
    rw [hn] at hall2 hl hd
    have htrue := Pull.coord (((Pull.skip hpl1).comp hact1).comp hall2) ℓ hl p hp
    have h3 := htrue.unique hd
    rw [vr p hp] at h3
    have h4 : (pend (some (t1, b1'.n)) p) = t1.get p := rfl
    have h5 : (pend (some (t2, b2'.n)) p) = t2.get p := rfl
    rw [h4, vt1 p hp, h5, vo p hp] at h3
    dsimp only at h3
    have ht2 : t2.get p ≠ 0 := by
      rw [vt2 p (by rw [hn]; exact hp)]
      simpa [pend, RSpec.fn] using h2
    refine h1 (mul_right_cancel₀ ht2 ?_)
    rw [one_mul]
    linarith

/-- The backward pass of a fully connected layer, given its own input `x` or another array `x2`. -/
theorem layer_other (x x2 : Arr ℝ) (draw : Nat → Bool) (f f' : Fcl) (hr : f.Ready) (ht : f.drop ≠ .test) (hx : f.input ≤ x.len)
    (hx2 : f.input ≤ x2.len) (hf : ffLayer x draw f = some f') (e : Arr ℝ) (he : f.output ≤ e.len) :
    ∃ h h2, ∃ δ : Nat → ℝ, bpLayer x e f' = some h ∧ bpLayer x2 e f' = some h2 ∧ f.input ≤ h2.error2.len ∧
      ∀ q, q < f.output * f.input → h.dWeights.get q - f.dWeights.get q = δ (q / f.input) * x.get (q % f.input) ∧
        h2.dWeights.get q - f.dWeights.get q = δ (q / f.input) * x2.get (q % f.input) := by
  obtain ⟨pre, post, mask, dt, ef, lpre, lpost, lmask, ldt, vpre, vpost, vmask, vused⟩ := ffLayer_run x draw f hr ht hx
  rw [hf] at ef
  cases ef
  obtain ⟨t, t3, eb, lt, vt⟩ := back_run { f with pre := pre, post := post, mask := mask, dropTemp := dt } (f.unit draw) x.get e
    lpre lpost lmask hr.lact hr.lt hr.lt3 he hr.zt hr.zt3 hr.hact vpre vpost (by
      intro k hk
      dsimp only at hk ⊢
      by_cases hoff : f.drop = .off
      · rw [if_pos hoff]
        simp [Fcl.unit, hoff]
      · rw [if_neg hoff, vmask _ k hk]
        cases h : f.drop with
        | off => exact absurd h hoff
        | train => rfl
        | test => exact absurd h ht)
  dsimp only at vt lt
  unfold bpLayer
  rw [eb, Option.bind_some, Option.bind_some]
  dsimp only
  rw [FC.bp_run x t f.weights _ _ f.input f.output f.dWeights f.error2 f.dBiases hx lt hr.lw hr.ldw hr.le2 (fun _ => hr.ldb),
    FC.bp_run x2 t f.weights _ _ f.input f.output f.dWeights f.error2 f.dBiases hx2 lt hr.lw hr.ldw hr.le2 (fun _ => hr.ldb),
    Option.bind_some, Option.bind_some]
  refine ⟨_, _, t.get, rfl, rfl, hr.le2, fun q hq => ?_⟩
  have hb : (decide (f.mode ≠ .freezeBiases) || !decide (f.mode = .freeze)) = true := by
    cases f.mode <;> rfl
  dsimp only
  rw [hb, if_pos rfl, if_pos hq, add_sub_cancel_left, if_pos rfl, if_pos hq, add_sub_cancel_left]
  exact ⟨rfl, rfl⟩

/-- **C136, refuted for a block of one convolution before a fully connected layer.** For every such
block and layer, the accumulator of a weight of the layer does not grow by the derivative of the
loss, wherever that derivative is not zero and the output of the block differs from the output of
its convolution: the layer is processed with the output of the convolution. -/
theorem C136_single_refuted (draws : Nat → Nat → Bool) (b : Block) (c : Cl) (hcls : b.cls = [c]) (hr : b.Ready) (hkept : Kept [c.sh])
    (f : Fcl) (hrf : f.Ready) (hdrop : f.drop ≠ .test) (hn : f.input = b.n) (x e : Arr ℝ) (ℓ : Nat → ℝ → ℝ) (hx : b.n ≤ x.len)
    (hk : RSmoothAt (rspecs draws 0 [.res b, .plain (.fc f)]) x.get) (he : f.output ≤ e.len)
    (hl : ∀ o, o < f.output → HasDerivAt (ℓ o) (e.get o) (rnet (rspecs draws 0 [.res b, .plain (.fc f)]) x.get o)) :
    ∃ gs b'' h err, ffRes draws b.n x 0 [.res b, .plain (.fc f)] = some gs ∧ bpResNet e x gs = some ([.res b'', .plain (.fc h)], err) ∧
      ∀ q, q < f.output * f.input →
        act1 b.act (x.get (q % f.input) + cnet (inner b.cls) x.get (q % f.input)) ≠ cnet (inner b.cls) x.get (q % f.input) →
        ¬HasDerivAt (fun v => ∑ o ∈ range f.output, ℓ o (rnet [.res b.n b.act (inner b.cls),
          .plain (.fc { f.unit (draws 1) with w := Function.update f.weights.get q v })] x.get o)) 0 (f.weights.get q) →
        ¬HasDerivAt (fun v => ∑ o ∈ range f.output, ℓ o (rnet [.res b.n b.act (inner b.cls),
          .plain (.fc { f.unit (draws 1) with w := Function.update f.weights.get q v })] x.get o))
          (h.dWeights.get q - f.dWeights.get q) (f.weights.get q) := by
  obtain ⟨⟨hk0, hk1⟩, hk2, -⟩ := hk
  have hk0 : SmoothAt (inner b.cls) x.get := hk0
  have hk2 : ((Layer.fc f).spec (draws 1)).Smooth (fun k => act1 b.act (x.get k + cnet (inner b.cls) x.get k)) := hk2
  obtain ⟨b', ef, bn, ba, bsh, bt, bt3, lpre, vpre, lu, vu, ecls, hb⟩ := block_step x x.get b hr hx (fun _ _ => rfl) hk0
  obtain ⟨gs, ecs, gsh, lcs, vcs, -⟩ := cls_run b.cls b.n x x.get hr.cls hr.fits hx (fun _ _ => rfl) hk0
  rw [ecls] at ecs
  obtain rfl := Option.some.inj ecs
  rw [hr.size] at lcs vcs
  obtain ⟨l', ef', ho, hl', hv, hbl⟩ := layer_step b'.used _ (draws 1) (.fc f) ⟨hrf, hdrop⟩
    (show f.input ≤ _ by rw [hn]; exact lu) (fun i hi => vu i (by rw [← hn]; exact hi)) hk2
  obtain ⟨f', eff, rfl⟩ : ∃ f', ffLayer b'.used (draws 1) f = some f' ∧ l' = .fc f' := by
    unfold Layer.ff at ef'
    dsimp only at ef'
    rw [if_neg hdrop] at ef'
    obtain ⟨f', h1, h2⟩ := Option.map_eq_some_iff.1 ef'
    exact ⟨f', h1, h2.symm⟩
  obtain ⟨h, h2, δ, eh, eh2, lh2, vq⟩ := layer_other b'.used (outCl x b'.cls) (draws 1) f f' hrf hdrop (by rw [hn]; exact lu)
    (by rw [hn]; exact lcs) eff e he
  obtain ⟨hh, err0, ehh, -, -, hgr⟩ := hbl e he
  have hhh : hh = .fc h := by
    have ehh : (bpLayer b'.used e f').map (fun h => (Layer.fc h, h.error2)) = some (hh, err0) := ehh
    rw [eh] at ehh
    exact (Prod.mk.inj (Option.some.inj ehh)).1.symm
  rw [hhh] at hgr
  obtain ⟨t, et, lt, -⟩ : ∃ t, h2.error2 = t ∧ b.n ≤ t.len ∧ True := ⟨_, rfl, by rw [← hn]; exact lh2, trivial⟩
  obtain ⟨hs', err', ehs, lhs, le', -, -⟩ := hb t lt
  rw [hcls] at bsh
  obtain ⟨g, hg, hgsh⟩ := singleton_of_sh bsh
  have hcl : clobber b'.cls.reverse t = some t := clobber_kept _ _ (by
    rw [hg, List.reverse_singleton, List.map_singleton, hgsh]; exact hkept)
  obtain ⟨r, er, lr, vr⟩ := addPend_run b.n err' (some (t, b'.n)) le' (by
    rintro w hw
    obtain rfl := Option.some.inj hw
    exact ⟨bn, lt⟩)
  have hmiss : b'.missed [.plain (.fc f')] = true := by
    unfold Block.missed nextPlain
    rw [hg]
    rfl
  refine ⟨[.res b', .plain (.fc f')], { b' with cls := hs', temp := t, temp3 := b'.temp3 }, h2, r, ?_, ?_, fun q hq h1 h0 hd => ?_⟩
  · rw [ffRes, if_neg (by rintro ⟨h, -⟩; exact h)]
    have e1 : RLayer.ff b.n x (draws 0) (.res b) = some (.res b') := by
      show (ffBlock b.n x b).map RLayer.res = _
      rw [ef]
      rfl
    have e2 : RLayer.ff b'.n b'.used (draws (0 + 1)) (.plain (.fc f)) = some (.plain (.fc f')) := by
      unfold RLayer.ff
      dsimp only
      rw [if_neg (by rw [bn, ← hn]; exact not_not.2 rfl)]
      show ((Layer.fc f).ff b'.used (draws 1)).map RLayer.plain = _
      rw [ef']
      rfl
    rw [e1, Option.bind_some, ffRes, if_neg (by rintro ⟨-, h⟩; exact h rfl)]
    show ((RLayer.ff b'.n b'.used (draws (0 + 1)) (.plain (.fc f))).bind _).bind _ = _
    rw [e2]
    rfl
  · have hseen : b'.seen x [.plain (.fc f')] = outCl x b'.cls := by
      unfold Block.seen
      rw [hmiss, if_pos rfl]
    have hbe : blockErr b' [.plain (.fc f')] t none = some (t, b'.temp3) := by
      unfold blockErr
      rw [hmiss, if_pos rfl]
      rfl
    have hbp : (Layer.fc f').bp (outCl x b'.cls) e = some (.fc h2, t) := by
      show (bpLayer (outCl x b'.cls) e f').map (fun h => (Layer.fc h, h.error2)) = _
      rw [eh2, ← et]
      rfl
    unfold bpResNet
    rw [bpRes, hseen, bpRes, bpRes, Option.bind_some]
    dsimp only
    rw [addPend, Option.bind_some, hbp, Option.bind_some, Option.bind_some, hbe, Option.bind_some]
    dsimp only
    rw [ehs, Option.bind_some, hcl, Option.bind_some, Option.bind_some]
    dsimp only
    rw [er]
    rfl
  · have hgr := GrownP.loss hgr ℓ hl
    have htrue := hgr.1 q hq
    obtain ⟨w1, w2⟩ := vq q hq
    have hpos : 0 < f.input := by
      rcases Nat.eq_zero_or_pos f.input with h | h
      · rw [h, Nat.mul_zero] at hq; omega
      · exact h
    have hlt : q % f.input < b.n := by rw [← hn]; exact Nat.mod_lt q hpos
    rw [vu _ hlt] at w1
    rw [vcs _ hlt] at w2
    rw [w2] at hd
    rw [w1] at htrue
    have heq := htrue.unique hd
    by_cases hz : δ (q / f.input) = 0
    · apply h0
      rw [hz, zero_mul] at hd
      exact hd
    · exact h1 (mul_left_cancel₀ hz heq)

/-! ### Concrete networks -/

/-- A 1x2 image, a 1x1 kernel. -/
noncomputable def oneCl (a : Act) (w b : ℝ) : Cl where
  sh := ⟨.conv ⟨1, 2, 1, 1, 1, 1, 1, 0⟩, 1, a, .none, 1, 1, 1, 1, 0⟩
  mode := .descent
  kernels := fun _ => Arr.ofList [w]
  biases := Arr.ofList [b]
  pre := Arr.ofList [0, 0]
  post := Arr.ofList [0, 0]
  pooled := Arr.ofList [0, 0]
  pooltemp := Arr.ofList []
  temp := Arr.ofList [0, 0]
  temp3 := Arr.ofList [0, 0]
  error2 := Arr.ofList [0, 0]
  dKernels := fun _ => Arr.ofList [0]
  dBiases := Arr.ofList [0]

/-- The layer that hands a 1x2 image on. -/
noncomputable def idCl : Cl := { oneCl .none 1 0 with sh := ⟨.pass 1 2, 1, .none, .max, 1, 1, 1, 1, 0⟩ }

/-- A block on 1x2 images. -/
noncomputable def oneBlock (a : Act) (cls : List Cl) : Block :=
  ⟨2, cls, a, Arr.ofList [0, 0], Arr.ofList [0, 0], Arr.ofList [0, 0], Arr.ofList [0, 0]⟩

/-- A fully connected layer with two inputs. -/
noncomputable def oneFc : Fcl where
  input := 2
  output := 1
  act := .none
  drop := .off
  threshold := 0
  mode := .descent
  weights := Arr.ofList [1, 1]
  biases := Arr.ofList [1]
  active := Arr.ofList [1]
  pre := Arr.ofList [0]
  post := Arr.ofList [0]
  mask := Arr.ofList [1]
  dropTemp := Arr.ofList [1]
  temp := Arr.ofList [0]
  temp3 := Arr.ofList [0]
  error2 := Arr.ofList [0, 0]
  dWeights := Arr.ofList [0, 0]
  dBiases := Arr.ofList [0]

theorem oneCl_ready (a : Act) (w b : ℝ) (ha : a ≠ .softmax) : (oneCl a w b).Ready where
  hK := ⟨by decide, by decide, by decide, by decide⟩
  hpool := fun h => absurd rfl h
  hpass := fun h => by cases h
  hact := ha
  lk := fun _ _ => Nat.le_refl 1
  lb := Nat.le_refl 1
  lpre := Nat.le_refl 2
  lpost := Nat.le_refl 2
  lpooled := Nat.le_refl 2
  lt := Nat.le_refl 2
  lt3 := Nat.le_refl 2
  le2 := Nat.le_refl 2
  ldk := fun _ _ => Nat.le_refl 1
  ldb := Nat.le_refl 1
  zpre := fun k hk => by
    have hk : k < 2 := hk
    interval_cases k <;> rfl
  zpost := fun k hk => by
    have hk : k < 2 := hk
    interval_cases k <;> rfl
  zpooled := fun k hk => by
    have hk : k < 2 := hk
    interval_cases k <;> rfl
  zt := fun k hk => by
    have hk : k < 2 := hk
    interval_cases k <;> rfl
  ze2 := fun k hk => by
    have hk : k < 2 := hk
    interval_cases k <;> rfl

theorem idCl_ready : idCl.Ready where
  hK := trivial
  hpool := fun _ => ⟨⟨by decide, by decide, by decide, by decide⟩, by decide, by decide⟩
  hpass := fun _ h => by cases h
  hact := fun h => by cases h
  lk := fun _ _ => Nat.zero_le _
  lb := Nat.le_refl 1
  lpre := Nat.le_refl 2
  lpost := Nat.le_refl 2
  lpooled := Nat.le_refl 2
  lt := Nat.le_refl 2
  lt3 := Nat.le_refl 2
  le2 := Nat.le_refl 2
  ldk := fun _ _ => Nat.zero_le _
  ldb := Nat.le_refl 1
  zpre := fun k hk => by
    have hk : k < 2 := hk
    interval_cases k <;> rfl
  zpost := fun k hk => by
    have hk : k < 2 := hk
    interval_cases k <;> rfl
  zpooled := fun k hk => by
    have hk : k < 2 := hk
    interval_cases k <;> rfl
  zt := fun k hk => by
    have hk : k < 2 := hk
    interval_cases k <;> rfl
  ze2 := fun k hk => by
    have hk : k < 2 := hk
    interval_cases k <;> rfl

theorem oneFc_ready : oneFc.Ready := by
  constructor <;> simp only [oneFc, Arr.ofList] <;> first
    | (simp; done)
    | (intro k hk; interval_cases k <;> simp)

theorem oneBlock_ready (a : Act) (cls : List Cl) (ha : a ≠ .softmax) (h : ∀ c, c ∈ cls → c.Ready) (hf : FitsCl 2 cls) (hs : sizeCl 2 cls = 2) :
    (oneBlock a cls).Ready :=
  ⟨h, hf, hs, ha, Nat.le_refl 2, Nat.le_refl 2, Nat.le_refl 2, Nat.le_refl 2⟩

theorem oneCl_z (a : Act) (w b : ℝ) (y : Nat → ℝ) (p : Nat) (hp : p < 2) : (oneCl a w b).unit.z y p = w * y p + b := by
  interval_cases p <;>
    simp [CUnit.z, Cl.unit, oneCl, Shape.A, Kind.size, Kind.rows, Kind.cols, Kind.fn, Kind.Inner, Inside, Kind.lin, Conv.Geom.outI,
      Conv.Geom.outJ, Conv.Geom.nI, Conv.Geom.nJ, Conv.corr, ix3, Arr.ofList]

theorem oneCl_fn (a : Act) (w b : ℝ) (y : Nat → ℝ) (p : Nat) (hp : p < 2) : (oneCl a w b).unit.fn y p = act1 a (w * y p + b) := by
  have h : (oneCl a w b).unit.fn y p = (oneCl a w b).unit.actv ((oneCl a w b).unit.z y) p := by
    interval_cases p <;> simp [CUnit.fn, CUnit.pools, CUnit.src, Cl.unit, oneCl, poolFn, Shape.B, poolSize, Shape.A, Shape.isPass, Kind.size, Kind.rows,
      Kind.cols, Conv.Geom.outI, Conv.Geom.outJ]
  have hi : (Kind.conv ⟨1, 2, 1, 1, 1, 1, 1, 0⟩).Inner (p % 2) := by interval_cases p <;> decide
  rw [h]
  unfold CUnit.actv
  rw [oneCl_z a w b y p hp]
  refine (if_pos ?_).trans rfl
  exact hi

theorem oneCl_smooth (a : Act) (w b : ℝ) (y : Nat → ℝ) (h : a = .relu ∨ a = .leaky ∨ a = .elu → ∀ p, p < 2 → w * y p + b ≠ 0) :
    (oneCl a w b).unit.Smooth y :=
  ⟨fun _ ha p hp _ => by rw [oneCl_z a w b y p hp]; exact h ha p hp, (fun h => by cases h)⟩

/-- The image. -/
noncomputable def oneImage : Arr ℝ := Arr.ofList [1, 2]

/-- Two convolutions, the first with an activation, and a rectifier after the sum. -/
noncomputable def tameNet : List RLayer := [.res (oneBlock .relu [oneCl .leaky 1 0, oneCl .none 1 1]), .plain (.fc oneFc)]

theorem leaky_pos (v : ℝ) (h : 0 ≤ v) : act1 .leaky v = v := by
  show max v (v / 10) = v
  exact max_eq_left (by linarith)

theorem tame_inner (p : Nat) (hp : p < 2) : cnet (inner [oneCl .leaky 1 0, oneCl .none 1 1]) oneImage.get p = oneImage.get p + 1 := by
  show (oneCl .none 1 1).unit.fn ((oneCl .leaky 1 0).unit.fn oneImage.get) p = _
  rw [oneCl_fn _ _ _ _ _ hp, oneCl_fn _ _ _ _ _ hp]
  show 1 * act1 .leaky (1 * oneImage.get p + 0) + 1 = _
  rw [one_mul, one_mul, add_zero, leaky_pos]
  interval_cases p <;> simp [oneImage, Arr.ofList]

example : (∀ f, f ∈ tameNet → f.Ready) ∧ RFits 2 tameNet ∧ 2 ≤ oneImage.len ∧
    RSmoothAt (rspecs (fun _ _ => false) 0 tameNet) oneImage.get ∧ Tame tameNet := by
  refine ⟨?_, ⟨rfl, (fun h => by cases h), rfl, (fun h => by cases h), trivial⟩, Nat.le_refl 2, ?_, ?_⟩
  · intro f hf
    simp only [tameNet, List.mem_cons, List.not_mem_nil, or_false] at hf
    rcases hf with rfl | rfl
    · refine oneBlock_ready _ _ (by decide) ?_ ⟨rfl, rfl, trivial⟩ rfl
      intro c hc
      simp only [List.mem_cons, List.not_mem_nil, or_false] at hc
      rcases hc with rfl | rfl <;> exact oneCl_ready _ _ _ (by decide)
    · exact ⟨oneFc_ready, by decide⟩
  · refine ⟨⟨⟨oneCl_smooth _ _ _ _ fun _ p hp => ?_, oneCl_smooth _ _ _ _ fun h => ?_, trivial⟩, fun _ k hk => ?_⟩, fun h => ?_, trivial⟩
    · interval_cases p <;> norm_num [oneImage, Arr.ofList]
    · rcases h with h | h | h <;> cases h
    · have hk : k < 2 := hk
      have := tame_inner k hk
      show oneImage.get k + cnet (inner [oneCl .leaky 1 0, oneCl .none 1 1]) oneImage.get k ≠ 0
      rw [this]
      interval_cases k <;> norm_num [oneImage, Arr.ofList]
    · rcases h with h | h | h <;> cases h
  · exact ⟨Or.inr (Or.inr rfl), (by decide), trivial⟩

/-- An instance of the first refutation: one convolution with a sigmoid. -/
example : ∃ gs hs err, ffRes (fun _ _ => false) 2 oneImage 0 [.res (oneBlock .none [oneCl .sigmoid 1 0])] = some gs ∧
    bpResNet (Arr.ofList [1, 1]) oneImage gs = some (hs, err) ∧
    ¬HasDerivAt (fun v => ∑ o ∈ range 2, rnet (rspecs (fun _ _ => false) 0 [.res (oneBlock .none [oneCl .sigmoid 1 0])])
      (Function.update oneImage.get 0 v) o) (err.get 0) (oneImage.get 0) := by
  obtain ⟨gs, hs, err, h1, h2, h3⟩ := C136_clobbered_refuted (fun _ _ => false) (oneBlock .none [oneCl .sigmoid 1 0]) []
    (oneCl .sigmoid 1 0) rfl (oneBlock_ready _ _ (by decide) (by
      intro c hc
      simp only [List.mem_cons, List.not_mem_nil, or_false] at hc
      rw [hc]
      exact oneCl_ready _ _ _ (by decide)) ⟨rfl, trivial⟩ rfl) rfl rfl (fun h => by cases h) oneImage (Arr.ofList [1, 1]) (fun _ v => v) (Nat.le_refl 2)
    ⟨⟨⟨oneCl_smooth _ _ _ _ (fun h => by rcases h with h | h | h <;> cases h), trivial⟩, (fun h => by rcases h with h | h | h <;> cases h)⟩, trivial⟩
    (Nat.le_refl 2) (fun o ho => by
      have ho : o < 2 := ho
      interval_cases o <;> exact hasDerivAt_id' _)
  refine ⟨gs, hs, err, h1, h2, h3 0 (by decide) (by decide) (dAct_sigmoid_ne _) ?_⟩
  show (1 : ℝ) * 1 ≠ 0
  norm_num

/-- An instance of the second: a block with a sigmoid after the sum, then another block. -/
example : ∃ gs hs err, ffRes (fun _ _ => false) 2 oneImage 0 [.res (oneBlock .sigmoid [idCl]), .res (oneBlock .none [oneCl .none 1 1])] = some gs ∧
    bpResNet (Arr.ofList [1, 1]) oneImage gs = some (hs, err) ∧
    ¬HasDerivAt (fun v => ∑ o ∈ range 2, rnet (rspecs (fun _ _ => false) 0 [.res (oneBlock .sigmoid [idCl]), .res (oneBlock .none [oneCl .none 1 1])])
      (Function.update oneImage.get 0 v) o) (err.get 0) (oneImage.get 0) := by
  obtain ⟨gs, hs, err, h1, h2, h3⟩ := C136_adjacent_refuted (fun _ _ => false) (oneBlock .sigmoid [idCl]) (oneBlock .none [oneCl .none 1 1])
    idCl rfl rfl (oneBlock_ready _ _ (by decide) (by
      intro c hc
      simp only [List.mem_cons, List.not_mem_nil, or_false] at hc
      rw [hc]
      exact idCl_ready) ⟨rfl, trivial⟩ rfl) (oneBlock_ready _ _ (by decide) (by
      intro c hc
      simp only [List.mem_cons, List.not_mem_nil, or_false] at hc
      rw [hc]
      exact oneCl_ready _ _ _ (by decide)) ⟨rfl, trivial⟩ rfl) (Or.inr (Or.inr rfl)) rfl oneImage (Arr.ofList [1, 1]) (fun _ v => v) (Nat.le_refl 2)
    ⟨⟨⟨⟨(fun h => by cases h), (fun _ h => by cases h)⟩, trivial⟩, (fun h => by rcases h with h | h | h <;> cases h)⟩,
      ⟨⟨oneCl_smooth _ _ _ _ (fun h => by rcases h with h | h | h <;> cases h), trivial⟩, (fun h => by rcases h with h | h | h <;> cases h)⟩, trivial⟩
    (Nat.le_refl 2) (fun o ho => by
      have ho : o < 2 := ho
      interval_cases o <;> exact hasDerivAt_id' _)
  refine ⟨gs, hs, err, h1, h2, h3 0 (by decide) (dAct_sigmoid_ne _) ?_⟩
  show (1 : ℝ) * 1 ≠ 0
  norm_num

/-- An instance of the third: one convolution, a rectifier after the sum, a fully connected layer. -/
example : ∃ gs b h err, ffRes (fun _ _ => false) 2 oneImage 0 [.res (oneBlock .relu [oneCl .none 1 1]), .plain (.fc oneFc)] = some gs ∧
    bpResNet (Arr.ofList [1]) oneImage gs = some ([.res b, .plain (.fc h)], err) ∧
    ¬HasDerivAt (fun v => ∑ o ∈ range 1, rnet [.res 2 .relu (inner [oneCl .none 1 1]),
      .plain (.fc { oneFc.unit (fun _ => false) with w := Function.update oneFc.weights.get 0 v })] oneImage.get o)
      (h.dWeights.get 0 - oneFc.dWeights.get 0) (oneFc.weights.get 0) := by
  have hin : ∀ p, p < 2 → cnet (inner [oneCl .none 1 1]) oneImage.get p = oneImage.get p + 1 := by
    intro p hp
    show (oneCl .none 1 1).unit.fn oneImage.get p = _
    rw [oneCl_fn _ _ _ _ _ hp]
    show 1 * oneImage.get p + 1 = _
    rw [one_mul]
  have hout : ∀ p, p < 2 → (RSpec.res 2 .relu (inner [oneCl .none 1 1])).fn oneImage.get p = [3, 5].getD p 0 := by
    intro p hp
    show max (oneImage.get p + cnet (inner [oneCl .none 1 1]) oneImage.get p) 0 = _
    rw [hin p hp]
    interval_cases p <;> norm_num [oneImage, Arr.ofList]
  obtain ⟨gs, b, h, err, h1, h2, h3⟩ := C136_single_refuted (fun _ _ => false) (oneBlock .relu [oneCl .none 1 1]) (oneCl .none 1 1) rfl
    (oneBlock_ready _ _ (by decide) (by
      intro c hc
      simp only [List.mem_cons, List.not_mem_nil, or_false] at hc
      rw [hc]
      exact oneCl_ready _ _ _ (by decide)) ⟨rfl, trivial⟩ rfl) (Or.inr (Or.inr rfl)) oneFc oneFc_ready (by decide) rfl oneImage
    (Arr.ofList [1]) (fun _ v => v) (Nat.le_refl 2)
    ⟨⟨⟨oneCl_smooth _ _ _ _ (fun h => by rcases h with h | h | h <;> cases h), trivial⟩, fun _ k hk => by
      have hk : k < 2 := hk
      show oneImage.get k + cnet (inner [oneCl .none 1 1]) oneImage.get k ≠ 0
      rw [hin k hk]
      interval_cases k <;> norm_num [oneImage, Arr.ofList]⟩, (fun h => by rcases h with h | h | h <;> cases h), trivial⟩
    (Nat.le_refl 1) (fun o ho => by
      have ho : o < 1 := ho
      interval_cases o
      exact hasDerivAt_id' _)
  refine ⟨gs, b, h, err, h1, h2, h3 0 (by decide) ?_ fun h0 => ?_⟩
  · show max (oneImage.get 0 + cnet (inner [oneCl .none 1 1]) oneImage.get 0) 0 ≠ cnet (inner [oneCl .none 1 1]) oneImage.get 0
    rw [hin 0 (by decide)]
    norm_num [oneImage, Arr.ofList]
  · have hfun : (fun v => ∑ o ∈ range 1, rnet [.res 2 .relu (inner [oneCl .none 1 1]),
        .plain (.fc { oneFc.unit (fun _ => false) with w := Function.update oneFc.weights.get 0 v })] oneImage.get o) = fun v => v * 3 + 6 := by
      funext v
      rw [Finset.sum_range_one]
      show (1 : ℝ) * (∑ i ∈ range 2, Function.update oneFc.weights.get 0 v (0 * 2 + i) * (RSpec.res 2 .relu (inner [oneCl .none 1 1])).fn oneImage.get i + 1) = _
      rw [Finset.sum_range_succ, Finset.sum_range_one, hout 0 (by decide), hout 1 (by decide)]
      norm_num [Function.update, oneFc, Arr.ofList]
      ring
    have h0 : HasDerivAt (fun v : ℝ => v * 3 + 6) 0 (oneFc.weights.get 0) := hfun ▸ h0
    have h3 : HasDerivAt (fun v : ℝ => v * 3 + 6) (1 * 3) (oneFc.weights.get 0) := ((hasDerivAt_id' _).mul_const 3).add_const 6
    exact absurd (h0.unique h3) (by norm_num)

end LLab.CNet
