import Verif.Common.Mat
import Mathlib.Data.List.Basic
import Mathlib.Algebra.BigOperators.Group.List.Basic
import Mathlib.Tactic.Ring

/-!
Copies between the parameters of a model and a flat vector:
`memcopy_params_to_vector`, `memcopy_vector_to_params`, `get_array_size_params` and
their weights-only, derivative and score variants, for fully-connected,
convolutional, residual and recurrent layers and for whole models
(`/repo/src/fully_connected_layers.c` 2082-2405, `/repo/src/convolutional_layers.c`
2621-2926, `/repo/src/residual_layers.c` 655-920, `/repo/src/model.c` 8768-9150,
`/repo/src/recurrent_layers.c` 1958-2140, `/repo/src/rmodel.c` 2250-2400,
`/repo/src/dueling_categorical_dqn.c` 980-1135). Property C44.

An array is a list; copying past the end of an array is `none`. Integer overflow of
the offsets is not modelled.
-/

namespace LLab.Flat

variable {α : Type}

/-- `memcpy(&v[off], a, n)` -/
def put (v : List α) (off : Nat) (a : List α) (n : Nat) : Option (List α) :=
  if off + n ≤ v.length ∧ n ≤ a.length then some (v.take off ++ a.take n ++ v.drop (off + n)) else none

/-- `memcpy(a, &v[off], n)`: the array `a` afterwards. -/
def get (v : List α) (off : Nat) (a : List α) (n : Nat) : Option (List α) :=
  if off + n ≤ v.length ∧ n ≤ a.length then some ((v.drop off).take n ++ a.drop n) else none

/-- The loop `for(i ...) memcpy(&v[base+i*stride], a[i], n)`. -/
def putRows (base stride n : Nat) : List (List α) → Nat → List α → Option (List α)
  | [], _, v => some v
  | r :: rs, i, v => (put v (base + i * stride) r n).bind (putRows base stride n rs (i + 1))

/-- The loop `for(i ...) memcpy(a[i], &v[base+i*stride], n)`. -/
def getRows (v : List α) (base stride n : Nat) : List (List α) → Nat → Option (List (List α))
  | [], _ => some []
  | r :: rs, i => (get v (base + i * stride) r n).bind fun r => (getRows v base stride n rs (i + 1)).bind fun rs => some (r :: rs)

/-! ### Fully-connected layers -/

/-- The parameter arrays of a fully-connected layer (or the arrays of their
derivatives). -/
@[ext] structure FArr (α : Type) where
  w : List α
  nw : List α
  b : List α
  nb : List α
  gamma : List α
  beta : List α

/-- A fully-connected layer: `only` is `feed_forward_flag == ONLY_DROPOUT`, `norm` is
`normalization_flag == LAYER_NORMALIZATION`, `edge` is `EDGE_POPUP` in either flag. -/
structure Fcl (α : Type) where
  input : Nat
  output : Nat
  dim : Nat
  noisy : Bool
  norm : Bool
  only : Bool
  edge : Bool
  arr : FArr α
  scores : List α

/-- The arrays have the sizes `fully_connected` allocates. -/
structure Fcl.Ok (f : Fcl α) : Prop where
  w : f.arr.w.length = f.input * f.output
  nw : f.arr.nw.length = if f.noisy then f.input * f.output else 0
  b : f.arr.b.length = f.output
  nb : f.arr.nb.length = if f.noisy then f.output else 0
  gamma : f.arr.gamma.length = if f.norm then f.dim else 0
  beta : f.arr.beta.length = if f.norm then f.dim else 0
  scores : f.scores.length = if f.edge then f.input * f.output else 0

/-- `get_array_size_params` (`/repo/src/fully_connected_layers.c` 2082-2094) -/
def sizeFcl (f : Fcl α) : Nat :=
  if f.only then 0
  else f.input * f.output + f.output + ((if f.norm then f.dim * 2 else 0) + (if f.noisy then f.input * f.output + f.output else 0))

/-- `multiplier` -/
def mult (f : Fcl α) : Nat := if f.noisy then 2 else 1

/-- `memcopy_params_to_vector` (`/repo/src/fully_connected_layers.c` 2238-2255) with
`vector` starting at `s`; `memcopy_derivative_params_to_vector` (2378-2398) is the
same code on the derivative arrays. -/
def putFcl (f : Fcl α) (s : Nat) (v : List α) : Option (List α) :=
  if f.only then some v
  else
    (put v s f.arr.w (f.input * f.output)).bind fun v =>
      (if f.noisy then put v (s + f.input * f.output) f.arr.nw (f.input * f.output) else some v).bind fun v =>
        (put v (s + mult f * f.input * f.output) f.arr.b f.output).bind fun v =>
          (if f.noisy then put v (s + (mult f * f.input * f.output + f.output)) f.arr.nb f.output else some v).bind fun v =>
            if f.norm then
              (put v (s + (mult f * f.input * f.output + mult f * f.output)) f.arr.gamma f.dim).bind fun v =>
                put v (s + (mult f * f.input * f.output + mult f * f.output + f.dim)) f.arr.beta f.dim
            else some v

/-- `memcopy_vector_to_params` (`/repo/src/fully_connected_layers.c` 2139-2157);
`memcopy_vector_to_derivative_params` (2349-2369) is the same code on the derivative
arrays. -/
def getFcl (f : Fcl α) (s : Nat) (v : List α) : Option (Fcl α) :=
  if f.only then some f
  else
    (get v s f.arr.w (f.input * f.output)).bind fun w =>
      (if f.noisy then get v (s + f.input * f.output) f.arr.nw (f.input * f.output) else some f.arr.nw).bind fun nw =>
        (get v (s + mult f * f.input * f.output) f.arr.b f.output).bind fun b =>
          (if f.noisy then get v (s + (mult f * f.input * f.output + f.output)) f.arr.nb f.output else some f.arr.nb).bind fun nb =>
            if f.norm then
              (get v (s + (mult f * f.input * f.output + mult f * f.output)) f.arr.gamma f.dim).bind fun gamma =>
                (get v (s + (mult f * f.input * f.output + mult f * f.output + f.dim)) f.arr.beta f.dim).bind fun beta =>
                  some { f with arr := ⟨w, nw, b, nb, gamma, beta⟩ }
            else some { f with arr := ⟨w, nw, b, nb, f.arr.gamma, f.arr.beta⟩ }

/-- `get_array_size_weights` (`/repo/src/fully_connected_layers.c` 2118-2130) -/
def sizeWFcl (f : Fcl α) : Nat :=
  if f.only then 0
  else f.input * f.output + ((if f.norm then f.dim * 2 else 0) + (if f.noisy then f.input * f.output else 0))

/-- `memcopy_weights_to_vector` (`/repo/src/fully_connected_layers.c` 2265-2279) -/
def putWFcl (f : Fcl α) (s : Nat) (v : List α) : Option (List α) :=
  if f.only then some v
  else
    (put v s f.arr.w (f.input * f.output)).bind fun v =>
      (if f.noisy then put v (s + f.input * f.output) f.arr.nw (f.input * f.output) else some v).bind fun v =>
        if f.norm then
          (put v (s + mult f * f.input * f.output) f.arr.gamma f.dim).bind fun v =>
            put v (s + (mult f * f.input * f.output + f.dim)) f.arr.beta f.dim
        else some v

/-- `memcopy_vector_to_weights` (`/repo/src/fully_connected_layers.c` 2288-2302) -/
def getWFcl (f : Fcl α) (s : Nat) (v : List α) : Option (Fcl α) :=
  if f.only then some f
  else
    (get v s f.arr.w (f.input * f.output)).bind fun w =>
      (if f.noisy then get v (s + f.input * f.output) f.arr.nw (f.input * f.output) else some f.arr.nw).bind fun nw =>
        if f.norm then
          (get v (s + mult f * f.input * f.output) f.arr.gamma f.dim).bind fun gamma =>
            (get v (s + (mult f * f.input * f.output + f.dim)) f.arr.beta f.dim).bind fun beta =>
              some { f with arr := ⟨w, nw, f.arr.b, f.arr.nb, gamma, beta⟩ }
        else some { f with arr := ⟨w, nw, f.arr.b, f.arr.nb, f.arr.gamma, f.arr.beta⟩ }

/-- `get_array_size_scores_fcl` (`/repo/src/fully_connected_layers.c` 2104-2108) -/
def sizeSFcl (f : Fcl α) : Nat := if !f.edge || f.only then 0 else f.input * f.output

/-- `memcopy_scores_to_vector` (`/repo/src/fully_connected_layers.c` 2311-2315) -/
def putSFcl (f : Fcl α) (s : Nat) (v : List α) : Option (List α) :=
  if !f.edge || f.only then some v else put v s f.scores (f.input * f.output)

/-- `memcopy_vector_to_scores` (`/repo/src/fully_connected_layers.c` 2167-2171) -/
def getSFcl (f : Fcl α) (s : Nat) (v : List α) : Option (Fcl α) :=
  if !f.edge || f.only then some f
  else (get v s f.scores (f.input * f.output)).bind fun sc => some { f with scores := sc }

/-! ### Convolutional layers -/

/-- A convolutional layer: `conv` is `convolutional_flag != NO_CONVOLUTION`, `ks` is
`channels*kernel_rows*kernel_cols`, `groups` is `n_kernels/group_norm_channels` and
`dim` the size of every normalisation group. -/
@[ext] structure Cl (α : Type) where
  n : Nat
  ks : Nat
  groups : Nat
  dim : Nat
  conv : Bool
  norm : Bool
  edge : Bool
  kernels : List (List α)
  biases : List α
  gamma : List (List α)
  beta : List (List α)
  scores : List α

/-- The arrays have the sizes `convolutional` allocates; it refuses normalisation
without convolution. -/
structure Cl.Ok (f : Cl α) : Prop where
  kernels : f.kernels.length = (if f.conv then f.n else 0) ∧ ∀ k ∈ f.kernels, k.length = f.ks
  biases : f.biases.length = if f.conv then f.n else 0
  gamma : f.gamma.length = (if f.norm then f.groups else 0) ∧ ∀ k ∈ f.gamma, k.length = f.dim
  beta : f.beta.length = (if f.norm then f.groups else 0) ∧ ∀ k ∈ f.beta, k.length = f.dim
  norm : f.norm = true → f.conv = true
  scores : f.scores.length = if f.edge then f.n * f.ks else 0

/-- `get_array_size_params_cl` (`/repo/src/convolutional_layers.c` 2621-2632) -/
def sizeCl (f : Cl α) : Nat :=
  if !f.conv then 0 else (if f.norm then f.groups * (f.dim * 2) else 0) + f.n * f.ks + f.n

/-- `memcopy_params_to_vector_cl` (`/repo/src/convolutional_layers.c` 2704-2723);
`memcopy_derivative_params_to_vector_cl` (2906-2926) is the same code on the
derivative arrays. -/
def putCl (f : Cl α) (s : Nat) (v : List α) : Option (List α) :=
  if !f.conv then some v
  else
    (putRows s f.ks f.ks f.kernels 0 v).bind fun v =>
      (put v (s + f.n * f.ks) f.biases f.n).bind fun v =>
        if f.norm then
          (putRows (s + (f.n * f.ks + f.n)) f.dim f.dim f.gamma 0 v).bind fun v =>
            putRows (s + (f.n * f.ks + f.n)) f.dim f.dim f.beta f.groups v
        else some v

/-- `memcopy_vector_to_params_cl` (`/repo/src/convolutional_layers.c` 2674-2693);
`memcopy_vector_to_derivative_params_cl` (2876-2895) is the same code on the
derivative arrays. -/
def getCl (f : Cl α) (s : Nat) (v : List α) : Option (Cl α) :=
  if !f.conv then some f
  else
    (getRows v s f.ks f.ks f.kernels 0).bind fun kernels =>
      (get v (s + f.n * f.ks) f.biases f.n).bind fun biases =>
        if f.norm then
          (getRows v (s + (f.n * f.ks + f.n)) f.dim f.dim f.gamma 0).bind fun gamma =>
            (getRows v (s + (f.n * f.ks + f.n)) f.dim f.dim f.beta f.groups).bind fun beta =>
              some { f with kernels := kernels, biases := biases, gamma := gamma, beta := beta }
        else some { f with kernels := kernels, biases := biases }

/-- `get_array_size_weights_cl` (`/repo/src/convolutional_layers.c` 2641-2652) -/
def sizeWCl (f : Cl α) : Nat :=
  if !f.conv then 0 else (if f.norm then f.groups * (f.dim * 2) else 0) + f.n * f.ks

/-- `memcopy_weights_to_vector_cl` (`/repo/src/convolutional_layers.c` 2762-2780) -/
def putWCl (f : Cl α) (s : Nat) (v : List α) : Option (List α) :=
  if !f.conv then some v
  else
    (putRows s f.ks f.ks f.kernels 0 v).bind fun v =>
      if f.norm then
        (putRows (s + f.n * f.ks) f.dim f.dim f.gamma 0 v).bind fun v =>
          putRows (s + f.n * f.ks) f.dim f.dim f.beta f.groups v
      else some v

/-- `memcopy_vector_to_weights_cl` (`/repo/src/convolutional_layers.c` 2733-2751) -/
def getWCl (f : Cl α) (s : Nat) (v : List α) : Option (Cl α) :=
  if !f.conv then some f
  else
    (getRows v s f.ks f.ks f.kernels 0).bind fun kernels =>
      if f.norm then
        (getRows v (s + f.n * f.ks) f.dim f.dim f.gamma 0).bind fun gamma =>
          (getRows v (s + f.n * f.ks) f.dim f.dim f.beta f.groups).bind fun beta =>
            some { f with kernels := kernels, gamma := gamma, beta := beta }
      else some { f with kernels := kernels }

/-- `get_array_size_scores_cl` (`/repo/src/convolutional_layers.c` 2660-2664) -/
def sizeSCl (f : Cl α) : Nat := if !f.edge then 0 else f.n * f.ks

/-- `memcopy_scores_to_vector_cl` (`/repo/src/convolutional_layers.c` 2790-2795) -/
def putSCl (f : Cl α) (s : Nat) (v : List α) : Option (List α) :=
  if !f.edge then some v else put v s f.scores (f.n * f.ks)

/-- `memcopy_vector_to_scores_cl` (`/repo/src/convolutional_layers.c` 2820-2824) -/
def getSCl (f : Cl α) (s : Nat) (v : List α) : Option (Cl α) :=
  if !f.edge then some f else (get v s f.scores (f.n * f.ks)).bind fun sc => some { f with scores := sc }

/-! ### Recurrent layers -/

/-- An LSTM layer: `groups` is `window/n_grouped_cell`, the four input, recurrent and
bias arrays, and the normalisation parameters as pairs `gamma, beta`. -/
@[ext] structure Lstm (α : Type) where
  inp : Nat
  out : Nat
  groups : Nat
  dim : Nat
  norm : Bool
  w : List (List α)
  u : List (List α)
  b : List (List α)
  bns : List (List α × List α)

/-- The arrays have the sizes `recurrent_lstm` allocates. -/
structure Lstm.Ok (f : Lstm α) : Prop where
  w : f.w.length = 4 ∧ ∀ k ∈ f.w, k.length = f.inp * f.out
  u : f.u.length = 4 ∧ ∀ k ∈ f.u, k.length = f.out * f.out
  b : f.b.length = 4 ∧ ∀ k ∈ f.b, k.length = f.out
  bns : f.bns.length = (if f.norm then f.groups else 0) ∧ ∀ k ∈ f.bns, k.1.length = f.dim ∧ k.2.length = f.dim

/-- `get_array_size_params_lstm` (`/repo/src/recurrent_layers.c` 1958-1967) -/
def sizeLstm (f : Lstm α) : Nat :=
  4 * (f.inp * f.out + f.out * f.out + f.out) + if f.norm then f.groups * (f.dim * 2) else 0

/-- The loop over the normalisation groups, both arrays of a group in turn. -/
def putPairs (base dim : Nat) : List (List α × List α) → Nat → List α → Option (List α)
  | [], _, v => some v
  | r :: rs, i, v =>
    (put v (base + i * 2 * dim) r.1 dim).bind fun v =>
      (put v (base + (i * 2 * dim + dim)) r.2 dim).bind (putPairs base dim rs (i + 1))

/-- The loop over the normalisation groups in the other direction. -/
def getPairs (v : List α) (base dim : Nat) : List (List α × List α) → Nat → Option (List (List α × List α))
  | [], _ => some []
  | r :: rs, i =>
    (get v (base + i * 2 * dim) r.1 dim).bind fun g =>
      (get v (base + (i * 2 * dim + dim)) r.2 dim).bind fun b =>
        (getPairs v base dim rs (i + 1)).bind fun rs => some ((g, b) :: rs)

/-- `memcopy_params_to_vector_lstm` (`/repo/src/recurrent_layers.c` 2008-2025) -/
def putLstm (f : Lstm α) (s : Nat) (v : List α) : Option (List α) :=
  (putRows s (f.inp * f.out) (f.inp * f.out) f.w 0 v).bind fun v =>
    (putRows (s + 4 * f.inp * f.out) (f.out * f.out) (f.out * f.out) f.u 0 v).bind fun v =>
      (putRows (s + 4 * (f.inp * f.out + f.out * f.out)) f.out f.out f.b 0 v).bind fun v =>
        if f.norm then putPairs (s + 4 * (f.inp * f.out + f.out * f.out + f.out)) f.dim f.bns 0 v else some v

/-- `memcopy_vector_to_params_lstm` (`/repo/src/recurrent_layers.c` 2053-2070) -/
def getLstm (f : Lstm α) (s : Nat) (v : List α) : Option (Lstm α) :=
  (getRows v s (f.inp * f.out) (f.inp * f.out) f.w 0).bind fun w =>
    (getRows v (s + 4 * f.inp * f.out) (f.out * f.out) (f.out * f.out) f.u 0).bind fun u =>
      (getRows v (s + 4 * (f.inp * f.out + f.out * f.out)) f.out f.out f.b 0).bind fun b =>
        if f.norm then
          (getPairs v (s + 4 * (f.inp * f.out + f.out * f.out + f.out)) f.dim f.bns 0).bind fun bns =>
            some { f with w := w, u := u, b := b, bns := bns }
        else some { f with w := w, u := u, b := b }

/-! ### Lists of layers and models -/

/-- The loop `for(i ...){ put(layers[i], &vector[sum]); sum += size(layers[i]); }`; the
offset after it is also returned. -/
def putList {L : Type} (size : L → Nat) (putL : L → Nat → List α → Option (List α)) : List L → Nat → List α → Option (List α × Nat)
  | [], s, v => some (v, s)
  | l :: ls, s, v => (putL l s v).bind fun v => putList size putL ls (s + size l) v

/-- The same loop for the copies from the vector. -/
def getList {L : Type} (size : L → Nat) (getL : L → Nat → List α → Option L) (v : List α) : List L → Nat → Option (List L × Nat)
  | [], s => some ([], s)
  | l :: ls, s => (getL l s v).bind fun l' => (getList size getL v ls (s + size l)).bind fun r => some (l' :: r.1, r.2)

/-- `get_array_size_params_rl` (`/repo/src/residual_layers.c` 655-664) and the loops of
`get_array_size_params_model`. -/
def sizeList {L : Type} (size : L → Nat) (ls : List L) : Nat := (ls.map size).sum

/-- A model: fully-connected, convolutional and residual layers. -/
structure Model (α : Type) where
  fcls : List (Fcl α)
  cls : List (Cl α)
  rls : List (List (Cl α))

/-- `get_array_size_params_model` (`/repo/src/model.c` 8768-8785), for any of the
kinds of copies: `sf` and `sc` are the sizes of the layers. -/
def sizeModel (sf : Fcl α → Nat) (sc : Cl α → Nat) (m : Model α) : Nat :=
  sizeList sf m.fcls + sizeList sc m.cls + sizeList (sizeList sc) m.rls

/-- `memcopy_params_to_vector_model` (`/repo/src/model.c` 9011-9025) with
`memcopy_params_to_vector_rl` (`/repo/src/residual_layers.c` 820-829); the weights,
score and derivative variants (`/repo/src/model.c` 9035-9050, 9061-9075, 9133-9147)
differ in the layer functions only. -/
def putModel (sf : Fcl α → Nat) (sc : Cl α → Nat) (pf : Fcl α → Nat → List α → Option (List α))
    (pc : Cl α → Nat → List α → Option (List α)) (m : Model α) (s : Nat) (v : List α) : Option (List α) :=
  (putList sf pf m.fcls s v).bind fun r =>
    (putList sc pc m.cls r.2 r.1).bind fun r =>
      (putList (sizeList sc) (fun cls s v => (putList sc pc cls s v).bind fun r => some r.1) m.rls r.2 r.1).bind fun r => some r.1

/-- `memcopy_vector_to_params_model` (`/repo/src/model.c` 8854-8870) with
`memcopy_vector_to_params_rl` (`/repo/src/residual_layers.c` 715-723), and the
variants 8882-8896, 8908-8922, 9108-9122. -/
def getModel (sf : Fcl α → Nat) (sc : Cl α → Nat) (gf : Fcl α → Nat → List α → Option (Fcl α))
    (gc : Cl α → Nat → List α → Option (Cl α)) (m : Model α) (s : Nat) (v : List α) : Option (Model α) :=
  (getList sf gf v m.fcls s).bind fun a =>
    (getList sc gc v m.cls a.2).bind fun b =>
      (getList (sizeList sc) (fun cls s v => (getList sc gc v cls s).bind fun r => some r.1) v m.rls b.2).bind fun c =>
        some ⟨a.1, b.1, c.1⟩

/-- A dueling network: `shared_hidden_layers`, `v_hidden_layers`,
`v_linear_last_layer`, `a_hidden_layers`, `a_linear_last_layer`. -/
structure Dqn (α : Type) where
  shared : Model α
  vHidden : Model α
  vLast : Model α
  aHidden : Model α
  aLast : Model α

/-- `get_array_size_params_dueling_categorical_dqn` and the weights variant
(`/repo/src/dueling_categorical_dqn.c` 981-992). -/
def sizeDqn (size : Model α → Nat) (d : Dqn α) : Nat :=
  size d.shared + size d.vHidden + size d.vLast + size d.aHidden + size d.aLast

/-- `memcopy_params_to_vector_dueling_categorical_dqn`
(`/repo/src/dueling_categorical_dqn.c` 1086-1100) and the weights and score variants
(1103-1117, 1137-1151). -/
def putDqn (size : Model α → Nat) (putM : Model α → Nat → List α → Option (List α)) (d : Dqn α) (s : Nat) (v : List α) : Option (List α) :=
  (putM d.shared s v).bind fun v =>
    (putM d.vHidden (s + size d.shared) v).bind fun v =>
      (putM d.vLast (s + (size d.shared + size d.vHidden)) v).bind fun v =>
        (putM d.aHidden (s + (size d.shared + size d.vHidden + size d.vLast)) v).bind fun v =>
          putM d.aLast (s + (size d.shared + size d.vHidden + size d.vLast + size d.aHidden)) v

/-- `memcopy_vector_to_params_dueling_categorical_dqn`
(`/repo/src/dueling_categorical_dqn.c` 994-1008) and the weights and score variants
(1120-1134, 1011-1030). -/
def getDqn (size : Model α → Nat) (getM : Model α → Nat → List α → Option (Model α)) (d : Dqn α) (s : Nat) (v : List α) : Option (Dqn α) :=
  (getM d.shared s v).bind fun a =>
    (getM d.vHidden (s + size d.shared) v).bind fun b =>
      (getM d.vLast (s + (size d.shared + size d.vHidden)) v).bind fun c =>
        (getM d.aHidden (s + (size d.shared + size d.vHidden + size d.vLast)) v).bind fun e =>
          (getM d.aLast (s + (size d.shared + size d.vHidden + size d.vLast + size d.aHidden)) v).bind fun f => some ⟨a, b, c, e, f⟩

/-! ### Lemmas on copies -/

theorem put_at (pre a mid post : List α) (n off : Nat) (ho : off = pre.length) (hm : mid.length = n) (ha : a.length = n) :
    put (pre ++ (mid ++ post)) off a n = some (pre ++ (a ++ post)) := by
  subst ho
  unfold put
  rw [if_pos ⟨by simp only [List.length_append]; omega, by omega⟩]
  congr 1
  rw [List.take_left, ← ha, List.take_length]
  have : List.drop (pre.length + a.length) (pre ++ (mid ++ post)) = post := by
    rw [← List.append_assoc]
    have : pre.length + a.length = (pre ++ mid).length := by rw [List.length_append]; omega
    rw [this, List.drop_left]
  rw [this, List.append_assoc]

theorem get_at (pre a post d : List α) (n off : Nat) (ho : off = pre.length) (ha : a.length = n) (hd : d.length = n) :
    get (pre ++ (a ++ post)) off d n = some a := by
  subst ho
  unfold get
  rw [if_pos ⟨by simp only [List.length_append]; omega, by omega⟩, List.drop_left, ← ha, List.take_left, ha, ← hd,
    List.drop_length, List.append_nil]

/-- Lists of the same shape. -/
def SameRows (a b : List (List α)) (n : Nat) : Prop :=
  a.length = b.length ∧ (∀ r ∈ a, r.length = n) ∧ ∀ r ∈ b, r.length = n

theorem putRows_at (base stride n : Nat) (hs : stride = n) (rows : List (List α)) (i : Nat) (pre mid post : List α)
    (hp : pre.length = base + i * n) (hr : ∀ r ∈ rows, r.length = n) (hm : mid.length = rows.length * n) :
    putRows base stride n rows i (pre ++ (mid ++ post)) = some (pre ++ (rows.flatten ++ post)) := by
  subst hs
  induction rows generalizing i pre mid with
  | nil =>
    have : mid = [] := List.length_eq_zero_iff.1 (by simpa using hm)
    simp [putRows, this]
  | cons r rs ih =>
    have hr0 : r.length = stride := hr r (by simp)
    rw [List.length_cons, Nat.succ_mul] at hm
    have e1 : mid = mid.take stride ++ mid.drop stride := (List.take_append_drop _ _).symm
    have l1 : (mid.take stride).length = stride := by rw [List.length_take]; omega
    have l2 : (mid.drop stride).length = rs.length * stride := by rw [List.length_drop]; omega
    unfold putRows
    have h1 : put (pre ++ (mid ++ post)) (base + i * stride) r stride = some ((pre ++ r) ++ (mid.drop stride ++ post)) := by
      have h := put_at pre r (mid.take stride) (mid.drop stride ++ post) stride (base + i * stride) hp.symm l1 hr0
      rw [← List.append_assoc (mid.take stride), List.take_append_drop] at h
      rw [h, List.append_assoc]
    refine (bind_some_of h1).trans ?_
    rw [ih (i + 1) (pre ++ r) (mid.drop stride) (by rw [List.length_append, hp, hr0, Nat.succ_mul]; omega)
      (fun x hx => hr x (by simp [hx])) l2]
    simp [List.append_assoc]

theorem getRows_at (base stride n : Nat) (hs : stride = n) (rows d : List (List α)) (i : Nat) (pre post : List α)
    (hp : pre.length = base + i * n) (h : SameRows rows d n) :
    getRows (pre ++ (rows.flatten ++ post)) base stride n d i = some rows := by
  subst hs
  induction rows generalizing i pre d with
  | nil =>
    have : d = [] := List.length_eq_zero_iff.1 (by simpa using h.1.symm)
    subst this
    rfl
  | cons r rs ih =>
    obtain ⟨hl, hr, hd⟩ := h
    cases d with
    | nil => simp at hl
    | cons y ys =>
      have hr0 : r.length = stride := hr r (by simp)
      unfold getRows
      have h1 : get (pre ++ ((r :: rs).flatten ++ post)) (base + i * stride) y stride = some r := by
        rw [List.flatten_cons, List.append_assoc]
        exact get_at pre r _ y stride _ hp.symm hr0 (hd y (by simp))
      refine (bind_some_of h1).trans ?_
      have h2 := ih ys (i + 1) (pre ++ r) (by rw [List.length_append, hp, hr0, Nat.succ_mul]; omega)
        ⟨by simpa using hl, fun x hx => hr x (by simp [hx]), fun x hx => hd x (by simp [hx])⟩
      rw [List.append_assoc, ← List.append_assoc r] at h2
      rw [List.flatten_cons]
      exact (bind_some_of h2).trans rfl

theorem flatten_length (rows : List (List α)) (n : Nat) (h : ∀ r ∈ rows, r.length = n) : rows.flatten.length = rows.length * n := by
  induction rows with
  | nil => simp
  | cons r rs ih =>
    rw [List.flatten_cons, List.length_append, h r (by simp), ih fun x hx => h x (by simp [hx]), List.length_cons, Nat.succ_mul]
    omega

/-- `p`, started with `vector = &v[s]`, overwrites the positions from `s+off` on with
`a` and changes nothing else. -/
def WritesAt (off : Nat) (p : Nat → List α → Option (List α)) (a : List α) : Prop :=
  ∀ s (pre mid post : List α), pre.length = s + off → mid.length = a.length → p s (pre ++ (mid ++ post)) = some (pre ++ (a ++ post))

/-- `p`, started with `vector = &v[s]`, computes `x` from the values `a` at `s+off`. -/
def ReadsAt {β : Type} (off : Nat) (p : Nat → List α → Option β) (a : List α) (x : β) : Prop :=
  ∀ s (pre post : List α), pre.length = s + off → p s (pre ++ (a ++ post)) = some x

theorem WritesAt.nil (off : Nat) : WritesAt off (fun _ v => some v) ([] : List α) := by
  intro s pre mid post _ hm
  rw [List.length_eq_zero_iff.1 hm]

theorem WritesAt.put (off o n : Nat) (a : List α) (ho : o = off) (ha : a.length = n) : WritesAt off (fun s v => put v (s + o) a n) a := by
  intro s pre mid post hp hm
  exact put_at pre a mid post n _ (by omega) (by omega) ha

theorem WritesAt.bind {off : Nat} {p q : Nat → List α → Option (List α)} {a b : List α} (hp : WritesAt off p a)
    (hq : WritesAt (off + a.length) q b) : WritesAt off (fun s v => (p s v).bind (q s)) (a ++ b) := by
  intro s pre mid post hpre hm
  rw [List.length_append] at hm
  have l1 : (mid.take a.length).length = a.length := by rw [List.length_take]; omega
  have l2 : (mid.drop a.length).length = b.length := by rw [List.length_drop]; omega
  have h1 := hp s pre (mid.take a.length) (mid.drop a.length ++ post) hpre l1
  rw [← List.append_assoc (mid.take a.length), List.take_append_drop] at h1
  refine (bind_some_of h1).trans ?_
  have h2 := hq s (pre ++ a) (mid.drop a.length) post (by rw [List.length_append]; omega) l2
  rw [List.append_assoc, List.append_assoc] at h2
  rw [h2, List.append_assoc]

theorem WritesAt.ite {off : Nat} {p : Nat → List α → Option (List α)} {a : List α} (c : Bool) (h1 : c = true → WritesAt off p a)
    (h2 : c = false → a = []) : WritesAt off (fun s v => if c then p s v else some v) a := by
  cases c with
  | true => exact h1 rfl
  | false =>
    rw [h2 rfl]
    exact WritesAt.nil off

theorem ReadsAt.get (off o n : Nat) (a d : List α) (ho : o = off) (ha : a.length = n) (hd : d.length = n) :
    ReadsAt off (fun s v => get v (s + o) d n) a a := by
  intro s pre post hp
  exact get_at pre a post d n _ (by omega) ha hd

theorem ReadsAt.pure {β : Type} (off : Nat) (x : β) : ReadsAt off (fun _ _ => some x) ([] : List α) x := by
  intro s pre post _
  rfl

theorem ReadsAt.bind {β γ : Type} {off : Nat} {p : Nat → List α → Option β} {q : β → Nat → List α → Option γ} {a b : List α} {x : β} {y : γ}
    (hp : ReadsAt off p a x) (hq : ReadsAt (off + a.length) (q x) b y) :
    ReadsAt off (fun s v => (p s v).bind fun z => q z s v) (a ++ b) y := by
  intro s pre post hpre
  have h1 := hp s pre (b ++ post) hpre
  rw [← List.append_assoc a] at h1
  refine (bind_some_of h1).trans ?_
  have h2 := hq s (pre ++ a) post (by rw [List.length_append]; omega)
  rw [List.append_assoc, ← List.append_assoc a] at h2
  exact h2

theorem ReadsAt.ite {β : Type} {off : Nat} {p q : Nat → List α → Option β} {a : List α} {x : β} (c : Bool)
    (h1 : c = true → ReadsAt off p a x) (h2 : c = false → ReadsAt off q a x) :
    ReadsAt off (fun s v => if c then p s v else q s v) a x := by
  cases c with
  | true => exact h1 rfl
  | false => exact h2 rfl

theorem WritesAt.rows (off o n stride i : Nat) (rows : List (List α)) (ho : o + i * n = off) (hs : stride = n)
    (hr : ∀ r ∈ rows, r.length = n) : WritesAt off (fun s v => putRows (s + o) stride n rows i v) rows.flatten := by
  intro s pre mid post hp hm
  exact putRows_at _ _ _ hs _ _ _ _ _ (by omega) hr (by rw [hm, flatten_length rows n hr])

theorem ReadsAt.rows (off o n stride i : Nat) (rows d : List (List α)) (ho : o + i * n = off) (hs : stride = n)
    (h : SameRows rows d n) : ReadsAt off (fun s v => getRows v (s + o) stride n d i) rows.flatten rows := by
  intro s pre post hp
  exact getRows_at _ _ _ hs _ _ _ _ _ (by omega) h

theorem WritesAt.congr {off : Nat} {p q : Nat → List α → Option (List α)} {a b : List α} (h : WritesAt off p a)
    (he : ∀ s v, q s v = p s v) (hab : a = b) : WritesAt off q b := by
  subst hab
  intro s pre mid post h1 h2
  rw [he]
  exact h s pre mid post h1 h2

theorem ReadsAt.congr {β : Type} {off : Nat} {p q : Nat → List α → Option β} {a b : List α} {x : β} (h : ReadsAt off p a x)
    (he : ∀ s v, q s v = p s v) (hab : a = b) : ReadsAt off q b x := by
  subst hab
  intro s pre post h1
  rw [he]
  exact h s pre post h1

/-! ### Fully-connected layers -/

/-- The listed parameters of a fully-connected layer. -/
def flatFcl (f : Fcl α) : List α :=
  if f.only then [] else f.arr.w ++ (f.arr.nw ++ (f.arr.b ++ (f.arr.nb ++ (f.arr.gamma ++ f.arr.beta))))

/-- Two fully-connected layers of the same shape. -/
structure SameFcl (f g : Fcl α) : Prop where
  input : f.input = g.input
  output : f.output = g.output
  dim : f.dim = g.dim
  noisy : f.noisy = g.noisy
  norm : f.norm = g.norm
  only : f.only = g.only
  edge : f.edge = g.edge

theorem nil_of {a : List α} {c : Bool} {n : Nat} (h : a.length = if c then n else 0) (hc : c = false) : a = [] := by
  rw [hc] at h
  exact List.length_eq_zero_iff.1 (by simpa using h)

theorem len_of {a : List α} {c : Bool} {n : Nat} (h : a.length = if c then n else 0) (hc : c = true) : a.length = n := by
  rw [hc] at h
  simpa using h

theorem putFcl_writes (f : Fcl α) (h : f.Ok) : WritesAt 0 (fun s v => putFcl f s v) (flatFcl f) := by
  unfold putFcl flatFcl
  cases ho : f.only
  · simp only [Bool.false_eq_true, if_false]
    refine (WritesAt.put 0 0 _ _ rfl h.w).bind ?_
    refine (WritesAt.ite f.noisy (fun c => WritesAt.put _ (f.input * f.output) _ _ (by rw [h.w]; omega) (len_of h.nw c))
      (fun c => nil_of h.nw c)).bind ?_
    have hm1 : mult f * f.input * f.output = f.arr.w.length + f.arr.nw.length := by
      rw [h.w, h.nw]
      unfold mult
      cases f.noisy <;> (simp; try ring)
    have hm2 : mult f * f.output = f.arr.b.length + f.arr.nb.length := by
      rw [h.b, h.nb]
      unfold mult
      cases f.noisy <;> (simp; try ring)
    refine (WritesAt.put _ (mult f * f.input * f.output) _ _ (by omega) h.b).bind ?_
    refine (WritesAt.ite f.noisy (fun c => WritesAt.put _ (mult f * f.input * f.output + f.output) _ _ (by
      have := h.b
      omega) (len_of h.nb c)) (fun c => nil_of h.nb c)).bind ?_
    refine WritesAt.ite f.norm (fun c => ?_) (fun c => by rw [nil_of h.gamma c, nil_of h.beta c]; rfl)
    refine (WritesAt.put _ (mult f * f.input * f.output + mult f * f.output) _ _ (by omega) (len_of h.gamma c)).bind ?_
    exact WritesAt.put _ (mult f * f.input * f.output + mult f * f.output + f.dim) _ _ (by
      have := len_of h.gamma c
      omega) (len_of h.beta c)
  · exact WritesAt.nil 0

theorem getFcl_reads (f g : Fcl α) (hf : f.Ok) (hg : g.Ok) (hs : SameFcl f g) :
    ReadsAt 0 (fun s v => getFcl g s v) (flatFcl f) (if f.only then g else { g with arr := f.arr }) := by
  unfold getFcl flatFcl
  rw [hs.only]
  by_cases ho : g.only = true
  · simp only [if_pos ho]
    exact ReadsAt.pure 0 g
  · simp only [if_neg ho]
    have hw : f.arr.w.length = g.input * g.output := by rw [hf.w, hs.input, hs.output]
    have hnw := hf.nw
    have hb : f.arr.b.length = g.output := by rw [hf.b, hs.output]
    have hnb := hf.nb
    have hga := hf.gamma
    have hbe := hf.beta
    rw [hs.noisy, hs.input, hs.output] at hnw
    rw [hs.noisy, hs.output] at hnb
    rw [hs.norm, hs.dim] at hga hbe
    refine (ReadsAt.get 0 0 _ f.arr.w _ rfl hw hg.w).bind ?_
    refine (ReadsAt.ite (a := f.arr.nw) (x := f.arr.nw) g.noisy
      (fun c => ReadsAt.get _ (g.input * g.output) _ _ _ (by omega) (len_of hnw c) (len_of hg.nw c))
      (fun c => by rw [nil_of hnw c, nil_of hg.nw c]; exact ReadsAt.pure _ _)).bind ?_
    have hm1 : mult g * g.input * g.output = f.arr.w.length + f.arr.nw.length := by
      rw [hw, hnw]
      unfold mult
      cases g.noisy <;> (simp; try ring)
    have hm2 : mult g * g.output = f.arr.b.length + f.arr.nb.length := by
      rw [hb, hnb]
      unfold mult
      cases g.noisy <;> (simp; try ring)
    refine (ReadsAt.get _ (mult g * g.input * g.output) _ f.arr.b _ (by omega) hb hg.b).bind ?_
    refine (ReadsAt.ite (a := f.arr.nb) (x := f.arr.nb) g.noisy
      (fun c => ReadsAt.get _ (mult g * g.input * g.output + g.output) _ _ _ (by omega) (len_of hnb c) (len_of hg.nb c))
      (fun c => by rw [nil_of hnb c, nil_of hg.nb c]; exact ReadsAt.pure _ _)).bind ?_
    refine ReadsAt.ite g.norm (fun c => ?_) (fun c => ?_)
    · refine (ReadsAt.get _ (mult g * g.input * g.output + mult g * g.output) _ f.arr.gamma _ (by omega) (len_of hga c)
        (len_of hg.gamma c)).bind ?_
      have h1 := (ReadsAt.get (0 + f.arr.w.length + f.arr.nw.length + f.arr.b.length + f.arr.nb.length + f.arr.gamma.length)
        (mult g * g.input * g.output + mult g * g.output + g.dim) _ f.arr.beta g.arr.beta (by
          have := len_of hga c
          omega) (len_of hbe c) (len_of hg.beta c)).bind
        (q := fun beta _ _ => some { g with arr := ⟨f.arr.w, f.arr.nw, f.arr.b, f.arr.nb, f.arr.gamma, beta⟩ }) (ReadsAt.pure _ _)
      rw [List.append_nil] at h1
      exact h1
    · rw [nil_of hga c, nil_of hbe c, nil_of hg.gamma c, nil_of hg.beta c]
      have : f.arr = ⟨f.arr.w, f.arr.nw, f.arr.b, f.arr.nb, [], []⟩ :=
        FArr.ext rfl rfl rfl rfl (nil_of hga c) (nil_of hbe c)
      rw [this]
      exact ReadsAt.pure _ _

end LLab.Flat
