import Verif.Net.ChainProps
import Verif.Layers.LRN

/-!
A fully connected layer with `LOCAL_RESPONSE_NORMALIZATION`
(`/repo/src/model.c` 1253-1275, 1404-1461, 3753-3892). Property C89.
-/

namespace LLab.NormFc

open Finset LLab.Chain

/-! ### Model -/

/-- `BETA_NORMALIZATION`, `ALPHA_NORMALIZATION`, `K_NORMALIZATION` (`/repo/src/llab.h` 47-50);
`N_NORMALIZATION` is 5, so `(int)(n_constant/2)` is 2. -/
noncomputable def beta : ℝ := 3 / 4
noncomputable def alpha : ℝ := 1 / 10000
noncomputable def kappa : ℝ := 2

/-- A layer with its `post_normalization` array. -/
structure NFcl where
  f : Fcl
  norm : Arr ℝ

/-- One layer forward (`/repo/src/model.c` 1404-1461): activation, normalisation, dropout. The
dropout array is made from the result of the activation: `get_dropout_array` reads
`post_normalization` only for `LAYER_NORMALIZATION` (1452). -/
noncomputable def ffLayer (x : Arr ℝ) (draw : Nat → Bool) (l : NFcl) : Option NFcl :=
  (FC.ff x l.f.pre l.f.weights (some l.f.biases) l.f.input l.f.output).bind fun pre =>
    (actArray l.f.act pre l.f.post l.f.output).bind fun post =>
      (LRN.ffAll l.f.active (if l.f.act = .none then pre else post) l.f.output 2 beta alpha kappa l.norm).bind fun norm =>
        if l.f.drop = .off then some ⟨{ l.f with pre := pre, post := post }, norm⟩
        else (setMask draw l.f.mask l.f.output).bind fun mask =>
          if l.f.drop = .train then
            (Vec.zip1D (fun a b => a * b) mask (if l.f.act = .none then pre else post) l.f.dropTemp l.f.output).bind fun dt =>
              some ⟨{ l.f with pre := pre, post := post, mask := mask, dropTemp := dt }, norm⟩
          else some ⟨{ l.f with pre := pre, post := post, mask := mask }, norm⟩

/-- The array the next layer reads when it is not in `DROPOUT_TEST`
(`/repo/src/model.c` 1253-1330, 3885-3990). -/
def NFcl.used (l : NFcl) : Arr ℝ := if l.f.drop = .off then l.norm else l.f.dropTemp

/-- The error before the activation (`/repo/src/model.c` 3755-3892). The normalisation adds its
result to `temp3`, which is copied to `temp` and cleared. With dropout (3757-3822) the
activation then works on `temp`; without (3824-3888) it works on `error`. -/
noncomputable def back (l : NFcl) (e : Arr ℝ) : Option (Arr ℝ × Arr ℝ) :=
  if l.f.drop = .off then
    (LRN.bpAll l.f.active l.f.result e l.f.output 2 beta alpha kappa l.f.temp3).bind fun t3 =>
      (Vec.map1D (fun v => v) t3 l.f.temp l.f.output).bind fun t =>
        (Vec.map1D (fun _ => 0) t3 t3 l.f.output).bind fun t3 => actBack l.f e t t3
  else (Vec.zip1D (fun a b => a * b) e l.f.mask l.f.temp l.f.output).bind fun t =>
    (LRN.bpAll l.f.active l.f.result t l.f.output 2 beta alpha kappa l.f.temp3).bind fun t3 =>
      (Vec.map1D (fun v => v) t3 t l.f.output).bind fun t =>
        (Vec.map1D (fun _ => 0) t3 t3 l.f.output).bind fun t3 =>
          if l.f.act = .softmax then
            (Softmax.derivativeSoftmaxMasked l.f.active t3 l.f.post t l.f.output).bind fun t3 =>
              (Vec.map1D (fun v => v) t3 t l.f.output).bind fun t => some (t, t3)
          else actBack l.f t t t3

/-- One layer backward (`/repo/src/model.c` 3753-3999). -/
noncomputable def bpLayer (x e : Arr ℝ) (l : NFcl) : Option NFcl :=
  (back l e).bind fun t =>
    (FC.bp x t.1 l.f.weights (l.f.mode ≠ .freezeBiases) (l.f.mode = .freeze) l.f.input l.f.output
      (l.f.dWeights, l.f.error2, l.f.dBiases)).bind fun s =>
        some { l with f := { l.f with temp := (if l.f.drop = .off ∧ l.f.act = .none then l.f.temp else t.1), temp3 := t.2,
                                      dWeights := s.1, error2 := s.2.1, dBiases := s.2.2 } }

/-! ### Specification -/

/-- The layer as a function: `W x + b`, the activation, and the normalisation over the entry and
its two neighbours on each side. -/
noncomputable def normFn (u : Chain.Unit) (x : Nat → ℝ) (k : Nat) : ℝ :=
  LRN.value (fun _ => 1) u.output 2 beta alpha kappa (actFn u.act u.output (u.z x)) k

/-! ### Proofs -/

theorem InWindow_ones (used : Nat → Int) (n h ac c : Nat) (hu : ∀ k, k < n → used k ≠ 0) (hac : ac < n) (hc : c < n) :
    LRN.InWindow used h ac c ↔ LRN.InWindow (fun _ => 1) h ac c := by
  have hcount : ∀ a b, b ≤ n → LRN.count used a b = LRN.count (fun _ => 1) a b := by
    intro a b hb
    unfold LRN.count
    congr 1
    ext d
    simp only [Finset.mem_filter, Finset.mem_Ico]
    constructor
    · rintro ⟨h1, -⟩
      exact ⟨h1, by decide⟩
    · rintro ⟨h1, -⟩
      exact ⟨h1, hu d (by omega)⟩
  unfold LRN.InWindow
  rw [hcount c ac (by omega), hcount (ac + 1) (c + 1) (by omega)]
  simp [hu c hc]

theorem scaleOf_ones (used : Nat → Int) (n h : Nat) (a k : ℝ) (x y : Nat → ℝ) (ac : Nat) (hu : ∀ k, k < n → used k ≠ 0)
    (hxy : ∀ k, k < n → x k = y k) (hac : ac < n) :
    LRN.scaleOf used n h a k x ac = LRN.scaleOf (fun _ => 1) n h a k y ac := by
  unfold LRN.scaleOf
  congr 2
  refine Finset.sum_congr ?_ ?_
  · ext c
    simp only [Finset.mem_filter, Finset.mem_range]
    constructor
    · rintro ⟨h1, h2⟩
      exact ⟨h1, (InWindow_ones used n h ac c hu hac h1).1 h2⟩
    · rintro ⟨h1, h2⟩
      exact ⟨h1, (InWindow_ones used n h ac c hu hac h1).2 h2⟩
  · intro c hc
    rw [hxy c (Finset.mem_range.1 (Finset.mem_filter.1 hc).1)]

theorem value_ones (used : Nat → Int) (n h : Nat) (b a k : ℝ) (x y : Nat → ℝ) (ac : Nat) (hu : ∀ k, k < n → used k ≠ 0)
    (hxy : ∀ k, k < n → x k = y k) (hac : ac < n) :
    LRN.value used n h b a k x ac = LRN.value (fun _ => 1) n h b a k y ac := by
  unfold LRN.value
  rw [scaleOf_ones used n h a k x y ac hu hxy hac, hxy ac hac]

/-- The normalised layer forward is the plain layer forward plus the normalised array. -/
theorem ffLayer_run (x : Arr ℝ) (draw : Nat → Bool) (l : NFcl) (hr : l.f.Ready) (ht : l.f.drop ≠ .test) (hn : l.f.output ≤ l.norm.len)
    (hx : l.f.input ≤ x.len) :
    ∃ f' norm, ffLayer x draw l = some ⟨f', norm⟩ ∧ Chain.ffLayer x draw l.f = some f' ∧ norm.len = l.norm.len ∧
      (∀ k, k < l.f.output → norm.get k = normFn (l.f.unit draw) x.get k) := by
  obtain ⟨pre, epre, lpre, vpre⟩ : ∃ pre, FC.ff x l.f.pre l.f.weights (some l.f.biases) l.f.input l.f.output = some pre ∧
      l.f.output ≤ pre.len ∧ ∀ k, k < l.f.output → pre.get k = (l.f.unit draw).z x.get k := by
    refine ⟨_, FC.C23_feed_forward x l.f.pre l.f.weights (some l.f.biases) l.f.input l.f.output hx hr.lw hr.lpre
      (fun b hb => by cases hb; exact hr.lb), hr.lpre, fun k hk => ?_⟩
    simp only [hk, if_true, hr.zpre k hk, zero_add]
    simp [FC.affine, Unit.z, Fcl.unit]
  obtain ⟨post, epost, lpost, vpost⟩ := actArray_run l.f.act pre l.f.post l.f.output lpre hr.lpost
  have vres : ∀ k, k < l.f.output → (if l.f.act = .none then pre else post).get k = actFn l.f.act l.f.output ((l.f.unit draw).z x.get) k := by
    intro k hk
    by_cases h : l.f.act = .none
    · rw [if_pos h, vpre k hk, h]; rfl
    · rw [if_neg h, vpost h k hk]
      exact actFn_congr _ vpre hk
  have lres : l.f.output ≤ (if l.f.act = .none then pre else post).len := by split_ifs <;> assumption
  obtain ⟨norm, en, ln, vn⟩ := LRN.C87_forward l.f.active (if l.f.act = .none then pre else post) l.f.output 2 beta alpha kappa l.norm
    hr.lact lres hn
  have hv : ∀ k, k < l.f.output → norm.get k = normFn (l.f.unit draw) x.get k := by
    intro k hk
    rw [vn k, if_pos ⟨hk, hr.hact k hk⟩]
    exact value_ones _ _ _ _ _ _ _ _ _ hr.hact vres hk
  unfold ffLayer Chain.ffLayer
  rw [epre, Option.bind_some, Option.bind_some, epost, Option.bind_some, Option.bind_some, en, Option.bind_some]
  by_cases hoff : l.f.drop = .off
  · rw [if_pos hoff, if_pos hoff]
    exact ⟨_, _, rfl, rfl, ln, hv⟩
  · have htr : l.f.drop = .train := by
      cases h : l.f.drop with
      | off => exact absurd h hoff
      | train => rfl
      | test => exact absurd h ht
    rw [if_neg hoff, if_neg hoff, setMask_eq draw l.f.mask l.f.output hr.lmask, Option.bind_some, Option.bind_some, if_pos htr, if_pos htr,
      Vec.zip1D_eq _ _ _ _ _ (by exact hr.lmask) lres hr.ldt, Option.bind_some, Option.bind_some]
    exact ⟨_, _, rfl, rfl, ln, hv⟩

/-- **C89, forward.** Without dropout the next layer receives the normalised results. -/
theorem C89_forward (x : Arr ℝ) (draw : Nat → Bool) (l : NFcl) (hr : l.f.Ready) (hoff : l.f.drop = .off) (hn : l.f.output ≤ l.norm.len)
    (hx : l.f.input ≤ x.len) :
    ∃ l', ffLayer x draw l = some l' ∧ ∀ k, k < l.f.output → l'.used.get k = normFn (l.f.unit draw) x.get k := by
  obtain ⟨f', norm, h1, h2, -, h4⟩ := ffLayer_run x draw l hr (by rw [hoff]; decide) hn hx
  refine ⟨_, h1, fun k hk => ?_⟩
  have : f'.drop = .off := by
    rw [(layer_run x x.get draw l.f f' hr (by rw [hoff]; decide) hx (fun _ _ => rfl) h2).2.1, hoff]
  rw [NFcl.used, if_pos this]
  exact h4 k hk

/-- Without dropout and soft-max, the normalised layer's backward pass gives exactly what the
layer without normalisation would give. -/
theorem bpLayer_off (x e : Arr ℝ) (draw : Nat → Bool) (l : NFcl) (f' : Fcl) (norm : Arr ℝ) (hr : l.f.Ready) (hoff : l.f.drop = .off)
    (hx : l.f.input ≤ x.len) (hs : l.f.act ≠ .softmax) (he : l.f.output ≤ e.len) (hf : Chain.ffLayer x draw l.f = some f') :
    ∃ l' h, bpLayer x e ⟨f', norm⟩ = some l' ∧ Chain.bpLayer x e f' = some h ∧ l'.f.dWeights = h.dWeights ∧ l'.f.dBiases = h.dBiases ∧
      l'.f.error2 = h.error2 := by
  obtain ⟨pre, post, mask, dt, ef, lpre, lpost, lmask, ldt, vpre, vpost, -, -⟩ := Chain.ffLayer_run x draw l.f hr (by rw [hoff]; decide) hx
  rw [hf] at ef
  cases ef
  have lres : l.f.output ≤ (if l.f.act = .none then pre else post).len := by split_ifs <;> assumption
  obtain ⟨t3, e3, l3, -⟩ := LRN.bpAll_run l.f.active (if l.f.act = .none then pre else post) e l.f.output 2 beta alpha kappa l.f.temp3
    hr.lact lres he hr.lt3
  have key : ∀ (o o' s s' : Arr ℝ), l.f.output ≤ o.len → l.f.output ≤ o'.len → l.f.output ≤ s.len → l.f.output ≤ s'.len →
      ∃ r r' t t', actBack { l.f with pre := pre, post := post, mask := mask, dropTemp := dt } e o s = some (r, t) ∧
        actBack { l.f with pre := pre, post := post, mask := mask, dropTemp := dt } e o' s' = some (r', t') ∧
        l.f.output ≤ r.len ∧ l.f.output ≤ r'.len ∧ ∀ k, k < l.f.output → r.get k = r'.get k := by
    intro o o' s s' ho ho' h1 h1'
    obtain ⟨r, t, er, lr, vr⟩ := actBack_run { l.f with pre := pre, post := post, mask := mask, dropTemp := dt } ((l.f.unit draw).z x.get) e o s
      lpre lpost hr.lact he ho h1 hr.hact (fun h => absurd h hs) vpre vpost
    obtain ⟨r', t', er', lr', vr'⟩ := actBack_run { l.f with pre := pre, post := post, mask := mask, dropTemp := dt } ((l.f.unit draw).z x.get) e o' s'
      lpre lpost hr.lact he ho' h1' hr.hact (fun h => absurd h hs) vpre vpost
    exact ⟨r, r', t, t', er, er', lr, lr', fun k hk => (vr k hk).trans (vr' k hk).symm⟩
  have hres : ({ l.f with pre := pre, post := post, mask := mask, dropTemp := dt } : Fcl).result = if l.f.act = .none then pre else post := rfl
  unfold bpLayer Chain.bpLayer back Chain.back
  dsimp only
  rw [hres, if_pos hoff, if_pos hoff, e3, Option.bind_some, Vec.C64_map _ _ _ _ (by rw [l3]; exact hr.lt3) hr.lt, Option.bind_some,
    Vec.C64_map _ _ _ _ (by rw [l3]; exact hr.lt3) (by rw [l3]; exact hr.lt3), Option.bind_some]
  obtain ⟨r, r', t, t', er, er', lr, lr', v⟩ := key
    ⟨l.f.temp.len, fun k => if k < l.f.output then t3.get k else l.f.temp.get k⟩ l.f.temp
    ⟨t3.len, fun k => if k < l.f.output then 0 else t3.get k⟩ l.f.temp3 hr.lt hr.lt (by rw [l3]; exact hr.lt3) hr.lt3
  rw [er, er', Option.bind_some, Option.bind_some]
  dsimp only
  have hbp : FC.bp x r l.f.weights (decide (l.f.mode ≠ .freezeBiases)) (decide (l.f.mode = .freeze)) l.f.input l.f.output
      (l.f.dWeights, l.f.error2, l.f.dBiases) = FC.bp x r' l.f.weights (decide (l.f.mode ≠ .freezeBiases)) (decide (l.f.mode = .freeze))
      l.f.input l.f.output (l.f.dWeights, l.f.error2, l.f.dBiases) := by
    rw [FC.bp_run x r l.f.weights _ _ l.f.input l.f.output l.f.dWeights l.f.error2 l.f.dBiases hx lr hr.lw hr.ldw hr.le2 (fun _ => hr.ldb),
      FC.bp_run x r' l.f.weights _ _ l.f.input l.f.output l.f.dWeights l.f.error2 l.f.dBiases hx lr' hr.lw hr.ldw hr.le2 (fun _ => hr.ldb)]
    have h1 : (fun q => l.f.dWeights.get q + if (decide (l.f.mode ≠ .freezeBiases) || !decide (l.f.mode = .freeze)) = true then
          (if q < l.f.output * l.f.input then r.get (q / l.f.input) * x.get (q % l.f.input) else 0) else 0) =
        fun q => l.f.dWeights.get q + if (decide (l.f.mode ≠ .freezeBiases) || !decide (l.f.mode = .freeze)) = true then
          (if q < l.f.output * l.f.input then r'.get (q / l.f.input) * x.get (q % l.f.input) else 0) else 0 := by
      funext q
      by_cases hq : q < l.f.output * l.f.input
      · have hn : 0 < l.f.input := by
          rcases Nat.eq_zero_or_pos l.f.input with h | h
          · rw [h, Nat.mul_zero] at hq; omega
          · exact h
        rw [v _ ((Nat.div_lt_iff_lt_mul hn).2 hq)]
      · rw [if_neg hq, if_neg hq]
    have h2 : (fun p => l.f.error2.get p + if p < l.f.input then ∑ j ∈ range l.f.output, r.get j * l.f.weights.get (j * l.f.input + p) else 0) =
        fun p => l.f.error2.get p + if p < l.f.input then ∑ j ∈ range l.f.output, r'.get j * l.f.weights.get (j * l.f.input + p) else 0 := by
      funext p
      rw [Finset.sum_congr rfl fun j hj => by rw [v j (Finset.mem_range.1 hj)]]
    have h3 : (fun k => l.f.dBiases.get k + if (decide (l.f.mode ≠ .freezeBiases)) = true then (if k < l.f.output then r.get k else 0) else 0) =
        fun k => l.f.dBiases.get k + if (decide (l.f.mode ≠ .freezeBiases)) = true then (if k < l.f.output then r'.get k else 0) else 0 := by
      funext k
      by_cases hk : k < l.f.output
      · rw [v k hk]
      · rw [if_neg hk, if_neg hk]
    rw [h1, h2, h3]
  rw [hbp, FC.bp_run x r' l.f.weights _ _ l.f.input l.f.output l.f.dWeights l.f.error2 l.f.dBiases hx lr' hr.lw hr.ldw hr.le2 (fun _ => hr.ldb),
    Option.bind_some, Option.bind_some]
  exact ⟨_, _, rfl, rfl, rfl, rfl, rfl⟩

/-- **C89, what the backward pass computes without dropout.** For every activation but the
soft-max, forward and backward are defined, and what the backward pass adds to the accumulators
and returns is the gradient of the layer *without* normalisation. Missing: the gradient of the
layer as it was computed forward, which is a different one, see `C89_no_dropout_refuted`. -/
theorem C89_gradient_partial (x e : Arr ℝ) (draw : Nat → Bool) (l : NFcl) (hr : l.f.Ready) (hoff : l.f.drop = .off)
    (hn : l.f.output ≤ l.norm.len) (hx : l.f.input ≤ x.len) (hs : l.f.act ≠ .softmax) (he : l.f.output ≤ e.len)
    (hk : NoKink [l.f.unit draw] x.get) :
    ∃ l' l'', ffLayer x draw l = some l' ∧ bpLayer x e l' = some l'' ∧
      IsGradient [l.f.unit draw] l.f.input x.get (fun us x => ∑ o ∈ range l.f.output, e.get o * net us x o) [l.f] [l''.f] l''.f.error2 := by
  obtain ⟨f', norm, h1, h2, -, -⟩ := ffLayer_run x draw l hr (by rw [hoff]; decide) hn hx
  obtain ⟨l'', h, h3, h4, h5, h6, h7⟩ := bpLayer_off x e draw l f' norm hr hoff hx hs he h2
  obtain ⟨gs, g1, -, -, -, g5⟩ := C84_model_gradient (fun _ => draw) l.f.input x [l.f] (by
      intro f hf
      obtain rfl : f = l.f := by simpa using hf
      exact ⟨hr, by rw [hoff]; decide⟩) ⟨rfl, fun h => absurd h hs, trivial⟩ hx hk
  have hgs : gs = [f'] := by
    simp only [ffModel] at g1
    rw [if_neg (by rintro ⟨h, -⟩; exact hs h), if_neg (by simp), h2] at g1
    simpa [ffFrom, eq_comm] using g1
  obtain ⟨hs', err, b1, b2⟩ := g5 e (fun o v => e.get o * v) he (fun o _ => by simpa using (hasDerivAt_id _).const_mul (e.get o))
  rw [hgs] at b1
  have hb : hs' = [h] ∧ err = h.error2 := by
    simp only [bpModel, Option.bind_some, h4, Option.some.injEq, Prod.mk.injEq] at b1
    exact ⟨b1.1.symm, b1.2.symm⟩
  refine ⟨_, _, h1, h3, ?_⟩
  rw [hb.1, hb.2] at b2
  obtain ⟨-, c1, c2⟩ := b2
  refine ⟨rfl, fun i hi => by rw [h7]; exact c1 i hi, ?_⟩
  intro k f g u q1 q2 q3
  cases k with
  | zero =>
    obtain rfl : l''.f = g := by simpa using q2
    obtain ⟨d1, d2, d3⟩ := c2 0 f h u q1 rfl q3
    rw [h5, h6]
    exact ⟨d1, d2, d3⟩
  | succ k => simp at q1

theorem jac_lt_one : LRN.jac (fun _ => 1) 1 2 beta alpha kappa (fun _ => 1) 0 0 < 1 := by
  have hS : LRN.scaleOf (fun _ => 1) 1 2 alpha kappa (fun _ => 1) 0 = 2 + 1 / 10000 := by
    have : (range 1).filter (fun c => LRN.InWindow (fun _ => 1) 2 0 c) = {0} := by decide
    unfold LRN.scaleOf
    rw [this]
    simp [alpha, kappa]
  unfold LRN.jac
  rw [hS, if_pos rfl]
  have h1 : (1 : ℝ) < (2 + 1 / 10000 : ℝ) ^ beta := Real.one_lt_rpow (by norm_num) (by norm_num [beta])
  have h2 : 0 < 2 * beta * alpha * 1 * 1 / (2 + 1 / 10000 : ℝ) ^ (beta + 1) := by
    refine div_pos (by norm_num [beta, alpha]) (Real.rpow_pos_of_pos (by norm_num) _)
  have h3 : 1 / (2 + 1 / 10000 : ℝ) ^ beta < 1 := by
    rw [div_lt_one (by linarith)]
    exact h1
  linarith

/-- **C89 fails without dropout.** One linear unit with weight 1 on the input 1, error 1: the
layer's output, as a function of the weight, has a derivative different from what the backward
pass adds to the weight's accumulator. -/
theorem C89_no_dropout_refuted : ∃ l' l'' d, ffLayer (Arr.ofList [1]) (fun _ => false) ⟨demoOne, Arr.ofList [0]⟩ = some l' ∧
    bpLayer (Arr.ofList [1]) (Arr.ofList [1]) l' = some l'' ∧
    HasDerivAt (fun v => normFn { demoOne.unit (fun _ => false) with w := Function.update demoOne.weights.get 0 v } (Arr.ofList [1]).get 0) d
      (demoOne.weights.get 0) ∧
    l''.f.dWeights.get 0 - demoOne.dWeights.get 0 ≠ d := by
  obtain ⟨l', l'', h1, h2, h3⟩ := C89_gradient_partial (Arr.ofList [1]) (Arr.ofList [1]) (fun _ => false) ⟨demoOne, Arr.ofList [0]⟩ demoOne_ready
    rfl (by simp [demoOne, Arr.ofList]) (by simp [demoOne, Arr.ofList]) (by simp [demoOne]) (by simp [demoOne, Arr.ofList])
    ⟨(fun h => by rcases h with h | h | h <;> cases h), trivial⟩
  have hw : demoOne.weights.get 0 = 1 := by simp [demoOne, Arr.ofList]
  have hd := LRN.value_hasDerivAt (fun _ => 1) 1 2 beta alpha kappa (fun _ => 1) 0 0 (by decide) (by decide) (by norm_num [kappa]) (by norm_num [alpha])
  rw [if_pos (LRN.InWindow_self _ _ _ (by decide))] at hd
  refine ⟨l', l'', LRN.jac (fun _ => 1) 1 2 beta alpha kappa (fun _ => 1) 0 0, h1, h2, ?_, ?_⟩
  · rw [hw]
    have hfun : (fun v => normFn { demoOne.unit (fun _ => false) with w := Function.update demoOne.weights.get 0 v } (Arr.ofList [1]).get 0) =
        fun v => LRN.value (fun _ => 1) 1 2 beta alpha kappa (Function.update (fun _ => 1) 0 v) 0 := by
      funext v
      refine value_ones _ 1 2 beta alpha kappa _ _ 0 (fun _ _ => by decide) (fun k hk => ?_) (by decide)
      obtain rfl : k = 0 := by omega
      simp [actFn, Unit.z, Fcl.unit, demoOne, Arr.ofList]
    rw [hfun]
    exact hd
  · have h4 := (h3.2.2 0 demoOne l''.f _ rfl rfl rfl).1 0 (by simp [demoOne])
    have h5 : (fun v => ∑ o ∈ range demoOne.output, (Arr.ofList [(1 : ℝ)]).get o * net ([demoOne.unit fun _ => false].set 0
        { demoOne.unit (fun _ => false) with w := Function.update (demoOne.unit fun _ => false).w 0 v }) (Arr.ofList [(1 : ℝ)]).get o) = fun v => v := by
      funext v
      simp [net, Unit.fn, actFn, Unit.z, Fcl.unit, demoOne, Arr.ofList]
    have h6 := h4
    dsimp only at h6
    rw [h5] at h6
    rw [h6.unique (hasDerivAt_id' _)]
    exact jac_lt_one.ne'

/-- The same unit with dropout, for a weight `v`; its mask keeps the output. -/
noncomputable def demoDrop (v : ℝ) : Fcl := { demoOne with drop := .train, weights := Arr.ofList [v] }

theorem demoDrop_ready (v : ℝ) : (demoDrop v).Ready := by
  constructor <;> simp [demoDrop, demoOne, Arr.ofList]

/-- **C89 fails with dropout.** The same unit with dropout that keeps the output: the array
handed to the next layer is not normalised, it is `v` for the weight `v`, with derivative 1; but
the backward pass goes through the normalisation and adds another number to the accumulator. -/
theorem C89_dropout_refuted :
    (∀ v, ∃ l', ffLayer (Arr.ofList [1]) (fun _ => false) ⟨demoDrop v, Arr.ofList [0]⟩ = some l' ∧ l'.used.get 0 = v) ∧
    ∃ l' l'', ffLayer (Arr.ofList [1]) (fun _ => false) ⟨demoDrop 1, Arr.ofList [0]⟩ = some l' ∧
      bpLayer (Arr.ofList [1]) (Arr.ofList [1]) l' = some l'' ∧ l''.f.dWeights.get 0 - (demoDrop 1).dWeights.get 0 ≠ 1 := by
  refine ⟨fun v => ?_, ?_⟩
  · obtain ⟨f', norm, h1, h2, -, -⟩ := ffLayer_run (Arr.ofList [1]) (fun _ => false) ⟨demoDrop v, Arr.ofList [0]⟩ (demoDrop_ready v)
      (by simp [demoDrop]) (by simp [demoDrop, demoOne, Arr.ofList]) (by simp [demoDrop, demoOne, Arr.ofList])
    obtain ⟨-, hd, -, hu, -⟩ := layer_run (Arr.ofList [1]) (Arr.ofList [1]).get (fun _ => false) (demoDrop v) f' (demoDrop_ready v)
      (by simp [demoDrop]) (by simp [demoDrop, demoOne, Arr.ofList]) (fun _ _ => rfl) h2
    have hd' : f'.drop ≠ .off := by rw [hd]; simp [demoDrop]
    refine ⟨_, h1, ?_⟩
    have h3 := hu 0 (by simp [demoDrop, demoOne])
    rw [NFcl.used, if_neg hd']
    rw [Fcl.used, if_neg hd'] at h3
    rw [h3]
    simp [Unit.fn, actFn, Unit.z, Fcl.unit, demoDrop, demoOne, Arr.ofList]
  · obtain ⟨f', norm, h1, h2, -, -⟩ := ffLayer_run (Arr.ofList [1]) (fun _ => false) ⟨demoDrop 1, Arr.ofList [0]⟩ (demoDrop_ready 1)
      (by simp [demoDrop]) (by simp [demoDrop, demoOne, Arr.ofList]) (by simp [demoDrop, demoOne, Arr.ofList])
    obtain ⟨pre, post, mask, dt, ef, lpre, lpost, lmask, ldt, vpre, vpost, vm, -⟩ := Chain.ffLayer_run (Arr.ofList [1]) (fun _ => false) (demoDrop 1)
      (demoDrop_ready 1) (by simp [demoDrop]) (by simp [demoDrop, demoOne, Arr.ofList])
    dsimp only at h2
    rw [h2] at ef
    cases ef
    have lpre' : 1 ≤ pre.len := lpre
    have lmask' : 1 ≤ mask.len := lmask
    have vpre' : pre.get 0 = 1 := by
      rw [vpre 0 (by simp [demoDrop, demoOne])]
      simp [Unit.z, Fcl.unit, demoDrop, demoOne, Arr.ofList]
    have vm' : mask.get 0 = 1 := by
      rw [vm rfl 0 (by simp [demoDrop, demoOne])]
      simp [Fcl.unit, demoDrop, demoOne, Arr.ofList]
    obtain ⟨t3, e3, l3, v3⟩ := LRN.bpAll_run (Arr.ofList [1]) pre
      ⟨1, fun k => if k < 1 then (Arr.ofList [(1 : ℝ)]).get k * mask.get k else (Arr.ofList [(0 : ℝ)]).get k⟩ 1 2 beta alpha kappa (Arr.ofList [0])
      (by simp [Arr.ofList]) lpre' (by simp) (by simp [Arr.ofList])
    have l3' : t3.len = 1 := by rw [l3]; simp [Arr.ofList]
    have v3' : t3.get 0 = LRN.jac (fun _ => 1) 1 2 beta alpha kappa (fun _ => 1) 0 0 := by
      rw [v3 0 (by omega)]
      have hu : ∀ k, k < 1 → (Arr.ofList [(1 : Int)]).get k ≠ 0 := by
        intro k hk
        obtain rfl : k = 0 := by omega
        decide
      have hj : LRN.jac (Arr.ofList [(1 : Int)]).get 1 2 beta alpha kappa pre.get 0 0 = LRN.jac (fun _ => 1) 1 2 beta alpha kappa (fun _ => 1) 0 0 := by
        unfold LRN.jac
        rw [scaleOf_ones _ 1 2 alpha kappa pre.get (fun _ => 1) 0 hu (fun k hk => by
          obtain rfl : k = 0 := by omega
          exact vpre') (by omega), vpre']
      have hw := LRN.InWindow_self (Arr.ofList [(1 : Int)]).get 2 0 (hu 0 (by omega))
      rw [Finset.sum_range_one, if_pos ⟨hu 0 (by omega), hw⟩, hj]
      simp [Arr.ofList, vm']
    have hb : ∃ t s, back ⟨{ demoDrop 1 with pre := pre, post := post, mask := mask, dropTemp := dt }, norm⟩ (Arr.ofList [1]) = some (t, s) ∧
        1 ≤ t.len ∧ t.get 0 = LRN.jac (fun _ => 1) 1 2 beta alpha kappa (fun _ => 1) 0 0 := by
      have hres : ({ demoDrop 1 with pre := pre, post := post, mask := mask, dropTemp := dt } : Fcl).result = pre := rfl
      unfold back
      dsimp only
      rw [hres, if_neg (by simp [demoDrop])]
      change ∃ t s, ((Vec.zip1D (fun a b => a * b) (Arr.ofList [1]) mask (Arr.ofList [0]) 1).bind fun t =>
        (LRN.bpAll (Arr.ofList [1]) pre t 1 2 beta alpha kappa (Arr.ofList [0])).bind fun t3 =>
          (Vec.map1D (fun v => v) t3 t 1).bind fun t => (Vec.map1D (fun _ => 0) t3 t3 1).bind fun t3 => some (t, t3)) = some (t, s) ∧ _
      rw [Vec.zip1D_eq _ _ _ _ _ (by simp [Arr.ofList]) lmask' (by simp [Arr.ofList]), Option.bind_some]
      have hl : (Arr.ofList [(0 : ℝ)]).len = 1 := by simp [Arr.ofList]
      rw [hl, e3, Option.bind_some, Vec.C64_map _ _ _ _ (by omega) (by simp), Option.bind_some, Vec.C64_map _ _ _ _ (by omega) (by omega),
        Option.bind_some]
      exact ⟨_, _, rfl, le_rfl, v3'⟩
    obtain ⟨t, s, eb, lt, vt⟩ := hb
    have hd1 : decide ((demoDrop 1).mode ≠ .freezeBiases) = true := by simp [demoDrop, demoOne]
    have hd2 : decide ((demoDrop 1).mode = .freeze) = false := by simp [demoDrop, demoOne]
    have hbp := FC.bp_run (Arr.ofList [1]) t (demoDrop 1).weights (decide ((demoDrop 1).mode ≠ .freezeBiases)) (decide ((demoDrop 1).mode = .freeze))
      (demoDrop 1).input (demoDrop 1).output (demoDrop 1).dWeights (demoDrop 1).error2 (demoDrop 1).dBiases
      (by simp [demoDrop, demoOne, Arr.ofList]) lt (by simp [demoDrop, demoOne, Arr.ofList]) (by simp [demoDrop, demoOne, Arr.ofList])
      (by simp [demoDrop, demoOne, Arr.ofList]) (by simp [demoDrop, demoOne, Arr.ofList])
    have ho : (demoDrop 1).output = 1 := rfl
    have hi : (demoDrop 1).input = 1 := rfl
    have hfin : ∃ l'', bpLayer (Arr.ofList [1]) (Arr.ofList [1])
        ⟨{ demoDrop 1 with pre := pre, post := post, mask := mask, dropTemp := dt }, norm⟩ = some l'' ∧
        l''.f.dWeights.get 0 - (demoDrop 1).dWeights.get 0 ≠ 1 := by
      unfold bpLayer
      rw [eb, Option.bind_some]
      dsimp only
      rw [hbp, Option.bind_some]
      refine ⟨_, rfl, ?_⟩
      have : (demoDrop 1).dWeights.get 0 = 0 := by simp [demoDrop, demoOne, Arr.ofList]
      simp [this, vt, hd1, ho, hi, Arr.ofList, jac_lt_one.ne]
    obtain ⟨l'', q1, q2⟩ := hfin
    exact ⟨_, l'', h1, q1, q2⟩

end LLab.NormFc
