import Verif.Transf.Encoder

/-!
The forward pass of the encoder computes the function of the specification.
-/

namespace LLab.Transf

open Finset LLab.Attention LLab.Softmax

/-- A network after a forward pass on `x`. -/
def Sub.fed (s : Sub) (x : Nat → ℝ) : Sub := { s with out := ⟨s.dout, s.f s.θ x⟩, seen := some x }

theorem Sub.ff_eq (s : Sub) (x : Arr ℝ) (h : s.din ≤ x.len) : s.ff x = some (s.fed x.get) := by
  unfold Sub.ff
  rw [if_pos h]
  rfl

/-- The heads after a forward pass on `x`. -/
def Heads.fed (hd : Heads) (nh : Nat) (x : Nat → ℝ) : Heads :=
  ⟨fun h => if h < nh then (hd.q h).fed x else hd.q h, fun h => if h < nh then (hd.k h).fed x else hd.k h,
    fun h => if h < nh then (hd.v h).fed x else hd.v h⟩

theorem upd_ite {α : Type} (f : Nat → α) (g : Nat → α) (m : Nat) :
    Function.update (fun h => if h < m then g h else f h) m (g m) = fun h => if h < m + 1 then g h else f h := by
  funext h
  by_cases h1 : h = m
  · subst h1
    rw [Function.update_self, if_pos (by omega)]
  · rw [Function.update_of_ne h1]
    by_cases h2 : h < m
    · rw [if_pos h2, if_pos (by omega)]
    · rw [if_neg h2, if_neg (by omega)]

theorem headsFF_run (x : Arr ℝ) (n nh : Nat) (hd : Heads) (hn : n ≤ x.len)
    (hq : ∀ h, h < nh → (hd.q h).din = n) (hk : ∀ h, h < nh → (hd.k h).din = n)
    (hv : ∀ h, h < nh → (hd.v h).din = n) : loop nh (headFF x n) hd = some (hd.fed nh x.get) := by
  obtain ⟨s, e, rfl⟩ := loop_inv (n := nh) (s := hd) (f := headFF x n) (fun m s => s = hd.fed m x.get)
    (by simp [Heads.fed])
    (by
      rintro m hm s rfl
      have e1 : (hd.fed m x.get).q m = hd.q m := if_neg (by omega)
      have e2 : (hd.fed m x.get).k m = hd.k m := if_neg (by omega)
      have e3 : (hd.fed m x.get).v m = hd.v m := if_neg (by omega)
      refine ⟨_, ?_, rfl⟩
      unfold headFF
      rw [e1, e2, e3, hq m hm, hk m hm, hv m hm, if_neg (by simp), Sub.ff_eq _ _ (by rw [hq m hm]; exact hn),
        Sub.ff_eq _ _ (by rw [hk m hm]; exact hn), Sub.ff_eq _ _ (by rw [hv m hm]; exact hn)]
      simp only [Option.bind_eq_bind, Option.bind_some]
      unfold Heads.fed
      dsimp only
      rw [upd_ite hd.q (fun h => (hd.q h).fed x.get), upd_ite hd.k (fun h => (hd.k h).fed x.get),
        upd_ite hd.v (fun h => (hd.v h).fed x.get)])
  exact e

theorem normFF_run (nl2 : Nat) (l2 : Nat → L2) (i n : Nat) (x : Arr ℝ) (hi : i < nl2) (hx : n ≤ x.len)
    (ho : n ≤ (l2 i).out.len) :
    normFF nl2 l2 i n x = some (Function.update l2 i { l2 i with
      norm := Real.sqrt (∑ j ∈ range n, x.get j ^ 2),
      out := ⟨(l2 i).out.len, fun k => if k < n then scaled n (l2 i).g x.get k else (l2 i).out.get k⟩ }) := by
  unfold normFF
  rw [if_pos hi]
  have : L2Norm.ff n (l2 i).g x (l2 i).out = some (Real.sqrt (∑ j ∈ range n, x.get j ^ 2),
      ⟨(l2 i).out.len, fun k => if k < n then scaled n (l2 i).g x.get k else (l2 i).out.get k⟩) := by
    unfold L2Norm.ff
    refine (bind_some_of (L2Norm.squares_eq n x hx)).trans ?_
    refine (bind_some_of (loop_fill (scaled n (l2 i).g x.get) ?_)).trans rfl
    intro k hk b hb _
    rw [Arr.read_eq (by omega)]
    simp only [Option.bind_eq_bind, Option.bind_some]
    exact Arr.write_eq _ (by omega)
  exact (bind_some_of this).trans rfl

theorem scaled_congr {n : Nat} {g : ℝ} {x y : Nat → ℝ} (h : ∀ i, i < n → x i = y i) {i : Nat} (hi : i < n) :
    scaled n g x i = scaled n g y i := by
  unfold scaled
  rw [h i hi, Finset.sum_congr rfl fun j hj => by rw [h j (Finset.mem_range.1 hj)]]

theorem sq_congr {n : Nat} {x y : Nat → ℝ} (h : ∀ i, i < n → x i = y i) :
    ∑ j ∈ range n, x j ^ 2 = ∑ j ∈ range n, y j ^ 2 :=
  Finset.sum_congr rfl fun j hj => by rw [h j (Finset.mem_range.1 hj)]

theorem residual_run (flag : Bool) (s1 s2 : Nat) (x y out : Arr ℝ) (n : Nat) (hs : flag = true → s1 = s2)
    (hx : flag = true → n ≤ x.len) (hy : flag = true → n ≤ y.len) (ho : flag = true → n ≤ out.len) :
    ∃ r, residual flag s1 s2 x y out n = some r ∧ r.len = out.len ∧
      (flag = true → ∀ i, i < n → r.get i = x.get i + y.get i) := by
  cases flag with
  | false => exact ⟨out, rfl, rfl, fun h => by cases h⟩
  | true =>
    have : residual true s1 s2 x y out n = some ⟨out.len, fun k => if k < n then x.get k + y.get k else out.get k⟩ := by
      unfold residual
      dsimp only
      rw [if_neg (by simpa using hs rfl)]
      exact Vec.zip1D_eq _ _ _ _ _ (hx rfl) (hy rfl) (ho rfl)
    refine ⟨_, this, rfl, ?_⟩
    intro _ i hi
    dsimp only
    rw [if_pos hi]

/-- What is known about the encoder `t1` after the forward pass of `t` on `x`. -/
structure Fwd (t : Enc) (x : Arr ℝ) (n : Nat) (t1 : Enc) : Prop where
  wf : t1.WF n
  stat : ∃ (lin m : Sub) (l2 : Nat → L2) (score soft att r1 r2 : Arr ℝ),
    t1 = { t with hd := t.hd.fed t.nh x.get, lin := lin, m := m, l2 := l2, score := score, soft := soft,
                  att := att, r1 := r1, r2 := r2 }
  attv : ∀ u, u < t.dim * t.nh * t.vd → t1.att.get u = attS t t.params x.get u
  attl : t1.att.len = t.att.len
  softl : t1.soft.len = t.soft.len
  softv : ∀ h, h < t.nh → ∀ a, a < t.dim → ∀ u, u < t.dim → t1.soft.get (h * t.dim * t.dim + (a * t.dim + u)) =
    if u < vis t.masked t.dim a then smax (vis t.masked t.dim a)
      (score t.vd ((t.hd.q h).f (t.hd.q h).θ x.get) ((t.hd.k h).f (t.hd.k h).θ x.get) a) u else 0
  linv : t1.lin = t.lin.fed t1.att.get
  av : ∀ i, i < t.lin.dout → (if t.res1 then t1.r1 else t1.lin.out).get i = r1S t t.params x.get i
  al : t.lin.dout ≤ (if t.res1 then t1.r1 else t1.lin.out).len
  bv : ∀ i, i < t.lin.dout →
    (if t.norm1 then (t1.l2 0).out else if t.res1 then t1.r1 else t1.lin.out).get i = n1S t t.params x.get i
  bl : t.lin.dout ≤ (if t.norm1 then (t1.l2 0).out else if t.res1 then t1.r1 else t1.lin.out).len
  mv : t1.m = t.m.fed (if t.norm1 then (t1.l2 0).out else if t.res1 then t1.r1 else t1.lin.out).get
  cv : ∀ i, i < t.m.dout → (if t.res2 then t1.r2 else t1.m.out).get i = r2S t t.params x.get i
  cl : t.m.dout ≤ (if t.res2 then t1.r2 else t1.m.out).len
  outv : ∀ i, i < t.m.dout → t1.output.get i = encS t t.params x.get i
  outl : t.m.dout ≤ t1.output.len
  l2v : ∀ i, (t1.l2 i).dim = (t.l2 i).dim ∧ (t1.l2 i).g = (t.l2 i).g ∧ (t1.l2 i).dg = (t.l2 i).dg ∧
    (t1.l2 i).err = (t.l2 i).err
  norm1 : t.norm1 = true → (t1.l2 0).norm = Real.sqrt (∑ j ∈ range t.lin.dout, r1S t t.params x.get j ^ 2)
  norm2 : t.norm2 = true →
    (t1.l2 (t.nl2 - 1)).norm = Real.sqrt (∑ j ∈ range t.m.dout, r2S t t.params x.get j ^ 2)

theorem normIf_run (flag : Bool) (nl2 : Nat) (l2 : Nat → L2) (i n : Nat) (x : Arr ℝ) (hi : flag = true → i < nl2)
    (hx : flag = true → n ≤ x.len) (ho : flag = true → n ≤ (l2 i).out.len) :
    ∃ l2', normIf flag nl2 l2 i n x = some l2' ∧
      (∀ j, (l2' j).dim = (l2 j).dim ∧ (l2' j).g = (l2 j).g ∧ (l2' j).dg = (l2 j).dg ∧
        (l2' j).err = (l2 j).err ∧ (l2' j).out.len = (l2 j).out.len) ∧
      (∀ j, flag = false ∨ j ≠ i → l2' j = l2 j) ∧
      (flag = true → (l2' i).norm = Real.sqrt (∑ j ∈ range n, x.get j ^ 2) ∧
        ∀ k, k < n → (l2' i).out.get k = scaled n (l2 i).g x.get k) := by
  cases flag with
  | false =>
    exact ⟨l2, rfl, fun _ => ⟨rfl, rfl, rfl, rfl, rfl⟩, fun _ _ => rfl, fun h => by cases h⟩
  | true =>
    refine ⟨_, normFF_run nl2 l2 i n x (hi rfl) (hx rfl) (ho rfl), ?_, ?_, ?_⟩
    · intro j
      by_cases hj : j = i
      · subst hj
        rw [Function.update_self]
        exact ⟨rfl, rfl, rfl, rfl, rfl⟩
      · rw [Function.update_of_ne hj]
        exact ⟨rfl, rfl, rfl, rfl, rfl⟩
    · intro j hj
      rcases hj with hj | hj
      · cases hj
      · rw [Function.update_of_ne hj]
    · intro _
      rw [Function.update_self]
      refine ⟨rfl, fun k hk => ?_⟩
      dsimp only
      rw [if_pos hk]

theorem ff_run (t : Enc) (x : Arr ℝ) (n : Nat) (wf : t.WF n) (fr : t.Fresh) (hn : n ≤ x.len)
    (dlin : ∀ y, (∀ i, i < t.lin.din → y i = attS t t.params x.get i) →
      ∀ k, k < t.lin.dout → t.lin.f t.lin.θ y k = t.lin.f t.lin.θ (attS t t.params x.get) k)
    (dm : ∀ y, (∀ i, i < t.m.din → y i = n1S t t.params x.get i) →
      ∀ k, k < t.m.dout → t.m.f t.m.θ y k = t.m.f t.m.θ (n1S t t.params x.get) k) :
    ∃ t1, t.ff x n = some t1 ∧ Fwd t x n t1 := by
  have e1 := headsFF_run x n t.nh t.hd hn (fun h hh => (wf.hq h hh).1) (fun h hh => (wf.hk h hh).1)
    (fun h hh => (wf.hv h hh).1)
  have hqf : ∀ h, h < t.nh → (t.hd.fed t.nh x.get).q h = (t.hd.q h).fed x.get := fun h hh => if_pos hh
  have hkf : ∀ h, h < t.nh → (t.hd.fed t.nh x.get).k h = (t.hd.k h).fed x.get := fun h hh => if_pos hh
  have hvf : ∀ h, h < t.nh → (t.hd.fed t.nh x.get).v h = (t.hd.v h).fed x.get := fun h hh => if_pos hh
  have hdc : t.nh * t.dim * t.vd = t.dim * t.nh * t.vd := by ring
  obtain ⟨sc, so, at_, e2, l1, l2l, l3, hat, hsoft⟩ := multi_run t.masked t.dim t.nh t.vd
    (fun h => ((t.hd.fed t.nh x.get).q h).out) (fun h => ((t.hd.fed t.nh x.get).k h).out)
    (fun h => ((t.hd.fed t.nh x.get).v h).out) t.score t.soft t.att
    (fun h hh => by rw [hqf h hh]; exact (wf.hq h hh).2.ge)
    (fun h hh => by rw [hkf h hh]; exact (wf.hk h hh).2.ge)
    (fun h hh => by rw [hvf h hh, Nat.mul_comm]; exact (wf.hv h hh).2.ge)
    wf.hscore.ge wf.hsoft.ge (by rw [wf.hatt, wf.hin, hdc]) fr.soft
    (by rw [hdc, ← wf.hin]; exact fr.att)
  have hatS : ∀ u, u < t.dim * t.nh * t.vd → at_.get u = attS t t.params x.get u := by
    intro u hu
    rw [hat u hu]
    obtain ⟨i, h, c, hi, hh, hc, rfl⟩ := multi_cell hu
    unfold attS
    rw [multiAttn_at _ _ _ _ _ hh hc, multiAttn_at _ _ _ _ _ hh hc, hqf h hh, hkf h hh, hvf h hh]
    rfl
  have e3 : t.lin.ff at_ = some (t.lin.fed at_.get) := Sub.ff_eq _ _ (by rw [wf.hlin, l3, wf.hatt])
  have hlinv : ∀ i, i < t.lin.dout → (t.lin.fed at_.get).out.get i = t.lin.f t.params.lin (attS t t.params x.get) i := by
    intro i hi
    exact dlin _ (fun u hu => hatS u (by rw [← wf.hin, ← wf.hlin]; exact hu)) i hi
  obtain ⟨r1, e4, l4, hr1⟩ := residual_run t.res1 (t.lin.fed at_.get).dout n x (t.lin.fed at_.get).out t.r1
    (t.lin.fed at_.get).dout (fun h => (wf.hres1 h).1)
    (fun h => by have := (wf.hres1 h).1; exact le_trans this.le hn)
    (fun _ => le_refl _) (fun h => (wf.hres1 h).2.ge)
  have hav : ∀ i, i < t.lin.dout → (if t.res1 then r1 else (t.lin.fed at_.get).out).get i = r1S t t.params x.get i := by
    intro i hi
    unfold r1S
    by_cases hr : t.res1 = true
    · rw [if_pos hr, if_pos hr, hr1 hr i hi, hlinv i hi]
    · rw [if_neg hr, if_neg hr, hlinv i hi]
  have hal : t.lin.dout ≤ (if t.res1 then r1 else (t.lin.fed at_.get).out).len := by
    by_cases hr : t.res1 = true
    · rw [if_pos hr, l4]; exact (wf.hres1 hr).2.ge
    · rw [if_neg hr]; exact le_refl _
  obtain ⟨L, e5, hL, hLo, hLn⟩ := normIf_run t.norm1 t.nl2 t.l2 0
    (if t.res1 then (t.lin.fed at_.get).dout else (t.l2 0).dim) (if t.res1 then r1 else (t.lin.fed at_.get).out)
    (fun h => by rw [wf.hnl2, if_pos h]; omega)
    (fun h => by
      by_cases hr : t.res1 = true
      · simp only [if_pos hr] at hal ⊢; exact hal
      · simp only [if_neg hr] at hal ⊢; rw [(wf.hnorm1 h).1]; exact hal)
    (fun h => by
      rw [(wf.hnorm1 h).2.1]
      by_cases hr : t.res1 = true
      · rw [if_pos hr]; exact le_refl _
      · rw [if_neg hr, (wf.hnorm1 h).1])
  have hdim1 : t.norm1 = true → (if t.res1 then (t.lin.fed at_.get).dout else (t.l2 0).dim) = t.lin.dout := by
    intro h
    by_cases hr : t.res1 = true
    · rw [if_pos hr]; rfl
    · rw [if_neg hr, (wf.hnorm1 h).1]
  have hbv : ∀ i, i < t.lin.dout → (if t.norm1 then (L 0).out else if t.res1 then r1 else
      (t.lin.fed at_.get).out).get i = n1S t t.params x.get i := by
    intro i hi
    unfold n1S
    by_cases hN : t.norm1 = true
    · rw [if_pos hN, if_pos hN]
      have := (hLn hN).2 i (by rw [hdim1 hN]; exact hi)
      rw [this, hdim1 hN]
      exact scaled_congr hav hi
    · rw [if_neg hN, if_neg hN]
      exact hav i hi
  have hbl : t.lin.dout ≤ (if t.norm1 then (L 0).out else if t.res1 then r1 else (t.lin.fed at_.get).out).len := by
    by_cases hN : t.norm1 = true
    · rw [if_pos hN, (hL 0).2.2.2.2, (wf.hnorm1 hN).2.1]
    · rw [if_neg hN]; exact hal
  set b := (if t.norm1 then (L 0).out else if t.res1 then r1 else (t.lin.fed at_.get).out) with hb
  have e6 : t.m.ff b = some (t.m.fed b.get) := Sub.ff_eq _ _ (by rw [wf.hm]; exact hbl)
  have hmv : ∀ i, i < t.m.dout → (t.m.fed b.get).out.get i = t.m.f t.params.m (n1S t t.params x.get) i := by
    intro i hi
    exact dm _ (fun u hu => hbv u (by rw [← wf.hm]; exact hu)) i hi
  have hsz : t.res2 = true →
      (if t.res1 then (t.m.fed b.get).dout else if t.norm1 then (L 0).dim else (t.lin.fed at_.get).dout) = t.m.dout := by
    intro h
    by_cases hr : t.res1 = true
    · rw [if_pos hr]; rfl
    · rw [if_neg hr]
      by_cases hN : t.norm1 = true
      · rw [if_pos hN, (hL 0).1, (wf.hnorm1 hN).1, (wf.hres2 h).1]
      · rw [if_neg hN, (wf.hres2 h).1]; rfl
  obtain ⟨r2, e7, l7, hr2⟩ := residual_run t.res2 (t.lin.fed at_.get).dout (t.m.fed b.get).dout b
    (t.m.fed b.get).out t.r2
    (if t.res1 then (t.m.fed b.get).dout else if t.norm1 then (L 0).dim else (t.lin.fed at_.get).dout)
    (fun h => (wf.hres2 h).1.symm)
    (fun h => by rw [hsz h, (wf.hres2 h).1]; exact hbl)
    (fun h => by rw [hsz h]; exact le_refl _)
    (fun h => by rw [hsz h]; exact (wf.hres2 h).2.ge)
  have hcv : ∀ i, i < t.m.dout → (if t.res2 then r2 else (t.m.fed b.get).out).get i = r2S t t.params x.get i := by
    intro i hi
    unfold r2S
    by_cases hr : t.res2 = true
    · rw [if_pos hr, if_pos hr, hr2 hr i (by rw [hsz hr]; exact hi), hmv i hi,
        hbv i (by rw [← (wf.hres2 hr).1]; exact hi)]
    · rw [if_neg hr, if_neg hr, hmv i hi]
  have hcl : t.m.dout ≤ (if t.res2 then r2 else (t.m.fed b.get).out).len := by
    by_cases hr : t.res2 = true
    · rw [if_pos hr, l7]; exact (wf.hres2 hr).2.ge
    · rw [if_neg hr]; exact le_refl _
  have hlast : t.norm2 = true → (if t.norm1 then 1 else 0) = t.nl2 - 1 ∧ t.nl2 - 1 < t.nl2 := by
    intro h
    rw [wf.hnl2, if_pos h]
    split <;> omega
  have hsz2 : t.norm2 = true →
      (if (t.res1 && t.norm1 && t.res2) = true then (t.lin.fed at_.get).dout else (t.m.fed b.get).dout) = t.m.dout := by
    intro _
    by_cases hr : (t.res1 && t.norm1 && t.res2) = true
    · rw [if_pos hr]
      have : t.res2 = true := by simp at hr; exact hr.2
      exact (wf.hres2 this).1.symm
    · rw [if_neg hr]; rfl
  obtain ⟨M, e8, hM, hMo, hMn⟩ := normIf_run t.norm2 t.nl2 L (if t.norm1 then 1 else 0)
    (if (t.res1 && t.norm1 && t.res2) = true then (t.lin.fed at_.get).dout else (t.m.fed b.get).dout)
    (if t.res2 then r2 else (t.m.fed b.get).out)
    (fun h => by rw [(hlast h).1]; exact (hlast h).2)
    (fun h => by rw [hsz2 h]; exact hcl)
    (fun h => by rw [hsz2 h, (hlast h).1, (hL _).2.2.2.2, (wf.hnorm2 h).2.1])
  have hM0 : t.norm1 = true → M 0 = L 0 := by
    intro h
    refine hMo 0 (Or.inr ?_)
    rw [if_pos h]; omega
  have hb' : (if t.norm1 then (M 0).out else if t.res1 then r1 else (t.lin.fed at_.get).out) = b := by
    rw [hb]
    by_cases hN : t.norm1 = true
    · rw [if_pos hN, if_pos hN, hM0 hN]
    · rw [if_neg hN, if_neg hN]
  refine ⟨{ t with hd := t.hd.fed t.nh x.get, lin := t.lin.fed at_.get, m := t.m.fed b.get, l2 := M, score := sc,
                   soft := so, att := at_, r1 := r1, r2 := r2 }, ?_, ?_⟩
  · unfold Enc.ff
    refine (bind_some_of e1).trans ?_
    rw [wf.kv]
    refine (bind_some_of e2).trans ?_
    refine (bind_some_of e3).trans ?_
    refine (bind_some_of e4).trans ?_
    refine (bind_some_of e5).trans ?_
    refine (bind_some_of e6).trans ?_
    refine (bind_some_of e7).trans ?_
    exact (bind_some_of e8).trans rfl
  · refine ⟨?_, ⟨_, _, _, _, _, _, _, _, rfl⟩, hatS, l3, l2l, ?_, rfl, hav, hal, ?_, ?_, ?_, hcv, hcl, ?_, ?_, ?_, ?_, ?_⟩
    · refine ⟨wf.pos, wf.kv, fun h hh => ?_, fun h hh => ?_, fun h hh => ?_, wf.hin, wf.hlin, wf.hm,
        fun h => ⟨(wf.hres1 h).1, l4.trans (wf.hres1 h).2⟩, fun h => ⟨(wf.hres2 h).1, l7.trans (wf.hres2 h).2⟩, wf.hnl2,
        fun h => ?_, fun h => ?_, l1.trans wf.hscore, l2l.trans wf.hsoft, l3.trans wf.hatt, wf.hqe, wf.hke, wf.hve,
        wf.hse, wf.hsoe⟩
      · dsimp only; rw [hqf h hh]; exact wf.hq h hh
      · dsimp only; rw [hkf h hh]; exact wf.hk h hh
      · dsimp only; rw [hvf h hh]; exact wf.hv h hh
      · dsimp only
        rw [(hM _).1, (hL _).1, (hM _).2.2.2.2, (hL _).2.2.2.2, (hM _).2.2.2.1, (hL _).2.2.2.1]
        exact wf.hnorm1 h
      · dsimp only
        rw [(hM _).1, (hL _).1, (hM _).2.2.2.2, (hL _).2.2.2.2, (hM _).2.2.2.1, (hL _).2.2.2.1]
        exact wf.hnorm2 h
    · intro h hh a ha u hu
      have := hsoft h hh a ha u hu
      rw [hqf h hh, hkf h hh] at this
      exact this
    · dsimp only; rw [hb']; exact hbv
    · dsimp only; rw [hb']; exact hbl
    · dsimp only; rw [hb']
    · intro i hi
      unfold Enc.output encS
      dsimp only
      by_cases hN : t.norm2 = true
      · rw [if_pos hN, if_pos hN]
        have := (hMn hN).2 i (by rw [hsz2 hN]; exact hi)
        rw [hsz2 hN, (hlast hN).1, (hL _).2.1] at this
        rw [this]
        exact scaled_congr hcv hi
      · rw [if_neg hN, if_neg hN]
        exact hcv i hi
    · unfold Enc.output
      dsimp only
      by_cases hN : t.norm2 = true
      · rw [if_pos hN, (hM _).2.2.2.2, (hL _).2.2.2.2, (wf.hnorm2 hN).2.1]
      · rw [if_neg hN]; exact hcl
    · intro i
      obtain ⟨a1, a2, a3, a4, -⟩ := hM i
      obtain ⟨b1, b2, b3, b4, -⟩ := hL i
      exact ⟨a1.trans b1, a2.trans b2, a3.trans b3, a4.trans b4⟩
    · intro hN
      dsimp only
      rw [hM0 hN, (hLn hN).1, hdim1 hN, sq_congr hav]
    · intro hN
      have := (hMn hN).1
      rw [hsz2 hN, (hlast hN).1] at this
      dsimp only
      rw [this, sq_congr hcv]

end LLab.Transf
