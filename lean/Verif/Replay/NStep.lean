import Verif.Replay.BufferProps
import Mathlib.Algebra.Field.Basic
import Mathlib.Algebra.Field.Rat
import Mathlib.Algebra.Order.Ring.Unbundled.Rat
import Mathlib.Tactic.Ring

/-!
Model of the n-step return loop of `train_rainbow` (`/repo/src/rainbow.c`
1711-1749) and property C61.
-/

namespace LLab.Replay

variable {S F : Type} [Field F] [LinearOrder F]

/-- The variables the loop writes for one batch entry: `reward`,
`temp_states_t_1[i]` (`none` = still NULL), `temp_nonterminal_state_t_1[i]`,
`lambdas[i]` (`none` = not written in this step, the old value stays). -/
structure NStep (S F : Type) where
  reward : F
  next : Option S
  nonterm : Option Int
  lamOut : Option F

/-- The `for(j…)` loop at `/repo/src/rainbow.c` 1719-1742, `slot = batch[i]`,
`fuel = n_step_rewards - j`, `lambda` the running factor, `cycled` the flag. -/
def nStepLoop (b : Buf S F) (slot : Nat) (lam : F) :
    Nat → Nat → Bool → F → NStep S F → Option (NStep S F)
  | 0, _, _, _, acc => some acc
  | fuel + 1, j, cycled, lambda, acc =>
    if b.cap = 0 then none else
    let index := (slot + j) % b.cap
    let cycled := if !cycled && decide (index < slot + j) then true else cycled
    if cycled && decide (b.cur ≤ index) then some acc
    else if slot < b.cur ∧ b.cur ≤ slot + j then some acc
    else do
      let rw ← b.rewards.read index
      let nx ← b.st1.read index
      let nt ← b.nonterm.read index
      let reward := acc.reward + lambda * rw
      if nt = 0 then some ⟨reward, nx, some nt, acc.lamOut⟩
      else
        nStepLoop b slot lam fuel (j + 1) cycled (lambda * lam)
          ⟨reward, nx, some nt, some (lambda * lam)⟩

/-- One batch entry (`/repo/src/rainbow.c` 1712-1718). The NULL fallback at
1743-1748 is not modelled; `C61_n_step` shows it is never reached for
`n_step_rewards ≥ 1`. -/
def nStep (b : Buf S F) (slot : Nat) (lam : F) (n : Nat) : Option (NStep S F) :=
  nStepLoop b slot lam n 0 false 1 ⟨0, none, none, none⟩

/-! ### Specification -/

/-- The experiences the return ranges over: at most `n`, up to and including the
first terminal one. -/
def window : Nat → List (Exp S F) → List (Exp S F)
  | 0, _ => []
  | _, [] => []
  | n + 1, e :: es => if e.nonterminal = 0 then [e] else e :: window n es

/-- Discounted sum of the rewards. -/
def discounted (lam : F) : List (Exp S F) → F
  | [] => 0
  | e :: es => e.reward + lam * discounted lam es

omit [Field F] [LinearOrder F] in
theorem window_length_le (n : Nat) (es : List (Exp S F)) : (window n es).length ≤ n := by
  induction n generalizing es with
  | zero => simp [window]
  | succ n ih =>
    cases es with
    | nil => simp [window]
    | cons e es =>
      simp only [window]
      split_ifs
      · simp
      · simpa using ih es

theorem stop_iff (cap t T j : Nat) (hc : 0 < cap) (h1 : t < T) (h2 : T ≤ t + cap)
    (h3 : t + j ≤ T) :
    ((cap ≤ t % cap + j ∧ T % cap ≤ (t % cap + j) % cap) ∨
      (t % cap < T % cap ∧ T % cap ≤ t % cap + j)) ↔ t + j = T := by
  have a1 := Nat.div_add_mod t cap
  have a2 := Nat.div_add_mod T cap
  have b1 := Nat.mod_lt t hc
  have b2 := Nat.mod_lt T hc
  have hq : T / cap = t / cap ∨ T / cap = t / cap + 1 := by
    have h4 : t / cap ≤ T / cap := Nat.div_le_div_right (by omega)
    have h5 : T / cap ≤ (t + cap) / cap := Nat.div_le_div_right h2
    rw [Nat.add_div_right _ hc] at h5
    omega
  rcases hq with hq | hq
  · rw [hq] at a2
    constructor
    · rintro (⟨h, _⟩ | ⟨_, h⟩) <;> omega
    · intro h; right; omega
  · rw [hq, Nat.mul_add, Nat.mul_one] at a2
    constructor
    · rintro (⟨h, h'⟩ | ⟨h, _⟩)
      · have : (t % cap + j) % cap = t % cap + j - cap := by
          rw [Nat.mod_eq_sub_mod h, Nat.mod_eq_of_lt (by omega)]
        rw [this] at h'
        omega
      · omega
    · intro h
      left
      have hge : cap ≤ t % cap + j := by omega
      have : (t % cap + j) % cap = t % cap + j - cap := by
        rw [Nat.mod_eq_sub_mod hge, Nat.mod_eq_of_lt (by omega)]
      rw [this]
      omega

theorem nStepLoop_spec (b : Buf S F) (cap : Nat) (hc : 0 < cap) (es : List (Exp S F))
    (i : Inv b cap es) (t : Nat) (h1 : t < es.length) (h2 : es.length ≤ t + cap) (lam : F) :
    ∀ (fuel j : Nat) (lambda : F) (acc : NStep S F), t + j ≤ es.length →
    ∃ r, nStepLoop b (t % cap) lam fuel j (decide (cap < t % cap + j)) lambda acc = some r ∧
      r.reward = acc.reward + lambda * discounted lam (window fuel (es.drop (t + j))) ∧
      (window fuel (es.drop (t + j)) = [] → r = acc) ∧
      ∀ e, (window fuel (es.drop (t + j))).getLast? = some e →
        r.next = some e.next ∧ r.nonterm = some e.nonterminal ∧
        (e.nonterminal ≠ 0 →
          r.lamOut = some (lambda * lam ^ (window fuel (es.drop (t + j))).length)) := by
  intro fuel
  induction fuel with
  | zero =>
    intro j lambda acc _
    exact ⟨acc, rfl, by simp [window, discounted], fun _ => rfl, by simp [window]⟩
  | succ fuel ih =>
    intro j lambda acc hj
    have hcap : b.cap = cap := i.hcap
    have hcur : b.cur = es.length % cap := i.cur
    have b1 := Nat.mod_lt t hc
    have hcyc : (if !(decide (cap < t % cap + j)) && decide ((t % cap + j) % cap < t % cap + j) then true
        else decide (cap < t % cap + j)) = decide (cap ≤ t % cap + j) := by
      by_cases hA : cap < t % cap + j
      · simp [hA]; omega
      · by_cases hB : cap = t % cap + j
        · simp [hA, ← hB, hc]
        · have : (t % cap + j) % cap = t % cap + j := Nat.mod_eq_of_lt (by omega)
          simp [hA, this]; omega
    have hs := stop_iff cap t es.length j hc h1 h2 hj
    simp only [nStepLoop, hcap, hcur, hcyc]
    rw [if_neg (show ¬ cap = 0 by omega)]
    by_cases hT : t + j = es.length
    · have hw : es.drop (t + j) = [] := List.drop_of_length_le (by omega)
      have hst := hs.2 hT
      refine ⟨acc, ?_, by simp [hw, window, discounted], fun _ => rfl, by simp [hw, window]⟩
      rcases hst with ⟨ha, hb⟩ | hb
      · rw [if_pos (by simp only [Bool.and_eq_true, decide_eq_true_eq]; exact ⟨ha, hb⟩)]
      · simp [hb]
    · have hns := fun h => hT (hs.1 h)
      rw [if_neg (by simp only [Bool.and_eq_true, decide_eq_true_eq]; exact fun h => hns (Or.inl h)),
        if_neg (fun h => hns (Or.inr h))]
      have hlt : t + j < es.length := by omega
      obtain ⟨e, he⟩ : ∃ e, es[t + j]? = some e := ⟨es[t + j], by simp [hlt]⟩
      have hmod : (t % cap + j) % cap = (t + j) % cap := by simp [Nat.add_mod]
      obtain ⟨_, hnx, hrw, _, hnt⟩ := i.holds (t + j) e he (by omega)
      have hidx : (t + j) % cap < cap := Nat.mod_lt _ hc
      have hd : es.drop (t + j) = e :: es.drop (t + (j + 1)) := by
        rw [show t + (j + 1) = t + j + 1 by omega, ← List.getElem_cons_drop hlt]
        congr 1
        simpa [hlt] using he
      simp only [hmod, Arr.read_eq (show (t + j) % cap < b.rewards.len by rw [i.lens.2.2.1]; exact hidx),
        Arr.read_eq (show (t + j) % cap < b.st1.len by rw [i.lens.2.1]; exact hidx),
        Arr.read_eq (show (t + j) % cap < b.nonterm.len by rw [i.lens.2.2.2.2]; exact hidx),
        hnx, hrw, hnt, Option.bind_eq_bind, Option.bind_some]
      by_cases h0 : e.nonterminal = 0
      · simp only [h0, if_true]
        refine ⟨_, rfl, ?_, ?_, ?_⟩
        · simp [hd, window, h0, discounted]
        · simp [hd, window, h0]
        · intro e' he'
          simp [hd, window, h0] at he'
          subst he'
          simp [h0]
      · simp only [h0, if_false]
        have hdec : decide (cap ≤ t % cap + j) = decide (cap < t % cap + (j + 1)) := by
          by_cases h : cap ≤ t % cap + j
          · simp [h]; omega
          · simp [h]; omega
        rw [hdec]
        obtain ⟨r, er, hr1, hr2, hr3⟩ := ih (j + 1) (lambda * lam)
          ⟨acc.reward + lambda * e.reward, some e.next, some e.nonterminal, some (lambda * lam)⟩
          (by omega)
        refine ⟨r, er, ?_, by simp [hd, window, h0], ?_⟩
        · rw [hr1]
          simp only [hd, window, h0, if_false, discounted]
          ring
        · intro e' he'
          simp only [hd, window, h0, if_false] at he' ⊢
          by_cases hw : window fuel (es.drop (t + (j + 1))) = []
          · rw [hw] at he' ⊢
            have hr := hr2 hw
            simp at he'
            subst he'
            simp [hr]
          · rw [List.getLast?_cons] at he'
            obtain ⟨x, hx⟩ : ∃ x, (window fuel (es.drop (t + (j + 1)))).getLast? = some x := by
              cases h : (window fuel (es.drop (t + (j + 1)))).getLast? with
              | none => exact absurd (List.getLast?_eq_none_iff.1 h) hw
              | some x => exact ⟨x, rfl⟩
            rw [hx] at he'
            simp at he'
            subst he'
            obtain ⟨q1, q2, q3⟩ := hr3 x hx
            refine ⟨q1, q2, fun hne => ?_⟩
            rw [q3 hne]
            simp only [List.length_cons, pow_succ]
            congr 1
            ring

/-- **C61.** After any legal history, for every stored experience `t` (one of the
last `cap`) and every `n ≥ 1`, the n-step loop started at its slot makes no
out-of-bounds access and never crosses from the newest experience into the
oldest: it returns the discounted sum of the rewards of experiences
`t, t+1, …`, at most `n` of them, stopping after the first terminal one and
after the newest one; the successor state and terminal flag are those of the
last experience summed, and when that one is not terminal the bootstrap factor
is `λ` to the number of rewards summed. -/
theorem C61_n_step (cap : Nat) (hc : 0 < cap) (zero hundred : F) (ops : List (Op S F))
    (hl : Legal cap 0 ops) (t n : Nat) (lam : F) (h1 : t < (added ops).length)
    (h2 : (added ops).length ≤ t + cap) (hn : 1 ≤ n) :
    ∃ b r e, (Buf.init cap zero : Buf S F).run hundred ops = some b ∧
      nStep b (t % cap) lam n = some r ∧
      (window n ((added ops).drop t)).getLast? = some e ∧
      r.reward = discounted lam (window n ((added ops).drop t)) ∧
      r.next = some e.next ∧ r.nonterm = some e.nonterminal ∧
      (e.nonterminal ≠ 0 → r.lamOut = some (lam ^ (window n ((added ops).drop t)).length)) := by
  obtain ⟨b, eb, i, _⟩ := Inv.run hc hundred ops _ [] (Inv.init (S := S) cap zero) hl
  rw [List.nil_append] at i
  have hlt := Nat.mod_lt t hc
  obtain ⟨r, er, hr1, _, hr3⟩ := nStepLoop_spec b cap hc _ i t h1 h2 lam n 0 1 ⟨0, none, none, none⟩
    (by omega)
  rw [show decide (cap < t % cap + 0) = false by simp; omega] at er
  rw [Nat.add_zero] at hr1 hr3
  have hne : window n ((added ops).drop t) ≠ [] := by
    obtain ⟨m, rfl⟩ : ∃ m, n = m + 1 := ⟨n - 1, by omega⟩
    rw [← List.getElem_cons_drop h1]
    simp only [window]
    split_ifs <;> simp
  obtain ⟨e, he⟩ : ∃ e, (window n ((added ops).drop t)).getLast? = some e := by
    cases h : (window n ((added ops).drop t)).getLast? with
    | none => exact absurd (List.getLast?_eq_none_iff.1 h) hne
    | some x => exact ⟨x, rfl⟩
  obtain ⟨q1, q2, q3⟩ := hr3 e he
  refine ⟨b, r, e, eb, er, he, by simpa using hr1, q1, q2, fun h => by simpa using q3 h⟩

/-- The specification on a literal: three experiences, the second terminal. -/
example (a b c : Exp Nat ℚ) (ha : a.nonterminal = 1) (hb : b.nonterminal = 0) :
    window 5 [a, b, c] = [a, b] ∧ discounted 2 [a, b] = a.reward + 2 * (b.reward + 2 * 0) := by
  simp [window, discounted, ha, hb]

/-- A wrapped buffer satisfying the hypotheses: capacity 2, three experiences,
starting from the second one. -/
example (e1 e2 e3 : Exp Nat ℚ) :
    Legal 2 0 [Op.add e1, .add e2, .add e3] ∧ 1 < (added [Op.add e1, .add e2, .add e3]).length ∧
    (added [Op.add e1, .add e2, .add e3]).length ≤ 1 + 2 := by
  simp [Legal, added]

end LLab.Replay
