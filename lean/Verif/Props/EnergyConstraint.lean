import Mathlib.Tactic.NormNum
import Mathlib.Tactic.Linarith
import Verif.Model.EnergyConstraint

/-! # C53: the energy constraint -/

namespace Fanpy.Props
open Fanpy.EnergyConstraint

/-- the state after a sequence of energies, with or without failures -/
noncomputable def ecRun (s : State) (es : List ℝ) : State := es.foldl (fun s e => (objective s e).1) s

theorem push_length (q : ℤ) (h : List ℝ) (d : ℝ) (hh : (h.length : ℤ) ≤ max q 0) : ((push q h d).length : ℤ) ≤ max q 0 := by
  rw [push]
  split_ifs with h1
  · simp only [List.length_tail, List.length_append, List.length_cons, List.length_nil]
    push_cast
    omega
  · simp only [List.length_append, List.length_cons, List.length_nil] at h1 ⊢
    push_cast at h1 ⊢
    omega

theorem adjust_cases (s : State) (energy d : ℝ) (h : List ℝ) :
    ((adjust s energy d h).1 = { s with history := h } ∧ ((adjust s energy d h).2 = .ok d ∨ h = [] ∧ (adjust s energy d h).2 = .error .indexError)) ∨
    ∃ d0 r, h = d0 :: r ∧ 0 < s.base ∧ s.base ≠ 1 ∧ (∀ x ∈ h, order s d0 - 1 < order s x ∧ order s x < order s d0 + 1) ∧
      adjust s energy d h = ({ s with ref := energy - s.base ^ (order s d0 - 1), history := [] }, .ok d) := by
  cases h with
  | nil => exact Or.inl ⟨rfl, Or.inr ⟨rfl, rfl⟩⟩
  | cons d0 r =>
    rw [adjust.eq_def]
    simp only
    split_ifs with h1 h2 h3
    · exact Or.inl ⟨rfl, Or.inl rfl⟩
    · exact Or.inl ⟨rfl, Or.inl rfl⟩
    · push Not at h1
      exact Or.inr ⟨d0, r, rfl, h1.1, h1.2, h3, rfl⟩
    · exact Or.inl ⟨rfl, Or.inl rfl⟩

/-- one call keeps the settings -/
theorem ec_settings (s : State) (e : ℝ) : (objective s e).1.queueSize = s.queueSize ∧ (objective s e).1.base = s.base ∧
    (objective s e).1.minDiff = s.minDiff ∧ (objective s e).1.simple = s.simple := by
  rw [objective]
  simp only
  split_ifs
  · exact ⟨rfl, rfl, rfl, rfl⟩
  · exact ⟨rfl, rfl, rfl, rfl⟩
  · exact ⟨rfl, rfl, rfl, rfl⟩
  · rcases adjust_cases s e (e - s.ref) (push s.queueSize s.history (e - s.ref)) with ⟨h, -⟩ | ⟨_, _, _, _, _, _, h⟩
    · rw [h]; exact ⟨rfl, rfl, rfl, rfl⟩
    · rw [h]; exact ⟨rfl, rfl, rfl, rfl⟩

/-- For every sequence of energies the history has at most `queue_size` entries. -/
theorem C53_history (s : State) (hs : s.history = []) (es : List ℝ) : ((ecRun s es).history.length : ℤ) ≤ max s.queueSize 0 := by
  have step : ∀ (s : State) (e : ℝ), (s.history.length : ℤ) ≤ max s.queueSize 0 →
      ((objective s e).1.history.length : ℤ) ≤ max s.queueSize 0 := by
    intro s e h
    have hp := push_length s.queueSize s.history (e - s.ref) h
    rw [objective]
    simp only
    split_ifs
    · exact h
    · exact hp
    · exact hp
    · rcases adjust_cases s e (e - s.ref) (push s.queueSize s.history (e - s.ref)) with ⟨h, -⟩ | ⟨_, _, _, _, _, _, h⟩
      · rw [h]; exact hp
      · rw [h]; simp
  have all : ∀ (es : List ℝ) (s : State), (s.history.length : ℤ) ≤ max s.queueSize 0 →
      ((ecRun s es).history.length : ℤ) ≤ max s.queueSize 0 := by
    intro es
    induction es with
    | nil => intro s h; exact h
    | cons e r ih =>
      intro s h
      have := ih (objective s e).1 (by rw [(ec_settings s e).1]; exact step s e h)
      rw [(ec_settings s e).1] at this
      exact this
  exact all es s (by rw [hs]; simp)

/-- After every sequence of energies, a call returns the energy minus the reference before the call; the only error is the `IndexError`
for `queue_size = 0` and an energy above the reference. -/
theorem C53_value (s : State) (es : List ℝ) (e : ℝ) :
    (objective (ecRun s es) e).2 = .ok (e - (ecRun s es).ref) ∨
    s.queueSize = 0 ∧ s.simple = false ∧ (ecRun s es).ref < e ∧ (objective (ecRun s es) e).2 = .error .indexError := by
  have hset : ∀ (es : List ℝ) (s : State), (ecRun s es).queueSize = s.queueSize ∧ (ecRun s es).simple = s.simple := by
    intro es
    induction es with
    | nil => intro s; exact ⟨rfl, rfl⟩
    | cons e r ih =>
      intro s
      have := ih (objective s e).1
      rw [(ec_settings s e).1, (ec_settings s e).2.2.2] at this
      exact this
  obtain ⟨h1, h2⟩ := hset es s
  obtain ⟨t, ht⟩ : ∃ t, ecRun s es = t := ⟨_, rfl⟩
  rw [ht] at h1 h2 ⊢
  rw [objective]
  simp only
  split_ifs with a1 a2 a3
  · exact Or.inl rfl
  · exact Or.inl rfl
  · exact Or.inl rfl
  · rcases adjust_cases t e (e - t.ref) (push t.queueSize t.history (e - t.ref)) with ⟨-, h | ⟨h, h'⟩⟩ | ⟨_, _, _, _, _, _, h⟩
    · exact Or.inl h
    · refine Or.inr ⟨?_, ?_, by linarith, h'⟩
      · push Not at a3
        rw [h] at a3
        rw [← h1, ← a3.1]; rfl
      · rw [← h2]; simpa using a1
    · rw [h]; exact Or.inl rfl

/-- With `queue_size = 0` an energy above the reference is always an `IndexError`. -/
theorem C53_queue_zero (s : State) (hs : s.history = []) (hq : s.queueSize = 0) (hn : s.simple = false) (e : ℝ) (he : s.ref < e) :
    (objective s e).2 = .error .indexError := by
  have hp : push s.queueSize s.history (e - s.ref) = [] := by rw [push, hs, hq]; rfl
  rw [objective]
  simp only [hn, hp]
  rw [if_neg (by simp), if_neg (by linarith), if_neg (by simp [hq])]
  rfl

/-- After an energy at or below the reference, the new reference is at most that energy for a base of at least one. -/
theorem C53_lowered (s : State) (hn : s.simple = false) (hb : 1 ≤ s.base) (e : ℝ) (he : e ≤ s.ref) :
    (objective s e).1.ref = s.ref + s.base * (e - s.ref) ∧ (objective s e).1.ref ≤ e := by
  have h : (objective s e).1.ref = s.ref + s.base * (e - s.ref) := by
    rw [objective]
    simp only [hn]
    rw [if_neg (by simp), if_pos (by linarith)]
  refine ⟨h, ?_⟩
  rw [h]
  nlinarith

/-- For every sequence of energies (base at least one, not `simple`): after each call the reference is at most the energy of that call. -/
theorem C53_below (s : State) (hn : s.simple = false) (hb : 1 ≤ s.base) (es : List ℝ) (e : ℝ) : (ecRun s (es ++ [e])).ref ≤ e := by
  have hset : ∀ (es : List ℝ) (s : State), (ecRun s es).base = s.base ∧ (ecRun s es).simple = s.simple := by
    intro es
    induction es with
    | nil => intro s; exact ⟨rfl, rfl⟩
    | cons e r ih =>
      intro s
      have := ih (objective s e).1
      rw [(ec_settings s e).2.1, (ec_settings s e).2.2.2] at this
      exact this
  have e1 : ecRun s (es ++ [e]) = (objective (ecRun s es) e).1 := by rw [ecRun, List.foldl_append]; rfl
  rw [e1]
  obtain ⟨h1, h2⟩ := hset es s
  obtain ⟨t, ht⟩ : ∃ t, ecRun s es = t := ⟨_, rfl⟩
  rw [ht] at h1 h2 ⊢
  by_cases he : e ≤ t.ref
  · exact (C53_lowered t (h2.trans hn) (by rw [h1]; exact hb) e he).2
  · push Not at he
    rw [objective]
    simp only [h2, hn]
    rw [if_neg (by simp), if_neg (by linarith)]
    split_ifs
    · exact he.le
    · rcases adjust_cases t e (e - t.ref) (push t.queueSize t.history (e - t.ref)) with ⟨h, -⟩ | ⟨_, _, _, hp, _, _, h⟩
      · rw [h]; exact he.le
      · rw [h]
        have := Real.rpow_pos_of_pos hp
        simp only
        linarith [this (order t ‹ℝ› - 1)]

/-- If the reference is raised (energies above it that did not change by an order of magnitude), it comes closer to the energy but stays
below: the new difference is the oldest difference of the history divided by the base, and the history starts again. -/
theorem C53_raised (s : State) (hn : s.simple = false) (hb : 1 < s.base) (e : ℝ) (hr : (objective s e).1.ref ≠ s.ref) (he : s.ref < e) :
    ∃ d0 ∈ push s.queueSize s.history (e - s.ref), 0 < d0 ∧ (objective s e).1.ref = e - d0 / s.base ∧
      s.ref < (objective s e).1.ref ∧ (objective s e).1.ref < e ∧ (objective s e).1.history = [] := by
  have e1 : objective s e = if ((push s.queueSize s.history (e - s.ref)).length : ℤ) ≠ s.queueSize ∨
      ∃ i ∈ push s.queueSize s.history (e - s.ref), i ≤ 0 then ({ s with history := push s.queueSize s.history (e - s.ref) }, .ok (e - s.ref))
      else adjust s e (e - s.ref) (push s.queueSize s.history (e - s.ref)) := by
    rw [objective]
    simp only [hn]
    rw [if_neg (by simp), if_neg (by linarith)]
  rw [e1] at hr ⊢
  split_ifs at hr ⊢ with hc
  · exact absurd rfl hr
  · push Not at hc
    rcases adjust_cases s e (e - s.ref) (push s.queueSize s.history (e - s.ref)) with ⟨h, -⟩ | ⟨d0, r, hd, hp, _, hall, h⟩
    · rw [h] at hr; exact absurd rfl hr
    · rw [h]
      have hd0 : d0 ∈ push s.queueSize s.history (e - s.ref) := by rw [hd]; simp
      have hpos := hc.2 d0 hd0
      have hlog : 0 < Real.log s.base := Real.log_pos hb
      have hpow : s.base ^ (order s d0 - 1) = d0 / s.base := by
        rw [Real.rpow_sub hp, Real.rpow_one, order, Real.rpow_def_of_pos hp, mul_div_cancel₀ _ hlog.ne', Real.exp_log hpos]
      have hdiv : 0 < d0 / s.base := div_pos hpos hp
      -- the difference of this call is the last entry of the history
      have hlast : e - s.ref ∈ push s.queueSize s.history (e - s.ref) := by
        rw [push]
        split_ifs with hq
        · cases hh : s.history with
          | nil =>
            exfalso
            rw [push, if_pos hq, hh] at hd
            cases hd
          | cons a b => simp
        · simp
      have ho := (hall _ hlast).1
      have hlt : d0 / s.base < e - s.ref := by
        rw [← hpow, ← Real.log_lt_log_iff (Real.rpow_pos_of_pos hp _) (by linarith), Real.log_rpow hp]
        rw [order, order] at ho
        have := (mul_lt_mul_iff_left₀ hlog).2 ho
        rw [div_mul_cancel₀ _ hlog.ne'] at this
        rwa [order]
      refine ⟨d0, hd0, hpos, by rw [hpow], ?_, ?_, rfl⟩
      · simp only; rw [hpow]; linarith
      · simp only; rw [hpow]; linarith

/-- `simple`: the reference never changes, and there is no history. -/
theorem C53_simple (s : State) (hn : s.simple = true) (es : List ℝ) (e : ℝ) :
    ecRun s es = s ∧ (objective (ecRun s es) e).2 = .ok (e - s.ref) := by
  have step : ∀ e, objective s e = (s, .ok (e - s.ref)) := fun e => by rw [objective]; simp only [hn]; rfl
  have h : ecRun s es = s := by
    induction es with
    | nil => rfl
    | cons a r ih =>
      show ecRun (objective s a).1 r = s
      rw [step]; exact ih
  exact ⟨h, by rw [h, step]⟩

/-! ## Cases -/

/-- base 2 -/
noncomputable def exEc : State := { ref := -100, history := [], queueSize := 4, base := 2, minDiff := 1 / 10, simple := false }

/-- an energy of `-103` is below the reference `-100`: the value is `-3`, the new reference `-106` -/
example : (objective exEc (-103)).2 = .ok (-3) ∧ (objective exEc (-103)).1.ref = -106 := by
  constructor
  · rcases C53_value exEc [] (-103) with h | ⟨h, -⟩
    · refine h.trans ?_
      show Except.ok ((-103 : ℝ) - (-100)) = _
      norm_num
    · cases h
  · rw [(C53_lowered exEc rfl (by norm_num [exEc]) (-103) (by norm_num [exEc])).1]
    norm_num [exEc]

/-- For a base below one the new reference exceeds the energy: `ref = 0`, energy `-1`, base `1/2` give the reference `-1/2`. -/
theorem C53_small_base :
    (objective { ref := 0, history := [], queueSize := 4, base := 1 / 2, minDiff := 1 / 10, simple := false } (-1)).1.ref = -1 / 2 := by
  rw [objective]
  simp only
  rw [if_neg (by simp), if_pos (by norm_num)]
  norm_num

/-- With a queue of one and base 2 the reference is raised by every energy above it that differs by more than `min_diff`: after the energy
`0` the reference `-4` becomes `-2`. -/
theorem C53_raised_case :
    (objective { ref := -4, history := [], queueSize := 1, base := 2, minDiff := 1 / 10, simple := false } 0).1.ref = -2 := by
  have hp : push 1 [] ((0 : ℝ) - -4) = [4] := by rw [push, if_neg (by simp)]; norm_num
  rw [objective]
  simp only [hp]
  have hlog : 0 < Real.log 2 := Real.log_pos (by norm_num)
  rw [if_neg (by simp), if_neg (by norm_num), if_neg (by simp), adjust.eq_def]
  simp only
  rw [if_neg (by norm_num), if_neg, if_pos]
  · simp only [order]
    rw [Real.rpow_sub (by norm_num), Real.rpow_one, Real.rpow_def_of_pos (by norm_num), mul_div_cancel₀ _ hlog.ne', Real.exp_log (by norm_num)]
    norm_num
  · intro x hx
    rw [List.mem_singleton] at hx
    subst hx
    constructor <;> linarith
  · simp only [order]
    rw [not_lt]
    exact div_le_div_of_nonneg_right (Real.log_le_log (by norm_num) (by norm_num)) hlog.le

/-- The reference can be raised above energies seen earlier: with a queue of two, base 2 and the reference `0`, after the energies `1` and
`7/4` the reference is `5/4`, above the first of them. -/
theorem C53_not_below_earlier :
    (ecRun { ref := 0, history := [], queueSize := 2, base := 2, minDiff := 1 / 10, simple := false } [1, 7 / 4]).ref = 5 / 4 := by
  have hlog : 0 < Real.log 2 := Real.log_pos (by norm_num)
  have h1 : (objective { ref := 0, history := [], queueSize := 2, base := 2, minDiff := 1 / 10, simple := false } 1).1 =
      { ref := 0, history := [1], queueSize := 2, base := 2, minDiff := 1 / 10, simple := false } := by
    have hp : push 2 [] ((1 : ℝ) - 0) = [1] := by rw [push, if_neg (by simp)]; norm_num
    rw [objective]
    simp only [hp]
    rw [if_neg (by simp), if_neg (by norm_num), if_pos (by simp)]
  have hp : push 2 [1] ((7 / 4 : ℝ) - 0) = [1, 7 / 4] := by rw [push, if_neg (by simp)]; norm_num
  show (objective (objective _ 1).1 (7 / 4)).1.ref = 5 / 4
  rw [h1, objective]
  simp only [hp]
  rw [if_neg (by simp), if_neg (by norm_num), if_neg, adjust.eq_def]
  · simp only
    rw [if_neg (by norm_num), if_neg, if_pos]
    · simp only [order]
      rw [Real.log_one, zero_div, zero_sub, Real.rpow_neg_one]
      norm_num
    · intro x hx
      simp only [List.mem_cons, List.not_mem_nil, or_false] at hx
      rcases hx with rfl | rfl
      · constructor <;> linarith
      · simp only [order]
        rw [Real.log_one, zero_div]
        constructor
        · have := div_pos (Real.log_pos (by norm_num : (1 : ℝ) < 7 / 4)) hlog
          linarith
        · rw [zero_add, div_lt_one hlog]
          exact Real.log_lt_log (by norm_num) (by norm_num)
    · simp only [order]
      rw [not_lt, Real.log_one, zero_div]
      exact div_nonpos_of_nonpos_of_nonneg (Real.log_nonpos (by norm_num) (by norm_num)) hlog.le
  · simp

end Fanpy.Props
