import Verif.Model.Tables
import Verif.Lemmas.Text
import Mathlib.Data.List.Forall2

/-! Helper lemmas about the labels of tables. -/

namespace Fanpy.Tables
open Fanpy.Slater Fanpy.Text Fanpy.Spec

/-- the text of a determinant -/
def sdText (K sd : ℕ) : List Char :=
  joinSp [(fmtBits K (sd % 2 ^ K)).reverse, (fmtBits K (sd / 2 ^ K)).reverse]

theorem fmtLabel_int {K : ℕ} (hK : 0 < K) (sd : ℕ) : fmtLabel K (.int sd) = .ok (.str (sdText K sd)) := by
  simp only [fmtLabel]
  rw [splitSpin_ok hK]
  rfl

theorem unfmtLabel_sdText (K : ℕ) (hK : 0 < K) (sd : ℕ) : unfmtLabel (.str (sdText K sd)) = .ok (.int sd) := by
  simp only [unfmtLabel, sdText]
  rw [splitSp_joinSp]
  swap
  · intro p hp
    simp only [List.mem_cons, List.not_mem_nil, or_false] at hp
    rcases hp with rfl | rfl
    all_goals
      refine ⟨by simp [fmtBits_ne_nil], ?_⟩
      apply space_notMem_bits
      intro c hc
      exact bitChar_mem_fmtBits (List.mem_reverse.1 hc)
  simp only [List.reverse_reverse]
  obtain ⟨m, hm, hb⟩ := parseInt_bits (s := fmtBits K (sd / 2 ^ K) ++ fmtBits K (sd % 2 ^ K))
    (by simp [fmtBits_ne_nil])
    (by
      intro c hc
      rcases List.mem_append.1 hc with hc | hc <;> exact bitChar_mem_fmtBits hc)
  rw [hm]
  have : m = sd := by
    apply Nat.eq_of_testBit_eq
    intro i
    rw [hb, List.reverse_append]
    have hl : (fmtBits K (sd % 2 ^ K)).reverse.length = K := by
      rw [List.length_reverse]; exact length_fmtBits_of_lt hK (Nat.mod_lt _ (by positivity))
    by_cases hi : i < K
    · rw [List.getD_append _ _ _ _ (by omega), getD_reverse_fmtBits, Nat.testBit_mod_two_pow]
      simp [hi]
    · rw [List.getD_append_right _ _ _ _ (by omega), getD_reverse_fmtBits, hl, Nat.testBit_div_two_pow,
        Nat.sub_add_cancel (by omega)]
      simp
  subst this; rfl

theorem sdText_eq (K sd : ℕ) :
    sdText K sd = (fmtBits K (sd % 2 ^ K)).reverse ++ ' ' :: (fmtBits K (sd / 2 ^ K)).reverse := by
  simp [sdText, joinSp, List.intercalate]

theorem length_sdText {K sd : ℕ} (hK : 0 < K) (h : sd < 2 ^ (2 * K)) : (sdText K sd).length = 2 * K + 1 := by
  have h2 : sd / 2 ^ K < 2 ^ K := by
    rw [Nat.div_lt_iff_lt_mul (by positivity), ← pow_add]; convert h using 2; omega
  rw [sdText_eq, List.length_append, List.length_cons, List.length_reverse, List.length_reverse,
    length_fmtBits_of_lt hK h2, length_fmtBits_of_lt hK (Nat.mod_lt _ (by positivity))]
  omega

theorem getElem?_eq_some_of_getD {l : List Char} {i : ℕ} {d c : Char} (hi : i < l.length) (h : l.getD i d = c) :
    l[i]? = some c := by
  rw [List.getElem?_eq_getElem hi, ← h, List.getD_eq_getElem _ d hi]

theorem sdText_alpha {K sd : ℕ} (hK : 0 < K) {i : ℕ} (hi : i < K) :
    (sdText K sd)[i]? = some (if sd.testBit i then '1' else '0') := by
  have hl : (fmtBits K (sd % 2 ^ K)).reverse.length = K := by
    rw [List.length_reverse]; exact length_fmtBits_of_lt hK (Nat.mod_lt _ (by positivity))
  rw [sdText_eq, List.getElem?_append_left (by omega)]
  refine getElem?_eq_some_of_getD (d := '0') (by omega) ?_
  rw [getD_reverse_fmtBits, Nat.testBit_mod_two_pow]; simp [hi]

theorem sdText_beta {K sd : ℕ} (hK : 0 < K) {i : ℕ} (hi : i < K) :
    (sdText K sd)[K + 1 + i]? = some (if sd.testBit (K + i) then '1' else '0') := by
  have hl : (fmtBits K (sd % 2 ^ K)).reverse.length = K := by
    rw [List.length_reverse]; exact length_fmtBits_of_lt hK (Nat.mod_lt _ (by positivity))
  have h2 : K ≤ (fmtBits K (sd / 2 ^ K)).reverse.length := by
    rw [List.length_reverse, length_fmtBits]; omega
  rw [sdText_eq, List.getElem?_append_right (by omega), hl]
  have : K + 1 + i - K = i + 1 := by omega
  rw [this, List.getElem?_cons_succ]
  refine getElem?_eq_some_of_getD (d := '0') (by omega) ?_
  rw [getD_reverse_fmtBits, Nat.testBit_div_two_pow, Nat.add_comm]

theorem sdText_mid {K sd : ℕ} (hK : 0 < K) : (sdText K sd)[K]? = some ' ' := by
  have hl : (fmtBits K (sd % 2 ^ K)).reverse.length = K := by
    rw [List.length_reverse]; exact length_fmtBits_of_lt hK (Nat.mod_lt _ (by positivity))
  rw [sdText_eq, List.getElem?_append_right (by omega), hl]
  simp

theorem mapM_map_ok {α β γ : Type} {f : β → Except PyErr γ} {g : α → β} {h : α → γ} (l : List α)
    (hf : ∀ a ∈ l, f (g a) = .ok (h a)) : (l.map g).mapM f = .ok (l.map h) := by
  induction l with
  | nil => rfl
  | cons a l ih =>
    rw [List.map_cons, List.mapM_cons, hf a (by simp), ih (fun a ha => hf a (by simp [ha]))]
    rfl

theorem mapM_error_of_mem {α β : Type} {f : α → Except PyErr β} {e : PyErr} (l : List α)
    (h : ∀ a ∈ l, f a = .error e ∨ ∃ b, f a = .ok b) (hm : ∃ a ∈ l, f a = .error e) : l.mapM f = .error e := by
  induction l with
  | nil => simp at hm
  | cons a l ih =>
    rw [List.mapM_cons]
    rcases h a (by simp) with ha | ⟨b, hb⟩
    · rw [ha]; rfl
    · rw [hb]
      have : ∃ a ∈ l, f a = .error e := by
        obtain ⟨x, hx, he⟩ := hm
        rcases List.mem_cons.1 hx with rfl | hx
        · rw [hb] at he; cases he
        · exact ⟨x, hx, he⟩
      change ((List.mapM f l) >>= _) = _
      rw [ih (fun a ha => h a (by simp [ha])) this]
      rfl

/-- all labels are integers -/
theorem exists_map_int {l : List Label} (h : ∀ x ∈ l, ∃ n, x = .int n) : ∃ sds : List ℕ, l = sds.map .int := by
  induction l with
  | nil => exact ⟨[], rfl⟩
  | cons a l ih =>
    obtain ⟨n, rfl⟩ := h a (by simp)
    obtain ⟨sds, rfl⟩ := ih (fun x hx => h x (by simp [hx]))
    exact ⟨n :: sds, rfl⟩

end Fanpy.Tables
