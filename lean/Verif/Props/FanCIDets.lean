import Mathlib.Tactic.FieldSimp
import Mathlib.Tactic.Linarith
import Mathlib.Tactic.NormNum
import Mathlib.Tactic.Ring
import Verif.Lemmas.Bits2
import Verif.Lemmas.Bits
import Verif.Model.FanCI

/-!
# C77 and C78: determinants and chunks of the FanCI interface
-/

namespace Fanpy.Props

open Fanpy.Slater Fanpy.FanCI Fanpy.Spec

/-! ## C77 -/

theorem fciSd_iff (n sd : ℕ) (α β : List ℕ) : fciSd n (α, β) = some sd ↔
    (α ++ β.map (· + n)).Nodup ∧ ∀ j, sd.testBit j = true ↔ j ∈ α ∨ ∃ b ∈ β, b + n = j := by
  rw [fciSd, ← create_append, create_eq_some_iff]
  simp only [Finset.ext_iff, Finset.mem_union, mem_occSet, List.mem_toFinset, List.mem_append,
    List.mem_map]
  simp

theorem fciSd_ok (n : ℕ) (α β : List ℕ) (ha : α.Nodup) (hb : β.Nodup) (hn : ∀ i ∈ α, i < n) :
    ∃ sd, fciSd n (α, β) = some sd ∧
      (∀ i < n, sd.testBit i = true ↔ i ∈ α) ∧ (∀ i, sd.testBit (n + i) = true ↔ i ∈ β) := by
  have hnd : (α ++ β.map (· + n)).Nodup := by
    rw [List.nodup_append]
    refine ⟨ha, hb.map (fun _ _ h => by simpa using h), ?_⟩
    intro a h1 b h2 hab
    obtain ⟨b', -, rfl⟩ := List.mem_map.mp h2
    have := hn a h1
    omega
  refine ⟨sdOf (occSet 0 ∪ (α ++ β.map (· + n)).toFinset), ?_, ?_, ?_⟩
  · rw [fciSd, ← create_append, create_of hnd (by simp)]
  · intro i hi
    rw [← mem_occSet, occSet_sdOf]
    simp only [Finset.mem_union, mem_occSet, List.mem_toFinset, List.mem_append, List.mem_map]
    simp
    intro x _ hx
    omega
  · intro i
    rw [← mem_occSet, occSet_sdOf]
    simp only [Finset.mem_union, mem_occSet, List.mem_toFinset, List.mem_append, List.mem_map]
    simp
    constructor
    · rintro (h | ⟨b, h1, h2⟩)
      · have := hn _ h; omega
      · obtain rfl : b = i := by omega
        exact h1
    · intro h; exact Or.inr ⟨i, h, by omega⟩

/-- **C77.**  A full CI array whose rows have distinct alpha orbitals below `nspatial` and distinct
beta orbitals gives one determinant per row.  In the determinant of a row the spin orbital `i` is
occupied if `i` is one of its alpha orbitals and `nspatial + i` if `i` is one of its beta orbitals,
and nothing else is. -/
theorem C77_fci (n : ℕ) (rows : List (List ℕ × List ℕ)) (hne : rows ≠ [])
    (h : ∀ r ∈ rows, r.1.Nodup ∧ r.2.Nodup ∧ ∀ i ∈ r.1, i < n) :
    ∃ sds : List ℕ, convert n (.fci rows) = .ok (sds.map some) ∧ sds.length = rows.length ∧
      ∀ k < rows.length, (∀ i < n, (sds.getD k 0).testBit i = true ↔ i ∈ (rows.getD k ([], [])).1) ∧
        ∀ i, (sds.getD k 0).testBit (n + i) = true ↔ i ∈ (rows.getD k ([], [])).2 := by
  have key : ∀ l : List (List ℕ × List ℕ), (∀ r ∈ l, r.1.Nodup ∧ r.2.Nodup ∧ ∀ i ∈ r.1, i < n) →
      ∃ sds : List ℕ, l.map (fciSd n) = sds.map some ∧ sds.length = l.length ∧
      ∀ k < l.length, (∀ i < n, (sds.getD k 0).testBit i = true ↔ i ∈ (l.getD k ([], [])).1) ∧
        ∀ i, (sds.getD k 0).testBit (n + i) = true ↔ i ∈ (l.getD k ([], [])).2 := by
    intro l
    induction l with
    | nil => intro _; exact ⟨[], rfl, rfl, by simp⟩
    | cons r l ih =>
      intro hl
      obtain ⟨sds, h1, h2, h3⟩ := ih (fun r hr => hl r (List.mem_cons_of_mem _ hr))
      obtain ⟨a, b, c⟩ := hl r (by simp)
      obtain ⟨sd, e1, e2, e3⟩ := fciSd_ok n r.1 r.2 a b c
      refine ⟨sd :: sds, by simp only [List.map_cons, h1]; rw [e1], by simp [h2], ?_⟩
      intro k hk
      cases k with
      | zero => simpa using ⟨e2, e3⟩
      | succ k => simpa using h3 k (by simpa using hk)
  obtain ⟨sds, h1, h2, h3⟩ := key rows h
  refine ⟨sds, ?_, h2, h3⟩
  cases rows with
  | nil => exact absurd rfl hne
  | cons r l => rw [← h1]; rfl

/-- **C77.**  A DOCI array whose rows are nonempty lists of distinct orbitals below `nspatial`
gives one determinant per row, with both spin orbitals of each orbital of the row occupied. -/
theorem C77_doci (n : ℕ) (rows : List (List ℕ)) (hne : rows ≠ [])
    (h : ∀ r ∈ rows, r ≠ [] ∧ r.Nodup ∧ ∀ i ∈ r, i < n) :
    ∃ sds : List ℕ, convert n (.doci rows) = .ok (sds.map some) ∧ sds.length = rows.length ∧
      ∀ k < rows.length, (∀ i < n, (sds.getD k 0).testBit i = true ↔ i ∈ rows.getD k []) ∧
        ∀ i, (sds.getD k 0).testBit (n + i) = true ↔ i ∈ rows.getD k [] := by
  obtain ⟨sds, h1, h2, h3⟩ := C77_fci n (rows.map fun r => (r, r)) (by simpa using hne)
    (by
      intro r hr
      obtain ⟨r', hr', rfl⟩ := List.mem_map.mp hr
      exact ⟨(h r' hr').2.1, (h r' hr').2.1, (h r' hr').2.2⟩)
  have hget : ∀ k, (rows.map fun r => (r, r)).getD k ([], []) = (rows.getD k [], rows.getD k []) := by
    intro k
    rw [show (([], []) : List ℕ × List ℕ) = (fun r => (r, r)) [] from rfl, List.getD_map]
  refine ⟨sds, ?_, by simpa using h2, ?_⟩
  · rw [← h1]
    rcases rows with _ | ⟨⟨_ | ⟨a, r⟩⟩, l⟩
    · exact absurd rfl hne
    · exact absurd rfl (h [] (by simp)).1
    · simp only [FanCI.convert, List.map_cons, List.map_map]
      rfl
  · intro k hk
    have := h3 k (by simpa using hk)
    rw [hget k] at this
    exact this

/-- **C77.**  Different occupations give different determinants. -/
theorem C77_injective (n : ℕ) (r s : List ℕ × List ℕ) (sd : ℕ)
    (hr : r.1.Nodup ∧ r.2.Nodup ∧ ∀ i ∈ r.1, i < n) (hs : s.1.Nodup ∧ s.2.Nodup ∧ ∀ i ∈ s.1, i < n)
    (h1 : FanCI.convert n (.fci [r]) = .ok [some sd]) (h2 : FanCI.convert n (.fci [s]) = .ok [some sd]) :
    (∀ i, i ∈ r.1 ↔ i ∈ s.1) ∧ (∀ i, i ∈ r.2 ↔ i ∈ s.2) := by
  obtain ⟨a, e1, e2, e3⟩ := fciSd_ok n r.1 r.2 hr.1 hr.2.1 hr.2.2
  obtain ⟨b, f1, f2, f3⟩ := fciSd_ok n s.1 s.2 hs.1 hs.2.1 hs.2.2
  simp only [FanCI.convert, List.map_cons, List.map_nil, Except.ok.injEq, List.cons.injEq, and_true] at h1 h2
  obtain rfl : a = sd := by rw [← Option.some_inj, ← e1, ← h1]
  obtain rfl : b = a := by rw [← Option.some_inj, ← f1, ← h2]
  refine ⟨fun i => ?_, fun i => by rw [← e3, f3]⟩
  by_cases hi : i < n
  · rw [← e2 i hi, f2 i hi]
  · exact ⟨fun h => absurd (hr.2.2 i h) hi, fun h => absurd (hs.2.2 i h) hi⟩

/-- **C77.**  A row with a repeated orbital gives `None` instead of an exception. -/
theorem C77_repeated (n : ℕ) (r : List ℕ × List ℕ) (h : ¬ r.1.Nodup ∨ ¬ r.2.Nodup) :
    FanCI.convert n (.fci [r]) = .ok [none] := by
  have : fciSd n r = none := by
    cases hsd : fciSd n r with
    | none => rfl
    | some sd =>
      obtain ⟨hnd, -⟩ := (fciSd_iff n sd r.1 r.2).mp hsd
      rw [List.nodup_append] at hnd
      rcases h with h | h
      · exact absurd hnd.1 h
      · exact absurd (List.Nodup.of_map _ hnd.2.1) h
  simp [FanCI.convert, this]

/-- **C77.**  Without rows, and for DOCI without electrons, the conversion raises an
`IndexError`. -/
theorem C77_empty (n : ℕ) (rows : List (List ℕ)) :
    FanCI.convert n (.fci []) = .error .indexError ∧ FanCI.convert n (.doci []) = .error .indexError ∧
    FanCI.convert n (.doci ([] :: rows)) = .error .indexError := ⟨rfl, rfl, rfl⟩

/-- a row of the arrays of the theorems -/
example : FanCI.convert 4 (.fci [([0, 2], [1])]) = .ok [some 0b00100101] ∧
    FanCI.convert 4 (.doci [[0, 2]]) = .ok [some 0b01010101] := by decide

/-! ## C78 -/

theorem chunkLoop_spec (size chunk : ℕ) (hc : 0 < chunk) : ∀ (fuel s : ℕ), size - s ≤ fuel →
    ((chunkLoop size chunk fuel s).flatMap fun c => List.range' c.1 (c.2 - c.1))
        = List.range' s (size - s) ∧
      ∀ c ∈ chunkLoop size chunk fuel s, s ≤ c.1 ∧ c.1 < c.2 ∧ c.2 ≤ size ∧ c.2 - c.1 ≤ chunk
  | 0, s, h => by
    have : size - s = 0 := by omega
    simp [chunkLoop, this]
  | fuel + 1, s, h => by
    rw [chunkLoop]
    split_ifs with hs
    · obtain ⟨h1, h2⟩ := chunkLoop_spec size chunk hc fuel (s + chunk) (by omega)
      constructor
      · rw [List.flatMap_cons, h1]
        by_cases hle : s + chunk ≤ size
        · rw [Nat.min_eq_right hle]
          have e : s + chunk - s = chunk := by omega
          rw [e]
          have := List.range'_append (s := s) (m := chunk) (n := size - (s + chunk)) (step := 1)
          rw [Nat.one_mul] at this
          rw [this]
          congr 1
          omega
        · rw [Nat.min_eq_left (by omega)]
          have e : size - (s + chunk) = 0 := by omega
          rw [e]
          simp
      · intro c hcm
        rcases List.mem_cons.mp hcm with rfl | hcm
        · simp only
          refine ⟨le_rfl, ?_, ?_, ?_⟩ <;> omega
        · obtain ⟨a, b, c', d⟩ := h2 c hcm
          exact ⟨by omega, b, c', d⟩
    · have : size - s = 0 := by omega
      simp [this]

/-- **C78.**  Whatever the memory is (also if it is used up or negative), the chunks are nonempty
intervals that together list every determinant of the `S` space once and in order, and a chunk that
has more than one determinant fits in the available memory. -/
theorem C78_chunks (size : ℕ) (avail : ℚ) (hs : 0 < size) :
    ∃ cs, chunks size avail = .ok cs ∧
      (cs.flatMap fun c => List.range' c.1 (c.2 - c.1)) = List.range size ∧
      (∀ c ∈ cs, c.1 < c.2 ∧ c.2 ≤ size) ∧
      ∀ c ∈ cs, c.2 - c.1 = 1 ∨ ((c.2 - c.1 : ℕ) : ℚ) * (size * 8 / 1000000) ≤ avail := by
  have hsq : (0 : ℚ) < size := by exact_mod_cast hs
  have hpos : (0 : ℚ) < (size : ℚ) * 8 / 1000000 := by positivity
  rw [chunks]
  simp only [if_neg hpos.ne']
  have h1 : (1 : ℤ) ≤ min (max 1 ⌊avail / ((size : ℚ) * 8 / 1000000)⌋) (size : ℤ) :=
    le_min (le_max_left _ _) (by exact_mod_cast hs)
  generalize hch : min (max 1 ⌊avail / ((size : ℚ) * 8 / 1000000)⌋) (size : ℤ) = ch at h1
  obtain ⟨g1, g2⟩ := chunkLoop_spec size ch.toNat (by omega) size 0 (by omega)
  refine ⟨_, rfl, ?_, fun c hc => ⟨(g2 c hc).2.1, (g2 c hc).2.2.1⟩, ?_⟩
  · rw [g1, Nat.sub_zero, List.range_eq_range']
  · intro c hc
    obtain ⟨-, hlt, -, hle⟩ := g2 c hc
    by_cases hone : c.2 - c.1 = 1
    · exact Or.inl hone
    · right
      have hch1 : ch ≤ max 1 ⌊avail / ((size : ℚ) * 8 / 1000000)⌋ := by
        rw [← hch]; exact min_le_left _ _
      have hfl : ((c.2 - c.1 : ℕ) : ℤ) ≤ ⌊avail / ((size : ℚ) * 8 / 1000000)⌋ := by
        have : ((c.2 - c.1 : ℕ) : ℤ) ≤ ch := by omega
        rcases le_max_iff.mp (this.trans hch1) with h | h
        · omega
        · exact h
      have := Int.le_floor.mp hfl
      rw [le_div_iff₀ hpos] at this
      exact_mod_cast this

/-- **C78.**  An `S` space without determinants divides by zero. -/
theorem C78_empty (avail : ℚ) : chunks 0 avail = .error .zeroDivision := by
  simp [chunks]

end Fanpy.Props
