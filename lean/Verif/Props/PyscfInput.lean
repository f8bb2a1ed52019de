import Verif.Model.PyscfInput
import Mathlib.Data.List.Infix

/-!
# C131: input files for PySCF
-/

namespace Fanpy.Props

open Fanpy Fanpy.Gbs Fanpy.PyscfInput

/-! ## The script -/

/-- the values that the lines of a text assign to a name -/
def C131_read (name : String) (text : Txt) : List Txt :=
  ((text.splitOn '\n').filter fun l => (name.toList ++ [' ', '=', ' ']).isPrefixOf l).map fun l => l.drop (name.toList.length + 3)

/-- the text between two quotes, if it is a simple literal of Python -/
def C131_literal : Txt → Option Txt
  | '\'' :: t => if t.getLast? = some '\'' ∧ ∀ c ∈ t.dropLast, c ≠ '\'' ∧ c ≠ '\\' ∧ c ≠ '\n' then some t.dropLast else none
  | _ => none

private theorem splitOn_lines (L : List Txt) (h : ∀ l ∈ L, '\n' ∉ l) : (L.flatMap fun l => l ++ ['\n']).splitOn '\n' = L ++ [[]] := by
  induction L with
  | nil => rfl
  | cons l L ih =>
    have ih := ih fun m hm => h m (by simp [hm])
    rw [List.splitOn_eq_splitOnP] at ih ⊢
    rw [List.flatMap_cons, List.append_assoc, List.singleton_append, List.splitOnP_append_cons_of_forall_mem _ _ (by simp), ih]
    · rfl
    · intro x hx
      have : x ≠ '\n' := by rintro rfl; exact h l (by simp) hx
      simpa using this

private theorem digits_newline (n : ℕ) : '\n' ∉ Nat.toDigits 10 n := by
  intro h
  have := Nat.isDigit_of_mem_toDigits (by norm_num) (by norm_num) h
  simp [Char.isDigit] at this

private theorem intTxt_newline (z : ℤ) : '\n' ∉ intTxt z := by
  rw [intTxt]
  split
  · simp [digits_newline]
  · exact digits_newline _

/-- the integer that a text is -/
def C131_int : Txt → ℤ
  | '-' :: t => -(Nat.ofDigitChars 10 t 0 : ℕ)
  | t => (Nat.ofDigitChars 10 t 0 : ℕ)

private theorem int_nat (n : ℕ) : C131_int (Nat.toDigits 10 n) = n := by
  have hd : ∀ c ∈ Nat.toDigits 10 n, c.isDigit := fun c hc => Nat.isDigit_of_mem_toDigits (by norm_num) (by norm_num) hc
  unfold C131_int
  split
  · rename_i t ht
    have := hd '-' (by rw [ht]; simp)
    simp [Char.isDigit] at this
  · rw [Nat.ofDigitChars_toDigits (by norm_num) (by norm_num)]

private theorem int_intTxt (z : ℤ) : C131_int (intTxt z) = z := by
  rw [intTxt]
  split
  · rw [C131_int, Nat.ofDigitChars_toDigits (by norm_num) (by norm_num)]
    omega
  · rw [int_nat]
    omega

private theorem literal_quote (t : Txt) (h : ∀ c ∈ t, c ≠ '\'' ∧ c ≠ '\\' ∧ c ≠ '\n') : C131_literal (quote t) = some t := by
  rw [quote, List.cons_append, C131_literal, if_pos]
  · simp
  · simpa using h

/-- **C131**: a text without line breaks in its parts assigns each attribute once: the coordinates are put as they are given, charge, spin and
memory are the numbers, and units and basis are literals of the given texts unless these have quotes or backslashes. -/
theorem C131_script (coords basis units : Txt) (memory charge spin : ℤ) (h1 : '\n' ∉ coords) (h2 : '\n' ∉ basis) (h3 : '\n' ∉ units) :
    C131_read "mol.atom" (makeInput coords basis (intTxt memory) charge spin units) = [coords] ∧
    (C131_read "mol.charge" (makeInput coords basis (intTxt memory) charge spin units)).map C131_int = [charge] ∧
    (C131_read "mol.spin" (makeInput coords basis (intTxt memory) charge spin units)).map C131_int = [spin] ∧
    (C131_read "mol.max_memory" (makeInput coords basis (intTxt memory) charge spin units)).map C131_int = [memory] ∧
    ((∀ c ∈ units, c ≠ '\'' ∧ c ≠ '\\') →
      (C131_read "mol.unit" (makeInput coords basis (intTxt memory) charge spin units)).map C131_literal = [some units]) ∧
    ((∀ c ∈ basis, c ≠ '\'' ∧ c ≠ '\\') →
      (C131_read "mol.basis" (makeInput coords basis (intTxt memory) charge spin units)).map C131_literal = [some basis]) := by
  have e : makeInput coords basis (intTxt memory) charge spin units =
     ((inputLines coords basis (intTxt memory) charge spin units).map Line.text).flatMap fun l => l ++ ['\n'] := by
    rw [makeInput, List.flatMap_map]
  have h5 := intTxt_newline charge
  have h6 := intTxt_newline spin
  have h7 := intTxt_newline memory
  have hs : (makeInput coords basis (intTxt memory) charge spin units).splitOn '\n' =
      (inputLines coords basis (intTxt memory) charge spin units).map Line.text ++ [[]] := by
    rw [e, splitOn_lines]
    simp [inputLines, Line.text, quote, h1, h2, h3, h5, h6, h7]
  simp only [C131_read, hs]
  refine ⟨?_, ?_, ?_, ?_, fun hu => ?_, fun hb => ?_⟩
  · simp [inputLines, Line.text, quote, List.filter, List.isPrefixOf]
  · simp [inputLines, Line.text, quote, List.filter, List.isPrefixOf, int_intTxt]
  · simp [inputLines, Line.text, quote, List.filter, List.isPrefixOf, int_intTxt]
  · simp [inputLines, Line.text, quote, List.filter, List.isPrefixOf, int_intTxt]
  · have := literal_quote units fun c hc => ⟨(hu c hc).1, (hu c hc).2, by rintro rfl; exact h3 hc⟩
    simpa [inputLines, Line.text, quote, List.filter, List.isPrefixOf] using this
  · have := literal_quote basis fun c hc => ⟨(hb c hc).1, (hb c hc).2, by rintro rfl; exact h2 hc⟩
    simpa [inputLines, Line.text, quote, List.filter, List.isPrefixOf] using this

/-- **C131**: the documentation wants the coordinates as a text; a text of atoms is not put between quotes, as units and basis are, so that the
script has no literal there. -/
theorem C131_coords_disagrees (coords basis units : Txt) (memory charge spin : ℤ) (h1 : '\n' ∉ coords) (h2 : '\n' ∉ basis) (h3 : '\n' ∉ units)
    (hq : coords.head? ≠ some '\'') :
    (C131_read "mol.atom" (makeInput coords basis (intTxt memory) charge spin units)).map C131_literal = [none] := by
  rw [(C131_script coords basis units memory charge spin h1 h2 h3).1]
  rcases coords with _ | ⟨c, t⟩
  · rfl
  · have : c ≠ '\'' := by simpa using hq
    simp only [List.map_cons, List.map_nil, C131_literal]
    split
    · rename_i heq; injection heq with heq; exact absurd heq this
    · rfl

/-! ## The memory -/

/-- the texts of numbers before the units -/
def C131_number (memory : Txt) (unit number : Txt) : Prop := memory.map Char.toUpper = number ++ unit

private theorem number_iff (memory unit number : Txt) (hu : unit.length = 2) :
    C131_number memory unit number ↔ (memory.map Char.toUpper).drop ((memory.map Char.toUpper).length - 2) = unit ∧
      (memory.map Char.toUpper).take ((memory.map Char.toUpper).length - 2) = number := by
  rw [C131_number]
  constructor
  · intro h
    rw [h, List.length_append, hu, Nat.add_sub_cancel]
    simp
  · rintro ⟨rfl, rfl⟩
    exact (List.take_append_drop _ _).symm

/-- **C131**: gigabytes and megabytes (in lower or upper case) become the whole number of megabytes that is not larger; everything else raises
`ValueError`. -/
theorem C131_memory (float : Txt → Option ℚ) (memory : Txt) :
    (∀ t x, C131_number memory ['G', 'B'] t → float t = some x → 0 ≤ x →
      ∃ n : ℤ, memoryMB float memory = .ok (intTxt n) ∧ (n : ℚ) ≤ x * 1024 ∧ x * 1024 < n + 1) ∧
    (∀ t x, C131_number memory ['M', 'B'] t → float t = some x → 0 ≤ x →
      ∃ n : ℤ, memoryMB float memory = .ok (intTxt n) ∧ (n : ℚ) ≤ x ∧ x < n + 1) ∧
    ((¬ ∃ t x, (C131_number memory ['G', 'B'] t ∨ C131_number memory ['M', 'B'] t) ∧ float t = some x) →
      memoryMB float memory = .error .valueError) := by
  refine ⟨fun t x h hf hx => ?_, fun t x h hf hx => ?_, fun h => ?_⟩
  · obtain ⟨h1, h2⟩ := (number_iff _ _ _ rfl).1 h
    refine ⟨⌊x * 1024⌋, ?_, Int.floor_le _, Int.lt_floor_add_one _⟩
    rw [memoryMB]
    simp only [h1, h2, if_true, hf, truncate]
    rw [if_pos (by positivity)]
  · obtain ⟨h1, h2⟩ := (number_iff _ _ _ rfl).1 h
    refine ⟨⌊x⌋, ?_, Int.floor_le _, Int.lt_floor_add_one _⟩
    rw [memoryMB]
    simp only [h1, h2, hf, truncate]
    rw [if_neg (by decide), if_pos trivial, if_pos hx]
  · rw [memoryMB]
    split_ifs with hg hm
    · rw [show float _ = none from ?_]
      rw [Option.eq_none_iff_forall_ne_some]
      exact fun x hx => h ⟨_, x, Or.inl ((number_iff _ _ _ rfl).2 ⟨hg, rfl⟩), hx⟩
    · rw [show float _ = none from ?_]
      rw [Option.eq_none_iff_forall_ne_some]
      exact fun x hx => h ⟨_, x, Or.inr ((number_iff _ _ _ rfl).2 ⟨hm, rfl⟩), hx⟩
    · rfl

/-- **C131**: negative amounts of memory are accepted -/
theorem C131_negative (float : Txt → Option ℚ) (memory t : Txt) (x : ℚ) (h : C131_number memory ['M', 'B'] t) (hf : float t = some x) (hx : x ≤ -1) :
    ∃ n : ℤ, n < 0 ∧ memoryMB float memory = .ok (intTxt n) := by
  obtain ⟨h1, h2⟩ := (number_iff _ _ _ rfl).1 h
  refine ⟨⌈x⌉, ?_, ?_⟩
  · have : ⌈x⌉ ≤ -1 := Int.ceil_le.2 (by push_cast; exact hx)
    omega
  · rw [memoryMB]
    simp only [h1, h2, hf, truncate]
    rw [if_neg (by decide), if_pos trivial, if_neg (by linarith)]

/-! ## The files -/

/-- everything is in directories -/
def C131_tree (fs : Fs) : Prop := (∃ n, fs [] = some n) ∧ ∀ p q, q ≠ [] → fs (p ++ q) ≠ none → fs p = some .dir

private theorem fold_makeDir (l : List Path) (fs : Fs) :
    ((∀ q ∈ l, ∀ t, fs q ≠ some (.file t)) → l.foldlM makeDir fs = .ok fun q => if q ∈ l then some .dir else fs q) ∧
    ((∃ q ∈ l, ∃ t, fs q = some (.file t)) → l.foldlM makeDir fs = .error .runtimeError) := by
  induction l generalizing fs with
  | nil => exact ⟨fun _ => by simp; rfl, by simp⟩
  | cons p l ih =>
    rw [List.foldlM_cons]
    rcases hp : fs p with _ | ⟨_ | t⟩
    · have e : makeDir fs p = .ok fun q => if q = p then some .dir else fs q := by rw [makeDir, hp]
      rw [e]
      simp only [bind, Except.bind]
      constructor
      · intro h
        rw [(ih _).1]
        · congr 1
          funext q
          by_cases h1 : q ∈ l <;> by_cases h2 : q = p <;> simp [h1, h2]
        · intro q hq t
          split_ifs
          · simp
          · exact h q (by simp [hq]) t
      · rintro ⟨q, hq, t, ht⟩
        have hqp : q ≠ p := by rintro rfl; rw [hp] at ht; cases ht
        refine (ih _).2 ⟨q, by simpa [hqp] using hq, t, by simp [hqp, ht]⟩
    · have e : makeDir fs p = .ok fs := by rw [makeDir, hp]
      rw [e]
      simp only [bind, Except.bind]
      constructor
      · intro h
        rw [(ih _).1 fun q hq => h q (by simp [hq])]
        congr 1
        funext q
        by_cases h1 : q ∈ l <;> by_cases h2 : q = p <;> simp [h1, h2, hp]
      · rintro ⟨q, hq, t, ht⟩
        have hqp : q ≠ p := by rintro rfl; rw [hp] at ht; cases ht
        exact (ih _).2 ⟨q, by simpa [hqp] using hq, t, ht⟩
    · have e : makeDir fs p = .error .runtimeError := by rw [makeDir, hp]
      rw [e]
      refine ⟨fun h => absurd hp (h p (by simp) t), fun _ => rfl⟩

private theorem dirs_made (fs : Fs) (hfs : C131_tree fs) (p : Path) :
    ((∀ q, q <+: p → ∀ t, fs q ≠ some (.file t)) →
      ensureDir fs p = .ok fun q => if q <+: p then some .dir else fs q) ∧
    ((∃ q, q <+: p ∧ ∃ t, fs q = some (.file t)) →
      ensureDir fs p = .error .runtimeError) := by
  by_cases hp : fs p = some .dir
  · have hall : ∀ q, q <+: p → fs q = some .dir := by
      rintro q ⟨r, rfl⟩
      rcases r with _ | ⟨a, r⟩
      · simpa using hp
      · exact hfs.2 q (a :: r) (by simp) (by rw [hp]; simp)
    have e : ensureDir fs p = .ok fs := by rw [ensureDir, hp]
    rw [e]
    refine ⟨fun _ => ?_, ?_⟩
    · congr 1
      funext q
      split_ifs with hq
      · exact hall q hq
      · rfl
    · rintro ⟨q, hq, t, ht⟩
      rw [hall q hq] at ht
      cases ht
  · have e : ensureDir fs p = makedirs fs p := by
      rw [ensureDir]
      split
      · rename_i h; exact absurd h hp
      · rfl
    rw [e, makedirs]
    have := fold_makeDir p.inits fs
    simp only [List.mem_inits] at this
    exact this

/-- the path of an argument: itself, or below the current directory -/
def C131_path (cwd : Path) (arg : PathArg) (p : Path) : Prop := arg = .abs p ∨ ∃ r, arg = .rel r ∧ p = cwd ++ r

/-- **C131**: with an accepted amount of memory, and unless a file is in the way, the directories of the path are made, the script is written to
`calculate.py` in the last of them, nothing else changes and the current directory is the same afterwards. -/
theorem C131_written (float : Txt → Option ℚ) (st : St) (hfs : C131_tree st.fs) (arg : PathArg) (p : Path) (hpath : C131_path st.cwd arg p) (coords basis memory mb units : Txt) (charge spin : ℤ)
    (hm : memoryMB float memory = .ok mb) (hd : ∀ q, q <+: p → ∀ t, st.fs q ≠ some (.file t))
    (hc : st.fs (p ++ ["calculate.py"]) ≠ some .dir) :
    ∃ st', writePyscfPy float st arg coords basis memory charge spin units = (st', .ok ()) ∧ st'.cwd = st.cwd ∧
      st'.fs (p ++ ["calculate.py"]) = some (.file (makeInput coords basis mb charge spin units)) ∧
      (∀ q, q <+: p → st'.fs q = some .dir) ∧
      ∀ q, ¬ q <+: p ++ ["calculate.py"] → st'.fs q = st.fs q := by
  obtain rfl : arg.join st.cwd = p := by rcases hpath with rfl | ⟨r, rfl, rfl⟩ <;> rfl
  have hne : ¬ (arg.join st.cwd ++ ["calculate.py"]) <+: arg.join st.cwd := fun h => by
    have := h.length_le
    simp at this
  have e := (dirs_made st.fs hfs (arg.join st.cwd)).1 hd
  refine ⟨⟨st.cwd, fun q => if q = arg.join st.cwd ++ ["calculate.py"] then some (.file (makeInput coords basis mb charge spin units)) else
    if q <+: arg.join st.cwd then some .dir else st.fs q⟩, ?_, ?_⟩
  · rw [writePyscfPy, hm]
    simp only [e, if_neg hne]
  · refine ⟨rfl, by simp, fun q hq => ?_, fun q hq => ?_⟩
    · simp only
      rw [if_neg (by rintro rfl; exact hne hq), if_pos hq]
    · simp only
      rw [if_neg (by rintro rfl; exact hq (List.prefix_refl _)), if_neg fun h => hq (h.trans (List.prefix_append _ _))]

/-- **C131**: with a refused amount of memory, or a file in the way, nothing changes. -/
theorem C131_refused (float : Txt → Option ℚ) (st : St) (hfs : C131_tree st.fs) (arg : PathArg) (p : Path) (hpath : C131_path st.cwd arg p) (coords basis memory units : Txt) (charge spin : ℤ) :
    (∀ e, memoryMB float memory = .error e → writePyscfPy float st arg coords basis memory charge spin units = (st, .error e)) ∧
    (∀ mb q t, memoryMB float memory = .ok mb → q <+: p → st.fs q = some (.file t) →
      writePyscfPy float st arg coords basis memory charge spin units = (st, .error .runtimeError)) := by
  obtain rfl : arg.join st.cwd = p := by rcases hpath with rfl | ⟨r, rfl, rfl⟩ <;> rfl
  refine ⟨fun e h => by rw [writePyscfPy, h], fun mb q t hm hq ht => ?_⟩
  rw [writePyscfPy, hm]
  simp only [(dirs_made st.fs hfs (arg.join st.cwd)).2 ⟨q, hq, t, ht⟩]

/-- **C131**: if the script cannot be written, because `calculate.py` is a directory, the current directory is another one afterwards. -/
theorem C131_cwd_disagrees (float : Txt → Option ℚ) (st : St) (hfs : C131_tree st.fs) (arg : PathArg) (p : Path) (hpath : C131_path st.cwd arg p) (coords basis memory mb units : Txt)
    (charge spin : ℤ) (hm : memoryMB float memory = .ok mb) (hc : st.fs (p ++ ["calculate.py"]) = some .dir) :
    ∃ st', writePyscfPy float st arg coords basis memory charge spin units = (st', .error .runtimeError) ∧ st'.cwd = p ∧
      st'.fs = st.fs := by
  obtain rfl : arg.join st.cwd = p := by rcases hpath with rfl | ⟨r, rfl, rfl⟩ <;> rfl
  have hp : st.fs (arg.join st.cwd) = some .dir := hfs.2 _ ["calculate.py"] (by simp) (by rw [hc]; simp)
  refine ⟨⟨arg.join st.cwd, st.fs⟩, ?_, rfl, rfl⟩
  rw [writePyscfPy, hm]
  simp only [ensureDir, hp, hc]

/- the hypotheses can be met -/
example : C131_tree (fun q => if q = [] ∨ q = ["home"] then some .dir else none) ∧
    C131_number "4gB".toList ['G', 'B'] ['4'] ∧ '\n' ∉ "H 0 0 0; H 0 0 0.74".toList ∧ "H 0 0 0; H 0 0 0.74".toList.head? ≠ some '\'' ∧
    memoryMB (fun t => if t = ['4'] then some 4 else none) "4gB".toList = .ok "4096".toList := by
  refine ⟨⟨⟨.dir, by simp⟩, fun p q hq h => ?_⟩, (by decide : "4gB".toList.map Char.toUpper = ['4', 'G', 'B']), by decide, by decide, ?_⟩
  · have : p = [] := by
      by_contra hp
      rcases p with _ | ⟨a, p⟩
      · exact hp rfl
      · rcases q with _ | ⟨b, q⟩
        · exact hq rfl
        · simp at h
    simp [this]
  · obtain ⟨n, h1, h2, h3⟩ := (C131_memory (fun t => if t = ['4'] then some 4 else none) "4gB".toList).1 ['4'] 4
      (by decide : "4gB".toList.map Char.toUpper = ['4', 'G', 'B']) (by simp) (by norm_num)
    have : n = 4096 := by
      have a : (n : ℚ) ≤ 4096 := by linarith
      have b : (4095 : ℚ) < n := by linarith
      have a' : n ≤ 4096 := by exact_mod_cast a
      have b' : (4095 : ℤ) < n := by exact_mod_cast b
      omega
    rw [h1, this]
    decide

end Fanpy.Props
