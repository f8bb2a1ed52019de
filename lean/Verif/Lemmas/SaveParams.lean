import Verif.Spec.SaveParams
import Verif.Lemmas.Text
import Mathlib.Tactic

/-! Lemmas on saved parameters: extensions of file names, names with counters, and the files of paths. -/

namespace Fanpy.SaveParams
open Fanpy.Text

variable {P : Type}

/-! ### Extensions -/

theorem ne_of_notMem {c : Char} {b : Str} (h : c ∉ b) : ∀ x ∈ b, decide (x ≠ c) = true := by
  intro x hx
  have : x ≠ c := fun e => h (e ▸ hx)
  simpa using this


theorem takeWhile_rev {p : Char → Bool} {a b : Str} (hb : ∀ c ∈ b, p c) (ha : a = [] ∨ ∃ a' c, a = a' ++ [c] ∧ p c = false) :
    ((a ++ b).reverse.takeWhile p).reverse = b := by
  rw [List.reverse_append, List.takeWhile_append_of_pos (by simpa using hb)]
  rcases ha with rfl | ⟨a', c, rfl, hc⟩
  · simp
  · simp [hc]

/-- a directory: nothing, or a text that ends with a slash -/
def IsDir (d : Str) : Prop := d = [] ∨ ∃ d', d = d' ++ ['/']

theorem baseStart_append {d b : Str} (hd : IsDir d) (hb : '/' ∉ b) : baseStart (d ++ b) = d.length := by
  have := takeWhile_rev (p := (· ≠ '/')) (a := d) (b := b) (ne_of_notMem hb)
    (by rcases hd with rfl | ⟨d', rfl⟩
        · exact .inl rfl
        · exact .inr ⟨d', '/', rfl, by simp⟩)
  have := congrArg List.length this
  rw [List.length_reverse] at this
  rw [baseStart, this]
  simp

theorem exists_dir (s : Str) : ∃ d b, IsDir d ∧ '/' ∉ b ∧ s = d ++ b := by
  induction s using List.reverseRecOn with
  | nil => exact ⟨[], [], .inl rfl, by simp, rfl⟩
  | append_singleton s c ih =>
    by_cases hc : c = '/'
    · subst hc
      exact ⟨s ++ ['/'], [], .inr ⟨s, rfl⟩, by simp, by simp⟩
    · obtain ⟨d, b, hd, hb, rfl⟩ := ih
      exact ⟨d, b ++ [c], hd, by simp [hb, Ne.symm hc], by simp⟩

theorem exists_dot (b : Str) : '.' ∉ b ∨ ∃ t x, '.' ∉ x ∧ b = t ++ '.' :: x := by
  induction b using List.reverseRecOn with
  | nil => exact .inl (by simp)
  | append_singleton b c ih =>
    by_cases hc : c = '.'
    · subst hc
      exact .inr ⟨b, [], by simp, by simp⟩
    · rcases ih with h | ⟨t, x, hx, rfl⟩
      · exact .inl (by simp [h, Ne.symm hc])
      · exact .inr ⟨t, x ++ [c], by simp [hx, Ne.symm hc], by simp⟩

theorem splitext_nodot {d b : Str} (hd : IsDir d) (hb : '/' ∉ b) (h : '.' ∉ b) : splitext (d ++ b) = (d ++ b, []) := by
  have he := takeWhile_rev (p := (· ≠ '.')) (a := []) (b := b) (ne_of_notMem h) (.inl rfl)
  simp only [splitext, baseStart_append hd hb, List.drop_left]
  rw [List.nil_append] at he
  rw [he, if_pos rfl]

theorem splitext_dots {d t x : Str} (hd : IsDir d) (hb : '/' ∉ t ++ '.' :: x) (hx : '.' ∉ x) (ht : ∀ c ∈ t, c = '.') :
    splitext (d ++ (t ++ '.' :: x)) = (d ++ (t ++ '.' :: x), []) := by
  have he := takeWhile_rev (p := (· ≠ '.')) (a := t ++ ['.']) (b := x) (ne_of_notMem hx)
    (.inr ⟨t, '.', rfl, by simp⟩)
  simp only [splitext, baseStart_append hd hb, List.drop_left]
  rw [List.append_assoc, List.singleton_append] at he
  rw [he, if_neg (by simp; omega), if_pos]
  have : (t ++ '.' :: x).length - x.length - 1 = t.length := by simp; omega
  rw [this, List.take_left]
  simpa using ht

theorem splitext_ext {d t x : Str} (hd : IsDir d) (hb : '/' ∉ t ++ '.' :: x) (hx : '.' ∉ x) (ht : ∃ c ∈ t, c ≠ '.') :
    splitext (d ++ (t ++ '.' :: x)) = (d ++ t, '.' :: x) := by
  have he := takeWhile_rev (p := (· ≠ '.')) (a := t ++ ['.']) (b := x) (ne_of_notMem hx)
    (.inr ⟨t, '.', rfl, by simp⟩)
  simp only [splitext, baseStart_append hd hb, List.drop_left]
  rw [List.append_assoc, List.singleton_append] at he
  have : (t ++ '.' :: x).length - x.length - 1 = t.length := by simp; omega
  rw [he, if_neg (by simp; omega), this, List.take_left, List.take_left, if_neg]
  obtain ⟨c, hc, hne⟩ := ht
  rw [List.all_eq_true]
  exact fun h => hne (by simpa using h c hc)

theorem splitext_append (s : Str) : (splitext s).1 ++ (splitext s).2 = s := by
  obtain ⟨d, b, hd, hb, rfl⟩ := exists_dir s
  rcases exists_dot b with h | ⟨t, x, hx, rfl⟩
  · rw [splitext_nodot hd hb h]; simp
  · by_cases ht : ∃ c ∈ t, c ≠ '.'
    · rw [splitext_ext hd hb hx ht]; simp
    · push Not at ht
      rw [splitext_dots hd hb hx ht]; simp

/-- a name without dots and slashes is put before the extension -/
theorem splitext_insert (s y : Str) (h1 : '.' ∉ y) (h2 : '/' ∉ y) :
    splitext ((splitext s).1 ++ '_' :: y ++ (splitext s).2) = ((splitext s).1 ++ '_' :: y, (splitext s).2) := by
  obtain ⟨d, b, hd, hb, rfl⟩ := exists_dir s
  rcases exists_dot b with h | ⟨t, x, hx, rfl⟩
  · rw [splitext_nodot hd hb h]
    simp only [List.append_nil, List.append_assoc]
    exact splitext_nodot hd (by simp [hb, h2]) (by simp [h, h1])
  · have hs : '/' ∉ t ∧ '/' ∉ x := by simpa using hb
    by_cases ht : ∃ c ∈ t, c ≠ '.'
    · rw [splitext_ext hd hb hx ht]
      have := splitext_ext (d := d) (t := t ++ '_' :: y) (x := x) hd (by simp [hs.1, hs.2, h2]) hx ⟨'_', by simp, by decide⟩
      simpa using this
    · push Not at ht
      rw [splitext_dots hd hb hx ht]
      have := splitext_dots (d := d) (t := t) (x := x ++ '_' :: y) hd (by simp [hs.1, hs.2, h2]) (by simp [hx, h1]) ht
      simpa using this

theorem splitext_fileOf (s y : Str) (h1 : '.' ∉ y) (h2 : '/' ∉ y) :
    splitext (fileOf s y) = ((splitext s).1 ++ '_' :: y, (splitext s).2) := splitext_insert s y h1 h2

/-- the extension: nothing, or a dot followed by a text without dots -/
theorem ext_cases (s : Str) : (splitext s).2 = [] ∨ ∃ x, ('.' ∉ x ∧ '/' ∉ x) ∧ (splitext s).2 = '.' :: x := by
  obtain ⟨d, b, hd, hb, rfl⟩ := exists_dir s
  rcases exists_dot b with h | ⟨t, x, hx, rfl⟩
  · rw [splitext_nodot hd hb h]; exact .inl rfl
  · by_cases ht : ∃ c ∈ t, c ≠ '.'
    · rw [splitext_ext hd hb hx ht]; exact .inr ⟨x, ⟨hx, fun h => hb (by simp [h])⟩, rfl⟩
    · push Not at ht
      rw [splitext_dots hd hb hx ht]; exact .inl rfl

/-! ### Names with counters -/

theorem isDigit_pyStr (n : ℕ) : ∀ c ∈ pyStr n, c.isDigit := fun _ hc => Nat.isDigit_of_mem_toDigits (by decide) (by decide) hc

theorem pyStr_inj {m n : ℕ} (h : pyStr m = pyStr n) : m = n := by
  have := congrArg (parseInt 10) h
  rw [parseInt_ten_pyStr, parseInt_ten_pyStr] at this
  exact Except.ok.inj this

theorem length_labelsFrom (all : List Str) (count : Str → ℕ) (l : List Str) : (labelsFrom all count l).length = l.length := by
  induction l generalizing count with
  | nil => rfl
  | cons a l ih => rw [labelsFrom]; split_ifs <;> simp [ih]

theorem labelsFrom_getElem? (pre rest : List Str) (count : Str → ℕ)
    (hc : ∀ n, 1 < (pre ++ rest).count n → count n = pre.count n) (i : ℕ) (hi : i < rest.length) :
    (labelsFrom (pre ++ rest) count rest)[i]? = some (label (pre ++ rest) (pre.length + i)) := by
  induction rest generalizing pre count i with
  | nil => simp at hi
  | cons a rest ih =>
    have hall : pre ++ a :: rest = (pre ++ [a]) ++ rest := by simp
    have hhead : (pre ++ a :: rest).getD pre.length [] = a := by simp
    have htake : (pre ++ a :: rest).take (pre.length + 1) = pre ++ [a] := by
      rw [List.take_append]; simp
    have hpos : 0 < (pre ++ a :: rest).count a := List.count_pos_iff.2 (by simp)
    rw [labelsFrom]
    cases i with
    | zero =>
      rw [Nat.add_zero pre.length, label, hhead, htake]
      by_cases h : (pre ++ a :: rest).count a > 1
      · rw [if_pos h, if_neg (by omega)]
        simp [hc a h]
      · rw [if_neg h, if_pos (by omega)]
        simp
    | succ i =>
      have hi' : i < rest.length := by simpa using hi
      have hlen : pre.length + (i + 1) = (pre ++ [a]).length + i := by simp; omega
      rw [hlen]
      by_cases h : (pre ++ a :: rest).count a > 1
      · rw [if_pos h, List.getElem?_cons_succ, hall]
        apply ih (pre ++ [a]) _ _ _ hi'
        intro n hn
        rw [← hall] at hn
        rw [List.count_append]
        by_cases hna : n = a
        · subst hna
          simp [hc n hn]
        · rw [Function.update_of_ne hna, hc n hn]
          simp [Ne.symm hna]
      · rw [if_neg h, List.getElem?_cons_succ, hall]
        apply ih (pre ++ [a]) _ _ _ hi'
        intro n hn
        rw [← hall] at hn
        have hna : n ≠ a := fun e => h (e ▸ hn)
        rw [List.count_append, hc n hn]
        simp [Ne.symm hna]

theorem labels_getElem? (names : List Str) (i : ℕ) (hi : i < names.length) : (labels names)[i]? = some (label names i) := by
  have := labelsFrom_getElem? [] names (fun _ => 0) (fun _ _ => rfl) i hi
  rw [labels]
  simpa using this

theorem length_labels (names : List Str) : (labels names).length = names.length := length_labelsFrom _ _ _

theorem count_take_lt {names : List Str} {i j : ℕ} (hij : i < j) (hj : j < names.length) :
    (names.take (i + 1)).count (names.getD j []) < (names.take (j + 1)).count (names.getD j []) := by
  have h1 : (names.take (j + 1)) = names.take j ++ [names.getD j []] := by
    rw [List.take_add_one, List.getD_eq_getElem?_getD, List.getElem?_eq_getElem hj]; simp
  rw [h1, List.count_append]
  have : (names.take (i + 1)).count (names.getD j []) ≤ (names.take j).count (names.getD j []) := by
    apply List.Sublist.count_le
    rw [show names.take (i + 1) = (names.take j).take (i + 1) by rw [List.take_take]; congr 1; omega]
    exact List.take_sublist _ _
  rw [List.count_singleton_self]
  omega

theorem mem_take {names : List Str} {k : ℕ} (hk : k < names.length) : names.getD k [] ∈ names.take (k + 1) := by
  rw [List.take_add_one, List.getD_eq_getElem?_getD, List.getElem?_eq_getElem hk]
  exact List.mem_append_right _ (by simp)

theorem label_inj {names : List Str} (hn : Unnumbered names) {i j : ℕ} (hi : i < names.length) (hj : j < names.length)
    (h : label names i = label names j) : i = j := by
  have mem : ∀ {k}, k < names.length → names.getD k [] ∈ names := fun hk => by
    rw [List.getD_eq_getElem?_getD, List.getElem?_eq_getElem hk]; simp
  have hmi := mem hi
  have hmj := mem hj
  by_contra hne
  rw [label, label] at h
  by_cases hab : names.getD i [] = names.getD j []
  · -- the same name
    have hcount : names.count (names.getD j []) ≠ 1 := by
      intro h1
      rcases Nat.lt_or_gt_of_ne hne with hlt | hlt
      · have e1 := count_take_lt hlt hj
        have e2 : 0 < (names.take (i + 1)).count (names.getD j []) := by
          rw [List.count_pos_iff, ← hab]
          exact mem_take hi
        have e3 : (names.take (j + 1)).count (names.getD j []) ≤ names.count (names.getD j []) :=
          (List.take_sublist _ _).count_le _
        omega
      · have e1 := count_take_lt hlt hi
        rw [hab] at e1
        have e2 : 0 < (names.take (j + 1)).count (names.getD j []) := by
          rw [List.count_pos_iff]
          exact mem_take hj
        have e3 : (names.take (i + 1)).count (names.getD j []) ≤ names.count (names.getD j []) :=
          (List.take_sublist _ _).count_le _
        omega
    rw [hab, if_neg hcount, if_neg hcount] at h
    have := pyStr_inj (List.append_cancel_left h)
    rcases Nat.lt_or_gt_of_ne hne with hlt | hlt
    · have e1 := count_take_lt hlt hj
      omega
    · have e1 := count_take_lt hlt hi
      rw [hab] at e1
      omega
  · have two : ∀ {a : Str}, a ∈ names → names.count a ≠ 1 → 1 < names.count a := fun ha h1 => by
      have := List.count_pos_iff.2 ha
      omega
    split_ifs at h with h1 h2 h2
    · exact hab h
    · exact hn _ hmj _ hmi (two hmj h2) _ (pyStr_ne_nil _) (isDigit_pyStr _) h
    · exact hn _ hmi _ hmj (two hmi h1) _ (pyStr_ne_nil _) (isDigit_pyStr _) h.symm
    · rcases List.append_eq_append_iff.1 h with ⟨s, hs1, hs2⟩ | ⟨s, hs1, hs2⟩
      · refine hn _ hmi _ hmj (two hmi h1) s (fun e => hab (by rw [hs1, e, List.append_nil])) ?_ hs1
        intro c hc
        exact isDigit_pyStr _ c (by rw [hs2]; simp [hc])
      · refine hn _ hmj _ hmi (two hmj h2) s (fun e => hab (by rw [hs1, e, List.append_nil])) ?_ hs1
        intro c hc
        exact isDigit_pyStr _ c (by rw [hs2]; simp [hc])

theorem plain_label {names : List Str} (h : ∀ n ∈ names, Plain n) {i : ℕ} (hi : i < names.length) : Plain (label names i) := by
  have hm : names.getD i [] ∈ names := by
    rw [List.getD_eq_getElem?_getD, List.getElem?_eq_getElem hi]; simp
  obtain ⟨a, b, c⟩ := h _ hm
  have nd : ∀ {c : Char} (k : ℕ), c.isDigit = false → c ∉ pyStr k := fun k hc hm => by
    rw [isDigit_pyStr k _ hm] at hc; cases hc
  rw [label]
  split_ifs
  · exact ⟨a, b, c⟩
  · refine ⟨?_, ?_, ?_⟩ <;> rw [List.mem_append, not_or]
    · exact ⟨a, nd _ (by decide)⟩
    · exact ⟨b, nd _ (by decide)⟩
    · exact ⟨c, nd _ (by decide)⟩

/-! ### Files of paths -/

/-- the text of a path -/
def flat (path : List Str) : Str := path.flatMap ('_' :: ·)

theorem flat_cons (n : Str) (path : List Str) : flat (n :: path) = '_' :: n ++ flat path := by
  simp [flat]

theorem pathFile_eq (s : Str) (path : List Str) : pathFile s path = npyName ((splitext s).1 ++ flat path ++ (splitext s).2) := rfl

theorem dot_notMem_flat {path : List Str} (h : ∀ n ∈ path, Plain n) : '.' ∉ flat path := by
  intro hm
  simp only [flat, List.mem_flatMap, List.mem_cons] at hm
  obtain ⟨n, hn, hc | hc⟩ := hm
  · revert hc; decide
  · exact (h n hn).2.1 hc

theorem flat_inj {p q : List Str} (hp : ∀ n ∈ p, Plain n) (hq : ∀ n ∈ q, Plain n) (h : flat p = flat q) : p = q := by
  induction p generalizing q with
  | nil =>
    cases q with
    | nil => rfl
    | cons b q => simp [flat] at h
  | cons a p ih =>
    cases q with
    | nil => simp [flat] at h
    | cons b q =>
      rw [flat_cons, flat_cons, List.cons_append, List.cons_append] at h
      have h := (List.cons.inj h).2
      have key : ∀ (s : List Str), flat s = [] ∨ ∃ t, flat s = '_' :: t := fun s => by
        cases s with
        | nil => exact .inl rfl
        | cons c s => exact .inr ⟨_, flat_cons c s⟩
      have tw : ∀ (c : Str) (s : List Str), Plain c → (c ++ flat s).takeWhile (· ≠ '_') = c := fun c s hc => by
        rw [List.takeWhile_append_of_pos (ne_of_notMem hc.1)]
        rcases key s with e | ⟨t, e⟩ <;> rw [e] <;> simp
      have hab : a = b := by
        rw [← tw a p (hp a (by simp)), h, tw b q (hq b (by simp))]
      subst hab
      rw [ih (fun n hn => hp n (by simp [hn])) (fun n hn => hq n (by simp [hn])) (List.append_cancel_left h)]

theorem suffix_dot {a x : Str} (hx : '.' ∉ x) (h : npySuffix <:+ a ++ '.' :: x) : '.' :: x = npySuffix := by
  obtain ⟨t, ht⟩ := h
  have h1 := takeWhile_rev (p := (· ≠ '.')) (a := t ++ ['.']) (b := ['n', 'p', 'y']) (by decide) (.inr ⟨t, '.', rfl, by simp⟩)
  have h2 := takeWhile_rev (p := (· ≠ '.')) (a := a ++ ['.']) (b := x) (ne_of_notMem hx) (.inr ⟨a, '.', rfl, by simp⟩)
  have e : t ++ ['.'] ++ ['n', 'p', 'y'] = a ++ ['.'] ++ x := by simpa [npySuffix] using ht
  rw [e, h2] at h1
  rw [h1, npySuffix]

theorem suffix_nodot {a y : Str} (hy : '.' ∉ y) (hne : y ≠ []) (hh : ∃ t, y = '_' :: t) (h : npySuffix <:+ a ++ y) : False := by
  obtain ⟨t, ht⟩ := h
  obtain ⟨z, rfl⟩ := hh
  have e : (t ++ ['.']) ++ ['n', 'p', 'y'] = a ++ '_' :: z := by simpa [npySuffix] using ht
  rcases List.append_eq_append_iff.1 e with ⟨s, hs1, hs2⟩ | ⟨s, hs1, hs2⟩
  · have : '_' ∈ (['n', 'p', 'y'] : Str) := by rw [hs2]; simp
    revert this; decide
  · rcases List.eq_nil_or_concat s with rfl | ⟨s', c, rfl⟩
    · rw [List.nil_append] at hs2
      have := (List.cons.inj hs2).1
      revert this; decide
    · have hc : c = '.' := by
        have := congrArg List.getLast? hs1
        simpa using this.symm
      apply hy
      rw [hs2, hc]
      simp

theorem npyName_inj {s : Str} {p q : List Str} (hp : ∀ n ∈ p, Plain n) (hq : ∀ n ∈ q, Plain n)
    (h : pathFile s p = pathFile s q) : p = q := by
  rw [pathFile_eq, pathFile_eq, npyName, npyName] at h
  have fin : (splitext s).1 ++ flat p ++ (splitext s).2 = (splitext s).1 ++ flat q ++ (splitext s).2 → p = q := fun e =>
    flat_inj hp hq (List.append_cancel_left (List.append_cancel_right e))
  rcases ext_cases s with he | ⟨x, ⟨hx, _⟩, he⟩
  · rw [he] at h fin
    simp only [List.append_nil] at h fin
    have key : ∀ r : List Str, (∀ n ∈ r, Plain n) → npySuffix <:+ (splitext s).1 ++ flat r → r = [] := fun r hr hs => by
      cases r with
      | nil => rfl
      | cons a r =>
        exact (suffix_nodot (dot_notMem_flat hr) (by simp [flat]) ⟨_, flat_cons a r⟩ hs).elim
    split_ifs at h with h1 h2 h2
    · rw [key p hp h1, key q hq h2]
    · have := congrArg List.length h
      rw [key p hp h1] at this
      simp [flat, npySuffix] at this
    · have := congrArg List.length h
      rw [key q hq h2] at this
      simp [flat, npySuffix] at this
    · exact fin (List.append_cancel_right h)
  · rw [he] at h fin
    by_cases hn : '.' :: x = npySuffix
    · rw [if_pos ⟨_, by rw [← hn]⟩, if_pos ⟨_, by rw [← hn]⟩] at h
      exact fin h
    · rw [if_neg (fun hs => hn (suffix_dot hx hs)), if_neg (fun hs => hn (suffix_dot hx hs))] at h
      exact fin (List.append_cancel_right h)

/-! ### Where data are -/

theorem plain_um : Plain (['u', 'm'] : Str) := by unfold Plain; decide

theorem at_plain {o : Obj P} {path : List Str} {p : P} (h : At o path p) (hg : Good o) : ∀ n ∈ path, Plain n := by
  induction h with
  | self o => simp
  | one c p w path q h ih =>
    cases hg with
    | one _ _ _ hc hw =>
      intro n hn
      rcases List.mem_cons.1 hn with rfl | hn
      · exact hc
      · exact ih hw n hn
  | lin c p ws i w hw path q h ih =>
    cases hg with
    | lin _ _ _ hc hn hg =>
      intro n hm
      have hi : i < ws.length := (List.getElem?_eq_some_iff.1 hw).1
      rcases List.mem_cons.1 hm with rfl | hm
      · exact plain_label (by simpa using hc) (by simpa using hi)
      · exact ih (hg w (List.mem_of_getElem? hw)) n hm
  | ham c p u =>
    intro n hn
    rw [List.mem_singleton.1 hn]
    exact plain_um

theorem at_unique {o : Obj P} {path : List Str} {p q : P} (h : At o path p) (hg : Good o) (h' : At o path q) : p = q := by
  induction h generalizing q with
  | self o =>
    cases h' with
    | self => rfl
  | one c p w path r h ih =>
    cases hg with
    | one _ _ _ hc hw =>
      cases h' with
      | one _ _ _ _ _ h' => exact ih hw h'
  | lin c p ws i w hw path r h ih =>
    cases hg with
    | lin _ _ _ hc hn hg =>
      generalize hpath : label (ws.map Obj.cls) i :: path = full at h'
      cases h' with
      | self => cases hpath
      | lin _ _ _ j w' hw' path' _ h' =>
        obtain ⟨e1, e2⟩ := List.cons.inj hpath
        have hi : i < ws.length := (List.getElem?_eq_some_iff.1 hw).1
        have hj : j < ws.length := (List.getElem?_eq_some_iff.1 hw').1
        have := label_inj hn (by simpa using hi) (by simpa using hj) e1
        subst this
        rw [hw] at hw'
        obtain rfl := Option.some.inj hw'
        exact ih (hg w (List.mem_of_getElem? hw)) (e2 ▸ h')
  | ham c p u =>
    cases h' with
    | ham => rfl

/-! ### What is written -/

theorem mem_saveAll (f : Str) (names : List Str) (ws : List (Obj P)) (hl : names.length = ws.length) (x : Str × P) :
    x ∈ saveAll f names ws ↔ ∃ (i : ℕ) (n : Str) (w : Obj P), names[i]? = some n ∧ ws[i]? = some w ∧ x ∈ w.save (fileOf f n) := by
  induction ws generalizing names with
  | nil => cases names <;> simp [saveAll] at *
  | cons w ws ih =>
    cases names with
    | nil => simp at hl
    | cons n names =>
      rw [saveAll, List.mem_append, ih names (by simpa using hl)]
      constructor
      · rintro (h | ⟨i, m, v, h1, h2, h3⟩)
        · exact ⟨0, n, w, rfl, rfl, h⟩
        · exact ⟨i + 1, m, v, by simpa using h1, by simpa using h2, h3⟩
      · rintro ⟨i, m, v, h1, h2, h3⟩
        cases i with
        | zero =>
          obtain rfl := Option.some.inj h1
          obtain rfl := Option.some.inj h2
          exact .inl h3
        | succ i => exact .inr ⟨i, m, v, by simpa using h1, by simpa using h2, h3⟩

/-- the file of a path below a file -/
theorem flat_fileOf (f n : Str) (hn : Plain n) (path : List Str) :
    (splitext (fileOf f n)).1 ++ flat path ++ (splitext (fileOf f n)).2 = (splitext f).1 ++ flat (n :: path) ++ (splitext f).2 := by
  rw [splitext_fileOf f n hn.2.1 hn.2.2, flat_cons]
  simp

theorem mem_save {o : Obj P} (hg : Good o) (f : Str) (x : Str × P) :
    x ∈ o.save f ↔ ∃ path, At o path x.2 ∧ x.1 = (splitext f).1 ++ flat path ++ (splitext f).2 := by
  have h0 : ∀ f : Str, (splitext f).1 ++ flat [] ++ (splitext f).2 = f := fun f => by
    simp [flat, splitext_append]
  induction hg generalizing f x with
  | plain c p =>
    rw [Obj.save, List.mem_singleton]
    constructor
    · rintro rfl
      exact ⟨[], .self (.plain c p), (h0 f).symm⟩
    · rintro ⟨path, h, e⟩
      cases x with
      | mk g q =>
        cases h with
        | self => rw [h0] at e; exact Prod.ext e rfl
  | one c p w hc hw ih =>
    rw [Obj.save, List.mem_cons]
    constructor
    · rintro (rfl | hm)
      · exact ⟨[], .self (.one c p w), (h0 f).symm⟩
      · obtain ⟨path, h, e⟩ := (ih _ _).1 hm
        exact ⟨w.cls :: path, .one c p w path _ h, by rw [e, flat_fileOf f _ hc]⟩
    · rintro ⟨path, h, e⟩
      cases x with
      | mk g q =>
        cases h with
        | self => rw [h0] at e; exact .inl (Prod.ext e rfl)
        | one _ _ _ path _ h => exact .inr ((ih _ _).2 ⟨path, h, by rw [e, flat_fileOf f _ hc]⟩)
  | lin c p ws hc hn hw ih =>
    rw [Obj.save, List.mem_cons, mem_saveAll _ _ _ (by rw [length_labels, List.length_map])]
    constructor
    · rintro (rfl | ⟨i, n, w, h1, h2, h3⟩)
      · exact ⟨[], .self (.lin c p ws), (h0 f).symm⟩
      · have hi : i < ws.length := (List.getElem?_eq_some_iff.1 h2).1
        rw [labels_getElem? _ i (by simpa using hi)] at h1
        obtain rfl := Option.some.inj h1
        obtain ⟨path, h, e⟩ := (ih w (List.mem_of_getElem? h2) _ _).1 h3
        refine ⟨_ :: path, .lin c p ws i w h2 path _ h, ?_⟩
        rw [e, flat_fileOf f _ (plain_label (by simpa using hc) (by simpa using hi))]
    · rintro ⟨path, h, e⟩
      cases x with
      | mk g q =>
        cases h with
        | self => rw [h0] at e; exact .inl (Prod.ext e rfl)
        | lin _ _ _ i w h2 path _ h =>
          have hi : i < ws.length := (List.getElem?_eq_some_iff.1 h2).1
          refine .inr ⟨i, _, w, labels_getElem? _ i (by simpa using hi), h2, (ih w (List.mem_of_getElem? h2) _ _).2 ⟨path, h, ?_⟩⟩
          rw [e, flat_fileOf f _ (plain_label (by simpa using hc) (by simpa using hi))]
  | ham c p u =>
    have hum : fileOf f ['u', 'm'] = (splitext f).1 ++ flat [['u', 'm']] ++ (splitext f).2 := by simp [fileOf, flat]
    rw [Obj.save, List.mem_cons, List.mem_singleton]
    constructor
    · rintro (rfl | rfl)
      · exact ⟨[], .self (.ham c p u), (h0 f).symm⟩
      · exact ⟨[['u', 'm']], .ham c p u, hum⟩
    · rintro ⟨path, h, e⟩
      cases x with
      | mk g q =>
        cases h with
        | self => rw [h0] at e; exact .inl (Prod.ext e rfl)
        | ham => exact .inr (Prod.ext (e.trans hum.symm) rfl)

theorem mem_saveEqn {comps : List (Obj P)} (hg : GoodEqn comps) {f : Str} (hf : f ≠ []) (x : Str × P) :
    x ∈ saveEqn f comps ↔ ∃ path, AtEqn comps path x.2 ∧ x.1 = (splitext f).1 ++ flat path ++ (splitext f).2 := by
  obtain ⟨hc, hn, hw⟩ := hg
  rw [saveEqn, if_pos hf, mem_saveAll _ _ _ (by rw [length_labels, List.length_map])]
  constructor
  · rintro ⟨i, n, w, h1, h2, h3⟩
    have hi : i < comps.length := (List.getElem?_eq_some_iff.1 h2).1
    rw [labels_getElem? _ i (by simpa using hi)] at h1
    obtain rfl := Option.some.inj h1
    obtain ⟨path, h, e⟩ := (mem_save (hw w (List.mem_of_getElem? h2)) _ _).1 h3
    refine ⟨_ :: path, ⟨i, w, path, h2, rfl, h⟩, ?_⟩
    rw [e, flat_fileOf f _ (plain_label (by simpa using hc) (by simpa using hi))]
  · rintro ⟨path, ⟨i, w, rest, h2, rfl, h⟩, e⟩
    have hi : i < comps.length := (List.getElem?_eq_some_iff.1 h2).1
    refine ⟨i, _, w, labels_getElem? _ i (by simpa using hi), h2, (mem_save (hw w (List.mem_of_getElem? h2)) _ _).2 ⟨rest, h, ?_⟩⟩
    rw [e, flat_fileOf f _ (plain_label (by simpa using hc) (by simpa using hi))]

theorem atEqn_plain {comps : List (Obj P)} (hg : GoodEqn comps) {path : List Str} {p : P} (h : AtEqn comps path p) :
    ∀ n ∈ path, Plain n := by
  obtain ⟨i, w, rest, h2, rfl, h⟩ := h
  have hi : i < comps.length := (List.getElem?_eq_some_iff.1 h2).1
  intro n hm
  rcases List.mem_cons.1 hm with rfl | hm
  · exact plain_label (by simpa using hg.1) (by simpa using hi)
  · exact at_plain h (hg.2.2 w (List.mem_of_getElem? h2)) n hm

theorem atEqn_unique {comps : List (Obj P)} (hg : GoodEqn comps) {path : List Str} {p q : P} (h : AtEqn comps path p)
    (h' : AtEqn comps path q) : p = q := by
  obtain ⟨i, w, rest, h2, rfl, h⟩ := h
  obtain ⟨j, w', rest', h2', e, h'⟩ := h'
  obtain ⟨e1, rfl⟩ := List.cons.inj e
  have hi : i < comps.length := (List.getElem?_eq_some_iff.1 h2).1
  have hj : j < comps.length := (List.getElem?_eq_some_iff.1 h2').1
  have := label_inj hg.2.1 (by simpa using hi) (by simpa using hj) e1
  subst this
  rw [h2] at h2'
  obtain rfl := Option.some.inj h2'
  exact at_unique h (hg.2.2 w (List.mem_of_getElem? h2)) h'

/-! ### The file system -/

theorem load_not (fs : Str → Option P) (ws : List (Str × P)) (g : Str) (h : ∀ w ∈ ws, npyName w.1 ≠ g) : load fs ws g = fs g := by
  induction ws generalizing fs with
  | nil => rfl
  | cons w ws ih =>
    rw [load, List.foldl_cons]
    change load (Function.update fs (npyName w.1) (some w.2)) ws g = fs g
    rw [ih _ (fun v hv => h v (by simp [hv])), Function.update_of_ne (h w (by simp)).symm]

theorem load_eq (fs : Str → Option P) (ws : List (Str × P)) (g : Str) (p : P) (hw : ∃ w ∈ ws, npyName w.1 = g)
    (h : ∀ w ∈ ws, npyName w.1 = g → w.2 = p) : load fs ws g = some p := by
  induction ws generalizing fs with
  | nil => obtain ⟨w, hw, _⟩ := hw; cases hw
  | cons w ws ih =>
    rw [load, List.foldl_cons]
    change load (Function.update fs (npyName w.1) (some w.2)) ws g = some p
    by_cases hx : ∃ v ∈ ws, npyName v.1 = g
    · exact ih _ hx (fun v hv => h v (by simp [hv]))
    · push Not at hx
      rw [load_not _ ws g hx]
      obtain ⟨v, hv, e⟩ := hw
      rcases List.mem_cons.1 hv with rfl | hv
      · rw [e, Function.update_self, h v (by simp) e]
      · exact absurd e (hx v hv)

end Fanpy.SaveParams
