import Verif.Model.TableFiles
import Verif.Lemmas.TablesCC

/-! Helper lemmas on names of files and on labels read from files. -/

namespace Fanpy.Tables
open Fanpy.Slater Fanpy.Text

/-- the path `p` is `s.e`, where `e` has no dot and the last component of `s` has a character other than a dot. -/
def HasExt (p s e : Path) : Prop :=
  p = s ++ '.' :: e ∧ '.' ∉ e ∧ '/' ∉ e ∧ ∃ a b : Path, s = a ++ b ∧ '/' ∉ b ∧ ∃ c ∈ b, c ≠ '.'

/-- the last component of the path `p` has no dot but leading ones. -/
def NoExt (p : Path) : Prop :=
  ∃ a d b : Path, p = a ++ d ++ b ∧ (a = [] ∨ a.getLast? = some '/') ∧ (∀ c ∈ d, c = '.') ∧ '.' ∉ b ∧ '/' ∉ b

theorem takeWhile_append_all {α : Type} {p : α → Bool} : ∀ {l m : List α}, (∀ x ∈ l, p x = true) →
    (l ++ m).takeWhile p = l ++ m.takeWhile p
  | [], _, _ => rfl
  | x :: l, m, h => by
    rw [List.cons_append, List.takeWhile_cons_of_pos (h x (by simp)), takeWhile_append_all fun y hy => h y (by simp [hy])]
    rfl

theorem dropWhile_append_all {α : Type} {p : α → Bool} : ∀ {l m : List α}, (∀ x ∈ l, p x = true) →
    (l ++ m).dropWhile p = m.dropWhile p
  | [], _, _ => rfl
  | x :: l, m, h => by
    rw [List.cons_append, List.dropWhile_cons_of_pos (h x (by simp)), dropWhile_append_all fun y hy => h y (by simp [hy])]

theorem mem_takeWhile_prop {α : Type} {p : α → Bool} {x : α} : ∀ {l : List α}, x ∈ l.takeWhile p → p x = true
  | [], h => by simp at h
  | y :: l, h => by
    by_cases hy : p y = true
    · rw [List.takeWhile_cons_of_pos hy] at h
      rcases List.mem_cons.mp h with rfl | h
      · exact hy
      · exact mem_takeWhile_prop h
    · rw [List.takeWhile_cons_of_neg hy] at h
      simp at h

theorem plain_char {e : Path} (h1 : '.' ∉ e) (h2 : '/' ∉ e) :
    ∀ x ∈ e.reverse, (fun c : Char => decide (c ≠ '.') && decide (c ≠ '/')) x = true := by
  intro x hx
  have hx' : x ∈ e := List.mem_reverse.mp hx
  have a : x ≠ '.' := fun h => h1 (h ▸ hx')
  have b : x ≠ '/' := fun h => h2 (h ▸ hx')
  simp [a, b]

theorem splitext_hasExt {p s e : Path} (h : HasExt p s e) : splitext p = (s, '.' :: e) := by
  obtain ⟨hp, h1, h2, a, b, hs, hb, c, hc, hne⟩ := h
  have hrev : p.reverse = e.reverse ++ '.' :: s.reverse := by simp [hp]
  have hd : p.reverse.dropWhile (fun c => decide (c ≠ '.') && decide (c ≠ '/')) = '.' :: s.reverse := by
    rw [hrev, dropWhile_append_all (plain_char h1 h2)]; rfl
  have ht : p.reverse.takeWhile (fun c => decide (c ≠ '.') && decide (c ≠ '/')) = e.reverse := by
    rw [hrev, takeWhile_append_all (plain_char h1 h2)]; simp
  have hany : (s.reverse.takeWhile (fun c => decide (c ≠ '/'))).any (fun c => decide (c ≠ '.')) = true := by
    rw [hs, List.reverse_append, takeWhile_append_all (by
      intro x hx
      have : x ≠ '/' := fun h => hb (h ▸ List.mem_reverse.mp hx)
      simp [this])]
    rw [List.any_eq_true]
    exact ⟨c, by simp [hc], by simp [hne]⟩
  unfold splitext
  rw [hd]
  show (if _ then _ else _) = _
  rw [if_pos hany, ht]
  simp

theorem splitext_noExt {p : Path} (h : NoExt p) : splitext p = (p, []) := by
  obtain ⟨a, d, b, hp, ha, hd, h1, h2⟩ := h
  have hrev : p.reverse = b.reverse ++ (d.reverse ++ a.reverse) := by simp [hp]
  have hdrop : p.reverse.dropWhile (fun c => decide (c ≠ '.') && decide (c ≠ '/'))
      = (d.reverse ++ a.reverse).dropWhile (fun c => decide (c ≠ '.') && decide (c ≠ '/')) := by
    rw [hrev, dropWhile_append_all (plain_char h1 h2)]
  have hta : a.reverse.takeWhile (fun c => decide (c ≠ '/')) = [] := by
    rcases ha with rfl | ha
    · rfl
    · rw [← List.head?_reverse] at ha
      rcases hr : a.reverse with - | ⟨x, l⟩
      · rfl
      · rw [hr] at ha; simp at ha; subst ha; simp
  have hd' : ∀ c ∈ d.reverse, c = '.' := fun c hc => hd c (List.mem_reverse.mp hc)
  unfold splitext
  rw [hdrop]
  rcases hr : d.reverse with - | ⟨x, l⟩
  · rw [List.nil_append]
    rcases ha with rfl | ha
    · rfl
    · rw [← List.head?_reverse] at ha
      rcases hr : a.reverse with - | ⟨x, l⟩
      · rfl
      · rw [hr] at ha; simp at ha; subst ha; rfl
  · rw [hr] at hd'
    have hx : x = '.' := hd' x (by simp)
    subst hx
    show (if _ then _ else _) = _
    rw [if_neg]
    show ¬ (((l ++ a.reverse).takeWhile (fun c => decide (c ≠ '/'))).any (fun c => decide (c ≠ '.')) = true)
    rw [takeWhile_append_all (by
      intro y hy
      have : y = '.' := hd' y (by simp [hy])
      subst this; rfl), hta, List.append_nil, List.any_eq_true]
    rintro ⟨y, hy, hyn⟩
    have : y = '.' := hd' y (by simp [hy])
    subst this
    simp at hyn

theorem hasExt_or_noExt (p : Path) : (∃ s e, HasExt p s e) ∨ NoExt p := by
  have hall : ∀ x ∈ p.reverse.takeWhile (fun c => decide (c ≠ '.') && decide (c ≠ '/')), x ≠ '.' ∧ x ≠ '/' := by
    intro x hx
    have := mem_takeWhile_prop hx
    simpa using this
  have hsplit := List.takeWhile_append_dropWhile (p := fun c => decide (c ≠ '.') && decide (c ≠ '/')) (l := p.reverse)
  generalize p.reverse.takeWhile (fun c => decide (c ≠ '.') && decide (c ≠ '/')) = t at hall hsplit
  have h1 : '.' ∉ t.reverse := fun h => (hall _ (List.mem_reverse.mp h)).1 rfl
  have h2 : '/' ∉ t.reverse := fun h => (hall _ (List.mem_reverse.mp h)).2 rfl
  rcases hr : p.reverse.dropWhile (fun c => decide (c ≠ '.') && decide (c ≠ '/')) with - | ⟨x, rest⟩
  · rw [hr, List.append_nil] at hsplit
    exact Or.inr ⟨[], [], t.reverse, by simp [hsplit], Or.inl rfl, by simp, h1, h2⟩
  · have hx : ¬ ((decide (x ≠ '.') && decide (x ≠ '/')) = true) := by
      have := List.head_dropWhile_not (fun c : Char => decide (c ≠ '.') && decide (c ≠ '/')) (l := p.reverse) (by rw [hr]; exact List.cons_ne_nil _ _)
      simp only [hr, List.head_cons] at this
      simpa using this
    rw [hr] at hsplit
    have hp : p = rest.reverse ++ x :: t.reverse := by
      have := congrArg List.reverse hsplit
      simpa using this.symm
    by_cases hslash : x = '/'
    · subst hslash
      exact Or.inr ⟨rest.reverse ++ ['/'], [], t.reverse, by simp [hp], Or.inr (by simp), by simp, h1, h2⟩
    · have hdot : x = '.' := by
        by_contra hne
        exact hx (by simp [hslash, hne])
      subst hdot
      have hsp := List.takeWhile_append_dropWhile (p := fun c : Char => decide (c ≠ '/')) (l := rest)
      have hno : ∀ y ∈ rest.takeWhile (fun c : Char => decide (c ≠ '/')), y ≠ '/' := by
        intro y hy
        have := mem_takeWhile_prop hy
        simpa using this
      by_cases hany : ∃ c ∈ rest.takeWhile (fun c : Char => decide (c ≠ '/')), c ≠ '.'
      · obtain ⟨c, hc, hcd⟩ := hany
        refine Or.inl ⟨rest.reverse, t.reverse, hp, h1, h2, (rest.dropWhile (fun c : Char => decide (c ≠ '/'))).reverse,
          (rest.takeWhile (fun c : Char => decide (c ≠ '/'))).reverse, ?_, ?_, c, by simpa using hc, hcd⟩
        · rw [← List.reverse_append, hsp]
        · intro h
          exact hno _ (List.mem_reverse.mp h) rfl
      · have hdots : ∀ c ∈ rest.takeWhile (fun c : Char => decide (c ≠ '/')), c = '.' := by
          intro c hc
          by_contra hne
          exact hany ⟨c, hc, hne⟩
        refine Or.inr ⟨(rest.dropWhile (fun c : Char => decide (c ≠ '/'))).reverse,
          (rest.takeWhile (fun c : Char => decide (c ≠ '/'))).reverse ++ ['.'], t.reverse, ?_, ?_, ?_, h1, h2⟩
        · rw [← List.append_assoc, ← List.reverse_append, hsp, hp]; simp
        · rcases hq : rest.dropWhile (fun c : Char => decide (c ≠ '/')) with - | ⟨y, q⟩
          · exact Or.inl rfl
          · right
            have := List.head_dropWhile_not (fun c : Char => decide (c ≠ '/')) (l := rest) (by rw [hq]; exact List.cons_ne_nil _ _)
            simp only [hq, List.head_cons] at this
            have : y = '/' := by simpa using this
            simp [this]
        · intro c hc
          rcases List.mem_append.mp hc with h | h
          · exact hdots c (List.mem_reverse.mp h)
          · simpa using h

theorem splitext_append (p : Path) : (splitext p).1 ++ (splitext p).2 = p := by
  rcases hasExt_or_noExt p with ⟨s, e, h⟩ | h
  · rw [splitext_hasExt h]; exact h.1.symm
  · rw [splitext_noExt h]; simp

/-- the last characters of the two names of files. -/
theorem fileNames_last (f : Path) :
    ((fileNames f).1.map Char.toLower).getLast? = some 'v' ∧ (fileNames f).2.getLast? = some 'n' := by
  unfold fileNames
  by_cases h : (splitext f).2.map Char.toLower ≠ ".csv".toList
  · rw [if_pos h]
    constructor
    · show (((splitext f).1 ++ ".csv".toList).map Char.toLower).getLast? = _
      rw [List.map_append, List.getLast?_append]; rfl
    · show ((splitext f).1 ++ ".json".toList).getLast? = _
      rw [List.getLast?_append]; rfl
  · rw [if_neg h]
    push Not at h
    constructor
    · show (f.map Char.toLower).getLast? = _
      conv_lhs => rw [← splitext_append f]
      rw [List.map_append, h, List.getLast?_append]; rfl
    · show ((splitext f).1 ++ ".json".toList).getLast? = _
      rw [List.getLast?_append]; rfl

theorem csv_ne_meta (f g : Path) : (fileNames f).1 ≠ (fileNames g).2 := by
  intro h
  have h1 := (fileNames_last f).1
  have h2 := (fileNames_last g).2
  rw [h, List.getLast?_map, h2] at h1
  revert h1
  decide

theorem parseInt_space {s : List Char} (h : ' ' ∈ s) : parseInt 10 s = .error .valueError := by
  unfold parseInt
  rw [if_neg (by cases s <;> simp_all), if_neg]
  rw [List.all_eq_true]
  intro hall
  have := hall _ h
  revert this
  decide

theorem mapM_error_exists {α β : Type} {f : α → Except PyErr β} : ∀ (l : List α), (∃ x ∈ l, ∃ e, f x = .error e) →
    ∃ e, l.mapM f = .error e
  | [], h => by simp at h
  | a :: l, h => by
    rw [List.mapM_cons]
    rcases hfa : f a with e | b
    · exact ⟨e, rfl⟩
    · have hl : ∃ x ∈ l, ∃ e, f x = .error e := by
        obtain ⟨x, hx, e, he⟩ := h
        rcases List.mem_cons.mp hx with rfl | hx
        · rw [hfa] at he; cases he
        · exact ⟨x, hx, e, he⟩
      obtain ⟨e, he⟩ := mapM_error_exists l hl
      exact ⟨e, by rw [he]; rfl⟩

theorem readLabels_ints {ns : List ℕ} (h : ∀ n ∈ ns, n < 2 ^ 64) :
    readLabels ((ns.map Label.int).map labelText) = ns.map .int := by
  have : (ns.map Label.int).map labelText = ns.map pyStr := by simp [labelText, Function.comp_def]
  rw [this]
  unfold readLabels
  rw [mapM_parseInt_pyStr]
  show (if _ then _ else _) = _
  rw [if_pos]
  rw [List.all_eq_true]
  intro n hn
  exact decide_eq_true (h n hn)

theorem readLabels_big {ns : List ℕ} (h : ∃ n ∈ ns, 2 ^ 64 ≤ n) :
    readLabels ((ns.map Label.int).map labelText) = ns.map (fun n => .str (pyStr n)) := by
  have : (ns.map Label.int).map labelText = ns.map pyStr := by simp [labelText, Function.comp_def]
  rw [this]
  unfold readLabels
  rw [mapM_parseInt_pyStr]
  show (if _ then _ else _) = _
  rw [if_neg]
  · simp [Function.comp_def]
  · rw [List.all_eq_true]
    intro hall
    obtain ⟨n, hn, hb⟩ := h
    exact absurd (of_decide_eq_true (hall n hn)) (by omega)

theorem readLabels_texts {ts : List (List Char)} (h : ts = [] ∨ ∃ t ∈ ts, ' ' ∈ t) :
    readLabels ((ts.map Label.str).map labelText) = ts.map .str := by
  have : (ts.map Label.str).map labelText = ts := by simp [labelText, Function.comp_def]
  rw [this]
  rcases h with rfl | ⟨t, ht, hs⟩
  · rfl
  · obtain ⟨e, he⟩ := mapM_error_exists (f := parseInt 10) ts ⟨t, ht, _, parseInt_space hs⟩
    unfold readLabels
    rw [he]

/-- labels that come back from a CSV file as they were: numbers of 64 bits, or texts one of which has a space. -/
def Kept (l : List Label) : Prop :=
  (∃ ns : List ℕ, l = ns.map .int ∧ ∀ n ∈ ns, n < 2 ^ 64) ∨
    (∃ ts : List (List Char), l = ts.map .str ∧ (ts = [] ∨ ∃ t ∈ ts, ' ' ∈ t))

theorem readLabels_kept {l : List Label} (h : Kept l) : readLabels (l.map labelText) = l := by
  rcases h with ⟨ns, rfl, h⟩ | ⟨ts, rfl, h⟩
  · exact readLabels_ints h
  · exact readLabels_texts h

theorem space_mem_sdText (K sd : ℕ) : ' ' ∈ sdText K sd := by
  rw [sdText_eq]
  simp

theorem space_mem_joinSp {a b : List Char} {l : List (List Char)} : ' ' ∈ joinSp (a :: b :: l) := by
  simp [joinSp, List.intercalate, List.intersperse]

end Fanpy.Tables
