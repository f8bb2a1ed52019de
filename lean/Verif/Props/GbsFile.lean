import Verif.Model.GbsFile
import Mathlib.Tactic.Tauto
import Mathlib.Data.List.Basic

/-!
# C127: files of basis sets
-/

namespace Fanpy.Props

open Fanpy Gbs

/-- all characters are white space -/
def C127_Space (t : Txt) : Prop := ∀ c ∈ t, isSp c = true

/-- a word without white space -/
def C127_Token (t : Txt) : Prop := t ≠ [] ∧ ∀ c ∈ t, isSp c = false

/-- a word of letters, digits and underscores -/
def C127_Word (t : Txt) : Prop := t ≠ [] ∧ ∀ c ∈ t, isWord c = true

/-- a number without sign and point -/
def C127_Digits (t : Txt) : Prop := t ≠ [] ∧ ∀ c ∈ t, isDig c = true

private theorem word_not_sp {c : Char} (h : isWord c = true) : isSp c = false := by
  by_contra hs
  simp only [Bool.not_eq_false, isSp, Bool.or_eq_true, decide_eq_true_eq] at hs
  rcases hs with ((((((((rfl | rfl) | rfl) | rfl) | rfl) | rfl) | rfl) | rfl) | rfl) | rfl <;> exact absurd h (by decide)

private theorem dig_word {c : Char} (h : isDig c = true) : isWord c = true := by simp [isWord, h]

private theorem dig_not_sp {c : Char} (h : isDig c = true) : isSp c = false := word_not_sp (dig_word h)

private theorem takeWhile_run {p : Char → Bool} {x : Txt} (hx : ∀ c ∈ x, p c = true) {u : Txt} (hu : ∀ c ∈ u.head?, p c = false) :
    (x ++ u).takeWhile p = x ∧ (x ++ u).dropWhile p = u := by
  induction x with
  | nil =>
    cases u with
    | nil => simp
    | cons c u =>
      have := hu c (by simp)
      simp [this]
  | cons a x ih =>
    have ha := hx a (by simp)
    have := ih fun c hc => hx c (List.mem_cons_of_mem _ hc)
    simp [ha, this]

private theorem head_append {x u : Txt} (hx : x ≠ []) : (x ++ u).head? = x.head? := by
  cases x with
  | nil => exact absurd rfl hx
  | cons a x => rfl

private theorem head_mem {x : Txt} {c : Char} (h : c ∈ x.head?) : c ∈ x := by
  cases x with
  | nil => simp at h
  | cons a x => simp at h; simp [h]

/-- the text that follows is empty, or white space and then a word that is no number -/
private def Nd (u : Txt) : Prop :=
  u = [] ∨ ∃ ws b t', u = ws ++ (b ++ t') ∧ ws ≠ [] ∧ C127_Space ws ∧ C127_Token b ∧ (∃ c ∈ b, isDig c = false) ∧ ∀ c ∈ t'.head?, isSp c = true

private theorem Nd.head {u : Txt} (h : Nd u) : ∀ c ∈ u.head?, isSp c = true := by
  rcases h with rfl | ⟨ws, b, t', rfl, hne, hs, -, -, -⟩
  · simp
  · intro c hc
    rw [head_append hne] at hc
    exact hs c (head_mem hc)

/-- the first part of a word that are letters -/
private theorem word_split (a : Txt) : ∃ w v, a = w ++ v ∧ (∀ c ∈ w, isWord c = true) ∧ (∀ c ∈ v.head?, isWord c = false) := by
  induction a with
  | nil => exact ⟨[], [], rfl, by simp, by simp⟩
  | cons c a ih =>
    by_cases h : isWord c = true
    · obtain ⟨w, v, rfl, h1, h2⟩ := ih
      exact ⟨c :: w, v, rfl, by simpa [h] using h1, h2⟩
    · exact ⟨[], c :: a, rfl, by simp, by simpa using h⟩

private theorem digit_split (a : Txt) : ∃ w v, a = w ++ v ∧ (∀ c ∈ w, isDig c = true) ∧ (∀ c ∈ v.head?, isDig c = false) := by
  induction a with
  | nil => exact ⟨[], [], rfl, by simp, by simp⟩
  | cons c a ih =>
    by_cases h : isDig c = true
    · obtain ⟨w, v, rfl, h1, h2⟩ := ih
      exact ⟨c :: w, v, rfl, by simpa [h] using h1, h2⟩
    · exact ⟨[], c :: a, rfl, by simp, by simpa using h⟩

/-- no match at a word, or the white space before it, if the next word is no number -/
private theorem match_none {ws a u : Txt} (hws : C127_Space ws) (ha : C127_Token a) (hu : Nd u) : matchAt (ws ++ (a ++ u)) = none := by
  have h1 : (ws ++ (a ++ u)).dropWhile isSp = a ++ u := by
    refine (takeWhile_run hws ?_).2
    intro c hc
    rw [head_append ha.1] at hc
    exact ha.2 c (head_mem hc)
  obtain ⟨w, v, rfl, hw, hv⟩ := word_split a
  have hvu : ∀ c ∈ (v ++ u).head?, isWord c = false := by
    intro c hc
    cases v with
    | nil =>
      have := hu.head c hc
      by_contra h
      simp [word_not_sp (by simpa using h)] at this
    | cons b v => exact hv c (by simpa using hc)
  have h2 := takeWhile_run hw hvu
  rw [List.append_assoc] at h1
  unfold matchAt
  simp only [List.append_assoc, h1, h2.1, h2.2]
  rw [if_pos]
  by_cases hv0 : v = []
  · subst hv0
    simp only [List.nil_append]
    rcases hu with rfl | ⟨s, b, t', rfl, hne, hs, hb, ⟨c, hcb, hcd⟩, ht⟩
    · right; left; simp
    · have hs2 := takeWhile_run (u := b ++ t') hs (by
        intro c hc
        rw [head_append hb.1] at hc
        exact hb.2 c (head_mem hc))
      rw [hs2.1, hs2.2]
      obtain ⟨d, e, rfl, hd, he⟩ := digit_split b
      have hene : e ≠ [] := by
        rintro rfl
        rw [hd c (by simpa using hcb)] at hcd
        simp at hcd
      have h3 := takeWhile_run (u := e ++ t') hd (by rw [head_append hene]; exact he)
      rw [List.append_assoc, h3.1, h3.2]
      right; right; right; left
      cases e with
      | nil => exact absurd rfl hene
      | cons x e =>
        have : isSp x = false := hb.2 x (by simp)
        simp [this]
  · right; left
    cases v with
    | nil => exact absurd rfl hv0
    | cons x v =>
      have : isSp x = false := ha.2 x (by simp)
      simp [this]

/-- no match at a word, or the white space before it, if a number and then a word without point follow -/
private theorem match_none' {ws a s b s' k u : Txt} (hws : C127_Space ws) (ha : C127_Token a) (hs : s ≠ [] ∧ C127_Space s) (hb : C127_Digits b)
    (hs' : s' ≠ [] ∧ C127_Space s') (hk : C127_Word k) (hu : ∀ c ∈ u.head?, isSp c = true) :
    matchAt (ws ++ (a ++ (s ++ (b ++ (s' ++ (k ++ u)))))) = none := by
  have h1 : (ws ++ (a ++ (s ++ (b ++ (s' ++ (k ++ u)))))).dropWhile isSp = a ++ (s ++ (b ++ (s' ++ (k ++ u)))) := by
    refine (takeWhile_run hws ?_).2
    intro c hc
    rw [head_append ha.1] at hc
    exact ha.2 c (head_mem hc)
  obtain ⟨w, v, rfl, hw, hv⟩ := word_split a
  have hvu : ∀ c ∈ (v ++ (s ++ (b ++ (s' ++ (k ++ u))))).head?, isWord c = false := by
    intro c hc
    cases v with
    | nil =>
      rw [List.nil_append, head_append hs.1] at hc
      have := hs.2 c (head_mem hc)
      by_contra h
      simp [word_not_sp (by simpa using h)] at this
    | cons b v => exact hv c (by simpa using hc)
  have h2 := takeWhile_run hw hvu
  rw [List.append_assoc] at h1
  unfold matchAt
  simp only [List.append_assoc, h1, h2.1, h2.2]
  by_cases hv0 : v = []
  · subst hv0
    simp only [List.nil_append]
    have hs2 := takeWhile_run (u := b ++ (s' ++ (k ++ u))) hs.2 (by
      intro c hc
      rw [head_append hb.1] at hc
      exact dig_not_sp (hb.2 c (head_mem hc)))
    have hb2 := takeWhile_run (u := s' ++ (k ++ u)) hb.2 (by
      intro c hc
      rw [head_append hs'.1] at hc
      have := hs'.2 c (head_mem hc)
      by_contra h
      simp [dig_not_sp (by simpa using h)] at this)
    have hs3 := takeWhile_run (u := k ++ u) hs'.2 (by
      intro c hc
      rw [head_append hk.1] at hc
      exact word_not_sp (hk.2 c (head_mem hc)))
    rw [hs2.2, hb2.2, hs3.2]
    split
    · rfl
    · obtain ⟨d, e, rfl, hd, he⟩ := digit_split k
      have h3 := takeWhile_run (u := e ++ u) hd (by
        intro c hc
        cases e with
        | nil =>
          have := hu c hc
          by_contra h
          simp [dig_not_sp (by simpa using h)] at this
        | cons x e => exact he c (by simpa using hc))
      rw [List.append_assoc, h3.2]
      cases e with
      | nil =>
        cases u with
        | nil => rfl
        | cons x u =>
          have hx : x ≠ '.' := by
            rintro rfl
            exact absurd (hu '.' (by simp)) (by decide)
          simp [hx]
      | cons x e =>
        have hx : x ≠ '.' := by
          rintro rfl
          exact absurd (hk.2 '.' (by simp)) (by decide)
        simp [hx]
  · rw [if_pos]
    right; left
    cases v with
    | nil => exact absurd rfl hv0
    | cons x v =>
      have : isSp x = false := ha.2 x (by simp)
      simp [this]

/-- the match at the line of a shell -/
private theorem match_some {ws k s b s' d e u : Txt} (hws : C127_Space ws) (hk : C127_Word k) (hs : s ≠ [] ∧ C127_Space s) (hb : C127_Digits b)
    (hs' : s' ≠ [] ∧ C127_Space s') (hd : C127_Digits d) (he : C127_Digits e) :
    matchAt (ws ++ (k ++ (s ++ (b ++ (s' ++ (d ++ '.' :: (e ++ '\n' :: u))))))) = some (k, u) := by
  have h1 := takeWhile_run (u := k ++ (s ++ (b ++ (s' ++ (d ++ '.' :: (e ++ '\n' :: u)))))) hws (by
    intro c hc
    rw [head_append hk.1] at hc
    exact word_not_sp (hk.2 c (head_mem hc)))
  have h2 := takeWhile_run (u := s ++ (b ++ (s' ++ (d ++ '.' :: (e ++ '\n' :: u))))) hk.2 (by
    intro c hc
    rw [head_append hs.1] at hc
    have := hs.2 c (head_mem hc)
    by_contra h
    simp [word_not_sp (by simpa using h)] at this)
  have h3 := takeWhile_run (u := b ++ (s' ++ (d ++ '.' :: (e ++ '\n' :: u)))) hs.2 (by
    intro c hc
    rw [head_append hb.1] at hc
    exact dig_not_sp (hb.2 c (head_mem hc)))
  have h4 := takeWhile_run (u := s' ++ (d ++ '.' :: (e ++ '\n' :: u))) hb.2 (by
    intro c hc
    rw [head_append hs'.1] at hc
    have := hs'.2 c (head_mem hc)
    by_contra h
    simp [dig_not_sp (by simpa using h)] at this)
  have h5 := takeWhile_run (u := d ++ '.' :: (e ++ '\n' :: u)) hs'.2 (by
    intro c hc
    rw [head_append hd.1] at hc
    exact dig_not_sp (hd.2 c (head_mem hc)))
  have h6 := takeWhile_run (u := '.' :: (e ++ '\n' :: u)) hd.2 (by simp; decide)
  have h7 := takeWhile_run (u := '\n' :: u) he.2 (by simp; decide)
  unfold matchAt
  simp only [h1.2, h2.1, h2.2, h3.1, h3.2, h4.1, h4.2, h5.1, h5.2, h6.1, h6.2]
  rw [if_neg (by simp [hk.1, hs.1, hb.1, hs'.1, hd.1])]
  simp only [h7.1, h7.2]
  rw [if_neg he.1]

private theorem resplit_none {n : ℕ} {c : Char} {t : Txt} (h : matchAt (c :: t) = none) :
    resplit (n + 1) (c :: t) = (c :: (resplit n t).1, (resplit n t).2) := by
  rw [resplit.eq_def]
  simp only [h]

private theorem resplit_some {n : ℕ} {t w r : Txt} (h : matchAt t = some (w, r)) :
    resplit (n + 1) t = ([], (w, (resplit n r).1) :: (resplit n r).2) := by
  rw [resplit.eq_def]
  simp only [h]

/-- characters at which nothing matches are passed over -/
private theorem scan {u : Txt} : ∀ (x : Txt) (n : ℕ), (∀ p q, x = p ++ q → q ≠ [] → matchAt (q ++ u) = none) → x.length + u.length < n →
    ∃ m, u.length < m ∧ resplit n (x ++ u) = (x ++ (resplit m u).1, (resplit m u).2) := by
  intro x
  induction x with
  | nil => intro n _ hn; exact ⟨n, by simpa using hn, rfl⟩
  | cons c x ih =>
    intro n h hn
    obtain ⟨n, rfl⟩ : ∃ k, n = k + 1 := ⟨n - 1, by simp at hn; omega⟩
    obtain ⟨m, hm, hr⟩ := ih n (fun p q hpq hq => h (c :: p) q (by simp [hpq]) hq) (by simp at hn; omega)
    refine ⟨m, hm, ?_⟩
    have h0 := h [] (c :: x) rfl (by simp)
    rw [List.cons_append] at h0 ⊢
    rw [resplit_none h0, hr]
    rfl

/-- a word with the white space before it is passed over if the next word is no number -/
private theorem scan_token {ws a u : Txt} (hws : C127_Space ws) (ha : C127_Token a) (hu : Nd u) :
    ∀ p q, ws ++ a = p ++ q → q ≠ [] → matchAt (q ++ u) = none := by
  intro p q h hq
  rcases List.append_eq_append_iff.1 h with ⟨a', rfl, rfl⟩ | ⟨ws', rfl, rfl⟩
  · have := match_none (ws := []) (a := q) (u := u) (by simp [C127_Space]) ⟨hq, fun c hc => ha.2 c (by simp [hc])⟩ hu
    simpa using this
  · have := match_none (ws := ws') (a := a) (u := u) (fun c hc => hws c (by simp [hc])) ha hu
    simpa using this

/-- the exponents and coefficients of a shell: words, each with the white space before it -/
def C127_bodyText (body : List (Txt × Txt)) : Txt := body.flatMap fun p => p.1 ++ p.2

/-- a shell: its line `kind number scale` and the lines with exponents and coefficients -/
structure C127_Shell where
  kind : Txt
  sp1 : Txt
  num : Txt
  sp2 : Txt
  scale1 : Txt
  scale2 : Txt
  body : List (Txt × Txt)

/-- the text of a shell -/
def C127_Shell.text (s : C127_Shell) : Txt :=
  s.kind ++ (s.sp1 ++ (s.num ++ (s.sp2 ++ (s.scale1 ++ '.' :: (s.scale2 ++ '\n' :: C127_bodyText s.body)))))

/-- words that are no numbers without point, separated by white space -/
def C127_BodyValid (body : List (Txt × Txt)) : Prop :=
  (∀ p ∈ body, C127_Space p.1 ∧ C127_Token p.2 ∧ ∃ c ∈ p.2, isDig c = false) ∧ ∀ p ∈ body.tail, p.1 ≠ []

/-- what the shells of files look like -/
def C127_Shell.Valid (s : C127_Shell) : Prop :=
  C127_Word s.kind ∧ (∃ c ∈ s.kind, isDig c = false) ∧ (s.sp1 ≠ [] ∧ C127_Space s.sp1) ∧ C127_Digits s.num ∧ (s.sp2 ≠ [] ∧ C127_Space s.sp2) ∧
    C127_Digits s.scale1 ∧ C127_Digits s.scale2 ∧ s.body ≠ [] ∧ C127_BodyValid s.body

/-- shells, each with the white space before it -/
def C127_shellsText (l : List (Txt × C127_Shell)) : Txt := l.flatMap fun p => p.1 ++ p.2.text

/-- shells that are valid and separated by white space -/
def C127_ShellsValid (l : List (Txt × C127_Shell)) : Prop := ∀ p ∈ l, p.1 ≠ [] ∧ C127_Space p.1 ∧ p.2.Valid

/-- the section of an atom: symbol, number and shells -/
structure C127_Section where
  sym : Txt
  sp : Txt
  num : Txt
  shells : List (Txt × C127_Shell)

/-- the text of a section -/
def C127_Section.text (s : C127_Section) : Txt := s.sym ++ (s.sp ++ (s.num ++ C127_shellsText s.shells))

/-- what the sections of files look like -/
def C127_Section.Valid (s : C127_Section) : Prop :=
  C127_Word s.sym ∧ (s.sp ≠ [] ∧ C127_Space s.sp) ∧ C127_Digits s.num ∧ C127_ShellsValid s.shells

private theorem word_token {t : Txt} (h : C127_Word t) : C127_Token t := ⟨h.1, fun c hc => word_not_sp (h.2 c hc)⟩

private theorem digits_word {t : Txt} (h : C127_Digits t) : C127_Word t := ⟨h.1, fun c hc => dig_word (h.2 c hc)⟩

private theorem nd_body {body : List (Txt × Txt)} (hb : C127_BodyValid body) (hne : ∀ p ∈ body, p.1 ≠ []) {u : Txt} (hu : Nd u) :
    Nd (C127_bodyText body ++ u) := by
  induction body with
  | nil => simpa [C127_bodyText] using hu
  | cons p body ih =>
    have h1 := hb.1 p (by simp)
    have h2 := ih ⟨fun q hq => hb.1 q (by simp [hq]), fun q hq => hb.2 q (by simpa using List.mem_of_mem_tail hq)⟩
      fun q hq => hne q (by simp [hq])
    exact Or.inr ⟨p.1, p.2, C127_bodyText body ++ u, by simp [C127_bodyText], hne p (by simp), h1.1, h1.2.1, h1.2.2, h2.head⟩

private theorem body_scan {u : Txt} (hu : Nd u) : ∀ (body : List (Txt × Txt)) (n : ℕ), C127_BodyValid body →
    (C127_bodyText body).length + u.length < n →
    ∃ m, u.length < m ∧ resplit n (C127_bodyText body ++ u) = (C127_bodyText body ++ (resplit m u).1, (resplit m u).2) := by
  intro body
  induction body with
  | nil => intro n _ hn; exact ⟨n, by simpa [C127_bodyText] using hn, rfl⟩
  | cons p body ih =>
    intro n hb hn
    have h1 := hb.1 p (by simp)
    have hb' : C127_BodyValid body :=
      ⟨fun q hq => hb.1 q (by simp [hq]), fun q hq => hb.2 q (by simpa using List.mem_of_mem_tail hq)⟩
    have h2 : Nd (C127_bodyText body ++ u) := nd_body hb' (fun q hq => hb.2 q (by simpa using hq)) hu
    have e : C127_bodyText (p :: body) = p.1 ++ p.2 ++ C127_bodyText body := by simp [C127_bodyText]
    rw [e] at hn ⊢
    obtain ⟨m, hm, hr⟩ := scan (u := C127_bodyText body ++ u) (p.1 ++ p.2) n (scan_token h1.1 h1.2.1 h2) (by
      simp only [List.length_append] at hn ⊢; omega)
    obtain ⟨m', hm', hr'⟩ := ih m hb' (by simpa using hm)
    refine ⟨m', hm', ?_⟩
    have e2 : p.1 ++ p.2 ++ C127_bodyText body ++ u = p.1 ++ p.2 ++ (C127_bodyText body ++ u) := by simp
    rw [e2, hr, hr']
    simp

private theorem nd_shells {l : List (Txt × C127_Shell)} (hl : C127_ShellsValid l) : Nd (C127_shellsText l) := by
  cases l with
  | nil => exact Or.inl rfl
  | cons p l =>
    obtain ⟨h1, h2, h3⟩ := hl p (by simp)
    refine Or.inr ⟨p.1, p.2.kind, p.2.sp1 ++ (p.2.num ++ (p.2.sp2 ++ (p.2.scale1 ++ '.' :: (p.2.scale2 ++ '\n' ::
      C127_bodyText p.2.body)))) ++ C127_shellsText l, ?_, h1, h2, word_token h3.1, h3.2.1, ?_⟩
    · simp [C127_shellsText, C127_Shell.text]
    · intro c hc
      rw [List.append_assoc, head_append h3.2.2.1.1] at hc
      exact h3.2.2.1.2 c (head_mem hc)

/-- the pattern finds exactly the lines of the shells -/
private theorem shells_scan : ∀ (l : List (Txt × C127_Shell)) (n : ℕ), C127_ShellsValid l → (C127_shellsText l).length < n →
    resplit n (C127_shellsText l) = ([], l.map fun p => (p.2.kind, C127_bodyText p.2.body)) := by
  intro l
  induction l with
  | nil =>
    intro n _ hn
    obtain ⟨n, rfl⟩ : ∃ k, n = k + 1 := ⟨n - 1, by simp [C127_shellsText] at hn; omega⟩
    rfl
  | cons p l ih =>
    intro n hl hn
    obtain ⟨n, rfl⟩ : ∃ k, n = k + 1 := ⟨n - 1, by omega⟩
    obtain ⟨h1, h2, hk, hk', hs1, hnum, hs2, hd, he, hbne, hb⟩ := hl p (by simp)
    have hl' : C127_ShellsValid l := fun q hq => hl q (by simp [hq])
    have e : C127_shellsText (p :: l) = p.1 ++ (p.2.kind ++ (p.2.sp1 ++ (p.2.num ++ (p.2.sp2 ++ (p.2.scale1 ++ '.' ::
        (p.2.scale2 ++ '\n' :: (C127_bodyText p.2.body ++ C127_shellsText l))))))) := by
      simp [C127_shellsText, C127_Shell.text]
    rw [e] at hn ⊢
    obtain ⟨m, hm, hr⟩ := body_scan (nd_shells hl') p.2.body n hb (by simp at hn; omega)
    rw [resplit_some (match_some h2 hk hs1 hnum hs2 hd he), hr, ih m hl' hm]
    simp

private theorem match_dot {t : Txt} {r : Txt × Txt} (h : matchAt t = some r) : '.' ∈ t := by
  unfold matchAt at h
  simp only at h
  split at h
  · simp at h
  · split at h
    · rename_i t6 ht6
      have : '.' ∈ List.dropWhile isDig (List.dropWhile isSp (List.dropWhile isDig (List.dropWhile isSp (List.dropWhile isWord
          (List.dropWhile isSp t))))) := by rw [ht6]; simp
      have sub : ∀ (p : Char → Bool) (l : Txt), '.' ∈ l.dropWhile p → '.' ∈ l := fun p l h => (List.dropWhile_suffix p).subset h
      exact sub _ _ (sub _ _ (sub _ _ (sub _ _ (sub _ _ (sub _ _ this)))))
    · simp at h

private theorem word_not_dot {c : Char} (h : isWord c = true) : c ≠ '.' := by rintro rfl; exact absurd h (by decide)

private theorem sp_not_dot {c : Char} (h : isSp c = true) : c ≠ '.' := by rintro rfl; exact absurd h (by decide)

/-- the section of an atom is taken apart into the line of the atom and the shells -/
private theorem section_scan (s : C127_Section) (hs : s.Valid) (n : ℕ) (hn : s.text.length < n) :
    resplit n s.text = (s.sym ++ (s.sp ++ s.num), s.shells.map fun p => (p.2.kind, C127_bodyText p.2.body)) := by
  obtain ⟨hsym, hsp, hnum, hl⟩ := hs
  have key : ∀ p q, s.sym ++ (s.sp ++ s.num) = p ++ q → q ≠ [] → matchAt (q ++ C127_shellsText s.shells) = none := by
    intro p q h hq
    rcases List.append_eq_append_iff.1 h with ⟨a', ha, hb⟩ | ⟨a', ha, hb⟩
    · -- `q` is in the white space or the number
      exact scan_token hsp.2 (word_token (digits_word hnum)) (nd_shells hl) a' q hb hq
    · by_cases ha0 : a' = []
      · subst ha0
        have hq' : q = s.sp ++ s.num := by simpa using hb
        exact scan_token hsp.2 (word_token (digits_word hnum)) (nd_shells hl) [] q hq'.symm hq
      · subst hb
        have hw : C127_Word a' := ⟨ha0, fun c hc => hsym.2 c (by rw [ha]; simp [hc])⟩
        rcases hsh : s.shells with _ | ⟨g, l⟩
        · by_contra hne
          obtain ⟨r, hr⟩ := Option.ne_none_iff_exists'.1 hne
          have := match_dot hr
          simp only [C127_shellsText, List.flatMap_nil, List.append_nil, List.mem_append] at this
          rcases this with h | h | h
          · exact word_not_dot (hw.2 _ h) rfl
          · exact sp_not_dot (hsp.2 _ h) rfl
          · exact word_not_dot (dig_word (hnum.2 _ h)) rfl
        · rw [hsh] at hl
          obtain ⟨h1, h2, h3⟩ := hl g (by simp)
          have := match_none' (ws := []) (a := a') (s := s.sp) (b := s.num) (s' := g.1) (k := g.2.kind)
            (u := g.2.sp1 ++ (g.2.num ++ (g.2.sp2 ++ (g.2.scale1 ++ '.' :: (g.2.scale2 ++ '\n' :: C127_bodyText g.2.body)))) ++ C127_shellsText l)
            (by simp [C127_Space]) (word_token hw) hsp hnum ⟨h1, h2⟩ h3.1 (by
              intro c hc
              rw [List.append_assoc, head_append h3.2.2.1.1] at hc
              exact h3.2.2.1.2 c (head_mem hc))
          simpa [C127_shellsText, C127_Shell.text] using this
  obtain ⟨m, hm, hr⟩ := scan (u := C127_shellsText s.shells) (s.sym ++ (s.sp ++ s.num)) n key (by
    simp [C127_Section.text] at hn ⊢; omega)
  have e : s.text = s.sym ++ (s.sp ++ s.num) ++ C127_shellsText s.shells := by simp [C127_Section.text]
  rw [e, hr, shells_scan _ _ hl hm]
  simp

private theorem atom_section (s : C127_Section) (hs : s.Valid) : atomOf (s.sym ++ (s.sp ++ s.num)) = .ok s.sym := by
  obtain ⟨hsym, hsp, hnum, hl⟩ := hs
  have h := takeWhile_run (u := s.sp ++ s.num) hsym.2 (by
    intro c hc
    rw [head_append hsp.1] at hc
    have := hsp.2 c (head_mem hc)
    by_contra h
    simp [word_not_sp (by simpa using h)] at this)
  unfold atomOf
  rw [h.1, h.2]
  cases hx : s.sp with
  | nil => exact absurd hx hsp.1
  | cons c t =>
    have : isSp c = true := hsp.2 c (by rw [hx]; simp)
    simp [this, hsym.1]

private theorem rstrip_pad {x pad : Txt} {c : Char} (hp : C127_Space pad) (hc : isSp c = false) : rstrip (x ++ [c] ++ pad) = x ++ [c] := by
  unfold rstrip
  have := takeWhile_run (p := isSp) (x := pad.reverse) (fun c hc => hp c (by simpa using hc)) (u := c :: x.reverse) (by simpa using hc)
  simp [this.2]

private theorem body_last {body : List (Txt × Txt)} (hb : C127_BodyValid body) (hne : body ≠ []) :
    ∃ y c, C127_bodyText body = y ++ [c] ∧ isSp c = false := by
  have h := hb.1 (body.getLast hne) (List.getLast_mem hne)
  have e : body = body.dropLast ++ [body.getLast hne] := (List.dropLast_append_getLast hne).symm
  have ht : (body.getLast hne).2 = (body.getLast hne).2.dropLast ++ [(body.getLast hne).2.getLast h.2.1.1] :=
    (List.dropLast_append_getLast _).symm
  refine ⟨C127_bodyText body.dropLast ++ (body.getLast hne).1 ++ (body.getLast hne).2.dropLast, (body.getLast hne).2.getLast h.2.1.1, ?_,
    h.2.1.2 _ (List.getLast_mem _)⟩
  have e2 : C127_bodyText body = C127_bodyText body.dropLast ++ ((body.getLast hne).1 ++ (body.getLast hne).2) := by
    conv_lhs => rw [e]
    simp only [C127_bodyText, List.flatMap_append]
    simp
  rw [e2]
  conv_lhs => rw [ht]
  simp

private theorem section_last (s : C127_Section) (hs : s.Valid) : ∃ y c, s.text = y ++ [c] ∧ isSp c = false := by
  obtain ⟨hsym, hsp, hnum, hl⟩ := hs
  by_cases h : s.shells = []
  · refine ⟨s.sym ++ (s.sp ++ s.num.dropLast), s.num.getLast hnum.1, ?_, dig_not_sp (hnum.2 _ (List.getLast_mem _))⟩
    have : s.num = s.num.dropLast ++ [s.num.getLast hnum.1] := (List.dropLast_append_getLast _).symm
    simp only [C127_Section.text, h, C127_shellsText]
    conv_lhs => rw [this]
    simp
  · obtain ⟨-, -, hv⟩ := hl _ (List.getLast_mem h)
    obtain ⟨y, c, hy, hc⟩ := body_last hv.2.2.2.2.2.2.2.2 hv.2.2.2.2.2.2.2.1
    have e2 : C127_shellsText s.shells = C127_shellsText s.shells.dropLast ++ ((s.shells.getLast h).1 ++ (s.shells.getLast h).2.text) := by
      conv_lhs => rw [← List.dropLast_append_getLast h]
      simp only [C127_shellsText, List.flatMap_append]
      simp
    have h3 : ∀ (sh : C127_Shell), C127_bodyText sh.body = y ++ [c] → ∃ z, sh.text = z ++ [c] := by
      intro sh h
      exact ⟨sh.kind ++ (sh.sp1 ++ (sh.num ++ (sh.sp2 ++ (sh.scale1 ++ '.' :: (sh.scale2 ++ '\n' :: y))))), by
        simp [C127_Shell.text, h]⟩
    obtain ⟨z, hz⟩ := h3 _ hy
    exact ⟨s.sym ++ (s.sp ++ (s.num ++ (C127_shellsText s.shells.dropLast ++ ((s.shells.getLast h).1 ++ z)))), c, by
      rw [C127_Section.text, e2, hz]; simp, hc⟩

/-- the text of one atom among those that are collected -/
def C127_entries (s : C127_Section) : List (Txt × Txt) :=
  s.shells.map fun p => (s.sym, s.sym ++ ' ' :: p.2.kind ++ '\n' :: C127_bodyText p.2.body ++ ['\n'])

private theorem strip_section (s : C127_Section) (hs : s.Valid) {pad pad' : Txt} (hp : C127_Space pad) (hp' : C127_Space pad') :
    strip (pad ++ (s.text ++ pad')) = s.text ∧ s.text ≠ [] := by
  obtain ⟨y, c, hy, hc⟩ := section_last s hs
  have hne : s.text ≠ [] := by rw [hy]; simp
  refine ⟨?_, hne⟩
  unfold strip
  rw [(takeWhile_run hp (u := s.text ++ pad') ?_).2, hy, rstrip_pad hp' hc]
  intro d hd
  rw [head_append hne, C127_Section.text, head_append hs.1.1] at hd
  exact word_not_sp (hs.1.2 d (head_mem hd))

private theorem step_section (s : C127_Section) (hs : s.Valid) {pad pad' : Txt} (hp : C127_Space pad) (hp' : C127_Space pad') (d : List (Txt × Txt)) :
    step d (pad ++ (s.text ++ pad')) = .ok ((C127_entries s).foldl (fun d e => add d e.1 e.2) d) := by
  obtain ⟨h1, h2⟩ := strip_section s hs hp hp'
  unfold step
  rw [h1, if_neg h2, section_scan s hs _ (by omega), atom_section s hs]
  simp only [C127_entries]
  congr 1
  rw [List.foldl_map, List.foldl_map]
  have hv : ∀ p ∈ s.shells, rstrip (C127_bodyText p.2.body) = C127_bodyText p.2.body := by
    intro p hp
    obtain ⟨-, -, hv⟩ := hs.2.2.2 p hp
    obtain ⟨y, c, hy, hc⟩ := body_last hv.2.2.2.2.2.2.2.2 hv.2.2.2.2.2.2.2.1
    rw [hy]
    simpa using rstrip_pad (x := y) (pad := []) (by simp [C127_Space]) hc
  generalize s.shells = l at hv
  induction l generalizing d with
  | nil => rfl
  | cons p l ih =>
    simp only [List.foldl_cons]
    rw [hv p (by simp)]
    exact ih _ fun q hq => hv q (by simp [hq])

private theorem step_blank {pad : Txt} (hp : C127_Space pad) (d : List (Txt × Txt)) : step d pad = .ok d := by
  unfold step
  rw [if_pos]
  have := (takeWhile_run hp (u := []) (by simp)).2
  rw [List.append_nil] at this
  simp [strip, this, rstrip]

private theorem split_free {x : Txt} (hx : '*' ∉ x) (u h : Txt) (r : List Txt) (hu : splitStars u = h :: r) :
    splitStars (x ++ u) = (x ++ h) :: r := by
  induction x with
  | nil => simpa using hu
  | cons c x ih =>
    have hc : c ≠ '*' := fun e => hx (by simp [e])
    have := ih fun h => hx (by simp [h])
    rw [List.cons_append]
    unfold splitStars
    split
    · rename_i heq
      injection heq with h1 h2
      exact absurd h1 hc
    · rename_i heq
      injection heq with h1 h2
      subst h1; subst h2
      rw [this]
      rfl
    · rename_i heq
      simp at heq

/-- a part of a file between the stars: nothing, or a section with white space around it -/
def C127_Item := Option (Txt × C127_Section × Txt) × Txt

/-- its text -/
def C127_Item.text (i : C127_Item) : Txt :=
  match i.1 with
  | none => i.2
  | some (a, s, b) => a ++ (s.text ++ b)

/-- its sections -/
def C127_Item.sections (i : C127_Item) : List C127_Section :=
  match i.1 with
  | none => []
  | some (_, s, _) => [s]

/-- white space, or a valid section between white space; no stars -/
def C127_Item.Valid (i : C127_Item) : Prop :=
  '*' ∉ i.text ∧
  match i.1 with
  | none => C127_Space i.2
  | some (a, s, b) => C127_Space a ∧ s.Valid ∧ C127_Space b

/-- the text of a file: a header, and parts each with four stars before it -/
def C127_fileText (header : Txt) (items : List C127_Item) : Txt := header ++ items.flatMap fun i => ['*', '*', '*', '*'] ++ i.text

private theorem split_file (items : List C127_Item) (hv : ∀ i ∈ items, i.Valid) : ∀ (header : Txt), '*' ∉ header →
    splitStars (C127_fileText header items) = header :: items.map C127_Item.text := by
  induction items with
  | nil =>
    intro header hh
    have := split_free hh [] [] [] rfl
    simpa [C127_fileText] using this
  | cons i items ih =>
    intro header hh
    have h1 := ih (fun j hj => hv j (by simp [hj])) i.text (hv i (by simp)).1
    have h2 : splitStars (['*', '*', '*', '*'] ++ C127_fileText i.text items) = [] :: splitStars (C127_fileText i.text items) := rfl
    have h3 := split_free hh _ _ _ h2
    rw [h1] at h3
    have e : C127_fileText header (i :: items) = header ++ (['*', '*', '*', '*'] ++ C127_fileText i.text items) := by
      simp [C127_fileText]
    rw [e, h3]
    simp

private theorem fold_items (items : List C127_Item) (hv : ∀ i ∈ items, i.Valid) : ∀ d, (items.map C127_Item.text).foldlM step d =
    (.ok (((items.flatMap C127_Item.sections).flatMap C127_entries).foldl (fun d e => add d e.1 e.2) d) : Except PyErr _) := by
  induction items with
  | nil => intro d; rfl
  | cons i items ih =>
    intro d
    have h := hv i (by simp)
    have ih' := ih fun j hj => hv j (by simp [hj])
    rw [List.map_cons, List.foldlM_cons]
    obtain ⟨o, w⟩ := i
    rcases o with _ | ⟨a, s, b⟩
    · have : step d (C127_Item.text (none, w)) = .ok d := step_blank h.2 d
      rw [this]
      change (items.map C127_Item.text).foldlM step d = _
      rw [ih' d]
      rfl
    · have : step d (C127_Item.text (some (a, s, b), w)) = .ok ((C127_entries s).foldl (fun d e => add d e.1 e.2) d) :=
        step_section s h.2.2.1 h.2.1 h.2.2.2 d
      rw [this]
      change (items.map C127_Item.text).foldlM step _ = _
      rw [ih' _, ← List.foldl_append]
      rfl

private theorem lookup_add (d : List (Txt × Txt)) (a t k : Txt) :
    (add d a t).lookup k = if k = a then some ((d.lookup k).getD [] ++ t) else d.lookup k := by
  induction d with
  | nil =>
    by_cases h : k = a
    · subst h; simp [add, List.lookup]
    · have : (k == a) = false := by simpa using h
      simp [add, List.lookup, this, h]
  | cons p d ih =>
    obtain ⟨x, v⟩ := p
    by_cases hx : x = a
    · subst hx
      by_cases h : k = x
      · subst h; simp [add, List.lookup]
      · have : (k == x) = false := by simpa using h
        simp [add, List.lookup, this, h]
    · simp only [add, hx, if_false]
      by_cases h : k = x
      · subst h; simp [List.lookup, hx]
      · have : (k == x) = false := by simpa using h
        simp only [List.lookup, this, ih]

private theorem keys_add (d : List (Txt × Txt)) (a t : Txt) : (add d a t).map Prod.fst = if a ∈ d.map Prod.fst then d.map Prod.fst
    else d.map Prod.fst ++ [a] := by
  induction d with
  | nil => simp [add]
  | cons p d ih =>
    obtain ⟨x, v⟩ := p
    by_cases hx : x = a
    · simp [add, hx]
    · simp only [add, hx, if_false, List.map_cons, ih]
      have : a ≠ x := fun h => hx h.symm
      by_cases hm : a ∈ d.map Prod.fst
      · rw [if_pos hm, if_pos (by simp [hm])]
      · rw [if_neg hm, if_neg (by simp only [List.mem_cons, not_or]; exact ⟨this, hm⟩)]
        rfl

private theorem fold_add (l : List (Txt × Txt)) : ∀ (d : List (Txt × Txt)) (k : Txt),
    ((l.foldl (fun d e => add d e.1 e.2) d).lookup k).getD [] = (d.lookup k).getD [] ++ (l.filter fun e => e.1 = k).flatMap Prod.snd ∧
    (((l.foldl (fun d e => add d e.1 e.2) d).lookup k).isSome ↔ (d.lookup k).isSome ∨ ∃ e ∈ l, e.1 = k) ∧
    ((d.map Prod.fst).Nodup → ((l.foldl (fun d e => add d e.1 e.2) d).map Prod.fst).Nodup) := by
  induction l with
  | nil => intro d k; simp
  | cons e l ih =>
    intro d k
    obtain ⟨h1, h2, h3⟩ := ih (add d e.1 e.2) k
    rw [List.foldl_cons]
    refine ⟨?_, ?_, ?_⟩
    · rw [h1, lookup_add]
      by_cases h : k = e.1
      · subst h; simp
      · have : e.1 ≠ k := fun h' => h h'.symm
        simp [h, this]
    · rw [h2, lookup_add]
      by_cases h : k = e.1
      · subst h; simp
      · have : e.1 ≠ k := fun h' => h h'.symm
        simp [h, this]
    · intro hd
      refine h3 ?_
      rw [keys_add]
      split
      · exact hd
      · rename_i hm
        rw [List.nodup_append]
        exact ⟨hd, by simp, by
          intro x hx y hy
          rw [List.mem_singleton] at hy
          subst hy
          exact fun h => hm (h ▸ hx)⟩

/-- the shells of the atom `sym` in the order of the file -/
def C127_shellsOf (items : List C127_Item) (sym : Txt) : List C127_Shell :=
  ((items.flatMap C127_Item.sections).filter fun s => s.sym = sym).flatMap fun s => s.shells.map Prod.snd

/-- **C127**: `convert_gbs_nwchem` gives for each atom of the file the text with its shells, in the order of the file, in the format
`atom kind` and then the exponents and coefficients as they are in the file; atoms without shells are not in the result, and each atom is in
it once. -/
theorem C127_convert (header : Txt) (items : List C127_Item) (hh : '*' ∉ header) (hv : ∀ i ∈ items, i.Valid) :
    ∃ d, convert (C127_fileText header items) = .ok d ∧ (d.map Prod.fst).Nodup ∧
      ∀ sym, d.lookup sym = if C127_shellsOf items sym = [] then none
        else some ((C127_shellsOf items sym).flatMap fun s => sym ++ ' ' :: s.kind ++ '\n' :: C127_bodyText s.body ++ ['\n']) := by
  refine ⟨((items.flatMap C127_Item.sections).flatMap C127_entries).foldl (fun d e => add d e.1 e.2) [], ?_, ?_, ?_⟩
  · unfold convert
    rw [split_file items hv header hh]
    exact fold_items items hv []
  · exact (fold_add _ [] []).2.2 (by simp)
  · intro sym
    obtain ⟨h1, h2, -⟩ := fold_add ((items.flatMap C127_Item.sections).flatMap C127_entries) [] sym
    have hf : ∀ l : List C127_Section, ((l.flatMap C127_entries).filter fun e => e.1 = sym).flatMap Prod.snd =
        ((l.filter fun s => s.sym = sym).flatMap fun s => s.shells.map Prod.snd).flatMap
          (fun s => sym ++ ' ' :: s.kind ++ '\n' :: C127_bodyText s.body ++ ['\n']) := by
      intro l
      induction l with
      | nil => rfl
      | cons s l ih =>
        rw [List.flatMap_cons, List.filter_append, List.flatMap_append, ih]
        by_cases hs : s.sym = sym
        · subst hs
          simp [C127_entries, List.filter_map, List.flatMap_map, Function.comp_def]
        · simp [C127_entries, List.filter_map, hs, Function.comp_def]
    have he : (∃ e ∈ (items.flatMap C127_Item.sections).flatMap C127_entries, e.1 = sym) ↔ C127_shellsOf items sym ≠ [] := by
      unfold C127_shellsOf
      generalize items.flatMap C127_Item.sections = l
      induction l with
      | nil => simp
      | cons s l ih =>
        rw [List.flatMap_cons]
        simp only [List.mem_append, or_and_right, exists_or, ih]
        by_cases hs : s.sym = sym
        · subst hs
          simp only [decide_true, List.filter_cons_of_pos, List.flatMap_cons]
          simp only [C127_entries]
          cases s.shells <;> simp
        · simp only [C127_entries]
          simp [hs]
    simp only [List.lookup, Option.isSome_none, Bool.false_eq_true, false_or, Option.getD_none, List.nil_append] at h1 h2
    rw [hf] at h1
    rw [he] at h2
    by_cases hn : C127_shellsOf items sym = []
    · rw [if_pos hn]
      by_contra hne
      exact (h2.1 (Option.isSome_iff_ne_none.2 hne)) hn
    · rw [if_neg hn]
      obtain ⟨v, hx⟩ := Option.isSome_iff_exists.1 (h2.2 hn)
      rw [hx] at h1 ⊢
      simp only [Option.getD_some] at h1
      rw [h1]
      rfl

/-- **C127**: what is before the first four stars does not count, so an atom whose section is not preceded by stars is lost, and a file without
stars gives nothing. -/
theorem C127_first_disagrees (s : C127_Section) (_hs : s.Valid) (pad : Txt) (h : '*' ∉ s.text ++ pad) (items : List C127_Item)
    (hv : ∀ i ∈ items, i.Valid) (hn : ∀ i ∈ items, ∀ s' ∈ i.sections, s'.sym ≠ s.sym) :
    ∃ d, convert (C127_fileText (s.text ++ pad) items) = .ok d ∧ d.lookup s.sym = none ∧ (items = [] → d = []) := by
  obtain ⟨d, hd, -, hl⟩ := C127_convert (s.text ++ pad) items h hv
  refine ⟨d, hd, ?_, ?_⟩
  · rw [hl, if_pos]
    have : (items.flatMap C127_Item.sections).filter (fun s' => s'.sym = s.sym) = [] := by
      rw [List.filter_eq_nil_iff]
      intro s' hs'
      obtain ⟨i, hi, hs'⟩ := List.mem_flatMap.1 hs'
      simpa using hn i hi s' hs'
    simp [C127_shellsOf, this]
  · rintro rfl
    have : convert (C127_fileText (s.text ++ pad) []) = .ok [] := by
      unfold convert
      rw [split_file [] (by simp) _ h]
      rfl
    rw [this] at hd
    exact (Except.ok.inj hd).symm

/-- **C127**: a section that begins with anything but a letter, digit or underscore (a comment, or the symbol `-H` of Gaussian) raises
`AttributeError`, whatever the other sections are. -/
theorem C127_error (d : List (Txt × Txt)) (t : Txt) (c : Char) (u : Txt) (ht : strip t = c :: u) (hc : isWord c = false) (hs : isSp c = false) :
    step d t = .error .attributeError := by
  unfold step
  rw [ht, if_neg (by simp)]
  have hm : matchAt (c :: u) = none := by
    unfold matchAt
    simp [hs, hc]
  have : (resplit ((c :: u).length + 1) (c :: u)).1 = c :: (resplit (c :: u).length u).1 := by
    rw [List.length_cons, resplit_none hm]
  rw [this]
  have ha : ∀ v, atomOf (c :: v) = .error .attributeError := by
    intro v
    unfold atomOf
    simp [hc]
  rw [ha]

/-- **C127**: a section of one word raises `AttributeError` as well. -/
theorem C127_error_word (d : List (Txt × Txt)) (t : Txt) (ht : C127_Word (strip t)) : step d t = .error .attributeError := by
  have hr : ∀ n w, (∀ c ∈ w, isWord c = true) → w.length < n → resplit n w = (w, []) := by
    intro n
    induction n with
    | zero => intro w _ h; omega
    | succ n ih =>
      intro w hw hl
      cases w with
      | nil =>
        rw [resplit.eq_def]
        have : matchAt [] = none := by decide
        simp only [this]
      | cons c w =>
        have hm : matchAt (c :: w) = none := by
          have := match_none (ws := []) (a := c :: w) (u := []) (by intro c hc; simp at hc) ⟨by simp, fun c hc => word_not_sp (hw c hc)⟩ (Or.inl rfl)
          simpa using this
        rw [resplit_none hm, ih w (fun c hc => hw c (by simp [hc])) (by simpa using hl)]
  unfold step
  rw [if_neg ht.1, hr _ _ ht.2 (by omega)]
  have : (strip t).dropWhile isWord = [] := by
    have := (takeWhile_run (u := []) ht.2 (by simp)).2
    simpa using this
  simp only [atomOf, this]

example : C127_Word (strip " H \n".toList) := ⟨by decide +kernel, by decide +kernel⟩

/-- words are made of letters, digits and underscores -/
theorem C127_word_chars (c : Char) : isWord c = true ↔ c.isAlphanum = true ∨ c = '_' := by
  simp only [isWord, isDig, Char.isAlphanum, Char.isAlpha, Char.isUpper, Char.isLower, Char.isDigit, Char.le_def, Bool.or_eq_true,
    Bool.and_eq_true, decide_eq_true_eq]
  have e1 : ('0' : Char).val = 48 := rfl
  have e2 : ('9' : Char).val = 57 := rfl
  have e3 : ('a' : Char).val = 97 := rfl
  have e4 : ('z' : Char).val = 122 := rfl
  have e5 : ('A' : Char).val = 65 := rfl
  have e6 : ('Z' : Char).val = 90 := rfl
  simp only [e1, e2, e3, e4, e5, e6, ge_iff_le]
  tauto

/-- hydrogen with one shell, as in the files -/
def C127_hydrogen : C127_Section :=
  ⟨"H".toList, "     ".toList, "0".toList, [("\n".toList, ⟨"S".toList, "    ".toList, "2".toList, "   ".toList, "1".toList, "00".toList,
    [("      ".toList, "0.13D+02".toList), ("   ".toList, "0.19D-01".toList), ("\n  ".toList, "0.19D+01".toList), (" ".toList, "0.13D+00".toList)]⟩)]⟩

/-- the file with this section gives its shell -/
example : (convert (C127_fileText "! basis\n".toList [(some ("\n".toList, C127_hydrogen, "\n".toList), []), (none, "\n".toList)])) =
    .ok [("H".toList, "H S\n      0.13D+02   0.19D-01\n  0.19D+01 0.13D+00\n".toList)] := by decide +kernel

example : C127_hydrogen.Valid := by
  refine ⟨⟨by decide, by decide⟩, ⟨by decide, ?_⟩, ⟨by decide, by decide⟩, ?_⟩
  · unfold C127_Space; decide
  · intro p hp
    simp only [C127_hydrogen, List.mem_singleton] at hp
    subst hp
    refine ⟨by decide, by unfold C127_Space; decide, ⟨by decide, by decide⟩, by decide, ⟨by decide, by unfold C127_Space; decide⟩,
      ⟨by decide, by decide⟩, ⟨by decide, by unfold C127_Space; decide⟩, ⟨by decide, by decide⟩, ⟨by decide, by decide⟩, by decide, ?_, ?_⟩
    · unfold C127_Space C127_Token; decide
    · decide

/-- **C127**: a line of a shell with anything after the scale is not found: with a blank at its end or a second number (as in older files) the
shell is lost, or is put into the coefficients of the shell before it. -/
theorem C127_line_disagrees :
    convert "****\nH     0\nS   2   1.00 \n 0.13D+02 0.19D-01\n****".toList = .ok [] ∧
    convert "****\nH     0\nS   2   1.00       0.000000000000\n 0.13D+02 0.19D-01\n****".toList = .ok [] ∧
    convert "****\nH     0\nS   1   1.00\n 0.13D+02 0.19D-01\nP   1   1.00 \n 0.7D+00 1.0\n****".toList =
      .ok [("H".toList, "H S\n 0.13D+02 0.19D-01\nP   1   1.00 \n 0.7D+00 1.0\n".toList)] := by decide +kernel

/-- a comment between sections -/
example : step [] "\n! helium\nHe 0".toList = .error .attributeError :=
  C127_error [] _ '!' " helium\nHe 0".toList (by decide +kernel) (by decide) (by decide)

/-- the atom before the first stars -/
example : ∃ d, convert (C127_fileText (C127_hydrogen.text ++ "\n".toList) [(none, "\n".toList)]) = .ok d ∧ d.lookup "H".toList = none := by
  refine ⟨[], ?_, rfl⟩
  decide +kernel

end Fanpy.Props
