import Verif.Model.TextWrap
import Mathlib.Data.List.Chain
import Mathlib.Data.List.Basic
import Mathlib.Tactic.ByCases

/-! # Lemmas: wrapping of texts -/

namespace Fanpy.TextWrap
open List

/-- the words of a text: what is between white space -/
def words (t : List Char) : List (List Char) := (t.splitOnP isWs).filter fun w => w ≠ []

theorem words_nil : words [] = [] := by simp [words]

theorem words_append_cons (a b : List Char) {c : Char} (h : isWs c = true) : words (a ++ c :: b) = words a ++ words b := by
  rw [words, splitOnP_append_cons _ _ h, filter_append, words, words]

theorem words_cons_ws (b : List Char) {c : Char} (h : isWs c = true) : words (c :: b) = words b := by
  simpa [words_nil] using words_append_cons [] b h

theorem words_ws_append (g b : List Char) (h : ∀ c ∈ g, isWs c = true) : words (g ++ b) = words b := by
  induction g with
  | nil => rfl
  | cons c g ih =>
    rw [cons_append, words_cons_ws _ (h c mem_cons_self), ih fun d hd => h d (mem_cons_of_mem _ hd)]

theorem words_word {w : List Char} (h0 : w ≠ []) (h : ∀ c ∈ w, isWs c = false) : words w = [w] := by
  rw [words, splitOnP_eq_singleton h]
  simp [h0]

theorem words_munge (t : List Char) : words (munge t) = words t := by
  have : (munge t).splitOnP isWs = t.splitOnP isWs := by
    induction t with
    | nil => rfl
    | cons c t ih =>
      rw [munge, map_cons, splitOnP_cons_eq_if_modifyHead, splitOnP_cons_eq_if_modifyHead]
      change (if isWs (if isWs c then ' ' else c) then [] :: (munge t).splitOnP isWs
        else ((munge t).splitOnP isWs).modifyHead (cons (if isWs c then ' ' else c))) = _
      rw [ih]
      by_cases h : isWs c = true
      · simp [h, show isWs ' ' = true from rfl]
      · simp [h]
  rw [words, words, this]

theorem words_intercalate (ls : List (List Char)) : words (['\n'].intercalate ls) = ls.flatMap words := by
  induction ls with
  | nil => simp [words_nil]
  | cons l ls ih =>
    cases ls with
    | nil => simp
    | cons l' ls =>
      have e : ['\n'].intercalate (l :: l' :: ls) = l ++ '\n' :: ['\n'].intercalate (l' :: ls) := by
        simp [List.intercalate]
      rw [e, words_append_cons _ _ (by rfl), ih]
      simp

/-! ## Chunks -/

/-- no characters but spaces, or no spaces -/
def unif (g : List Char) : Prop := g ≠ [] ∧ ((∀ c ∈ g, c = ' ') ∨ ∀ c ∈ g, isWs c = false)

/-- the text has no white space but spaces -/
def plain (t : List Char) : Prop := ∀ c ∈ t, c ≠ ' ' → isWs c = false

theorem plain_munge (t : List Char) : plain (munge t) := by
  intro c hc h
  obtain ⟨d, _, rfl⟩ := mem_map.1 hc
  by_cases hd : isWs d = true
  · simp [hd] at h
  · simp [hd]

theorem blank_iff (g : List Char) : blank g = true ↔ ∀ c ∈ g, c = ' ' := by simp [blank]

theorem unif_not_blank {g : List Char} (h : unif g) (hb : blank g = false) : ∀ c ∈ g, isWs c = false := by
  rcases h.2 with h2 | h2
  · rw [(blank_iff g).2 h2] at hb; simp at hb
  · exact h2

/-- chunks as they are made: words and gaps by turns -/
def Good (cs : List (List Char)) : Prop := (∀ g ∈ cs, unif g) ∧ cs.IsChain fun a b => blank a ≠ blank b

theorem good_chunks {t : List Char} (ht : plain t) : Good (chunks t) ∧ (chunks t).flatten = t := by
  induction t with
  | nil => exact ⟨⟨by simp [chunks], by simp [chunks]⟩, rfl⟩
  | cons c t ih =>
    obtain ⟨⟨h1, h2⟩, h3⟩ := ih fun d hd => ht d (mem_cons_of_mem _ hd)
    have hc := ht c mem_cons_self
    have uc : unif [c] := by
      refine ⟨by simp, ?_⟩
      by_cases h : c = ' '
      · exact Or.inl (by simp [h])
      · exact Or.inr (by simpa using hc h)
    have bc : blank [c] = decide (c = ' ') := by simp [blank]
    rw [chunks]
    cases hcs : chunks t with
    | nil =>
      rw [hcs] at h3
      have : t = [] := by simpa using h3.symm
      subst this
      exact ⟨⟨by simpa [addChar] using uc, by simp [addChar]⟩, by simp [addChar]⟩
    | cons g gs =>
      rw [hcs] at h1 h2 h3
      have ug := h1 g mem_cons_self
      rw [addChar]
      split_ifs with h
      · have ucg : unif (c :: g) := by
          refine ⟨by simp, ?_⟩
          by_cases hb : c = ' '
          · have := (blank_iff g).1 (by rw [← h]; simpa using hb)
            exact Or.inl (by simp [hb]; exact this)
          · have := unif_not_blank ug (by rw [← h]; simpa using hb)
            exact Or.inr (by simp [hc hb]; exact this)
        have bcg : blank (c :: g) = blank g := by
          have e : blank (c :: g) = (decide (c = ' ') && blank g) := by simp [blank]
          rw [e, h, Bool.and_self]
        refine ⟨⟨?_, ?_⟩, by simp at h3 ⊢; exact h3⟩
        · intro x hx
          rcases mem_cons.1 hx with rfl | hx
          · exact ucg
          · exact h1 x (mem_cons_of_mem _ hx)
        · cases gs with
          | nil => simp
          | cons g' gs => rw [isChain_cons_cons] at h2 ⊢; rw [bcg]; exact h2
      · refine ⟨⟨?_, ?_⟩, by simp at h3 ⊢; exact h3⟩
        · intro x hx
          rcases mem_cons.1 hx with rfl | hx
          · exact uc
          · exact h1 x hx
        · rw [isChain_cons_cons, bc]; exact ⟨h, h2⟩

/-- the words of chunks that are words and gaps by turns -/
theorem words_flatten {cs : List (List Char)} (h : Good cs) : words cs.flatten = cs.filter fun g => !blank g := by
  obtain ⟨h1, h2⟩ := h
  induction cs with
  | nil => simp [words_nil]
  | cons g cs ih =>
    have ih := ih (fun x hx => h1 x (mem_cons_of_mem _ hx)) h2.tail
    have ug := h1 g mem_cons_self
    by_cases hb : blank g = true
    · rw [flatten_cons, words_ws_append _ _ (fun c hc => by rw [(blank_iff g).1 hb c hc]; rfl), ih]
      simp [hb]
    · have hb : blank g = false := by simpa using hb
      have hw := words_word ug.1 (unif_not_blank ug hb)
      cases cs with
      | nil => simp [hb, hw]
      | cons g' cs =>
        have hb' : blank g' = true := by
          have := (isChain_cons_cons.1 h2).1
          rw [hb] at this
          simpa using this.symm
        have ug' := h1 g' (by simp)
        obtain ⟨c, r, rfl⟩ := exists_cons_of_ne_nil ug'.1
        have hc : isWs c = true := by rw [(blank_iff _).1 hb' c mem_cons_self]; rfl
        have e : ((c :: r) :: cs).flatten = c :: (r ++ cs.flatten) := by simp
        rw [e, words_cons_ws _ hc] at ih
        rw [flatten_cons, e, words_append_cons _ _ hc, hw, ih]
        simp [hb]

/-! ## The loop -/

theorem fit_append (w cur : ℕ) (cs : List (List Char)) : (fit w cur cs).1 ++ (fit w cur cs).2 = cs := by
  induction cs generalizing cur with
  | nil => rfl
  | cons g gs ih =>
    rw [fit]
    split_ifs
    · simp [ih]
    · rfl

theorem fit_length (w cur : ℕ) (cs : List (List Char)) (h : cur ≤ w) : cur + (fit w cur cs).1.flatten.length ≤ w := by
  induction cs generalizing cur with
  | nil => simpa [fit] using h
  | cons g gs ih =>
    rw [fit]
    split_ifs with h'
    · have := ih _ h'
      simp only [flatten_cons, length_append]
      omega
    · simpa using h

/-- everything that fits is taken -/
theorem fit_prefix (w cur : ℕ) (as bs : List (List Char)) (h : cur + as.flatten.length ≤ w) :
    as <+: (fit w cur (as ++ bs)).1 := by
  induction as generalizing cur with
  | nil => exact nil_prefix
  | cons g gs ih =>
    rw [flatten_cons, length_append] at h
    rw [cons_append, fit, if_pos (by omega)]
    exact (prefix_cons_inj g).2 (ih _ (by omega))

theorem dropLead_suffix (first : Bool) (cs : List (List Char)) : dropLead first cs <:+ cs := by
  cases cs with
  | nil => exact suffix_refl _
  | cons g gs =>
    rw [dropLead]
    split_ifs
    · exact suffix_cons _ _
    · exact suffix_refl _

theorem dropLead_filter (first : Bool) (cs : List (List Char)) :
    (dropLead first cs).filter (fun g => !blank g) = cs.filter fun g => !blank g := by
  cases cs with
  | nil => rfl
  | cons g gs =>
    rw [dropLead]
    split_ifs with h
    · rw [Bool.and_eq_true] at h
      simp [h.1]
    · rfl

theorem dropTrail_prefix (cs : List (List Char)) : dropTrail cs <+: cs := by
  rw [dropTrail]
  split_ifs
  · exact dropLast_prefix _
  · exact prefix_refl _

theorem dropTrail_filter (cs : List (List Char)) :
    (dropTrail cs).filter (fun g => !blank g) = cs.filter fun g => !blank g := by
  rcases eq_nil_or_concat cs with rfl | ⟨l, g, rfl⟩
  · rfl
  · rw [dropTrail, concat_eq_append]
    simp only [getLast?_append, getLast?_singleton, Option.some_or, Option.getD_some, dropLast_concat]
    split_ifs with h
    · simp [h]
    · rfl

theorem dropTrail_cons {g : List Char} (gs : List (List Char)) (h : blank g = false) :
    ∃ r, dropTrail (g :: gs) = g :: r := by
  rcases eq_nil_or_concat gs with rfl | ⟨l, x, rfl⟩
  · exact ⟨[], by simp [dropTrail, h]⟩
  · rw [dropTrail]
    split_ifs
    · exact ⟨l, by rw [concat_eq_append, ← cons_append, dropLast_concat]⟩
    · exact ⟨_, rfl⟩

theorem long_eq {w : ℕ} {cs : List (List Char)} (cur : List (List Char)) (h : ∀ g ∈ cs, g.length ≤ w) : long w cur cs = (cur, cs) := by
  cases cs with
  | nil => rfl
  | cons g gs => rw [long, if_neg (by have := h g mem_cons_self; omega)]

theorem Good.infix {as cs : List (List Char)} (h : Good cs) (hi : as <:+: cs) : Good as :=
  ⟨fun g hg => h.1 g (hi.subset hg), h.2.infix hi⟩

theorem dropLead_head {g : List Char} {gs cs : List (List Char)} (hg : Good cs) (h : dropLead false cs = g :: gs) : blank g = false := by
  cases cs with
  | nil => simp [dropLead] at h
  | cons x xs =>
    rw [dropLead] at h
    split_ifs at h with hx
    · subst h
      have := (isChain_cons_cons.1 hg.2).1
      rw [Bool.and_eq_true] at hx
      rw [hx.1] at this
      simpa using this.symm
    · have : x = g := (cons.inj h).1
      subst this
      simpa using hx

/-- a line after the first one -/
def Cont (indent l : List Char) : Prop := ∃ c r, l = indent ++ c :: r ∧ isWs c = false

theorem wrapLoop_good {width : ℕ} {indent : List Char} (hi : ∀ c ∈ indent, c = ' ') (hw : indent.length ≤ width) (n : ℕ) (first : Bool)
    {cs : List (List Char)} (hg : Good cs) (hl : ∀ g ∈ cs, g.length + indent.length ≤ width) (hn : cs.length < n) :
    (wrapLoop width indent n first cs).flatMap words = cs.filter (fun g => !blank g) ∧
      (∀ l ∈ wrapLoop width indent n first cs, l.length ≤ width) ∧
      (∀ l ∈ (if first then (wrapLoop width indent n first cs).tail else wrapLoop width indent n first cs), Cont indent l) := by
  induction n generalizing first cs with
  | zero => omega
  | succ n ih =>
    match cs, hn with
    | [], _ => cases first <;> simp [wrapLoop]
    | g :: gs, hn =>
      rw [wrapLoop]
      set w := if first then width else width - indent.length with hwdef
      have hwl : ∀ x ∈ g :: gs, x.length ≤ w := by
        intro x hx
        have := hl x hx
        rw [hwdef]
        split_ifs <;> omega
      obtain ⟨pre, hpre⟩ := dropLead_suffix first (g :: gs)
      have hap := fit_append w 0 (dropLead first (g :: gs))
      have hlen := fit_length w 0 (dropLead first (g :: gs)) (Nat.zero_le _)
      have hfil := dropLead_filter first (g :: gs)
      have hhead : first = false → ∀ x xs, dropLead first (g :: gs) = x :: xs → blank x = false := by
        rintro rfl x xs hx
        exact dropLead_head hg hx
      have hmem1 : ∀ x ∈ dropLead first (g :: gs), x ∈ g :: gs := fun x hx => by rw [← hpre]; exact mem_append_right _ hx
      have hfirst : ∀ x xs, dropLead first (g :: gs) = x :: xs → ∃ ys, (fit w 0 (dropLead first (g :: gs))).1 = x :: ys := by
        intro x xs hx
        rw [hx, fit, if_pos (by have := hwl x (hmem1 x (by rw [hx]; exact mem_cons_self)); omega)]
        exact ⟨_, rfl⟩
      have hdl : (dropLead first (g :: gs)) = [] ∨ ∃ x xs, dropLead first (g :: gs) = x :: xs := by
        cases dropLead first (g :: gs) with
        | nil => exact Or.inl rfl
        | cons x xs => exact Or.inr ⟨x, xs, rfl⟩
      have hdlen : (dropLead first (g :: gs)).length ≤ (g :: gs).length := by
        exact (dropLead_suffix first (g :: gs)).length_le
      have hzero : dropLead first (g :: gs) = [] → (g :: gs).length ≠ 0 := by simp
      generalize hcs1 : dropLead first (g :: gs) = cs1 at *
      have hgood1 : Good cs1 := hg.infix ⟨pre, [], by simpa using hpre⟩
      set cur := (fit w 0 cs1).1 with hcur
      set rest := (fit w 0 cs1).2 with hrest
      have hgc : Good cur := hgood1.infix ⟨[], rest, by simpa using hap⟩
      have hgr : Good rest := hgood1.infix ⟨cur, [], by simpa using hap⟩
      have hrm : ∀ x ∈ rest, x ∈ g :: gs := fun x hx => hmem1 x (by rw [← hap]; exact mem_append_right _ hx)
      rw [long_eq cur (fun x hx => hwl x (hrm x hx))]
      have hrlen : rest.length < n := by
        have h2 : cur.length + rest.length = cs1.length := by rw [← length_append, hap]
        rcases hdl with h | ⟨x, xs, h⟩
        · subst h
          have h3 : ([] : List (List Char)).length = 0 := rfl
          simp only [length_cons] at hn
          omega
        · obtain ⟨ys, hy⟩ := hfirst x xs h
          rw [hy, length_cons] at h2
          simp only [length_cons] at hn hdlen
          omega
      obtain ⟨i1, i2, i3⟩ := ih (first && (dropTrail cur).isEmpty) hgr (fun x hx => hl x (hrm x hx)) hrlen
      have hgt : Good (dropTrail cur) := hgc.infix (dropTrail_prefix cur).isInfix
      have htl : (dropTrail cur).flatten.length ≤ w := by
        obtain ⟨z, hz⟩ := dropTrail_prefix cur
        have : cur.flatten.length = (dropTrail cur).flatten.length + z.flatten.length := by
          rw [← length_append, ← flatten_append, hz]
        omega
      have hfw : cs1.filter (fun g => !blank g) = (dropTrail cur).filter (fun g => !blank g) ++ rest.filter fun g => !blank g := by
        rw [dropTrail_filter, ← filter_append, hap]
      have hcont : first = false → dropTrail cur ≠ [] → Cont indent (indent ++ (dropTrail cur).flatten) := by
        intro hf hne
        rcases hdl with h | ⟨x, xs, h⟩
        · subst h
          exact absurd rfl hne
        · obtain ⟨ys, hy⟩ := hfirst x xs h
          have hb := hhead hf x xs h
          obtain ⟨r, hr⟩ := dropTrail_cons ys hb
          have ux : unif x := hgood1.1 x (by rw [h]; exact mem_cons_self)
          obtain ⟨c, x', hx⟩ := exists_cons_of_ne_nil ux.1
          refine ⟨c, x' ++ r.flatten, by rw [hy, hr, hx]; simp, unif_not_blank ux hb c (by rw [hx]; exact mem_cons_self)⟩
      have hempty : dropTrail cur = [] → first = false → rest = [] := by
        intro he hf
        rcases hdl with h | ⟨x, xs, h⟩
        · subst h; rfl
        · obtain ⟨ys, hy⟩ := hfirst x xs h
          obtain ⟨r, hr⟩ := dropTrail_cons ys (hhead hf x xs h)
          rw [hy, hr] at he
          simp at he
      by_cases he : dropTrail cur = []
      · simp only [he, if_true, nil_append, isEmpty_nil, Bool.and_true]
        simp only [he, isEmpty_nil, Bool.and_true] at i1 i2 i3
        refine ⟨?_, i2, i3⟩
        rw [i1, ← hfil, hfw, he]
        rfl
      · have hie : (dropTrail cur).isEmpty = false := by simpa using he
        simp only [he, if_false]
        simp only [hie, Bool.and_false] at i1 i2 i3 ⊢
        refine ⟨?_, ?_, ?_⟩
        · rw [flatMap_append, i1, ← hfil, hfw]
          congr 1
          rw [flatMap_cons, flatMap_nil, append_nil, words_ws_append, words_flatten hgt]
          intro c hc
          split_ifs at hc
          · simp at hc
          · rw [hi c hc]; rfl
        · intro l hml
          rcases mem_append.1 hml with hml | hml
          · rw [mem_singleton.1 hml, length_append]
            rw [hwdef] at htl
            split_ifs at htl ⊢
            · simpa using htl
            · omega
          · exact i2 l hml
        · intro l hml
          cases first with
          | true =>
            simp only [if_true, cons_append, nil_append, tail_cons] at hml
            exact i3 l (by simpa using hml)
          | false =>
            simp only [Bool.false_eq_true, if_false] at hml
            rcases mem_append.1 hml with hml | hml
            · rw [mem_singleton.1 hml]
              exact hcont rfl he
            · exact i3 l (by simpa using hml)

/-! ## Characters and the first line -/

theorem mem_long {w : ℕ} {cur cs : List (List Char)} {c : Char}
    (h : c ∈ (long w cur cs).1.flatten ∨ c ∈ (long w cur cs).2.flatten) : c ∈ cur.flatten ∨ c ∈ cs.flatten := by
  cases cs with
  | nil => simpa [long] using h
  | cons g gs =>
    rw [long] at h
    split_ifs at h
    · simp only [flatten_append, flatten_cons, flatten_nil, append_nil, mem_append] at h ⊢
      rcases h with (h | h) | (h | h)
      · exact Or.inl h
      · exact Or.inr (Or.inl (mem_of_mem_take h))
      · exact Or.inr (Or.inl (mem_of_mem_drop h))
      · exact Or.inr (Or.inr h)
    · exact h

theorem mem_wrapLoop {width : ℕ} {indent : List Char} {n : ℕ} {first : Bool} {cs : List (List Char)} {l : List Char}
    (hl : l ∈ wrapLoop width indent n first cs) {c : Char} (hc : c ∈ l) : c ∈ indent ∨ c ∈ cs.flatten := by
  induction n generalizing first cs with
  | zero => simp [wrapLoop] at hl
  | succ n ih =>
    match cs with
    | [] => simp [wrapLoop] at hl
    | g :: gs =>
      rw [wrapLoop] at hl
      have hd : ∀ x ∈ (dropLead first (g :: gs)).flatten, x ∈ (g :: gs).flatten := by
        intro x hx
        obtain ⟨y, hy, hxy⟩ := mem_flatten.1 hx
        exact mem_flatten.2 ⟨y, (dropLead_suffix first (g :: gs)).subset hy, hxy⟩
      have hf : ∀ w, ∀ x, (x ∈ (fit w 0 (dropLead first (g :: gs))).1.flatten ∨ x ∈ (fit w 0 (dropLead first (g :: gs))).2.flatten) →
          x ∈ (g :: gs).flatten := by
        intro w x hx
        refine hd x ?_
        rw [← fit_append w 0 (dropLead first (g :: gs)), flatten_append, mem_append]
        exact hx
      rcases mem_append.1 hl with h | h
      · split_ifs at h with h1 h2
        · simp at h
        · rw [mem_singleton.1 h, nil_append] at hc
          obtain ⟨y, hy, hcy⟩ := mem_flatten.1 hc
          exact Or.inr (hf _ c (mem_long (Or.inl (mem_flatten.2 ⟨y, (dropTrail_prefix _).subset hy, hcy⟩))))
        · simp at h
        · rw [mem_singleton.1 h] at hc
          rcases mem_append.1 hc with hc | hc
          · exact Or.inl hc
          · obtain ⟨y, hy, hcy⟩ := mem_flatten.1 hc
            exact Or.inr (hf _ c (mem_long (Or.inl (mem_flatten.2 ⟨y, (dropTrail_prefix _).subset hy, hcy⟩))))
      · rcases ih h with h | h
        · exact Or.inl h
        · exact Or.inr (hf _ c (mem_long (Or.inr h)))

theorem chunks_ne_nil (c : Char) (t : List Char) : ∃ g gs, chunks (c :: t) = g :: gs := by
  rw [chunks]
  cases chunks t with
  | nil => exact ⟨_, _, rfl⟩
  | cons g gs =>
    rw [addChar]
    split_ifs
    · exact ⟨_, _, rfl⟩
    · exact ⟨_, _, rfl⟩

/-- The chunks before and after the end of a word. -/
theorem chunks_append {a b : List Char} {c : Char} (hp : plain (a ++ [c] ++ b)) (hc : c ≠ ' ') (hb : b = [] ∨ ∃ r, b = ' ' :: r) :
    chunks (a ++ [c] ++ b) = chunks (a ++ [c]) ++ chunks b := by
  induction a with
  | nil =>
    rcases hb with rfl | ⟨r, rfl⟩
    · simp [chunks]
    · have hpr : plain (' ' :: r) := fun d hd => hp d (by simp at hd ⊢; tauto)
      obtain ⟨⟨hg, _⟩, he⟩ := good_chunks hpr
      obtain ⟨g, gs, hgs⟩ := chunks_ne_nil ' ' r
      rw [hgs] at hg he
      have ug := hg g mem_cons_self
      obtain ⟨d, g', rfl⟩ := exists_cons_of_ne_nil ug.1
      have hd : d = ' ' := by simpa using (cons.inj he).1
      have hbl : blank (d :: g') = true := by
        by_contra h
        have := unif_not_blank ug (by simpa using h) d mem_cons_self
        rw [hd] at this
        exact absurd this (by decide)
      rw [show [] ++ [c] ++ ' ' :: r = c :: ' ' :: r from rfl, chunks, hgs, addChar, if_neg (by simp [hc, hbl])]
      simp [chunks, addChar]
  | cons x a ih =>
    have ih := ih fun d hd => hp d (by simp at hd ⊢; tauto)
    have hne : ∃ g gs, chunks (a ++ [c]) = g :: gs := by
      cases a with
      | nil => exact chunks_ne_nil _ _
      | cons y a => exact chunks_ne_nil _ _
    obtain ⟨g, gs, hgs⟩ := hne
    rw [show x :: a ++ [c] ++ b = x :: (a ++ [c] ++ b) by simp, chunks, ih, show x :: a ++ [c] = x :: (a ++ [c]) by simp, chunks, hgs,
      cons_append, addChar, addChar]
    split_ifs <;> simp

theorem last_chunk {a : List Char} {c : Char} (hp : plain (a ++ [c])) (hc : c ≠ ' ') :
    ∃ l g, chunks (a ++ [c]) = l ++ [g] ∧ blank g = false := by
  obtain ⟨⟨hg, _⟩, he⟩ := good_chunks hp
  rcases eq_nil_or_concat (chunks (a ++ [c])) with h | ⟨l, g, h⟩
  · rw [h] at he; simp at he
  · rw [concat_eq_append] at h
    refine ⟨l, g, h, ?_⟩
    rw [h] at hg he
    have ug := hg g (by simp)
    rcases eq_nil_or_concat g with h' | ⟨g', d, h'⟩
    · exact absurd h' ug.1
    · rw [concat_eq_append] at h'
      subst h'
      have e : l.flatten ++ g' ++ [d] = a ++ [c] := by rw [← he]; simp
      have hd : d = c := by simpa using (append_inj' e rfl).2
      have hn : ¬ ∀ x ∈ g' ++ [d], x = ' ' := fun h => hc (hd ▸ h d (by simp))
      rw [← blank_iff] at hn
      simpa using hn

theorem dropTrail_append {l z : List (List Char)} {g : List Char} (hg : blank g = false) :
    ∃ r, dropTrail (l ++ [g] ++ z) = l ++ [g] ++ r ∧ r <+: z := by
  rcases eq_nil_or_concat z with rfl | ⟨z', x, rfl⟩
  · exact ⟨[], by simp [dropTrail, hg], prefix_refl _⟩
  · rw [concat_eq_append, dropTrail]
    split_ifs
    · exact ⟨z', by rw [← append_assoc, dropLast_concat], prefix_append _ _⟩
    · exact ⟨_, rfl, prefix_refl _⟩

end Fanpy.TextWrap
