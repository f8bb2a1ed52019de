import Verif.Model.Settings
import Verif.Lemmas.Bits

/-! C109: memory of wavefunctions and settings of hierarchy CI. -/

namespace Fanpy.Props
open Fanpy.Settings Fanpy.Spec

theorem occursIn_iff (pat s : List Char) : occursIn pat s = true ↔ ∃ a c, s = a ++ pat ++ c := by
  unfold occursIn
  rw [List.any_eq_true]
  constructor
  · rintro ⟨t, ht, hp⟩
    obtain ⟨a, rfl⟩ := (List.mem_tails _ _).1 ht
    obtain ⟨c, rfl⟩ := List.isPrefixOf_iff_prefix.1 hp
    exact ⟨a, c, by simp⟩
  · rintro ⟨a, c, rfl⟩
    exact ⟨pat ++ c, (List.mem_tails _ _).2 ⟨a, by simp⟩, List.isPrefixOf_iff_prefix.2 ⟨c, rfl⟩⟩

theorem occursIn_end (pat a : List Char) : occursIn pat (a ++ pat) = true := (occursIn_iff _ _).2 ⟨a, [], by simp⟩

theorem rstrip_append (chars t u : List Char) (hu : ∀ c ∈ u, c ∈ chars) (ht : ∀ c, t.getLast? = some c → c ∉ chars) :
    rstrip chars (t ++ u) = t := by
  unfold rstrip
  have h1 : (t ++ u).rdropWhile (fun c => decide (c ∈ chars)) = t.rdropWhile (fun c => decide (c ∈ chars)) := by
    unfold List.rdropWhile
    rw [List.reverse_append, List.dropWhile_append_of_pos]
    intro c hc
    simpa using hu c (List.mem_reverse.1 hc)
  rw [h1, List.rdropWhile_eq_self_iff]
  intro hl
  simpa using ht _ (List.getLast?_eq_getLast_of_ne_nil hl)

theorem lower_spaces (k : ℕ) : lower (List.replicate k ' ') = List.replicate k ' ' := by
  unfold lower; rw [List.map_replicate]; rfl

/-- a text of a number: no letter `b`, and it does not end with a character that is stripped -/
def NumberText (t : List Char) : Prop :=
  (∀ c ∈ t, c.toLower ≠ 'b') ∧ ∀ c, t.getLast? = some c → c ∉ ['m', 'g', 'b', ' ', '.']

theorem no_mb {u : List Char} (hu : 'b' ∉ u) : occursIn ['m', 'b'] (u ++ ['g', 'b']) = false := by
  rw [Bool.eq_false_iff]
  intro h
  obtain ⟨a, c, h⟩ := (occursIn_iff _ _).1 h
  rcases List.eq_nil_or_concat c with rfl | ⟨c', x, rfl⟩
  · have h2 : u ++ ['g', 'b'] = a ++ ['m', 'b'] := by simpa using h
    have := (List.append_inj' h2 rfl).2
    simp at this
  · have h2 : (u ++ ['g']) ++ ['b'] = (a ++ ['m', 'b'] ++ c') ++ [x] := by simpa using h
    have h3 := (List.append_inj' h2 rfl).1
    have : 'b' ∈ u ++ ['g'] := by rw [h3]; simp
    simp [hu] at this

variable {R : Type}

/-- **C109.**  The memory: no limit for `None`, the number of bytes for a number, and for a number followed by (spaces and)
`mb` or `gb` that many millions or billions of bytes. -/
theorem C109_memory [Mul R] [NatCast R] (float : List Char → Option R) (t : List Char) (ht : NumberText t) (k : ℕ)
    (x y : R) (hx : float t = some x) :
    assignMemory float .none = .ok none ∧
    assignMemory float (.number y) = .ok (some y) ∧
    assignMemory float (.text (t ++ List.replicate k ' ' ++ ['m', 'b'])) = .ok (some (((1000000 : ℕ) : R) * x)) ∧
    assignMemory float (.text (t ++ List.replicate k ' ' ++ ['g', 'b'])) = .ok (some (((1000000000 : ℕ) : R) * x)) ∧
    assignMemory float .other = .error .typeError := by
  obtain ⟨h1, h2⟩ := ht
  refine ⟨rfl, rfl, ?_, ?_, rfl⟩
  · have e : lower (t ++ List.replicate k ' ' ++ ['m', 'b']) = (lower (t ++ List.replicate k ' ')) ++ ['m', 'b'] := by
      unfold lower; rw [List.map_append]; rfl
    have e2 : rstrip ['m', 'b', ' ', '.'] (t ++ List.replicate k ' ' ++ ['m', 'b']) = t := by
      rw [List.append_assoc]
      apply rstrip_append
      · intro c hc
        rcases List.mem_append.1 hc with h | h
        · rw [List.eq_of_mem_replicate h]; simp
        · simp only [List.mem_cons, List.not_mem_nil, or_false] at h
          rcases h with rfl | rfl <;> simp
      · intro c hc hm
        apply h2 c hc
        simp only [List.mem_cons, List.not_mem_nil, or_false] at hm ⊢
        tauto
    rw [assignMemory, e, if_pos (occursIn_end _ _), e2, hx]
    rfl
  · have e : lower (t ++ List.replicate k ' ' ++ ['g', 'b']) = (lower (t ++ List.replicate k ' ')) ++ ['g', 'b'] := by
      unfold lower; rw [List.map_append]; rfl
    have e2 : rstrip ['g', 'b', ' ', '.'] (t ++ List.replicate k ' ' ++ ['g', 'b']) = t := by
      rw [List.append_assoc]
      apply rstrip_append
      · intro c hc
        rcases List.mem_append.1 hc with h | h
        · rw [List.eq_of_mem_replicate h]; simp
        · simp only [List.mem_cons, List.not_mem_nil, or_false] at h
          rcases h with rfl | rfl <;> simp
      · intro c hc hm
        apply h2 c hc
        simp only [List.mem_cons, List.not_mem_nil, or_false] at hm ⊢
        tauto
    have hb : 'b' ∉ lower (t ++ List.replicate k ' ') := by
      unfold lower
      rw [List.map_append, List.map_replicate]
      intro h
      rcases List.mem_append.1 h with h | h
      · obtain ⟨c, hc, he⟩ := List.mem_map.1 h
        exact h1 c hc he
      · have := List.eq_of_mem_replicate h
        revert this; decide
    rw [assignMemory, e, no_mb hb, if_neg (by simp), if_pos (occursIn_end _ _), e2, hx]
    rfl

/-- **C109.**  A text that contains neither unit in any case of letters is a `ValueError`. -/
theorem C109_memory_unit [Mul R] [NatCast R] (float : List Char → Option R) (s : List Char)
    (h1 : ∀ a c, s.map Char.toLower ≠ a ++ ['m', 'b'] ++ c) (h2 : ∀ a c, s.map Char.toLower ≠ a ++ ['g', 'b'] ++ c) :
    assignMemory float (.text s) = .error .valueError := by
  rw [assignMemory, if_neg, if_neg]
  · intro h
    obtain ⟨a, c, h⟩ := (occursIn_iff _ _).1 h
    exact h2 a c h
  · intro h
    obtain ⟨a, c, h⟩ := (occursIn_iff _ _).1 h
    exact h1 a c h

/-- **C109 (disagreement).**  Units in capital letters are recognised but not stripped, so that the number cannot be read. -/
theorem C109_memory_capitals_disagree [Mul R] [NatCast R] (float : List Char → Option R) (t : List Char)
    (ht : NumberText t) (hM : float (t ++ ['M', 'B']) = none) (hG : float (t ++ ['G', 'B']) = none) :
    assignMemory float (.text (t ++ ['M', 'B'])) = .error .valueError ∧
    assignMemory float (.text (t ++ ['G', 'B'])) = .error .valueError := by
  have e1 : lower (t ++ ['M', 'B']) = lower t ++ ['m', 'b'] := by unfold lower; rw [List.map_append]; rfl
  have e2 : lower (t ++ ['G', 'B']) = lower t ++ ['g', 'b'] := by unfold lower; rw [List.map_append]; rfl
  have r1 : rstrip ['m', 'b', ' ', '.'] (t ++ ['M', 'B']) = t ++ ['M', 'B'] := by
    have := rstrip_append ['m', 'b', ' ', '.'] (t ++ ['M', 'B']) [] (by simp) (by
      intro c hc
      rw [List.getLast?_append] at hc
      simp only [List.getLast?_cons_cons, List.getLast?_singleton, Option.some_or, Option.some.injEq] at hc
      subst hc; decide)
    simpa using this
  have r2 : rstrip ['g', 'b', ' ', '.'] (t ++ ['G', 'B']) = t ++ ['G', 'B'] := by
    have := rstrip_append ['g', 'b', ' ', '.'] (t ++ ['G', 'B']) [] (by simp) (by
      intro c hc
      rw [List.getLast?_append] at hc
      simp only [List.getLast?_cons_cons, List.getLast?_singleton, Option.some_or, Option.some.injEq] at hc
      subst hc; decide)
    simpa using this
  have hb : 'b' ∉ lower t := by
    intro h
    obtain ⟨c, hc, he⟩ := List.mem_map.1 h
    exact ht.1 c hc he
  constructor
  · rw [assignMemory, e1, if_pos (occursIn_end _ _), r1, hM]
  · rw [assignMemory, e2, no_mb hb, if_neg (by simp), if_pos (occursIn_end _ _), r2, hG]

/-- the names of the patterns -/
def patternName : CI.Pattern → List Char
  | .posDiag => "pos_diag".toList
  | .negDiag => "neg_diag".toList
  | .hch => "hch".toList
  | .vch => "vch".toList

theorem white_lower {c : Char} (h : isWhite c = true) : c.toLower = c := by
  unfold isWhite at h
  simp only [decide_eq_true_eq] at h
  rcases h with rfl | rfl | rfl | rfl | rfl | rfl <;> decide

theorem name_not_white (p : CI.Pattern) : ∀ c ∈ patternName p, isWhite c = false := by
  cases p <;> decide

theorem strip_append {w1 t w2 : List Char} (h1 : ∀ c ∈ w1, isWhite c = true) (h2 : ∀ c ∈ w2, isWhite c = true)
    (ht : ∀ c ∈ t, isWhite c = false) (hne : t ≠ []) : strip (w1 ++ t ++ w2) = t := by
  unfold strip
  have a : (w1 ++ t ++ w2).dropWhile isWhite = t ++ w2 := by
    rw [List.append_assoc, List.dropWhile_append_of_pos h1]
    cases t with
    | nil => exact absurd rfl hne
    | cons c t => rw [List.cons_append, List.dropWhile_cons_of_neg (by simp [ht c (by simp)])]
  rw [a]
  have b : (t ++ w2).rdropWhile isWhite = t.rdropWhile isWhite := by
    unfold List.rdropWhile
    rw [List.reverse_append, List.dropWhile_append_of_pos]
    intro c hc
    exact h2 c (List.mem_reverse.1 hc)
  rw [b, List.rdropWhile_eq_self_iff]
  intro hl
  simp [ht _ (List.getLast_mem hl)]

theorem strip_parts (s : List Char) : ∃ w1 w2, s = w1 ++ strip s ++ w2 ∧ (∀ c ∈ w1, isWhite c = true) ∧
    ∀ c ∈ w2, isWhite c = true := by
  refine ⟨s.takeWhile isWhite, (s.dropWhile isWhite).rtakeWhile isWhite, ?_, ?_, ?_⟩
  · unfold strip
    rw [List.append_assoc, List.rdropWhile, List.rtakeWhile, ← List.reverse_append, List.takeWhile_append_dropWhile,
      List.reverse_reverse, List.takeWhile_append_dropWhile]
  · intro c hc; exact List.mem_takeWhile_imp hc
  · intro c hc
    rw [List.rtakeWhile, List.mem_reverse] at hc
    exact List.mem_takeWhile_imp hc

theorem assignPattern_eq (s : List Char) (p : CI.Pattern) :
    assignPattern (some s) = .ok p ↔ lower (strip s) = patternName p := by
  rw [assignPattern]
  split_ifs with h1 h2 h3 h4
  · rw [h1]; cases p <;> decide
  · rw [h2]; cases p <;> decide
  · rw [h3]; cases p <;> decide
  · rw [h4]; cases p <;> decide
  · simp only [reduceCtorEq, false_iff]
    cases p <;> assumption

/-- **C109.**  The pattern of hierarchy CI: the four names, in any case of letters and with white space around them, and
nothing else; everything else is a `TypeError`. -/
theorem C109_pattern (s : List Char) (p : CI.Pattern) :
    (assignPattern (some s) = .ok p ↔ ∃ w1 t w2, s = w1 ++ t ++ w2 ∧ (∀ c ∈ w1, isWhite c = true) ∧
      (∀ c ∈ w2, isWhite c = true) ∧ t.map Char.toLower = patternName p) ∧
    (∀ e, assignPattern (some s) = .error e → e = .typeError) ∧ assignPattern none = .error .typeError := by
  refine ⟨?_, ?_, rfl⟩
  · rw [assignPattern_eq]
    constructor
    · intro h
      obtain ⟨w1, w2, h1, h2, h3⟩ := strip_parts s
      exact ⟨w1, strip s, w2, h1, h2, h3, h⟩
    · rintro ⟨w1, t, w2, rfl, h1, h2, h⟩
      rw [strip_append h1 h2]
      · exact h
      · intro c hc
        rw [Bool.eq_false_iff]
        intro hw
        have : c ∈ patternName p := by rw [← h]; exact List.mem_map.2 ⟨c, hc, white_lower hw⟩
        rw [name_not_white p c this] at hw
        exact absurd hw (by simp)
      · rintro rfl
        revert h; cases p <;> decide
  · intro e h
    rw [assignPattern] at h
    split_ifs at h
    simpa using h.symm

/-- **C109.**  The coefficients of the pattern are accepted and lie in [-1, 1]; the second is not zero. -/
theorem C109_alphas (p : CI.Pattern) : assignAlphas p = .ok p.alphas ∧ |p.alphas.1| ≤ 1 ∧ |p.alphas.2| ≤ 1 ∧
    p.alphas.2 ≠ 0 := by
  cases p <;> decide +kernel

/-- **C109.**  The reference of hierarchy CI: a determinant is accepted exactly if it has the right number of electrons
(wherever they are: the orbitals are not checked), a CI wavefunction exactly if it has the same numbers of electrons and
orbitals. -/
theorem C109_reference (nelec nspin n ne ns : ℕ) :
    (assignRefwfn nelec nspin (.sd n) = if (occSet n).card = nelec then .ok (.sd n) else .error .valueError) ∧
    (assignRefwfn nelec nspin (.ci ne ns) = if ne = nelec ∧ ns = nspin then .ok .ci else .error .valueError) ∧
    assignRefwfn nelec nspin .other = .error .typeError := by
  refine ⟨?_, ?_, rfl⟩
  · rw [assignRefwfn, Slater.totalOcc_eq]
    by_cases h : (occSet n).card = nelec <;> simp [h]
  · rw [assignRefwfn]
    by_cases h1 : ne = nelec <;> by_cases h2 : ns = nspin <;> simp [h1, h2]

/-- **C109.**  The constructor of hierarchy CI with a legal pattern, version and hierarchy: the wavefunction of these, the
coefficients of the pattern, and the given reference; determinants cannot be given. -/
theorem C109_hci [Zero R] [One R] (nelec nspin : ℕ) (s : List Char) (p : CI.Pattern) (hs : assignPattern (some s) = .ok p)
    (h : ℚ) (version : VersionArg) (v : CI.Version)
    (hv : (v = .new ∧ (version = .none ∨ version = .text "new".toList)) ∨ (v = .old ∧ version = .text "old".toList))
    (w : CI.Wfn R) (hw : CI.hciInit nelec nspin p h v = .ok w) (ref : RefArg) :
    hciNew (R := R) nelec nspin (some s) (.number h) version false ref =
      (match assignRefwfn nelec nspin ref with
        | .ok r => .ok (w, p.alphas, r)
        | .error e => .error e) ∧
    hciNew (R := R) nelec nspin (some s) (.number h) version true ref = .error .valueError := by
  have hver : assignVersion version = .ok v := by
    rcases hv with ⟨rfl, rfl | rfl⟩ | ⟨rfl, rfl⟩ <;> decide
  have key : ∀ b, hciNew (R := R) nelec nspin (some s) (.number h) version b ref =
      if b then .error .valueError else (do
        let r ← assignRefwfn nelec nspin ref
        return (w, p.alphas, r)) := by
    intro b
    rw [hciNew, hver, hs]
    change (assignAlphas p >>= _) = _
    rw [(C109_alphas p).1]
    change (CI.hciInit nelec nspin p h v >>= _) = _
    rw [hw]
    cases b <;> rfl
  rw [key, key]
  refine ⟨?_, rfl⟩
  cases assignRefwfn nelec nspin ref <;> rfl

/-- **C109 (disagreement).**  `None` is accepted as hierarchy by `assign_hierarchy`, but the constructor then always fails
with a `TypeError` (for legal sizes, pattern and version). -/
theorem C109_no_hierarchy_disagrees [Zero R] [One R] (nelec nspin : ℕ) (hn : 0 < nelec) (hs : 0 < nspin)
    (he : nspin % 2 = 0) (s : List Char) (p : CI.Pattern) (hp : assignPattern (some s) = .ok p) (version : VersionArg)
    (v : CI.Version) (hv : assignVersion version = .ok v) (sds : Bool) (ref : RefArg) :
    assignHierarchy .none = .ok none ∧
    hciNew (R := R) nelec nspin (some s) .none version sds ref = .error .typeError := by
  refine ⟨rfl, ?_⟩
  rw [hciNew, hv, hp]
  change (assignAlphas p >>= _) = _
  rw [(C109_alphas p).1]
  change withHierarchy nelec nspin v none _ = _
  cases v with
  | new => rfl
  | old =>
    rw [withHierarchy, CI.checkNelec, if_neg (by omega), CI.checkNspin, if_neg (by omega)]
    rfl

/-- **C109.**  A wrong version is a `TypeError` whatever the other arguments are, a wrong pattern one whatever follows. -/
theorem C109_hci_errors [Zero R] [One R] (nelec nspin : ℕ) (pattern : Option (List Char)) (h : HierarchyArg)
    (version : VersionArg) (sds : Bool) (ref : RefArg) :
    ((version = .other ∨ ∃ s, version = .text s ∧ s ≠ "old".toList ∧ s ≠ "new".toList) →
      hciNew (R := R) nelec nspin pattern h version sds ref = .error .typeError) ∧
    ((∀ p, assignPattern pattern ≠ .ok p) → hciNew (R := R) nelec nspin pattern h version sds ref = .error .typeError) ∧
    (h = .other → hciNew (R := R) nelec nspin pattern h version sds ref = .error .typeError) := by
  have hver : ∀ e, assignVersion version = .error e → e = .typeError := by
    intro e he
    cases version with
    | none => simp [assignVersion] at he
    | text s =>
      rw [assignVersion] at he
      split_ifs at he
      simpa using he.symm
    | other => simpa [assignVersion] using he.symm
  have hpat : ∀ e, assignPattern pattern = .error e → e = .typeError := by
    intro e he
    cases pattern with
    | none => simpa [assignPattern] using he.symm
    | some s => exact (C109_pattern s .hch).2.1 e he
  refine ⟨?_, ?_, ?_⟩
  · intro hc
    have : assignVersion version = .error .typeError := by
      rcases hc with rfl | ⟨s, rfl, h1, h2⟩
      · rfl
      · rw [assignVersion, if_neg h1, if_neg h2]
    rw [hciNew, this]; rfl
  · intro hc
    rw [hciNew]
    cases hv : assignVersion version with
    | error e => rw [hver e hv]; rfl
    | ok v =>
      cases hq : assignPattern pattern with
      | ok p => exact absurd hq (hc p)
      | error e => rw [hpat e hq]; rfl
  · rintro rfl
    rw [hciNew]
    cases hv : assignVersion version with
    | error e => rw [hver e hv]; rfl
    | ok v =>
      cases hq : assignPattern pattern with
      | error e => rw [hpat e hq]; rfl
      | ok p =>
        change (assignAlphas p >>= _) = _
        rw [(C109_alphas p).1]; rfl

/-- Concrete cases: `20.1gb`, and a pattern with capitals and white space. -/
example : NumberText "20.1".toList ∧ assignPattern (some " Pos_Diag\n".toList) = .ok .posDiag ∧
    assignPattern (some "diag".toList) = .error .typeError := by
  refine ⟨⟨by decide, ?_⟩, by decide +kernel, by decide +kernel⟩
  intro c hc
  have : c = '1' := by simpa using hc.symm
  subst this; decide

end Fanpy.Props
