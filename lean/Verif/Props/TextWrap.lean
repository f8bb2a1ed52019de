import Verif.Lemmas.TextWrap

/-! # C133: long calls in the scripts are wrapped without changing them -/

namespace Fanpy.Props
open Fanpy.TextWrap List

/-! ## What is claimed -/

/-- white space -/
def C133_white (c : Char) : Bool := c ∈ [' ', '\n', '\t', '\r', '\x0b', '\x0c']

/-- the words of a text -/
def C133_words (t : List Char) : List (List Char) := (t.splitOnP C133_white).filter fun w => w ≠ []

/-- Every word and every gap leaves room for the indentation, and no word is cut at hyphens. -/
structure C133_Narrow (cut : List Char → List (List Char)) (indent : ℕ) (t : List Char) : Prop where
  words : ∀ w ∈ C133_words t, w.length + indent ≤ 100
  whole : ∀ w ∈ C133_words t, cut w = [w]
  gaps : ∀ a g b, t = a ++ g ++ b → (∀ c ∈ g, C133_white c = true) → g.length + indent ≤ 100

/-! ## Set-up -/

theorem c133_white_eq : C133_white = isWs := by
  funext c
  simp [C133_white, isWs, Bool.or_assoc]

theorem c133_words_eq (t : List Char) : C133_words t = words t := by rw [C133_words, c133_white_eq, words]

theorem c133_blank_chunks {t : List Char} : ∀ g ∈ (chunks (munge t)), blank g = false → g ∈ words t := by
  intro g hg hb
  obtain ⟨hgood, he⟩ := good_chunks (plain_munge t)
  rw [← words_munge, ← he, words_flatten hgood]
  exact mem_filter.2 ⟨hg, by simp [hb]⟩

theorem c133_cut {cut : List Char → List (List Char)} {cs : List (List Char)} (hc : ∀ g ∈ cs, blank g = false → cut g = [g]) :
    (cs.flatMap fun g => if blank g then [g] else cut g) = cs := by
  induction cs with
  | nil => rfl
  | cons g cs ih =>
    rw [flatMap_cons, ih fun x hx => hc x (mem_cons_of_mem _ hx)]
    cases hb : blank g with
    | true => simp
    | false => simp [hc g mem_cons_self hb]

theorem c133_split {cut : List Char → List (List Char)} {indent : ℕ} {t : List Char} (h : C133_Narrow cut indent t) :
    split cut (munge t) = chunks (munge t) := by
  exact c133_cut fun g hg hb => h.whole g (by rw [c133_words_eq]; exact c133_blank_chunks g hg hb)

theorem c133_lengths {cut : List Char → List (List Char)} {indent : ℕ} {t : List Char} (h : C133_Narrow cut indent t) :
    ∀ g ∈ chunks (munge t), g.length + indent ≤ 100 := by
  intro g hg
  cases hb : blank g with
  | false => exact h.words g (by rw [c133_words_eq]; exact c133_blank_chunks g hg hb)
  | true =>
    obtain ⟨a, b, hab⟩ := append_of_mem hg
    have he := (good_chunks (plain_munge t)).2
    rw [hab, flatten_append, flatten_cons, ← append_assoc] at he
    obtain ⟨t1, t2, rfl, h1, h2⟩ := map_eq_append_iff.1 (show map (fun c => if isWs c then ' ' else c) t = _ from he.symm)
    obtain ⟨t3, t4, rfl, h3, h4⟩ := map_eq_append_iff.1 h1
    have := h.gaps t3 t4 t2 rfl ?_
    · rw [← h4, length_map]; exact this
    · intro c hc
      rw [c133_white_eq]
      by_contra hcw
      have hm : c ∈ g := by
        rw [← h4]
        exact mem_map.2 ⟨c, hc, by simp [hcw]⟩
      have := (blank_iff g).1 hb c hm
      rw [this] at hcw
      exact hcw rfl

theorem c133_chunks_length (t : List Char) : (chunks t).length ≤ t.length := by
  induction t with
  | nil => exact le_refl _
  | cons c t ih =>
    rw [chunks]
    cases h : chunks t with
    | nil => simp [addChar]
    | cons g gs =>
      rw [h] at ih
      rw [addChar]
      split_ifs <;> simp at ih ⊢ <;> omega

theorem c133_lines {cut : List Char → List (List Char)} {head t : List Char} (hh : head.length ≤ 100) (h : C133_Narrow cut head.length t) :
    (wrap cut 100 (replicate head.length ' ') t).flatMap words = words t ∧
      (∀ l ∈ wrap cut 100 (replicate head.length ' ') t, l.length ≤ 100) ∧
      (∀ l ∈ (wrap cut 100 (replicate head.length ' ') t).tail, Cont (replicate head.length ' ') l) ∧
      ∀ l ∈ wrap cut 100 (replicate head.length ' ') t, '\n' ∉ l := by
  have hg := (good_chunks (plain_munge t)).1
  have he := (good_chunks (plain_munge t)).2
  have hlen : (chunks (munge t)).length < t.length + 1 := by
    have := c133_chunks_length (munge t)
    rw [munge, length_map] at this
    exact Nat.lt_succ_of_le this
  have := wrapLoop_good (width := 100) (indent := replicate head.length ' ') (fun c hc => (mem_replicate.1 hc).2) (by simpa using hh)
    (t.length + 1) true hg (by simpa using c133_lengths h) hlen
  rw [wrap, c133_split h]
  refine ⟨?_, this.2.1, by simpa using this.2.2, ?_⟩
  · rw [this.1, ← words_flatten hg, he, words_munge]
  · intro l hl hc
    rcases mem_wrapLoop hl hc with h | h
    · have := (mem_replicate.1 h).2
      exact absurd this (by decide)
    · rw [he] at h
      have := plain_munge t '\n' h (by decide)
      exact absurd this (by decide)

theorem c133_munge {t : List Char} (ht : ∀ d ∈ t, isWs d = true → d = ' ') : munge t = t := by
  rw [munge]
  conv_rhs => rw [← map_id t]
  refine map_congr_left fun d hd => ?_
  by_cases hw : isWs d = true
  · simp [ht d hd hw]
  · simp [hw]

/-! ## The claims -/

/-- The wrapped call has the same words in the same order; its lines have at most 100 characters, and all but the first one begin with
as many spaces as the head is long and then something else. -/
theorem C133_wrapped (cut : List Char → List (List Char)) (head args : List Char) (hh : head.length ≤ 100)
    (h : C133_Narrow cut head.length (head ++ args)) :
    C133_words (wrapCall cut head args) = C133_words (head ++ args) ∧
      (∀ l ∈ (wrapCall cut head args).splitOn '\n', l.length ≤ 100) ∧
      ∀ l ∈ ((wrapCall cut head args).splitOn '\n').tail,
        ∃ c r, l = replicate head.length ' ' ++ c :: r ∧ C133_white c = false := by
  obtain ⟨h1, h2, h3, h4⟩ := c133_lines hh h
  have e : (wrapCall cut head args).splitOn '\n' = wrap cut 100 (replicate head.length ' ') (head ++ args) ∨
      (wrapCall cut head args).splitOn '\n' = [[]] := by
    by_cases hn : wrap cut 100 (replicate head.length ' ') (head ++ args) = []
    · right; rw [wrapCall, hn]; rfl
    · left; rw [wrapCall, splitOn_intercalate _ h4 hn]
  refine ⟨?_, ?_, ?_⟩
  · rw [c133_words_eq, c133_words_eq, wrapCall, words_intercalate, h1]
  · rcases e with e | e <;> rw [e]
    · exact h2
    · simp
  · rw [c133_white_eq]
    rcases e with e | e <;> rw [e]
    · exact h3
    · simp

/-- The first line begins with the head and the first argument, if these fit into 100 characters: so the line breaks are between the
parentheses. -/
theorem C133_first_line (cut : List Char → List (List Char)) (head first rest : List Char) (c : Char)
    (h : C133_Narrow cut head.length (head ++ (first ++ [c] ++ rest))) (hl : (head ++ (first ++ [c])).length ≤ 100)
    (hp : ∀ d ∈ head ++ (first ++ [c]), C133_white d = true → d = ' ') (hc : C133_white c = false)
    (hr : rest = [] ∨ ∃ d r, rest = d :: r ∧ C133_white d = true) :
    ∃ more, ((wrapCall cut head (first ++ [c] ++ rest)).splitOn '\n').head? = some (head ++ (first ++ [c]) ++ more) := by
  have hh : head.length ≤ 100 := by rw [length_append] at hl; omega
  obtain ⟨-, -, -, h4⟩ := c133_lines hh h
  rw [c133_white_eq] at hp hc hr
  have hcs : c ≠ ' ' := by rintro rfl; exact absurd hc (by decide)
  have hmt : munge (head ++ (first ++ [c] ++ rest)) = head ++ first ++ [c] ++ munge rest := by
    have := c133_munge hp
    rw [show head ++ (first ++ [c] ++ rest) = (head ++ (first ++ [c])) ++ rest by simp, munge, map_append]
    change munge (head ++ (first ++ [c])) ++ munge rest = _
    rw [this]; simp
  have hpl : plain (head ++ first ++ [c] ++ munge rest) := hmt ▸ plain_munge _
  have hpl' : plain (head ++ first ++ [c]) := fun d hd => hpl d (mem_append_left _ hd)
  have hrest : munge rest = [] ∨ ∃ r, munge rest = ' ' :: r := by
    rcases hr with rfl | ⟨d, r, rfl, hd⟩
    · exact Or.inl rfl
    · exact Or.inr ⟨munge r, by simp [munge, hd]⟩
  have hlens := c133_lengths h
  rw [hmt] at hlens
  have hwr : ∃ more ls, wrap cut 100 (replicate head.length ' ') (head ++ (first ++ [c] ++ rest)) =
      (head ++ (first ++ [c]) ++ more) :: ls := by
    rw [wrap, c133_split h, hmt]
    rw [chunks_append hpl hcs hrest] at hlens ⊢
    obtain ⟨l, g, hlg, hb⟩ := last_chunk hpl' hcs
    have hfl : (l ++ [g]).flatten = head ++ (first ++ [c]) := by
      rw [← hlg, (good_chunks hpl').2]; simp
    rw [hlg] at hlens ⊢
    obtain ⟨x, xs, hx⟩ : ∃ x xs, l ++ [g] ++ chunks (munge rest) = x :: xs := by
      cases l with
      | nil => exact ⟨_, _, rfl⟩
      | cons y l => exact ⟨_, _, rfl⟩
    obtain ⟨z, hz⟩ := fit_prefix 100 0 (l ++ [g]) (chunks (munge rest)) (by rw [hfl]; omega)
    have hfa := fit_append 100 0 (l ++ [g] ++ chunks (munge rest))
    rw [hx, wrapLoop, ← hx]
    have hdl : dropLead true (l ++ [g] ++ chunks (munge rest)) = l ++ [g] ++ chunks (munge rest) := by
      rw [hx, dropLead]; simp
    simp only [if_true, hdl]
    rw [long_eq _ (fun y hy => by
      have := hlens y (by rw [← hfa]; exact mem_append_right _ hy)
      omega), ← hz]
    obtain ⟨r, hrr, -⟩ := dropTrail_append (l := l) (z := z) hb
    simp only [hrr]
    rw [if_neg (by simp)]
    have e : (l ++ [g] ++ r).flatten = head ++ (first ++ [c]) ++ r.flatten := by rw [← hfl]; simp
    exact ⟨r.flatten, _, by rw [e]; rfl⟩
  obtain ⟨more, ls, hwl⟩ := hwr
  refine ⟨more, ?_⟩
  rw [wrapCall, splitOn_intercalate _ h4 (by rw [hwl]; simp), hwl]
  rfl

/-- A call of at most 100 characters is not changed, but for the line break at its end. -/
theorem C133_short (cut : List Char → List (List Char)) (head args : List Char) (c : Char)
    (hcut : ∀ w ∈ C133_words (head ++ args ++ [c]), cut w = [w]) (hl : (head ++ args ++ [c]).length ≤ 100)
    (hp : ∀ d ∈ head ++ args ++ [c], C133_white d = true → d = ' ') (hc : C133_white c = false) :
    wrapCall cut head (args ++ [c] ++ ['\n']) = head ++ args ++ [c] := by
  have hwt : words (head ++ (args ++ [c] ++ ['\n'])) = words (head ++ args ++ [c]) := by
    have := words_append_cons (head ++ args ++ [c]) [] (show isWs '\n' = true from rfl)
    rw [words_nil, append_nil] at this
    rw [← this]; simp
  rw [c133_white_eq] at hp hc
  have hcs : c ≠ ' ' := by rintro rfl; exact absurd hc (by decide)
  have hmt : munge (head ++ (args ++ [c] ++ ['\n'])) = head ++ args ++ [c] ++ [' '] := by
    rw [show head ++ (args ++ [c] ++ ['\n']) = (head ++ args ++ [c]) ++ ['\n'] by simp, munge, map_append]
    change munge (head ++ args ++ [c]) ++ munge ['\n'] = _
    rw [c133_munge hp]; rfl
  have hpl : plain (head ++ args ++ [c] ++ [' ']) := hmt ▸ plain_munge _
  have hpl' : plain (head ++ args ++ [c]) := fun d hd => hpl d (mem_append_left _ hd)
  have hsplit : split cut (munge (head ++ (args ++ [c] ++ ['\n']))) = chunks (head ++ args ++ [c]) ++ [[' ']] := by
    rw [split]
    rw [c133_cut fun g hg hb => hcut g (by rw [c133_words_eq, ← hwt]; exact c133_blank_chunks g hg hb), hmt,
      chunks_append hpl hcs (Or.inr ⟨[], rfl⟩)]
    rfl
  have hw : wrap cut 100 (replicate head.length ' ') (head ++ (args ++ [c] ++ ['\n'])) = [head ++ args ++ [c]] := by
    rw [wrap, hsplit]
    obtain ⟨l, g, hlg, hb⟩ := last_chunk hpl' hcs
    have hfl : (l ++ [g]).flatten = head ++ args ++ [c] := by rw [← hlg, (good_chunks hpl').2]
    rw [hlg]
    obtain ⟨z, hz⟩ := fit_prefix 100 0 (l ++ [g]) [[' ']] (by rw [hfl]; omega)
    have hfa := fit_append 100 0 (l ++ [g] ++ [[' ']])
    have hzr : z ++ (fit 100 0 (l ++ [g] ++ [[' ']])).2 = [[' ']] := by
      rw [← hz, append_assoc] at hfa
      exact append_cancel_left hfa
    obtain ⟨x, xs, hx⟩ : ∃ x xs, l ++ [g] ++ [[' ']] = x :: xs := by
      cases l with
      | nil => exact ⟨_, _, rfl⟩
      | cons y l => exact ⟨_, _, rfl⟩
    obtain ⟨n, hn⟩ : ∃ n, (head ++ (args ++ [c] ++ ['\n'])).length = n + 1 := ⟨head.length + args.length + 1, by simp; omega⟩
    rw [hn, hx, wrapLoop, ← hx]
    have hdl : dropLead true (l ++ [g] ++ [[' ']]) = l ++ [g] ++ [[' ']] := by
      rw [hx, dropLead]; simp
    have hdt : dropTrail (l ++ [g]) = l ++ [g] := by
      obtain ⟨r, h1, h2⟩ := dropTrail_append (l := l) (z := []) hb
      rw [prefix_nil.1 h2] at h1
      simpa using h1
    have hdt' : dropTrail (l ++ [g] ++ [[' ']]) = l ++ [g] := by
      rw [dropTrail, if_pos (by simp; rfl), dropLast_concat]
    simp only [if_true, hdl]
    cases z with
    | nil =>
      rw [nil_append] at hzr
      rw [← hz, hzr, long_eq _ (by simp), append_nil]
      simp only [hdt]
      rw [if_neg (by simp), hfl]
      have : (true && (l ++ [g]).isEmpty) = false := by simp
      rw [this, wrapLoop]
      simp only [dropLead, show blank [' '] = true from rfl, Bool.not_false, Bool.and_self, if_true, fit, long]
      have e : dropTrail [] = [] := rfl
      simp only [e, if_true]
      cases n <;> rfl
    | cons y z =>
      have h2 : (fit 100 0 (l ++ [g] ++ [[' ']])).2 = [] := by
        have := congrArg length hzr
        simp only [length_append, length_cons, length_nil] at this
        exact length_eq_zero_iff.1 (by omega)
      rw [h2, append_nil] at hzr
      rw [← hz, h2, hzr, long_eq _ (by simp)]
      simp only [hdt']
      rw [if_neg (by simp), hfl]
      simp [wrapLoop]
  rw [wrapCall, hw]
  simp

/-! ## Where the code disagrees -/

/-- A word that is too long for the line is cut in two: the call is another one. -/
theorem C133_long_disagrees :
    wrapCall (fun w => [w]) "wfn = CIWavefunction(".toList ("nelec, nspin, sds=".toList ++ replicate 80 '1' ++ ")\n".toList) =
      "wfn = CIWavefunction(nelec, nspin,\n".toList ++ replicate 21 ' ' ++ "sds=".toList ++ replicate 75 '1' ++ "\n".toList ++
        replicate 21 ' ' ++ replicate 5 '1' ++ ")".toList := by
  decide +kernel

/-- A space in a string may become a line break, though no word is cut: the string is not a literal any more. -/
theorem C133_literal_disagrees :
    wrapCall (fun w => [w]) "results = cma(".toList ("objective, save_file='".toList ++ replicate 50 'a' ++ " b.npy')\n".toList) =
        "results = cma(objective, save_file='".toList ++ replicate 50 'a' ++ " b.npy')".toList ∧
      wrapCall (fun w => [w]) "results = cma(".toList ("objective, save_file='".toList ++ replicate 64 'a' ++ " b.npy')\n".toList) =
        "results = cma(objective, save_file='".toList ++ replicate 64 'a' ++ "\n".toList ++ replicate 14 ' ' ++ "b.npy')".toList := by
  constructor <;> decide +kernel

/-! ## A case -/

/-- the equations of the script with the constraint `norm` -/
def c133_head : List Char := "objective = ProjectedSchrodinger(".toList

/-- its arguments -/
def c133_args : List Char :=
  "wfn, ham, param_selection=param_selection, pspace=pspace, refwfn=pspace, energy_type='variable', energy=0.0, constraints=[norm])\n".toList

theorem c133_narrow : C133_Narrow (fun w => [w]) c133_head.length (c133_head ++ c133_args) := by
  refine ⟨by decide +kernel, fun _ _ => rfl, ?_⟩
  intro a g b he hg
  have h1 : g.length ≤ (c133_head ++ c133_args).countP C133_white := by
    rw [he, countP_append, countP_append, countP_eq_length.2 hg]
    omega
  have h2 : (c133_head ++ c133_args).countP C133_white = 10 := by decide +kernel
  have h3 : c133_head.length = 33 := by decide +kernel
  omega

example : c133_head.length ≤ 100 ∧ C133_Narrow (fun w => [w]) c133_head.length (c133_head ++ c133_args) ∧
    wrapCall (fun w => [w]) c133_head c133_args =
      "objective = ProjectedSchrodinger(wfn, ham, param_selection=param_selection, pspace=pspace,\n".toList ++ replicate 33 ' ' ++
      "refwfn=pspace, energy_type='variable', energy=0.0,\n".toList ++ replicate 33 ' ' ++ "constraints=[norm])".toList :=
  ⟨by decide +kernel, c133_narrow, by decide +kernel⟩

end Fanpy.Props
