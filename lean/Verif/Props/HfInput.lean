import Verif.Model.HfInput
import Mathlib.Data.List.Basic

/-!
# C128: input of Hartree-Fock calculations
-/

namespace Fanpy.Props

open Fanpy Gbs HfInput

/-- a text made of lines that end, and a last one that does not -/
def C128_text (ls : List Txt) (last : Txt) : Txt := (ls.flatMap fun l => l ++ ['\n']) ++ last

/-- every text is of this form -/
theorem C128_text_exists (t : Txt) : ∃ ls last, t = C128_text ls last ∧ (∀ l ∈ ls, '\n' ∉ l) ∧ '\n' ∉ last := by
  induction t with
  | nil => exact ⟨[], [], rfl, by simp, by simp⟩
  | cons c t ih =>
    obtain ⟨ls, last, rfl, h1, h2⟩ := ih
    by_cases hc : c = '\n'
    · exact ⟨[] :: ls, last, by simp [C128_text, hc], by simpa using h1, h2⟩
    · cases ls with
      | nil => exact ⟨[], c :: last, by simp [C128_text], by simp, by simp [h2, Ne.symm hc]⟩
      | cons l ls =>
        refine ⟨(c :: l) :: ls, last, by simp [C128_text], ?_, h2⟩
        intro l' hl'
        rcases List.mem_cons.1 hl' with rfl | hl'
        · have := h1 l (by simp)
          simp [this, Ne.symm hc]
        · exact h1 l' (by simp [hl'])

private theorem readlines_line {l : Txt} (h : '\n' ∉ l) (t : Txt) : readlines (l ++ '\n' :: t) = (l ++ ['\n']) :: readlines t := by
  induction l with
  | nil => simp [readlines]
  | cons c l ih =>
    have hc : c ≠ '\n' := fun e => h (by simp [e])
    have := ih fun h' => h (by simp [h'])
    simp [readlines, hc, this]

private theorem readlines_last {l : Txt} (h : '\n' ∉ l) : readlines l = if l = [] then [] else [l] := by
  induction l with
  | nil => rfl
  | cons c l ih =>
    have hc : c ≠ '\n' := fun e => h (by simp [e])
    rw [readlines, if_neg hc, ih fun h' => h (by simp [h'])]
    by_cases hl : l = []
    · simp [hl]
    · simp [hl]

private theorem readlines_text (ls : List Txt) (last : Txt) (h1 : ∀ l ∈ ls, '\n' ∉ l) (h2 : '\n' ∉ last) :
    readlines (C128_text ls last) = (ls.map fun l => l ++ ['\n']) ++ if last = [] then [] else [last] := by
  induction ls with
  | nil => simp [C128_text, readlines_last h2]
  | cons l ls ih =>
    have e : C128_text (l :: ls) last = l ++ '\n' :: C128_text ls last := by simp [C128_text]
    rw [e, readlines_line (h1 l (by simp)), ih fun l' hl' => h1 l' (by simp [hl'])]
    simp

private theorem dropWhile_all {p : Char → Bool} {l : Txt} : l.dropWhile p = [] ↔ ∀ c ∈ l, p c = true := by
  induction l with
  | nil => simp
  | cons c l ih =>
    by_cases h : p c = true
    · simp [h, ih]
    · simp [h]

private theorem rstrip_newline (l : Txt) : rstrip (l ++ ['\n']) = rstrip l := by
  unfold rstrip
  have : isSp '\n' = true := by decide
  simp [this]

private theorem strip_newline (l : Txt) : strip (l ++ ['\n']) = strip l := by
  unfold strip
  by_cases h : ∀ c ∈ l, isSp c = true
  · have h1 : l.dropWhile isSp = [] := dropWhile_all.2 h
    have h2 : (l ++ ['\n']).dropWhile isSp = [] := dropWhile_all.2 (by
      intro c hc
      rcases List.mem_append.1 hc with hc | hc
      · exact h c hc
      · rw [List.mem_singleton] at hc
        subst hc; decide)
    rw [h1, h2]
  · have : (l ++ ['\n']).dropWhile isSp = l.dropWhile isSp ++ ['\n'] := by
      rw [List.dropWhile_append]
      have hne : l.dropWhile isSp ≠ [] := fun h' => h (dropWhile_all.1 h')
      simp [hne]
    rw [this, rstrip_newline]

private theorem toDigits_newline (n : ℕ) : '\n' ∉ Nat.toDigits 10 n := fun h =>
  absurd (Nat.isDigit_of_mem_toDigits (by decide) (by decide) h) (by decide)

/-- **C128**: `strip` takes away the white space on both sides and nothing else. -/
theorem C128_strip (t : Txt) : ∃ a b, t = a ++ strip t ++ b ∧
    (∀ c ∈ a ++ b, c ∈ [' ', '\t', '\n', '\r', '\x0b', '\x0c', '\x1c', '\x1d', '\x1e', '\x1f']) ∧
    ∀ c ∈ [' ', '\t', '\n', '\r', '\x0b', '\x0c', '\x1c', '\x1d', '\x1e', '\x1f'], (strip t).head? ≠ some c ∧ (strip t).getLast? ≠ some c := by
  have hsp : ∀ c : Char, isSp c = true ↔ c ∈ [' ', '\t', '\n', '\r', '\x0b', '\x0c', '\x1c', '\x1d', '\x1e', '\x1f'] := by
    intro c
    simp only [isSp, Bool.or_eq_true, decide_eq_true_eq, List.mem_cons, List.not_mem_nil, or_false]
    tauto
  have hr : strip t = ((t.dropWhile isSp).reverse.dropWhile isSp).reverse := rfl
  set u := t.dropWhile isSp with hu
  have h1 : t = t.takeWhile isSp ++ u := (List.takeWhile_append_dropWhile ..).symm
  have h2 : u = (u.reverse.dropWhile isSp).reverse ++ (u.reverse.takeWhile isSp).reverse := by
    rw [← List.reverse_append, List.takeWhile_append_dropWhile, List.reverse_reverse]
  refine ⟨t.takeWhile isSp, (u.reverse.takeWhile isSp).reverse, ?_, fun c hc => ?_, fun c hc => ⟨fun h => ?_, fun h => ?_⟩⟩
  · rw [hr, List.append_assoc, ← h2, ← h1]
  · rw [← hsp]
    rcases List.mem_append.1 hc with hc | hc
    · exact List.all_eq_true.1 List.all_takeWhile c hc
    · exact List.all_eq_true.1 List.all_takeWhile c (List.mem_reverse.1 hc)
  · rw [← hsp] at hc
    have hh : u.head? = some c := by
      rw [h2, ← hr, List.head?_append, h]
      rfl
    have hne : u ≠ [] := by rintro h0; rw [h0] at hh; cases hh
    have := List.head_dropWhile_not isSp (l := t) hne
    rw [List.head?_eq_some_head hne] at hh
    injection hh with hh
    rw [← hh] at hc
    rw [hc] at this
    cases this
  · rw [← hsp] at hc
    rw [hr, List.getLast?_reverse] at h
    have hne : u.reverse.dropWhile isSp ≠ [] := by rintro h0; rw [h0] at h; cases h
    have := List.head_dropWhile_not isSp (l := u.reverse) hne
    rw [List.head?_eq_some_head hne] at h
    injection h with h
    rw [← h] at hc
    rw [hc] at this
    cases this

private theorem joinSemi_eq (l : List Txt) : joinSemi l = [';'].intercalate l := by
  induction l with
  | nil => rfl
  | cons a l ih =>
    rcases l with _ | ⟨b, l⟩
    · simp [joinSemi]
    · rw [joinSemi, ih]
      · simp [List.intercalate]
      · simp

/-- **C128**: `hartreefock` gives PySCF the lines of the file after the first two, without white space around them and with `;` between them.
A file in the directory of the module is preferred; a missing file raises `ValueError` and unrestricted calculations
`NotImplementedError`. -/
theorem C128_hartreefock (pkg cwd : Dir) (name : String) :
    (∀ unres, (pkg name).or (cwd name) = none → hartreefock pkg cwd name unres = .error .valueError) ∧
    (∀ t, (pkg name).or (cwd name) = some t → hartreefock pkg cwd name true = .error .notImplemented) ∧
    (∀ count comment atoms last, (pkg name).or (cwd name) = some (C128_text (count :: comment :: atoms) last) → '\n' ∉ count → '\n' ∉ comment →
      (∀ l ∈ atoms, '\n' ∉ l) → '\n' ∉ last →
      hartreefock pkg cwd name false = .ok ([';'].intercalate ((atoms ++ if last = [] then [] else [last]).map strip))) := by
  refine ⟨fun unres h => ?_, fun t h => ?_, fun count comment atoms last h h1 h2 h3 h4 => ?_⟩
  · unfold hartreefock; rw [h]
  · unfold hartreefock; rw [h]; rfl
  · unfold hartreefock
    rw [h]
    have := readlines_text (count :: comment :: atoms) last (by simpa [h1, h2] using h3) h4
    simp only [Bool.false_eq_true, if_false, atomsOf, joinSemi_eq, this]
    simp only [List.map_cons, List.cons_append, List.drop_succ_cons, List.drop_zero, List.map_append, List.map_map]
    congr 3
    exact List.map_congr_left fun l _ => strip_newline l

/-- **C128**: the script of make_localize_hf.py gives PySCF the lines of the file that are not blank, all of them and in order, and writes their
number, a blank line and the lines to `system.xyz`; no other file changes.  A file `system.xyz` in the directory of the module would be used
instead. -/
theorem C128_script (pkg cwd : Dir) (name : String) (ls : List Txt) (last : Txt) (h1 : ∀ l ∈ ls, '\n' ∉ l) (h2 : '\n' ∉ last)
    (hf : cwd name = some (C128_text ls last)) (hp : pkg "./system.xyz" = none) :
    (runScript pkg cwd name).2 = .ok ([';'].intercalate (((ls ++ [last]).map strip).filter fun l => decide (l ≠ []))) ∧
    (∀ n, n ≠ "./system.xyz" → (runScript pkg cwd name).1 n = cwd n) ∧
    ∃ rest, (runScript pkg cwd name).1 "./system.xyz" =
      some (Nat.toDigits 10 (((ls ++ [last]).map strip).filter fun l => decide (l ≠ [])).length ++ '\n' :: '\n' :: rest) := by
  have hlines : ∀ (ls : List Txt) (last : Txt), (∀ l ∈ ls, '\n' ∉ l) → '\n' ∉ last →
      ∃ ls' last', (∀ l ∈ ls', '\n' ∉ l) ∧ '\n' ∉ last' ∧
        ((ls.map fun l => l ++ ['\n']) ++ if last = [] then [] else [last]).filter (fun l => decide (strip l ≠ [])) =
          (ls'.map fun l => l ++ ['\n']) ++ (if last' = [] then [] else [last']) ∧
        ((ls.map fun l => l ++ ['\n']) ++ if last = [] then [] else [last]).filter (fun l => decide (strip l ≠ [])) =
          readlines (C128_text ls' last') ∧
        (((ls.map fun l => l ++ ['\n']) ++ if last = [] then [] else [last]).filter (fun l => decide (strip l ≠ []))).flatten =
          C128_text ls' last' := by
    intro ls last h1 h2
    have hfil : ∀ ls : List Txt, (ls.map fun l => l ++ ['\n']).filter (fun l => decide (strip l ≠ [])) =
        (ls.filter fun l => decide (strip l ≠ [])).map fun l => l ++ ['\n'] := by
      intro ls
      rw [List.filter_map]
      congr 1
      exact List.filter_congr fun l _ => by simp [strip_newline]
    have hls' : ∀ l ∈ ls.filter (fun l => decide (strip l ≠ [])), '\n' ∉ l := fun l hl => h1 l (List.mem_of_mem_filter hl)
    by_cases hb : strip last = []
    · have e : ((ls.map fun l => l ++ ['\n']) ++ if last = [] then [] else [last]).filter (fun l => decide (strip l ≠ [])) =
          (ls.filter fun l => decide (strip l ≠ [])).map fun l => l ++ ['\n'] := by
        rw [List.filter_append, hfil]
        split <;> simp [hb]
      refine ⟨ls.filter fun l => decide (strip l ≠ []), [], hls', by simp, ?_, ?_, ?_⟩
      · rw [e]; simp
      · rw [e, readlines_text _ _ hls' (by simp)]; simp
      · rw [e]; simp [C128_text, List.flatMap]
    · have hne : last ≠ [] := by rintro rfl; exact hb rfl
      have e : ((ls.map fun l => l ++ ['\n']) ++ if last = [] then [] else [last]).filter (fun l => decide (strip l ≠ [])) =
          ((ls.filter fun l => decide (strip l ≠ [])).map fun l => l ++ ['\n']) ++ [last] := by
        rw [List.filter_append, hfil, if_neg hne]
        simp [hb]
      refine ⟨ls.filter fun l => decide (strip l ≠ []), last, hls', h2, ?_, ?_, ?_⟩
      · rw [e, if_neg hne]
      · rw [e, readlines_text _ _ hls' h2, if_neg hne]
      · rw [e]; simp [C128_text, List.flatMap]
  obtain ⟨ls', last', hl', hla', he1, he2, he3⟩ := hlines ls last h1 h2
  have hstr : (((ls.map fun l => l ++ ['\n']) ++ if last = [] then [] else [last]).filter fun l => decide (strip l ≠ [])).map strip =
      ((ls ++ [last]).map strip).filter fun l => decide (l ≠ []) := by
    have hm : ((ls.map fun l => l ++ ['\n']) ++ if last = [] then [] else [last]).map strip =
        ls.map strip ++ if last = [] then [] else [strip last] := by
      rw [List.map_append, List.map_map]
      congr 1
      · exact List.map_congr_left fun l _ => strip_newline l
      · split <;> rfl
    have hf' : ∀ l : List Txt, (l.filter fun l => decide (strip l ≠ [])).map strip = (l.map strip).filter fun l => decide (l ≠ []) := by
      intro l
      rw [List.filter_map]
      rfl
    rw [hf', hm, List.filter_append, List.map_append, List.filter_append]
    congr 1
    by_cases hl : last = []
    · subst hl; rfl
    · rw [if_neg hl]; rfl
  have hsys : systemXyz (C128_text ls last) = Nat.toDigits 10 (((ls ++ [last]).map strip).filter fun l => decide (l ≠ [])).length ++
      '\n' :: '\n' :: C128_text ls' last' := by
    unfold systemXyz
    simp only [readlines_text ls last h1 h2]
    rw [he3]
    congr 2
    rw [← hstr, List.length_map]
  have hread : atomsOf (systemXyz (C128_text ls last)) = [';'].intercalate (((ls ++ [last]).map strip).filter fun l => decide (l ≠ [])) := by
    rw [hsys, atomsOf, readlines_line (toDigits_newline _)]
    have : readlines ('\n' :: C128_text ls' last') = ['\n'] :: readlines (C128_text ls' last') := by simp [readlines]
    rw [this, List.drop_succ_cons, List.drop_succ_cons, List.drop_zero, ← he2, hstr, joinSemi_eq]
  have hrun : runScript pkg cwd name = ((fun n => if n = "./system.xyz" then some (systemXyz (C128_text ls last)) else cwd n),
      .ok (atomsOf (systemXyz (C128_text ls last)))) := by
    unfold runScript
    rw [hf]
    simp [hartreefock, hp]
  rw [hrun]
  refine ⟨by rw [hread], fun n hn => by simp [hn], C128_text ls' last', ?_⟩
  simp only [if_true]
  rw [hsys]

/-- **C128** (the code disagrees with the name of the argument): given an XYZ file (a number of atoms, an empty comment, the atoms), the script
puts the number of atoms before the coordinates that `hartreefock` takes from the same file, as if it were an atom. -/
theorem C128_xyz_disagrees (pkg cwd : Dir) (name : String) (count comment a : Txt) (atoms : List Txt) (h0 : '\n' ∉ count) (h1 : '\n' ∉ comment)
    (h2 : ∀ l ∈ a :: atoms, '\n' ∉ l) (hc : strip count ≠ []) (hb : strip comment = []) (ha : ∀ l ∈ a :: atoms, strip l ≠ [])
    (hf : cwd name = some (C128_text (count :: comment :: a :: atoms) [])) (hp : pkg "./system.xyz" = none) (hn : pkg name = none) :
    ∃ coordinates, hartreefock pkg cwd name false = .ok coordinates ∧
      (runScript pkg cwd name).2 = .ok (strip count ++ ';' :: coordinates) := by
  have hs := (C128_script pkg cwd name (count :: comment :: a :: atoms) [] (by
    intro l hl
    rcases List.mem_cons.1 hl with rfl | hl
    · exact h0
    rcases List.mem_cons.1 hl with rfl | hl
    · exact h1
    exact h2 l hl) (by simp) hf hp).1
  have hh := (C128_hartreefock pkg cwd name).2.2 count comment (a :: atoms) [] (by rw [hn, hf]; rfl) h0 h1 h2 (by simp)
  refine ⟨_, hh, ?_⟩
  rw [hs]
  have e : strip ([] : Txt) = [] := rfl
  have hfil : ((a :: atoms).map strip).filter (fun l => decide (l ≠ [])) = (a :: atoms).map strip := by
    rw [List.filter_eq_self]
    intro l hl
    obtain ⟨l', hl', rfl⟩ := List.mem_map.1 hl
    simpa using ha l' hl'
  have hall : ((count :: comment :: a :: atoms ++ [[]]).map strip).filter (fun l => decide (l ≠ [])) =
      strip count :: (a :: atoms).map strip := by
    have : (count :: comment :: a :: atoms ++ [[]]).map strip = strip count :: strip comment :: ((a :: atoms).map strip ++ [[]]) := by
      simp [e]
    rw [this, hb, List.filter_cons_of_pos (by simpa using hc), List.filter_cons_of_neg (by simp), List.filter_append, hfil]
    simp
  rw [hall]
  simp

/-- **C128** (the code disagrees with `localize`): `localize` without a method returns the orbitals of Hartree-Fock, and with a method that it
knows localizes accordingly; a script made for no method localizes onto the identity. -/
theorem C128_method_disagrees :
    branch none = .nothing ∧ branch (scriptMethod none) = .identity ∧ (∀ m, branch (scriptMethod (some m)) = branch (some m)) ∧
    branch (some "svd") = .svd ∧ branch (some "iao") = .iao ∧ branch (some "boys") = .boys ∧ branch (some "pm") = .pm ∧
    branch (some "er") = .er ∧ ∀ m, m ∉ ["svd", "iao", "boys", "pm", "er"] → branch (some m) = .identity := by
  refine ⟨rfl, by decide, fun m => rfl, by decide, by decide, by decide, by decide, by decide, fun m hm => ?_⟩
  simp only [List.mem_cons, List.not_mem_nil, or_false, not_or] at hm
  simp [branch, hm]

/-- **C128** (the code disagrees with its message): the script for PySCF does not look at whether the calculation converged: it goes on after a
calculation that did not, and aborts after one that did but whose test of convergence had been replaced. -/
theorem C128_convergence_disagrees (c : Bool) :
    checkScript ⟨c, none⟩ = .ok () ∧ checkScript ⟨c, some ()⟩ = .error .runtimeError := ⟨rfl, rfl⟩

/-- a case of C128 -/
example : (runScript (fun _ => none) (fun n => if n = "h2.xyz" then some "2\n\nH 0 0 0\n H 0 0 1 \n".toList else none) "h2.xyz").2 =
    .ok "2;H 0 0 0;H 0 0 1".toList ∧
    hartreefock (fun _ => none) (fun n => if n = "h2.xyz" then some "2\n\nH 0 0 0\n H 0 0 1 \n".toList else none) "h2.xyz" false =
    .ok "H 0 0 0;H 0 0 1".toList := by
  constructor <;> decide +kernel

end Fanpy.Props
