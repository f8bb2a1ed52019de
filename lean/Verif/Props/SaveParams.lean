import Verif.Lemmas.SaveParams

/-! C113: saved parameters are all there, each in its own file. -/

namespace Fanpy.Props
open Fanpy.SaveParams Fanpy.Text

variable {P : Type}

/-- The data of every object within a saved object are in the file of its path. -/
theorem C113_file_partial {o : Obj P} (hg : Good o) (before : Str → Option P) (f : Str) {path : List Str} {p : P} (h : At o path p) :
    load before (o.save f) (pathFile f path) = some p := by
  apply load_eq
  · exact ⟨(_, p), (mem_save hg f (_, p)).2 ⟨path, h, rfl⟩, rfl⟩
  · rintro ⟨g, q⟩ hm e
    obtain ⟨path', h', e'⟩ := (mem_save hg f _).1 hm
    simp only at e' e h'
    rw [e'] at e
    have := npyName_inj (s := f) (at_plain h' hg) (at_plain h hg) e
    subst this
    exact at_unique h' hg h

/-- No other file is changed. -/
theorem C113_only {o : Obj P} (hg : Good o) (before : Str → Option P) (f g : Str)
    (h : ∀ path p, At o path p → pathFile f path ≠ g) : load before (o.save f) g = before g := by
  apply load_not
  rintro ⟨x, q⟩ hm e
  obtain ⟨path, h', e'⟩ := (mem_save hg f _).1 hm
  simp only at e' e h'
  rw [e'] at e
  exact h path q h' e

/-- Different objects have different files. -/
theorem C113_distinct {o : Obj P} (hg : Good o) (f : Str) {path path' : List Str} {p p' : P} (h : At o path p) (h' : At o path' p')
    (e : pathFile f path = pathFile f path') : path = path' ∧ p = p' := by
  have := npyName_inj (s := f) (at_plain h hg) (at_plain h' hg) e
  subst this
  exact ⟨rfl, at_unique h hg h'⟩

/-- The same of the components of an objective: their data are in the files of their paths, different ones in different files, and
no other file is changed. -/
theorem C113_objective {comps : List (Obj P)} (hg : GoodEqn comps) (before : Str → Option P) {f : Str} (hf : f ≠ []) :
    (∀ path p, AtEqn comps path p → load before (saveEqn f comps) (pathFile f path) = some p) ∧
    (∀ path path' p p', AtEqn comps path p → AtEqn comps path' p' → pathFile f path = pathFile f path' → path = path' ∧ p = p') ∧
    (∀ g, (∀ path p, AtEqn comps path p → pathFile f path ≠ g) → load before (saveEqn f comps) g = before g) := by
  refine ⟨fun path p h => ?_, fun path path' p p' h h' e => ?_, fun g h => ?_⟩
  · apply load_eq
    · exact ⟨(_, p), (mem_saveEqn hg hf (_, p)).2 ⟨path, h, rfl⟩, rfl⟩
    · rintro ⟨g, q⟩ hm e
      obtain ⟨path', h', e'⟩ := (mem_saveEqn hg hf _).1 hm
      simp only at e' e h'
      rw [e'] at e
      have := npyName_inj (s := f) (atEqn_plain hg h') (atEqn_plain hg h) e
      subst this
      exact atEqn_unique hg h' h
  · have := npyName_inj (s := f) (atEqn_plain hg h) (atEqn_plain hg h') e
    subst this
    exact ⟨rfl, atEqn_unique hg h h'⟩
  · apply load_not
    rintro ⟨x, q⟩ hm e
    obtain ⟨path, h', e'⟩ := (mem_saveEqn hg hf _).1 hm
    simp only at e' e h'
    rw [e'] at e
    exact h path q h' e

/-- Without a file name nothing is written. -/
theorem C113_objective_none (comps : List (Obj P)) (before : Str → Option P) : load before (saveEqn [] comps) = before := rfl

/-- Root and extension: together they are the file name; the extension is empty or a dot with a text without dots and slashes; and a name
without dots and slashes that is put between them is not taken for a part of the extension. -/
theorem C113_splitext (s : Str) :
    (splitext s).1 ++ (splitext s).2 = s ∧
    ((splitext s).2 = [] ∨ ∃ x, ('.' ∉ x ∧ '/' ∉ x) ∧ (splitext s).2 = '.' :: x) ∧
    ∀ y, '.' ∉ y → '/' ∉ y → splitext (fileOf s y) = ((splitext s).1 ++ '_' :: y, (splitext s).2) :=
  ⟨splitext_append s, ext_cases s, fun y h1 h2 => splitext_fileOf s y h1 h2⟩

/-- a name is not another one followed by digits -/
private def okPair (a b : Str) : Bool := !(a.isPrefixOf b && !(b.drop a.length).isEmpty && (b.drop a.length).all Char.isDigit)

private theorem fanpy_table : (fanpyClasses.all fun a => !a.contains '_' && !a.contains '.' && !a.contains '/' &&
    fanpyClasses.all fun b => okPair a b) = true := by
  decide +kernel

private theorem fanpy_plain {c : Str} (h : c ∈ fanpyClasses) : Plain c := by
  have := List.all_eq_true.1 fanpy_table c h
  simp only [Bool.and_eq_true, Bool.not_eq_true', List.contains_eq_mem, decide_eq_false_iff_not] at this
  exact ⟨this.1.1.1, this.1.1.2, this.1.2⟩

private theorem fanpy_unnumbered {l : List Str} (h : ∀ c ∈ l, c ∈ fanpyClasses) : Unnumbered l := by
  rintro a ha b hb _ d hd hdig rfl
  have := List.all_eq_true.1 fanpy_table a (h a ha)
  simp only [Bool.and_eq_true] at this
  have := List.all_eq_true.1 this.2 _ (h _ hb)
  rw [okPair, List.drop_left] at this
  rw [show (d.all Char.isDigit) = true from List.all_eq_true.2 hdig,
    show List.isPrefixOf a (a ++ d) = true from List.isPrefixOf_iff_prefix.2 ⟨d, rfl⟩] at this
  cases d with
  | nil => exact hd rfl
  | cons c d => simp at this

private theorem uses_cls {classes : List Str} {o : Obj P} (h : Uses classes o) : o.cls ∈ classes := by
  cases h <;> assumption

/-- Objects of classes of Fanpy, however they are nested, meet the hypotheses of these theorems. -/
theorem C113_fanpy_classes {o : Obj P} (h : Uses fanpyClasses o) : Good o := by
  induction h with
  | plain c p h => exact .plain c p
  | one c p w h hw ih => exact .one c p w (fanpy_plain (uses_cls hw)) ih
  | lin c p ws h hw ih =>
    refine .lin c p ws (fun w hm => fanpy_plain (uses_cls (hw w hm))) (fanpy_unnumbered ?_) ih
    intro c hc
    obtain ⟨w, hm, rfl⟩ := List.mem_map.1 hc
    exact uses_cls (hw w hm)
  | ham c p u h => exact .ham c p u

/-- and so do objectives -/
theorem C113_fanpy_objective {comps : List (Obj P)} (h : ∀ w ∈ comps, Uses fanpyClasses w) : GoodEqn comps := by
  refine ⟨fun w hm => fanpy_plain (uses_cls (h w hm)), fanpy_unnumbered ?_, fun w hm => C113_fanpy_classes (h w hm)⟩
  intro c hc
  obtain ⟨w, hm, rfl⟩ := List.mem_map.1 hc
  exact uses_cls (h w hm)

/-- a text -/
private def t (s : String) : Str := s.toList

/-- a concrete case: a linear combination of two CI wavefunctions and one of orbitals, in an objective with a Hamiltonian -/
private def demo : List (Obj ℕ) :=
  [.lin (t "LinearCombinationWavefunction") 1
    [.plain (t "CIWavefunction") 2, .plain (t "CIWavefunction") 3, .one (t "NonorthWavefunction") 4 (.plain (t "APIG") 5)],
    .ham (t "RestrictedMolecularHamiltonian") 6 7]

example : GoodEqn demo := by
  apply C113_fanpy_objective
  have m : ∀ c ∈ ["LinearCombinationWavefunction", "CIWavefunction", "NonorthWavefunction", "APIG", "RestrictedMolecularHamiltonian"],
      t c ∈ fanpyClasses := by decide +kernel
  simp only [demo, List.mem_cons, List.not_mem_nil, or_false]
  rintro w (rfl | rfl)
  · refine .lin _ _ _ (m _ (by simp)) ?_
    simp only [List.mem_cons, List.not_mem_nil, or_false]
    rintro w (rfl | rfl | rfl)
    · exact .plain _ _ (m _ (by simp))
    · exact .plain _ _ (m _ (by simp))
    · exact .one _ _ _ (m _ (by simp)) (.plain _ _ (m _ (by simp)))
  · exact .ham _ _ _ (m _ (by simp))

example : (saveEqn (t "out/run.1.npy") demo).map (fun w => (String.ofList (npyName w.1), w.2)) =
    [("out/run.1_LinearCombinationWavefunction.npy", 1),
      ("out/run.1_LinearCombinationWavefunction_CIWavefunction1.npy", 2),
      ("out/run.1_LinearCombinationWavefunction_CIWavefunction2.npy", 3),
      ("out/run.1_LinearCombinationWavefunction_NonorthWavefunction.npy", 4),
      ("out/run.1_LinearCombinationWavefunction_NonorthWavefunction_APIG.npy", 5),
      ("out/run.1_RestrictedMolecularHamiltonian.npy", 6),
      ("out/run.1_RestrictedMolecularHamiltonian_um.npy", 7)] := by decide +kernel

/-- The code disagrees for classes of users: with two components of a class `W` and one of a class `W1`, the parameters of the first
`W` are lost. -/
theorem C113_numbered_disagrees :
    let comps : List (Obj ℕ) := [.plain (t "W") 1, .plain (t "W") 2, .plain (t "W1") 3]
    AtEqn comps [t "W1"] 1 ∧ load (fun _ => none) (saveEqn (t "run.npy") comps) (pathFile (t "run.npy") [t "W1"]) = some 3 ∧
    ∀ g, load (fun _ => none) (saveEqn (t "run.npy") comps) g ≠ some 1 := by
  refine ⟨⟨0, .plain (t "W") 1, [], rfl, by decide +kernel, .self _⟩, by decide +kernel, fun g => ?_⟩
  have e : saveEqn (t "run.npy") [.plain (t "W") 1, .plain (t "W") 2, .plain (t "W1") 3] =
      [(t "run_W1.npy", 1), (t "run_W2.npy", 2), (t "run_W1.npy", 3)] := by decide +kernel
  rw [e, load]
  simp only [List.foldl_cons, List.foldl_nil]
  rw [Function.update_apply]
  split_ifs with h1
  · simp
  · rw [Function.update_apply]
    split_ifs with h2
    · simp
    · rw [Function.update_of_ne h1]
      simp

/-- Likewise with underscores: the wavefunction of a component of class `A` and a component of class `A_B` have the same file. -/
theorem C113_underscore_disagrees :
    let comps : List (Obj ℕ) := [.one (t "A") 1 (.plain (t "B") 2), .plain (t "A_B") 3]
    AtEqn comps [t "A", t "B"] 2 ∧
    load (fun _ => none) (saveEqn (t "run.npy") comps) (pathFile (t "run.npy") [t "A", t "B"]) = some 3 :=
  ⟨⟨0, _, [t "B"], rfl, by decide +kernel, .one _ _ _ [] _ (.self (.plain (t "B") 2))⟩, by decide +kernel⟩

/-- The documentation of the unrestricted Hamiltonian says that the unitary matrices are saved in files with `_um_alpha` and `_um_beta`;
there are no such files, whatever the file name is. -/
theorem C113_unitary_disagrees (c : Str) (p u : P) (before : Str → Option P) (f : Str) (spin : Str) (h : spin = t "alpha" ∨ spin = t "beta") :
    load before ((Obj.ham c p u).save f) (pathFile f [t "um", spin]) = before (pathFile f [t "um", spin]) := by
  have hs : Plain (t "um") ∧ Plain spin := by
    unfold Plain
    rcases h with rfl | rfl <;> decide
  apply C113_only (.ham c p u)
  intro path q hat e
  have hp : ∀ n ∈ [t "um", spin], Plain n := by
    intro n hn
    simp only [List.mem_cons, List.not_mem_nil, or_false] at hn
    rcases hn with rfl | rfl
    exacts [hs.1, hs.2]
  have e' := npyName_inj (s := f) (at_plain hat (.ham c p u)) hp e
  cases hat with
  | self => cases e'
  | ham => cases e'

end Fanpy.Props
