import Verif.Model.SaveOrbitals

/-! # C136: files with natural orbitals -/

namespace Fanpy.Props
open Fanpy.SaveOrbitals

variable {N : Type}

theorem save_success (w : World N) (orbs : Except PyErr N) (filename : List Char) (fs : Files) :
    ((saveNaturalOrbitals w orbs filename fs).result = .ok () ↔
      ∃ o, orbs = .ok o ∧ w.pyscf = true ∧ w.canOpen (moldenName filename) = true ∧ w.header.result = .ok () ∧ (w.orbitalCoeff o).result = .ok ()) ∧
    ∀ o, orbs = .ok o → (saveNaturalOrbitals w orbs filename fs).result = .ok () →
      (saveNaturalOrbitals w orbs filename fs).files (moldenName filename) = some (w.header.text ++ (w.orbitalCoeff o).text) ∧
      (saveNaturalOrbitals w orbs filename fs).printed = [exported (moldenName filename)] := by
  cases orbs with
  | error e =>
    refine ⟨⟨fun h => ?_, fun h => ?_⟩, fun o h => ?_⟩
    · simp [saveNaturalOrbitals] at h
    · obtain ⟨o, h, _⟩ := h
      cases h
    · cases h
  | ok o =>
    cases hp : w.pyscf <;> cases ho : w.canOpen (moldenName filename) <;> cases hh : w.header.result <;>
      cases hc : (w.orbitalCoeff o).result <;>
      simp [saveNaturalOrbitals, body, hp, ho, hh, hc, Files.set]

theorem save_missing (w : World N) (orbs : Except PyErr N) (filename : List Char) (fs : Files) (h : w.pyscf = false) :
    (saveNaturalOrbitals w orbs filename fs).printed = [missing] ∧ (saveNaturalOrbitals w orbs filename fs).result ≠ .ok () := by
  cases orbs with
  | error e => simp [saveNaturalOrbitals, h]
  | ok o => cases ho : w.canOpen (moldenName filename) <;> simp [saveNaturalOrbitals, body, h, ho]

/-- **C136, name.**  The file ends in `.molden`; the ending is added only if it is not there, so that a second call with the name of the file
writes the same file. -/
theorem C136_name (filename : List Char) :
    (∃ stem, moldenName filename = stem ++ ".molden".toList) ∧
    (∀ stem, filename = stem ++ ".molden".toList → moldenName filename = filename) ∧
    ((¬∃ stem, filename = stem ++ ".molden".toList) → moldenName filename = filename ++ ".molden".toList) ∧
    moldenName (moldenName filename) = moldenName filename := by
  have h1 : ∀ stem, moldenName (stem ++ extension) = stem ++ extension := by
    intro stem
    rw [moldenName, if_pos (List.isSuffixOf_iff_suffix.2 (List.suffix_append _ _))]
  have h2 : ∃ stem, moldenName filename = stem ++ extension := by
    by_cases h : extension.isSuffixOf filename
    · obtain ⟨stem, hs⟩ := List.isSuffixOf_iff_suffix.1 h
      exact ⟨stem, by rw [moldenName, if_pos h, hs]⟩
    · exact ⟨filename, by rw [moldenName, if_neg h]⟩
  refine ⟨h2, ?_, ?_, ?_⟩
  · rintro stem rfl
    exact h1 stem
  · intro h
    rw [moldenName, if_neg]
    · rfl
    · intro hs
      obtain ⟨stem, hs⟩ := List.isSuffixOf_iff_suffix.1 hs
      exact h ⟨stem, hs.symm⟩
  · obtain ⟨stem, hs⟩ := h2
    rw [hs, h1]

/-- **C136, other files.**  No other file is changed, however the call ends. -/
theorem C136_other_files (w : World N) (orbs : Except PyErr N) (filename : List Char) (fs : Files) (n : List Char) (hn : n ≠ moldenName filename) :
    (saveNaturalOrbitals w orbs filename fs).files n = fs n := by
  cases orbs with
  | error e => rfl
  | ok orbs =>
    simp only [saveNaturalOrbitals]
    split
    · exact if_neg hn
    · rfl

/-- **C136, success.**  The call returns if and only if PySCF is there, the natural orbitals are, the file can be opened and both functions of
`molden` return; then the file has what they wrote, in this order and nothing else, and only the name of the file is printed. -/
theorem C136_success (w : World N) (orbs : Except PyErr N) (filename : List Char) (fs : Files) :
    ((saveNaturalOrbitals w orbs filename fs).result = .ok () ↔
      ∃ o, orbs = .ok o ∧ w.pyscf = true ∧ w.canOpen (moldenName filename) = true ∧ w.header.result = .ok () ∧ (w.orbitalCoeff o).result = .ok ()) ∧
    ∀ o, orbs = .ok o → (saveNaturalOrbitals w orbs filename fs).result = .ok () →
      (saveNaturalOrbitals w orbs filename fs).files (moldenName filename) = some (w.header.text ++ (w.orbitalCoeff o).text) ∧
      (saveNaturalOrbitals w orbs filename fs).printed = ["Molden file ".toList ++ moldenName filename ++ " sucessfully exported.".toList] := by
  exact save_success w orbs filename fs

/-- **C136, errors.**  If the natural orbitals cannot be computed or the file cannot be opened, no file is changed.  If PySCF is missing, the message
about it is printed. -/
theorem C136_errors (w : World N) (orbs : Except PyErr N) (filename : List Char) (fs : Files) :
    (∀ e, orbs = .error e → (saveNaturalOrbitals w orbs filename fs).files = fs ∧ (saveNaturalOrbitals w orbs filename fs).result = .error e) ∧
    (w.canOpen (moldenName filename) = false → (saveNaturalOrbitals w orbs filename fs).files = fs) ∧
    (w.pyscf = false → (saveNaturalOrbitals w orbs filename fs).printed = ["# ERROR: PySCF package not found.".toList] ∧
      (saveNaturalOrbitals w orbs filename fs).result ≠ .ok ()) := by
  refine ⟨?_, ?_, ?_⟩
  · rintro e rfl
    exact ⟨rfl, rfl⟩
  · intro h
    cases orbs with
    | error e => rfl
    | ok o => simp [saveNaturalOrbitals, h]
  · exact save_missing w orbs filename fs

/-- **C136, where the code disagrees.**  Without PySCF the call does not stop at the message: a file of this name loses its contents, and the
error is a `NameError`. -/
theorem C136_emptied_disagrees (w : World N) (o : N) (filename : List Char) (fs : Files) (hp : w.pyscf = false)
    (ho : w.canOpen (moldenName filename) = true) :
    (saveNaturalOrbitals w (.ok o) filename fs).files (moldenName filename) = some [] ∧
    (saveNaturalOrbitals w (.ok o) filename fs).result = .error .runtimeError := by
  simp [saveNaturalOrbitals, body, hp, ho, Files.set]

/-- two calls, with the names `a` and `a.molden`: the second one writes the same file; and a call without PySCF that empties it -/
example :
    let w : World (List Char) := ⟨true, fun _ => true, ⟨['h'], .ok ()⟩, fun o => ⟨o, .ok ()⟩⟩
    let a := saveNaturalOrbitals w (.ok ['1']) ['a'] fun _ => none
    let b := saveNaturalOrbitals w (.ok ['2']) "a.molden".toList a.files
    let c := saveNaturalOrbitals { w with pyscf := false } (.ok ['2']) ['a'] b.files
    a.files "a.molden".toList = some ['h', '1'] ∧ b.files "a.molden".toList = some ['h', '2'] ∧ b.files ['a'] = none ∧
      c.files "a.molden".toList = some [] := by
  decide +kernel

end Fanpy.Props
