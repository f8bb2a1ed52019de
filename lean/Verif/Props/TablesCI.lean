import Verif.Model.Tables
import Verif.Lemmas.Tables

/-! C102: tables of the coefficients of CI wavefunctions. -/

namespace Fanpy.Props
open Fanpy.Tables Fanpy.Text

/-- The value that a table shows in the row `l` and the column `c`: `none` if there is no such row or column or if the
cell is `NaN`. -/
def tableCell {R : Type} (f : Frame R) (l : Label) (c : String) : Option R :=
  match f.columns.lookup c with
  | none => none
  | some vals => if l ∈ f.index then vals.getD (f.index.idxOf l) none else none

variable {R : Type}

/-- **C102.**  In a table whose rows are determinants, `set_formatted_sds_as_index` changes only the labels: the label of
a determinant has one character for each alpha orbital, a space, and one character for each beta orbital, which is `1`
exactly if the orbital is occupied.  `set_sds_as_index` then gives back the table. -/
theorem C102_roundtrip (t : CITable R) (K : ℕ) (hK : 0 < K) (hn : t.nspatial = some (K : ℤ))
    (hv : t.view = .determinants) (sds : List ℕ) (hi : t.index = sds.map .int) :
    ∃ t' : CITable R, t.setFormatted = .ok t' ∧ t'.view = .formatted ∧ t'.columns = t.columns ∧
      t'.nspatial = t.nspatial ∧ t'.index.length = sds.length ∧
      (∀ (j sd : ℕ), sds[j]? = some sd → ∃ s, t'.index[j]? = some (.str s) ∧ s[K]? = some ' ' ∧
        (sd < 2 ^ (2 * K) → s.length = 2 * K + 1) ∧
        (∀ i < K, s[i]? = some (if sd.testBit i then '1' else '0')) ∧
        (∀ i < K, s[K + 1 + i]? = some (if sd.testBit (K + i) then '1' else '0'))) ∧
      t'.setSds = .ok t := by
  have h1 : t.index.mapM (fmtLabel K) = .ok (sds.map (fun sd => .str (sdText K sd))) := by
    rw [hi]; exact mapM_map_ok sds (fun sd _ => fmtLabel_int hK sd)
  have h2 : (sds.map (fun sd => Label.str (sdText K sd))).mapM unfmtLabel = .ok (sds.map .int) :=
    mapM_map_ok sds (fun sd _ => unfmtLabel_sdText K hK sd)
  refine ⟨{ t with index := sds.map (fun sd => .str (sdText K sd)), view := .formatted }, ?_, rfl, rfl, rfl,
    by simp, ?_, ?_⟩
  · simp only [CITable.setFormatted, hv, hn]
    rw [h1]; rfl
  · intro j sd hj
    refine ⟨sdText K sd, by simp [hj], sdText_mid hK, fun h => length_sdText hK h, fun i h => sdText_alpha hK h,
      fun i h => sdText_beta hK h⟩
  · simp only [CITable.setSds]
    rw [h2]
    obtain ⟨⟨idx, cols⟩, ns, v⟩ := t
    simp only at hi hv hn ⊢
    subst hi hv hn
    rfl

/-- Different determinants get different labels, even if they do not fit into the number of orbitals. -/
theorem C102_injective (t : CITable R) (K : ℕ) (hK : 0 < K) (hn : t.nspatial = some (K : ℤ))
    (hv : t.view = .determinants) (sds : List ℕ) (hi : t.index = sds.map .int) (hd : sds.Nodup) (t' : CITable R)
    (h : t.setFormatted = .ok t') : t'.index.Nodup := by
  have h1 : t.index.mapM (fmtLabel K) = .ok (sds.map (fun sd => .str (sdText K sd))) := by
    rw [hi]; exact mapM_map_ok sds (fun sd _ => fmtLabel_int hK sd)
  simp only [CITable.setFormatted, hv, hn] at h
  rw [h1] at h
  obtain rfl := Except.ok.inj h
  refine List.Nodup.map ?_ hd
  intro a b hab
  have ha := unfmtLabel_sdText K hK a
  have hb := unfmtLabel_sdText K hK b
  simp only [Label.str.injEq] at hab
  rw [hab, hb] at ha
  simpa using ha.symm

/-- The branches without a conversion and the errors: a table that already has the wanted labels is returned as it is,
any other view than the two is a `ValueError`, and so are an unknown or a non-positive number of orbitals. -/
theorem C102_errors (t : CITable R) :
    (t.view = .formatted → t.setFormatted = .ok t) ∧
    (t.view = .determinants → t.setSds = .ok t) ∧
    (t.view ≠ .formatted → t.view ≠ .determinants →
      t.setFormatted = .error .valueError ∧ t.setSds = .error .valueError) ∧
    (t.view = .determinants → t.nspatial = none → t.setFormatted = .error .valueError) ∧
    (∀ K : ℤ, K ≤ 0 → t.view = .determinants → t.nspatial = some K → t.index ≠ [] →
      t.setFormatted = .error .valueError) := by
  refine ⟨fun h => ?_, fun h => ?_, fun h1 h2 => ?_, fun h1 h2 => ?_, fun K hK h1 h2 h3 => ?_⟩
  · simp [CITable.setFormatted, h]
  · simp [CITable.setSds, h]
  · cases hv : t.view <;> simp_all [CITable.setFormatted, CITable.setSds]
  · simp [CITable.setFormatted, h1, h2]
  · simp only [CITable.setFormatted, h1, h2]
    rw [mapM_error_of_mem (e := .valueError)]
    · rfl
    · intro a _
      cases a <;> simp [fmtLabel, Slater.splitSpin, hK] <;> left <;> rfl
    · obtain ⟨a, ha⟩ := List.exists_mem_of_ne_nil _ h3
      refine ⟨a, ha, ?_⟩
      cases a <;> simp [fmtLabel, Slater.splitSpin, hK] <;> rfl

/-- **C102.**  A wavefunction gives a table with one row for each determinant, holding its coefficient. -/
theorem C102_of_wfn (sds : List ℕ) (params : List R) (hl : params.length = sds.length) (hd : sds.Nodup) (K : ℤ)
    (cls : String) (label : Option String) :
    ∃ t : CITable R, CITable.ofWfn sds params K cls label = .ok t ∧ t.view = .determinants ∧ t.nspatial = some K ∧
      t.index = sds.map .int ∧
      ∀ name, name = (if label = none ∨ label = some "" then cls else label.getD "") →
        t.columns.map Prod.fst = [name] ∧
        ∀ (i sd : ℕ), sds[i]? = some sd → tableCell t.toFrame (.int sd) name = params[i]? := by
  refine ⟨_, by rw [CITable.ofWfn, if_neg (by simpa using hl)], rfl, rfl, rfl, ?_⟩
  rintro name rfl
  have hn : (if label = none ∨ label = some "" then cls else label.getD "") = labelOr label cls := by
    cases label with
    | none => simp [labelOr]
    | some s => by_cases hs : s = "" <;> simp [labelOr, hs]
  rw [hn]
  refine ⟨rfl, ?_⟩
  intro i sd hi
  obtain ⟨hlt, rfl⟩ := List.getElem?_eq_some_iff.1 hi
  have hdm : (sds.map Label.int).Nodup := hd.map (fun a b h => by simpa using h)
  have hix : (sds.map Label.int).idxOf (.int sds[i]) = i := by
    have := List.Nodup.idxOf_getElem hdm i (by simpa using hlt)
    simpa using this
  simp only [tableCell, List.lookup_cons, beq_self_eq_true]
  rw [if_pos (by simp), hix]
  have : i < params.length := by omega
  simp [this]

theorem lookup_setColumn (cols : List (String × List (Option R))) (name : String) (vals : List (Option R)) (c : String) :
    (setColumn cols name vals).lookup c = if c = name then some vals else cols.lookup c := by
  unfold setColumn
  split_ifs with hm hc hc
  · subst hc
    induction cols with
    | nil => simp at hm
    | cons a l ih =>
      obtain ⟨x, v⟩ := a
      by_cases hx : x = c
      · subst hx; simp
      · have : c ∈ l.map Prod.fst := by
          rcases List.mem_cons.1 hm with h | h
          · exact absurd h.symm hx
          · exact h
        rw [List.map_cons, if_neg hx, List.lookup_cons, ih this]
        have hb : (c == x) = false := by simpa using Ne.symm hx
        rw [hb]
  · clear hm
    induction cols with
    | nil => rfl
    | cons a l ih =>
      obtain ⟨x, v⟩ := a
      rw [List.map_cons, List.lookup_cons]
      by_cases hx : x = name
      · have hb : (c == x) = false := by simpa [hx] using hc
        have hb' : (c == name) = false := by simpa using hc
        simp [List.lookup_cons, hx, hb', ih]
      · rw [if_neg hx, List.lookup_cons, ih]
  · subst hc
    rw [List.lookup_append]
    have : cols.lookup c = none := by
      rw [List.lookup_eq_none_iff]
      intro p hp
      have : p.1 ∈ cols.map Prod.fst := List.mem_map_of_mem hp
      simp only [ne_eq, bne_iff_ne]
      rintro rfl; exact hm this
    rw [this]; simp
  · rw [List.lookup_append]
    have : List.lookup c [(name, vals)] = none := by
      have hb : (c == name) = false := by simpa using hc
      simp [List.lookup_cons, hb]
    rw [this]; simp

theorem lookup_map_snd (cols : List (String × List (Option R))) (g : List (Option R) → List (Option R)) (c : String) :
    (cols.map (fun p => (p.1, g p.2))).lookup c = (cols.lookup c).map g := by
  induction cols with
  | nil => rfl
  | cons a l ih =>
    rw [List.map_cons, List.lookup_cons, List.lookup_cons, ih]
    cases c == a.1 <;> rfl

theorem getD_reindexVals (old new : List Label) (vals : List (Option R)) (l : Label) (hl : l ∈ new) :
    (reindexVals old vals new).getD (new.idxOf l) none = if l ∈ old then vals.getD (old.idxOf l) none else none := by
  have hlt := List.idxOf_lt_length_iff.2 hl
  rw [reindexVals, List.getD_eq_getElem _ none (by simpa using hlt), List.getElem_map, List.getElem_idxOf]

/-- what `addSeries` does -/
theorem addSeries_ok (union : List Label → List Label → List Label)
    (hu : ∀ a b, ∀ l, l ∈ union a b ↔ l ∈ a ∨ l ∈ b)
    (f : Frame R) (hf : f.index.Nodup) (labels : List Label) (hd : labels.Nodup) (params : List R)
    (hl : params.length = labels.length) (name : String) :
    ∃ g, addSeries union f labels params name = .ok g ∧ g.index = union f.index labels ∧
      (∀ c l, c ≠ name → tableCell g l c = tableCell f l c) ∧
      (∀ (i : ℕ) (l : Label), labels[i]? = some l → tableCell g l name = params[i]?) ∧
      (∀ l, l ∉ labels → tableCell g l name = none) := by
  set U := union f.index labels with hU
  have hre : ∀ (h : Frame R), h.index.Nodup → ∃ h', reindex h U = .ok h' ∧ h'.index = U ∧
      h'.columns.length = h.columns.length ∧
      ∀ c, (h'.columns.lookup c).isSome = (h.columns.lookup c).isSome ∧
      ∀ v v', h.columns.lookup c = some v → h'.columns.lookup c = some v' →
        ∀ l ∈ U, v'.getD (U.idxOf l) none = if l ∈ h.index then v.getD (h.index.idxOf l) none else none := by
    intro h hn
    by_cases he : U = h.index
    · refine ⟨h, by rw [reindex, if_pos he], he.symm, rfl, fun c => ⟨rfl, ?_⟩⟩
      intro v v' hv hv' l hlU
      rw [hv] at hv'
      obtain rfl := Option.some.inj hv'
      rw [he] at hlU
      rw [he, if_pos hlU]
    · refine ⟨_, by rw [reindex, if_neg he, if_pos hn], rfl, by simp, fun c => ?_⟩
      have hL := lookup_map_snd h.columns (fun v => reindexVals h.index v U) c
      simp only
      rw [hL]
      refine ⟨by simp, ?_⟩
      intro v v' hv hv' l hlU
      rw [hv] at hv'
      obtain rfl := Option.some.inj hv'
      exact getD_reindexVals _ _ _ _ hlU
  obtain ⟨g, hg, hgi, _, hgc⟩ := hre f hf
  obtain ⟨s, hs, hsi, hsl, hsc⟩ := hre { index := labels, columns := [(name, params.map some)] } hd
  obtain ⟨hs1, hs2⟩ := hsc name
  obtain ⟨nm, vals, hsv⟩ : ∃ nm vals, s.columns = [(nm, vals)] := by
    rcases hsx : s.columns with _ | ⟨⟨a, b⟩, _ | _⟩
    · rw [hsx] at hsl; simp at hsl
    · exact ⟨a, b, rfl⟩
    · rw [hsx] at hsl; simp at hsl
  rw [hsv] at hs1 hs2
  have hnm : name = nm := by
    by_contra hne
    have hb : (name == nm) = false := by simpa using hne
    simp [List.lookup_cons, hb] at hs1
  subst hnm
  have hvals := hs2 (params.map some) vals (by simp) (by simp)
  refine ⟨{ g with columns := setColumn g.columns name vals }, ?_, hgi, ?_, ?_, ?_⟩
  · rw [addSeries, if_neg (by simpa using hl), ← hU, hg]
    change (reindex _ g.index >>= _) = _
    rw [hgi, hs]
    change (match s.columns with | [(_, vals)] => _ | _ => _) = _
    rw [hsv]
  · intro c l hc
    simp only [tableCell]
    rw [lookup_setColumn, if_neg hc]
    obtain ⟨h1, h2⟩ := hgc c
    rcases hv' : g.columns.lookup c with _ | v'
    · rcases hv : f.columns.lookup c with _ | v
      · rfl
      · rw [hv, hv'] at h1; simp at h1
    · rcases hv : f.columns.lookup c with _ | v
      · rw [hv, hv'] at h1; simp at h1
      · simp only
        rw [hgi]
        by_cases hlU : l ∈ U
        · rw [if_pos hlU, h2 v v' hv hv' l hlU]
        · rw [if_neg hlU, if_neg (fun h => hlU ((hu _ _ _).2 (.inl h)))]
  · intro i l hi
    obtain ⟨hlt, rfl⟩ := List.getElem?_eq_some_iff.1 hi
    have hlU : labels[i] ∈ U := (hu _ _ _).2 (.inr (List.getElem_mem hlt))
    simp only [tableCell]
    rw [lookup_setColumn, if_pos rfl]
    simp only
    rw [hgi, if_pos hlU, hvals _ hlU, if_pos (List.getElem_mem hlt), List.Nodup.idxOf_getElem hd]
    have : i < params.length := by omega
    simp [this]
  · intro l hl'
    simp only [tableCell]
    rw [lookup_setColumn, if_pos rfl]
    simp only
    rw [hgi]
    by_cases hlU : l ∈ U
    · rw [if_pos hlU, hvals _ hlU, if_neg hl']
    · rw [if_neg hlU]

/-- **C102.**  `add_wfn_to_dataframe` on a table of determinants: afterwards the rows are those of the table together with
the determinants of the wavefunction, the column of the wavefunction holds its coefficients and nothing else (an earlier
column of the same name is lost), and every other column shows what it showed before, for every order in which pandas
lists the union of the rows. -/
theorem C102_add (union : List Label → List Label → List Label) (hu : ∀ a b, ∀ l, l ∈ union a b ↔ l ∈ a ∨ l ∈ b)
    (t : CITable R) (ht : t.index.Nodup) (sds : List ℕ) (hd : sds.Nodup) (params : List R)
    (hl : params.length = sds.length) (K : ℤ) (cls : String) (label : Option String) :
    ∃ t' : CITable R, t.addWfn union sds params K cls label = .ok t' ∧ t'.view = t.view ∧
      t'.nspatial = some (t.nspatial.getD K) ∧
      (∀ l, l ∈ t'.index ↔ l ∈ t.index ∨ ∃ sd ∈ sds, l = .int sd) ∧
      ∀ name, name = (if label = none ∨ label = some "" then cls else label.getD "") →
        (∀ c l, c ≠ name → tableCell t'.toFrame l c = tableCell t.toFrame l c) ∧
        (∀ (i sd : ℕ), sds[i]? = some sd → tableCell t'.toFrame (.int sd) name = params[i]?) ∧
        (∀ l, (∀ sd ∈ sds, l ≠ .int sd) → tableCell t'.toFrame l name = none) := by
  have hn : labelOr label cls = (if label = none ∨ label = some "" then cls else label.getD "") := by
    cases label with
    | none => simp [labelOr]
    | some s => by_cases hs : s = "" <;> simp [labelOr, hs]
  have hdm : (sds.map Label.int).Nodup := hd.map (fun a b h => by simpa using h)
  obtain ⟨g, hg, hgi, h1, h2, h3⟩ := addSeries_ok union hu t.toFrame ht (sds.map .int) hdm params
    (by simpa using hl) (labelOr label cls)
  refine ⟨{ toFrame := g, nspatial := (match t.nspatial with | none => some K | some k => some k), view := t.view },
    ?_, rfl, ?_, ?_, ?_⟩
  · rw [CITable.addWfn, hg]; rfl
  · cases t.nspatial <;> rfl
  · intro l
    simp only
    rw [hgi, hu]
    simp only [List.mem_map]
    constructor
    · rintro (h | ⟨a, ha, rfl⟩)
      · exact .inl h
      · exact .inr ⟨a, ha, rfl⟩
    · rintro (h | ⟨a, ha, rfl⟩)
      · exact .inl h
      · exact .inr ⟨a, ha, rfl⟩
  · rintro name hname
    rw [hn, ← hname] at h1 h2 h3
    refine ⟨h1, fun i sd hi => h2 i _ (by simp [hi]), fun l hl' => h3 l ?_⟩
    simp only [List.mem_map, not_exists, not_and]
    rintro sd hsd rfl
    exact hl' sd hsd rfl

/-- Adding a wavefunction with a wrong number of parameters is a `ValueError`. -/
theorem C102_add_length (union : List Label → List Label → List Label) (t : CITable R) (sds : List ℕ)
    (params : List R) (hl : params.length ≠ sds.length) (K : ℤ) (cls : String) (label : Option String) :
    t.addWfn union sds params K cls label = .error .valueError := by
  rw [CITable.addWfn, addSeries, if_pos (by simpa using hl)]; rfl

/-- **C102 (disagreement).**  `add_wfn_to_dataframe` does not look at the labels in use: added to a table whose labels are
texts, the coefficients of a wavefunction land in rows of their own, even for the determinants that the table already
has, and `set_sds_as_index` then raises `AttributeError`, so the determinants cannot be shown again. -/
theorem C102_add_formatted_disagrees (union : List Label → List Label → List Label)
    (hu : ∀ a b, ∀ l, l ∈ union a b ↔ l ∈ a ∨ l ∈ b)
    (t : CITable R) (K : ℕ) (hK : 0 < K) (hn : t.nspatial = some (K : ℤ)) (hv : t.view = .determinants)
    (old : List ℕ) (hi : t.index = old.map .int) (hold : old.Nodup)
    (sds : List ℕ) (hne : sds ≠ []) (hd : sds.Nodup) (params : List R) (hl : params.length = sds.length) (cls : String)
    (label : Option String) :
    ∃ t1 t2 : CITable R, t.setFormatted = .ok t1 ∧ t1.addWfn union sds params K cls label = .ok t2 ∧
      (∀ sd ∈ sds, Label.int sd ∈ t2.index ∧ Label.int sd ∉ t1.index) ∧ t2.setSds = .error .attributeError := by
  obtain ⟨t1, h1, hv1, _, _, _, _, _⟩ := C102_roundtrip t K hK hn hv old hi
  have hnd := C102_injective t K hK hn hv old hi hold t1 h1
  have hidx : t1.index = old.map (fun sd => .str (sdText K sd)) := by
    have hm : t.index.mapM (fmtLabel K) = .ok (old.map (fun sd => .str (sdText K sd))) := by
      rw [hi]; exact mapM_map_ok old (fun sd _ => fmtLabel_int hK sd)
    simp only [CITable.setFormatted, hv, hn] at h1
    rw [hm] at h1
    obtain rfl := Except.ok.inj h1
    rfl
  obtain ⟨t2, h2, hv2, _, hm2, _⟩ := C102_add union hu t1 hnd sds hd params hl K cls label
  refine ⟨t1, t2, h1, h2, ?_, ?_⟩
  · intro sd hsd
    refine ⟨(hm2 _).2 (.inr ⟨sd, hsd, rfl⟩), ?_⟩
    rw [hidx]; simp
  · simp only [CITable.setSds, hv2, hv1]
    rw [mapM_error_of_mem (e := .attributeError)]
    · rfl
    · intro a ha
      rcases (hm2 a).1 ha with h | ⟨sd, _, rfl⟩
      · rw [hidx] at h
        obtain ⟨sd, _, rfl⟩ := List.mem_map.1 h
        exact .inr ⟨_, unfmtLabel_sdText K hK sd⟩
      · exact .inl rfl
    · obtain ⟨sd, hsd⟩ := List.exists_mem_of_ne_nil _ hne
      exact ⟨.int sd, (hm2 _).2 (.inr ⟨sd, hsd, rfl⟩), rfl⟩

/-- A concrete case: two electrons in two spatial orbitals, then a second wavefunction with one more determinant. -/
example :
    (do
      let t ← CITable.ofWfn [0b0101, 0b1010] [(3 : ℤ), -1] 2 "CIWavefunction" none
      let t ← t.addWfn (fun a b => a ++ b.filter (fun l => decide (l ∉ a))) [0b0101, 0b1001] [5, 7] 2 "FCI" (some "b")
      let t ← t.setFormatted
      return (t.index.map (fun l => match l with | .str s => String.ofList s | .int _ => "int"), t.columns)) =
    (Except.ok (["10 10", "01 01", "10 01"],
      [("CIWavefunction", [some (3 : ℤ), some (-1), none]), ("b", [some 5, none, some 7])])
      : Except PyErr (List String × List (String × List (Option ℤ)))) := by decide +kernel

end Fanpy.Props
