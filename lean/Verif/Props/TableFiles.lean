import Verif.Lemmas.TableFiles

/-! C120: tables of parameters in files. -/

namespace Fanpy.Props
open Fanpy Fanpy.Tables Fanpy.Slater Fanpy.Text

variable {R : Type}

/-- **C120.** The names of the files.  For a path `s.e`, where the last component of `s` is more than dots: the file `s.e`
itself if `e` is `csv` in any case, and `s.csv` otherwise, with metadata in `s.json`.  For a path `p` whose last
component has no dot but leading ones: `p.csv` and `p.json`.  Every path is of one of these kinds. -/
theorem C120_names (p : Path) :
    (∀ s e, HasExt p s e → fileNames p =
      if e.map Char.toLower = "csv".toList then (p, s ++ ".json".toList)
      else (s ++ ".csv".toList, s ++ ".json".toList)) ∧
    (NoExt p → fileNames p = (p ++ ".csv".toList, p ++ ".json".toList)) ∧
    ((∃ s e, HasExt p s e) ∨ NoExt p) := by
  refine ⟨?_, ?_, hasExt_or_noExt p⟩
  · intro s e h
    have hlow : (('.' :: e).map Char.toLower ≠ ".csv".toList) ↔ ¬ (e.map Char.toLower = "csv".toList) := by
      have : ".csv".toList = '.' :: "csv".toList := rfl
      rw [this, List.map_cons, show Char.toLower '.' = '.' from rfl]
      simp
    unfold fileNames
    rw [splitext_hasExt h]
    by_cases hc : e.map Char.toLower = "csv".toList
    · rw [if_neg (by rw [hlow]; exact fun h => h hc), if_pos hc]
    · rw [if_pos (hlow.mpr hc), if_neg hc]
  · intro h
    unfold fileNames
    rw [splitext_noExt h, if_pos (by show ([] : List Char) ≠ _; decide)]

example : HasExt "out/run.CSV".toList "out/run".toList "CSV".toList ∧ NoExt "a.b/.run".toList :=
  ⟨⟨rfl, by decide, by decide, "out/".toList, "run".toList, rfl, by decide, 'r', by decide, by decide⟩,
    ⟨"a.b/".toList, ".".toList, "run".toList, rfl, Or.inr rfl, by decide, by decide, by decide⟩⟩

/-- **C120.** Writing under the name `g` changes no file but the two of `g`; the CSV file of a name is never the file of
metadata of a name. -/
theorem C120_only (disk : Disk R) (g : Path) (c : Csv R) (m : Meta) :
    (∀ p, p ≠ (fileNames g).1 → p ≠ (fileNames g).2 → (writeFiles disk g c m).1 p = disk p) ∧
    (∀ f, (fileNames f).1 ≠ (fileNames g).2) := by
  refine ⟨?_, fun f => csv_ne_meta f g⟩
  intro p h1 h2
  unfold writeFiles
  by_cases h : JVal.object ∈ m.map Prod.snd
  · rw [if_pos h]
    show Function.update (Function.update _ _ _) _ _ p = _
    rw [Function.update_of_ne h2, Function.update_of_ne h1]
  · rw [if_neg h]
    show Function.update (Function.update _ _ _) _ _ p = _
    rw [Function.update_of_ne h2, Function.update_of_ne h1]

theorem writeFiles_csv (disk : Disk R) (f : Path) (c : Csv R) (m : Meta) :
    (writeFiles disk f c m).1 (fileNames f).1 = some (.csv c) := by
  unfold writeFiles
  by_cases h : JVal.object ∈ m.map Prod.snd
  · rw [if_pos h]
    show Function.update (Function.update _ _ _) _ _ _ = _
    rw [Function.update_of_ne (csv_ne_meta f f), Function.update_self]
  · rw [if_neg h]
    show Function.update (Function.update _ _ _) _ _ _ = _
    rw [Function.update_of_ne (csv_ne_meta f f), Function.update_self]

theorem writeFiles_json (disk : Disk R) (f : Path) (c : Csv R) (m : Meta) (h : JVal.object ∉ m.map Prod.snd) :
    (writeFiles disk f c m).1 (fileNames f).2 = some (.json m) ∧ (writeFiles disk f c m).2 = .ok () := by
  unfold writeFiles
  rw [if_neg h]
  refine ⟨?_, rfl⟩
  show Function.update (Function.update _ _ _) _ _ _ = _
  rw [Function.update_self]

theorem csvFrame_frameCsv (f : Frame R) (h : Kept f.index) : csvFrame (frameCsv f) = f := by
  show ({ index := readLabels (f.index.map labelText), columns := f.columns } : Frame R) = f
  rw [readLabels_kept h]

theorem jnum_ne_object (k : Option ℤ) : jnum k ≠ .object := by cases k <;> simp [jnum]

theorem num_jnum (k : Option ℤ) : (jnum k).num = k := by cases k <;> rfl

theorem ci_no_object (t : CITable R) : JVal.object ∉ t.metadata.map Prod.snd := by
  have := jnum_ne_object t.nspatial
  simp [CITable.metadata, this.symm]

theorem cc_no_object (t : CCTable R) : JVal.object ∉ (t.metadata false).map Prod.snd := by
  have h1 := jnum_ne_object t.nspatial
  have h2 := jnum_ne_object (t.reference.map (fun (n : ℕ) => (n : ℤ)))
  simp [CCTable.metadata, h1.symm, h2.symm]

theorem ci_read {t0 : CITable R} {disk : Disk R} {f : Path} {c : Csv R} {t : CITable R}
    (h1 : disk (fileNames f).1 = some (.csv c)) (h2 : disk (fileNames f).2 = some (.json t.metadata)) :
    t0.readCsv disk f = ({ toFrame := csvFrame c, nspatial := t.nspatial, view := t.view }, .ok ()) := by
  unfold CITable.readCsv readCsvFile readMeta
  rw [h1, h2]
  show (({ toFrame := csvFrame c, nspatial := (jnum t.nspatial).num, view := t.view } : CITable R), _) = _
  rw [num_jnum]

theorem cc_read {t0 : CCTable R} {disk : Disk R} {f : Path} {c : Csv R} {t : CCTable R}
    (h1 : disk (fileNames f).1 = some (.csv c)) (h2 : disk (fileNames f).2 = some (.json (t.metadata false))) :
    t0.readCsv disk f =
      ({ toFrame := csvFrame c, nspatial := t.nspatial, reference := t.reference, view := t.view }, .ok ()) := by
  unfold CCTable.readCsv readCsvFile readMeta
  rw [h1, h2]
  show ((⟨csvFrame c, (jnum t.nspatial).num,
    (jnum (t.reference.map (fun (n : ℕ) => (n : ℤ)))).num.map Int.toNat, t.view⟩ : CCTable R), _) = _
  rw [num_jnum, num_jnum]
  have : (t.reference.map (fun (n : ℕ) => (n : ℤ))).map Int.toNat = t.reference := by
    cases t.reference <;> rfl
  rw [this]

/-- **C120.** `DataFrameCI`: writing a table succeeds, and reading under the same name, as long as the two files of that
name have not changed, gives any object the rows, the columns, the number of orbitals and the view of the table, if the
labels are numbers below `2 ^ 64` or texts one of which has a space. -/
theorem C120_ci_partial (t t0 : CITable R) (disk disk' : Disk R) (f : Path) (hk : Kept t.index)
    (h1 : disk' (fileNames f).1 = (t.toCsv disk f).1 (fileNames f).1)
    (h2 : disk' (fileNames f).2 = (t.toCsv disk f).1 (fileNames f).2) :
    (t.toCsv disk f).2 = .ok () ∧ t0.readCsv disk' f = (t, .ok ()) := by
  unfold CITable.toCsv at h1 h2 ⊢
  rw [writeFiles_csv] at h1
  rw [(writeFiles_json _ _ _ _ (ci_no_object t)).1] at h2
  refine ⟨(writeFiles_json _ _ _ _ (ci_no_object t)).2, ?_⟩
  rw [ci_read h1 h2, csvFrame_frameCsv _ hk]

/-- **C120.** `DataFrameCC` whose reference is a determinant or `None`: as `C120_ci_partial`, with the reference. -/
theorem C120_cc_partial (t t0 : CCTable R) (disk disk' : Disk R) (f : Path) (hk : Kept t.index)
    (h1 : disk' (fileNames f).1 = (t.toCsv false disk f).1 (fileNames f).1)
    (h2 : disk' (fileNames f).2 = (t.toCsv false disk f).1 (fileNames f).2) :
    (t.toCsv false disk f).2 = .ok () ∧ t0.readCsv disk' f = (t, .ok ()) := by
  unfold CCTable.toCsv at h1 h2 ⊢
  rw [writeFiles_csv] at h1
  rw [(writeFiles_json _ _ _ _ (cc_no_object t)).1] at h2
  refine ⟨(writeFiles_json _ _ _ _ (cc_no_object t)).2, ?_⟩
  rw [cc_read h1 h2, csvFrame_frameCsv _ hk]

/-- **C120.** `DataFrameGeminal`: a table with the attribute `wfn_ref_sd`, in one of the three views, comes back as it
was, if the labels of both levels are numbers below `2 ^ 64` or texts one of which has a space. -/
theorem C120_geminal_partial (t : GemTable R) (disk disk' : Disk R) (f : Path) (href : t.refSd ≠ none)
    (hv : t.view = .geminals ∨ t.view = .determinants ∨ t.view = .formatted)
    (hk1 : Kept (t.index.map Prod.fst)) (hk2 : Kept (t.index.map Prod.snd))
    (h1 : disk' (fileNames f).1 = (t.toCsv disk f).1 (fileNames f).1)
    (h2 : disk' (fileNames f).2 = (t.toCsv disk f).1 (fileNames f).2) :
    (t.toCsv disk f).2 = .ok () ∧ GemTable.readCsv disk' f = .ok t := by
  obtain ⟨index, columns, nspatial, nspin, refSd, view⟩ := t
  rcases refSd with - | r
  · exact absurd rfl href
  have hno : JVal.object ∉ ([("wfn_nspatial", jnum nspatial), ("wfn_nspin", jnum nspin),
       ("wfn_ref_sd", jnum (r.map (fun (n : ℕ) => (n : ℤ)))), ("index_view", .view view)] : Meta).map Prod.snd := by
    have a := jnum_ne_object nspatial
    have b := jnum_ne_object nspin
    have c := jnum_ne_object (r.map (fun (n : ℕ) => (n : ℤ)))
    simp [a.symm, b.symm, c.symm]
  have hto : (GemTable.toCsv (⟨index, columns, nspatial, nspin, some r, view⟩ : GemTable R) disk f) =
      writeFiles disk f (GemTable.csvOf ⟨index, columns, nspatial, nspin, some r, view⟩)
      [("wfn_nspatial", jnum nspatial), ("wfn_nspin", jnum nspin),
       ("wfn_ref_sd", jnum (r.map (fun (n : ℕ) => (n : ℤ)))), ("index_view", .view view)] := rfl
  rw [hto] at h1 h2 ⊢
  rw [writeFiles_csv] at h1
  rw [(writeFiles_json _ _ _ _ hno).1] at h2
  refine ⟨(writeFiles_json _ _ _ _ hno).2, ?_⟩
  have hr : (r.map (fun (n : ℕ) => (n : ℤ))).map Int.toNat = r := by cases r <;> rfl
  have e1 : readLabels (index.map (fun r => labelText r.1)) = index.map Prod.fst := by
    have := readLabels_kept hk1
    rwa [List.map_map] at this
  have e2 : readLabels (index.map (fun r => labelText r.2)) = index.map Prod.snd := by
    have := readLabels_kept hk2
    rwa [List.map_map] at this
  have hz : List.zip (index.map Prod.fst) (index.map Prod.snd) = index := by
    rw [List.zip_map']; simp
  unfold GemTable.readCsv readCsvFile readMeta
  rw [h1, h2]
  have hset : GemTable.setIndex (GemTable.csvOf (⟨index, columns, nspatial, nspin, some r, view⟩ : GemTable R))
      view.level = .ok index := by
    rcases hv with rfl | rfl | rfl <;>
    · show Except.ok (List.zip (readLabels (index.map (fun r => labelText r.1)))
        (readLabels (index.map (fun r => labelText r.2)))) = _
      rw [e1, e2, hz]
  show (if view = .geminals ∨ view = .determinants ∨ view = .formatted then _ else _) = _
  rw [if_pos hv]
  show (GemTable.setIndex _ view.level).bind _ = _
  rw [hset]
  show Except.ok _ = Except.ok _
  show Except.ok (⟨index, columns, (jnum nspatial).num, (jnum nspin).num,
    some ((jnum (r.map (fun (n : ℕ) => (n : ℤ)))).num.map Int.toNat), view⟩ : GemTable R) = _
  rw [num_jnum, num_jnum, num_jnum, hr]

/-- **C120.** The label columns of a file of a geminal table are `geminal` and, for the three views, `pair`, `determinants` or
`formatted determinants`; a file without a column of these names raises `KeyError`. -/
theorem C120_geminal_columns (v : View) (name : String)
    (hv : (v, name) ∈ [(View.geminals, "pair"), (.determinants, "determinants"), (.formatted, "formatted determinants")]) (disk : Disk R)
    (f : Path) :
    (∀ t : GemTable R, t.view = v → (t.toCsv disk f).2 = .ok () →
      ∃ c, (t.toCsv disk f).1 (fileNames f).1 = some (.csv c) ∧ c.keys.map Prod.fst = ["geminal", name]) ∧
    ∀ (c : Csv R) (m : Meta), disk (fileNames f).1 = some (.csv c) → disk (fileNames f).2 = some (.json m) →
      (∀ key ∈ ["wfn_nspatial", "wfn_nspin", "wfn_ref_sd"], m.lookup key ≠ none) → m.lookup "index_view" = some (.view v) →
      ("geminal" ∉ c.keys.map Prod.fst ∨ name ∉ c.keys.map Prod.fst) → GemTable.readCsv disk f = .error .keyError := by
  have hl : v.level = name := by
    simp only [List.mem_cons, Prod.mk.injEq, List.not_mem_nil, or_false] at hv
    rcases hv with ⟨rfl, rfl⟩ | ⟨rfl, rfl⟩ | ⟨rfl, rfl⟩ <;> rfl
  have hv' : v = .geminals ∨ v = .determinants ∨ v = .formatted := by
    simp only [List.mem_cons, Prod.mk.injEq, List.not_mem_nil, or_false] at hv
    rcases hv with ⟨rfl, rfl⟩ | ⟨rfl, rfl⟩ | ⟨rfl, rfl⟩ <;> simp
  constructor
  · intro t ht hok
    unfold GemTable.toCsv at hok ⊢
    rcases hm : t.metadataRefSd with e | r
    · rw [hm] at hok; cases hok
    · simp only []
      rw [writeFiles_csv]
      exact ⟨_, rfl, by simp [GemTable.csvOf, ht, hl]⟩
  · intro c m h1 h2 hm hi hc
    obtain ⟨a1, e1⟩ := Option.ne_none_iff_exists'.1 (hm "wfn_nspatial" (by simp))
    obtain ⟨a2, e2⟩ := Option.ne_none_iff_exists'.1 (hm "wfn_nspin" (by simp))
    obtain ⟨a3, e3⟩ := Option.ne_none_iff_exists'.1 (hm "wfn_ref_sd" (by simp))
    have hset : GemTable.setIndex c v.level = .error .keyError := by
      unfold GemTable.setIndex
      rw [hl]
      have hnone : ∀ k, k ∉ c.keys.map Prod.fst → c.keys.lookup k = none := by
        intro k hk
        rw [List.lookup_eq_none_iff]
        intro p hp
        simp only [ne_eq, bne_iff_ne]
        intro h
        exact hk (List.mem_map.2 ⟨p, hp, h.symm⟩)
      rcases hc with hc | hc
      · rw [hnone _ hc]
      · rw [hnone _ hc]
        rcases c.keys.lookup "geminal" <;> rfl
    unfold GemTable.readCsv readCsvFile readMeta metaGet
    rw [h1, h2]
    simp only [bind, Except.bind, e1, e2, e3, hi]
    have hvv : (JVal.view v).toView = v := rfl
    rw [hvv, if_pos hv', hset]

/-- **C120.** The labels that the tables have: determinants of at most 32 spatial orbitals, formatted determinants, and
excitation operators with at least two indices are labels of the kinds that `C120_ci_partial`, `C120_cc_partial` and `C120_geminal_partial` ask
for, and so are the numbers of the geminals. -/
theorem C120_labels :
    (∀ (K : ℕ) (sds : List ℕ), K ≤ 32 → (∀ sd ∈ sds, sd < 2 ^ (2 * K)) → Kept (sds.map .int)) ∧
    (∀ (K : ℕ) (sds : List ℕ) (l : List Label), 0 < K → (sds.map Label.int).mapM (fmtLabel K) = .ok l → Kept l) ∧
    (∀ ops : List (List ℕ), (∀ op ∈ ops, 2 ≤ op.length) → Kept (ops.map opLabel)) := by
  refine ⟨?_, ?_, ?_⟩
  · intro K sds hK h
    refine Or.inl ⟨sds, rfl, fun n hn => lt_of_lt_of_le (h n hn) ?_⟩
    exact Nat.pow_le_pow_right (by norm_num) (by omega)
  · intro K sds l hK h
    have := mapM_map_ok (f := fmtLabel K) (g := Label.int) (h := fun sd => Label.str (sdText K sd)) sds
      (fun sd _ => fmtLabel_int hK sd)
    rw [this] at h
    cases h
    refine Or.inr ⟨sds.map (sdText K), by simp [Function.comp_def], ?_⟩
    rcases sds with - | ⟨a, l⟩
    · exact Or.inl rfl
    · exact Or.inr ⟨sdText K a, by simp, space_mem_sdText K a⟩
  · intro ops h
    refine Or.inr ⟨ops.map (fun op => joinSp (op.map pyStr)), by simp [opLabel, Function.comp_def], ?_⟩
    rcases ops with - | ⟨op, l⟩
    · exact Or.inl rfl
    · refine Or.inr ⟨joinSp (op.map pyStr), by simp, ?_⟩
      have := h op (by simp)
      match op, this with
      | i :: j :: r, _ => exact space_mem_joinSp

/-- a table of two determinants in eight spin orbitals. -/
def tableEx : CITable ℤ :=
  { index := [.int 0b00110011, .int 0b01010101], columns := [("CI", [some 1, none])], nspatial := some 4,
    view := .determinants }

example : (CITable.empty.readCsv (tableEx.toCsv (fun _ => none) "a/run.CSV".toList).1 "a/run.CSV".toList)
    = (tableEx, .ok ()) :=
  (C120_ci_partial tableEx CITable.empty (fun _ => none) _ _
    (C120_labels.1 4 [0b00110011, 0b01010101] (by norm_num) (by decide)) rfl rfl).2

/-- **C120.** A disagreement: if a determinant does not fit in 64 bits (more than 32 spatial orbitals), all labels come
back as texts, and the table read can not be shown as formatted determinants: `TypeError`. -/
theorem C120_large_disagrees (sds : List ℕ) (hbig : ∃ sd ∈ sds, 2 ^ 64 ≤ sd) (t t0 : CITable R)
    (ht : t.index = sds.map .int) (hv : t.view = .determinants) {K : ℕ} (hK : 0 < K) (hn : t.nspatial = some (K : ℤ))
    (disk : Disk R) (f : Path) :
    (t0.readCsv (t.toCsv disk f).1 f).2 = .ok () ∧
    (t0.readCsv (t.toCsv disk f).1 f).1.index = sds.map (fun n => .str (pyStr n)) ∧
    (t0.readCsv (t.toCsv disk f).1 f).1.index ≠ t.index ∧
    (t0.readCsv (t.toCsv disk f).1 f).1.setFormatted = .error .typeError ∧
    ∃ t', t.setFormatted = .ok t' := by
  have hidx : (csvFrame (frameCsv t.toFrame)).index = sds.map (fun n => .str (pyStr n)) := by
    show readLabels (t.index.map labelText) = _
    rw [ht, readLabels_big hbig]
  have hread : t0.readCsv (t.toCsv disk f).1 f
      = ({ toFrame := csvFrame (frameCsv t.toFrame), nspatial := t.nspatial, view := t.view }, .ok ()) := by
    unfold CITable.toCsv
    exact ci_read (writeFiles_csv _ _ _ _) (writeFiles_json _ _ _ _ (ci_no_object t)).1
  rw [hread]
  refine ⟨rfl, hidx, ?_, ?_, ?_⟩
  · show (csvFrame (frameCsv t.toFrame)).index ≠ _
    rw [hidx, ht]
    obtain ⟨sd, hm, -⟩ := hbig
    intro h
    have : Label.str (pyStr sd) ∈ sds.map Label.int := by
      rw [← h]; exact List.mem_map.mpr ⟨sd, hm, rfl⟩
    simp at this
  · unfold CITable.setFormatted
    show (match t.view with | .determinants => _ | .formatted => _ | _ => _) = _
    rw [hv]
    show (match t.nspatial with | none => _ | some K => _) = _
    rw [hn]
    show ((csvFrame (frameCsv t.toFrame)).index.mapM (fmtLabel K)).bind _ = _
    rw [hidx]
    rcases sds with - | ⟨a, l⟩
    · obtain ⟨_, h, -⟩ := hbig; simp at h
    · rw [List.map_cons, List.mapM_cons]
      have : fmtLabel K (.str (pyStr a)) = .error .typeError := by
        show (if (K : ℤ) ≤ 0 then _ else _) = _
        rw [if_neg (by omega)]
      rw [this]
      rfl
  · unfold CITable.setFormatted
    rw [hv]
    show ∃ t', (match t.nspatial with | none => _ | some K => _) = Except.ok t'
    rw [hn]
    have := mapM_map_ok (f := fmtLabel K) (g := Label.int) (h := fun sd => Label.str (sdText K sd)) sds
      (fun sd _ => fmtLabel_int hK sd)
    show ∃ t', (t.index.mapM (fmtLabel K)).bind _ = Except.ok t'
    rw [ht, this]
    exact ⟨_, rfl⟩

/-- **C120.** A disagreement: names that differ only in an extension other than `csv` are one name.  A table written as
`s.e` is replaced by one written as `s.e'`. -/
theorem C120_same_files_disagrees (t t' t0 : CITable R) (s e e' f f' : Path) (h : HasExt f s e) (h' : HasExt f' s e')
    (he : e.map Char.toLower ≠ "csv".toList) (he' : e'.map Char.toLower ≠ "csv".toList) (hk : Kept t'.index)
    (disk : Disk R) :
    t0.readCsv (t'.toCsv (t.toCsv disk f).1 f').1 f = (t', .ok ()) := by
  have h1 : fileNames f = fileNames f' := by
    rw [(C120_names f).1 s e h, (C120_names f').1 s e' h', if_neg he, if_neg he']
  refine (C120_ci_partial t' t0 (t.toCsv disk f).1 _ f hk ?_ ?_).2
  · unfold CITable.toCsv
    rw [writeFiles_csv, h1, writeFiles_csv]
  · unfold CITable.toCsv
    rw [(writeFiles_json _ f _ _ (ci_no_object t')).1, h1, (writeFiles_json _ f' _ _ (ci_no_object t')).1]

example : HasExt "r=1.5".toList "r=1".toList "5".toList ∧ HasExt "r=1.8".toList "r=1".toList "8".toList :=
  ⟨⟨rfl, by decide, by decide, [], "r=1".toList, rfl, by decide, 'r', by decide, by decide⟩,
    ⟨rfl, by decide, by decide, [], "r=1".toList, rfl, by decide, 'r', by decide, by decide⟩⟩

/-- **C120.** A disagreement: the names `s.csv` and `s.CSV` have two files of rows but one file of metadata.  After both
are written, the first is read with the number of orbitals and the view of the second. -/
theorem C120_metadata_disagrees (t t' t0 : CITable R) (s f f' : Path) (h : HasExt f s "csv".toList)
    (h' : HasExt f' s "CSV".toList) (hk : Kept t.index) (disk : Disk R) :
    t0.readCsv (t'.toCsv (t.toCsv disk f).1 f').1 f =
      ({ toFrame := t.toFrame, nspatial := t'.nspatial, view := t'.view }, .ok ()) := by
  have e1 : fileNames f = (f, s ++ ".json".toList) := by
    rw [(C120_names f).1 s _ h, if_pos (by decide)]
  have e2 : fileNames f' = (f', s ++ ".json".toList) := by
    rw [(C120_names f').1 s _ h', if_pos (by decide)]
  have hne : f ≠ f' := by
    rw [h.1, h'.1]
    intro hh
    have := List.append_cancel_left hh
    revert this
    decide
  have hne2 : f ≠ (fileNames f').2 := by
    have := csv_ne_meta f f'
    rwa [e1] at this
  have hc : (t'.toCsv (t.toCsv disk f).1 f').1 (fileNames f).1 = some (.csv (frameCsv t.toFrame)) := by
    have a : (fileNames f).1 = f := by rw [e1]
    unfold CITable.toCsv
    rw [(C120_only _ f' _ _).1 (fileNames f).1 (by rw [a, e2]; exact hne) (by rw [a]; exact hne2), writeFiles_csv]
  have hm : (t'.toCsv (t.toCsv disk f).1 f').1 (fileNames f).2 = some (.json t'.metadata) := by
    have a : (fileNames f).2 = (fileNames f').2 := by rw [e1, e2]
    unfold CITable.toCsv
    rw [a, (writeFiles_json _ f' _ _ (ci_no_object t')).1]
  rw [ci_read hc hm, csvFrame_frameCsv _ hk]

/-- **C120.** `DataFrameCC` whose reference is a wavefunction: `to_csv` raises `TypeError` after it has written the rows
and destroyed the metadata that were there; reading then raises `ValueError`. -/
theorem C120_reference (t t0 : CCTable R) (disk : Disk R) (f : Path) :
    (t.toCsv true disk f).2 = .error .typeError ∧
    (t.toCsv true disk f).1 (fileNames f).1 = some (.csv (frameCsv t.toFrame)) ∧
    (t.toCsv true disk f).1 (fileNames f).2 = some .cut ∧
    (t0.readCsv (t.toCsv true disk f).1 f).2 = .error .valueError := by
  have hm : JVal.object ∈ (t.metadata true).map Prod.snd := by simp [CCTable.metadata]
  have h1 : (t.toCsv true disk f).1 (fileNames f).1 = some (.csv (frameCsv t.toFrame)) := writeFiles_csv _ _ _ _
  have h2 : (t.toCsv true disk f).1 (fileNames f).2 = some .cut := by
    unfold CCTable.toCsv writeFiles
    rw [if_pos hm]
    show Function.update (Function.update _ _ _) _ _ _ = _
    rw [Function.update_self]
  refine ⟨?_, h1, h2, ?_⟩
  · unfold CCTable.toCsv writeFiles
    rw [if_pos hm]
  · unfold CCTable.readCsv readCsvFile readMeta
    rw [h1, h2]

/-- **C120.** Reading that fails.  Without the CSV file the object is left as it was; without the file of metadata the rows
are replaced already while the number of orbitals and the view are kept; and `DataFrameCC` reading the files of a
`DataFrameCI` raises `KeyError` with the rows and the number of orbitals replaced and the reference and the view kept. -/
theorem C120_read_errors (t : CITable R) (u : CCTable R) (disk : Disk R) (f : Path) :
    (disk (fileNames f).1 = none →
      t.readCsv disk f = (t, .error .runtimeError) ∧ u.readCsv disk f = (u, .error .runtimeError) ∧
      GemTable.readCsv disk f = .error .runtimeError) ∧
    (∀ s : CITable R, Kept s.index → disk (fileNames f).1 = some (.csv (frameCsv s.toFrame)) →
      disk (fileNames f).2 = none →
      t.readCsv disk f = ({ t with toFrame := s.toFrame }, .error .runtimeError)) ∧
    (∀ s : CITable R, Kept s.index →
      u.readCsv (s.toCsv disk f).1 f =
        ({ u with toFrame := s.toFrame, nspatial := s.nspatial }, .error .keyError) ∧
      GemTable.readCsv (s.toCsv disk f).1 f = .error .keyError) := by
  refine ⟨?_, ?_, ?_⟩
  · intro h
    refine ⟨?_, ?_, ?_⟩
    · unfold CITable.readCsv readCsvFile
      rw [h]
    · unfold CCTable.readCsv readCsvFile
      rw [h]
    · unfold GemTable.readCsv readCsvFile
      rw [h]
      rfl
  · intro s hk h1 h2
    unfold CITable.readCsv readCsvFile readMeta
    rw [h1, h2]
    show (({ t with toFrame := csvFrame (frameCsv s.toFrame) } : CITable R), _) = _
    rw [csvFrame_frameCsv _ hk]
  · intro s hk
    have h1 : (s.toCsv disk f).1 (fileNames f).1 = some (.csv (frameCsv s.toFrame)) := writeFiles_csv _ _ _ _
    have h2 : (s.toCsv disk f).1 (fileNames f).2 = some (.json s.metadata) :=
      (writeFiles_json _ _ _ _ (ci_no_object s)).1
    constructor
    · unfold CCTable.readCsv readCsvFile readMeta
      rw [h1, h2]
      show (({ u with toFrame := csvFrame (frameCsv s.toFrame), nspatial := (jnum s.nspatial).num } : CCTable R), _) = _
      rw [csvFrame_frameCsv _ hk, num_jnum]
    · unfold GemTable.readCsv readCsvFile readMeta
      rw [h1, h2]
      rfl

/-- **C120.** `DataFrameCI` reads the files of a `DataFrameCC` without an error. -/
theorem C120_ci_reads_cc (t : CITable R) (s : CCTable R) (hk : Kept s.index) (disk : Disk R) (f : Path) :
    t.readCsv (s.toCsv false disk f).1 f =
      ({ toFrame := s.toFrame, nspatial := s.nspatial, view := s.view }, .ok ()) := by
  have h1 : (s.toCsv false disk f).1 (fileNames f).1 = some (.csv (frameCsv s.toFrame)) := writeFiles_csv _ _ _ _
  have h2 : (s.toCsv false disk f).1 (fileNames f).2 = some (.json (s.metadata false)) :=
    (writeFiles_json _ _ _ _ (cc_no_object s)).1
  unfold CITable.readCsv readCsvFile readMeta
  rw [h1, h2]
  show (({ toFrame := csvFrame (frameCsv s.toFrame), nspatial := (jnum s.nspatial).num, view := s.view } : CITable R), _)
    = _
  rw [csvFrame_frameCsv _ hk, num_jnum]

/-- **C120.** A `DataFrameGeminal` made without a wavefunction has no attribute `wfn_ref_sd`: `to_csv` raises
`AttributeError` and writes nothing. -/
theorem C120_geminal_empty (disk : Disk R) (f : Path) :
    (GemTable.empty : GemTable R).toCsv disk f = (disk, .error .attributeError) := rfl

end Fanpy.Props
