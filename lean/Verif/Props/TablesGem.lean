import Verif.Model.TablesGem
import Verif.Lemmas.TablesCC

/-! C104: tables of the coefficients of geminal wavefunctions. -/

namespace Fanpy.Props
open Fanpy.Tables Fanpy.Text Fanpy.Spec Fanpy.Slater

variable {R : Type}

theorem setChars_ok {new : Char} : ∀ {is : List ℕ} {w : List Char}, (∀ i ∈ is, i < w.length) →
    ∃ w', GemTable.setChars new is w = .ok w' ∧ w'.length = w.length ∧
      ∀ j, w'[j]? = if j ∈ is then some new else w[j]? := by
  intro is
  induction is with
  | nil => intro w _; exact ⟨w, rfl, rfl, by simp⟩
  | cons i is ih =>
    intro w hw
    have hi := hw i (by simp)
    obtain ⟨w', h1, h2, h3⟩ := ih (w := w.set i new) (by
      intro j hj; simpa using hw j (by simp [hj]))
    refine ⟨w', ?_, by simpa using h2, ?_⟩
    · rw [GemTable.setChars, if_pos hi, h1]
    · intro j
      rw [h3]
      by_cases hj : j ∈ is
      · simp [hj]
      · by_cases hji : j = i
        · subst hji; simp [hj, hi]
        · rw [if_neg hj, if_neg (by simp [hj, hji]), List.getElem?_set_ne (Ne.symm hji)]

/-- characters zero and one to a number -/
theorem parse_chars {w : List Char} {n : ℕ} (hn : 0 < n) (hl : w.length = n) (p : ℕ → Prop) [DecidablePred p]
    (hp : ∀ i, p i → i < n) (hw : ∀ j < n, w[j]? = some (if p j then '1' else '0')) :
    ∃ m, parseInt 2 w.reverse = .ok m ∧ ∀ i, m.testBit i = decide (p i) := by
  obtain ⟨m, hm, hb⟩ := parseInt_bits (s := w.reverse)
    (by
      intro h
      have := congrArg List.length h
      rw [List.length_reverse, hl, List.length_nil] at this
      omega)
    (by
      intro x hx
      rw [List.mem_reverse, List.mem_iff_getElem?] at hx
      obtain ⟨j, hj⟩ := hx
      have hjn : j < n := by rw [← hl]; exact (List.getElem?_eq_some_iff.1 hj).1
      rw [hw j hjn] at hj
      by_cases hpj : p j
      · rw [if_pos hpj] at hj; right; simpa using hj.symm
      · rw [if_neg hpj] at hj; left; simpa using hj.symm)
  refine ⟨m, hm, fun i => ?_⟩
  rw [hb, List.reverse_reverse, List.getD_eq_getElem?_getD]
  by_cases hi : i < n
  · rw [hw i hi]; by_cases hpi : p i <;> simp [hpi]
  · rw [List.getElem?_eq_none (by omega)]
    have : ¬ p i := fun h => hi (hp i h)
    simp [this]

/-- The orbitals that are occupied besides the pair: those of the reference that the geminal does not replace, or none. -/
def spectators (refSd : Option ℕ) (g : List ℕ) : Finset ℕ :=
  match refSd with
  | none => ∅
  | some ref => occSet ref \ g.toFinset

/-- The label of a geminal: the orbitals it replaces if there is a reference, anything otherwise. -/
def GemLabelOk (K : ℕ) (refSd : Option ℕ) (l : Label) (g : List ℕ) : Prop :=
  match refSd with
  | none => True
  | some ref => ref < 2 ^ (2 * K) ∧ l = opLabel g ∧ ∀ i ∈ g, i < 2 * K

theorem baseChars_ok {K : ℕ} (hK : 0 < K) {refSd : Option ℕ} {l : Label} {g : List ℕ} (h : GemLabelOk K refSd l g) :
    ∃ w, GemTable.baseChars (some refSd) K (2 * K : ℕ) l = .ok w ∧ w.length = 2 * K ∧
      (∀ j < 2 * K, w[j]? = some (if j ∈ spectators refSd g then '1' else '0')) ∧
      ∀ i ∈ spectators refSd g, i < 2 * K := by
  cases refSd with
  | none =>
    refine ⟨List.replicate (2 * K) '0', by
      simp only [GemTable.baseChars, Int.toNat_natCast], by simp, ?_, by simp [spectators]⟩
    intro j hj
    simp [spectators, hj]
  | some ref =>
    obtain ⟨hr, rfl, hg⟩ := h
    have hl : (fmtBits (2 * K) ref).reverse.length = 2 * K := by
      rw [List.length_reverse]; exact length_fmtBits_of_lt (by omega) hr
    obtain ⟨w, h1, h2, h3⟩ := setChars_ok (new := '0') (w := (fmtBits (2 * K) ref).reverse) (is := g)
      (by intro i hi; rw [hl]; exact hg i hi)
    have e2 : ((2 * (K : ℤ))).toNat = 2 * K := by omega
    refine ⟨w, ?_, by rw [h2, hl], ?_, ?_⟩
    · simp only [GemTable.baseChars, GemTable.readOrbs, opLabel]
      rw [mapM_parse_joined, e2]
      exact h1
    · intro j hj
      rw [h3, refChars hK hr, if_pos hj]
      simp only [spectators, Finset.mem_sdiff, mem_occSet, List.mem_toFinset]
      by_cases hjg : j ∈ g
      · simp [hjg]
      · simp [hjg]
    · intro i hi
      simp only [spectators, Finset.mem_sdiff, mem_occSet] at hi
      exact lt_of_testBit hi.1 hr

/-- one row to its determinant -/
theorem pairToSd_ok {K : ℕ} (hK : 0 < K) {refSd : Option ℕ} {l : Label} {g p : List ℕ} (h : GemLabelOk K refSd l g)
    (hp : ∀ i ∈ p, i < 2 * K) :
    ∃ sd, GemTable.pairToSd (some refSd) K (2 * K : ℕ) (l, opLabel p) = .ok (l, .int sd) ∧
      occSet sd = spectators refSd g ∪ p.toFinset := by
  obtain ⟨w, h1, h2, h3, h4⟩ := baseChars_ok hK h
  obtain ⟨w2, g1, g2, g3⟩ := setChars_ok (new := '1') (w := w) (is := p) (by intro i hi; rw [h2]; exact hp i hi)
  obtain ⟨m, hm, hb⟩ := parse_chars (w := w2) (n := 2 * K) (by omega) (by rw [g2, h2])
    (fun i => i ∈ spectators refSd g ∪ p.toFinset) (by
      intro i hi
      rcases Finset.mem_union.1 hi with hi | hi
      · exact h4 i hi
      · exact hp i (by simpa using hi)) (by
      intro j hj
      rw [g3, h3 j hj]
      by_cases hjp : j ∈ p
      · simp [hjp]
      · simp [hjp])
  refine ⟨m, ?_, ?_⟩
  · simp only [GemTable.pairToSd]
    rw [h1]
    simp only [GemTable.readOrbs, opLabel]
    change ((splitSp (joinSp (p.map pyStr))).mapM (parseInt 10) >>= _) = _
    rw [mapM_parse_joined]
    change (GemTable.setChars '1' p w >>= _) = _
    rw [g1]
    change (parseInt 2 w2.reverse >>= _) = _
    rw [hm]; rfl
  · ext i; rw [mem_occSet, hb]; simp

/-- and back -/
theorem sdToPair_ok {K : ℕ} (hK : 0 < K) {refSd : Option ℕ} {l : Label} {g p : List ℕ} (h : GemLabelOk K refSd l g)
    (hs : p.Pairwise (· < ·)) (hd : ∀ i ∈ p, i ∉ spectators refSd g) {sd : ℕ}
    (hsd : occSet sd = spectators refSd g ∪ p.toFinset) :
    GemTable.sdToPair (some refSd) (some (K : ℤ)) (l, .int sd) = .ok (l, opLabel p) := by
  cases refSd with
  | none =>
    simp only [GemTable.sdToPair]
    congr 3
    apply sorted_lt_ext (sorted_occIndices _) hs
    intro i
    rw [mem_occIndices, ← mem_occSet, hsd]
    simp [spectators]
  | some ref =>
    obtain ⟨w, h1, h2, h3, h4⟩ := baseChars_ok hK h
    obtain ⟨m, hm, hb⟩ := parse_chars (w := w) (n := 2 * K) (by omega) h2
      (fun i => i ∈ spectators (some ref) g) h4 h3
    obtain ⟨hr, rfl, hg⟩ := h
    have e2 : ((2 * (K : ℤ))).toNat = 2 * K := by omega
    simp only [GemTable.baseChars] at h1
    simp only [GemTable.sdToPair]
    simp only [GemTable.readOrbs, opLabel] at h1 ⊢
    rw [mapM_parse_joined] at h1 ⊢
    change GemTable.setChars '0' g _ = _ at h1
    change (GemTable.setChars '0' g _ >>= _) = _
    rw [h1]
    change (parseInt 2 w.reverse >>= _) = _
    rw [hm]
    change Except.ok _ = Except.ok _
    congr 5
    apply sorted_lt_ext (sorted_occIndices _) hs
    intro i
    rw [mem_occIndices, Nat.testBit_xor, hb]
    have hi : sd.testBit i = decide (i ∈ spectators (some ref) g ∨ i ∈ p) := by
      have : i ∈ occSet sd ↔ i ∈ spectators (some ref) g ∨ i ∈ p := by rw [hsd]; simp
      rw [mem_occSet] at this
      rw [Bool.eq_iff_iff, this]; simp
    rw [hi]
    by_cases x : i ∈ p
    · have := hd i x
      simp [x, this]
    · by_cases y : i ∈ spectators (some ref) g <;> simp [x, y]

theorem gem_setFormatted_of_ne {t : GemTable R} (h : t.view ≠ .geminals) : t.setFormatted = t.setFormattedTail := by
  rw [GemTable.setFormatted, if_neg h]; rfl

theorem gem_setGeminals_of_ne {t : GemTable R} (h : t.view ≠ .formatted) : t.setGeminals = t.setGeminalsTail := by
  rw [GemTable.setGeminals, if_neg h]; rfl

/-- **C104.**  A table of geminals whose pairs are in increasing order and do not touch the orbitals of the reference that
the geminal leaves alone: the determinant of a row holds the orbitals of the pair and these orbitals (only the pair if
there is no reference), its text shows the occupations, and from any of the three kinds of labels every method leads to
the same table, with the same data. -/
theorem C104_roundtrip (t : GemTable R) (K : ℕ) (hK : 0 < K) (hn : t.nspatial = some (K : ℤ))
    (hn2 : t.nspin = some ((2 * K : ℕ) : ℤ)) (refSd : Option ℕ) (hr : t.refSd = some refSd) (hv : t.view = .geminals)
    (rows : List (Label × List ℕ × List ℕ)) (hi : t.index = rows.map (fun r => (r.1, opLabel r.2.2)))
    (hrow : ∀ r ∈ rows, GemLabelOk K refSd r.1 r.2.1 ∧ r.2.2.Pairwise (· < ·) ∧
      ∀ i ∈ r.2.2, i < 2 * K ∧ i ∉ spectators refSd r.2.1) :
    ∃ td tf : GemTable R, t.setSds = .ok td ∧ t.setFormatted = .ok tf ∧ td.columns = t.columns ∧
      tf.columns = t.columns ∧ td.view = .determinants ∧ tf.view = .formatted ∧
      (∀ (j : ℕ) (l : Label) (g p : List ℕ), rows[j]? = some (l, g, p) → ∃ sd s,
        td.index[j]? = some (l, .int sd) ∧ tf.index[j]? = some (l, .str s) ∧
        occSet sd = spectators refSd g ∪ p.toFinset ∧
        ∀ i < K, s[i]? = some (if i ∈ occSet sd then '1' else '0') ∧
          s[K + 1 + i]? = some (if K + i ∈ occSet sd then '1' else '0')) ∧
      td.setFormatted = .ok tf ∧ tf.setSds = .ok td ∧ td.setGeminals = .ok t ∧ tf.setGeminals = .ok t ∧
      t.setGeminals = .ok t ∧ td.setSds = .ok td ∧ tf.setFormatted = .ok tf := by
  -- the determinant of each row
  have hex : ∀ r : Label × List ℕ × List ℕ, ∃ sd, r ∈ rows →
      GemTable.pairToSd (some refSd) K (2 * K : ℕ) (r.1, opLabel r.2.2) = .ok (r.1, .int sd) ∧
      occSet sd = spectators refSd r.2.1 ∪ r.2.2.toFinset := by
    intro r
    by_cases hr' : r ∈ rows
    · obtain ⟨h1, h2, h3⟩ := hrow r hr'
      obtain ⟨sd, h⟩ := pairToSd_ok hK h1 (p := r.2.2) (fun i hi' => (h3 i hi').1)
      exact ⟨sd, fun _ => h⟩
    · exact ⟨0, fun h => absurd h hr'⟩
  choose f hf using hex
  have m1 : t.index.mapM (GemTable.pairToSd (some refSd) K (2 * K : ℕ)) = .ok (rows.map (fun r => (r.1, .int (f r)))) := by
    rw [hi]; exact mapM_map_ok rows (fun r hr' => (hf r hr').1)
  have m2 : (rows.map (fun r => (r.1, Label.int (f r)))).mapM
      (fun row => (fmtLabel K row.2).map (fun l => (row.1, l))) = .ok (rows.map (fun r => (r.1, .str (sdText K (f r))))) :=
    mapM_map_ok rows (fun r _ => by simp only; rw [fmtLabel_int hK]; rfl)
  have m3 : (rows.map (fun r => (r.1, Label.str (sdText K (f r))))).mapM
      (fun row => (unfmtLabel row.2).map (fun l => (row.1, l))) = .ok (rows.map (fun r => (r.1, .int (f r)))) :=
    mapM_map_ok rows (fun r _ => by simp only; rw [unfmtLabel_sdText K hK]; rfl)
  have m4 : (rows.map (fun r => (r.1, Label.int (f r)))).mapM (GemTable.sdToPair (some refSd) (some (K : ℤ))) =
      .ok t.index := by
    rw [hi]
    refine mapM_map_ok rows (fun r hr' => ?_)
    obtain ⟨h1, h2, h3⟩ := hrow r hr'
    exact sdToPair_ok hK h1 h2 (fun i hi' => (h3 i hi').2) (hf r hr').2
  have s1 : t.setSds = .ok { t with index := rows.map (fun r => (r.1, .int (f r))), view := .determinants } := by
    simp only [GemTable.setSds, hv, hn, hn2, hr]
    rw [m1]; rfl
  have s2 : ({ t with index := rows.map (fun r => (r.1, .int (f r))), view := .determinants } :
      GemTable R).setFormatted =
      .ok { t with index := rows.map (fun r => (r.1, .str (sdText K (f r)))), view := .formatted } := by
    rw [gem_setFormatted_of_ne (by simp)]
    simp only [GemTable.setFormattedTail, hn]
    rw [m2]; rfl
  have s3 : ({ t with index := rows.map (fun r => (r.1, .str (sdText K (f r)))), view := .formatted } :
      GemTable R).setSds =
      .ok { t with index := rows.map (fun r => (r.1, .int (f r))), view := .determinants } := by
    simp only [GemTable.setSds]
    rw [m3]; rfl
  have s4 : ({ t with index := rows.map (fun r => (r.1, .int (f r))), view := .determinants } :
      GemTable R).setGeminalsTail = .ok t := by
    simp only [GemTable.setGeminalsTail, hr, hn]
    rw [m4]
    obtain ⟨idx, cols, ns, ns2, rf, v⟩ := t
    simp only at hv hn hr ⊢
    subst hv hn hr
    rfl
  refine ⟨{ t with index := rows.map (fun r => (r.1, .int (f r))), view := .determinants },
    { t with index := rows.map (fun r => (r.1, .str (sdText K (f r)))), view := .formatted },
    s1, ?_, rfl, rfl, rfl, rfl, ?_, s2, s3, ?_, ?_, ?_, rfl, ?_⟩
  · rw [GemTable.setFormatted, if_pos hv, s1]
    rw [gem_setFormatted_of_ne (by simp)] at s2
    exact s2
  · intro j l g p hj
    refine ⟨f (l, g, p), sdText K (f (l, g, p)), by simp [hj], by simp [hj], (hf _ (List.mem_of_getElem? hj)).2, ?_⟩
    intro i hi'
    rw [sdText_alpha hK hi', sdText_beta hK hi']
    simp [mem_occSet]
  · rw [gem_setGeminals_of_ne (by simp)]; exact s4
  · rw [GemTable.setGeminals, if_pos rfl, s3]; exact s4
  · rw [gem_setGeminals_of_ne (by simp [hv])]
    simp [GemTable.setGeminalsTail, hv]
  · rw [gem_setFormatted_of_ne (by simp)]; rfl

theorem getElem?_flatten_uniform {α : Type} {n : ℕ} : ∀ (rows : List (List α)), (∀ r ∈ rows, r.length = n) →
    ∀ (g p : ℕ), p < n → rows.flatten[g * n + p]? = rows[g]?.bind (fun r => r[p]?) := by
  intro rows
  induction rows with
  | nil => intro _ g p _; simp
  | cons r rows ih =>
    intro h g p hp
    have hr := h r (by simp)
    cases g with
    | zero =>
      rw [List.flatten_cons, List.getElem?_append_left (by omega)]; simp
    | succ g =>
      rw [List.flatten_cons, List.getElem?_append_right (by rw [hr]; nlinarith)]
      have : (g + 1) * n + p - r.length = g * n + p := by rw [hr, Nat.succ_mul]; omega
      rw [this, ih (fun r h' => h r (by simp [h'])) g p hp]
      simp

/-- **C104.**  A geminal wavefunction with a matrix of coefficients gives a table with a row for each geminal and pair of
orbitals, which holds the coefficient of the pair in the geminal. -/
theorem C104_of_wfn (w : GemWfn R) (rows : List (List R)) (hp : w.params = .mat rows)
    (hl : rows.length = (w.refPairs.map List.length).getD w.ngem) (hr : ∀ r ∈ rows, r.length = w.orbpairs.length)
    (label : Option String) :
    ∃ (t : GemTable R) (vals : List (Option R)), GemTable.ofWfn w label = .ok t ∧ t.view = .geminals ∧
      t.nspatial = some w.nspatial ∧ t.nspin = some w.nspin ∧ t.refSd = some (w.refSd.getD none) ∧
      t.columns = [((if label = none ∨ label = some "" then w.cls else label.getD ""), vals)] ∧
      t.index.length = rows.length * w.orbpairs.length ∧ vals.length = t.index.length ∧
      ∀ (g p : ℕ), g < rows.length → p < w.orbpairs.length → ∃ row x,
        rows[g]? = some row ∧ row[p]? = some x ∧ vals[g * w.orbpairs.length + p]? = some (some x) ∧
        ∃ pair, w.orbpairs[p]? = some pair ∧
        t.index[g * w.orbpairs.length + p]? = some
          ((match w.refPairs with | none => Label.int g | some ps => opLabel (ps.getD g [])), opLabel pair) := by
  have hn : labelOr label w.cls = (if label = none ∨ label = some "" then w.cls else label.getD "") := by
    cases label with
    | none => simp [labelOr]
    | some s => by_cases hs : s = "" <;> simp [labelOr, hs]
  have hgl : w.geminals.length = rows.length := by
    rw [hl, GemWfn.geminals]
    rcases w.refPairs with _ | ps <;> simp
  have hflat : rows.flatten.length = rows.length * w.orbpairs.length := by
    clear hl hgl hp
    induction rows with
    | nil => simp
    | cons r rows ih =>
      rw [List.flatten_cons, List.length_append, hr r (by simp), ih (fun r h => hr r (by simp [h])),
        List.length_cons, Nat.succ_mul, Nat.add_comm]
  have hrows : w.rows.length = rows.length * w.orbpairs.length := by
    rw [GemWfn.rows, List.length_flatMap]
    simp [List.map_const', hgl]
  have hlen : w.params.ravel.length = w.rows.length := by
    rw [hp, hrows]; exact hflat
  refine ⟨_, w.params.ravel.map some, by rw [GemTable.ofWfn, if_neg (by simpa using hlen)], rfl, rfl, rfl, rfl,
    by rw [hn], hrows, by simpa using hlen, ?_⟩
  intro g p hg hpl
  have hrl := hr rows[g] (List.getElem_mem hg)
  refine ⟨rows[g], rows[g][p]'(by omega), by simp [hg], by simp [hrl, hpl], ?_, w.orbpairs[p], by simp [hpl], ?_⟩
  · have := getElem?_flatten_uniform rows hr g p hpl
    rw [hp]
    simp only [GemParams.ravel, List.getElem?_map]
    rw [this]
    simp [hg, hrl, hpl]
  · simp only [GemWfn.rows]
    have := getElem?_flatten_uniform (w.geminals.map (fun g => w.orbpairs.map (fun p => (g, opLabel p))))
      (n := w.orbpairs.length) (by
        intro r hr'
        obtain ⟨x, _, rfl⟩ := List.mem_map.1 hr'
        simp) g p hpl
    rw [List.flatMap_def, this]
    have hg' : g < w.geminals.length := by omega
    have hgem : w.geminals[g]? = some (match w.refPairs with
        | none => Label.int g | some ps => opLabel (ps.getD g [])) := by
      rw [GemWfn.geminals] at hg' ⊢
      rcases hps : w.refPairs with _ | ps
      · rw [hps] at hg'
        have : g < w.ngem := by simpa using hg'
        simp [this]
      · rw [hps] at hg'
        have : g < ps.length := by simpa using hg'
        simp [this]
    simp only [List.getElem?_map, hgem, List.getElem?_eq_getElem hpl, Option.map_some, Option.bind_some]

/-- **C104 (disagreement).**  `add_wfn_to_dataframe` never accepts a matrix of coefficients: the parameters are not
flattened there, as they are in the constructor, and pandas refuses a matrix. -/
theorem C104_add_disagrees (w : GemWfn R) (rows : List (List R)) (hp : w.params = .mat rows) :
    GemTable.addWfnSeries w = .error .valueError := by
  simp [GemTable.addWfnSeries, hp]

/-- **C104 (disagreement).**  The rank-two wavefunctions keep a vector of one number for each geminal and two for each
pair instead of a matrix, so the constructor and `add_wfn_to_dataframe` raise `ValueError` except where the two sizes
agree by accident, as for three geminals and three pairs; there the table shows numbers that are not coefficients of the
pairs. -/
theorem C104_rank_two_disagrees (w : GemWfn R) (l : List R) (hp : w.params = .vec l) (hr : w.refPairs = none)
    (hl : l.length = w.ngem + 2 * w.orbpairs.length) (label : Option String) :
    (w.ngem * w.orbpairs.length ≠ w.ngem + 2 * w.orbpairs.length →
      GemTable.ofWfn w label = .error .valueError ∧ GemTable.addWfnSeries w = .error .valueError) ∧
    (w.ngem = 3 → w.orbpairs.length = 3 → ∃ t, GemTable.ofWfn w label = .ok t ∧
      ∃ name, t.columns = [(name, l.map some)]) := by
  have hrows : w.rows.length = w.ngem * w.orbpairs.length := by
    rw [GemWfn.rows, List.length_flatMap]
    have : w.geminals.length = w.ngem := by simp [GemWfn.geminals, hr]
    simp [List.map_const', this]
  constructor
  · intro h
    have hne : l.length ≠ w.rows.length := by rw [hl, hrows]; exact Ne.symm h
    constructor
    · rw [GemTable.ofWfn, if_pos]; rw [hp]; exact hne
    · simp only [GemTable.addWfnSeries, hp]; rw [if_pos hne]
  · intro h3 h3'
    have he : l.length = w.rows.length := by rw [hl, hrows, h3, h3']
    refine ⟨_, by rw [GemTable.ofWfn, if_neg (by rw [hp]; exact not_not.2 he)], labelOr label w.cls, ?_⟩
    simp [hp, GemParams.ravel]

/-- **C104 (disagreement).**  A table made without a wavefunction has no attribute for the reference determinant, so
saving it raises `AttributeError`. -/
theorem C104_empty_disagrees : (GemTable.empty : GemTable R).metadataRefSd = .error .attributeError := rfl

/-- The errors of the three methods: missing information, or an unknown view. -/
theorem C104_errors (t : GemTable R) :
    (t.view = .geminals → t.nspin = none ∨ t.nspatial = none →
      t.setSds = .error .valueError ∧ t.setFormatted = .error .valueError) ∧
    (t.view = .determinants → t.nspatial = none → t.setFormatted = .error .valueError) ∧
    (t.view = .determinants → t.nspatial = none → (∃ ref, t.refSd = some (some ref)) → t.index ≠ [] →
      t.setGeminals = .error .valueError) ∧
    (t.view = .other → t.setSds = .error .valueError ∧ t.setFormatted = .error .valueError ∧
      t.setGeminals = .error .valueError) := by
  refine ⟨fun h1 h2 => ?_, fun h1 h2 => ?_, fun h1 h2 h3 h4 => ?_, fun h1 => ?_⟩
  · have : t.setSds = .error .valueError := by
      simp only [GemTable.setSds, h1]
      rcases h2 with h2 | h2
      · rw [h2]
      · rw [h2]; cases t.nspin <;> rfl
    refine ⟨this, ?_⟩
    rw [GemTable.setFormatted, if_pos h1, this]; rfl
  · rw [gem_setFormatted_of_ne (by simp [h1])]
    simp [GemTable.setFormattedTail, h1, h2]
  · obtain ⟨ref, h3⟩ := h3
    rw [gem_setGeminals_of_ne (by simp [h1])]
    simp only [GemTable.setGeminalsTail, h1, h2, h3]
    rw [mapM_error_of_mem (e := .valueError)]
    · rfl
    · intro a _; left; rfl
    · obtain ⟨a, ha⟩ := List.exists_mem_of_ne_nil _ h4
      exact ⟨a, ha, rfl⟩
  · refine ⟨by simp [GemTable.setSds, h1], ?_, ?_⟩
    · rw [gem_setFormatted_of_ne (by simp [h1])]; simp [GemTable.setFormattedTail, h1]
    · rw [gem_setGeminals_of_ne (by simp [h1])]; simp [GemTable.setGeminalsTail, h1]

/-- A concrete case: AP1roG of two electrons in three spatial orbitals. -/
example :
    (do
      let t ← GemTable.ofWfn (R := ℤ)
        ⟨[[1, 4], [2, 5]], .mat [[7, 8]], 1, 3, 6, some (some 0b001001), some [[0, 3]], "AP1roG"⟩ none
      let d ← t.setSds
      let f ← d.setFormatted
      let o ← f.setGeminals
      return (d.index.map Prod.snd,
        f.index.map (fun l => match l.2 with | .str s => String.ofList s | .int _ => "int"),
        decide (o.index = t.index))) =
    (Except.ok ([.int 0b010010, .int 0b100100], ["010 010", "001 001"], true)
      : Except PyErr (List Label × List String × Bool)) := by decide +kernel

end Fanpy.Props
