import Verif.Model.Tables
import Verif.Lemmas.TablesCC
import Verif.Props.TablesCI

/-! C103: tables of the amplitudes of coupled cluster wavefunctions. -/

namespace Fanpy.Props
open Fanpy.Tables Fanpy.Text Fanpy.Spec

variable {R : Type}

/-- **C103.**  A coupled cluster wavefunction gives a table with one row for each excitation operator, labelled by the
indices of the operator, and different operators have different labels. -/
theorem C103_of_wfn (exops : List (List ℕ)) (params : List R) (hl : params.length = exops.length) (hd : exops.Nodup)
    (K : ℤ) (ref : ℕ) (cls : String) (label : Option String) :
    ∃ t : CCTable R, CCTable.ofWfn exops params K ref cls label = .ok t ∧ t.view = .operators ∧
      t.nspatial = some K ∧ t.reference = some ref ∧ t.index.Nodup ∧
      (∀ (j : ℕ) (op : List ℕ), exops[j]? = some op →
        ∃ s, t.index[j]? = some (.str s) ∧ (splitSp s).mapM (parseInt 10) = .ok op) ∧
      t.columns = [((if label = none ∨ label = some "" then cls else label.getD ""), params.map some)] := by
  have hn : labelOr label cls = (if label = none ∨ label = some "" then cls else label.getD "") := by
    cases label with
    | none => simp [labelOr]
    | some s => by_cases hs : s = "" <;> simp [labelOr, hs]
  refine ⟨_, by rw [CCTable.ofWfn, if_neg (by simpa using hl)], rfl, rfl, rfl,
    hd.map (fun a b h => opLabel_injective h), ?_, by rw [hn]⟩
  intro j op hj
  exact ⟨_, by simp [hj, opLabel], mapM_parse_joined op⟩

theorem cc_setFormatted_of_ne {t : CCTable R} (h : t.view ≠ .operators) : t.setFormatted = t.setFormattedTail := by
  rw [CCTable.setFormatted, if_neg h]; rfl

theorem cc_setOperators_of_ne {t : CCTable R} (h : t.view ≠ .formatted) : t.setOperators = t.setOperatorsTail := by
  rw [CCTable.setOperators, if_neg h]; rfl

/-- one list of operators to determinants -/
theorem mapM_opToSd {ref K : ℕ} (hK : 0 < K) (hr : ref < 2 ^ (2 * K)) : ∀ (exops : List (List ℕ)),
    (∀ op ∈ exops, OpValid ref K (op.take (op.length / 2)) (op.drop (op.length / 2))) →
    ∃ sds : List ℕ, (exops.map opLabel).mapM (opToSd ref K) = .ok (sds.map .int) ∧ sds.length = exops.length ∧
      ∀ (j : ℕ) (op : List ℕ), exops[j]? = some op → ∃ sd, sds[j]? = some sd ∧ sd < 2 ^ (2 * K) ∧
        ∀ i, sd.testBit i =
          decide (i ∈ op.drop (op.length / 2) ∨ (ref.testBit i = true ∧ i ∉ op.take (op.length / 2))) := by
  intro exops
  induction exops with
  | nil => intro _; exact ⟨[], rfl, rfl, by simp⟩
  | cons op exops ih =>
    intro hv
    obtain ⟨sds, h1, h2, h3⟩ := ih (fun op h => hv op (by simp [h]))
    obtain ⟨sd, h4, h5, h6⟩ := opToSd_ok hK hr op (hv op (by simp))
    refine ⟨sd :: sds, ?_, by simp [h2], ?_⟩
    · rw [List.map_cons, List.mapM_cons, h4, h1]; rfl
    · intro j op' hj
      cases j with
      | zero =>
        simp only [List.getElem?_cons_zero, Option.some.injEq] at hj
        subst hj
        exact ⟨sd, by simp, h5, h6⟩
      | succ j => simpa using h3 j op' (by simpa using hj)

/-- **C103.**  `set_sds_as_index` on a table of operators succeeds exactly if in every operator the first half of the
indices are different occupied orbitals of the reference and the second half are different orbitals that are empty once
the first half is removed; then each label is the determinant made by removing the first half from the reference and
adding the second half, and nothing else of the table changes. -/
theorem C103_to_determinants (t : CCTable R) (K ref : ℕ) (hK : 0 < K) (hr : ref < 2 ^ (2 * K))
    (hn : t.nspatial = some (K : ℤ)) (href : t.reference = some ref) (hv : t.view = .operators)
    (exops : List (List ℕ)) (hi : t.index = exops.map opLabel) :
    ((∃ t', t.setSds = .ok t') ↔ ∀ op ∈ exops, ∀ a c, a ++ c = op → a.length = op.length / 2 →
      a.Nodup ∧ c.Nodup ∧ a.toFinset ⊆ occSet ref ∧ ∀ i ∈ c, i < 2 * K ∧ i ∉ occSet ref \ a.toFinset) ∧
    (∀ t', t.setSds = .ok t' → t'.view = .determinants ∧ t'.columns = t.columns ∧ t'.nspatial = t.nspatial ∧
      t'.reference = t.reference ∧ t'.index.length = exops.length ∧
      ∀ (j : ℕ) (a c : List ℕ), exops[j]? = some (a ++ c) → a.length = (a ++ c).length / 2 →
        ∃ sd, t'.index[j]? = some (.int sd) ∧ occSet sd = (occSet ref \ a.toFinset) ∪ c.toFinset) := by
  have hsplit : ∀ (op a c : List ℕ), a ++ c = op → a.length = op.length / 2 →
      op.take (op.length / 2) = a ∧ op.drop (op.length / 2) = c := by
    rintro op a c h hl
    rw [← hl, ← h]; simp
  have key : (∃ t', t.setSds = .ok t') ↔
      ∀ op ∈ exops, OpValid ref K (op.take (op.length / 2)) (op.drop (op.length / 2)) := by
    constructor
    · rintro ⟨t', h⟩ op hop
      simp only [CCTable.setSds, hv, href, hn, hi] at h
      by_contra hx
      rcases ho : opToSd ref K (opLabel op) with e | l
      · have : ∀ (l : List (List ℕ)), op ∈ l → ∀ x, (l.map opLabel).mapM (opToSd ref K) ≠ .ok x := by
          intro l
          induction l with
          | nil => intro h; simp at h
          | cons b l ih =>
            intro hm x hx
            rw [List.map_cons, List.mapM_cons] at hx
            rcases hb : opToSd ref K (opLabel b) with e' | y
            · rw [hb] at hx; cases hx
            · rw [hb] at hx
              rcases List.mem_cons.1 hm with rfl | hm
              · rw [ho] at hb; cases hb
              · change (List.mapM (opToSd ref K) (l.map opLabel) >>= _) = _ at hx
                rcases hl : List.mapM (opToSd ref K) (l.map opLabel) with e' | z
                · rw [hl] at hx; cases hx
                · exact ih hm z hl
        rcases hm : (exops.map opLabel).mapM (opToSd ref K) with e' | z
        · rw [hm] at h; cases h
        · exact this exops hop z hm
      · exact hx (opToSd_valid hK hr op ho)
    · intro h
      obtain ⟨sds, h1, _⟩ := mapM_opToSd hK hr exops h
      refine ⟨{ t with index := sds.map .int, view := .determinants }, ?_⟩
      simp only [CCTable.setSds, hv, href, hn, hi]
      rw [h1]; rfl
  have hvalid : ∀ op : List ℕ, OpValid ref K (op.take (op.length / 2)) (op.drop (op.length / 2)) ↔
      ∀ a c, a ++ c = op → a.length = op.length / 2 →
      a.Nodup ∧ c.Nodup ∧ a.toFinset ⊆ occSet ref ∧ ∀ i ∈ c, i < 2 * K ∧ i ∉ occSet ref \ a.toFinset := by
    intro op
    constructor
    · rintro ⟨h1, h2, h3, h4⟩ a c hac hl
      obtain ⟨e1, e2⟩ := hsplit op a c hac hl
      rw [e1] at h1 h3 h4
      rw [e2] at h2 h4
      refine ⟨h1, h2, ?_, ?_⟩
      · intro i hi'
        rw [mem_occSet]
        exact h3 i (by simpa using hi')
      · intro i hi'
        refine ⟨(h4 i hi').1, ?_⟩
        rw [Finset.mem_sdiff, mem_occSet, List.mem_toFinset]
        rintro ⟨x, y⟩
        exact y ((h4 i hi').2 x)
    · intro h
      obtain ⟨h1, h2, h3, h4⟩ := h _ _ (List.take_append_drop (op.length / 2) op)
        (by rw [List.length_take]; omega)
      refine ⟨h1, h2, ?_, ?_⟩
      · intro i hi'
        have := h3 (List.mem_toFinset.2 hi')
        rwa [mem_occSet] at this
      · intro i hi'
        refine ⟨(h4 i hi').1, fun hri => ?_⟩
        have := (h4 i hi').2
        rw [Finset.mem_sdiff, mem_occSet, List.mem_toFinset] at this
        by_contra hx
        exact this ⟨hri, hx⟩
  constructor
  · rw [key]
    exact forall₂_congr (fun op _ => hvalid op)
  · intro t' h
    have hall := key.1 ⟨t', h⟩
    obtain ⟨sds, h1, h2, h3⟩ := mapM_opToSd hK hr exops hall
    simp only [CCTable.setSds, hv, href, hn, hi] at h
    rw [h1] at h
    obtain rfl := Except.ok.inj h
    refine ⟨rfl, rfl, by simp [hn], by simp [href], by simp [h2], ?_⟩
    intro j a c hj hl
    obtain ⟨sd, hs1, _, hs2⟩ := h3 j _ hj
    obtain ⟨e1, e2⟩ := hsplit _ a c rfl hl
    refine ⟨sd, by simp [hs1], ?_⟩
    ext i
    rw [mem_occSet, hs2, e1, e2]
    simp only [decide_eq_true_eq, Finset.mem_union, Finset.mem_sdiff, mem_occSet, List.mem_toFinset]
    tauto

/-- An operator that cannot be applied is a `ValueError` as long as its indices are orbitals. -/
theorem C103_invalid_operator (t : CCTable R) (K ref : ℕ) (hK : 0 < K) (hr : ref < 2 ^ (2 * K))
    (hn : t.nspatial = some (K : ℤ)) (href : t.reference = some ref) (hv : t.view = .operators)
    (exops : List (List ℕ)) (hi : t.index = exops.map opLabel) (hop : ∀ op ∈ exops, ∀ i ∈ op, i < 2 * K) :
    (∃ t', t.setSds = .ok t') ∨ t.setSds = .error .valueError := by
  simp only [CCTable.setSds, hv, href, hn, hi]
  rcases hm : (exops.map opLabel).mapM (opToSd ref K) with e | new
  · right
    have : ∀ (l : List (List ℕ)), (∀ op ∈ l, ∀ i ∈ op, i < 2 * K) → ∀ e,
        (l.map opLabel).mapM (opToSd ref K) = .error e → e = .valueError := by
      intro l
      induction l with
      | nil => intro _ e h; cases h
      | cons b l ih =>
        intro hb e h
        rw [List.map_cons, List.mapM_cons] at h
        rcases hb' : opToSd ref K (opLabel b) with e' | y
        · rw [hb'] at h
          obtain rfl : e' = e := by injection h
          exact opToSd_error hK hr b (hb b (by simp)) hb'
        · rw [hb'] at h
          change (List.mapM (opToSd ref K) (l.map opLabel) >>= _) = _ at h
          rcases hl : List.mapM (opToSd ref K) (l.map opLabel) with e' | z
          · rw [hl] at h
            obtain rfl : e' = e := by injection h
            exact ih (fun op h => hb op (by simp [h])) _ hl
          · rw [hl] at h; cases h
    rw [this exops hop e hm]; rfl
  · left; exact ⟨_, rfl⟩

/-- the label of the determinant of a sorted operator -/
theorem sdToOp_of_sorted {ref K sd : ℕ} {a c : List ℕ} (ha : a.Pairwise (· < ·)) (hc : c.Pairwise (· < ·))
    (hao : ∀ i ∈ a, ref.testBit i = true) (hcv : ∀ i ∈ c, i < 2 * K ∧ ref.testBit i = false)
    (hr : ref < 2 ^ (2 * K))
    (hb : ∀ i, sd.testBit i = decide (i ∈ c ∨ (ref.testBit i = true ∧ i ∉ a))) :
    sdToOp ref K (.int sd) = .ok (opLabel (a ++ c)) := by
  rw [sdToOp_int]
  have hs : ∀ p : ℕ → Bool, ((List.range (2 * K)).filter p).Pairwise (· < ·) :=
    fun p => List.pairwise_lt_range.filter _
  congr 3
  · apply Slater.sorted_lt_ext (hs _) ha
    intro i
    rw [List.mem_filter, List.mem_range, hb]
    constructor
    · rintro ⟨_, h⟩
      simp only [Bool.and_eq_true, Bool.not_eq_true', decide_eq_false_iff_not, not_or, not_and, not_not] at h
      exact h.2.2 h.1
    · intro hi
      have h1 := hao i hi
      have h2 : i ∉ c := fun h => by rw [(hcv i h).2] at h1; cases h1
      exact ⟨lt_of_testBit h1 hr, by simp [h1, h2, hi]⟩
  · apply Slater.sorted_lt_ext (hs _) hc
    intro i
    rw [List.mem_filter, List.mem_range, hb]
    constructor
    · rintro ⟨_, h⟩
      simp only [Bool.and_eq_true, Bool.not_eq_true', decide_eq_true_eq] at h
      rcases h.2 with h' | h'
      · exact h'
      · rw [h.1] at h'; cases h'.1
    · intro hi
      obtain ⟨h1, h2⟩ := hcv i hi
      exact ⟨h1, by simp [h2, hi]⟩

/-- **C103.**  If in every operator the annihilated orbitals are occupied in the reference, the created ones are not, and
each half is in increasing order, then the three kinds of labels are interchangeable: from any of them every method leads
to the same table, with the same data. -/
theorem C103_roundtrip (t : CCTable R) (K ref : ℕ) (hK : 0 < K) (hr : ref < 2 ^ (2 * K))
    (hn : t.nspatial = some (K : ℤ)) (href : t.reference = some ref) (hv : t.view = .operators)
    (exops : List (List ℕ × List ℕ)) (hi : t.index = exops.map (fun p => opLabel (p.1 ++ p.2)))
    (hex : ∀ p ∈ exops, p.1.length = p.2.length ∧ p.1.Pairwise (· < ·) ∧ p.2.Pairwise (· < ·) ∧
      p.1.toFinset ⊆ occSet ref ∧ ∀ i ∈ p.2, i < 2 * K ∧ i ∉ occSet ref) :
    ∃ td tf : CCTable R, t.setSds = .ok td ∧ t.setFormatted = .ok tf ∧ td.columns = t.columns ∧
      tf.columns = t.columns ∧ td.view = .determinants ∧ tf.view = .formatted ∧
      td.setFormatted = .ok tf ∧ tf.setSds = .ok td ∧ td.setOperators = .ok t ∧ tf.setOperators = .ok t ∧
      t.setOperators = .ok t ∧ td.setSds = .ok td ∧ tf.setFormatted = .ok tf := by
  have hsp : ∀ p ∈ exops, (p.1 ++ p.2).take ((p.1 ++ p.2).length / 2) = p.1 ∧
      (p.1 ++ p.2).drop ((p.1 ++ p.2).length / 2) = p.2 := by
    intro p hp
    have : (p.1 ++ p.2).length / 2 = p.1.length := by
      rw [List.length_append, ← (hex p hp).1]; omega
    rw [this]; simp
  have hnd : ∀ {l : List ℕ}, l.Pairwise (· < ·) → l.Nodup := fun h => h.imp (fun h => ne_of_lt h)
  have hao : ∀ p ∈ exops, ∀ i ∈ p.1, ref.testBit i = true := by
    intro p hp i hi'
    have := (hex p hp).2.2.2.1 (List.mem_toFinset.2 hi')
    rwa [mem_occSet] at this
  have hcv : ∀ p ∈ exops, ∀ i ∈ p.2, i < 2 * K ∧ ref.testBit i = false := by
    intro p hp i hi'
    obtain ⟨h1, h2⟩ := (hex p hp).2.2.2.2 i hi'
    rw [mem_occSet] at h2
    exact ⟨h1, by simpa using h2⟩
  obtain ⟨sds, h1, h2, h3⟩ := mapM_opToSd hK hr (exops.map (fun p => p.1 ++ p.2)) (by
    intro op hop
    obtain ⟨p, hp, rfl⟩ := List.mem_map.1 hop
    obtain ⟨e1, e2⟩ := hsp p hp
    rw [e1, e2]
    refine ⟨hnd (hex p hp).2.1, hnd (hex p hp).2.2.1, hao p hp, fun i hi' => ⟨(hcv p hp i hi').1, fun h => ?_⟩⟩
    rw [(hcv p hp i hi').2] at h; cases h)
  have hix : t.index = (exops.map (fun p => p.1 ++ p.2)).map opLabel := by
    rw [hi, List.map_map]; rfl
  rw [← hix] at h1
  have hback : (sds.map Label.int).mapM (sdToOp ref K) = .ok t.index := by
    have hlen : sds.length = exops.length := by simpa using h2
    have : ∀ (e : List (List ℕ × List ℕ)) (s : List ℕ), s.length = e.length → (∀ p ∈ e, p ∈ exops) →
        (∀ (j : ℕ) p, e[j]? = some p → ∃ sd, s[j]? = some sd ∧
          ∀ i, sd.testBit i = decide (i ∈ p.2 ∨ (ref.testBit i = true ∧ i ∉ p.1))) →
        (s.map Label.int).mapM (sdToOp ref K) = .ok (e.map (fun p => opLabel (p.1 ++ p.2))) := by
      intro e
      induction e with
      | nil =>
        intro s hs _ _
        have : s = [] := by simpa using hs
        subst this; rfl
      | cons p e ih =>
        intro s hs hm hb
        rcases s with _ | ⟨x, s⟩
        · simp at hs
        · obtain ⟨sd, hsd, hbit⟩ := hb 0 p rfl
          simp only [List.getElem?_cons_zero, Option.some.injEq] at hsd
          subst hsd
          have hp := hm p (by simp)
          rw [List.map_cons, List.mapM_cons,
            sdToOp_of_sorted (hex p hp).2.1 (hex p hp).2.2.1 (hao p hp) (hcv p hp) hr hbit,
            ih s (by simpa using hs) (fun q hq => hm q (by simp [hq])) (fun j q hq => by
              simpa using hb (j + 1) q (by simpa using hq))]
          rfl
    rw [hi]
    refine this exops sds hlen (fun p h => h) ?_
    intro j p hj
    have hp : p ∈ exops := List.mem_of_getElem? hj
    obtain ⟨sd, hs, _, hb⟩ := h3 j (p.1 ++ p.2) (by simp [hj])
    obtain ⟨e1, e2⟩ := hsp p hp
    rw [e1, e2] at hb
    exact ⟨sd, hs, hb⟩
  have hf : (sds.map Label.int).mapM (fmtLabel K) = .ok (sds.map (fun sd => .str (sdText K sd))) :=
    mapM_map_ok sds (fun sd _ => fmtLabel_int hK sd)
  have hu : (sds.map (fun sd => Label.str (sdText K sd))).mapM unfmtLabel = .ok (sds.map .int) :=
    mapM_map_ok sds (fun sd _ => unfmtLabel_sdText K hK sd)
  have s1 : t.setSds = .ok { t with index := sds.map .int, view := .determinants } := by
    simp only [CCTable.setSds, hv, href, hn]
    rw [h1]; rfl
  have s2 : ({ t with index := sds.map .int, view := .determinants } : CCTable R).setFormatted =
      .ok { t with index := sds.map (fun sd => .str (sdText K sd)), view := .formatted } := by
    rw [cc_setFormatted_of_ne (by simp)]
    simp only [CCTable.setFormattedTail, hn]
    rw [hf]; rfl
  have s3 : ({ t with index := sds.map (fun sd => .str (sdText K sd)), view := .formatted } : CCTable R).setSds =
      .ok { t with index := sds.map .int, view := .determinants } := by
    simp only [CCTable.setSds]
    rw [hu]; rfl
  have s4 : ({ t with index := sds.map .int, view := .determinants } : CCTable R).setOperatorsTail = .ok t := by
    simp only [CCTable.setOperatorsTail, href, hn]
    rw [hback]
    obtain ⟨⟨idx, cols⟩, ns, rf, v⟩ := t
    simp only at hv hn href ⊢
    subst hv hn href
    rfl
  refine ⟨{ t with index := sds.map .int, view := .determinants },
    { t with index := sds.map (fun sd => .str (sdText K sd)), view := .formatted },
    s1, ?_, rfl, rfl, rfl, rfl, s2, s3, ?_, ?_, ?_, rfl, ?_⟩
  · rw [CCTable.setFormatted, if_pos hv, s1]
    rw [cc_setFormatted_of_ne (by simp)] at s2
    exact s2
  · rw [cc_setOperators_of_ne (by simp)]
    exact s4
  · rw [CCTable.setOperators, if_pos rfl, s3]
    exact s4
  · rw [cc_setOperators_of_ne (by simp [hv])]
    simp [CCTable.setOperatorsTail, hv]
  · rw [cc_setFormatted_of_ne (by simp)]; rfl

/-- **C103.**  Conversely, the determinants of a table that have as many electrons as the reference survive the change to
operators and back. -/
theorem C103_roundtrip_determinants (t : CCTable R) (K ref : ℕ) (hK : 0 < K) (hr : ref < 2 ^ (2 * K))
    (hn : t.nspatial = some (K : ℤ)) (href : t.reference = some ref) (hv : t.view = .determinants)
    (sds : List ℕ) (hi : t.index = sds.map .int)
    (hsd : ∀ sd ∈ sds, sd < 2 ^ (2 * K) ∧ (occSet sd).card = (occSet ref).card) :
    ∃ t', t.setOperators = .ok t' ∧ t'.view = .operators ∧ t'.columns = t.columns ∧ t'.setSds = .ok t := by
  set lab : ℕ → List ℕ := fun sd => (List.range (2 * K)).filter (fun i => ref.testBit i && !sd.testBit i) ++
        (List.range (2 * K)).filter (fun i => !ref.testBit i && sd.testBit i) with hlab
  have h1 : t.index.mapM (sdToOp ref K) = .ok (sds.map (fun sd => opLabel (lab sd))) := by
    rw [hi]; exact mapM_map_ok sds (fun sd _ => sdToOp_int ref sd K)
  have h2 : (sds.map (fun sd => opLabel (lab sd))).mapM (opToSd ref K) = .ok (sds.map .int) := by
    refine mapM_map_ok sds (fun sd hm => ?_)
    obtain ⟨hlt, hcard⟩ := hsd sd hm
    set a := (List.range (2 * K)).filter (fun i => ref.testBit i && !sd.testBit i) with hA
    set c := (List.range (2 * K)).filter (fun i => !ref.testBit i && sd.testBit i) with hC
    have hnodup : ∀ p : ℕ → Bool, ((List.range (2 * K)).filter p).Nodup := fun p => List.nodup_range.filter _
    have haf : a.toFinset = occSet ref \ occSet sd := by
      ext i
      simp only [hA, List.mem_toFinset, List.mem_filter, List.mem_range, Finset.mem_sdiff, mem_occSet,
        Bool.and_eq_true, Bool.not_eq_true']
      constructor
      · rintro ⟨_, h, h'⟩; exact ⟨h, by simp [h']⟩
      · rintro ⟨h, h'⟩; exact ⟨lt_of_testBit h hr, h, by simpa using h'⟩
    have hcf : c.toFinset = occSet sd \ occSet ref := by
      ext i
      simp only [hC, List.mem_toFinset, List.mem_filter, List.mem_range, Finset.mem_sdiff, mem_occSet,
        Bool.and_eq_true, Bool.not_eq_true']
      constructor
      · rintro ⟨_, h, h'⟩; exact ⟨h', by simp [h]⟩
      · rintro ⟨h, h'⟩; exact ⟨lt_of_testBit h hlt, by simpa using h', h⟩
    have hlen : a.length = c.length := by
      rw [← List.toFinset_card_of_nodup (hnodup _), ← List.toFinset_card_of_nodup (hnodup _)]
      change a.toFinset.card = c.toFinset.card
      rw [haf, hcf]
      have e1 := Finset.card_sdiff_add_card_inter (occSet ref) (occSet sd)
      have e2 := Finset.card_sdiff_add_card_inter (occSet sd) (occSet ref)
      rw [Finset.inter_comm] at e2
      omega
    have hmid : (lab sd).length / 2 = a.length := by
      change (a ++ c).length / 2 = _
      rw [List.length_append]; omega
    have etake : (lab sd).take ((lab sd).length / 2) = a := by rw [hmid]; simp [hlab, hA]
    have edrop : (lab sd).drop ((lab sd).length / 2) = c := by rw [hmid]; simp [hlab, hA, hC]
    have hma : ∀ i, i ∈ a ↔ ref.testBit i = true ∧ sd.testBit i = false := by
      intro i
      rw [← List.mem_toFinset, haf, Finset.mem_sdiff, mem_occSet, mem_occSet]; simp
    have hmc : ∀ i, i ∈ c ↔ sd.testBit i = true ∧ ref.testBit i = false := by
      intro i
      rw [← List.mem_toFinset, hcf, Finset.mem_sdiff, mem_occSet, mem_occSet]; simp
    obtain ⟨sd', h, _, hb⟩ := opToSd_ok hK hr (lab sd) (by
      rw [etake, edrop]
      refine ⟨hnodup _, hnodup _, fun i hi' => ((hma i).1 hi').1, fun i hi' => ?_⟩
      obtain ⟨x, y⟩ := (hmc i).1 hi'
      exact ⟨lt_of_testBit x hlt, fun h => by rw [y] at h; cases h⟩)
    rw [h]
    congr 2
    apply Nat.eq_of_testBit_eq
    intro i
    rw [hb, etake, edrop]
    have e1 := hma i
    have e2 := hmc i
    by_cases x1 : i ∈ a <;> by_cases x2 : i ∈ c <;> simp only [x1, x2] <;> simp only [x1, x2] at e1 e2 <;>
      revert e1 e2 <;> cases ref.testBit i <;> cases sd.testBit i <;> simp
  refine ⟨{ t with index := sds.map (fun sd => opLabel (lab sd)), view := .operators }, ?_, rfl, rfl, ?_⟩
  · rw [cc_setOperators_of_ne (by simp [hv])]
    simp only [CCTable.setOperatorsTail, hv, href, hn]
    rw [h1]; rfl
  · simp only [CCTable.setSds, href, hn]
    rw [h2]
    obtain ⟨⟨idx, cols⟩, ns, rf, v⟩ := t
    simp only at hv hn href hi ⊢
    subst hv hn href hi
    rfl

/-- **C103.**  Adding a coupled cluster wavefunction to a table of operators. -/
theorem C103_add (union : List Label → List Label → List Label) (hu : ∀ a b, ∀ l, l ∈ union a b ↔ l ∈ a ∨ l ∈ b)
    (t : CCTable R) (ht : t.index.Nodup) (exops : List (List ℕ)) (hd : exops.Nodup) (params : List R)
    (hl : params.length = exops.length) (K : ℤ) (ref : ℕ) (cls : String) (label : Option String) :
    ∃ t' : CCTable R, t.addWfn union exops params K ref cls label = .ok t' ∧ t'.view = t.view ∧
      (t'.nspatial, t'.reference) =
        (if t.nspatial = none ∨ t.reference = none then (some K, some ref) else (t.nspatial, t.reference)) ∧
      (∀ l, l ∈ t'.index ↔ l ∈ t.index ∨ ∃ op ∈ exops, l = opLabel op) ∧
      ∀ name, name = (if label = none ∨ label = some "" then cls else label.getD "") →
        (∀ c l, c ≠ name → tableCell t'.toFrame l c = tableCell t.toFrame l c) ∧
        (∀ (i : ℕ) (op : List ℕ), exops[i]? = some op → tableCell t'.toFrame (opLabel op) name = params[i]?) ∧
        (∀ l, (∀ op ∈ exops, l ≠ opLabel op) → tableCell t'.toFrame l name = none) := by
  have hn : labelOr label cls = (if label = none ∨ label = some "" then cls else label.getD "") := by
    cases label with
    | none => simp [labelOr]
    | some s => by_cases hs : s = "" <;> simp [labelOr, hs]
  have hdm : (exops.map opLabel).Nodup := hd.map (fun a b h => opLabel_injective h)
  obtain ⟨g, hg, hgi, h1, h2, h3⟩ := addSeries_ok union hu t.toFrame ht (exops.map opLabel) hdm params
    (by simpa using hl) (labelOr label cls)
  have hrest : (∀ l, l ∈ g.index ↔ l ∈ t.index ∨ ∃ op ∈ exops, l = opLabel op) ∧
      ∀ name, name = (if label = none ∨ label = some "" then cls else label.getD "") →
        (∀ c l, c ≠ name → tableCell g l c = tableCell t.toFrame l c) ∧
        (∀ (i : ℕ) (op : List ℕ), exops[i]? = some op → tableCell g (opLabel op) name = params[i]?) ∧
        (∀ l, (∀ op ∈ exops, l ≠ opLabel op) → tableCell g l name = none) := by
    refine ⟨?_, ?_⟩
    · intro l
      rw [hgi, hu]
      simp only [List.mem_map, eq_comm]
    · rintro name hname
      rw [hn, ← hname] at h1 h2 h3
      refine ⟨h1, fun i op hi => h2 i _ (by simp [hi]), fun l hl' => h3 l ?_⟩
      simp only [List.mem_map, not_exists, not_and]
      rintro op hop rfl
      exact hl' op hop rfl
  by_cases hc : t.nspatial = none ∨ t.reference = none
  · refine ⟨{ toFrame := g, nspatial := some K, reference := some ref, view := t.view }, ?_, rfl, ?_, hrest⟩
    · rw [CCTable.addWfn, hg]
      change (if t.nspatial = none ∨ t.reference = none then _ else _) = _
      rw [if_pos hc]; rfl
    · rw [if_pos hc]
  · refine ⟨{ toFrame := g, nspatial := t.nspatial, reference := t.reference, view := t.view }, ?_, rfl, ?_, hrest⟩
    · rw [CCTable.addWfn, hg]
      change (if t.nspatial = none ∨ t.reference = none then _ else _) = _
      rw [if_neg hc]; rfl
    · rw [if_neg hc]

/-- The errors of the three methods on a table without information or with an unknown view. -/
theorem C103_errors (t : CCTable R) :
    (t.view = .operators → t.reference = none ∨ t.nspatial = none →
      t.setSds = .error .valueError ∧ t.setFormatted = .error .valueError) ∧
    (t.view = .determinants → t.nspatial = none → t.setFormatted = .error .valueError) ∧
    (t.view = .determinants → t.reference = none → t.setOperators = .error .valueError) ∧
    (t.view = .other → t.setSds = .error .valueError ∧ t.setFormatted = .error .valueError ∧
      t.setOperators = .error .valueError) := by
  refine ⟨fun h1 h2 => ?_, fun h1 h2 => ?_, fun h1 h2 => ?_, fun h1 => ?_⟩
  · have : t.setSds = .error .valueError := by
      simp only [CCTable.setSds, h1]
      rcases h2 with h2 | h2
      · rw [h2]
      · rw [h2]; cases t.reference <;> rfl
    refine ⟨this, ?_⟩
    rw [CCTable.setFormatted, if_pos h1, this]; rfl
  · rw [cc_setFormatted_of_ne (by simp [h1])]
    simp [CCTable.setFormattedTail, h1, h2]
  · rw [cc_setOperators_of_ne (by simp [h1])]
    simp [CCTable.setOperatorsTail, h1, h2]
  · refine ⟨by simp [CCTable.setSds, h1], ?_, ?_⟩
    · rw [cc_setFormatted_of_ne (by simp [h1])]
      simp [CCTable.setFormattedTail, h1]
    · rw [cc_setOperators_of_ne (by simp [h1])]
      simp [CCTable.setOperatorsTail, h1]

/-- what is visible of a table -/
def ccShow {R : Type} (x : Except PyErr (CCTable R)) : Except PyErr (List Label) := x.map (fun t => t.index)

/-- **C103 (disagreement).**  The label of an operator whose indices are not in increasing order does not survive the
round trip.  This happens for the default operators of `CCSDTQsen0` (wfn/cc/ccsdtq_sen0.py:174-191): the quadruple
excitation of four electrons in four spatial orbitals is `0 4 1 5 2 6 3 7`, and comes back as `0 1 4 5 2 3 6 7`.  Two
operators that differ in the order of the indices become the same row. -/
theorem C103_order_disagrees :
    ccShow (do
      let t ← CCTable.ofWfn [[0, 4, 1, 5, 2, 6, 3, 7]] [(1 : ℤ)] 4 0b00110011 "CCSDTQsen0" none
      let t ← t.setSds
      t.setOperators) = .ok [opLabel [0, 1, 4, 5, 2, 3, 6, 7]] ∧
    opLabel [0, 1, 4, 5, 2, 3, 6, 7] ≠ opLabel [0, 4, 1, 5, 2, 6, 3, 7] ∧
    ccShow (do
      let t ← CCTable.ofWfn [[0, 2, 1, 3], [2, 0, 1, 3]] [(1 : ℤ), 2] 2 0b0101 "BaseCC" none
      t.setSds) = .ok [.int 0b1010, .int 0b1010] := by
  refine ⟨by decide +kernel, ?_, by decide +kernel⟩
  intro h
  have := opLabel_injective h
  revert this; decide

/-- **C103 (disagreement).**  A determinant with another number of electrons than the reference is shown as an operator
that cannot be read back: `0001` against the reference `0011` is the operator `1`, which `set_sds_as_index` takes as the
creation of the occupied orbital 1. -/
theorem C103_electrons_disagrees :
    ∃ t t' : CCTable ℤ, t.view = .determinants ∧ t.index = [.int 0b0001] ∧ t.setOperators = .ok t' ∧
      t'.index = [opLabel [1]] ∧ t'.setSds = .error .valueError := by
  refine ⟨{ index := [.int 0b0001], columns := [], nspatial := some 2, reference := some 0b0011,
            view := .determinants },
    { index := [opLabel [1]], columns := [], nspatial := some 2, reference := some 0b0011, view := .operators },
    rfl, rfl, by rfl, rfl, by rfl⟩

/-- A concrete case of the round trip: the operators of two electrons in two spatial orbitals. -/
example :
    (do
      let t ← CCTable.ofWfn [[0, 1], [2, 3], [0, 2, 1, 3]] [(1 : ℤ), 2, 3] 2 0b0101 "BaseCC" none
      let d ← t.setSds
      let f ← d.setFormatted
      let o ← f.setOperators
      return (d.index, f.index.map (fun l => match l with | .str s => String.ofList s | .int _ => "int"),
        decide (o.index = t.index))) =
    (Except.ok ([.int 0b0110, .int 0b1001, .int 0b1010], ["01 10", "10 01", "01 01"], true)
      : Except PyErr (List Label × List String × Bool)) := by decide +kernel

end Fanpy.Props
