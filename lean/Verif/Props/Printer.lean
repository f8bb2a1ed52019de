import Verif.Model.Printer
import Verif.Lemmas.TablesCC
import Mathlib.Data.List.Pairwise

/-! C105: the printers of parameters. -/

namespace Fanpy.Props
open Fanpy.Printer Fanpy.Text Fanpy.Spec Fanpy.Slater Fanpy.Tables

variable {R : Type} [AddCommGroup R] [LinearOrder R] {α : Type}

/-- What a printer has to show of all rows: those whose parameter exceeds the threshold (all rows if there is no
threshold), largest absolute values first, rows of equal absolute values in their original order, and only the first
`max_print` of them (a negative number leaves out that many at the end). -/
structure Chosen (rows out : List (α × R)) (maxPrint : Option ℤ) (threshold : Option R) : Prop where
  sorted : out.Pairwise (fun a b => |b.2| ≤ |a.2|)
  largest : ∃ rest, (out ++ rest).Perm (rows.filter (fun r => decide (∀ t ∈ threshold, t < |r.2|))) ∧
    ∀ a ∈ out, ∀ b ∈ rest, |b.2| ≤ |a.2|
  number : ∀ n, n = (rows.filter (fun r => decide (∀ t ∈ threshold, t < |r.2|))).length →
    (maxPrint = none → out.length = n) ∧
    (∀ m : ℕ, maxPrint = some (m : ℤ) → out.length = min m n) ∧
    (∀ m : ℕ, 0 < m → maxPrint = some (-(m : ℤ)) → out.length = n - m)
  stable : ∀ v, out.filter (fun r => decide (|r.2| = v)) <+: rows.filter (fun r => decide (|r.2| = v))

theorem chosen_select (rows : List (α × R)) (maxPrint : Option ℤ) (threshold : Option R) :
    Chosen rows (select maxPrint threshold rows) maxPrint threshold := by
  set le : α × R → α × R → Bool := fun a b => decide (|b.2| ≤ |a.2|) with hle
  have htrans : ∀ a b c : α × R, le a b → le b c → le a c := by
    intro a b c h1 h2
    simp only [hle, decide_eq_true_eq] at *
    exact h2.trans h1
  have htotal : ∀ a b : α × R, le a b || le b a := by
    intro a b
    simp only [hle, Bool.or_eq_true, decide_eq_true_eq]
    exact le_total _ _
  set q : α × R → Bool := fun r => decide (∀ t ∈ threshold, t < |r.2|) with hq
  set srt := rows.mergeSort le with hsrt
  have hsel : ∃ k, select maxPrint threshold rows = (srt.filter q).take k ∧
      (maxPrint = none → (srt.filter q).length ≤ k) ∧
      (∀ m : ℕ, maxPrint = some (m : ℤ) → k = m) ∧
      (∀ m : ℕ, 0 < m → maxPrint = some (-(m : ℤ)) → k = (srt.filter q).length - m) := by
    have hk : select maxPrint threshold rows = match maxPrint with
        | none => srt.filter q
        | some m => pySlice m (srt.filter q) := by
      cases threshold with
      | none => cases maxPrint <;> simp [select, hq, hsrt, hle]
      | some t => cases maxPrint <;> simp [select, hq, hsrt, hle]
    rw [hk]
    cases maxPrint with
    | none => exact ⟨(srt.filter q).length, by simp, fun _ => le_rfl, by simp, by simp⟩
    | some m =>
      simp only [pySlice]
      by_cases hm : 0 ≤ m
      · refine ⟨m.toNat, by rw [if_pos hm], by simp, ?_, ?_⟩
        · intro m' h; simp only [Option.some.injEq] at h; omega
        · intro m' h0 h; simp only [Option.some.injEq] at h; omega
      · refine ⟨(srt.filter q).length - (-m).toNat, by rw [if_neg hm], by simp, ?_, ?_⟩
        · intro m' h; simp only [Option.some.injEq] at h; omega
        · intro m' h0 h; simp only [Option.some.injEq] at h; subst h; simp
  obtain ⟨k, hk, k1, k2, k3⟩ := hsel
  have hpw : srt.Pairwise (fun a b => |b.2| ≤ |a.2|) :=
    (List.pairwise_mergeSort htrans htotal rows).imp (fun h => by simpa [hle] using h)
  have hperm : (srt.filter q).Perm (rows.filter q) := (List.mergeSort_perm rows le).filter q
  have hpf : ((srt.filter q).take k ++ (srt.filter q).drop k).Pairwise (fun a b => |b.2| ≤ |a.2|) := by
    rw [List.take_append_drop]; exact hpw.filter q
  rw [List.pairwise_append] at hpf
  refine ⟨?_, ?_, ?_, ?_⟩
  · rw [hk]; exact hpf.1
  · refine ⟨(srt.filter q).drop k, ?_, ?_⟩
    · rw [hk, List.take_append_drop]; exact hperm
    · rw [hk]; exact hpf.2.2
  · intro n hn
    have hn' : (srt.filter q).length = n := by rw [hperm.length_eq, hn]
    rw [hk, List.length_take, hn']
    rw [hn'] at k1 k3
    refine ⟨fun h => ?_, fun m h => ?_, fun m h0 h => ?_⟩
    · have := k1 h; omega
    · rw [k2 m h]
    · rw [k3 m h0 h]; omega
  · intro v
    set p : α × R → Bool := fun r => decide (|r.2| = v) with hp
    have hst : srt.filter p = rows.filter p := by
      have hsub : (rows.filter p).Sublist srt := by
        apply List.sublist_mergeSort htrans htotal _ List.filter_sublist
        rw [List.pairwise_iff_forall_sublist]
        intro a b hab
        have ha : a ∈ rows.filter p := hab.subset (by simp)
        have hb : b ∈ rows.filter p := hab.subset (by simp)
        simp only [hp, List.mem_filter, decide_eq_true_eq] at ha hb
        simp only [hle, decide_eq_true_eq]
        rw [ha.2, hb.2]
      have hsub2 : (rows.filter p).Sublist (srt.filter p) := by
        have := hsub.filter p
        simpa [List.filter_filter] using this
      exact (hsub2.eq_of_length ((List.mergeSort_perm rows le).filter p).length_eq.symm).symm
    have h1 : (select maxPrint threshold rows).filter p <+: (srt.filter q).filter p := by
      rw [hk]; exact (List.take_prefix _ _).filter p
    by_cases hv : ∀ t ∈ threshold, t < v
    · have : (srt.filter q).filter p = srt.filter p := by
        rw [List.filter_filter]
        apply List.filter_congr
        intro r _
        by_cases hr : |r.2| = v
        · have : q r = true := by simp only [hq, decide_eq_true_eq]; rw [hr]; exact hv
          simp [this]
        · simp [hp, hr]
      rw [this, hst] at h1
      exact h1
    · have : (srt.filter q).filter p = [] := by
        rw [List.filter_filter, List.filter_eq_nil_iff]
        intro r _
        by_cases hr : |r.2| = v
        · have : q r = false := by simp only [hq, decide_eq_false_iff_not]; rw [hr]; exact hv
          simp [this]
        · simp [hp, hr]
      rw [this] at h1
      rw [List.prefix_nil.1 h1]
      exact List.nil_prefix

theorem select_map {β : Type} (f : α → β) (rows : List (α × R)) (maxPrint : Option ℤ) (threshold : Option R) :
    select maxPrint threshold (rows.map (fun r => (f r.1, r.2))) =
      (select maxPrint threshold rows).map (fun r => (f r.1, r.2)) := by
  have h1 : (rows.map (fun r => (f r.1, r.2))).mergeSort (fun a b => decide (|b.2| ≤ |a.2|)) =
      (rows.mergeSort (fun a b => decide (|b.2| ≤ |a.2|))).map (fun r => (f r.1, r.2)) := by
    rw [List.map_mergeSort (s := fun a b => decide (|b.2| ≤ |a.2|))]
    intro a _ b _; rfl
  simp only [select]
  rw [h1]
  cases threshold <;> cases maxPrint <;> simp only [pySlice, List.filter_map, List.length_map]
  · split_ifs <;> simp
  · rfl
  · simp only [Function.comp_def]
    split_ifs <;> simp

omit [AddCommGroup R] [LinearOrder R] in
theorem zipRows_ok {β : Type} {f : α → Except PyErr β} {g : α → β} (l : List α) (params : List R)
    (h : ∀ a ∈ l, f a = .ok (g a)) :
    zipRows f l params = .ok ((l.zip params).map (fun r => (g r.1, r.2))) := by
  rw [zipRows]
  have := mapM_map_ok (f := fun p : α × R => (f p.1).map (fun x => (x, p.2))) (g := id)
    (h := fun r : α × R => (g r.1, r.2)) (l.zip params) (by
      intro p hp
      simp only [id]
      rw [h p.1 (List.of_mem_zip hp).1]; rfl)
  simpa using this

theorem nonempty_ok {l : List α} (h : l ≠ []) : nonempty l = .ok l := by
  rw [nonempty, if_neg (by simpa using h)]

/-- **C105.**  `print_determinants` shows the chosen rows of the wavefunction: one character for each alpha and each beta
orbital, which is `1` exactly if the orbital is occupied, and the coefficient. -/
theorem C105_determinants (K : ℕ) (hK : 0 < K) (sds : List ℕ) (params : List R) (maxPrint : Option ℤ)
    (threshold : Option R) :
    ∃ (chosen : List (ℕ × R)) (out : List (List (List Char) × R)),
      Chosen (sds.zip params) chosen maxPrint threshold ∧
      printDeterminants K sds params maxPrint threshold = .ok out ∧ out.length = chosen.length ∧
      ∀ (j sd : ℕ) (x : R), chosen[j]? = some (sd, x) → ∃ a b, out[j]? = some ([a, b], x) ∧
        a.length = K ∧ (sd < 2 ^ (2 * K) → b.length = K) ∧
        ∀ i < K, a[i]? = some (if sd.testBit i then '1' else '0') ∧
          b[i]? = some (if sd.testBit (K + i) then '1' else '0') := by
  set g : ℕ → List (List Char) := fun sd =>
    [(fmtBits K (sd % 2 ^ K)).reverse, (fmtBits K (sd / 2 ^ K)).reverse] with hg
  have h1 : zipRows (detTexts K) sds params = .ok ((sds.zip params).map (fun r => (g r.1, r.2))) := by
    apply zipRows_ok
    intro sd _
    rw [detTexts, splitSpin_ok hK]; rfl
  refine ⟨select maxPrint threshold (sds.zip params),
    (select maxPrint threshold (sds.zip params)).map (fun r => (g r.1, r.2)), chosen_select _ _ _, ?_, by simp, ?_⟩
  · rw [printDeterminants, h1]
    change Except.ok _ = _
    rw [select_map]
  · intro j sd x hj
    have hla : (fmtBits K (sd % 2 ^ K)).reverse.length = K := by
      rw [List.length_reverse]; exact length_fmtBits_of_lt hK (Nat.mod_lt _ (by positivity))
    refine ⟨_, (fmtBits K (sd / 2 ^ K)).reverse, by simp only [List.getElem?_map, hj, Option.map_some, hg], hla, ?_, ?_⟩
    · intro hlt
      rw [List.length_reverse]
      apply length_fmtBits_of_lt hK
      rw [Nat.div_lt_iff_lt_mul (by positivity), ← pow_add]; convert hlt using 2; omega
    · intro i hi
      constructor
      · refine getElem?_eq_some_of_getD (d := '0') (by omega) ?_
        rw [getD_reverse_fmtBits, Nat.testBit_mod_two_pow]; simp [hi]
      · refine getElem?_eq_some_of_getD (d := '0') (by rw [List.length_reverse, length_fmtBits]; omega) ?_
        rw [getD_reverse_fmtBits, Nat.testBit_div_two_pow, Nat.add_comm]

/-- **C105.**  `print_determinants_indices` shows the chosen rows with the occupied orbitals of each spin in increasing
order; it raises `ValueError` exactly if no row is chosen. -/
theorem C105_determinants_indices (K : ℕ) (hK : 0 < K) (sds : List ℕ) (params : List R) (maxPrint : Option ℤ)
    (threshold : Option R) :
    ∃ chosen : List (ℕ × R), Chosen (sds.zip params) chosen maxPrint threshold ∧
      (chosen = [] → printDeterminantsIndices K sds params maxPrint threshold = .error .valueError) ∧
      (chosen ≠ [] → ∃ out, printDeterminantsIndices K sds params maxPrint threshold = .ok out ∧
        out.length = chosen.length ∧
        ∀ (j sd : ℕ) (x : R), chosen[j]? = some (sd, x) → ∃ a b la lb, out[j]? = some ([a, b], x) ∧
          (splitSp a).mapM (parseInt 10) = .ok la ∧ (splitSp b).mapM (parseInt 10) = .ok lb ∧
          la.Pairwise (· < ·) ∧ lb.Pairwise (· < ·) ∧ (∀ i, i ∈ la ↔ i < K ∧ i ∈ occSet sd) ∧
          (∀ i, i ∈ lb ↔ K + i ∈ occSet sd)) := by
  set g : ℕ → List (List Char) := fun sd =>
    [joinSp ((occIndices (some (sd % 2 ^ K))).map pyStr), joinSp ((occIndices (some (sd / 2 ^ K))).map pyStr)] with hg
  have h1 : zipRows (detIndexTexts K) sds params = .ok ((sds.zip params).map (fun r => (g r.1, r.2))) := by
    apply zipRows_ok
    intro sd _
    rw [detIndexTexts, splitSpin_ok hK]; rfl
  have h2 : printDeterminantsIndices K sds params maxPrint threshold =
      nonempty ((select maxPrint threshold (sds.zip params)).map (fun r => (g r.1, r.2))) := by
    rw [printDeterminantsIndices, h1]
    change nonempty _ = _
    rw [select_map]
  refine ⟨select maxPrint threshold (sds.zip params), chosen_select _ _ _, fun h => ?_, fun h => ?_⟩
  · rw [h2, h]; rfl
  · refine ⟨_, by rw [h2, nonempty_ok (by simpa using h)], by simp, ?_⟩
    intro j sd x hj
    refine ⟨_, _, occIndices (some (sd % 2 ^ K)), occIndices (some (sd / 2 ^ K)),
      by simp only [List.getElem?_map, hj, Option.map_some, hg], mapM_parse_joined _, mapM_parse_joined _,
      sorted_occIndices _, sorted_occIndices _, ?_, ?_⟩
    · intro i
      rw [mem_occIndices, Nat.testBit_mod_two_pow, mem_occSet]; simp
    · intro i
      rw [mem_occIndices, Nat.testBit_div_two_pow, mem_occSet, Nat.add_comm]

theorem markOp_ok : ∀ {op : List ℕ} {w : List Char}, (∀ i ∈ op, i < w.length) →
    ∃ w', markOp op w = .ok w' ∧ w'.length = w.length ∧
      ∀ j, w'[j]? = if j ∈ op then w[j]?.map (fun c => if c = '1' then '-' else if c = '0' then '+' else c)
        else w[j]? := by
  intro op
  induction op with
  | nil => intro w _; exact ⟨w, rfl, rfl, by simp⟩
  | cons i op ih =>
    intro w hw
    have hi := hw i (by simp)
    set c := w[i] with hc
    set w1 := (if c = '1' then w.set i '-' else if c = '0' then w.set i '+' else w) with hw1
    have hl1 : w1.length = w.length := by rw [hw1]; split_ifs <;> simp
    have hg1 : ∀ j, w1[j]? = if j = i then some (if c = '1' then '-' else if c = '0' then '+' else c) else w[j]? := by
      intro j
      rw [hw1]
      by_cases hj : j = i
      · subst hj
        rw [if_pos rfl]
        by_cases c1 : c = '1'
        · simp [c1, hi]
        · by_cases c0 : c = '0'
          · simp [c0, hi]
          · rw [if_neg c1, if_neg c0, if_neg c1, if_neg c0]; simp [hi, hc]
      · split_ifs <;> simp [hj, List.getElem?_set_ne (Ne.symm hj)]
    obtain ⟨w', h1, h2, h3⟩ := ih (w := w1) (by intro j hj; rw [hl1]; exact hw j (by simp [hj]))
    refine ⟨w', ?_, by rw [h2, hl1], ?_⟩
    · rw [markOp, List.getElem?_eq_getElem hi]
      exact h1
    · intro j
      rw [h3, hg1]
      by_cases hji : j = i
      · subst hji
        have hwj : w[j]? = some c := by simp [hi, hc]
        simp only [if_true, List.mem_cons, true_or, hwj, Option.map_some]
        by_cases hjo : j ∈ op
        · simp only [hjo, if_true]
          congr 1
          by_cases c1 : c = '1'
          · simp [c1]
          · by_cases c0 : c = '0'
            · simp [c0]
            · simp [c1, c0]
        · simp [hjo]
      · simp [hji]

/-- **C105.**  `print_excitation_operators_as_determinants` shows the chosen rows: the occupations of the reference, with
`-` at the occupied and `+` at the empty orbitals of the operator. -/
theorem C105_excitations (K ref : ℕ) (hK : 0 < K) (hr : ref < 2 ^ (2 * K)) (exops : List (List ℕ)) (params : List R)
    (hex : ∀ op ∈ exops, ∀ i ∈ op, i < 2 * K) (maxPrint : Option ℤ) (threshold : Option R) :
    ∃ (chosen : List (List ℕ × R)) (out : List (List (List Char) × R)),
      Chosen (exops.zip params) chosen maxPrint threshold ∧
      printExcitations K (2 * K) ref exops params maxPrint threshold = .ok out ∧ out.length = chosen.length ∧
      ∀ (j : ℕ) (op : List ℕ) (x : R), chosen[j]? = some (op, x) → ∃ a b, out[j]? = some ([a, b], x) ∧
        a.length = K ∧ b.length = K ∧
        ∀ i < 2 * K, (a ++ b)[i]? = some (if i ∈ op then (if ref.testBit i then '-' else '+')
          else (if ref.testBit i then '1' else '0')) := by
  have hl : (fmtBits (2 * K) ref).reverse.length = 2 * K := by
    rw [List.length_reverse]; exact length_fmtBits_of_lt (by omega) hr
  have hex' : ∀ op : List ℕ, ∃ w : List Char, op ∈ exops →
      markOp op (fmtBits (2 * K) ref).reverse = .ok w ∧ w.length = 2 * K ∧
      ∀ i < 2 * K, w[i]? = some (if i ∈ op then (if ref.testBit i then '-' else '+')
          else (if ref.testBit i then '1' else '0')) := by
    intro op
    by_cases ho : op ∈ exops
    · obtain ⟨w, h1, h2, h3⟩ := markOp_ok (op := op) (w := (fmtBits (2 * K) ref).reverse)
        (by intro i hi; rw [hl]; exact hex op ho i hi)
      refine ⟨w, fun _ => ⟨h1, by rw [h2, hl], ?_⟩⟩
      intro i hi
      rw [h3, refChars hK hr, if_pos hi]
      cases ref.testBit i <;> simp <;> split_ifs <;> rfl
    · exact ⟨[], fun h => absurd h ho⟩
  choose F hF using hex'
  have h1 : zipRows (opTexts K (2 * K) ref) exops params =
      .ok ((exops.zip params).map (fun r => ([(F r.1).take K, (F r.1).drop K], r.2))) := by
    refine zipRows_ok (g := fun op => [(F op).take K, (F op).drop K]) exops params ?_
    intro op ho
    rw [opTexts, (hF op ho).1]; rfl
  refine ⟨select maxPrint threshold (exops.zip params),
    (select maxPrint threshold (exops.zip params)).map (fun r => ([(F r.1).take K, (F r.1).drop K], r.2)),
    chosen_select _ _ _, ?_, by simp, ?_⟩
  · rw [printExcitations, h1]
    change Except.ok _ = _
    have := select_map (fun op => [(F op).take K, (F op).drop K]) (exops.zip params) maxPrint threshold
    rw [← this]
  · intro j op x hj
    have hmem : op ∈ exops := by
      obtain ⟨rest, hp, _⟩ := (chosen_select (exops.zip params) maxPrint threshold).largest
      have : (op, x) ∈ select maxPrint threshold (exops.zip params) := List.mem_of_getElem? hj
      have := hp.subset (List.mem_append_left rest this)
      exact (List.of_mem_zip (List.mem_of_mem_filter this)).1
    obtain ⟨_, h2, h3⟩ := hF op hmem
    refine ⟨(F op).take K, (F op).drop K, by simp only [List.getElem?_map, hj, Option.map_some],
      by rw [List.length_take]; omega, by rw [List.length_drop]; omega, ?_⟩
    intro i hi
    rw [List.take_append_drop]
    exact h3 i hi

/-- An index past the orbitals is an `IndexError`. -/
theorem C105_excitations_index_error (K ref : ℕ) (hK : 0 < K) (hr : ref < 2 ^ (2 * K)) (op : List ℕ) (x : R)
    (rest : List (List ℕ)) (params : List R) (hop : ∃ i ∈ op, 2 * K ≤ i) (maxPrint : Option ℤ) (threshold : Option R) :
    printExcitations K (2 * K) ref (op :: rest) (x :: params) maxPrint threshold = .error .indexError := by
  have hl : (fmtBits (2 * K) ref).reverse.length = 2 * K := by
    rw [List.length_reverse]; exact length_fmtBits_of_lt (by omega) hr
  have : ∀ (op : List ℕ) (w : List Char), w.length = 2 * K → (∃ i ∈ op, 2 * K ≤ i) →
      markOp op w = .error .indexError := by
    intro op
    induction op with
    | nil => intro w _ h; simp at h
    | cons i op ih =>
      intro w hw h
      rw [markOp]
      by_cases hi : i < 2 * K
      · rw [List.getElem?_eq_getElem (by omega)]
        apply ih
        · split_ifs <;> simp [hw]
        · obtain ⟨k, hk, hk2⟩ := h
          rcases List.mem_cons.1 hk with rfl | hk
          · omega
          · exact ⟨k, hk, hk2⟩
      · rw [List.getElem?_eq_none (by omega)]
  rw [printExcitations, zipRows, List.zip_cons_cons, List.mapM_cons]
  simp only [opTexts]
  rw [this op _ hl hop]
  rfl

/-- **C105.**  `print_excitation_operators_indices` shows the chosen rows with four lists: the orbitals of the operator that
are alpha and occupied in the reference, beta and occupied, alpha and empty, beta and empty (beta orbitals counted from
zero), each in the order of the operator; it raises `ValueError` exactly if no row is chosen. -/
theorem C105_excitations_indices (K ref : ℕ) (hK : 0 < K) (exops : List (List ℕ)) (params : List R)
    (maxPrint : Option ℤ) (threshold : Option R) :
    ∃ chosen : List (List ℕ × R), Chosen (exops.zip params) chosen maxPrint threshold ∧
      (chosen = [] → printExcitationsIndices K ref exops params maxPrint threshold = .error .valueError) ∧
      (chosen ≠ [] → ∃ out, printExcitationsIndices K ref exops params maxPrint threshold = .ok out ∧
        out.length = chosen.length ∧
        ∀ (j : ℕ) (op : List ℕ) (x : R), chosen[j]? = some (op, x) → ∃ ao bo av bv, out[j]? = some ([ao, bo, av, bv], x) ∧
          (splitSp ao).mapM (parseInt 10) = .ok (op.filter (fun i => decide (i < K ∧ i ∈ occSet ref))) ∧
          (splitSp bo).mapM (parseInt 10) =
            .ok ((op.filter (fun i => decide (K ≤ i ∧ i ∈ occSet ref))).map (fun i => i - K)) ∧
          (splitSp av).mapM (parseInt 10) = .ok (op.filter (fun i => decide (i < K ∧ i ∉ occSet ref))) ∧
          (splitSp bv).mapM (parseInt 10) =
            .ok ((op.filter (fun i => decide (K ≤ i ∧ i ∉ occSet ref))).map (fun i => i - K))) := by
  set occ := occIndices (some (ref % 2 ^ K)) ++ (occIndices (some (ref / 2 ^ K))).map (· + K) with hocc
  have hmem : ∀ i, i ∈ occ ↔ i ∈ occSet ref := by
    intro i
    rw [hocc, List.mem_append, mem_occIndices, mem_occSet, Nat.testBit_mod_two_pow, List.mem_map]
    constructor
    · rintro (h | ⟨k, hk, rfl⟩)
      · simp only [Bool.and_eq_true, decide_eq_true_eq] at h; exact h.2
      · rw [mem_occIndices, Nat.testBit_div_two_pow] at hk; exact hk
    · intro h
      by_cases hi : i < K
      · left; simp [hi, h]
      · right
        exact ⟨i - K, by rw [mem_occIndices, Nat.testBit_div_two_pow, Nat.sub_add_cancel (by omega)]; exact h, by omega⟩
  have hocc2 : refIndices K ref = .ok occ := by
    rw [refIndices, splitSpin_ok hK]
    change Except.ok _ = _
    rw [hocc]; simp
  have h2 : printExcitationsIndices K ref exops params maxPrint threshold =
      nonempty ((select maxPrint threshold (exops.zip params)).map (fun r => (opIndexTexts K occ r.1, r.2))) := by
    rw [printExcitationsIndices, hocc2]
    change nonempty _ = _
    rw [select_map]
  refine ⟨select maxPrint threshold (exops.zip params), chosen_select _ _ _, fun h => ?_, fun h => ?_⟩
  · rw [h2, h]; rfl
  · refine ⟨_, by rw [h2, nonempty_ok (by simpa using h)], by simp, ?_⟩
    intro j op x hj
    rw [List.getElem?_map, hj, Option.map_some]
    refine ⟨_, _, _, _, rfl, ?_, ?_, ?_, ?_⟩
    · rw [mapM_parse_joined]
      congr 1
      apply List.filter_congr
      intro i _
      by_cases h1 : i < K <;> by_cases h2 : i ∈ occSet ref <;> simp [h1, h2, hmem]
    · have e : ∀ l : List ℕ, l.map (fun x => pyStr (x - (K : ℤ).toNat)) = (l.map (fun x => x - K)).map pyStr := by
        intro l; simp
      rw [e, mapM_parse_joined]
      congr 2
      apply List.filter_congr
      intro i _
      by_cases h1 : i < K <;> by_cases h2 : i ∈ occSet ref <;> simp [h1, h2, hmem] <;> omega
    · rw [mapM_parse_joined]
      congr 1
      apply List.filter_congr
      intro i _
      by_cases h1 : i < K <;> by_cases h2 : i ∈ occSet ref <;> simp [h1, h2, hmem]
    · have e : ∀ l : List ℕ, l.map (fun x => pyStr (x - (K : ℤ).toNat)) = (l.map (fun x => x - K)).map pyStr := by
        intro l; simp
      rw [e, mapM_parse_joined]
      congr 2
      apply List.filter_congr
      intro i _
      by_cases h1 : i < K <;> by_cases h2 : i ∈ occSet ref <;> simp [h1, h2, hmem] <;> omega

/-- **C105 (disagreement).**  `print_geminal_ops` raises `TypeError` for every geminal wavefunction without a reference
determinant and with more than one spatial orbital: it joins a list of characters and integers. -/
theorem C105_geminals_disagrees (K nspin ngem : ℕ) (hn : 2 < nspin) (hg : 0 < ngem) (pair : List ℕ) (hp : pair.length ≤ 2)
    (hpn : ∀ i ∈ pair, i < nspin) (pairs : List (List ℕ)) (x : R) (row : List R) (params : List (List R))
    (maxPrint : Option ℤ) (threshold : Option R) :
    printGeminals K nspin ngem none none (pair :: pairs) ((x :: row) :: params) maxPrint threshold =
      .error .typeError := by
  have hset : ∀ (l : List ℕ) (w : List Mark), (∀ i ∈ l, i < w.length) → ∃ w', setMarks '+' l w = .ok w' ∧
      w'.length = w.length ∧ ∀ j, j ∉ l → w'[j]? = w[j]? := by
    intro l
    induction l with
    | nil => intro w _; exact ⟨w, rfl, rfl, fun _ _ => rfl⟩
    | cons i l ih =>
      intro w hw
      obtain ⟨w', h1, h2, h3⟩ := ih (w.set i (.char '+')) (by intro j hj; simpa using hw j (by simp [hj]))
      refine ⟨w', by rw [setMarks, if_pos (hw i (by simp)), h1], by simpa using h2, ?_⟩
      intro j hj
      simp only [List.mem_cons, not_or] at hj
      rw [h3 j hj.2, List.getElem?_set_ne (Ne.symm hj.1)]
  obtain ⟨w, h1, h2, h3⟩ := hset pair (List.replicate nspin .zero) (by simpa using hpn)
  obtain ⟨j, hj, hjp⟩ : ∃ j, j < nspin ∧ j ∉ pair := by
    by_contra hc
    have hsub : Finset.range nspin ⊆ pair.toFinset := by
      intro i hi
      rw [List.mem_toFinset]
      by_contra hx
      exact hc ⟨i, Finset.mem_range.1 hi, hx⟩
    have := Finset.card_le_card hsub
    rw [Finset.card_range] at this
    have := this.trans (List.toFinset_card_le pair)
    omega
  have hz : w[j]? = some .zero := by rw [h3 j hjp]; simp [hj]
  have hjoin : ∀ l : List Mark, Mark.zero ∈ l → joinMarks l = .error .typeError := by
    intro l hl
    apply mapM_error_of_mem
    · intro a _
      cases a with
      | char c => right; exact ⟨c, rfl⟩
      | zero => left; rfl
    · exact ⟨.zero, hl, rfl⟩
  have hchar : ∀ l : List Mark, joinMarks l = .error .typeError ∨ ∃ s, joinMarks l = .ok s := by
    intro l
    by_cases hl : Mark.zero ∈ l
    · exact .inl (hjoin l hl)
    · right
      induction l with
      | nil => exact ⟨[], rfl⟩
      | cons a l ih =>
        obtain ⟨s, hs⟩ := ih (fun h => hl (by simp [h]))
        cases a with
        | zero => exact absurd (by simp) hl
        | char c =>
          refine ⟨c :: s, ?_⟩
          rw [joinMarks, List.mapM_cons]
          change (joinMarks l >>= _) = _
          rw [hs]; rfl
  have htext : gemTexts K nspin none [] pair = .error .typeError := by
    simp only [gemTexts, setMarks]
    change (setMarks '+' pair (List.replicate nspin .zero) >>= _) = _
    rw [h1]
    change (joinMarks (w.take K) >>= _) = _
    by_cases hjK : j < K
    · rw [hjoin]
      · rfl
      · exact List.mem_of_getElem? (i := j) (by rw [List.getElem?_take_of_lt hjK, hz])
    · rcases hchar (w.take K) with h | ⟨s, h⟩
      · rw [h]; rfl
      · rw [h]
        change (joinMarks (w.drop K) >>= _) = _
        rw [hjoin]
        · rfl
        · refine List.mem_of_getElem? (i := j - K) ?_
          rw [List.getElem?_drop, Nat.add_sub_cancel' (by omega), hz]
  obtain ⟨m, rfl⟩ : ∃ m, ngem = m + 1 := ⟨ngem - 1, by omega⟩
  simp only [printGeminals, List.replicate_succ, List.zip_cons_cons, List.mapM_cons, zipRows]
  rw [htext]
  rfl

/-- **C105.**  With a reference, `print_geminal_ops` shows for each geminal and pair the occupations of the reference, with
`-` at the orbitals that the geminal replaces and `+` at the orbitals of the pair. -/
theorem C105_geminals (K ngem ref : ℕ) (hK : 0 < K) (hr : ref < 2 ^ (2 * K)) (gems pairs : List (List ℕ))
    (params : List (List R)) (hg : ∀ g ∈ gems, ∀ i ∈ g, i < 2 * K) (hp : ∀ p ∈ pairs, ∀ i ∈ p, i < 2 * K)
    (maxPrint : Option ℤ) (threshold : Option R) :
    ∃ (chosen : List ((List ℕ × List ℕ) × R)) (out : List (List (List Char) × R)),
      Chosen ((gems.zip params).flatMap (fun gp => (pairs.zip gp.2).map (fun pp => ((gp.1, pp.1), pp.2))))
        chosen maxPrint threshold ∧
      printGeminals K (2 * K) ngem (some ref) (some gems) pairs params maxPrint threshold = .ok out ∧
      out.length = chosen.length ∧
      ∀ (j : ℕ) (g p : List ℕ) (x : R), chosen[j]? = some ((g, p), x) → ∃ a b, out[j]? = some ([a, b], x) ∧
        a.length = K ∧ b.length = K ∧
        ∀ i < 2 * K, (a ++ b)[i]? = some (if i ∈ p then '+' else if i ∈ g then '-'
          else if ref.testBit i then '1' else '0') := by
  have hset : ∀ (c : Char) (l : List ℕ) (w : List Char), (∀ i ∈ l, i < w.length) →
      ∃ w' : List Char, setMarks c l (w.map Mark.char) = .ok (w'.map Mark.char) ∧
      w'.length = w.length ∧ ∀ j, w'[j]? = if j ∈ l then some c else w[j]? := by
    intro c l
    induction l with
    | nil => intro w _; exact ⟨w, rfl, rfl, by simp⟩
    | cons i l ih =>
      intro w hw
      have hi := hw i (by simp)
      obtain ⟨w', h1, h2, h3⟩ := ih (w.set i c) (by intro j hj; simpa using hw j (by simp [hj]))
      refine ⟨w', ?_, by simpa using h2, ?_⟩
      · rw [setMarks, if_pos (by simpa using hi), ← h1]
        congr 1
        rw [List.map_set]
      · intro j
        rw [h3]
        by_cases hj : j ∈ l
        · simp [hj]
        · by_cases hji : j = i
          · subst hji; simp [hj, hi]
          · rw [if_neg hj, if_neg (by simp [hj, hji]), List.getElem?_set_ne (Ne.symm hji)]
  have hjoin : ∀ l : List Char, joinMarks (l.map Mark.char) = .ok l := by
    intro l
    rw [joinMarks, mapM_map_ok (g := Mark.char) (h := id) l (fun _ _ => rfl), List.map_id]
  have hl : (fmtBits (2 * K) ref).reverse.length = 2 * K := by
    rw [List.length_reverse]; exact length_fmtBits_of_lt (by omega) hr
  have hex : ∀ gp : List ℕ × List ℕ, ∃ w : List Char, gp.1 ∈ gems → gp.2 ∈ pairs →
      gemTexts K (2 * K) (some ref) gp.1 gp.2 = .ok [w.take K, w.drop K] ∧ w.length = 2 * K ∧
      ∀ i < 2 * K, w[i]? = some (if i ∈ gp.2 then '+' else if i ∈ gp.1 then '-'
          else if ref.testBit i then '1' else '0') := by
    rintro ⟨g, p⟩
    by_cases h : g ∈ gems ∧ p ∈ pairs
    · obtain ⟨w1, a1, a2, a3⟩ := hset '-' g (fmtBits (2 * K) ref).reverse (by intro i hi; rw [hl]; exact hg g h.1 i hi)
      obtain ⟨w2, b1, b2, b3⟩ := hset '+' p w1 (by intro i hi; rw [a2, hl]; exact hp p h.2 i hi)
      refine ⟨w2, fun _ _ => ⟨?_, by rw [b2, a2, hl], ?_⟩⟩
      · simp only [gemTexts]
        rw [a1]
        change (setMarks '+' p (w1.map Mark.char) >>= _) = _
        rw [b1]
        change (joinMarks ((w2.map Mark.char).take K) >>= _) = _
        rw [← List.map_take, hjoin]
        change (joinMarks ((w2.map Mark.char).drop K) >>= _) = _
        rw [← List.map_drop, hjoin]
        rfl
      · intro i hi
        rw [b3, a3, refChars hK hr, if_pos hi]
        split_ifs <;> rfl
    · exact ⟨[], fun h1 h2 => absurd ⟨h1, h2⟩ h⟩
  choose F hF using hex
  set rows := (gems.zip params).flatMap (fun gp => (pairs.zip gp.2).map (fun pp => ((gp.1, pp.1), pp.2))) with hrows
  have h1 : (gems.zip params).mapM (fun gp => zipRows (gemTexts K (2 * K) (some ref) gp.1) pairs gp.2) =
      .ok ((gems.zip params).map (fun gp => (pairs.zip gp.2).map
        (fun pp => ([(F (gp.1, pp.1)).take K, (F (gp.1, pp.1)).drop K], pp.2)))) := by
    have := mapM_map_ok (f := fun gp : List ℕ × List R => zipRows (gemTexts K (2 * K) (some ref) gp.1) pairs gp.2)
      (g := id) (h := fun gp => (pairs.zip gp.2).map
        (fun pp => ([(F (gp.1, pp.1)).take K, (F (gp.1, pp.1)).drop K], pp.2))) (gems.zip params) (by
        intro gp hgp
        refine zipRows_ok (g := fun p => [(F (gp.1, p)).take K, (F (gp.1, p)).drop K]) pairs gp.2 ?_
        intro p hp'
        exact (hF (gp.1, p) (List.of_mem_zip hgp).1 hp').1)
    simpa using this
  refine ⟨select maxPrint threshold rows,
    (select maxPrint threshold rows).map (fun r => ([(F r.1).take K, (F r.1).drop K], r.2)),
    chosen_select _ _ _, ?_, by simp, ?_⟩
  · simp only [printGeminals]
    rw [h1]
    change Except.ok _ = _
    have := select_map (fun gp => [(F gp).take K, (F gp).drop K]) rows maxPrint threshold
    rw [← this]
    congr 2
    rw [hrows, List.map_flatMap, List.flatMap_def]
    simp only [List.map_map, Function.comp_def]
  · intro j g p x hj
    have hmem : g ∈ gems ∧ p ∈ pairs := by
      obtain ⟨rest, hperm, _⟩ := (chosen_select rows maxPrint threshold).largest
      have : ((g, p), x) ∈ select maxPrint threshold rows := List.mem_of_getElem? hj
      have := List.mem_of_mem_filter (hperm.subset (List.mem_append_left rest this))
      rw [hrows, List.mem_flatMap] at this
      obtain ⟨gp, hgp, h⟩ := this
      obtain ⟨pp, hpp, h⟩ := List.mem_map.1 h
      simp only [Prod.mk.injEq] at h
      obtain ⟨⟨rfl, rfl⟩, rfl⟩ := h
      exact ⟨(List.of_mem_zip hgp).1, (List.of_mem_zip hpp).1⟩
    obtain ⟨_, h2, h3⟩ := hF (g, p) hmem.1 hmem.2
    refine ⟨(F (g, p)).take K, (F (g, p)).drop K, by simp only [List.getElem?_map, hj, Option.map_some],
      by rw [List.length_take]; omega, by rw [List.length_drop]; omega, ?_⟩
    intro i hi
    rw [List.take_append_drop]
    exact h3 i hi

/-- **C105.**  `print_geminal_ops_indices` shows the chosen rows with the orbitals of the geminal (its number without a
reference) and of the pair; it raises `ValueError` exactly if no row is chosen.  (The code disagrees: without a reference
the number of a geminal is left blank if it is not less than the number of spatial orbitals.) -/
theorem C105_geminals_indices (K ngem : ℕ) (gems : Option (List (List ℕ))) (pairs : List (List ℕ))
    (params : List (List R)) (maxPrint : Option ℤ) (threshold : Option R) :
    ∃ chosen : List (((ℕ ⊕ List ℕ) × List ℕ) × R),
      Chosen ((((match gems with
          | some g => g.map Sum.inr
          | none => (List.range ngem).map Sum.inl) : List (ℕ ⊕ List ℕ)).zip params).flatMap
        (fun gp => (pairs.zip gp.2).map (fun pp => ((gp.1, pp.1), pp.2)))) chosen maxPrint threshold ∧
      (chosen = [] → printGeminalsIndices K ngem gems pairs params maxPrint threshold = .error .valueError) ∧
      (chosen ≠ [] → ∃ out, printGeminalsIndices K ngem gems pairs params maxPrint threshold = .ok out ∧
        out.length = chosen.length ∧
        ∀ (j : ℕ) (g : ℕ ⊕ List ℕ) (p : List ℕ) (x : R), chosen[j]? = some ((g, p), x) → ∃ gt a b,
          out[j]? = some (gt ++ [a, b], x) ∧
          (splitSp a).mapM (parseInt 10) = .ok (p.filter (fun i => decide (i < K))) ∧
          (splitSp b).mapM (parseInt 10) = .ok ((p.filter (fun i => decide (K ≤ i))).map (fun i => i - K)) ∧
          (∀ i, g = .inl i → ∃ t, gt = [t] ∧ (i < K → (splitSp t).mapM (parseInt 10) = .ok [i]) ∧
            (K ≤ i → t = [])) ∧
          (∀ l, g = .inr l → ∃ t1 t2, gt = [t1, t2] ∧
            (splitSp t1).mapM (parseInt 10) = .ok (l.filter (fun i => decide (i < K))) ∧
            (splitSp t2).mapM (parseInt 10) = .ok ((l.filter (fun i => decide (K ≤ i))).map (fun i => i - K)))) := by
  set labels : List (ℕ ⊕ List ℕ) := (match gems with
    | some g => g.map Sum.inr
    | none => (List.range ngem).map Sum.inl) with hlab
  set rows := (labels.zip params).flatMap (fun gp => (pairs.zip gp.2).map (fun pp => ((gp.1, pp.1), pp.2))) with hrows
  have h2 : printGeminalsIndices K ngem gems pairs params maxPrint threshold =
      nonempty ((select maxPrint threshold rows).map (fun r => (gemIndexTexts K r.1.1 r.1.2, r.2))) := by
    have := select_map (fun gp : (ℕ ⊕ List ℕ) × List ℕ => gemIndexTexts K gp.1 gp.2) rows maxPrint threshold
    rw [← this]
    simp only [printGeminalsIndices]
    congr 2
    rw [hrows, List.map_flatMap]
    simp only [List.map_map]
    rfl
  have half : ∀ l : List ℕ,
      (splitSp (joinSp ((l.filter (fun x => decide (x < K))).map pyStr))).mapM (parseInt 10) =
        .ok (l.filter (fun i => decide (i < K))) ∧
      (splitSp (joinSp ((l.filter (fun x => decide (¬ x < K))).map (fun x => pyStr (x - K))))).mapM (parseInt 10) =
        .ok ((l.filter (fun i => decide (K ≤ i))).map (fun i => i - K)) := by
    intro l
    refine ⟨mapM_parse_joined _, ?_⟩
    have e : ∀ l : List ℕ, l.map (fun x => pyStr (x - K)) = (l.map (fun x => x - K)).map pyStr := by
      intro l; simp
    rw [e, mapM_parse_joined]
    simp only [not_lt]
  refine ⟨select maxPrint threshold rows, chosen_select _ _ _, fun h => ?_, fun h => ?_⟩
  · rw [h2, h]; rfl
  · refine ⟨_, by rw [h2, nonempty_ok (by simpa using h)], by simp, ?_⟩
    intro j g p x hj
    have hp := half p
    cases g with
    | inl i =>
      refine ⟨[joinSp (([i].filter (fun x => x < K)).map pyStr)], _, _, by
        simp only [List.getElem?_map, hj, Option.map_some, gemIndexTexts]; rfl, hp.1, hp.2, ?_, ?_⟩
      · rintro i' h
        obtain rfl : i = i' := by simpa using h
        refine ⟨_, rfl, fun hi => ?_, fun hi => ?_⟩
        · rw [mapM_parse_joined]; simp [hi]
        · have : ¬ i < K := by omega
          simp [this, joinSp]
      · intro l h; cases h
    | inr l =>
      refine ⟨[_, _], _, _, by
        simp only [List.getElem?_map, hj, Option.map_some, gemIndexTexts]; rfl, hp.1, hp.2, ?_, ?_⟩
      · intro i h; cases h
      · rintro l' h
        obtain rfl : l = l' := by simpa using h
        exact ⟨_, _, rfl, (half l).1, (half l).2⟩

/-- Errors: without spatial orbitals there are no texts (as soon as there is a row). -/
theorem C105_no_orbitals (K : ℤ) (hK : K ≤ 0) (sd : ℕ) (sds : List ℕ) (x : R) (params : List R) (maxPrint : Option ℤ)
    (threshold : Option R) :
    printDeterminants K (sd :: sds) (x :: params) maxPrint threshold = .error .valueError ∧
    printDeterminantsIndices K (sd :: sds) (x :: params) maxPrint threshold = .error .valueError := by
  constructor
  · rw [printDeterminants, zipRows, List.zip_cons_cons, List.mapM_cons]
    simp only [detTexts, splitSpin, hK, if_true]
    rfl
  · rw [printDeterminantsIndices, zipRows, List.zip_cons_cons, List.mapM_cons]
    simp only [detIndexTexts, splitSpin, hK, if_true]
    rfl

/-- A concrete case: three determinants, the two largest coefficients, and an operator of a coupled cluster
wavefunction. -/
example : (opTexts 2 4 0b0101 [0, 1]).map (fun l => l.map String.ofList) = .ok ["-+", "10"] ∧
    (gemTexts 2 4 (some 0b0101) [0, 2] [1, 3]).map (fun l => l.map String.ofList) = .ok ["-+", "-+"] ∧
    gemTexts 2 4 none [] [1, 3] = .error .typeError := by decide +kernel

/-- The selection is not trivial: two of three rows. -/
example : Chosen [("a", (1 : ℤ)), ("b", -3), ("c", 2)] [("b", -3), ("c", 2)] (some 2) none :=
  ⟨by decide, ⟨[("a", 1)], by decide, by decide⟩, by
    rintro n rfl
    refine ⟨by simp, fun m h => ?_, fun m _ h => ?_⟩
    · simp only [Option.some.injEq] at h; obtain rfl : m = 2 := by omega
      decide
    · simp only [Option.some.injEq] at h; omega, by
    intro v
    by_cases h3 : v = 3
    · subst h3; decide
    · by_cases h2 : v = 2
      · subst h2; decide
      · have e3 : ¬ (3 = v) := fun h => h3 h.symm
        have e2 : ¬ (2 = v) := fun h => h2 h.symm
        simp [e3, e2]⟩

end Fanpy.Props
