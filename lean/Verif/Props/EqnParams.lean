import Mathlib.Data.List.Dedup
import Verif.Lemmas.Eqn

/-! # C47: the selection of parameters -/

namespace Fanpy.Props
open Fanpy.Eqn Fanpy.Lemmas.Eqn

variable {R : Type}

/-! ## The selection -/

theorem odSet_keys (sel : Selection) (c : ℕ) (v : List ℕ) :
    (odSet sel c v).map Prod.fst = if c ∈ sel.map Prod.fst then sel.map Prod.fst else sel.map Prod.fst ++ [c] := by
  induction sel with
  | nil => simp [odSet]
  | cons q r ih =>
    obtain ⟨c0, l⟩ := q
    rw [odSet]
    by_cases h : c0 = c
    · subst h; simp
    · have h' : ¬ c = c0 := fun e => h e.symm
      rw [if_neg h, List.map_cons, ih]
      simp only [List.map_cons, List.mem_cons, h', false_or]
      split_ifs <;> simp

theorem getItem_odSet (sel : Selection) (c : ℕ) (v : List ℕ) (c' : ℕ) :
    getItem (odSet sel c v) c' = if c' = c then v else getItem sel c' := by
  induction sel with
  | nil => rw [odSet, getItem_cons]
  | cons q r ih =>
    obtain ⟨c0, l⟩ := q
    rw [odSet]
    by_cases h : c0 = c
    · subst h
      rw [if_pos rfl, getItem_cons, getItem_cons]
      split_ifs <;> rfl
    · rw [if_neg h, getItem_cons, getItem_cons, ih]
      by_cases h' : c' = c0
      · subst h'; simp [h]
      · simp [h']

theorem nodup_odSet {sel : Selection} (h : (sel.map Prod.fst).Nodup) (c : ℕ) (v : List ℕ) : ((odSet sel c v).map Prod.fst).Nodup := by
  rw [odSet_keys]
  split_ifs with hc
  · exact h
  · rw [List.nodup_append]
    refine ⟨h, by simp, ?_⟩
    rintro x hx y hy rfl
    exact hc ((List.mem_singleton.1 hy) ▸ hx)

/-- the parameters that the given indices select -/
def Selects : Indices → ℕ → Prop
  | .bools l, i => l[i]? = some true
  | .ints l, i => (i : ℤ) ∈ l

/-- the indices that are accepted -/
def IndicesOk (nparams : ℕ) : Indices → Prop
  | .bools l => l.length = nparams
  | .ints l => l.Nodup ∧ ∀ i ∈ l, 0 ≤ i ∧ i < nparams

theorem sorted_insertionSort {l : List ℕ} (h : l.Nodup) : (l.insertionSort (· ≤ ·)).Pairwise (· < ·) := by
  have h1 := List.pairwise_insertionSort (· ≤ ·) l
  have h2 : (l.insertionSort (· ≤ ·)).Nodup := (List.perm_insertionSort (· ≤ ·) l).nodup_iff.2 h
  exact (h1.and h2).imp fun h => lt_of_le_of_ne h.1 h.2

/-- Setting the indices of an object: booleans must be as many as there are parameters, integers must be different and those of
parameters; anything else is a `ValueError`.  The indices kept are increasing, and are those given; the indices of other objects
stay. -/
theorem C47_set_item (sel : Selection) (c nparams : ℕ) (idx : Indices) :
    (IndicesOk nparams idx → ∃ sel', setItem sel c nparams idx = .ok sel' ∧ (getItem sel' c).Pairwise (· < ·) ∧
      (∀ i, i ∈ getItem sel' c ↔ Selects idx i) ∧ (∀ i ∈ getItem sel' c, i < nparams) ∧
      (∀ c' ≠ c, getItem sel' c' = getItem sel c') ∧
      (sel'.map Prod.fst = if c ∈ sel.map Prod.fst then sel.map Prod.fst else sel.map Prod.fst ++ [c])) ∧
    (¬ IndicesOk nparams idx → setItem sel c nparams idx = .error .valueError) := by
  cases idx with
  | bools l =>
    constructor
    · intro h
      refine ⟨odSet sel c ((List.range l.length).filter fun i => l.getD i false), ?_, ?_, ?_, ?_, ?_, odSet_keys _ _ _⟩
      · exact if_neg (not_not.2 h)
      · rw [getItem_odSet, if_pos rfl]; exact List.pairwise_lt_range.filter _
      · intro i
        rw [getItem_odSet, if_pos rfl, List.mem_filter, List.mem_range, Selects]
        constructor
        · rintro ⟨h1, h2⟩
          rw [List.getD_eq_getElem _ _ h1] at h2
          rw [List.getElem?_eq_getElem h1, h2]
        · intro h2
          have h1 : i < l.length := by
            by_contra hh
            rw [List.getElem?_eq_none (by omega)] at h2; cases h2
          refine ⟨h1, ?_⟩
          rw [List.getElem?_eq_getElem h1, Option.some.injEq] at h2
          rw [List.getD_eq_getElem _ _ h1, h2]
      · intro i hi
        rw [getItem_odSet, if_pos rfl, List.mem_filter, List.mem_range] at hi
        rw [← show l.length = nparams from h]; exact hi.1
      · intro c' hc; rw [getItem_odSet, if_neg hc]
    · intro h; exact if_pos h
  | ints l =>
    have hd : l.dedup.length = l.length ↔ l.Nodup :=
      ⟨fun h => List.dedup_eq_self.1 ((List.dedup_sublist l).eq_of_length h), fun h => by rw [h.dedup]⟩
    have ha : (l.any (fun i => decide (i < 0)) || l.any (fun i => decide (i ≥ nparams))) = true ↔ ¬ ∀ i ∈ l, 0 ≤ i ∧ i < nparams := by
      rw [Bool.or_eq_true, List.any_eq_true, List.any_eq_true]
      constructor
      · rintro (⟨i, hi, h⟩ | ⟨i, hi, h⟩) hall
        · have := hall i hi; simp at h; omega
        · have := hall i hi; simp at h; omega
      · intro h
        push Not at h
        obtain ⟨i, hi, h⟩ := h
        by_cases h0 : i < 0
        · exact Or.inl ⟨i, hi, by simpa using h0⟩
        · exact Or.inr ⟨i, hi, by simpa using h (by omega)⟩
    have e : setItem sel c nparams (.ints l) = if l.dedup.length ≠ l.length then .error .valueError
      else if l.any (fun i => decide (i < 0)) || l.any (fun i => decide (i ≥ nparams)) then .error .valueError
      else .ok (odSet sel c ((l.map Int.toNat).insertionSort (· ≤ ·))) := rfl
    constructor
    · rintro ⟨h1, h2⟩
      have hmem : ∀ i, i ∈ (l.map Int.toNat).insertionSort (· ≤ ·) ↔ (i : ℤ) ∈ l := by
        intro i
        rw [List.mem_insertionSort, List.mem_map]
        constructor
        · rintro ⟨a, ha, rfl⟩
          rwa [Int.toNat_of_nonneg (h2 a ha).1]
        · intro h; exact ⟨i, h, rfl⟩
      refine ⟨_, by rw [e, if_neg (not_not.2 (hd.2 h1)), if_neg (fun h => ha.1 h h2)], ?_, ?_, ?_, ?_, odSet_keys _ _ _⟩
      · rw [getItem_odSet, if_pos rfl]
        apply sorted_insertionSort
        rw [List.nodup_map_iff_inj_on h1]
        intro a ha b hb hab
        have := (h2 a ha).1
        have := (h2 b hb).1
        omega
      · intro i; rw [getItem_odSet, if_pos rfl]; exact hmem i
      · intro i hi
        rw [getItem_odSet, if_pos rfl, hmem] at hi
        have := h2 _ hi; omega
      · intro c' hc; rw [getItem_odSet, if_neg hc]
    · intro h
      rw [e]
      by_cases h1 : l.Nodup
      · rw [if_neg (not_not.2 (hd.2 h1)), if_pos (ha.2 fun h2 => h ⟨h1, h2⟩)]
      · rw [if_pos (fun hh => h1 (hd.1 hh))]

theorem setItem_valid {st : Store R} {sel sel' : Selection} (h : Valid st sel) {c : ℕ} {idx : Indices}
    (hs : setItem sel c (st c).length idx = .ok sel') : Valid st sel' := by
  have hok : IndicesOk (st c).length idx := by
    by_contra hh
    rw [(C47_set_item sel c (st c).length idx).2 hh] at hs; cases hs
  obtain ⟨s, e, h1, h2, h3, h4, h5⟩ := (C47_set_item sel c (st c).length idx).1 hok
  rw [e] at hs
  obtain rfl := Except.ok.inj hs
  have hn : (s.map Prod.fst).Nodup := by
    rw [h5]
    split_ifs with hc
    · exact h.1
    · rw [List.nodup_append]
      refine ⟨h.1, by simp, ?_⟩
      rintro x hx y hy rfl
      exact hc ((List.mem_singleton.1 hy) ▸ hx)
  refine ⟨hn, fun p hp => ?_⟩
  have hg := getItem_mem hn hp
  by_cases hc : p.1 = c
  · rw [← hg, hc]; exact ⟨h1, h3⟩
  · rw [← hg, h4 _ hc]
    by_cases he : getItem sel p.1 = []
    · rw [he]; simp
    · obtain ⟨i, hi⟩ := List.exists_mem_of_ne_nil _ he
      exact h.2 _ (mem_of_getItem hi)

theorem setItem_all {st : Store R} {sel sel' : Selection} {c : ℕ}
    (hs : setItem sel c (st c).length (.ints ((List.range (st c).length).map fun i => Int.ofNat i)) = .ok sel') :
    getItem sel' c = List.range (st c).length := by
  have hok : IndicesOk (st c).length (.ints ((List.range (st c).length).map fun i => Int.ofNat i)) := by
    by_contra hh
    rw [(C47_set_item sel c (st c).length _).2 hh] at hs; cases hs
  obtain ⟨s, e, h1, h2, -⟩ := (C47_set_item sel c (st c).length _).1 hok
  rw [e] at hs
  obtain rfl := Except.ok.inj hs
  refine h1.eq_of_mem_iff List.pairwise_lt_range fun i => ?_
  rw [h2, Selects, List.mem_map, List.mem_range]
  constructor
  · rintro ⟨a, ha, h⟩
    rw [List.mem_range] at ha
    have : a = i := Int.ofNat.inj h
    omega
  · intro h; exact ⟨i, List.mem_range.2 h, rfl⟩

theorem setItem_other {st : Store R} {sel sel' : Selection} {c : ℕ} {idx : Indices}
    (hs : setItem sel c (st c).length idx = .ok sel') {c' : ℕ} (hc : c' ≠ c) : getItem sel' c' = getItem sel c' := by
  have hok : IndicesOk (st c).length idx := by
    by_contra hh
    rw [(C47_set_item sel c (st c).length idx).2 hh] at hs; cases hs
  obtain ⟨s, e, -, -, -, h4, -⟩ := (C47_set_item sel c (st c).length idx).1 hok
  rw [e] at hs
  obtain rfl := Except.ok.inj hs
  exact h4 c' hc

theorem foldl_valid {st : Store R} (l : List (ℕ × Indices)) {sel sel' : Selection} (h : Valid st sel)
    (hs : l.foldlM (fun acc p => setItem acc p.1 (st p.1).length p.2) sel = .ok sel') : Valid st sel' := by
  induction l generalizing sel with
  | nil => obtain rfl := Except.ok.inj hs; exact h
  | cons p r ih =>
    rw [List.foldlM_cons] at hs
    cases e : setItem sel p.1 (st p.1).length p.2 with
    | error x => rw [e] at hs; cases hs
    | ok s => rw [e] at hs; exact ih (setItem_valid h e) hs

/-- Every selection that the constructor accepts has different objects, and increasing indices of their parameters; without a
selection all parameters of the wavefunction are active, and none of the Hamiltonian; if orbitals are optimized and no parameter
of the Hamiltonian is selected, all of them are.  Different numbers of orbitals are a `ValueError`. -/
theorem C47_init (st : Store R) (wfn ham ws hs : ℕ) (selection : Option (List (ℕ × Indices))) (opt : Bool) :
    (ws ≠ hs → initSelection (fun c => (st c).length) wfn ham ws hs selection opt = .error .valueError) ∧
    (∀ sel, initSelection (fun c => (st c).length) wfn ham ws hs selection opt = .ok sel → Valid st sel ∧
      (opt = true → (st ham).length ≠ 0 → getItem sel ham ≠ []) ∧
      (wfn ≠ ham → selection = none → getItem sel wfn = List.range (st wfn).length ∧
        getItem sel ham = if opt then List.range (st ham).length else [])) := by
  constructor
  · intro h; rw [initSelection.eq_def, if_pos h]
  · intro sel he
    rw [initSelection.eq_def] at he
    split_ifs at he with hsp
    obtain ⟨s, hsdef⟩ : ∃ s, chosen (fun c => (st c).length) wfn selection = s := ⟨_, rfl⟩
    rw [hsdef] at he
    cases e : s.foldlM (fun acc p => setItem acc p.1 (st p.1).length p.2) [] with
    | error x => rw [e] at he; cases he
    | ok sel1 =>
      rw [e] at he
      replace he : (if (opt && decide ((getItem sel1 ham).length = 0)) = true then
        setItem sel1 ham (st ham).length (.ints ((List.range (st ham).length).map fun i => Int.ofNat i))
        else Except.ok sel1) = .ok sel := he
      have hv1 : Valid st sel1 := foldl_valid s (sel := []) ⟨by simp, by simp⟩ e
      have hw : wfn ≠ ham → selection = none → getItem sel1 wfn = List.range (st wfn).length ∧ getItem sel1 ham = [] := by
        rintro hne rfl
        obtain rfl : [(wfn, Indices.ints ((List.range (st wfn).length).map fun i => Int.ofNat i))] = s := hsdef
        rw [List.foldlM_cons] at e
        cases e2 : setItem [] wfn (st wfn).length (Indices.ints ((List.range (st wfn).length).map fun i => Int.ofNat i)) with
        | error x => rw [e2] at e; cases e
        | ok s2 =>
          rw [e2] at e
          obtain rfl : s2 = sel1 := Except.ok.inj e
          exact ⟨setItem_all e2, setItem_other (sel := []) e2 (Ne.symm hne)⟩
      split_ifs at he with hc
      · rw [Bool.and_eq_true, decide_eq_true_eq] at hc
        have ha := setItem_all he
        refine ⟨setItem_valid hv1 he, fun _ hl h => ?_, fun hne hn => ⟨?_, ?_⟩⟩
        · rw [ha, List.range_eq_nil] at h; exact hl h
        · rw [setItem_other he hne]; exact (hw hne hn).1
        · rw [ha, if_pos hc.1]
      · obtain rfl := Except.ok.inj he
        rw [Bool.and_eq_true, decide_eq_true_eq, not_and] at hc
        refine ⟨hv1, fun ho _ h => ?_, fun hne hn => ⟨(hw hne hn).1, ?_⟩⟩
        · exact hc ho (by rw [h]; rfl)
        · have hnil := (hw hne hn).2
          have : opt ≠ true := fun ho => hc ho (by rw [hnil]; rfl)
          rw [if_neg this, hnil]

/-! ## Assignments -/

theorem assignLoop_none [Zero R] {accept : ℕ → List R → Option PyErr} {params : List R} {objInds : List (ℕ × List ℕ)} {sel : Selection}
    {st st' : Store R} (h : assignLoop accept params objInds sel st = (st', none)) :
    assignLoop (fun _ _ => none) params objInds sel st = (st', none) := by
  induction sel generalizing st with
  | nil => exact h
  | cons p r ih =>
    obtain ⟨c, inds⟩ := p
    rw [assignLoop] at h ⊢
    split_ifs at h ⊢ with h1
    · cases h
    · cases e : accept c (setMany (st c) inds ((getItem objInds c).map fun i => params.getD i 0)) with
      | some x => simp only [e] at h; cases h
      | none => simp only [e] at h; exact ih h

theorem assignParams_none [Zero R] {accept : ℕ → List R → Option PyErr} {sel : Selection} {st st' : Store R} {x : List R}
    (h : assignParams accept sel st x = (st', none)) :
    x.length = activeNparams sel ∧ assignParams (fun _ _ => none) sel st x = (st', none) := by
  have e : ∀ a : ℕ → List R → Option PyErr, assignParams a sel st x =
    if ((indicesObjective sel 0).map fun p => p.2.length).sum ≠ x.length then (st, some .valueError)
    else assignLoop a x (indicesObjective sel 0) sel st := fun _ => rfl
  rw [e] at h ⊢
  rw [sum_objInds] at h ⊢
  split_ifs at h ⊢ with h1
  · cases h
  · exact ⟨(not_not.1 h1).symm, assignLoop_none h⟩

/-- An assignment that succeeds is of a vector with one number for each active parameter.  Afterwards `active_params` returns this
vector; parameters that are not selected, and objects without selected parameters, are as before. -/
theorem C47_assign [Zero R] (accept : ℕ → List R → Option PyErr) {sel : Selection} {st st' : Store R} (h : Valid st sel) {x : List R}
    (hx : assignParams accept sel st x = (st', none)) :
    x.length = activeNparams sel ∧ activeParams sel st' = x ∧ Valid st' sel ∧ (∀ c, (st' c).length = (st c).length) ∧
    (∀ c k : ℕ, k ∉ getItem sel c → (st' c)[k]? = (st c)[k]?) ∧ (∀ c ∉ sel.map Prod.fst, st' c = st c) := by
  obtain ⟨hl, hn⟩ := assignParams_none hx
  obtain ⟨s, e, h1, h2, h3⟩ := assign_ok (accept := fun _ _ => none) h (fun _ _ _ _ => rfl) hl
  rw [hn] at e
  obtain rfl : st' = s := congrArg Prod.fst e
  refine ⟨hl, ?_, ⟨h.1, fun p hp => ⟨(h.2 p hp).1, fun i hi => by rw [h1]; exact (h.2 p hp).2 i hi⟩⟩, h1, h2, ?_⟩
  · rw [activeParams_eq]
    apply List.ext_getElem?
    intro j
    rw [List.getElem?_map]
    cases e : (slots sel)[j]? with
    | none =>
      have : activeNparams sel ≤ j := by rw [← length_slots]; exact List.getElem?_eq_none_iff.1 e
      rw [List.getElem?_eq_none (by omega)]; rfl
    | some p =>
      obtain ⟨c, k⟩ := p
      have hk := (slot_valid h e).2
      rw [← h3 _ _ _ e, Option.map_some, List.getElem?_eq_getElem (by rw [h1]; exact hk),
        List.getD_eq_getElem _ _ (by rw [h1]; exact hk)]
  · intro c hc
    apply List.ext_getElem?
    intro k
    exact h2 c k (by rw [getItem_notMem hc]; simp)

/-- If the components refuse no parameters of the right shape (as wavefunctions of the base class), every vector with one number for
each active parameter is accepted. -/
theorem C47_assign_succeeds [Zero R] (accept : ℕ → List R → Option PyErr) {sel : Selection} {st : Store R} (h : Valid st sel)
    (ha : ∀ c ∈ sel.map Prod.fst, ∀ v : List R, v.length = (st c).length → accept c v = none) {x : List R}
    (hx : x.length = activeNparams sel) : ∃ st', assignParams accept sel st x = (st', none) := by
  obtain ⟨s, e, -⟩ := assign_ok h ha hx
  exact ⟨s, e⟩

/-- Any other length is a `ValueError`, and nothing changes. -/
theorem C47_wrong_length [Zero R] (accept : ℕ → List R → Option PyErr) (sel : Selection) (st : Store R) (x : List R)
    (hx : x.length ≠ activeNparams sel) : assignParams accept sel st x = (st, some .valueError) := by
  have e : assignParams accept sel st x =
    if ((indicesObjective sel 0).map fun p => p.2.length).sum ≠ x.length then (st, some .valueError)
    else assignLoop accept x (indicesObjective sel 0) sel st := rfl
  rw [e, sum_objInds, if_pos (Ne.symm hx)]

/-- Any assignment, refused or not, keeps the numbers of parameters, and the parameters that are not selected. -/
theorem C47_unselected [Zero R] (accept : ℕ → List R → Option PyErr) {sel : Selection} {st : Store R}
    (h : (sel.map Prod.fst).Nodup) (x : List R) :
    (∀ c, ((assignParams accept sel st x).1 c).length = (st c).length) ∧
    ∀ c k : ℕ, k ∉ getItem sel c → ((assignParams accept sel st x).1 c)[k]? = (st c)[k]? := by
  have hloop : ∀ (sl : Selection) (oi : List (ℕ × List ℕ)) (s : Store R),
      (∀ c, ((assignLoop accept x oi sl s).1 c).length = (s c).length) ∧
      ∀ c k : ℕ, (∀ p ∈ sl, p.1 = c → k ∉ p.2) → ((assignLoop accept x oi sl s).1 c)[k]? = (s c)[k]? := by
    intro sl oi
    induction sl with
    | nil => intro s; exact ⟨fun _ => rfl, fun _ _ _ => rfl⟩
    | cons p r ih =>
      intro s
      obtain ⟨c0, inds⟩ := p
      rw [assignLoop]
      split_ifs with h1
      · exact ⟨fun _ => rfl, fun _ _ _ => rfl⟩
      · obtain ⟨v, hv⟩ : ∃ v, setMany (s c0) inds ((getItem oi c0).map fun i => x.getD i 0) = v := ⟨_, rfl⟩
        have hvl : v.length = (s c0).length := by rw [← hv, setMany_length]
        have hvk : ∀ k ∉ inds, v[k]? = (s c0)[k]? := fun k hk => by rw [← hv, setMany_notMem hk]
        have hu : (∀ c, (Function.update s c0 v c).length = (s c).length) ∧
            ∀ c k : ℕ, (∀ p ∈ (c0, inds) :: r, p.1 = c → k ∉ p.2) → (Function.update s c0 v c)[k]? = (s c)[k]? := by
          constructor
          · intro c
            by_cases hc : c = c0
            · subst hc; rw [Function.update_self, hvl]
            · rw [Function.update_of_ne hc]
          · intro c k hk
            by_cases hc : c = c0
            · subst hc; rw [Function.update_self, hvk k (hk (c, inds) (by simp) rfl)]
            · rw [Function.update_of_ne hc]
        simp only [hv]
        cases accept c0 v with
        | some e => exact hu
        | none =>
          obtain ⟨i1, i2⟩ := ih (Function.update s c0 v)
          refine ⟨fun c => (i1 c).trans (hu.1 c), fun c k hk => (i2 c k fun p hp => hk p (List.mem_cons_of_mem _ hp)).trans (hu.2 c k hk)⟩
  have e : assignParams accept sel st x =
    if ((indicesObjective sel 0).map fun p => p.2.length).sum ≠ x.length then (st, some .valueError)
    else assignLoop accept x (indicesObjective sel 0) sel st := rfl
  rw [e]
  split_ifs with h1
  · exact ⟨fun _ => rfl, fun _ _ _ => rfl⟩
  · refine ⟨(hloop _ _ _).1, fun c k hk => (hloop _ _ _).2 c k ?_⟩
    rintro p hp rfl
    rwa [getItem_mem h hp] at hk

/-- the store after several assignments, refused or not -/
def assignHistory [Zero R] (accept : ℕ → List R → Option PyErr) (sel : Selection) (st : Store R) (xs : List (List R)) : Store R :=
  xs.foldl (fun s x => (assignParams accept sel s x).1) st

/-- After any sequence of assignments, refused or not, and then one that succeeds, `active_params` returns the vector of the last
one, and what is not selected is as in the beginning. -/
theorem C47_history [Zero R] (accept : ℕ → List R → Option PyErr) {sel : Selection} {st st' : Store R} (h : Valid st sel)
    (xs : List (List R)) {x : List R} (hx : assignParams accept sel (assignHistory accept sel st xs) x = (st', none)) :
    activeParams sel st' = x ∧ ∀ c k : ℕ, k ∉ getItem sel c → (st' c)[k]? = (st c)[k]? := by
  have hall : ∀ (xs : List (List R)) (s : Store R), (∀ c, (assignHistory accept sel s xs c).length = (s c).length) ∧
      ∀ c k : ℕ, k ∉ getItem sel c → (assignHistory accept sel s xs c)[k]? = (s c)[k]? := by
    intro xs
    induction xs with
    | nil => intro s; exact ⟨fun _ => rfl, fun _ _ _ => rfl⟩
    | cons y r ih =>
      intro s
      obtain ⟨a1, a2⟩ := C47_unselected accept (st := s) h.1 y
      obtain ⟨b1, b2⟩ := ih (assignParams accept sel s y).1
      exact ⟨fun c => (b1 c).trans (a1 c), fun c k hk => (b2 c k hk).trans (a2 c k hk)⟩
  have hv : Valid (assignHistory accept sel st xs) sel :=
    ⟨h.1, fun p hp => ⟨(h.2 p hp).1, fun i hi => by rw [(hall xs st).1]; exact (h.2 p hp).2 i hi⟩⟩
  obtain ⟨-, h2, -, -, h5, -⟩ := C47_assign accept hv hx
  exact ⟨h2, fun c k hk => (h5 c k hk).trans ((hall xs st).2 c k hk)⟩

/-- `indices_objective_params` gives every active parameter one position of the flat vector, and every position below the number of
active parameters to one parameter: `i` counts the selected parameters of the object. -/
theorem C47_slots {st : Store R} {sel : Selection} (h : Valid st sel) :
    (∀ c k, k ∈ getItem sel c → ∃! j : ℕ, ∃ i : ℕ, (getItem sel c)[i]? = some k ∧ (getItem (indicesObjective sel 0) c)[i]? = some j) ∧
    (∀ j < activeNparams sel, ∃! p : ℕ × ℕ, ∃ i : ℕ,
      (getItem sel p.1)[i]? = some p.2 ∧ (getItem (indicesObjective sel 0) p.1)[i]? = some j) ∧
    ∀ c, ∀ j ∈ getItem (indicesObjective sel 0) c, j < activeNparams sel := by
  have hs := fun j c k => slot_iff h.1 0 j c k
  simp only [zero_add] at hs
  have hlt : ∀ {j : ℕ} {p : ℕ × ℕ}, (slots sel)[j]? = some p → j < (slots sel).length := by
    intro j p hj
    by_contra hh
    rw [List.getElem?_eq_none (by omega)] at hj; cases hj
  refine ⟨?_, ?_, ?_⟩
  · intro c k hk
    obtain ⟨j, hj⟩ := exists_slot h.1 hk
    refine ⟨j, (hs j c k).1 hj, fun j' hj' => ?_⟩
    have hj'' := (hs j' c k).2 hj'
    exact (List.getElem?_inj (hlt hj'') (nodup_slots h)).1 (hj''.trans hj.symm)
  · intro j hj
    rw [← length_slots] at hj
    obtain ⟨p, hp⟩ : ∃ p, (slots sel)[j]? = some p := ⟨_, List.getElem?_eq_getElem hj⟩
    obtain ⟨c, k⟩ := p
    refine ⟨(c, k), (hs j c k).1 hp, ?_⟩
    rintro ⟨c', k'⟩ hp'
    have := (hs j c' k').2 hp'
    rw [hp] at this
    exact (Option.some.inj this).symm
  · intro c j hj
    obtain ⟨i, hi⟩ := List.mem_iff_getElem?.1 hj
    have hil : i < (getItem sel c).length := by
      rw [← length_objInds sel 0 c]
      by_contra hh
      rw [List.getElem?_eq_none (by omega)] at hi; cases hi
    have := hlt ((hs j c ((getItem sel c)[i])).2 ⟨i, List.getElem?_eq_getElem hil, hi⟩)
    rwa [length_slots] at this

/-! ## Cases -/

/-- two objects, with parameters 1, 2, 3 and 4, 5 -/
def exStore : Store ℚ := fun c => if c = 0 then [1, 2, 3] else if c = 1 then [4, 5] else []

/-- the second and third parameter of the first object and the first of the second are selected (by integers in any order, and by
booleans) -/
example : (initSelection (fun c => (exStore c).length) 0 1 4 4 (some [(0, .ints [2, 1]), (1, .bools [true, false])]) false) =
    .ok [(0, [1, 2]), (1, [0])] := by decide +kernel

example : Valid exStore [(0, [1, 2]), (1, [0])] := by
  refine ⟨by decide, ?_⟩
  intro p hp
  simp only [List.mem_cons, List.not_mem_nil, or_false] at hp
  rcases hp with rfl | rfl <;> decide

example : (assignParams (fun _ _ => none) [(0, [1, 2]), (1, [0])] exStore [7, 8, 9]).1 0 = [1, 7, 8] ∧
    (assignParams (fun _ _ => none) [(0, [1, 2]), (1, [0])] exStore [7, 8, 9]).1 1 = [9, 5] := by decide +kernel

/-- A refused assignment is not undone: if the second object refuses its parameters, the first object has its new ones, and the
second too (its array was changed in place before `assign_params` of the object was called). -/
theorem C47_refused_not_undone :
    let accept := fun (c : ℕ) (v : List ℚ) => if c = 1 ∧ 0 < v.getD 0 0 then some PyErr.valueError else none
    let r := assignParams accept [(0, [1, 2]), (1, [0])] exStore [7, 8, 9]
    r.2 = some .valueError ∧ r.1 0 = [1, 7, 8] ∧ r.1 1 = [9, 5] := by decide +kernel

end Fanpy.Props
