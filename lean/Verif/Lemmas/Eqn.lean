import Mathlib.Data.List.GetD
import Mathlib.Tactic.Ring
import Mathlib.Tactic.Linarith
import Verif.Model.Eqn

/-! # Slots of active parameters -/

namespace Fanpy.Lemmas.Eqn
open Fanpy.Eqn

variable {R : Type}

/-- the active parameters in the order of the flat vector: object and index -/
def slots (sel : Selection) : List (ℕ × ℕ) := sel.flatMap fun p => p.2.map fun i => (p.1, i)

/-- the keys are different, and the indices increasing and those of parameters -/
def Valid (st : Store R) (sel : Selection) : Prop :=
  (sel.map Prod.fst).Nodup ∧ ∀ p ∈ sel, p.2.Pairwise (· < ·) ∧ ∀ i ∈ p.2, i < (st p.1).length

theorem getItem_cons (c0 : ℕ) (l : List ℕ) (r : Selection) (c : ℕ) :
    getItem ((c0, l) :: r) c = if c = c0 then l else getItem r c := by
  rw [getItem, List.lookup_cons, getItem]
  by_cases h : c = c0
  · subst h; simp
  · have h2 : (c == c0) = false := by simpa using h
    simp [h2, h]

theorem getItem_notMem {r : Selection} {c : ℕ} (h : c ∉ r.map Prod.fst) : getItem r c = [] := by
  induction r with
  | nil => rfl
  | cons p r ih =>
    obtain ⟨c0, l⟩ := p
    simp only [List.map_cons, List.mem_cons, not_or] at h
    rw [getItem_cons, if_neg h.1, ih h.2]

theorem getItem_mem {sel : Selection} (hk : (sel.map Prod.fst).Nodup) {p : ℕ × List ℕ} (hp : p ∈ sel) : getItem sel p.1 = p.2 := by
  induction sel with
  | nil => simp at hp
  | cons q r ih =>
    obtain ⟨c0, l⟩ := q
    rw [List.map_cons, List.nodup_cons] at hk
    rw [getItem_cons]
    rcases List.mem_cons.1 hp with rfl | hp'
    · simp
    · rw [if_neg, ih hk.2 hp']
      rintro rfl
      exact hk.1 (List.mem_map.2 ⟨p, hp', rfl⟩)

theorem mem_of_getItem {sel : Selection} {c i : ℕ} (h : i ∈ getItem sel c) : (c, getItem sel c) ∈ sel := by
  induction sel with
  | nil => simp [getItem] at h
  | cons q r ih =>
    obtain ⟨c0, l⟩ := q
    rw [getItem_cons] at h ⊢
    split_ifs at h ⊢ with hc
    · subst hc; simp
    · exact List.mem_cons_of_mem _ (ih h)

theorem length_slots (sel : Selection) : (slots sel).length = activeNparams sel := by
  rw [slots, activeNparams, List.length_flatMap]
  simp

theorem mem_slots {sel : Selection} (hk : (sel.map Prod.fst).Nodup) {c i : ℕ} : (c, i) ∈ slots sel ↔ i ∈ getItem sel c := by
  rw [slots, List.mem_flatMap]
  constructor
  · rintro ⟨p, hp, h⟩
    obtain ⟨k, hk', e⟩ := List.mem_map.1 h
    simp only [Prod.mk.injEq] at e
    obtain ⟨rfl, rfl⟩ := e
    rwa [getItem_mem hk hp]
  · intro h
    exact ⟨_, mem_of_getItem h, List.mem_map.2 ⟨i, h, rfl⟩⟩

theorem nodup_slots {st : Store R} {sel : Selection} (h : Valid st sel) : (slots sel).Nodup := by
  obtain ⟨hk, hp⟩ := h
  rw [slots, List.nodup_flatMap]
  refine ⟨fun p hp' => ?_, ?_⟩
  · have hn : p.2.Nodup := (hp p hp').1.imp (fun h => Nat.ne_of_lt h)
    exact hn.map fun a b e => by simpa using e
  · rw [List.Nodup, List.pairwise_map] at hk
    refine hk.imp ?_
    intro a b hab
    rw [Function.onFun, List.disjoint_left]
    rintro ⟨c, i⟩ h1 h2
    obtain ⟨_, _, e⟩ := List.mem_map.1 h1
    obtain ⟨_, _, e'⟩ := List.mem_map.1 h2
    simp only [Prod.mk.injEq] at e e'
    exact hab (e.1.trans e'.1.symm)

theorem keys_indicesObjective (sel : Selection) (n : ℕ) : (indicesObjective sel n).map Prod.fst = sel.map Prod.fst := by
  induction sel generalizing n with
  | nil => rfl
  | cons q r ih => obtain ⟨c0, l⟩ := q; simp [indicesObjective, ih]

theorem length_objInds (sel : Selection) (n c : ℕ) : (getItem (indicesObjective sel n) c).length = (getItem sel c).length := by
  induction sel generalizing n with
  | nil => rfl
  | cons q r ih =>
    obtain ⟨c0, l⟩ := q
    rw [indicesObjective, getItem_cons, getItem_cons]
    split_ifs
    · simp
    · exact ih _

theorem sum_objInds (sel : Selection) (n : ℕ) :
    ((indicesObjective sel n).map fun p => p.2.length).sum = activeNparams sel := by
  induction sel generalizing n with
  | nil => rfl
  | cons q r ih =>
    obtain ⟨c0, l⟩ := q
    rw [indicesObjective, List.map_cons, List.sum_cons, ih, activeNparams, activeNparams, List.map_cons, List.sum_cons]
    simp

/-- the slot of an active parameter -/
theorem slot_iff {sel : Selection} (hk : (sel.map Prod.fst).Nodup) (n j c k : ℕ) :
    (slots sel)[j]? = some (c, k) ↔
      ∃ i : ℕ, (getItem sel c)[i]? = some k ∧ (getItem (indicesObjective sel n) c)[i]? = some (n + j) := by
  induction sel generalizing n j with
  | nil => simp [slots, getItem]
  | cons q r ih =>
    obtain ⟨c0, l⟩ := q
    rw [List.map_cons, List.nodup_cons] at hk
    have e : slots ((c0, l) :: r) = l.map (fun i => (c0, i)) ++ slots r := by simp [slots]
    rw [e, indicesObjective, getItem_cons, getItem_cons, List.getElem?_append]
    simp only [List.length_map]
    split_ifs with h1 h2 h2
    · subst h2
      rw [List.getElem?_map]
      constructor
      · intro h
        refine ⟨j, ?_, ?_⟩
        · rw [List.getElem?_eq_getElem h1] at h ⊢
          simpa using h
        · rw [List.getElem?_range' h1]; simp
      · rintro ⟨i, hi, hi'⟩
        have hil : i < l.length := by
          by_contra h
          rw [List.getElem?_eq_none (by omega)] at hi; cases hi
        rw [List.getElem?_range' hil] at hi'
        have : i = j := by simpa using hi'
        subst this
        rw [hi]; rfl
    · rw [List.getElem?_map]
      constructor
      · intro h
        rw [List.getElem?_eq_getElem h1] at h
        simp only [Option.map_some, Option.some.injEq, Prod.mk.injEq] at h
        exact absurd h.1.symm h2
      · rintro ⟨i, -, hi'⟩
        exfalso
        have hm : n + j ∈ getItem (indicesObjective r (n + l.length)) c := List.mem_of_getElem? hi'
        have : ∀ (r : Selection) (m x : ℕ), x ∈ getItem (indicesObjective r m) c → m ≤ x := by
          intro r
          induction r with
          | nil => intro m x h; simp [indicesObjective, getItem] at h
          | cons q r ih =>
            intro m x h
            obtain ⟨c1, l1⟩ := q
            rw [indicesObjective, getItem_cons] at h
            split_ifs at h
            · simp at h; omega
            · have := ih _ _ h; omega
        have := this _ _ _ hm
        omega
    · subst h2
      constructor
      · intro h
        have := List.mem_of_getElem? h
        rw [mem_slots hk.2, getItem_notMem hk.1] at this
        simp at this
      · rintro ⟨i, hi, hi'⟩
        have hil : i < l.length := by
          by_contra h
          rw [List.getElem?_eq_none (by omega)] at hi; cases hi
        rw [List.getElem?_range' hil] at hi'
        have : i = j := by simpa using hi'
        omega
    · rw [ih hk.2 (n + l.length) (j - l.length), show n + l.length + (j - l.length) = n + j by omega]

theorem setMany_length (v : List R) (inds : List ℕ) (vals : List R) : (setMany v inds vals).length = v.length := by
  rw [setMany]
  induction inds.zip vals generalizing v with
  | nil => rfl
  | cons p l ih => rw [List.foldl_cons, ih]; simp

theorem setMany_notMem {v : List R} {inds : List ℕ} {vals : List R} {k : ℕ} (h : k ∉ inds) : (setMany v inds vals)[k]? = v[k]? := by
  rw [setMany]
  induction inds generalizing v vals with
  | nil => rfl
  | cons i inds ih =>
    rcases vals with _ | ⟨x, vals⟩
    · rfl
    · simp only [List.mem_cons, not_or] at h
      rw [List.zip_cons_cons, List.foldl_cons, ih h.2, List.getElem?_set_ne (Ne.symm h.1)]

theorem setMany_get {v : List R} {inds : List ℕ} (hn : inds.Nodup) (hv : ∀ i ∈ inds, i < v.length) {vals : List R} {i k : ℕ}
    (hi : inds[i]? = some k) (hl : i < vals.length) : (setMany v inds vals)[k]? = vals[i]? := by
  induction inds generalizing v vals i with
  | nil => simp at hi
  | cons a inds ih =>
    rcases vals with _ | ⟨x, vals⟩
    · simp at hl
    · rw [List.nodup_cons] at hn
      have e : setMany v (a :: inds) (x :: vals) = setMany (v.set a x) inds vals := rfl
      rw [e]
      rcases i with _ | i
      · simp only [List.getElem?_cons_zero, Option.some.injEq] at hi
        subst hi
        rw [setMany_notMem hn.1, List.getElem?_set_self (hv _ (by simp))]
        rfl
      · rw [List.getElem?_cons_succ] at hi ⊢
        refine ih hn.2 (fun i h => ?_) hi (by simpa using hl)
        rw [List.length_set]; exact hv i (by simp [h])

theorem assignLoop_ok [Zero R] {accept : ℕ → List R → Option PyErr} {params : List R} {objInds : List (ℕ × List ℕ)} {sel : Selection}
    {st : Store R} (h : Valid st sel) (ha : ∀ c ∈ sel.map Prod.fst, ∀ v : List R, v.length = (st c).length → accept c v = none) :
    assignLoop accept params objInds sel st =
      (fun c => setMany (st c) (getItem sel c) ((getItem objInds c).map fun i => params.getD i 0), none) := by
  induction sel generalizing st with
  | nil => simp [assignLoop, getItem, setMany]
  | cons q r ih =>
    obtain ⟨c0, l⟩ := q
    obtain ⟨hk, hp⟩ := h
    rw [List.map_cons, List.nodup_cons] at hk
    have h1 := hp (c0, l) (by simp)
    rw [assignLoop, if_neg]
    · simp only
      rw [ha c0 (by simp) _ (setMany_length _ _ _)]
      simp only
      rw [ih]
      · congr 1
        funext c
        rw [getItem_cons]
        by_cases hc : c = c0
        · subst hc
          rw [if_pos rfl, Function.update_self, getItem_notMem hk.1]
          rfl
        · rw [if_neg hc, Function.update_of_ne hc]
      · refine ⟨hk.2, fun p hp' => ⟨(hp p (by simp [hp'])).1, fun i hi => ?_⟩⟩
        have hc : p.1 ≠ c0 := fun e => hk.1 (List.mem_map.2 ⟨p, hp', e⟩)
        rw [Function.update_of_ne hc]
        exact (hp p (by simp [hp'])).2 i hi
      · intro c hc v hv
        have hc' : c ≠ c0 := fun e => hk.1 (e ▸ hc)
        rw [Function.update_of_ne hc'] at hv
        exact ha c (by simp [hc]) v hv
    · rw [List.any_eq_true]
      rintro ⟨i, hi, h'⟩
      have := h1.2 i hi
      simp only [decide_eq_true_eq] at h'; simp only at this; omega

/-- The effect of `assign_params`. -/
theorem assign_ok [Zero R] {accept : ℕ → List R → Option PyErr} {sel : Selection} {st : Store R} (h : Valid st sel)
    (ha : ∀ c ∈ sel.map Prod.fst, ∀ v : List R, v.length = (st c).length → accept c v = none) {x : List R}
    (hx : x.length = activeNparams sel) :
    ∃ st', assignParams accept sel st x = (st', none) ∧ (∀ c, (st' c).length = (st c).length) ∧
      (∀ c k : ℕ, k ∉ getItem sel c → (st' c)[k]? = (st c)[k]?) ∧
      ∀ j c k : ℕ, (slots sel)[j]? = some (c, k) → (st' c)[k]? = x[j]? := by
  have e : assignParams accept sel st x = (fun c => setMany (st c) (getItem sel c)
      ((getItem (indicesObjective sel 0) c).map fun i => x.getD i 0), none) := by
    rw [assignParams, ← assignLoop_ok h ha]
    exact if_neg (by rw [sum_objInds, hx]; simp)
  refine ⟨_, e, ?_, ?_, ?_⟩
  · intro c; exact setMany_length _ _ _
  · intro c k hk; exact setMany_notMem hk
  · intro j c k hs
    obtain ⟨i, hi, hi'⟩ := (slot_iff h.1 0 j c k).1 hs
    have hmem := mem_of_getItem (List.mem_of_getElem? hi)
    have hv := h.2 _ hmem
    have hjl : j < x.length := by
      rw [hx, ← length_slots]
      by_contra hh
      rw [List.getElem?_eq_none (by omega)] at hs; cases hs
    have hil : i < (getItem (indicesObjective sel 0) c).length := by
      by_contra hh
      rw [List.getElem?_eq_none (by omega)] at hi'; cases hi'
    rw [setMany_get (hv.1.imp (fun h => Nat.ne_of_lt h)) hv.2 hi (by simpa using hil), List.getElem?_map, hi', Option.map_some, zero_add,
      List.getD_eq_getElem _ _ hjl, List.getElem?_eq_getElem hjl]

/-- changing one parameter of one object -/
def move (st : Store R) (c k : ℕ) (t : R) : Store R := Function.update st c ((st c).set k t)

theorem exists_slot {sel : Selection} (hk : (sel.map Prod.fst).Nodup) {c k : ℕ} (h : k ∈ getItem sel c) :
    ∃ j : ℕ, (slots sel)[j]? = some (c, k) := by
  obtain ⟨j, hj⟩ := List.mem_iff_getElem?.1 ((mem_slots hk).2 h)
  exact ⟨j, hj⟩

theorem slot_valid {st : Store R} {sel : Selection} (h : Valid st sel) {j c k : ℕ} (hs : (slots sel)[j]? = some (c, k)) :
    k ∈ getItem sel c ∧ k < (st c).length := by
  have h1 := (mem_slots h.1).1 (List.mem_of_getElem? hs)
  exact ⟨h1, (h.2 _ (mem_of_getItem h1)).2 k h1⟩

/-- changing one entry of the vector changes one parameter of one object -/
theorem assign_move [Zero R] {accept : ℕ → List R → Option PyErr} {sel : Selection} {st : Store R} (h : Valid st sel)
    (ha : ∀ c ∈ sel.map Prod.fst, ∀ v : List R, v.length = (st c).length → accept c v = none) {x : List R}
    (hx : x.length = activeNparams sel) {j c k : ℕ} (hs : (slots sel)[j]? = some (c, k)) (t : R) :
    assignParams accept sel st (x.set j t) = (move (assignParams accept sel st x).1 c k t, none) := by
  obtain ⟨s1, e1, l1, n1, p1⟩ := assign_ok h ha hx
  obtain ⟨s2, e2, l2, n2, p2⟩ := assign_ok h ha (x := x.set j t) (by simpa using hx)
  rw [e1, e2]
  simp only [Prod.mk.injEq, and_true]
  have hjl : j < x.length := by
    rw [hx, ← length_slots]
    by_contra hh
    rw [List.getElem?_eq_none (by omega)] at hs; cases hs
  have hkv := slot_valid h hs
  funext c'
  apply List.ext_getElem?
  intro k'
  by_cases hsel : k' ∈ getItem sel c'
  · obtain ⟨j', hj'⟩ := exists_slot h.1 hsel
    rw [p2 _ _ _ hj', move]
    by_cases hjj : j' = j
    · subst hjj
      rw [hs] at hj'
      simp only [Option.some.injEq, Prod.mk.injEq] at hj'
      obtain ⟨rfl, rfl⟩ := hj'
      rw [Function.update_self, List.getElem?_set_self hjl, List.getElem?_set_self (by rw [l1]; exact hkv.2)]
    · rw [List.getElem?_set_ne (Ne.symm hjj)]
      by_cases hc : c' = c
      · subst hc
        rw [Function.update_self, List.getElem?_set_ne, p1 _ _ _ hj']
        rintro rfl
        apply hjj
        have hj'l : j' < (slots sel).length := by
          by_contra hh
          rw [List.getElem?_eq_none (by omega)] at hj'; cases hj'
        have := (List.getElem?_inj hj'l (nodup_slots h)).1 (hj'.trans hs.symm)
        exact this
      · rw [Function.update_of_ne hc, p1 _ _ _ hj']
  · rw [n2 _ _ hsel, move]
    by_cases hc : c' = c
    · subst hc
      rw [Function.update_self, List.getElem?_set_ne, n1 _ _ hsel]
      rintro rfl
      exact hsel hkv.1
    · rw [Function.update_of_ne hc, n1 _ _ hsel]

theorem activeParams_eq [Zero R] (sel : Selection) (st : Store R) :
    activeParams sel st = (slots sel).map fun p => (st p.1).getD p.2 0 := by
  rw [activeParams, slots, List.map_flatMap]
  simp [Function.comp_def]

end Fanpy.Lemmas.Eqn
