import Verif.Model.ParamContainer

/-! # C135: the parameters of a `ParamContainer` -/

namespace Fanpy.Props
open Fanpy.ParamContainer

variable {R : Type}

/-! ## Helpers -/

theorem param_join (d : DType) (ds : List DType) : ds.foldl DType.join d = .number ↔
    d ≠ .other ∧ (∀ e ∈ ds, e ≠ .other) ∧ (d = .number ∨ .number ∈ ds) := by
  induction ds generalizing d with
  | nil => cases d <;> simp
  | cons e ds ih =>
    rw [List.foldl_cons, ih]
    cases d <;> cases e <;> simp [DType.join]

theorem param_scalar {o : Obj R} {a : Arr R} (h : asArray o = .ok a) (hs : a.shape = []) :
    ∃ dt x, o = .scalar dt x ∧ a = ⟨dt, [], [x]⟩ := by
  cases o with
  | scalar dt x => rw [asArray] at h; injection h with h; exact ⟨dt, x, rfl, h.symm⟩
  | array dt n shape data => rw [asArray] at h; injection h with h; rw [← h] at hs; cases hs
  | seq l =>
    rw [asArray] at h
    split at h
    · cases h
    · rename_i as _
      cases as with
      | nil => rw [stack] at h; injection h with h; rw [← h] at hs; cases hs
      | cons b bs =>
        rw [stack] at h
        split at h
        · injection h with h; rw [← h] at hs; cases hs
        · cases h

theorem param_items {l : List (Obj R)} {as : List (Arr R)} (h : asArrays l = .ok as) (hs : ∀ a ∈ as, a.shape = []) :
    ∃ items : List (DType × R), l = items.map (fun p => .scalar p.1 p.2) ∧ as = items.map fun p => ⟨p.1, [], [p.2]⟩ := by
  induction l generalizing as with
  | nil => rw [asArrays] at h; injection h with h; exact ⟨[], rfl, h.symm⟩
  | cons o l ih =>
    rw [asArrays] at h
    split at h
    · rename_i a bs ha hb
      injection h with h
      subst h
      obtain ⟨items, h1, h2⟩ := ih hb fun b hb => hs b (by simp [hb])
      obtain ⟨dt, x, h3, h4⟩ := param_scalar ha (hs a (by simp))
      exact ⟨(dt, x) :: items, by rw [h1, h3]; rfl, by rw [h2, h4]; rfl⟩
    · cases h
    · cases h

theorem param_arrays (items : List (DType × R)) :
    asArrays (items.map fun p => Obj.scalar p.1 p.2) = .ok (items.map fun p => ⟨p.1, [], [p.2]⟩) := by
  induction items with
  | nil => rw [List.map_nil, asArrays]; rfl
  | cons p items ih => rw [List.map_cons, asArrays, asArray, ih]; rfl

theorem param_stack (p : DType × R) (items : List (DType × R)) :
    stack ((p :: items).map fun p => (⟨p.1, [], [p.2]⟩ : Arr R))
      = .ok ⟨(items.map Prod.fst).foldl DType.join p.1, [items.length + 1], (p :: items).map Prod.snd⟩ := by
  rw [List.map_cons, stack, if_pos (by simp)]
  have h : ∀ l : List (DType × R), (l.map fun p => (⟨p.1, [], [p.2]⟩ : Arr R)).flatMap Arr.data = l.map Prod.snd := by
    intro l
    induction l with
    | nil => rfl
    | cons q l ih => rw [List.map_cons, List.flatMap_cons, ih]; rfl
  rw [← List.map_cons (f := fun p : DType × R => (⟨p.1, [], [p.2]⟩ : Arr R)), h, List.map_map, List.length_map]
  rfl

/-- a list of items without dimensions -/
theorem param_seq (p : DType × R) (items : List (DType × R)) :
    assignParams (.seq ((p :: items).map fun p => Obj.scalar p.1 p.2))
      = if (items.map Prod.fst).foldl DType.join p.1 = .number then .ok ⟨(p :: items).map Prod.snd, false⟩ else .error .typeError := by
  simp only [assignParams, asArray, param_arrays, param_stack, store]
  by_cases h : (items.map Prod.fst).foldl DType.join p.1 = .number <;> simp [h]

/-! ## Theorems -/

/-- **C135, lists and tuples.**  They are accepted if and only if all items are numbers or booleans and at least one is a number; the entries are
stored in their order in a new array. -/
theorem C135_list (l : List (Obj R)) (s : Stored R) : assignParams (.seq l) = .ok s ↔
    ∃ items : List (DType × R), l = items.map (fun p => .scalar p.1 p.2) ∧ (∀ p ∈ items, p.1 ≠ .other) ∧ (∃ p ∈ items, p.1 = .number) ∧
      s.data = items.map Prod.snd ∧ s.shared = false := by
  have key : ∀ p items, (items.map Prod.fst).foldl DType.join p.1 = .number ↔
      (∀ q ∈ (p :: items : List (DType × R)), q.1 ≠ .other) ∧ ∃ q ∈ (p :: items : List (DType × R)), q.1 = .number := by
    intro p items
    rw [param_join]
    simp only [List.mem_map, Prod.exists, exists_and_right, exists_eq_right, List.forall_mem_cons, List.exists_mem_cons_iff,
      forall_exists_index, Prod.forall]
    constructor
    · rintro ⟨h1, h2, h3⟩
      refine ⟨⟨h1, fun a b hab => h2 a b hab⟩, ?_⟩
      rcases h3 with h3 | ⟨x, h3⟩
      · exact Or.inl h3
      · exact Or.inr ⟨x, h3⟩
    · rintro ⟨⟨h1, h2⟩, h3⟩
      refine ⟨h1, fun a b hab => h2 a b hab, ?_⟩
      rcases h3 with h3 | ⟨x, h3⟩
      · exact Or.inl h3
      · exact Or.inr ⟨x, h3⟩
  constructor
  · intro h
    have h0 := h
    simp only [assignParams] at h
    split at h
    · rename_i a ha
      have h1 : a.shape.length = 1 ∧ a.data.length ≠ 0 := by
        rw [store] at h
        split at h
        · cases h
        · rename_i hc
          split at h
          · cases h
          · rename_i hd
            rw [not_not] at hc
            exact ⟨hc.1, hd⟩
      rw [asArray] at ha
      split at ha
      · cases ha
      · rename_i as has
        cases as with
        | nil => rw [stack] at ha; injection ha with ha; rw [← ha] at h1; exact absurd rfl h1.2
        | cons b bs =>
          rw [stack] at ha
          split at ha
          · rename_i hall
            injection ha with ha
            rw [← ha] at h1
            have hb : b.shape = [] := by simpa using h1.1
            obtain ⟨items, e1, e2⟩ := param_items has (by
              intro c hc
              rcases List.mem_cons.1 hc with rfl | hc
              · exact hb
              · have := List.all_eq_true.1 hall c hc
                rw [of_decide_eq_true this, hb])
            cases items with
            | nil => cases e2
            | cons p items =>
              rw [e1, param_seq] at h0
              split at h0
              · rename_i hn
                injection h0 with h0
                obtain ⟨k1, k2⟩ := (key p items).1 hn
                exact ⟨p :: items, e1, k1, k2, by rw [← h0], by rw [← h0]⟩
              · cases h0
          · cases ha
    · cases h
  · rintro ⟨items, rfl, h1, h2, h3, h4⟩
    cases items with
    | nil => obtain ⟨p, hp, -⟩ := h2; cases hp
    | cons p items =>
      rw [param_seq, if_pos ((key p items).2 ⟨h1, h2⟩)]
      obtain ⟨data, shared⟩ := s
      simp only at h3 h4
      rw [h3, h4]

/-- **C135, anything else.**  A number is stored in a new array of one entry.  An array is accepted if and only if it has one dimension, is of
numbers and is not empty; it is stored itself. -/
theorem C135_other (s : Stored R) :
    (∀ dt (x : R), assignParams (.scalar dt x) = .ok s ↔ dt = .number ∧ s = ⟨[x], false⟩) ∧
    (∀ dt n shape (data : List R), data.length = (n :: shape).prod →
      (assignParams (.array dt n shape data) = .ok s ↔ dt = .number ∧ shape = [] ∧ 0 < n ∧ s = ⟨data, true⟩)) := by
  constructor
  · intro dt x
    cases dt <;> simp [assignParams, store, eq_comm]
  · intro dt n shape data hd
    simp only [assignParams, store]
    by_cases h1 : shape = []
    · subst h1
      have hd' : data.length = n := by simpa using hd
      by_cases h2 : dt = .number
      · by_cases h3 : n = 0
        · simp [h2, hd', h3]
        · simp [h2, hd', h3, Nat.pos_of_ne_zero h3, eq_comm]
      · simp [h2]
    · simp [h1]

/-- **C135, errors.**  Nothing to store is a `ValueError`; items of a wrong type and further dimensions are a `TypeError`. -/
theorem C135_errors :
    assignParams (.seq ([] : List (Obj R))) = .error .valueError ∧
    assignParams (.array .number 0 [] ([] : List R)) = .error .valueError ∧
    (∀ dt (x : R), dt ≠ .number → assignParams (.scalar dt x) = .error .typeError) ∧
    (∀ dt n shape (data : List R), dt ≠ .number ∨ shape ≠ [] → assignParams (.array dt n shape data) = .error .typeError) ∧
    (∀ items : List (DType × R), items ≠ [] → ((∃ p ∈ items, p.1 = .other) ∨ ∀ p ∈ items, p.1 = .bool) →
      assignParams (.seq (items.map fun p => .scalar p.1 p.2)) = .error .typeError) ∧
    (∀ rows : List (List (DType × R)), rows ≠ [] → (∀ r ∈ rows, ∀ q ∈ rows, r.length = q.length) →
      assignParams (.seq (rows.map fun r => .seq (r.map fun p => .scalar p.1 p.2))) = .error .typeError) := by
  refine ⟨?_, ?_, ?_, ?_, ?_, ?_⟩
  · simp [assignParams, asArray, asArrays, stack, store]
  · simp [assignParams, store]
  · intro dt x h
    cases dt <;> simp_all [assignParams]
  · intro dt n shape data h
    simp only [assignParams, store]
    rw [if_pos]
    rcases h with h | h <;> simp [h]
  · intro items h0 h
    cases items with
    | nil => exact absurd rfl h0
    | cons p items =>
      rw [param_seq, if_neg]
      rw [param_join]
      rintro ⟨h1, h2, h3⟩
      rcases h with ⟨q, hq, e⟩ | h
      · rcases List.mem_cons.1 hq with rfl | hq
        · exact h1 e
        · exact h2 q.1 (List.mem_map_of_mem hq) e
      · rcases h3 with h3 | h3
        · rw [h p (by simp)] at h3; cases h3
        · obtain ⟨q, hq, e⟩ := List.mem_map.1 h3
          rw [h q (by simp [hq])] at e; cases e
  · intro rows h0 hr
    have harr : ∀ r : List (DType × R), ∃ dt data,
        asArray (.seq (r.map fun p => Obj.scalar p.1 p.2)) = .ok ⟨dt, [r.length], data⟩ := by
      intro r
      rw [asArray, param_arrays]
      cases r with
      | nil => exact ⟨_, _, rfl⟩
      | cons p r => exact ⟨_, _, param_stack p r⟩
    have hall : ∀ rows : List (List (DType × R)), ∃ as : List (Arr R),
        asArrays (rows.map fun r => Obj.seq (r.map fun p => Obj.scalar p.1 p.2)) = .ok as ∧ as.map Arr.shape = rows.map fun r => [r.length] := by
      intro rows
      induction rows with
      | nil => exact ⟨[], by rw [List.map_nil, asArrays], rfl⟩
      | cons r rows ih =>
        obtain ⟨as, h1, h2⟩ := ih
        obtain ⟨dt, data, h3⟩ := harr r
        exact ⟨⟨dt, [r.length], data⟩ :: as, by rw [List.map_cons, asArrays, h3, h1], by rw [List.map_cons, h2]; rfl⟩
    obtain ⟨as, h1, h2⟩ := hall rows
    simp only [assignParams]
    rw [asArray, h1]
    cases as with
    | nil => simp at h2; exact absurd h2.symm (by simpa using h0)
    | cons b bs =>
      cases rows with
      | nil => exact absurd rfl h0
      | cons r rows =>
        rw [List.map_cons, List.map_cons] at h2
        injection h2 with e1 e2
        have hs : ∀ c ∈ bs, c.shape = b.shape := by
          intro c hc
          have : c.shape ∈ rows.map fun r => [r.length] := e2 ▸ List.mem_map_of_mem hc
          obtain ⟨q, hq, e⟩ := List.mem_map.1 this
          rw [e1, ← e, hr q (by simp [hq]) r (by simp)]
        simp only [stack]
        rw [if_pos (by rw [List.all_eq_true]; intro c hc; exact decide_eq_true (hs c hc))]
        simp [store, e1]

/-- **C135, histories.**  After any assignments, of which some may be refused, the parameters are those of the last one that was accepted, and
there is at least one. -/
theorem C135_history (s : Stored R) (hs : 0 < s.nparams) (l : List (Obj R)) :
    assignAll s l = ((l.filterMap fun o => (assignParams o).toOption).getLast?).getD s ∧ 0 < (assignAll s l).nparams := by
  have hpos : ∀ (o : Obj R) t, assignParams o = .ok t → 0 < t.nparams := by
    intro o t h
    have hst : ∀ (a : Arr R) b, store a b = .ok t → 0 < t.nparams := by
      intro a b h
      rw [store] at h
      split at h
      · cases h
      · split at h
        · cases h
        · rename_i hd
          injection h with h
          rw [← h]
          exact Nat.pos_of_ne_zero hd
    cases o with
    | scalar dt x => cases dt <;> simp only [assignParams] at h <;> first | exact hst _ _ h | cases h
    | array dt n shape data => exact hst _ _ h
    | seq l =>
      simp only [assignParams] at h
      split at h
      · exact hst _ _ h
      · cases h
  induction l generalizing s with
  | nil => exact ⟨rfl, hs⟩
  | cons o l ih =>
    rw [assignAll]
    split
    · rename_i t ht
      obtain ⟨h1, h2⟩ := ih t (hpos o t ht)
      refine ⟨?_, h2⟩
      rw [h1, List.filterMap_cons, ht]
      simp only [Except.toOption, List.getLast?_cons]
      rfl
    · rename_i e he
      obtain ⟨h1, h2⟩ := ih s hs
      refine ⟨?_, h2⟩
      rw [h1, List.filterMap_cons, he]
      rfl

/-- `assign_params([1, True, 3])`, `assign_params(5)`, and `assign_params([True])` which is refused -/
example : assignParams (.seq [.scalar .number 1, .scalar .bool 1, .scalar .number 3]) = .ok (⟨[1, 1, 3], false⟩ : Stored ℤ) ∧
    assignParams (.scalar .number 5) = .ok (⟨[5], false⟩ : Stored ℤ) ∧
    assignParams (.seq [.scalar .bool (1 : ℤ)]) = .error .typeError ∧
    assignAll (⟨[7], false⟩ : Stored ℤ) [.scalar .number 5, .seq [.scalar .bool 1]] = ⟨[5], false⟩ :=
  ⟨rfl, rfl, rfl, rfl⟩

end Fanpy.Props
