import Verif.Spec.ParamValues
import Mathlib.Tactic.Common

/-!
# Lemmas: memory of the parameters of wavefunctions
-/

namespace Fanpy.ParamHeap

open Fanpy Fanpy.Spec.ParamValues

variable {R : Type}

theorem scatter_length (trunc : R → R) (c : Cell R) (is : List Nat) (vs : List R) :
    (scatter trunc c is vs).length = c.vals.length := by
  induction is generalizing c vs with
  | nil => simp [scatter]
  | cons i is ih =>
    cases vs with
    | nil => simp [scatter]
    | cons v vs => simp [scatter, ih]

theorem scatter_put (trunc : R → R) (c : Cell R) (is : List Nat) (vs : List R) :
    scatter trunc c is vs = put c.vals is (vs.map (fun v => if c.ints then trunc v else v)) := by
  induction is generalizing c vs with
  | nil => simp [scatter, put]
  | cons i is ih =>
    cases vs with
    | nil => simp [scatter, put]
    | cons v vs =>
      rw [scatter, ih]
      simp [put]

theorem scatter_float (trunc : R → R) (c : Cell R) (h : c.ints = false) (is : List Nat) (vs : List R) :
    scatter trunc c is vs = put c.vals is vs := by
  rw [scatter_put, h]
  simp

theorem put_getElem_notMem (v : List R) (is : List Nat) (xs : List R) (j : Nat) (h : j ∉ is) :
    (put v is xs)[j]? = v[j]? := by
  induction is generalizing v xs with
  | nil => simp [put]
  | cons i is ih =>
    cases xs with
    | nil => simp [put]
    | cons x xs =>
      have e : put v (i :: is) (x :: xs) = put (v.set i x) is xs := rfl
      rw [e, ih _ _ (fun hh => h (List.mem_cons_of_mem _ hh)), List.getElem?_set_ne]
      rintro rfl
      exact h List.mem_cons_self

theorem put_length (v : List R) (is : List Nat) (xs : List R) : (put v is xs).length = v.length := by
  induction is generalizing v xs with
  | nil => simp [put]
  | cons i is ih =>
    cases xs with
    | nil => simp [put]
    | cons x xs =>
      have e : put v (i :: is) (x :: xs) = put (v.set i x) is xs := rfl
      rw [e, ih, List.length_set]

theorem put_read [Inhabited R] (v : List R) (is : List Nat) (xs : List R) (hn : is.Nodup)
    (hr : ∀ i ∈ is, i < v.length) (hl : xs.length = is.length) :
    is.map (fun i => ((put v is xs)[i]?).getD default) = xs := by
  induction is generalizing v xs with
  | nil => cases xs with
    | nil => rfl
    | cons => simp at hl
  | cons i is ih =>
    cases xs with
    | nil => simp at hl
    | cons x xs =>
      have e : put v (i :: is) (x :: xs) = put (v.set i x) is xs := rfl
      rw [List.nodup_cons] at hn
      rw [List.map_cons, e, ih _ _ hn.2 (by
        intro j hj
        rw [List.length_set]
        exact hr j (List.mem_cons_of_mem _ hj)) (by simpa using hl)]
      rw [put_getElem_notMem _ _ _ _ hn.1]
      have := hr i List.mem_cons_self
      rw [List.getElem?_set_self this]
      rfl

theorem assign_none (cls : Nat → Cls R) (s : St R) (w : Nat) (a : Addr)
    (h : fits (cls w) (s.mem.cells a).vals = true) :
    assign cls s w a = (setWfn s w ⟨a, if (cls w).clears then [] else (s.wfn w).cache⟩, none) := by
  unfold assign
  unfold fits at h
  cases hs : (cls w).size with
  | none => rfl
  | some n =>
    rw [hs] at h
    simp at h
    dsimp only
    rw [if_pos h]

theorem assign_some (cls : Nat → Cls R) (s : St R) (w : Nat) (a : Addr)
    (h : fits (cls w) (s.mem.cells a).vals = false) :
    assign cls s w a = (s, some PyErr.valueError) := by
  unfold assign
  unfold fits at h
  cases hs : (cls w).size with
  | none => simp [hs] at h
  | some n =>
    rw [hs] at h
    simp at h
    dsimp only
    rw [if_neg h]

theorem assign_mem (cls : Nat → Cls R) (s : St R) (w : Nat) (a : Addr) : (assign cls s w a).1.mem = s.mem := by
  cases h : fits (cls w) (s.mem.cells a).vals
  · rw [assign_some _ _ _ _ h]
  · rw [assign_none _ _ _ _ h]
    rfl

theorem assign_other (cls : Nat → Cls R) (s : St R) (w : Nat) (a : Addr) (u : Nat) (hu : u ≠ w) :
    (assign cls s w a).1.wfn u = s.wfn u := by
  cases h : fits (cls w) (s.mem.cells a).vals
  · rw [assign_some _ _ _ _ h]
  · rw [assign_none _ _ _ _ h]
    simp [setWfn, hu]

/-- The relation between the memory and the values. -/
structure Inv (cls : Nat → Cls R) (s : St R) (v : VSt R) : Prop where
  floats : ∀ k, (s.mem.cells (Sum.inl k)).ints = false
  arrays : ∀ k, k ∉ v.lent → (s.mem.cells (Sum.inl k)).vals = v.arr k
  vals : ∀ w p, v.par w = some p → (s.mem.cells (s.wfn w).addr).vals = p
  pfloat : ∀ w p, v.par w = some p → (s.mem.cells (s.wfn w).addr).ints = false
  lent : ∀ w p k, v.par w = some p → (s.wfn w).addr = Sum.inl k → k ∈ v.lent
  next : ∀ w p n, v.par w = some p → (s.wfn w).addr = Sum.inr n → n < s.mem.next
  size : ∀ w p, v.par w = some p → fits (cls w) p = true
  cache : ∀ w p sd r, v.par w = some p → (cls w).cached = true → (s.wfn w).cache.lookup sd = some r →
    r = (cls w).olp p sd
  apart : ∀ w w' p p', v.par w = some p → v.par w' = some p' → w ≠ w' → (s.wfn w).addr ≠ (s.wfn w').addr

/-- A wavefunction gets an array that nobody else holds. -/
theorem Inv.own {cls : Nat → Cls R} (hc : ∀ w, (cls w).cached = true → (cls w).clears = true)
    {s : St R} {v : VSt R} (h : Inv cls s v) (m : Mem R)
    (w : Nat) (a : Addr) (p : List R) (ks : List Nat)
    (hv : (m.cells a).vals = p) (hi : (m.cells a).ints = false)
    (hm : ∀ b, b ≠ a → (∀ n, b = Sum.inr n → n < s.mem.next) → m.cells b = s.mem.cells b)
    (hn : s.mem.next ≤ m.next)
    (hl : ∀ k, a = Sum.inl k → k ∈ ks ++ v.lent)
    (hr : ∀ n, a = Sum.inr n → n < m.next)
    (ho : ∀ u q, v.par u = some q → u ≠ w → (s.wfn u).addr ≠ a)
    (hs : fits (cls w) p = true) :
    Inv cls (setWfn ⟨m, s.wfn⟩ w ⟨a, if (cls w).clears then [] else (s.wfn w).cache⟩)
      ⟨v.arr, fun u => if u = w then some p else v.par u, ks ++ v.lent⟩ := by
  have hm' : ∀ u q, v.par u = some q → u ≠ w → m.cells (s.wfn u).addr = s.mem.cells (s.wfn u).addr := by
    intro u q hq hu
    exact hm _ (ho u q hq hu) (fun n hn => h.next u q n hq hn)
  refine ⟨?_, ?_, ?_, ?_, ?_, ?_, ?_, ?_, ?_⟩
  · intro k
    by_cases hk : (Sum.inl k : Addr) = a
    · simp only [setWfn]
      rw [hk]
      exact hi
    · simp only [setWfn]
      rw [hm _ hk (by simp)]
      exact h.floats k
  · intro k hk
    have hk' : k ∉ v.lent := fun hh => hk (List.mem_append_right _ hh)
    have : (Sum.inl k : Addr) ≠ a := fun hh => hk (hl k hh.symm)
    simp only [setWfn]
    rw [hm _ this (by simp)]
    exact h.arrays k hk'
  · intro u q hq
    by_cases hu : u = w
    · subst hu
      simp only [if_true, Option.some.injEq] at hq
      simp only [setWfn, if_true]
      rw [hv, hq]
    · simp only [if_neg hu] at hq
      simp only [setWfn, if_neg hu]
      rw [hm' u q hq hu]
      exact h.vals u q hq
  · intro u q hq
    by_cases hu : u = w
    · subst hu
      simp only [setWfn, if_true]
      exact hi
    · simp only [if_neg hu] at hq
      simp only [setWfn, if_neg hu]
      rw [hm' u q hq hu]
      exact h.pfloat u q hq
  · intro u q k hq hk
    by_cases hu : u = w
    · subst hu
      simp only [setWfn, if_true] at hk
      exact hl k hk
    · simp only [if_neg hu] at hq
      simp only [setWfn, if_neg hu] at hk
      exact List.mem_append_right _ (h.lent u q k hq hk)
  · intro u q n hq hk
    by_cases hu : u = w
    · subst hu
      simp only [setWfn, if_true] at hk
      exact hr n hk
    · simp only [if_neg hu] at hq
      simp only [setWfn, if_neg hu] at hk
      exact lt_of_lt_of_le (h.next u q n hq hk) hn
  · intro u q hq
    by_cases hu : u = w
    · subst hu
      simp only [if_true, Option.some.injEq] at hq
      rw [← hq]
      exact hs
    · simp only [if_neg hu] at hq
      exact h.size u q hq
  · intro u q sd r hq hca hlk
    by_cases hu : u = w
    · subst hu
      simp only [setWfn, if_true, hc u hca] at hlk
      simp at hlk
    · simp only [if_neg hu] at hq
      simp only [setWfn, if_neg hu] at hlk
      exact h.cache u q sd r hq hca hlk
  · intro u u' q q' hq hq' huu
    by_cases hu : u = w
    · have hu' : u' ≠ w := fun hh => huu (hu.trans hh.symm)
      simp only [if_neg hu'] at hq'
      simp only [setWfn, if_pos hu, if_neg hu']
      exact (ho u' q' hq' hu').symm
    · simp only [if_neg hu] at hq
      by_cases hu' : u' = w
      · simp only [setWfn, if_pos hu', if_neg hu]
        exact ho u q hq hu
      · simp only [if_neg hu'] at hq'
        simp only [setWfn, if_neg hu', if_neg hu]
        exact h.apart u u' q q' hq hq' huu

theorem Inv.mem {cls : Nat → Cls R} {s : St R} {v : VSt R} (h : Inv cls s v) (m : Mem R)
    (hm : ∀ b, (∀ n, b = Sum.inr n → n < s.mem.next) → m.cells b = s.mem.cells b)
    (hn : s.mem.next ≤ m.next) : Inv cls ⟨m, s.wfn⟩ v := by
  have hm' : ∀ u q, v.par u = some q → m.cells (s.wfn u).addr = s.mem.cells (s.wfn u).addr := by
    intro u q hq
    exact hm _ (fun n hn => h.next u q n hq hn)
  refine ⟨?_, ?_, ?_, ?_, h.lent, ?_, h.size, h.cache, h.apart⟩
  · intro k
    show (m.cells _).ints = false
    rw [hm _ (by simp)]
    exact h.floats k
  · intro k hk
    show (m.cells _).vals = _
    rw [hm _ (by simp)]
    exact h.arrays k hk
  · intro u q hq
    show (m.cells _).vals = _
    rw [hm' u q hq]
    exact h.vals u q hq
  · intro u q hq
    show (m.cells _).ints = _
    rw [hm' u q hq]
    exact h.pfloat u q hq
  · intro u q n hq hk
    exact lt_of_lt_of_le (h.next u q n hq hk) hn

/-- The caller changes an array that was not given away. -/
theorem Inv.array {cls : Nat → Cls R} {s : St R} {v : VSt R} (h : Inv cls s v) (m : Mem R) (k : Nat) (l : List R)
    (hk : k ∉ v.lent)
    (hm : ∀ b, b ≠ Sum.inl k → m.cells b = s.mem.cells b) (hn : m.next = s.mem.next)
    (hv : (m.cells (Sum.inl k)).vals = l) (hi : (m.cells (Sum.inl k)).ints = false) :
    Inv cls ⟨m, s.wfn⟩ ⟨fun j => if j = k then l else v.arr j, v.par, v.lent⟩ := by
  have hm' : ∀ u q, v.par u = some q → m.cells (s.wfn u).addr = s.mem.cells (s.wfn u).addr := by
    intro u q hq
    exact hm _ (fun e => hk (h.lent u q k hq e))
  refine ⟨?_, ?_, ?_, ?_, h.lent, ?_, h.size, h.cache, h.apart⟩
  · intro j
    by_cases hj : j = k
    · subst hj
      exact hi
    · show (m.cells _).ints = false
      rw [hm _ (by simpa using hj)]
      exact h.floats j
  · intro j hj'
    by_cases hj : j = k
    · subst hj
      simp only [if_true]
      exact hv
    · show (m.cells _).vals = _
      rw [hm _ (by simpa using hj)]
      simp only [if_neg hj]
      exact h.arrays j hj'
  · intro u q hq
    show (m.cells _).vals = _
    rw [hm' u q hq]
    exact h.vals u q hq
  · intro u q hq
    show (m.cells _).ints = _
    rw [hm' u q hq]
    exact h.pfloat u q hq
  · intro u q n hq hk
    show n < m.next
    rw [hn]
    exact h.next u q n hq hk

theorem ravel_cells (m : Mem R) (a b : Addr) (hb : ∀ n, b = Sum.inr n → n < m.next) :
    (ravel m a).1.cells b = m.cells b := by
  unfold ravel
  split_ifs
  · rfl
  · simp only [alloc]
    rw [if_neg]
    intro e
    exact absurd (hb _ e) (lt_irrefl _)

theorem ravel_next (m : Mem R) (a : Addr) : m.next ≤ (ravel m a).1.next := by
  unfold ravel
  split_ifs
  · exact le_refl _
  · exact Nat.le_succ _

theorem ravel_vals (m : Mem R) (a : Addr) :
    ((ravel m a).1.cells (ravel m a).2).vals = (m.cells a).vals ∧
    ((ravel m a).1.cells (ravel m a).2).ints = (m.cells a).ints := by
  unfold ravel
  split_ifs
  · exact ⟨rfl, rfl⟩
  · simp [alloc]

theorem ravel_addr (m : Mem R) (a : Addr) : (ravel m a).2 = a ∨ (ravel m a).2 = Sum.inr m.next := by
  unfold ravel
  split_ifs
  · exact Or.inl rfl
  · exact Or.inr rfl

theorem ravel_lt (m : Mem R) (a : Addr) (ha : ∀ n, a = Sum.inr n → n < m.next) :
    ∀ n, (ravel m a).2 = Sum.inr n → n < (ravel m a).1.next := by
  unfold ravel
  split_ifs
  · exact ha
  · intro n hn
    simp only [Sum.inr.injEq] at hn
    simp [alloc, hn]

theorem fillIn_vals (trunc : R → R) (m : Mem R) (x a : Addr) (off : Nat) (inds : List Nat) :
    ((fillIn trunc m x a off inds).cells (ravel m a).2).vals =
      put (m.cells a).vals inds ((((m.cells x).vals.drop off).take inds.length).map
        (fun v => if (m.cells a).ints then trunc v else v)) ∧
    ((fillIn trunc m x a off inds).cells (ravel m a).2).ints = (m.cells a).ints := by
  unfold fillIn setVals
  simp only [if_true]
  rw [scatter_put, (ravel_vals m a).1, (ravel_vals m a).2]
  exact ⟨rfl, rfl⟩

theorem fillIn_other (trunc : R → R) (m : Mem R) (x a : Addr) (off : Nat) (inds : List Nat) (b : Addr)
    (hb : b ≠ (ravel m a).2) (hb' : ∀ n, b = Sum.inr n → n < m.next) :
    (fillIn trunc m x a off inds).cells b = m.cells b := by
  unfold fillIn setVals
  simp only [if_neg hb]
  exact ravel_cells m a b hb'

theorem fillIn_next (trunc : R → R) (m : Mem R) (x a : Addr) (off : Nat) (inds : List Nat) :
    (fillIn trunc m x a off inds).next = (ravel m a).1.next := rfl

theorem distribute_arr (x : List R) (v : VSt R) (off : Nat) (comps : List (Nat × List Nat)) :
    (distribute x v off comps).1.arr = v.arr ∧ (distribute x v off comps).1.lent = v.lent := by
  induction comps generalizing v off with
  | nil => exact ⟨rfl, rfl⟩
  | cons c rest ih =>
    rw [distribute]
    split_ifs
    · have := ih ⟨v.arr, fun u => if u = c.1 then
        some (put ((v.par c.1).getD []) c.2 ((x.drop off).take c.2.length)) else v.par u, v.lent⟩ (off + c.2.length)
      exact this
    · exact ⟨rfl, rfl⟩

theorem fits_length (c : Cls R) (p q : List R) (h : p.length = q.length) : fits c p = fits c q := by
  unfold fits
  rw [h]

/-- The loop of the objective. -/
theorem Inv.solveLoop {cls : Nat → Cls R} (hc : ∀ w, (cls w).cached = true → (cls w).clears = true)
    (trunc : R → R) (k : Nat) (comps : List (Nat × List Nat)) :
    ∀ (s : St R) (v : VSt R) (off : Nat), Inv cls s v → k ∉ v.lent → (∀ c ∈ comps, (v.par c.1).isSome) →
      Inv cls (solveLoop trunc cls (Sum.inl k) s off comps).1 (distribute (v.arr k) v off comps).1 ∧
      Sum.inl (solveLoop trunc cls (Sum.inl k) s off comps).2 = (distribute (v.arr k) v off comps).2 := by
  induction comps with
  | nil =>
    intro s v off h _ _
    exact ⟨h, rfl⟩
  | cons c rest ih =>
    intro s v off h hk hal
    obtain ⟨p, hp⟩ := Option.isSome_iff_exists.1 (hal c List.mem_cons_self)
    have hpv := h.vals c.1 p hp
    rw [ParamHeap.solveLoop, distribute]
    simp only [hp, Option.getD_some, hpv]
    by_cases hin : ∀ i ∈ c.2, i < p.length
    · rw [if_pos hin, if_pos hin]
      set m := fillIn trunc s.mem (Sum.inl k) (s.wfn c.1).addr off c.2 with hm
      set a := (ravel s.mem (s.wfn c.1).addr).2 with ha
      set q := put p c.2 (((v.arr k).drop off).take c.2.length) with hq
      have hmv : (m.cells a).vals = q := by
        rw [hm, ha, (fillIn_vals trunc s.mem (Sum.inl k) (s.wfn c.1).addr off c.2).1, h.pfloat c.1 p hp,
          hpv, h.arrays k hk]
        simp [hq]
      have hfit : fits (cls c.1) (m.cells a).vals = true := by
        rw [hmv, fits_length _ q p (by rw [hq, put_length])]
        exact h.size c.1 p hp
      have hasg : assign cls ⟨m, s.wfn⟩ c.1 a = (setWfn ⟨m, s.wfn⟩ c.1
          ⟨a, if (cls c.1).clears then [] else (s.wfn c.1).cache⟩, none) := assign_none cls ⟨m, s.wfn⟩ c.1 a hfit
      rw [hasg]
      dsimp only
      have hinv := h.own hc m c.1 a q [] hmv
        (by rw [hm, ha, (fillIn_vals trunc s.mem (Sum.inl k) (s.wfn c.1).addr off c.2).2, h.pfloat c.1 p hp])
        (fun b hb hb' => fillIn_other trunc s.mem (Sum.inl k) _ off c.2 b hb hb')
        (ravel_next s.mem _)
        (by
          intro j hj
          rcases ravel_addr s.mem (s.wfn c.1).addr with e | e
          · exact h.lent c.1 p j hp (by rw [← e, ← ha, hj])
          · rw [← ha, hj] at e
            cases e)
        (ravel_lt s.mem _ (fun n hn => h.next c.1 p n hp hn))
        (by
          intro u r hr hu
          rcases ravel_addr s.mem (s.wfn c.1).addr with e | e
          · rw [ha, e]
            exact h.apart u c.1 r p hr hp hu
          · rw [ha, e]
            intro e'
            exact absurd (h.next u r _ hr e') (lt_irrefl _))
        (by rw [← hmv]; exact hfit)
      exact ih _ ⟨v.arr, fun u => if u = c.1 then some q else v.par u, v.lent⟩ (off + c.2.length) hinv hk (by
        intro d hd
        dsimp only
        split_ifs
        · rfl
        · exact hal d (List.mem_cons_of_mem _ hd))
    · rw [if_neg hin, if_neg hin]
      refine ⟨?_, rfl⟩
      exact h.mem _ (fun b hb => ravel_cells s.mem _ b hb) (ravel_next s.mem _)

/-! ### One assignment of an objective, for every state -/

/-- An address that is in use. -/
def Used (s : St R) (a : Addr) : Prop := ∀ n, a = Sum.inr n → n < s.mem.next

/-- The loop changes only the arrays of the components. -/
theorem solveLoop_frame (trunc : R → R) (cls : Nat → Cls R) (x : Addr) (comps : List (Nat × List Nat)) :
    ∀ (s : St R) (off : Nat) (b : Addr), Used s b → (∀ c ∈ comps, (s.wfn c.1).addr ≠ b) →
      (solveLoop trunc cls x s off comps).1.mem.cells b = s.mem.cells b := by
  induction comps with
  | nil => intro s off b _ _; rfl
  | cons c rest ih =>
    intro s off b hb hne
    rw [ParamHeap.solveLoop]
    have hbr : b ≠ (ravel s.mem (s.wfn c.1).addr).2 := by
      rcases ravel_addr s.mem (s.wfn c.1).addr with e | e
      · rw [e]
        exact (hne c List.mem_cons_self).symm
      · rw [e]
        intro e'
        exact absurd (hb _ e') (lt_irrefl _)
    split_ifs
    · have hfo := fillIn_other trunc s.mem x (s.wfn c.1).addr off c.2 b hbr hb
      have hnx := ravel_next s.mem (s.wfn c.1).addr
      set m := fillIn trunc s.mem x (s.wfn c.1).addr off c.2 with hm
      set a := (ravel s.mem (s.wfn c.1).addr).2 with ha
      cases hf : fits (cls c.1) (m.cells a).vals
      · rw [assign_some cls ⟨m, s.wfn⟩ c.1 a hf]
        exact hfo
      · rw [assign_none cls ⟨m, s.wfn⟩ c.1 a hf]
        dsimp only
        rw [ih]
        · exact hfo
        · intro n hn
          exact lt_of_lt_of_le (hb n hn) hnx
        · intro d hd
          by_cases e : d.1 = c.1
          · simp only [setWfn, if_pos e]
            exact hbr.symm
          · simp only [setWfn, if_neg e]
            exact hne d (List.mem_cons_of_mem _ hd)
    · exact ravel_cells s.mem _ b hb

/-- Wavefunctions that are not components keep their array and their cache. -/
theorem solveLoop_wfn (trunc : R → R) (cls : Nat → Cls R) (x : Addr) (comps : List (Nat × List Nat)) :
    ∀ (s : St R) (off : Nat) (w : Nat), (∀ c ∈ comps, c.1 ≠ w) →
      (solveLoop trunc cls x s off comps).1.wfn w = s.wfn w := by
  induction comps with
  | nil => intro s off w _; rfl
  | cons c rest ih =>
    intro s off w hne
    rw [ParamHeap.solveLoop]
    have hcw := (hne c List.mem_cons_self).symm
    split_ifs
    · set m := fillIn trunc s.mem x (s.wfn c.1).addr off c.2 with hm
      set a := (ravel s.mem (s.wfn c.1).addr).2 with ha
      cases hf : fits (cls c.1) (m.cells a).vals
      · rw [assign_some cls ⟨m, s.wfn⟩ c.1 a hf]
      · rw [assign_none cls ⟨m, s.wfn⟩ c.1 a hf]
        dsimp only
        rw [ih _ _ _ (fun d hd => hne d (List.mem_cons_of_mem _ hd))]
        simp [setWfn, hcw]
    · rfl

/-- Contiguous arrays stay where they are. -/
theorem solveLoop_addr (trunc : R → R) (cls : Nat → Cls R) (x : Addr) (comps : List (Nat × List Nat)) :
    ∀ (s : St R) (off : Nat) (w : Nat), (s.mem.cells (s.wfn w).addr).contig = true → Used s (s.wfn w).addr →
      ((solveLoop trunc cls x s off comps).1.wfn w).addr = (s.wfn w).addr := by
  induction comps with
  | nil => intro s off w _ _; rfl
  | cons c rest ih =>
    intro s off w hcg hu
    rw [ParamHeap.solveLoop]
    split_ifs
    · have hnx := ravel_next s.mem (s.wfn c.1).addr
      have hcont : ((fillIn trunc s.mem x (s.wfn c.1).addr off c.2).cells (s.wfn w).addr).contig = true := by
        unfold fillIn setVals
        dsimp only
        split_ifs with e
        · rw [← e, ravel_cells s.mem _ _ hu]
          exact hcg
        · rw [ravel_cells s.mem _ _ hu]
          exact hcg
      have hself : w = c.1 → (ravel s.mem (s.wfn c.1).addr).2 = (s.wfn w).addr := by
        rintro rfl
        unfold ravel
        rw [if_pos hcg]
      set m := fillIn trunc s.mem x (s.wfn c.1).addr off c.2 with hm
      set a := (ravel s.mem (s.wfn c.1).addr).2 with ha
      cases hf : fits (cls c.1) (m.cells a).vals
      · rw [assign_some cls ⟨m, s.wfn⟩ c.1 a hf]
      · rw [assign_none cls ⟨m, s.wfn⟩ c.1 a hf]
        dsimp only
        have hw : ((setWfn ⟨m, s.wfn⟩ c.1 ⟨a, if (cls c.1).clears then [] else (s.wfn c.1).cache⟩).wfn w).addr =
            (s.wfn w).addr := by
          by_cases e : w = c.1
          · simp only [setWfn, if_pos e]
            exact hself e
          · simp only [setWfn, if_neg e]
        rw [ih, hw]
        · rw [hw]
          exact hcont
        · rw [hw]
          intro n hn
          exact lt_of_lt_of_le (hu n hn) hnx
    · rfl

/-- What the loop reads back from the components. -/
theorem solveLoop_read [Inhabited R] (trunc : R → R) (cls : Nat → Cls R) (x : Addr) (comps : List (Nat × List Nat)) :
    ∀ (s : St R) (off : Nat), Used s x → (∀ c ∈ comps, Used s (s.wfn c.1).addr) →
      (∀ c ∈ comps, (s.wfn c.1).addr ≠ x) →
      (comps.map (fun c => (s.wfn c.1).addr)).Nodup → (comps.map Prod.fst).Nodup →
      (∀ c ∈ comps, c.2.Nodup ∧ ∀ i ∈ c.2, i < (s.mem.cells (s.wfn c.1).addr).vals.length) →
      (∀ c ∈ comps, fits (cls c.1) (s.mem.cells (s.wfn c.1).addr).vals = true) →
      off + (comps.map (fun c => c.2.length)).sum = (s.mem.cells x).vals.length →
      (solveLoop trunc cls x s off comps).2 = none ∧
      (∀ f : R → R, (∀ c ∈ comps, ∀ v, (if (s.mem.cells (s.wfn c.1).addr).ints then trunc v else v) = f v) →
        activeParams (solveLoop trunc cls x s off comps).1 comps = ((s.mem.cells x).vals.drop off).map f) := by
  induction comps with
  | nil =>
    intro s off _ _ _ _ _ _ _ hsum
    refine ⟨rfl, fun f _ => ?_⟩
    simp only [List.map_nil, List.sum_nil, Nat.add_zero] at hsum
    rw [hsum, List.drop_length]
    rfl
  | cons c rest ih =>
    intro s off hx hused hnx hadr hkeys hin hfit hsum
    rw [List.map_cons, List.nodup_cons] at hadr hkeys
    rw [List.map_cons, List.sum_cons] at hsum
    rw [ParamHeap.solveLoop, if_pos (hin c List.mem_cons_self).2]
    have hnext := ravel_next s.mem (s.wfn c.1).addr
    have hfv := (fillIn_vals trunc s.mem x (s.wfn c.1).addr off c.2).1
    have hfo := fillIn_other trunc s.mem x (s.wfn c.1).addr off c.2
    have hra : ∀ b, Used s b → (s.wfn c.1).addr ≠ b → b ≠ (ravel s.mem (s.wfn c.1).addr).2 := by
      intro b hb hne
      rcases ravel_addr s.mem (s.wfn c.1).addr with e | e
      · rw [e]
        exact hne.symm
      · rw [e]
        intro e'
        exact absurd (hb _ e') (lt_irrefl _)
    have hrl := ravel_lt s.mem (s.wfn c.1).addr (hused c List.mem_cons_self)
    have hmn : (fillIn trunc s.mem x (s.wfn c.1).addr off c.2).next = (ravel s.mem (s.wfn c.1).addr).1.next := rfl
    set m := fillIn trunc s.mem x (s.wfn c.1).addr off c.2 with hm
    set a := (ravel s.mem (s.wfn c.1).addr).2 with ha
    have hf : fits (cls c.1) (m.cells a).vals = true := by
      rw [hfv, fits_length _ _ (s.mem.cells (s.wfn c.1).addr).vals (by rw [put_length])]
      exact hfit c List.mem_cons_self
    rw [assign_none cls ⟨m, s.wfn⟩ c.1 a hf]
    dsimp only
    set s' := setWfn (⟨m, s.wfn⟩ : St R) c.1 ⟨a, if (cls c.1).clears then [] else (s.wfn c.1).cache⟩ with hs'
    have hmem : s'.mem = m := rfl
    have hrestne : ∀ d ∈ rest, d.1 ≠ c.1 := by
      intro d hd e
      exact hkeys.1 (List.mem_map.2 ⟨d, hd, e⟩)
    have hwd : ∀ d ∈ rest, s'.wfn d.1 = s.wfn d.1 := by
      intro d hd
      simp [hs', setWfn, hrestne d hd]
    have hcd : ∀ d ∈ rest, (s.wfn c.1).addr ≠ (s.wfn d.1).addr := by
      intro d hd e
      exact hadr.1 (List.mem_map.2 ⟨d, hd, e.symm⟩)
    have hcells : ∀ d ∈ rest, m.cells (s.wfn d.1).addr = s.mem.cells (s.wfn d.1).addr := fun d hd =>
      hfo _ (hra _ (hused d (List.mem_cons_of_mem _ hd)) (hcd d hd)) (hused d (List.mem_cons_of_mem _ hd))
    have hxc : m.cells x = s.mem.cells x := hfo _ (hra _ hx (hnx c List.mem_cons_self)) hx
    have hmono : ∀ b, Used s b → Used s' b := fun b hb n hn => lt_of_lt_of_le (hb n hn) hnext
    obtain ⟨h1, h2⟩ := ih s' (off + c.2.length) (hmono _ hx)
      (by
        intro d hd
        rw [hwd d hd]
        exact hmono _ (hused d (List.mem_cons_of_mem _ hd)))
      (by
        intro d hd
        rw [hwd d hd]
        exact hnx d (List.mem_cons_of_mem _ hd))
      (by
        rw [List.map_congr_left (g := fun c => (s.wfn c.1).addr) (fun d hd => by rw [hwd d hd])]
        exact hadr.2)
      hkeys.2
      (by
        intro d hd
        rw [hwd d hd, hmem, hcells d hd]
        exact hin d (List.mem_cons_of_mem _ hd))
      (by
        intro d hd
        rw [hwd d hd, hmem, hcells d hd]
        exact hfit d (List.mem_cons_of_mem _ hd))
      (by
        rw [hmem, hxc, ← hsum]
        omega)
    refine ⟨h1, ?_⟩
    intro f hff
    have h2' := h2 f (by
      intro d hd u
      rw [hwd d hd, hmem, hcells d hd]
      exact hff d (List.mem_cons_of_mem _ hd) u)
    have hca : ((solveLoop trunc cls x s' (off + c.2.length) rest).1.wfn c.1).addr = a := by
      rw [solveLoop_wfn _ _ _ _ _ _ _ hrestne]
      simp [hs', setWfn]
    have hua : Used s' a := fun n hn => by
      rw [hmem, hmn]
      exact hrl n hn
    have hcm : (solveLoop trunc cls x s' (off + c.2.length) rest).1.mem.cells a = m.cells a := by
      exact solveLoop_frame _ _ _ _ _ _ _ hua (by
        intro d hd
        rw [hwd d hd]
        exact hra _ (hused d (List.mem_cons_of_mem _ hd)) (hcd d hd))
    unfold activeParams at h2' ⊢
    rw [List.flatMap_cons, h2', hca, hcm, hfv]
    rw [put_read _ _ _ (hin c List.mem_cons_self).1 (hin c List.mem_cons_self).2 (by
      rw [List.length_map, List.length_take, List.length_drop, ← hsum]
      omega)]
    rw [hmem, hxc]
    have hfun : (fun v => if (s.mem.cells (s.wfn c.1).addr).ints = true then trunc v else v) = f :=
      funext (hff c List.mem_cons_self)
    rw [hfun, ← List.map_append]
    congr 1
    rw [← List.drop_drop, List.take_append_drop]

variable [Add R]

/-- One event. -/
theorem Inv.step {cls : Nat → Cls R} (hc : ∀ w, (cls w).cached = true → (cls w).clears = true)
    (trunc : R → R) {s : St R} {v : VSt R} (h : Inv cls s v) (e : Ev R) (he : Allowed v e) :
    Inv cls (step trunc cls s e).1 (vstep cls v e).1 ∧ (step trunc cls s e).2 = (vstep cls v e).2 := by
  cases e with
  | new k c =>
    obtain ⟨hk, hi⟩ := he
    refine ⟨?_, rfl⟩
    exact h.array (newArr s.mem k c) k c.vals hk (fun b hb => by simp [newArr, hb]) rfl (by simp [newArr])
      (by simp [newArr, hi])
  | write a i r =>
    cases a with
    | inr n => exact absurd he id
    | inl k =>
      have hk : k ∉ v.lent := he
      simp only [ParamHeap.step, vstep]
      rw [h.arrays k hk]
      by_cases hi : i < (v.arr k).length
      · rw [if_pos hi, if_pos hi]
        refine ⟨?_, rfl⟩
        refine h.array _ k _ hk (fun b hb => by simp [setVals, hb]) rfl ?_ (by simp [setVals, h.floats k])
        simp only [setVals, if_true]
        rw [scatter_float _ _ (h.floats k), h.arrays k hk]
        rfl
      · rw [if_neg hi, if_neg hi]
        exact ⟨h, rfl⟩
  | assign w a =>
    cases a with
    | inr n => exact absurd he id
    | inl k =>
      have hk : k ∉ v.lent := he
      simp only [ParamHeap.step, vstep, become]
      cases hf : fits (cls w) (v.arr k)
      · rw [assign_some _ _ _ _ (by rw [h.arrays k hk]; exact hf)]
        exact ⟨h, rfl⟩
      · rw [assign_none _ _ _ _ (by rw [h.arrays k hk]; exact hf)]
        refine ⟨?_, rfl⟩
        exact h.own hc s.mem w (Sum.inl k) (v.arr k) [k] (h.arrays k hk) (h.floats k) (fun _ _ _ => rfl)
          (le_refl _) (by rintro j ⟨⟩; simp) (by intro n hn; cases hn)
          (fun u q hq _ e => hk (h.lent u q k hq e)) hf
  | noise w a r =>
    cases a with
    | inr n => exact absurd he id
    | inl k =>
      obtain ⟨hk, hr⟩ := he
      simp only [ParamHeap.step, vstep, become, assignNoise]
      cases hf : fits (cls w) (v.arr k)
      · rw [assign_some _ _ _ _ (by rw [h.arrays k hk]; exact hf)]
        exact ⟨h, rfl⟩
      · rw [assign_none _ _ _ _ (by rw [h.arrays k hk]; exact hf)]
        simp only [h.floats k, h.arrays k hk, Bool.false_eq_true, if_false, if_true]
        refine ⟨?_, trivial⟩
        refine h.own hc (setVals s.mem (Sum.inl k) _) w (Sum.inl k) (List.zipWith (· + ·) (v.arr k) r) [k] ?_ ?_ ?_
          (le_refl _) (by rintro j ⟨⟩; simp) (by intro n hn; cases hn)
          (fun u q hq _ e => hk (h.lent u q k hq e)) ?_
        · simp [setVals]
        · simp [setVals, h.floats k]
        · intro b hb _
          simp [setVals, hb]
        · rw [fits_length _ _ (v.arr k) (by simp [hr])]
          exact hf
  | default w p =>
    simp only [ParamHeap.step, vstep, become]
    have hv : ((alloc s.mem ⟨false, true, p⟩).cells (Sum.inr s.mem.next)).vals = p := by simp [alloc]
    have ho : ∀ b, (∀ n, b = Sum.inr n → n < s.mem.next) →
        (alloc s.mem ⟨false, true, p⟩).cells b = s.mem.cells b := by
      intro b hb
      simp only [alloc]
      rw [if_neg]
      intro e
      exact absurd (hb _ e) (lt_irrefl _)
    cases hf : fits (cls w) p
    · rw [assign_some _ _ _ _ (by dsimp only; rw [hv]; exact hf)]
      exact ⟨h.mem _ ho (Nat.le_succ _), rfl⟩
    · rw [assign_none _ _ _ _ (by dsimp only; rw [hv]; exact hf)]
      refine ⟨?_, rfl⟩
      exact h.own hc _ w (Sum.inr s.mem.next) p [] hv (by simp [alloc]) (fun b _ hb => ho b hb)
          (Nat.le_succ _) (by intro k hk; cases hk) (by rintro n ⟨⟩; exact Nat.lt_succ_self _)
          (fun u q hq _ e => absurd (h.next u q _ hq e) (lt_irrefl _)) hf
  | take w w' => exact absurd he id
  | copy w w' =>
    obtain ⟨p, hp⟩ := Option.isSome_iff_exists.1 (show (v.par w').isSome from he)
    simp only [ParamHeap.step, vstep, become, hp, Option.getD_some, h.vals w' p hp]
    have hv : ((alloc s.mem ⟨false, true, p⟩).cells (Sum.inr s.mem.next)).vals = p := by simp [alloc]
    have ho : ∀ b, (∀ n, b = Sum.inr n → n < s.mem.next) →
        (alloc s.mem ⟨false, true, p⟩).cells b = s.mem.cells b := by
      intro b hb
      simp only [alloc]
      rw [if_neg]
      intro e
      exact absurd (hb _ e) (lt_irrefl _)
    cases hf : fits (cls w) p
    · rw [assign_some _ _ _ _ (by dsimp only; rw [hv]; exact hf)]
      exact ⟨h.mem _ ho (Nat.le_succ _), rfl⟩
    · rw [assign_none _ _ _ _ (by dsimp only; rw [hv]; exact hf)]
      refine ⟨?_, rfl⟩
      exact h.own hc _ w (Sum.inr s.mem.next) p [] hv (by simp [alloc]) (fun b _ hb => ho b hb)
          (Nat.le_succ _) (by intro k hk; cases hk) (by rintro n ⟨⟩; exact Nat.lt_succ_self _)
          (fun u q hq _ e => absurd (h.next u q _ hq e) (lt_irrefl _)) hf
  | solve x comps =>
    cases x with
    | inr n => exact absurd he id
    | inl k =>
      obtain ⟨hk, hal⟩ := he
      simp only [ParamHeap.step, vstep, solve]
      rw [h.arrays k hk]
      by_cases hl : (comps.map (fun c => c.2.length)).sum = (v.arr k).length
      · rw [if_pos hl, if_pos hl]
        exact Inv.solveLoop hc trunc k comps s v 0 h hk hal
      · rw [if_neg hl, if_neg hl]
        exact ⟨h, rfl⟩
  | overlap w sd =>
    obtain ⟨p, hp⟩ := Option.isSome_iff_exists.1 (show (v.par w).isSome from he)
    simp only [ParamHeap.step, vstep, hp, Option.getD_some, overlap, h.vals w p hp]
    by_cases hca : (cls w).cached = true
    · rw [if_pos hca]
      cases hlk : (s.wfn w).cache.lookup sd with
      | some r => exact ⟨h, congrArg Sum.inr (h.cache w p sd r hp hca hlk)⟩
      | none =>
        refine ⟨?_, rfl⟩
        have haddr : ∀ u, ((setWfn s w ⟨(s.wfn w).addr, (sd, (cls w).olp p sd) :: (s.wfn w).cache⟩).wfn u).addr =
            (s.wfn u).addr := by
          intro u
          simp only [setWfn]
          split_ifs with hu
          · rw [hu]
          · rfl
        refine ⟨h.floats, h.arrays, ?_, ?_, ?_, ?_, h.size, ?_, ?_⟩
        · intro u q hq
          rw [haddr]
          exact h.vals u q hq
        · intro u q hq
          rw [haddr]
          exact h.pfloat u q hq
        · intro u q j hq hj
          rw [haddr] at hj
          exact h.lent u q j hq hj
        · intro u q j hq hj
          rw [haddr] at hj
          exact h.next u q j hq hj
        · intro u q sd' r hq hcu hr
          by_cases hu : u = w
          · subst hu
            simp only [setWfn, if_true] at hr
            rw [hp] at hq
            obtain rfl := Option.some.inj hq
            rw [List.lookup_cons] at hr
            by_cases hsd : sd' = sd
            · subst hsd
              simp at hr
              exact hr.symm
            · have : (sd' == sd) = false := by simpa using hsd
              rw [this] at hr
              exact h.cache u p sd' r hp hcu hr
          · simp only [setWfn, if_neg hu] at hr
            exact h.cache u q sd' r hq hcu hr
        · intro u u' q q' hq hq' huu
          rw [haddr, haddr]
          exact h.apart u u' q q' hq hq' huu
    · rw [if_neg hca]
      exact ⟨h, rfl⟩

theorem Inv.run {cls : Nat → Cls R} (hc : ∀ w, (cls w).cached = true → (cls w).clears = true)
    (trunc : R → R) (es : List (Ev R)) :
    ∀ {s : St R} {v : VSt R}, Inv cls s v → AllAllowed cls v es →
    Inv cls (run trunc cls s es).1 (vrun cls v es).1 ∧ (run trunc cls s es).2 = (vrun cls v es).2 := by
  induction es with
  | nil =>
    intro s v h _
    exact ⟨h, rfl⟩
  | cons e es ih =>
    intro s v h he
    obtain ⟨h1, h2⟩ := h.step hc trunc e he.1
    obtain ⟨h3, h4⟩ := ih h1 he.2
    refine ⟨h3, ?_⟩
    rw [ParamHeap.run, vrun]
    dsimp only
    rw [h2, h4]

end Fanpy.ParamHeap
