import Verif.Lemmas.Matching
import Verif.Lemmas.Perms
import Verif.Lemmas.Bulk

/-! # Property C19: `generate_general_pmatch` -/

namespace Fanpy.Props
open Fanpy.Graphs Fanpy.Spec Fanpy.Slater

theorem isPM_insert {a b : ℕ} {s : Finset ℕ} {M : Finset (Sym2 ℕ)} (ha : a ∉ s) (hb : b ∈ s)
    (h : IsPM (s.erase b) M) : IsPM (insert a s) (insert s(a, b) M) := by
  obtain ⟨h1, h2⟩ := h
  have hab : a ≠ b := fun e => ha (e ▸ hb)
  have ha' : ∀ e ∈ M, a ∉ e := fun e he hae => ha (Finset.mem_of_mem_erase ((h1 e he).2 a hae))
  have hb' : ∀ e ∈ M, b ∉ e := fun e he hae => Finset.notMem_erase b s ((h1 e he).2 b hae)
  refine ⟨?_, ?_⟩
  · intro e he
    rw [Finset.mem_insert] at he
    rcases he with rfl | he
    · exact ⟨by simpa using hab, by intro x hx; simp at hx; rcases hx with rfl | rfl <;> simp [hb]⟩
    · exact ⟨(h1 e he).1, fun x hx => Finset.mem_insert_of_mem (Finset.mem_of_mem_erase ((h1 e he).2 x hx))⟩
  · intro x hx
    by_cases hx' : x = a ∨ x = b
    · refine ⟨s(a, b), ⟨by simp, by simpa using hx'⟩, ?_⟩
      rintro e ⟨he, hxe⟩
      rw [Finset.mem_insert] at he
      rcases he with rfl | he
      · rfl
      · rcases hx' with rfl | rfl
        · exact absurd hxe (ha' e he)
        · exact absurd hxe (hb' e he)
    · rw [not_or] at hx'
      have hxs : x ∈ s.erase b := by
        rw [Finset.mem_insert] at hx
        exact Finset.mem_erase.2 ⟨hx'.2, hx.resolve_left hx'.1⟩
      obtain ⟨e, ⟨he, hxe⟩, hu⟩ := h2 x hxs
      refine ⟨e, ⟨Finset.mem_insert_of_mem he, hxe⟩, ?_⟩
      rintro e' ⟨he', hxe'⟩
      rw [Finset.mem_insert] at he'
      rcases he' with rfl | he'
      · simp at hxe'; tauto
      · exact hu e' ⟨he', hxe'⟩

theorem isPM_split {a : ℕ} {s : Finset ℕ} {M : Finset (Sym2 ℕ)} (ha : a ∉ s) (h : IsPM (insert a s) M) :
    ∃ b ∈ s, ∃ M', IsPM (s.erase b) M' ∧ M = insert s(a, b) M' := by
  obtain ⟨h1, h2⟩ := h
  obtain ⟨e0, ⟨he0, hae0⟩, hu0⟩ := h2 a (by simp)
  obtain ⟨b, rfl⟩ := Sym2.mem_iff_exists.1 hae0
  have hab : a ≠ b := by simpa using (h1 _ he0).1
  have hb : b ∈ s := by
    have := (h1 _ he0).2 b (by simp)
    rw [Finset.mem_insert] at this
    exact this.resolve_left hab.symm
  have hbu : ∀ e ∈ M, b ∈ e → e = s(a, b) := by
    intro e he hbe
    obtain ⟨e1, -, hu1⟩ := h2 b (by simp [hb])
    rw [hu1 e ⟨he, hbe⟩, hu1 s(a, b) ⟨he0, by simp⟩]
  refine ⟨b, hb, M.erase s(a, b), ⟨?_, ?_⟩, (Finset.insert_erase he0).symm⟩
  · intro e he
    rw [Finset.mem_erase] at he
    refine ⟨(h1 e he.2).1, fun x hx => ?_⟩
    have hx' := (h1 e he.2).2 x hx
    rw [Finset.mem_insert] at hx'
    rw [Finset.mem_erase]
    refine ⟨fun hxb => he.1 (hbu e he.2 (hxb ▸ hx)), hx'.resolve_left fun hxa => he.1 (hu0 e ⟨he.2, hxa ▸ hx⟩)⟩
  · intro x hx
    rw [Finset.mem_erase] at hx
    obtain ⟨e, ⟨he, hxe⟩, hu⟩ := h2 x (by simp [hx.2])
    refine ⟨e, ⟨?_, hxe⟩, ?_⟩
    · rw [Finset.mem_erase]
      refine ⟨?_, he⟩
      rintro rfl
      simp at hxe
      rcases hxe with rfl | rfl
      · exact ha hx.2
      · exact hx.1 rfl
    · rintro e' ⟨he', hxe'⟩
      exact hu e' ⟨Finset.mem_of_mem_erase he', hxe'⟩

theorem pm_insert_inj {a b c : ℕ} {M M' : Finset (Sym2 ℕ)} (hM : ∀ e ∈ M, a ∉ e) (hM' : ∀ e ∈ M', a ∉ e)
    (h : insert s(a, b) M = insert s(a, c) M') : b = c ∧ M = M' := by
  have hbc : b = c := by
    have : s(a, b) ∈ insert s(a, c) M' := by rw [← h]; simp
    rw [Finset.mem_insert] at this
    rcases this with h1 | h1
    · rw [Sym2.eq_iff] at h1
      rcases h1 with h1 | h1
      · exact h1.2
      · exact h1.2.trans h1.1
    · exact absurd (by simp) (hM' _ h1)
  subst hbc
  refine ⟨rfl, ?_⟩
  rw [← Finset.erase_insert (a := s(a, b)) (s := M) (fun hm => hM _ hm (by simp)), h,
    Finset.erase_insert (fun hm => hM' _ hm (by simp))]

/-- The pairs of `M` other than the one whose first element comes last in `l` are connected. -/
def Conn (adj : ℕ → ℕ → Bool) (l : List ℕ) (M : Finset (Sym2 ℕ)) : Prop :=
  ∀ x y x' y', [x, y].Sublist l → [x', y'].Sublist l → [x, x'].Sublist l → s(x, y) ∈ M → s(x', y') ∈ M →
    adj x y = true

theorem pair_sublist_cons {a x y : ℕ} {l : List ℕ} :
    [x, y].Sublist (a :: l) ↔ [x, y].Sublist l ∨ (x = a ∧ y ∈ l) := by
  rw [List.sublist_cons_iff]
  constructor
  · rintro (h | ⟨r, hr, hs⟩)
    · exact Or.inl h
    · simp only [List.cons.injEq] at hr
      obtain ⟨rfl, rfl⟩ := hr
      exact Or.inr ⟨rfl, by simpa using hs⟩
  · rintro (h | ⟨rfl, h⟩)
    · exact Or.inl h
    · exact Or.inr ⟨[y], rfl, by simpa using h⟩

theorem pair_sublist_or {x y : ℕ} {l : List ℕ} (hx : x ∈ l) (hy : y ∈ l) (hxy : x ≠ y) :
    [x, y].Sublist l ∨ [y, x].Sublist l := by
  induction l with
  | nil => simp at hx
  | cons a l ih =>
    rw [pair_sublist_cons, pair_sublist_cons]
    rw [List.mem_cons] at hx hy
    rcases hx with rfl | hx
    · rcases hy with rfl | hy
      · exact absurd rfl hxy
      · exact Or.inl (Or.inr ⟨rfl, hy⟩)
    · rcases hy with rfl | hy
      · exact Or.inr (Or.inr ⟨rfl, hx⟩)
      · rcases ih hx hy with h | h
        · exact Or.inl (Or.inl h)
        · exact Or.inr (Or.inl h)

theorem pair_sublist_erase {x y b : ℕ} {l : List ℕ} (hn : l.Nodup) :
    [x, y].Sublist (l.erase b) ↔ [x, y].Sublist l ∧ x ≠ b ∧ y ≠ b := by
  constructor
  · intro h
    have hx : x ∈ l.erase b := h.subset (by simp)
    have hy : y ∈ l.erase b := h.subset (by simp)
    rw [hn.mem_erase_iff] at hx hy
    exact ⟨h.trans List.erase_sublist, hx.1, hy.1⟩
  · rintro ⟨h, hx, hy⟩
    have := h.erase b
    rwa [List.erase_of_not_mem (by simp; exact ⟨fun e => hx e.symm, fun e => hy e.symm⟩)] at this

theorem conn_cons {adj : ℕ → ℕ → Bool} {a b : ℕ} {l : List ℕ} {M : Finset (Sym2 ℕ)} (hn : (a :: l).Nodup) (hb : b ∈ l)
    (hM : IsPM (l.erase b).toFinset M) (hne : l.erase b ≠ []) :
    Conn adj (a :: l) (insert s(a, b) M) ↔ adj a b = true ∧ Conn adj (l.erase b) M := by
  rw [List.nodup_cons] at hn
  obtain ⟨ha, hl⟩ := hn
  have hmem : ∀ x y, s(x, y) ∈ M → x ∈ l ∧ x ≠ b ∧ y ∈ l ∧ y ≠ b ∧ x ≠ y := by
    intro x y h
    have h1 := (hM.1 _ h).2 x (by simp)
    have h2 := (hM.1 _ h).2 y (by simp)
    have h3 := (hM.1 _ h).1
    rw [List.mem_toFinset, hl.mem_erase_iff] at h1 h2
    exact ⟨h1.2, h1.1, h2.2, h2.1, by simpa using h3⟩
  constructor
  · intro h
    refine ⟨?_, ?_⟩
    · obtain ⟨z, hz⟩ := List.exists_mem_of_ne_nil _ hne
      obtain ⟨e, ⟨he, hze⟩, -⟩ := hM.2 z (by simpa using hz)
      obtain ⟨w, rfl⟩ := Sym2.mem_iff_exists.1 hze
      obtain ⟨z1, z2, w1, w2, zw⟩ := hmem _ _ he
      rcases pair_sublist_or z1 w1 zw with hs | hs
      · exact h a b z w (pair_sublist_cons.2 (Or.inr ⟨rfl, hb⟩)) (pair_sublist_cons.2 (Or.inl hs))
          (pair_sublist_cons.2 (Or.inr ⟨rfl, z1⟩)) (by simp) (by simp [he])
      · exact h a b w z (pair_sublist_cons.2 (Or.inr ⟨rfl, hb⟩)) (pair_sublist_cons.2 (Or.inl hs))
          (pair_sublist_cons.2 (Or.inr ⟨rfl, w1⟩)) (by simp) (by rw [Sym2.eq_swap (a := w)]; simp [he])
    · intro x y x' y' h1 h2 h3 h4 h5
      rw [pair_sublist_erase hl] at h1 h2 h3
      exact h x y x' y' (pair_sublist_cons.2 (Or.inl h1.1)) (pair_sublist_cons.2 (Or.inl h2.1))
        (pair_sublist_cons.2 (Or.inl h3.1)) (by simp [h4]) (by simp [h5])
  · rintro ⟨hab, h⟩ x y x' y' h1 h2 h3 h4 h5
    rw [Finset.mem_insert] at h4 h5
    rw [pair_sublist_cons] at h1 h2 h3
    have nab : a ≠ b := fun e => ha (e ▸ hb)
    rcases h4 with h4 | h4
    · rw [Sym2.eq_iff] at h4
      rcases h4 with ⟨rfl, rfl⟩ | ⟨rfl, rfl⟩
      · exact hab
      · rcases h1 with h1 | h1
        · exact absurd (h1.subset (by simp)) ha
        · exact absurd h1.1.symm nab
    · obtain ⟨x1, x2, y1, y2, -⟩ := hmem _ _ h4
      have xa : x ≠ a := fun e => ha (e ▸ x1)
      rcases h5 with h5 | h5
      · rw [Sym2.eq_iff] at h5
        rcases h5 with ⟨rfl, rfl⟩ | ⟨rfl, rfl⟩
        · rcases h3 with h3 | h3
          · exact absurd (h3.subset (by simp)) ha
          · exact absurd h3.1 xa
        · rcases h2 with h2 | h2
          · exact absurd (h2.subset (by simp)) ha
          · exact absurd h2.1.symm nab
      · obtain ⟨x1', x2', y1', y2', -⟩ := hmem _ _ h5
        have xa' : x' ≠ a := fun e => ha (e ▸ x1')
        refine h x y x' y' ?_ ?_ ?_ h4 h5
        · exact (pair_sublist_erase hl).2 ⟨h1.resolve_right (fun e => xa e.1), x2, y2⟩
        · exact (pair_sublist_erase hl).2 ⟨h2.resolve_right (fun e => xa' e.1), x2', y2'⟩
        · exact (pair_sublist_erase hl).2 ⟨h3.resolve_right (fun e => xa e.1), x2, x2'⟩

theorem pair_sublist_iff {x y : ℕ} {l : List ℕ} : [x, y].Sublist l ↔ ∃ i j : ℕ, i < j ∧ l[i]? = some x ∧ l[j]? = some y := by
  induction l with
  | nil => simp
  | cons a l ih =>
    rw [pair_sublist_cons, ih]
    constructor
    · rintro (⟨i, j, h, h1, h2⟩ | ⟨rfl, h⟩)
      · exact ⟨i + 1, j + 1, by omega, by simpa using h1, by simpa using h2⟩
      · obtain ⟨j, hj⟩ := List.mem_iff_getElem?.1 h
        exact ⟨0, j + 1, by omega, by simp, by simpa using hj⟩
    · rintro ⟨i, j, h, h1, h2⟩
      obtain ⟨j, rfl⟩ : ∃ j', j = j' + 1 := ⟨j - 1, by omega⟩
      rw [List.getElem?_cons_succ] at h2
      rcases i with - | i
      · right
        exact ⟨by simpa using h1.symm, List.mem_of_getElem? h2⟩
      · left
        exact ⟨i, j, by omega, by simpa using h1, h2⟩

theorem toFinset_erase_nodup {l : List ℕ} (h : l.Nodup) {b : ℕ} : (l.erase b).toFinset = l.toFinset.erase b := by
  ext x; simp [h.mem_erase_iff]

theorem list_eq_map_getD (l : List ℕ) : l = (List.range l.length).map (fun k => l.getD k 0) := by
  apply List.ext_getElem
  · simp
  · intro i h1 h2; rw [List.getElem_map, List.getElem_range, List.getD_eq_getElem _ _ h1]

theorem mask_map (one : ℕ) (rest : List ℕ) (two : ℕ) (hn : (one :: rest).Nodup) :
    ((List.range (one :: rest).length).filter fun k =>
      decide ((one :: rest).getD k 0 ≠ one ∧ (one :: rest).getD k 0 ≠ two) && decide (0 < k)).map
        (fun k => (one :: rest).getD k 0) = rest.erase two := by
  rw [List.nodup_cons] at hn
  rw [List.length_cons, List.range_succ_eq_map, List.filter_cons_of_neg (by simp), List.filter_map, List.map_map,
    hn.2.erase_eq_filter]
  conv_rhs => rw [list_eq_map_getD rest, List.filter_map]
  have hf : ∀ k ∈ List.range rest.length,
      (((fun k => decide ((one :: rest).getD k 0 ≠ one ∧ (one :: rest).getD k 0 ≠ two) && decide (0 < k)) ∘ Nat.succ) k)
        = (((fun x => x != two) ∘ fun k => rest.getD k 0) k) := by
    intro k hk
    rw [List.mem_range] at hk
    have : rest.getD k 0 ≠ one := by
      rw [List.getD_eq_getElem _ _ hk]
      intro e; exact hn.1 (e ▸ List.getElem_mem _)
    simp only [Function.comp, List.getD_cons_succ]
    rw [Bool.eq_iff_iff]
    simp only [ne_eq, this, not_false_eq_true, true_and, Nat.succ_pos, decide_true, Bool.and_true, decide_eq_true_eq,
      bne_iff_ne]
  rw [List.filter_congr hf]
  rfl

theorem aux_spec (adj : ℕ → ℕ → Bool) (fuel : ℕ) : ∀ (l : List ℕ) (con : ℕ → ℕ → Bool), l.length ≤ fuel → l.Nodup →
    l ≠ [] → (∀ i j, i < l.length → j < l.length → con i j = adj (l.getD i 0) (l.getD j 0)) →
    ((generalPmatchAux fuel l con).map fun p => edges p.1).Nodup ∧
    (∀ M, M ∈ (generalPmatchAux fuel l con).map (fun p => edges p.1) ↔ IsPM l.toFinset M ∧ Conn adj l M) ∧
    (∀ p ∈ generalPmatchAux fuel l con,
      (flatPairs p.1).Perm l ∧ p.2 = listSign (flatPairs p.1) * listSign l ∧ (p.1.map Prod.fst).Sublist l ∧
        ∀ q ∈ p.1, [q.1, q.2].Sublist l) := by
  induction fuel with
  | zero => intro l con h; simp at h; intro _ h2; exact absurd h h2
  | succ fuel ih =>
    intro l con hlen hn hne hcon
    match l, hne with
    | [a], _ =>
      refine ⟨by simp [generalPmatchAux], ?_, by simp [generalPmatchAux]⟩
      intro M
      simp only [generalPmatchAux, List.map_nil, List.not_mem_nil, false_iff]
      rintro ⟨⟨h1, h2⟩, -⟩
      obtain ⟨e, ⟨he, hae⟩, -⟩ := h2 a (by simp)
      obtain ⟨b, rfl⟩ := Sym2.mem_iff_exists.1 hae
      have := (h1 _ he).2 b (by simp)
      simp at this
      exact (h1 _ he).1 (by simp [this])
    | [a, b], _ =>
      have hab : a ≠ b := by simpa using hn
      refine ⟨by simp [generalPmatchAux], ?_, ?_⟩
      · intro M
        simp only [generalPmatchAux, List.map_cons, List.map_nil, List.mem_singleton]
        have he : edges [(a, b)] = insert s(a, b) ∅ := by simp [edges]
        constructor
        · rintro rfl
          refine ⟨?_, ?_⟩
          · rw [he]
            have : IsPM (Finset.erase ({b} : Finset ℕ) b) ∅ := by simp [IsPM]
            simpa using isPM_insert (a := a) (s := {b}) (by simpa using hab) (by simp) this
          · intro x y x' y' h1 h2 h3 h4 h5
            simp only [edges, List.map_cons, List.map_nil, List.toFinset_cons, List.toFinset_nil, insert_empty_eq,
              Finset.mem_singleton] at h4 h5
            have hn' : ∀ u v, [u, v].Sublist [a, b] → u = a ∧ v = b := by
              intro u v h
              have := h.eq_of_length (by simp)
              simpa using this
            obtain ⟨rfl, rfl⟩ := hn' _ _ h1
            obtain ⟨rfl, rfl⟩ := hn' _ _ h2
            have := hn' _ _ h3
            exact absurd this.2 hab
        · rintro ⟨h, -⟩
          rw [List.toFinset_cons] at h
          obtain ⟨c, hc, M', hM', rfl⟩ := isPM_split (by simpa using hab) h
          simp only [List.toFinset_cons, List.toFinset_nil, insert_empty_eq, Finset.mem_singleton] at hc hM'
          subst hc
          have : M' = ∅ := by
            rw [Finset.eq_empty_iff_forall_notMem]
            intro e he'
            induction e with
            | h u v => simpa using (hM'.1 _ he').2 u (by simp)
          rw [he, this]
      · intro p hp
        simp only [generalPmatchAux, List.mem_singleton] at hp
        subst hp
        refine ⟨by simp [flatPairs], ?_, by simp, by simp⟩
        simp only [flatPairs, List.flatMap_cons, List.flatMap_nil, List.append_nil]
        rw [listSign_sq]
    | one :: b :: c :: rest', _ =>
      set rest := b :: c :: rest' with hrest
      have hn2 := List.nodup_cons.1 hn
      -- the recursive call for position `j`
      have step : generalPmatchAux (fuel + 1) (one :: rest) con =
          ((List.range rest.length).filter fun j => con 0 (j + 1)).flatMap fun j =>
            (generalPmatchAux fuel (rest.erase (rest.getD j 0))
              (fun x y => con
                (((List.range (one :: rest).length).filter fun k => decide ((one :: rest).getD k 0 ≠ one ∧
                  (one :: rest).getD k 0 ≠ rest.getD j 0) && decide (0 < k)).getD x 0)
                (((List.range (one :: rest).length).filter fun k => decide ((one :: rest).getD k 0 ≠ one ∧
                  (one :: rest).getD k 0 ≠ rest.getD j 0) && decide (0 < k)).getD y 0))).map fun p =>
              ((one, rest.getD j 0) :: p.1, (-1) ^ j * p.2) := by
        rw [generalPmatchAux]
        simp only [List.getD_cons_succ]
        simp only [← hrest]
        congr 1
        funext j
        rw [mask_map one rest _ hn]
      have hrec : ∀ j, j < rest.length → ∀ con', con' = (fun x y => con
                (((List.range (one :: rest).length).filter fun k => decide ((one :: rest).getD k 0 ≠ one ∧
                  (one :: rest).getD k 0 ≠ rest.getD j 0) && decide (0 < k)).getD x 0)
                (((List.range (one :: rest).length).filter fun k => decide ((one :: rest).getD k 0 ≠ one ∧
                  (one :: rest).getD k 0 ≠ rest.getD j 0) && decide (0 < k)).getD y 0)) →
          rest.erase (rest.getD j 0) ≠ [] ∧ rest.getD j 0 ∈ rest ∧
          ((generalPmatchAux fuel (rest.erase (rest.getD j 0)) con').map fun p => edges p.1).Nodup ∧
          (∀ M, M ∈ (generalPmatchAux fuel (rest.erase (rest.getD j 0)) con').map (fun p => edges p.1) ↔
            IsPM (rest.erase (rest.getD j 0)).toFinset M ∧ Conn adj (rest.erase (rest.getD j 0)) M) ∧
          (∀ p ∈ generalPmatchAux fuel (rest.erase (rest.getD j 0)) con',
            (flatPairs p.1).Perm (rest.erase (rest.getD j 0)) ∧
              p.2 = listSign (flatPairs p.1) * listSign (rest.erase (rest.getD j 0)) ∧
              (p.1.map Prod.fst).Sublist (rest.erase (rest.getD j 0)) ∧
              ∀ q ∈ p.1, [q.1, q.2].Sublist (rest.erase (rest.getD j 0))) := by
        rintro j hj con' rfl
        have hmem : rest.getD j 0 ∈ rest := by
          rw [List.getD_eq_getElem _ _ hj]; exact List.getElem_mem _
        have hl : (rest.erase (rest.getD j 0)).length = rest.length - 1 := List.length_erase_of_mem hmem
        have hne' : rest.erase (rest.getD j 0) ≠ [] := by
          intro h; rw [h] at hl; simp [hrest] at hl
        refine ⟨hne', hmem, ?_⟩
        apply ih
        · rw [hl]; simp at hlen ⊢; omega
        · exact hn2.2.erase _
        · exact hne'
        · have hmm := mask_map one rest (rest.getD j 0) hn
          set mask := (List.range (one :: rest).length).filter fun k => decide ((one :: rest).getD k 0 ≠ one ∧
                  (one :: rest).getD k 0 ≠ rest.getD j 0) && decide (0 < k) with hmask
          have hml : mask.length = (rest.erase (rest.getD j 0)).length := by rw [← hmm, List.length_map]
          have hmg : ∀ i, i < mask.length → mask.getD i 0 < (one :: rest).length ∧
              (one :: rest).getD (mask.getD i 0) 0 = (rest.erase (rest.getD j 0)).getD i 0 := by
            intro i hi
            have h1 : mask.getD i 0 ∈ mask := by
              rw [List.getD_eq_getElem _ _ hi]; exact List.getElem_mem _
            refine ⟨List.mem_range.1 (List.mem_filter.1 h1).1, ?_⟩
            rw [← hmm, List.getD_eq_getElem (List.map _ mask) _ (by rw [List.length_map]; exact hi), List.getElem_map,
              List.getD_eq_getElem mask _ hi]
          intro x y hx hy
          rw [← hml] at hx hy
          rw [hcon _ _ (hmg x hx).1 (hmg y hy).1, (hmg x hx).2, (hmg y hy).2]
      have hcon0 : ∀ j, j < rest.length → con 0 (j + 1) = adj one (rest.getD j 0) := by
        intro j hj
        rw [hcon 0 (j + 1) (by simp) (by simpa using hj)]
        simp
      rw [step]
      refine ⟨?_, ?_, ?_⟩
      · rw [List.map_flatMap, List.nodup_flatMap]
        refine ⟨?_, ?_⟩
        · intro j hj
          rw [List.mem_filter, List.mem_range] at hj
          obtain ⟨r1, r2, r3, r4, r5⟩ := hrec j hj.1 _ rfl
          rw [List.map_map]
          have : ((fun p : Scheme × ℤ => edges p.1) ∘ fun p : Scheme × ℤ =>
              ((one, rest.getD j 0) :: p.1, (-1) ^ j * p.2)) =
              (fun M => insert s(one, rest.getD j 0) M) ∘ (fun p : Scheme × ℤ => edges p.1) := by
            funext p; simp [edges_cons]
          rw [this, ← List.map_map]
          refine List.Nodup.map_on ?_ r3
          intro x hx y hy hxy
          have hx' := ((r4 x).1 hx).1
          have hy' := ((r4 y).1 hy).1
          refine (pm_insert_inj ?_ ?_ hxy).2
          · intro e he h1
            exact hn2.1 (List.mem_of_mem_erase (List.mem_toFinset.1 ((hx'.1 e he).2 _ h1)))
          · intro e he h1
            exact hn2.1 (List.mem_of_mem_erase (List.mem_toFinset.1 ((hy'.1 e he).2 _ h1)))
        · have hrn : ((List.range rest.length).filter fun j => con 0 (j + 1)).Nodup := List.nodup_range.filter _
          refine List.Pairwise.imp_of_mem ?_ hrn
          intro j k hj hk hjk
          rw [List.mem_filter, List.mem_range] at hj hk
          obtain ⟨r1, r2, r3, r4, r5⟩ := hrec j hj.1 _ rfl
          obtain ⟨t1, t2, t3, t4, t5⟩ := hrec k hk.1 _ rfl
          rw [Function.onFun, List.disjoint_left]
          intro M hM hM'
          rw [List.map_map, List.mem_map] at hM hM'
          obtain ⟨p, hp, rfl⟩ := hM
          obtain ⟨q, hq, hqe⟩ := hM'
          simp only [Function.comp, edges_cons] at hqe
          have hx' := ((r4 _).1 (List.mem_map_of_mem hp)).1
          have hy' := ((t4 _).1 (List.mem_map_of_mem hq)).1
          have := (pm_insert_inj ?_ ?_ hqe).1
          · rw [List.getD_eq_getElem _ _ hj.1, List.getD_eq_getElem _ _ hk.1] at this
            exact hjk ((hn2.2.getElem_inj_iff).1 this).symm
          · intro e he h1
            exact hn2.1 (List.mem_of_mem_erase (List.mem_toFinset.1 ((hy'.1 e he).2 _ h1)))
          · intro e he h1
            exact hn2.1 (List.mem_of_mem_erase (List.mem_toFinset.1 ((hx'.1 e he).2 _ h1)))
      · intro M
        simp only [List.map_flatMap, List.mem_flatMap, List.mem_filter, List.mem_range, List.map_map]
        constructor
        · rintro ⟨j, ⟨hj, hjc⟩, hM⟩
          obtain ⟨r1, r2, r3, r4, r5⟩ := hrec j hj _ rfl
          rw [List.mem_map] at hM
          obtain ⟨p, hp, rfl⟩ := hM
          simp only [Function.comp, edges_cons]
          have hx' := (r4 _).1 (List.mem_map_of_mem hp)
          refine ⟨?_, ?_⟩
          · rw [List.toFinset_cons]
            refine isPM_insert (by simpa using hn2.1) (by simpa using r2) ?_
            rw [← toFinset_erase_nodup hn2.2]
            exact hx'.1
          · rw [conn_cons hn r2 hx'.1 r1]
            exact ⟨by rw [← hcon0 j hj, hjc], hx'.2⟩
        · rintro ⟨hM, hC⟩
          rw [List.toFinset_cons] at hM
          obtain ⟨two, htwo, M', hM', rfl⟩ := isPM_split (by simpa using hn2.1) hM
          rw [List.mem_toFinset] at htwo
          obtain ⟨j, hj, hjt⟩ := List.getElem_of_mem htwo
          have hgd : rest.getD j 0 = two := by rw [List.getD_eq_getElem _ _ hj, hjt]
          obtain ⟨r1, r2, r3, r4, r5⟩ := hrec j hj _ rfl
          rw [hgd] at r1 r2 r4
          rw [← toFinset_erase_nodup hn2.2] at hM'
          rw [conn_cons hn r2 hM' r1] at hC
          refine ⟨j, ⟨hj, by rw [hcon0 j hj, hgd, hC.1]⟩, ?_⟩
          have := (r4 M').2 ⟨hM', hC.2⟩
          rw [List.mem_map] at this ⊢
          obtain ⟨p, hp, rfl⟩ := this
          refine ⟨p, by rw [hgd]; exact hp, ?_⟩
          simp only [Function.comp, edges_cons, hgd]
      · intro p hp
        rw [List.mem_flatMap] at hp
        obtain ⟨j, hj, hp⟩ := hp
        rw [List.mem_filter, List.mem_range] at hj
        obtain ⟨hj, -⟩ := hj
        obtain ⟨r1, r2, r3, r4, r5⟩ := hrec j hj _ rfl
        rw [List.mem_map] at hp
        obtain ⟨q, hq, rfl⟩ := hp
        obtain ⟨q1, q2, q3, q4⟩ := r5 q hq
        have herase : rest.erase (rest.getD j 0) = rest.eraseIdx j := by
          rw [List.getD_eq_getElem _ _ hj, hn2.2.erase_getElem _ hj]
        simp only [flatPairs_cons, List.map_cons]
        refine ⟨?_, ?_, ?_, ?_⟩
        · exact ((q1.cons _).trans (List.perm_cons_erase r2).symm).cons _
        · have hp1 : (rest.getD j 0 :: flatPairs q.1).Perm rest :=
            (q1.cons _).trans (List.perm_cons_erase r2).symm
          rw [listSign_cons_rel one hp1]
          have hsplit : rest = rest.take j ++ rest.getD j 0 :: rest.drop (j + 1) := by
            rw [List.getD_eq_getElem _ _ hj]; simp
          have hnot : rest.getD j 0 ∉ rest.take j := by
            intro h
            have := hn2.2
            rw [hsplit] at this
            exact (List.nodup_append.1 this).2.2 _ h _ (by simp) rfl
          have hmv := listSign_move [] (rest.take j) (rest.drop (j + 1)) (rest.getD j 0) hnot
          simp only [List.nil_append, List.length_take, List.cons_append] at hmv
          rw [← hsplit, min_eq_left hj.le, ← List.eraseIdx_eq_take_drop_succ, ← herase] at hmv
          have hc := listSign_cons_rel (rest.getD j 0) q1
          rw [q2, ← hc, hmv]
          ring_nf
          rw [mul_comm j 2, pow_mul]; simp
        · exact (q3.trans List.erase_sublist).cons_cons _
        · intro r hr
          rw [List.mem_cons] at hr
          rcases hr with rfl | hr
          · simpa using r2
          · exact ((q4 r hr).trans List.erase_sublist).cons _

/-- C19. For distinct indices (at least one) `generate_general_pmatch` yields, each exactly once, precisely the perfect
matchings of the indices in which every pair is connected, except possibly the pair whose first index comes last
in the list. -/
theorem C19_general_pmatch_partial (indices : List ℕ) (con : ℕ → ℕ → Bool) (hn : indices.Nodup) (hne : indices ≠ []) :
    ((generalPmatch indices con).map fun p => edges p.1).Nodup ∧
    ∀ M, M ∈ (generalPmatch indices con).map (fun p => edges p.1) ↔ IsPM indices.toFinset M ∧
      ∀ i j i' j', (hj : j < indices.length) → (hj' : j' < indices.length) → (hi : i < j) → (hi' : i' < j') →
        s(indices[i], indices[j]) ∈ M → s(indices[i'], indices[j']) ∈ M → i < i' → con i j = true := by
  have key := aux_spec (fun a b => con (indices.idxOf a) (indices.idxOf b)) indices.length indices con le_rfl hn hne
    (by
      intro i j hi hj
      rw [List.getD_eq_getElem _ _ hi, List.getD_eq_getElem _ _ hj, hn.idxOf_getElem, hn.idxOf_getElem])
  refine ⟨key.1, fun M => ?_⟩
  rw [generalPmatch, key.2.1]
  have hs : ∀ i j, (hj : j < indices.length) → (hi : i < indices.length) →
      ([indices[i], indices[j]].Sublist indices ↔ i < j) := by
    intro i j hj hi
    rw [pair_sublist_iff]
    constructor
    · rintro ⟨i', j', h, h1, h2⟩
      obtain ⟨a, ha⟩ := List.getElem?_eq_some_iff.1 h1
      obtain ⟨b, hb⟩ := List.getElem?_eq_some_iff.1 h2
      have := (hn.getElem_inj_iff).1 ha
      have := (hn.getElem_inj_iff).1 hb
      omega
    · intro h
      exact ⟨i, j, h, List.getElem?_eq_getElem hi, List.getElem?_eq_getElem hj⟩
  apply and_congr_right
  intro hM
  constructor
  · intro h i j i' j' hj hj' hi hi' h1 h2 hii
    have := h _ _ _ _ ((hs i j hj (by omega)).2 hi) ((hs i' j' hj' (by omega)).2 hi')
      ((hs i i' (by omega) (by omega)).2 hii) h1 h2
    simpa only [hn.idxOf_getElem] using this
  · intro h x y x' y' h1 h2 h3 h4 h5
    have gx : ∀ {z w : ℕ}, [z, w].Sublist indices → ∃ i j, ∃ hi : i < indices.length, ∃ hj : j < indices.length,
        i < j ∧ indices[i] = z ∧ indices[j] = w := by
      intro z w hzw
      obtain ⟨i, j, hij, hz, hw⟩ := pair_sublist_iff.1 hzw
      obtain ⟨a, ha⟩ := List.getElem?_eq_some_iff.1 hz
      obtain ⟨b, hb⟩ := List.getElem?_eq_some_iff.1 hw
      exact ⟨i, j, a, b, hij, ha, hb⟩
    obtain ⟨i, j, hi, hj, hij, rfl, rfl⟩ := gx h1
    obtain ⟨i', j', hi', hj', hij', rfl, rfl⟩ := gx h2
    have h3' := (hs i i' hi' hi).1 h3
    simp only [hn.idxOf_getElem]
    exact h i j i' j' hj hj' hij hij' h4 h5 h3'

-- the path graph 0 - 1 - 2 - 3 has a perfect matching {01, 23}
example : edges [(5, 7), (6, 2)] ∈ (generalPmatch [5, 7, 6, 2] (fun i j => i + 1 == j || j + 1 == i)).map
    (fun p => edges p.1) := by decide

/-- C19. Each matching is written with the first index of every pair before the second and the pairs ordered by their
first index, and its sign is the parity of the permutation from the index list to the flattened matching. -/
theorem C19_sign (indices : List ℕ) (con : ℕ → ℕ → Bool) (hn : indices.Nodup) (hne : indices ≠ []) :
    ∀ p ∈ generalPmatch indices con, (p.1.flatMap fun q => [q.1, q.2]).Perm indices ∧
      p.2 = listSign (p.1.flatMap fun q => [q.1, q.2]) * listSign indices ∧
      (p.1.map Prod.fst).Sublist indices ∧ ∀ q ∈ p.1, [q.1, q.2].Sublist indices :=
  (aux_spec (fun a b => con (indices.idxOf a) (indices.idxOf b)) indices.length indices con le_rfl hn hne
    (by
      intro i j hi hj
      rw [List.getD_eq_getElem _ _ hi, List.getD_eq_getElem _ _ hj, hn.idxOf_getElem, hn.idxOf_getElem])).2.2

example : ([(5, 6), (7, 2)], -1) ∈ generalPmatch [5, 7, 6, 2] (fun _ _ => true) := by decide

/-- C19. Consequence: every perfect matching of the graph is yielded exactly once. -/
theorem C19_complete_partial (indices : List ℕ) (con : ℕ → ℕ → Bool) (hn : indices.Nodup) (hne : indices ≠ [])
    (M : Finset (Sym2 ℕ)) (hM : IsPM indices.toFinset M)
    (hc : ∀ i j, (hj : j < indices.length) → (hi : i < j) → s(indices[i], indices[j]) ∈ M → con i j = true) :
    ((generalPmatch indices con).map fun p => edges p.1).count M = 1 := by
  obtain ⟨h1, h2⟩ := C19_general_pmatch_partial indices con hn hne
  exact List.count_eq_one_of_mem h1 ((h2 M).2 ⟨hM, fun i j _ _ hj _ hi _ h _ _ => hc i j hj hi h⟩)

example : ∃ M, IsPM [5, 7, 6, 2].toFinset M ∧
    ((generalPmatch [5, 7, 6, 2] (fun i j => i + 2 == j || j + 2 == i)).map fun p => edges p.1).count M = 1 := by
  refine ⟨edges [(5, 6), (7, 2)], isPM_edges (by decide) (by decide), ?_⟩
  decide

/-- C19. The code does not check the connectivity of the last pair: on the graph without any edge two vertices are still
matched. The empty list yields nothing at all. -/
theorem C19_last_pair_unchecked :
    (∀ a b con, generalPmatch [a, b] con = [([(a, b)], 1)]) ∧ (∀ con, generalPmatch [] con = []) ∧
    ¬ (∀ indices con, indices.Nodup → ∀ p ∈ generalPmatch indices con, ∀ q ∈ p.1,
        con (indices.idxOf q.1) (indices.idxOf q.2) = true) := by
  refine ⟨fun a b con => rfl, fun con => rfl, ?_⟩
  intro h
  have := h [0, 1] (fun _ _ => false) (by decide) ([(0, 1)], 1) (by decide) (0, 1) (by decide)
  exact absurd this (by decide)

end Fanpy.Props
