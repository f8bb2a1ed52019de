import Mathlib.Data.List.Flatten
import Verif.Lemmas.CCPaths

/-! The enumeration in `generate_possible_exops`, continued: the products for one partition. -/

namespace Fanpy.CC
open Fanpy.Spec Fanpy.Slater Fanpy.Graphs Fanpy.It Fanpy.Props

theorem zip_flatten {Q P : List (List (List ℕ))} (h : List.Forall₂ (fun a b => a.length = b.length) Q P) :
    ((List.zipWith List.zip Q P).flatten.map Prod.fst = Q.flatten) ∧ ((List.zipWith List.zip Q P).flatten.map Prod.snd = P.flatten) := by
  induction h with
  | nil => simp
  | cons h1 h2 ih =>
    simp only [List.zipWith_cons_cons, List.flatten_cons, List.map_append, ih.1, ih.2]
    rw [List.map_fst_zip h1.le, List.map_snd_zip h1.ge]
    exact ⟨rfl, rfl⟩

theorem mem_prods {Q P : List (List (List ℕ))} (h : Q.length = P.length) {S : List (List ℕ × List ℕ)} :
    S ∈ prods Q P ↔ ∃ P', List.Forall₂ List.Perm P' P ∧ S = (List.zipWith List.zip Q P').flatten := by
  unfold prods
  rw [List.mem_map]
  have key : ∀ excs, excs ∈ productLists (List.zipWith (fun a c => (perms c).map fun p => (a, p)) Q P) ↔
      ∃ P', List.Forall₂ List.Perm P' P ∧ excs = List.zip Q P' := by
    intro excs
    rw [mem_productLists]
    induction Q generalizing P excs with
    | nil =>
      cases P with
      | nil =>
        simp only [List.zipWith_nil_left, List.forall₂_nil_right_iff]
        constructor
        · rintro rfl; exact ⟨[], by simp⟩
        · rintro ⟨P', h1, rfl⟩; simp
      | cons => simp at h
    | cons g Q ih =>
      cases P with
      | nil => simp at h
      | cons c P =>
        rw [List.zipWith_cons_cons, List.forall₂_cons_right_iff]
        constructor
        · rintro ⟨e, es, h1, h2, rfl⟩
          obtain ⟨p, hp, rfl⟩ := List.mem_map.1 h1
          obtain ⟨P', h3, rfl⟩ := (ih (by simpa using h) es).1 h2
          exact ⟨p :: P', List.Forall₂.cons ((mem_permsAux rfl).1 hp) h3, rfl⟩
        · rintro ⟨P', h1, rfl⟩
          cases h1 with
          | cons h2 h3 =>
            exact ⟨_, _, List.mem_map_of_mem ((mem_permsAux rfl).2 h2), (ih (by simpa using h) _).2 ⟨_, h3, rfl⟩, rfl⟩
  constructor
  · rintro ⟨excs, h1, rfl⟩
    obtain ⟨P', h2, rfl⟩ := (key _).1 h1
    refine ⟨P', h2, ?_⟩
    rw [List.flatMap_def, List.map_zip_eq_zipWith]
    rfl
  · rintro ⟨P', h2, rfl⟩
    refine ⟨_, (key _).2 ⟨P', h2, rfl⟩, ?_⟩
    rw [List.flatMap_def, List.map_zip_eq_zipWith]
    rfl

theorem forall₂_lengths {Q P : List (List (List ℕ))} (h : List.Forall₂ (fun a b => a.length = b.length) Q P) :
    Q.map List.length = P.map List.length := by
  induction h with
  | nil => rfl
  | cons h1 _ ih => rw [List.map_cons, List.map_cons, h1, ih]

theorem sized_lengths {spec : List (ℕ × ℕ)} {Q : List (List (List ℕ))} (h : Sized spec Q) : Q.map List.length = spec.map Prod.snd := by
  induction h with
  | nil => rfl
  | cons h1 _ ih => rw [List.map_cons, List.map_cons, h1.1, ih]

theorem sized_two {spec : List (ℕ × ℕ)} {Q P : List (List (List ℕ))} (h : Sized spec Q) (h' : Sized spec P) :
    List.Forall₂ (fun a b => a.length = b.length) Q P := by
  induction h generalizing P with
  | nil => cases h'; exact List.Forall₂.nil
  | cons h1 _ ih =>
    cases h' with
    | cons k1 k2 => exact List.Forall₂.cons (h1.1.trans k1.1.symm) (ih k2)

theorem sized_perm {spec : List (ℕ × ℕ)} {P P' : List (List (List ℕ))} (h : Sized spec P) (hp : List.Forall₂ List.Perm P' P) :
    Sized spec P' := by
  induction hp generalizing spec with
  | nil => exact h
  | cons h1 _ ih =>
    cases h with
    | cons k1 k2 => exact List.Forall₂.cons ⟨h1.length_eq.trans k1.1, fun b hb => k1.2 b (h1.mem_iff.1 hb)⟩ (ih k2)

theorem flatten_perm {P P' : List (List (List ℕ))} (hp : List.Forall₂ List.Perm P' P) : P'.flatten.Perm P.flatten := by
  induction hp with
  | nil => rfl
  | cons h1 _ ih => exact h1.append ih

theorem full_perm_eq {spec : List (ℕ × ℕ)} (hs : ∀ sn ∈ spec, 1 ≤ sn.1) {P P' : List (List (List ℕ))} (h : Full spec P) (h' : Full spec P')
    (hp : List.Forall₂ List.Perm P P') : P = P' := by
  induction hp generalizing spec with
  | nil => rfl
  | cons h1 _ ih =>
    cases h with
    | cons k1 k2 =>
      cases h' with
      | cons l1 l2 =>
        rename_i sn _
        have ne : ∀ b : List ℕ, b.length = sn.1 → b ≠ [] := by
          rintro b hb rfl
          have := hs sn (by simp)
          simp at hb; omega
        rw [ih (fun sn h => hs sn (by simp [h])) k2 l2]
        congr 1
        exact h1.eq_of_pairwise (fun a b ha hb p q => before_antisymm (ne a (k1.2 a ha)) (ne b (l1.2 b hb)) p q) k1.1.order l1.1.order

/-- the order of blocks -/
def BlockLt (b b' : List ℕ) : Prop := b.length < b'.length ∨ (b.length = b'.length ∧ b.headD 0 < b'.headD 0)

theorem full_order {spec : List (ℕ × ℕ)} (hs : ∀ sn ∈ spec, 1 ≤ sn.1) (hz : (spec.map Prod.fst).Pairwise (· < ·))
    {Q : List (List (List ℕ))} (h : Full spec Q) : Q.flatten.Pairwise BlockLt := by
  induction h with
  | nil => simp
  | cons h1 h2 ih =>
    rename_i g sn Q spec
    rw [List.map_cons, List.pairwise_cons] at hz
    have hpos := hs sn (by simp)
    rw [List.flatten_cons, List.pairwise_append]
    refine ⟨?_, ih (fun sn h => hs sn (by simp [h])) hz.2, ?_⟩
    · refine List.Pairwise.imp_of_mem ?_ h1.1.order
      intro b b' hb hb' hbb
      refine Or.inr ⟨(h1.2 b hb).trans (h1.2 b' hb').symm, ?_⟩
      rcases hbb with rfl | ⟨u, v, e1, e2, e3⟩
      · have := h1.2 _ hb'; simp at this; omega
      · rw [List.headD_eq_head?_getD, List.headD_eq_head?_getD, e1, e2]; exact e3
    · intro b hb b' hb'
      left
      rw [h1.2 b hb]
      obtain ⟨g', hg', hb''⟩ := List.mem_flatten.1 hb'
      obtain ⟨i, hi, rfl⟩ := List.mem_iff_getElem.1 hg'
      have hi' : i < spec.length := by rw [← h2.length_eq]; exact hi
      have := (List.forall₂_iff_get.1 h2).2 i hi hi'
      simp only [List.get_eq_getElem] at this
      rw [this.2 b' hb'']
      exact hz.1 _ (List.mem_map_of_mem (List.getElem_mem _))

theorem filter_split {α : Type*} (key : α → ℕ) (s : ℕ) (B : List α) (h : B.Pairwise fun b b' => key b ≤ key b') (hs : ∀ b ∈ B, s ≤ key b) :
    B.filter (fun b => key b = s) ++ B.filter (fun b => key b ≠ s) = B := by
  induction B with
  | nil => rfl
  | cons b B ih =>
    rw [List.pairwise_cons] at h
    by_cases hb : key b = s
    · rw [List.filter_cons_of_pos (by simpa using hb), List.filter_cons_of_neg (by simpa using hb), List.cons_append,
        ih h.2 fun b hb => hs b (by simp [hb])]
    · have hlt : ∀ b' ∈ B, key b' ≠ s := by
        intro b' hb'
        have := h.1 b' hb'
        have := hs b (by simp)
        omega
      rw [List.filter_eq_nil_iff.2, List.filter_eq_self.2, List.nil_append]
      · intro b' hb'
        rcases List.mem_cons.1 hb' with rfl | hb'
        · simpa using hb
        · simpa using hlt b' hb'
      · intro b' hb'
        rcases List.mem_cons.1 hb' with rfl | hb'
        · simpa using hb
        · simpa using hlt b' hb'

theorem filter_groups {α : Type*} (key : α → ℕ) (z : List ℕ) (hz : z.Pairwise (· < ·)) (B : List α)
    (h : B.Pairwise fun b b' => key b ≤ key b') (hs : ∀ b ∈ B, key b ∈ z) :
    (z.map fun s => B.filter fun b => key b = s).flatten = B := by
  induction z generalizing B with
  | nil =>
    cases B with
    | nil => rfl
    | cons b B => have := hs b (by simp); simp at this
  | cons s z ih =>
    rw [List.pairwise_cons] at hz
    rw [List.map_cons, List.flatten_cons]
    conv_rhs => rw [← filter_split key s B h (by
      intro b hb
      rcases List.mem_cons.1 (hs b hb) with e | e
      · exact e.ge
      · exact (hz.1 _ e).le)]
    congr 1
    rw [← ih hz.2 (B.filter fun b => key b ≠ s) (h.filter _) (by
      intro b hb
      rw [List.mem_filter] at hb
      rcases List.mem_cons.1 (hs b hb.1) with e | e
      · simp [e] at hb
      · exact e)]
    congr 1
    apply List.map_congr_left
    intro s' hs'
    rw [List.filter_filter]
    apply List.filter_congr
    intro b _
    have := hz.1 s' hs'
    by_cases e : key b = s'
    · simp [e]; omega
    · simp [e]

/-- blocks of the same size in an order of their own have a canonical order -/
theorem canonG_sort {s : ℕ} (hs : 1 ≤ s) (g : List (List ℕ)) (h1 : ∀ b ∈ g, b.length = s) (h2 : ∀ b ∈ g, b.Pairwise (· < ·))
    (hn : g.flatten.Nodup) : ∃ g', g.Perm g' ∧ CanonG s g.length g' ∧ ∀ b ∈ g', b.length = s := by
  have hp : (g.mergeSort fun a b => decide (a.headD 0 ≤ b.headD 0)).Perm g := List.mergeSort_perm _ _
  have hsort : (g.mergeSort fun a b => decide (a.headD 0 ≤ b.headD 0)).Pairwise fun a b => decide (a.headD 0 ≤ b.headD 0) = true :=
    List.pairwise_mergeSort (fun a b c h1 h2 => by simp only [decide_eq_true_eq] at *; omega)
      (fun a b => by simp only [Bool.or_eq_true, decide_eq_true_eq]; omega) _
  have hn' := hp.flatten.nodup_iff.2 hn
  have hd := (List.nodup_flatten.1 hn').2
  refine ⟨_, hp.symm, ⟨hp.length_eq, fun b hb => (h1 b (hp.mem_iff.1 hb)).le, fun b hb => h2 b (hp.mem_iff.1 hb), ?_⟩,
    fun b hb => h1 b (hp.mem_iff.1 hb)⟩
  refine List.Pairwise.imp_of_mem ?_ (hsort.and hd)
  rintro a b ha hb ⟨hab, hdis⟩
  have hla := h1 a (hp.mem_iff.1 ha)
  have hlb := h1 b (hp.mem_iff.1 hb)
  cases a with
  | nil => simp at hla; omega
  | cons x a =>
    cases b with
    | nil => simp at hlb; omega
    | cons y b =>
      right
      refine ⟨x, y, rfl, rfl, ?_⟩
      have hab : x ≤ y := by simpa using hab
      have : x ≠ y := by
        rintro rfl
        exact (List.disjoint_left.1 hdis) (List.mem_cons_self) (List.mem_cons_self)
      omega

theorem full_of_sized {spec : List (ℕ × ℕ)} (hs : ∀ sn ∈ spec, 1 ≤ sn.1) {P' : List (List (List ℕ))} (h : Sized spec P')
    (hsort : ∀ b ∈ P'.flatten, b.Pairwise (· < ·)) (hn : P'.flatten.flatten.Nodup) :
    ∃ P, Full spec P ∧ List.Forall₂ List.Perm P' P := by
  induction h with
  | nil => exact ⟨[], List.Forall₂.nil, List.Forall₂.nil⟩
  | cons h1 h2 ih =>
    rename_i g sn Q spec
    rw [List.flatten_cons, List.flatten_append] at hn
    obtain ⟨P, p1, p2⟩ := ih (fun sn h => hs sn (by simp [h])) (fun b hb => hsort b (by simp at hb ⊢; tauto)) (List.nodup_append.1 hn).2.1
    obtain ⟨g', g1, g2, g3⟩ := canonG_sort (hs sn (by simp)) g h1.2 (fun b hb => hsort b (by simp [hb])) (List.nodup_append.1 hn).1
    rw [h1.1] at g2
    exact ⟨g' :: P, List.Forall₂.cons ⟨g2, g3⟩ p1, List.Forall₂.cons g1 p2⟩

end Fanpy.CC
