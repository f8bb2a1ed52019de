import Mathlib.Data.List.Lex
import Mathlib.Algebra.Field.Basic
import Mathlib.Algebra.CharZero.Defs
import Verif.Lemmas.CCPaths4
import Verif.Lemmas.SdPair
import Verif.Lemmas.Bulk
import Verif.Lemmas.Excite
import Verif.Props.Signs

/-! The exponential series of a cluster operator as a sum over products of operators. -/

namespace Fanpy.CC
open Fanpy.Spec Fanpy.Slater Fanpy.Graphs Fanpy.It Fanpy.Props

/-- the operators as pairs -/
def opsP (ranks U V : List ℕ) : List (List ℕ × List ℕ) :=
  ranks.flatMap fun r => (comb U r).flatMap fun a => (comb V r).map fun c => (a, c)

theorem exopsFrom_eq (ranks U V : List ℕ) : exopsFrom ranks U V = (opsP ranks U V).map fun p => p.1 ++ p.2 := by
  simp [exopsFrom, opsP, List.map_flatMap, Function.comp_def]

theorem mem_opsP {ranks U V : List ℕ} {p : List ℕ × List ℕ} : p ∈ opsP ranks U V ↔
    p.1.length ∈ ranks ∧ p.1.length = p.2.length ∧ p.1.Sublist U ∧ p.2.Sublist V := by
  simp only [opsP, List.mem_flatMap, List.mem_map, mem_comb]
  constructor
  · rintro ⟨r, hr, a, ⟨ha, ha'⟩, c, ⟨hc, hc'⟩, rfl⟩
    exact ⟨by rw [ha']; exact hr, by rw [ha', hc'], ha, hc⟩
  · rintro ⟨h1, h2, h3, h4⟩
    exact ⟨_, h1, p.1, ⟨h3, rfl⟩, p.2, ⟨h4, h2.symm⟩, rfl⟩

theorem mem_exopsFrom {ranks U V : List ℕ} {p : List ℕ × List ℕ} (h : p.1.length = p.2.length) :
    p.1 ++ p.2 ∈ exopsFrom ranks U V ↔ p ∈ opsP ranks U V := by
  rw [exopsFrom_eq, List.mem_map]
  constructor
  · rintro ⟨q, hq, e⟩
    have hq' := (mem_opsP.1 hq).2.1
    have hl : q.1.length = p.1.length := by
      have := congrArg List.length e
      rw [List.length_append, List.length_append] at this; omega
    obtain ⟨e1, e2⟩ := List.append_inj e hl
    have : q = p := Prod.ext e1 e2
    exact this ▸ hq
  · exact fun hp => ⟨p, hp, rfl⟩

/-- the order of the operators -/
def OpLt (p q : List ℕ × List ℕ) : Prop :=
  p.1.length < q.1.length ∨ (p.1.length = q.1.length ∧ (p.1 < q.1 ∨ (p.1 = q.1 ∧ p.2 < q.2)))

theorem comb_lex (l : List ℕ) (h : l.Pairwise (· < ·)) (k : ℕ) : (comb l k).Pairwise (· < ·) := by
  induction l generalizing k with
  | nil => cases k <;> simp [comb]
  | cons x l ih =>
    rw [List.pairwise_cons] at h
    cases k with
    | zero => simp [comb]
    | succ k =>
      rw [comb, List.pairwise_append]
      refine ⟨?_, ih h.2 _, ?_⟩
      · rw [List.pairwise_map]
        exact (ih h.2 k).imp fun h => List.cons_lt_cons_iff.2 (Or.inr ⟨rfl, h⟩)
      · intro a ha b hb
        obtain ⟨a', -, rfl⟩ := List.mem_map.1 ha
        obtain ⟨hb1, hb2⟩ := mem_comb.1 hb
        cases b with
        | nil => simp at hb2
        | cons y b => exact List.cons_lt_cons_iff.2 (Or.inl (h.1 y (hb1.subset (by simp))))

theorem opsP_order {ranks U V : List ℕ} (hr : ranks.Pairwise (· < ·)) (hU : U.Pairwise (· < ·)) (hV : V.Pairwise (· < ·)) :
    (opsP ranks U V).Pairwise OpLt := by
  unfold opsP
  rw [List.pairwise_flatMap]
  refine ⟨fun r _ => ?_, hr.imp ?_⟩
  · rw [List.pairwise_flatMap]
    refine ⟨fun a _ => ?_, List.Pairwise.imp_of_mem ?_ (comb_lex U hU r)⟩
    · rw [List.pairwise_map]
      exact (comb_lex V hV r).imp fun h => Or.inr ⟨rfl, Or.inr ⟨rfl, h⟩⟩
    · intro a b ha hb hab p hp q hq
      obtain ⟨c, -, rfl⟩ := List.mem_map.1 hp
      obtain ⟨d, -, rfl⟩ := List.mem_map.1 hq
      exact Or.inr ⟨(mem_comb.1 ha).2.trans (mem_comb.1 hb).2.symm, Or.inl hab⟩
  · intro r s hrs p hp q hq
    simp only [List.mem_flatMap, List.mem_map, mem_comb] at hp hq
    obtain ⟨a, ⟨-, ha⟩, c, -, rfl⟩ := hp
    obtain ⟨b, ⟨-, hb⟩, d, -, rfl⟩ := hq
    left; simp only [ha, hb]; exact hrs

theorem opLt_asymm {p q : List ℕ × List ℕ} (h1 : OpLt p q) (h2 : OpLt q p) : False := by
  rcases h1 with h1 | ⟨e1, h1 | ⟨f1, h1⟩⟩ <;> rcases h2 with h2 | ⟨e2, h2 | ⟨f2, h2⟩⟩
  all_goals first
    | omega
    | exact lt_asymm h1 h2
    | (rw [f1] at h2; exact lt_irrefl _ h2)
    | (rw [f2] at h1; exact lt_irrefl _ h1)

instance : Std.Antisymm OpLt := ⟨fun _ _ h1 h2 => (opLt_asymm h1 h2).elim⟩
instance : Std.Irrefl OpLt := ⟨fun _ h => opLt_asymm h h⟩

/-- the products in canonical order are the sublists of the list of operators -/
theorem isPath_iff {ranks U V a c : List ℕ} (hr : ranks.Pairwise (· < ·)) (hpos : ∀ r ∈ ranks, 0 < r) (hU : U.Pairwise (· < ·))
    (hV : V.Pairwise (· < ·)) (ha : a.Nodup) {S : List (List ℕ × List ℕ)} :
    IsPath ranks (exopsFrom ranks U V) a c S ↔
      S.Sublist (opsP ranks U V) ∧ (S.flatMap Prod.fst).Perm a ∧ (S.flatMap Prod.snd).Perm c := by
  constructor
  · intro h
    have hmem : ∀ q ∈ S, q ∈ opsP ranks U V := fun q hq => (mem_exopsFrom (h.len q hq)).1 (h.mem q hq)
    have hord : S.Pairwise OpLt := by
      refine List.Pairwise.imp_of_mem ?_ h.order
      intro p q hp hq hb
      rcases hb with hb | ⟨e, hb⟩
      · exact Or.inl hb
      · refine Or.inr ⟨e, Or.inl ?_⟩
        have h1 := hpos _ (h.rank p hp)
        have h2 := hpos _ (h.rank q hq)
        rcases hx : p.1 with - | ⟨x, r⟩
        · rw [hx] at h1; simp at h1
        · rcases hy : q.1 with - | ⟨y, r'⟩
          · rw [hy] at h2; simp at h2
          · rw [hx, hy] at hb
            exact List.cons_lt_cons_iff.2 (Or.inl hb)
    refine ⟨List.sublist_of_subperm_of_pairwise (r := OpLt) (List.subperm_of_subset ?_ hmem) hord (opsP_order hr hU hV), h.ann, h.cre⟩
    exact hord.imp fun {p q} h => by rintro rfl; exact opLt_asymm h h
  · rintro ⟨h1, h2, h3⟩
    have hmem : ∀ q ∈ S, q ∈ opsP ranks U V := fun q hq => h1.subset hq
    have hf := fun q hq => mem_opsP.1 (hmem q hq)
    refine ⟨fun q hq => (hf q hq).1, fun q hq => (mem_exopsFrom (hf q hq).2.1).2 (hmem q hq), fun q hq => (hf q hq).2.1,
      fun q hq => hU.sublist (hf q hq).2.2.1, fun q hq => hV.sublist (hf q hq).2.2.2, h2, h3, ?_⟩
    have hd : S.Pairwise fun p q => p.1.Disjoint q.1 := by
      have := h2.nodup_iff.2 ha
      rw [List.nodup_flatMap] at this
      exact this.2
    refine List.Pairwise.imp_of_mem ?_ (((opsP_order hr hU hV).sublist h1).and hd)
    rintro p q hp hq ⟨hb, hdis⟩
    have p1 := hpos _ (hf p hp).1
    have p2 := hpos _ (hf q hq).1
    rcases hb with hb | ⟨e, hb⟩
    · exact Or.inl hb
    · refine Or.inr ⟨e, ?_⟩
      rcases hx : p.1 with - | ⟨x, r⟩
      · rw [hx] at p1; simp at p1
      · rcases hy : q.1 with - | ⟨y, r'⟩
        · rw [hy] at p2; simp at p2
        · rw [hx, hy] at hdis hb
          have hxy : x ≠ y := by
            rintro rfl
            exact (List.disjoint_left.1 hdis) List.mem_cons_self List.mem_cons_self
          rcases hb with hb | ⟨hb, -⟩
          · rcases List.cons_lt_cons_iff.1 hb with h | ⟨h, -⟩
            · exact h
            · exact absurd h hxy
          · rw [List.cons.injEq] at hb; exact absurd hb.1 hxy

/-- the cluster operator as a sum over the list of operators -/
theorem clusterOp_list {R : Type*} [CommRing R] {ranks U V : List ℕ} (hr : ranks.Nodup) (hU : U.Pairwise (· < ·)) (hV : V.Pairwise (· < ·))
    (t : Finset ℕ → Finset ℕ → R) : clusterOp ranks.toFinset U.toFinset V.toFinset t =
      ((opsP ranks U V).map fun p => t p.1.toFinset p.2.toFinset • (excOp p.1 p.2 : Module.End R (Fock R))).sum := by
  have inner : ∀ {M : Type _} [AddCommMonoid M] (W : List ℕ), W.Pairwise (· < ·) → ∀ (r : ℕ) (f : Finset ℕ → List ℕ → M),
      (∑ A ∈ W.toFinset.powersetCard r, f A (A.sort (· ≤ ·))) = ((comb W r).map fun a => f a.toFinset a).sum := by
    intro M _ W hW r f
    have hnd : W.Nodup := hW.imp fun h => by omega
    rw [← List.sum_toFinset _ (comb_nodup r hnd)]
    symm
    apply Finset.sum_bij (fun a _ => a.toFinset)
    · intro a ha
      have := mem_comb.1 (List.mem_toFinset.1 ha)
      rw [Finset.mem_powersetCard]
      refine ⟨fun x hx => List.mem_toFinset.2 (this.1.subset (List.mem_toFinset.1 hx)), ?_⟩
      rw [List.toFinset_card_of_nodup (hnd.sublist this.1), this.2]
    · intro a ha b hb e
      exact sorted_toFinset_inj (hW.sublist (mem_comb.1 (List.mem_toFinset.1 ha)).1) (hW.sublist (mem_comb.1 (List.mem_toFinset.1 hb)).1) e
    · intro A hA
      rw [Finset.mem_powersetCard] at hA
      obtain ⟨c, hc, e⟩ := comb_exists W A hnd hA.1
      rw [hA.2] at hc
      exact ⟨c, List.mem_toFinset.2 hc, e⟩
    · intro a ha
      have hs : a.Pairwise (· < ·) := hW.sublist (mem_comb.1 (List.mem_toFinset.1 ha)).1
      rw [(List.toFinset_sort (· ≤ ·) (hs.imp fun h => by omega)).2 (hs.imp fun h => h.le)]
  unfold clusterOp opsP
  rw [List.sum_toFinset _ hr, List.map_flatMap, List.flatMap_def, List.sum_flatten, List.map_map]
  congr 1
  apply List.map_congr_left
  intro r _
  have e1 : ∀ A : Finset ℕ, (∑ C ∈ V.toFinset.powersetCard r, t A C • (excOp (A.sort (· ≤ ·)) (C.sort (· ≤ ·)) : Module.End R (Fock R))) =
      ((comb V r).map fun c => t A c.toFinset • (excOp (A.sort (· ≤ ·)) c : Module.End R (Fock R))).sum := fun A =>
    inner V hV r fun C c => t A C • (excOp (A.sort (· ≤ ·)) c : Module.End R (Fock R))
  simp only [e1]
  rw [inner U hU r fun A a => ((comb V r).map fun c => t A c.toFinset • (excOp a c : Module.End R (Fock R))).sum]
  simp only [Function.comp_apply, List.flatMap_def, List.map_flatten, List.sum_flatten, List.map_map, Function.comp_def]

theorem sublistsLen_map {α β : Type*} (f : α → β) (k : ℕ) (l : List α) : (l.map f).sublistsLen k = (l.sublistsLen k).map (List.map f) := by
  induction l generalizing k with
  | nil => cases k <;> simp
  | cons x l ih =>
    cases k with
    | zero => simp
    | succ k => rw [List.map_cons, List.sublistsLen_succ_cons, List.sublistsLen_succ_cons, ih, ih, List.map_append, List.map_map,
        List.map_map]; rfl

theorem zsmul_coeff {R : Type*} [CommRing R] (n : ℤ) (f : Module.End R (Fock R)) (v : Fock R) (u : Finset ℕ) :
    ((n • f) v) u = (n : R) * (f v) u := by
  have : (n • f) v = n • f v := by
    induction n using Int.induction_on with
    | zero => simp
    | succ n ih => rw [add_smul, add_smul, LinearMap.add_apply, ih, one_smul, one_smul]
    | pred n ih => rw [sub_zsmul f, sub_zsmul (f v), LinearMap.add_apply, LinearMap.neg_apply, ih, one_zsmul, one_zsmul]
  rw [this, Finsupp.smul_apply, zsmul_eq_mul]

/-- the coefficients of the exponential series -/
theorem expSeries_coeff {R : Type*} [Field R] [CharZero R] {ranks U V : List ℕ} (hr : ranks.Pairwise (· < ·)) (hpos : ∀ r ∈ ranks, 0 < r)
    (hU : U.Pairwise (· < ·)) (hV : V.Pairwise (· < ·)) (hUV : ∀ i ∈ U, i ∉ V) (t : Finset ℕ → Finset ℕ → R) (s u : Finset ℕ)
    (a c : List ℕ) (ha : a.Pairwise (· < ·)) (hc : c.Pairwise (· < ·)) (hl : a.length = c.length) (has : a.toFinset = s \ u)
    (hcs : c.toFinset = u \ s) (N : ℕ) (hN : a.length ≤ N) (L : List (List (List ℕ × List ℕ))) (hLn : L.Nodup)
    (hL : ∀ S, S ∈ L ↔ IsPath ranks (exopsFrom ranks U V) a c S) :
    (expSeries (clusterOp ranks.toFinset U.toFinset V.toFinset t) N (ket s)) u =
      (L.map fun S => (S.map fun q => t q.1.toFinset q.2.toFinset).prod * (sgn S : R)).sum * (excOp a c (ket s : Fock R)) u := by
  have hna : a.Nodup := ha.imp fun h => by omega
  have hnc : c.Nodup := hc.imp fun h => by omega
  have hop : ∀ q ∈ opsP ranks U V, Op V.toFinset q := by
    intro q hq
    obtain ⟨h1, h2, h3, h4⟩ := mem_opsP.1 hq
    refine ⟨fun i hi hv => hUV i (h3.subset hi) (List.mem_toFinset.1 hv), fun i hi => List.mem_toFinset.2 (h4.subset hi), h2, ?_⟩
    intro e
    have := hpos _ h1
    rw [e] at this; simp at this
  have hnd : (opsP ranks U V).Nodup := (opsP_order hr hU hV).imp fun {p q} h => by rintro rfl; exact opLt_asymm h h
  -- the value of one product
  have val : ∀ S : List (List ℕ × List ℕ), S.Sublist (opsP ranks U V) →
      ((S.map fun p => t p.1.toFinset p.2.toFinset • (excOp p.1 p.2 : Module.End R (Fock R))).prod (ket s)) u =
        (S.map fun q => t q.1.toFinset q.2.toFinset).prod * (((-1 : ℤ) ^ hops 0 S : ℤ) : R) *
          (excOp (S.flatMap Prod.fst) (S.flatMap Prod.snd) (ket s : Fock R)) u := by
    intro S hS
    have e : (S.map fun p => t p.1.toFinset p.2.toFinset • (excOp p.1 p.2 : Module.End R (Fock R))).prod =
        (S.map fun q => t q.1.toFinset q.2.toFinset).prod • (S.map fun p => (excOp p.1 p.2 : Module.End R (Fock R))).prod := by
      clear hS
      induction S with
      | nil => simp
      | cons p S ih => rw [List.map_cons, List.prod_cons, ih, List.map_cons, List.prod_cons, List.map_cons, List.prod_cons,
          smul_mul_smul_comm]
    rw [e, prod_excOp S fun q hq => hop q (hS.subset hq), LinearMap.smul_apply, Finsupp.smul_apply, zsmul_coeff, smul_eq_mul, mul_assoc]
  have zero : ∀ S : List (List ℕ × List ℕ), S.Sublist (opsP ranks U V) →
      (excOp (S.flatMap Prod.fst) (S.flatMap Prod.snd) (ket s : Fock R)) u ≠ 0 → S ∈ L := by
    intro S hS hne
    obtain ⟨h1, h2, h3, h4⟩ := excOp_ket_ne (V := V.toFinset) (fun i hi => by
      obtain ⟨q, hq, hi⟩ := List.mem_flatMap.1 hi
      exact (hop q (hS.subset hq)).ann i hi) (fun i hi => by
      obtain ⟨q, hq, hi⟩ := List.mem_flatMap.1 hi
      exact (hop q (hS.subset hq)).cre i hi) hne
    rw [hL, isPath_iff hr hpos hU hV hna]
    exact ⟨hS, (List.perm_ext_iff_of_nodup h1 hna).2 fun i => by rw [← List.mem_toFinset, h3, ← has, List.mem_toFinset],
      (List.perm_ext_iff_of_nodup h2 hnc).2 fun i => by rw [← List.mem_toFinset, h4, ← hcs, List.mem_toFinset]⟩
  have good : ∀ S ∈ L, (((-1 : ℤ) ^ hops 0 S : ℤ) : R) * (excOp (S.flatMap Prod.fst) (S.flatMap Prod.snd) (ket s : Fock R)) u =
      (sgn S : R) * (excOp a c (ket s : Fock R)) u := by
    intro S hS
    obtain ⟨h1, h2, h3⟩ := (isPath_iff hr hpos hU hV hna).1 ((hL S).1 hS)
    have n1 := h2.nodup_iff.2 hna
    have n2 := h3.nodup_iff.2 hnc
    have hl' : (S.flatMap Prod.fst).length = (S.flatMap Prod.snd).length := by rw [h2.length_eq, h3.length_eq, hl]
    rw [excOp_perm h2 h3 hl' n1 n2 ha hc, zsmul_coeff, ← mul_assoc,
      ← Int.cast_mul]
    congr 2
    rw [sgn, listSign_reverse n1, listSign_reverse n2, hl']
    have : ((-1 : ℤ) ^ ((S.flatMap Prod.snd).length * ((S.flatMap Prod.snd).length - 1) / 2)) *
        (-1) ^ ((S.flatMap Prod.snd).length * ((S.flatMap Prod.snd).length - 1) / 2) = 1 := by
      rw [← mul_pow]; simp
    linear_combination (-((-1 : ℤ) ^ hops 0 S * listSign (S.flatMap Prod.fst) * listSign (S.flatMap Prod.snd))) * this
  have short : ∀ S ∈ L, S.length ≤ N := by
    intro S hS
    obtain ⟨h1, h2, h3⟩ := (isPath_iff hr hpos hU hV hna).1 ((hL S).1 hS)
    refine le_trans ?_ hN
    rw [← h2.length_eq, List.length_flatMap]
    have : ∀ S : List (List ℕ × List ℕ), (∀ q ∈ S, q.1 ≠ []) → S.length ≤ (S.map fun q => q.1.length).sum := by
      intro S
      induction S with
      | nil => simp
      | cons q S ih =>
        intro h
        have h1 := List.length_pos_of_ne_nil (h q (by simp))
        have h2 := ih fun q hq => h q (by simp [hq])
        rw [List.map_cons, List.sum_cons, List.length_cons]; omega
    exact this S fun q hq => (hop q (h1.subset hq)).pos
  -- the series
  have series : (expSeries (clusterOp ranks.toFinset U.toFinset V.toFinset t) N (ket s)) u =
      ∑ k ∈ Finset.range (N + 1), ∑ S ∈ ((opsP ranks U V).sublistsLen k).toFinset,
        ((S.map fun p => t p.1.toFinset p.2.toFinset • (excOp p.1 p.2 : Module.End R (Fock R))).prod (ket s)) u := by
    unfold expSeries
    rw [LinearMap.sum_apply, Finsupp.finsetSum_apply]
    apply Finset.sum_congr rfl
    intro k _
    rw [clusterOp_list (hr.imp fun h => by omega) hU hV, sum_pow_sublists (A := Module.End R (Fock R)) _ (by
      intro x hx y hy
      obtain ⟨p, hp, rfl⟩ := List.mem_map.1 hx
      obtain ⟨q, hq, rfl⟩ := List.mem_map.1 hy
      exact ((excOp_commute (hop p hp) (hop q hq)).smul_left _).smul_right _) (by
      intro x hx
      obtain ⟨p, hp, rfl⟩ := List.mem_map.1 hx
      rw [smul_mul_smul_comm, excOp_sq (hop p hp), smul_zero])]
    rw [← Nat.cast_smul_eq_nsmul R, smul_smul, inv_mul_cancel₀ (Nat.cast_ne_zero.2 (Nat.factorial_ne_zero k)), one_smul,
      sublistsLen_map, List.map_map, List.sum_toFinset _ (List.nodup_sublistsLen k hnd)]
    generalize (opsP ranks U V).sublistsLen k = M
    induction M with
    | nil => simp
    | cons S M ih =>
      rw [List.map_cons, List.sum_cons, List.map_cons, List.sum_cons, LinearMap.add_apply, Finsupp.add_apply, ih]
      rfl
  rw [series, ← List.sum_map_mul_right, ← List.sum_toFinset _ hLn, Finset.sum_sigma']
  symm
  apply Finset.sum_bij_ne_zero (fun S _ _ => (⟨S.length, S⟩ : Σ _ : ℕ, List (List ℕ × List ℕ)))
  · intro S hS _
    have hS := List.mem_toFinset.1 hS
    obtain ⟨h1, -⟩ := (isPath_iff hr hpos hU hV hna).1 ((hL S).1 hS)
    rw [Finset.mem_sigma, Finset.mem_range, List.mem_toFinset, List.mem_sublistsLen]
    exact ⟨Nat.lt_succ_of_le (short S hS), h1, rfl⟩
  · intro S _ _ S' _ _ e
    rw [Sigma.mk.injEq] at e
    exact eq_of_heq e.2
  · rintro ⟨k, S⟩ hS hne
    rw [Finset.mem_sigma, Finset.mem_range, List.mem_toFinset, List.mem_sublistsLen] at hS
    simp only at hS hne
    rw [val S hS.2.1] at hne
    have hSL := zero S hS.2.1 (right_ne_zero_of_mul hne)
    refine ⟨S, List.mem_toFinset.2 hSL, ?_, ?_⟩
    · rw [mul_assoc, ← good S hSL, ← mul_assoc]; exact hne
    · rw [hS.2.2]
  · intro S hS _
    have hS := List.mem_toFinset.1 hS
    obtain ⟨h1, -⟩ := (isPath_iff hr hpos hU hV hna).1 ((hL S).1 hS)
    simp only
    rw [val S h1, mul_assoc, mul_assoc, good S hS]

end Fanpy.CC
