import Verif.Props.CreationCCDeriv
import Verif.Props.GeminalColumns
import Verif.Props.PCCD

/-! # Property C69: parameters of the creation-operator coupled cluster wavefunction, and witnesses for C67 and C68 -/

namespace Fanpy.Props
open Fanpy.Spec Fanpy.Slater Fanpy.Graphs Fanpy.It Fanpy.Geminal Fanpy.Lemmas

variable {R : Type} [CommRing R]

theorem baseOrbpairs_self {l : List (ℕ × ℕ)} (hlt : ∀ p ∈ l, p.1 < p.2) (hn : l.Nodup) : baseOrbpairs l = .ok l := by
  have key : ∀ (l acc : List (ℕ × ℕ)), (∀ p ∈ l, p.1 < p.2) → (acc ++ l).Nodup → l.foldlM addOrbpair acc = .ok (acc ++ l) := by
    intro l
    induction l with
    | nil => intro acc _ _; simp [pure, Except.pure]
    | cons p l ih =>
      intro acc h1 h2
      have hp := h1 p (by simp)
      have hpa : p ∉ acc := by
        intro hp
        rw [List.nodup_append] at h2
        exact h2.2.2 p hp p (by simp) rfl
      rw [List.foldlM_cons]
      have : addOrbpair acc p = .ok (acc ++ [p]) := by
        obtain ⟨a, b⟩ := p
        have h3 : ¬ a = b := by simp at hp; omega
        have h4 : ¬ b < a := by simp at hp; omega
        simp [addOrbpair, h3, h4, hpa]
      rw [this]
      simp only [bind, Except.bind]
      rw [ih (acc ++ [p]) (fun q hq => h1 q (by simp [hq])) (by simpa using h2)]
      simp
  exact key l [] hlt (by simpa using hn)

theorem allPairs_eq (nspin : ℕ) : CreationCC.allPairs nspin = pairsAll nspin := rfl

theorem assignOrbpairs_none (nspin : ℕ) : CreationCC.assignOrbpairs nspin none = .ok (pairsAll nspin) :=
  baseOrbpairs_self (fun _ hp => (mem_pairsAll.1 hp).1) (nodup_pairsAll nspin)

theorem length_pairsAll (nspin : ℕ) : (pairsAll nspin).length = nspin * (nspin - 1) / 2 := by
  have h : (pairsAll nspin).length = ∑ a ∈ Finset.range nspin, (nspin - (a + 1)) := by
    rw [pairsAll, List.length_flatMap]
    simp only [List.length_map, List.length_range']
    rw [Finset.sum, Finset.range_val, ← Multiset.coe_range, Multiset.map_coe, Multiset.sum_coe]
  have := sum_tri nspin nspin le_rfl
  rw [h]
  rcases nspin with _ | n
  · simp
  · have e : (n + 1) * (n + 1 - 1) = 2 * ∑ a ∈ Finset.range (n + 1), (n + 1 - (a + 1)) := by
      rw [Nat.add_sub_cancel]
      nlinarith
    rw [e]
    omega

/-- the reference pairs are the sorted orbitals of the ground determinant, two by two -/
theorem refPairs_eq {nelec nspin g : ℕ} (hg : ground nelec nspin = .ok g) (he : nelec % 2 = 0) :
    CreationCC.refPairs nelec nspin = CreationCC.inPairs (occIndices (some g)) := by
  obtain ⟨h1, h2, h3, h4, -⟩ := ground_even hg he
  rw [CreationCC.refPairs]
  congr 1
  have hp : ((List.range (nelec / 2)).flatMap fun i => [i, nspin / 2 + i]).Perm (occIndices (some g)) := by
    rw [h4]
    generalize List.range (nelec / 2) = l
    induction l with
    | nil => simp
    | cons x l ih =>
      rw [List.flatMap_cons, List.map_cons, List.cons_append, List.cons_append, List.cons_append, List.nil_append]
      refine List.Perm.cons x ?_
      refine ((ih.cons _).trans ?_)
      rw [add_comm]
      exact List.perm_middle.symm
  have hs := sorted_occIndices g
  refine List.Perm.eq_of_pairwise (le := (· ≤ ·)) (fun a b _ _ h h' => le_antisymm h h') ?_ (hs.imp fun h => le_of_lt h)
    ((List.mergeSort_perm _ _).trans hp)
  have := List.pairwise_mergeSort (le := fun a b : ℕ => decide (a ≤ b)) (by intro a b c; simp; omega) (by intro a b; simp; omega)
    ((List.range (nelec / 2)).flatMap fun i => [i, nspin / 2 + i])
  exact this.imp fun h => by simpa using h

theorem setOnes_ok {pairs : List (ℕ × ℕ)} : ∀ (l : List (ℕ × ℕ)) (P : List R), (∀ p ∈ l, p ∈ pairs) → pairs.length ≤ P.length →
    ∃ Q, CreationCC.setOnes pairs P l = .ok Q ∧ Q.length = P.length ∧
      ∀ c < P.length, Q.getD c 0 = if ∃ p ∈ l, pairs.idxOf p = c then 1 else P.getD c 0
  | [], P, _, _ => ⟨P, rfl, rfl, fun c _ => by simp⟩
  | p :: l, P, h1, h2 => by
    have hp := h1 p (by simp)
    have hlt : pairs.idxOf p < P.length := lt_of_lt_of_le (List.idxOf_lt_length_iff.2 hp) h2
    obtain ⟨Q, hQ, hl, hv⟩ := setOnes_ok l (P.set (pairs.idxOf p) 1) (fun q hq => h1 q (by simp [hq])) (by simpa using h2)
    refine ⟨Q, ?_, by simpa using hl, fun c hc => ?_⟩
    · rw [CreationCC.setOnes, creation_colInd hp]
      simp only [bind, Except.bind, if_pos hlt]
      exact hQ
    · rw [hv c (by simpa using hc)]
      by_cases hx : ∃ q ∈ l, pairs.idxOf q = c
      · rw [if_pos hx, if_pos]
        obtain ⟨q, hq, hqe⟩ := hx
        exact ⟨q, by simp [hq], hqe⟩
      · rw [if_neg hx, List.getD_eq_getElem _ _ (by simpa using hc), List.getElem_set]
        by_cases hpc : pairs.idxOf p = c
        · rw [if_pos hpc, if_pos ⟨p, by simp, hpc⟩]
        · rw [if_neg hpc, if_neg, List.getD_eq_getElem _ _ hc]
          rintro ⟨q, hq, hqe⟩
          rw [List.mem_cons] at hq
          rcases hq with rfl | hq
          · exact hpc hqe
          · exact hx ⟨q, hq, hqe⟩

theorem inPairs_getD : ∀ (l : List ℕ) (k : ℕ), k < l.length / 2 → (l.getD (2 * k) 0, l.getD (2 * k + 1) 0) ∈ CreationCC.inPairs l
  | [], k, h => by simp at h
  | [_], k, h => by simp at h
  | x :: y :: r, 0, h => by simp [CreationCC.inPairs]
  | x :: y :: r, k + 1, h => by
    rw [CreationCC.inPairs, List.mem_cons]
    right
    have := inPairs_getD r k (by simp at h; omega)
    rw [show 2 * (k + 1) = 2 * k + 1 + 1 by ring, List.getD_cons_succ, List.getD_cons_succ, List.getD_cons_succ, List.getD_cons_succ]
    exact this

theorem mem_inPairs : ∀ (l : List ℕ) (p : ℕ × ℕ), p ∈ CreationCC.inPairs l ↔ ∃ k < l.length / 2, p = (l.getD (2 * k) 0, l.getD (2 * k + 1) 0)
  | [], p => by simp [CreationCC.inPairs]
  | [_], p => by simp [CreationCC.inPairs]
  | x :: y :: r, p => by
    constructor
    · intro h
      rw [CreationCC.inPairs, List.mem_cons] at h
      rcases h with rfl | h
      · exact ⟨0, by simp, by simp⟩
      · obtain ⟨k, hk, rfl⟩ := (mem_inPairs r p).1 h
        refine ⟨k + 1, by simp; omega, ?_⟩
        rw [show 2 * (k + 1) = 2 * k + 1 + 1 by ring, List.getD_cons_succ, List.getD_cons_succ, List.getD_cons_succ, List.getD_cons_succ]
    · rintro ⟨k, hk, rfl⟩
      exact inPairs_getD _ k hk

theorem refPairs_mem {nelec nspin g : ℕ} (hg : ground nelec nspin = .ok g) (he : nelec % 2 = 0) :
    ∀ p ∈ CreationCC.refPairs nelec nspin, p ∈ pairsAll nspin := by
  intro p hp
  rw [refPairs_eq hg he] at hp
  have hlen : (occIndices (some g)).length % 2 = 0 := by rw [length_occIndices, (ground_ok_facts hg).2.2, he]
  have h1 := (mem_of_flatPairs hp).2
  rw [flatPairs_inPairs _ hlen, mem_occIndices] at h1
  rw [mem_pairsAll]
  refine ⟨inPairs_sorted _ (sorted_occIndices _) p hp, ?_⟩
  by_contra hlt
  push Not at hlt
  have := Nat.testBit_lt_two_pow (lt_of_lt_of_le (ground_ok_facts hg).2.1 (Nat.pow_le_pow_right (by omega) hlt))
  rw [this] at h1
  exact absurd h1 (by simp)

/-- **C69**.  Whatever parameters are given (one for every pair), the parameters of the pairs of neighbouring orbitals of the ground determinant —
the first and second, the third and fourth occupied orbital, and so on — become one and the others are kept. -/
theorem C69_given (nelec nspin g : ℕ) (hg : ground nelec nspin = .ok g) (he : nelec % 2 = 0) (P : List R) (hP : nspin * (nspin - 1) / 2 ≤ P.length) :
    ∃ w, CreationCC.init nelec nspin none (some P) = .ok w ∧ w.pairs = pairsAll nspin ∧ w.params.length = P.length ∧
      ∀ c < P.length, w.params.getD c 0 =
        if ∃ k < nelec / 2, (pairsAll nspin).idxOf ((occIndices (some g)).getD (2 * k) 0, (occIndices (some g)).getD (2 * k + 1) 0) = c
        then 1 else P.getD c 0 := by
  obtain ⟨h1, h2, h3, h4, -⟩ := ground_even hg he
  obtain ⟨Q, hQ, hl, hv⟩ := setOnes_ok (pairs := pairsAll nspin) (CreationCC.refPairs nelec nspin) P (refPairs_mem hg he)
    (by rw [length_pairsAll]; exact hP)
  refine ⟨⟨nelec, nspin, pairsAll nspin, Q, CreationCC.getPermutations nelec⟩, ?_, rfl, hl, ?_⟩
  · have e1 : ¬ nelec = 0 := by omega
    have e3 : ¬ (nspin = 0 ∨ nspin % 2 = 1) := by omega
    rw [CreationCC.init, CreationCC.checkNelec, CI.checkNelec, CI.checkNspin, assignOrbpairs_none]
    simp only [e1, he, e3, bind, Except.bind, pure, Except.pure, if_false, ne_eq, not_true_eq_false, CreationCC.assignParams, Option.getD_some, hQ]
  · intro c hc
    rw [hv c hc]
    congr 1
    rw [eq_iff_iff, refPairs_eq hg he]
    have hlen : (occIndices (some g)).length = nelec := by rw [length_occIndices, (ground_ok_facts hg).2.2]
    constructor
    · rintro ⟨p, hp, hpe⟩
      obtain ⟨k, hk, rfl⟩ := (mem_inPairs _ _).1 hp
      exact ⟨k, by rwa [hlen] at hk, hpe⟩
    · rintro ⟨k, hk, hke⟩
      exact ⟨_, (mem_inPairs _ _).2 ⟨k, by rwa [hlen], rfl⟩, hke⟩

theorem sum_indicator {α : Type} [DecidableEq α] (t : α) : ∀ (l : List α), l.Nodup → t ∈ l → (l.map fun a => if a = t then (1 : R) else 0).sum = 1
  | [], _, h => by simp at h
  | a :: l, hn, h => by
    rw [List.nodup_cons] at hn
    rw [List.map_cons, List.sum_cons]
    by_cases hat : a = t
    · subst hat
      rw [if_pos rfl]
      have : (l.map fun b => if b = a then (1 : R) else 0) = l.map fun _ => 0 := by
        apply List.map_congr_left
        intro b hb
        rw [if_neg]
        rintro rfl
        exact hn.1 hb
      rw [this]
      simp
    · rw [if_neg hat, zero_add]
      rw [List.mem_cons] at h
      exact sum_indicator t l hn.2 (h.resolve_left (Ne.symm hat))

theorem prod_indicator {α : Type} (P : α → Prop) [DecidablePred P] (l : List α) :
    (l.map fun a => if P a then (1 : R) else 0).prod = if ∀ a ∈ l, P a then 1 else 0 := by
  induction l with
  | nil => simp
  | cons a l ih =>
    rw [List.map_cons, List.prod_cons, ih]
    by_cases h1 : P a <;> by_cases h2 : ∀ b ∈ l, P b <;> simp [h1, h2]

theorem flatPairs_mem_toFinset {S T : Scheme} (h : S.toFinset = T.toFinset) : (flatPairs S).toFinset = (flatPairs T).toFinset := by
  ext x
  simp only [flatPairs, List.mem_toFinset, List.mem_flatMap]
  constructor <;> rintro ⟨p, hp, hx⟩ <;> refine ⟨p, ?_, hx⟩
  · rw [← List.mem_toFinset, ← h, List.mem_toFinset]; exact hp
  · rw [← List.mem_toFinset, h, List.mem_toFinset]; exact hp

/-- **C69**.  The default parameters give the ground determinant: overlap one with it and zero with every other determinant of as many
electrons in the orbitals. -/
theorem C69_default (nelec nspin g : ℕ) (hg : ground nelec nspin = .ok g) (he : nelec % 2 = 0) :
    ∃ w, CreationCC.init (R := R) nelec nspin none none = .ok w ∧ w.params.length = nspin * (nspin - 1) / 2 ∧
      ∀ sd, sd < 2 ^ nspin → (occSet sd).card = nelec → CreationCC.overlap w sd = .ok (if sd = g then 1 else 0) := by
  obtain ⟨w, hw, hp, hl, hv⟩ := C69_given nelec nspin g hg he (List.replicate (nspin * (nspin - 1) / 2) (0 : R)) (by simp)
  rw [List.length_replicate] at hl hv
  have hw' : CreationCC.init (R := R) nelec nspin none none = .ok w := hw
  refine ⟨w, hw', hl, fun sd hsd hcard => ?_⟩
  have hlen : (occIndices (some g)).length = nelec := by rw [length_occIndices, (ground_ok_facts hg).2.2]
  have hall : ∀ i ∈ occSet sd, ∀ j ∈ occSet sd, i < j → (i, j) ∈ w.pairs := by
    intro i hi j hj hij
    rw [hp, mem_pairsAll]
    refine ⟨hij, ?_⟩
    by_contra hlt
    push Not at hlt
    have := Nat.testBit_lt_two_pow (lt_of_lt_of_le hsd (Nat.pow_le_pow_right (by omega) hlt))
    rw [mem_occSet, this] at hj
    exact absurd hj (by simp)
  have hc := creation_covers hw' hcard hall
  have e := creation_overlap hw' w.params (by rw [hl, hp, length_pairsAll]) hcard hall
  rw [show ({ w with params := w.params } : CreationCC.Wfn R) = w from rfl] at e
  rw [e]
  congr 1
  have hpar : ∀ p ∈ pairsAll nspin, w.params.getD ((pairsAll nspin).idxOf p) 0 =
      if p ∈ CreationCC.inPairs (occIndices (some g)) then (1 : R) else 0 := by
    intro p hp
    have hlt := List.idxOf_lt_length_iff.2 hp
    rw [length_pairsAll] at hlt
    rw [hv _ hlt, List.getD_eq_getElem _ _ (by simpa using hlt), List.getElem_replicate]
    congr 1
    rw [eq_iff_iff, mem_inPairs, hlen]
    constructor
    · rintro ⟨k, hk, hke⟩
      refine ⟨k, hk, ?_⟩
      exact ((List.idxOf_inj hp).1 hke.symm)
    · rintro ⟨k, hk, rfl⟩
      exact ⟨k, hk, rfl⟩
  have hlenr : (CreationCC.inPairs (occIndices (some g))).length = nelec / 2 := by
    have := flatPairs_length_even (CreationCC.inPairs (occIndices (some g)))
    rw [flatPairs_inPairs _ (by omega)] at this
    omega
  have hfr : flatPairs (CreationCC.inPairs (occIndices (some g))) = occIndices (some g) := flatPairs_inPairs _ (by omega)
  have hnr : (CreationCC.inPairs (occIndices (some g))).Nodup := nodup_of_flatPairs (by rw [hfr]; exact nodup_occIndices _)
  generalize hout : (w.matchings.map fun m => (m.1.map (CreationCC.atPair (occIndices (some sd))), m.2)) = out at hc
  have hterm : ∀ o ∈ out, (o.2 : R) * (o.1.map fun p => w.params.getD (w.pairs.idxOf p) 0).prod =
      if o.1.toFinset = (CreationCC.inPairs (occIndices (some g))).toFinset then 1 else 0 := by
    intro o ho
    have h1 : (o.1.map fun p => w.params.getD (w.pairs.idxOf p) 0) =
        o.1.map fun p => if p ∈ CreationCC.inPairs (occIndices (some g)) then (1 : R) else 0 := by
      apply List.map_congr_left
      intro p hpo
      rw [hp, hpar p (by rw [← hp]; exact hc.sub o ho p hpo)]
    have hno := nodup_of_flatPairs (hc.flat o ho)
    rw [h1, prod_indicator]
    by_cases hx : ∀ a ∈ o.1, a ∈ CreationCC.inPairs (occIndices (some g))
    · have hperm : o.1.Perm (CreationCC.inPairs (occIndices (some g))) :=
        (List.subperm_of_subset hno hx).perm_of_length_le (by rw [hc.len o ho, hlenr])
      rw [if_pos hx, if_pos (List.toFinset_eq_of_perm _ _ hperm), hc.sign o ho, listSign_flatPairs_perm hperm (hc.flat o ho), hfr,
        listSign_sorted (sorted_occIndices _)]
      simp
    · rw [if_neg hx, if_neg, mul_zero]
      intro heq
      apply hx
      intro a ha
      rw [← List.mem_toFinset, ← heq, List.mem_toFinset]
      exact ha
  rw [matchSum, List.map_congr_left hterm]
  by_cases hsg : sd = g
  · subst hsg
    rw [if_pos rfl]
    have hmap : (out.map fun o => if o.1.toFinset = (CreationCC.inPairs (occIndices (some sd))).toFinset then (1 : R) else 0) =
        (out.map fun o => o.1.toFinset).map fun a => if a = (CreationCC.inPairs (occIndices (some sd))).toFinset then (1 : R) else 0 := by
      rw [List.map_map]
      rfl
    rw [hmap]
    apply sum_indicator _ _ hc.once
    obtain ⟨o, ho, heq⟩ := hc.all (CreationCC.inPairs (occIndices (some sd))) (by
      intro p hpm
      have h1 := mem_of_flatPairs hpm
      rw [hfr, mem_occIndices, mem_occIndices, ← mem_occSet, ← mem_occSet] at h1
      exact hall _ h1.1 _ h1.2 (inPairs_sorted _ (sorted_occIndices _) p hpm)) (by rw [hfr]; exact nodup_occIndices _)
      (by rw [hfr, toFinset_occIndices])
    exact List.mem_map.2 ⟨o, ho, heq⟩
  · rw [if_neg hsg]
    apply List.sum_eq_zero
    intro x hx
    obtain ⟨o, ho, rfl⟩ := List.mem_map.1 hx
    rw [if_neg]
    intro heq
    have h1 := flatPairs_mem_toFinset heq
    rw [hc.occ o ho, hfr, toFinset_occIndices] at h1
    exact hsg (occSet_injective h1)

/-- **C69**, more electrons than spin orbitals: the default wavefunction cannot be made. -/
theorem C69_too_many (nelec nspin : ℕ) (he : nelec % 2 = 0) (hs : 0 < nspin) (hs2 : nspin % 2 = 0) (h : nspin < nelec) :
    CreationCC.init (R := R) nelec nspin none none = .error .valueError := by
  have e1 : ¬ nelec = 0 := by omega
  have e3 : ¬ (nspin = 0 ∨ nspin % 2 = 1) := by omega
  have hset : ∀ (l : List (ℕ × ℕ)) (P : List R), (pairsAll nspin).length ≤ P.length → (∃ p ∈ l, p ∉ pairsAll nspin) →
      CreationCC.setOnes (pairsAll nspin) P l = .error .valueError := by
    intro l
    induction l with
    | nil => intro P _ hx; simp at hx
    | cons p l ih =>
      intro P hP hx
      rw [CreationCC.setOnes]
      by_cases hp : p ∈ pairsAll nspin
      · have hlt : (pairsAll nspin).idxOf p < P.length := lt_of_lt_of_le (List.idxOf_lt_length_iff.2 hp) hP
        rw [creation_colInd hp]
        simp only [bind, Except.bind, if_pos hlt]
        apply ih _ (by simpa using hP)
        obtain ⟨q, hq, hqn⟩ := hx
        rw [List.mem_cons] at hq
        rcases hq with rfl | hq
        · exact absurd hp hqn
        · exact ⟨q, hq, hqn⟩
      · rw [CreationCC.colInd, if_neg hp]
        rfl
  have hbad : ∃ p ∈ CreationCC.refPairs nelec nspin, p ∉ pairsAll nspin := by
    by_contra hx
    push Not at hx
    have hlen : (((List.range (nelec / 2)).flatMap fun i => [i, nspin / 2 + i]).mergeSort fun a b => decide (a ≤ b)).length % 2 = 0 := by
      rw [List.length_mergeSort, List.length_flatMap]
      simp
    have hm : nspin / 2 + (nelec / 2 - 1) ∈ flatPairs (CreationCC.refPairs nelec nspin) := by
      rw [CreationCC.refPairs, flatPairs_inPairs _ hlen, List.mem_mergeSort, List.mem_flatMap]
      exact ⟨nelec / 2 - 1, List.mem_range.2 (by omega), by simp⟩
    rw [flatPairs, List.mem_flatMap] at hm
    obtain ⟨p, hp, hpe⟩ := hm
    have := mem_pairsAll.1 (hx p hp)
    simp at hpe
    omega
  rw [CreationCC.init, CreationCC.checkNelec, CI.checkNelec, CI.checkNspin, assignOrbpairs_none]
  simp only [e1, he, e3, bind, Except.bind, pure, Except.pure, if_false, ne_eq, not_true_eq_false, CreationCC.assignParams,
    hset _ _ (show (pairsAll nspin).length ≤ ((none : Option (List R)).getD (List.replicate (nspin * (nspin - 1) / 2) 0)).length by
      simp [length_pairsAll]) hbad]

/-! ### concrete cases -/

theorem creation_case_two (P : List ℤ) : CreationCC.init 2 4 none (some P) =
    (CreationCC.setOnes (pairsAll 4) P [(0, 2)]).bind fun Q => .ok ⟨2, 4, pairsAll 4, Q, CreationCC.getPermutations 2⟩ := by
  have hg : ground 2 4 = .ok 5 := by decide +kernel
  have hr : CreationCC.refPairs 2 4 = [(0, 2)] := by
    rw [refPairs_eq hg rfl]
    decide +kernel
  rw [CreationCC.init, CreationCC.checkNelec, CI.checkNelec, CI.checkNspin, assignOrbpairs_none]
  simp [bind, Except.bind, pure, Except.pure, CreationCC.assignParams, hr]

theorem creation_case_four (P : List ℤ) : CreationCC.init 4 6 none (some P) =
    (CreationCC.setOnes (pairsAll 6) P [(0, 1), (3, 4)]).bind fun Q => .ok ⟨4, 6, pairsAll 6, Q, CreationCC.getPermutations 4⟩ := by
  have hg : ground 4 6 = .ok 27 := by decide +kernel
  have hr : CreationCC.refPairs 4 6 = [(0, 1), (3, 4)] := by
    rw [refPairs_eq hg rfl]
    decide +kernel
  rw [CreationCC.init, CreationCC.checkNelec, CI.checkNelec, CI.checkNspin, assignOrbpairs_none]
  simp [bind, Except.bind, pure, Except.pure, CreationCC.assignParams, hr]

/-- **C69**, negation: parameters given at construction are not the parameters of the wavefunction. -/
theorem C69_overwritten : ∃ (P : List ℤ) (w : CreationCC.Wfn ℤ), P.length = 6 ∧ CreationCC.init 2 4 none (some P) = .ok w ∧ w.params ≠ P ∧
    w.params = [2, 1, 4, 5, 6, 7] :=
  ⟨[2, 3, 4, 5, 6, 7], ⟨2, 4, pairsAll 4, [2, 1, 4, 5, 6, 7], CreationCC.getPermutations 2⟩, rfl, by rw [creation_case_two]; rfl,
    by decide +kernel, rfl⟩

/-- the wavefunction of the concrete cases: four electrons in six spin orbitals -/
def creationCase : CreationCC.Wfn ℤ :=
  ⟨4, 6, pairsAll 6, [1, 3, 4, 5, 6, 7, 8, 9, 10, 11, 12, 13, 1, 15, 16], CreationCC.getPermutations 4⟩

theorem creationCase_init : CreationCC.init 4 6 none (some [2, 3, 4, 5, 6, 7, 8, 9, 10, 11, 12, 13, 14, 15, 16]) = .ok creationCase := by
  rw [creation_case_four]
  rfl

/-- orbitals 0, 1, 2 and 5: `c01 c25 - c02 c15 + c05 c12` -/
example : CreationCC.overlap creationCase 39 = .ok (1 * 13 - 3 * 10 + 6 * 7) ∧ (occSet 39).card = 4 ∧
    (∀ i ∈ occSet 39, ∀ j ∈ occSet 39, i < j → (i, j) ∈ creationCase.pairs) ∧ creationCase.pairs.length ≤ creationCase.params.length := by
  decide +kernel

example : CreationCC.overlapDeriv creationCase 39 = .ok [13, -10, 0, 0, 7, 6, 0, 0, -3, 0, 0, 1, 0, 0, 0] := by decide +kernel

/-- **C67**, negation: the overlap with a determinant of six electrons is not zero though the wavefunction has four. -/
theorem C67_excess_nonzero : ∃ (P : List ℤ) (w : CreationCC.Wfn ℤ), CreationCC.init 4 6 none (some P) = .ok w ∧ (occSet 63).card = 6 ∧
    CreationCC.overlap w 63 = .ok (1 * 11 - 3 * 8 + 4 * 7) :=
  ⟨_, creationCase, creationCase_init, by decide +kernel, by decide +kernel⟩

/-- C67_fewer at a concrete point -/
example : (occSet 7).card < 4 ∧ CreationCC.overlap creationCase 7 = .error .indexError := by decide +kernel

/-- C67_excess at a concrete point -/
example : occIndices (some 15) = (occIndices (some 63)).take 4 ∧ 4 ≤ (occSet 63).card := by decide +kernel

/-- C67_missing_pair at a concrete point: the pairs do not connect the orbitals 0 and 5 -/
example : ∃ w : CreationCC.Wfn ℤ, CreationCC.init 2 6 (some [(0, 3), (1, 4)]) none = .ok w ∧ CreationCC.overlap w 33 = .error .valueError := by
  have hr : CreationCC.refPairs 2 6 = [(0, 3)] := by
    rw [refPairs_eq (g := 9) (by decide +kernel) rfl]
    decide +kernel
  refine ⟨⟨2, 6, [(0, 3), (1, 4)], 1 :: List.replicate 14 0, CreationCC.getPermutations 2⟩, ?_, by decide +kernel⟩
  rw [CreationCC.init, CreationCC.checkNelec, CI.checkNelec, CI.checkNspin, CreationCC.assignOrbpairs]
  simp only [CreationCC.assignParams, hr]
  rfl

/-- C69_default and C69_too_many at concrete points -/
example : ground 4 6 = .ok 27 ∧ (occSet 27).card = 4 := by decide +kernel
example : CreationCC.init (R := ℤ) 4 2 none none = .error .valueError := C69_too_many 4 2 rfl (by omega) rfl (by omega)

end Fanpy.Props
