import Verif.Lemmas.CCPairs
import Verif.Props.CC

/-! The products of operators that the pair coupled cluster wavefunctions keep. -/

namespace Fanpy.PCCD
open Fanpy.Spec Fanpy.Slater Fanpy.Graphs Fanpy.It Fanpy.CC Fanpy.Props Fanpy.Lemmas

/-- the spin orbital with the other spin and the same spatial part -/
def partner (n i : ℕ) : ℕ := if i < n then i + n else i - n

/-- what an operator adds to `trash` -/
def trashOf (n : ℕ) (q : List ℕ × List ℕ) : List ℕ := if q.1.length = 1 then [partner n (q.1.headD 0), q.1.headD 0] else q.1.reverse

open Classical in
theorem trashAll_eq (trash l : List ℕ) : trashAll trash l = if l.Nodup ∧ l.Disjoint trash then some (l.reverse ++ trash) else none := by
  induction l generalizing trash with
  | nil => simp [trashAll]
  | cons j l ih =>
    rw [trashAll, ih]
    by_cases h : j ∈ trash
    · rw [if_pos h, if_neg]
      rintro ⟨-, hd⟩
      exact hd (by simp) h
    · rw [if_neg h]
      have : (l.Nodup ∧ l.Disjoint (j :: trash)) ↔ ((j :: l).Nodup ∧ (j :: l).Disjoint trash) := by
        rw [List.nodup_cons, List.disjoint_cons_left, List.disjoint_cons_right]; tauto
      simp only [this]
      split_ifs <;> simp

open Classical in
theorem keepOp_eq (n : ℕ) (occ trash : List ℕ) (q : List ℕ × List ℕ) (hl : q.1.length = q.2.length) (hn : q.1.Nodup) :
    keepOp n occ trash (q.1 ++ q.2) =
      if q.1.Disjoint trash ∧ (q.1.length = 1 → partner n (q.1.headD 0) ∈ occ) then some (trashOf n q ++ trash) else none := by
  unfold keepOp
  by_cases h1 : q.1.length = 1
  · obtain ⟨i, hi⟩ := List.length_eq_one_iff.1 h1
    rw [if_pos (by rw [List.length_append]; omega)]
    have hh : (q.1 ++ q.2).headD 0 = i := by rw [hi]; rfl
    rw [hh, trashOf, if_pos h1, hi]
    simp only [List.headD_cons, List.length_singleton, List.singleton_disjoint, true_imp_iff, partner]
    by_cases h2 : i ∈ trash
    · simp [h2]
    · by_cases h3 : i < n
      · by_cases h4 : i + n ∈ occ <;> simp [h2, h3, h4]
      · by_cases h4 : i - n ∈ occ <;> simp [h2, h3, h4]
  · rw [if_neg (by rw [List.length_append]; omega)]
    have e : (q.1 ++ q.2).length / 2 = q.1.length := by rw [List.length_append]; omega
    rw [e, List.take_left, trashAll_eq, trashOf, if_neg h1]
    by_cases h2 : q.1.Disjoint trash
    · rw [if_pos ⟨hn, h2⟩, if_pos ⟨h2, fun h => absurd h h1⟩]
    · rw [if_neg fun h => h2 h.2, if_neg fun h => h2 h.1]

open Classical in
theorem keepFold (n : ℕ) (occ : List ℕ) (S : List (List ℕ × List ℕ)) (hl : ∀ q ∈ S, q.1.length = q.2.length) (hn : ∀ q ∈ S, q.1.Nodup)
    (trash : List ℕ) : ((S.map fun q => q.1 ++ q.2).foldlM (keepOp n occ) trash).isSome = true ↔
      (∀ q ∈ S, q.1.Disjoint trash ∧ (q.1.length = 1 → partner n (q.1.headD 0) ∈ occ)) ∧ S.Pairwise fun p q => q.1.Disjoint (trashOf n p) := by
  induction S generalizing trash with
  | nil => simp
  | cons p S ih =>
    rw [List.map_cons, List.foldlM_cons, keepOp_eq n occ trash p (hl p (by simp)) (hn p (by simp)), List.pairwise_cons]
    by_cases h : p.1.Disjoint trash ∧ (p.1.length = 1 → partner n (p.1.headD 0) ∈ occ)
    · rw [if_pos h]
      simp only [Option.bind_eq_bind, Option.bind_some]
      rw [ih (fun q hq => hl q (by simp [hq])) (fun q hq => hn q (by simp [hq]))]
      simp only [List.disjoint_append_right, List.forall_mem_cons]
      constructor
      · rintro ⟨h1, h2⟩
        exact ⟨⟨h, fun q hq => ⟨(h1 q hq).1.2, (h1 q hq).2⟩⟩, fun q hq => (h1 q hq).1.1, h2⟩
      · rintro ⟨⟨-, h1⟩, h2, h3⟩
        exact ⟨fun q hq => ⟨⟨h2 q hq, (h1 q hq).1⟩, (h1 q hq).2⟩, h3⟩
    · rw [if_neg h]
      simp only [Option.bind_eq_bind, Option.bind_none, Option.isSome_none, Bool.false_eq_true, List.forall_mem_cons, false_iff]
      tauto

/-- the products that are kept: no operator annihilates the partner of an orbital that is annihilated by a single excitation -/
def Kept (n : ℕ) (a : List ℕ) (S : List (List ℕ × List ℕ)) : Prop := ∀ q ∈ S, q.1.length = 1 → partner n (q.1.headD 0) ∉ a

instance (n : ℕ) (a : List ℕ) (S : List (List ℕ × List ℕ)) : Decidable (Kept n a S) := by unfold Kept; infer_instance

theorem partner_partner {n i : ℕ} (h : i < 2 * n) : partner n (partner n i) = i := by
  unfold partner; split_ifs <;> omega

theorem partner_ne {n i : ℕ} (hn : 0 < n) : partner n i ≠ i := by
  unfold partner; split_ifs <;> omega

theorem keepRow_path {ranks : List ℕ} {exops : List (List ℕ)} {a c : List ℕ} {S : List (List ℕ × List ℕ)} (h : IsPath ranks exops a c S)
    (hpos : ∀ r ∈ ranks, 0 < r) (ha : a.Nodup) {n : ℕ} (hn : 0 < n) (h2n : ∀ i ∈ a, i < 2 * n) (occ : List ℕ) :
    keepRow n occ (S.map fun q => q.1 ++ q.2) = true ↔ (Kept n a S ∧ ∀ q ∈ S, q.1.length = 1 → partner n (q.1.headD 0) ∈ occ) := by
  have hS : (S.flatMap Prod.fst).Nodup := h.ann.nodup_iff.2 ha
  have hmem : ∀ q ∈ S, ∀ i ∈ q.1, i ∈ a := fun q hq i hi => h.ann.subset (List.mem_flatMap.2 ⟨q, hq, hi⟩)
  have hdis : S.Pairwise fun p q => p.1.Disjoint q.1 := by rw [List.nodup_flatMap] at hS; exact hS.2
  have one : ∀ q ∈ S, q.1.length = 1 → q.1 = [q.1.headD 0] := by
    intro q _ h1
    obtain ⟨i, hi⟩ := List.length_eq_one_iff.1 h1
    rw [hi]; rfl
  rw [keepRow, keepFold n occ S h.len fun q hq => (h.srtA q hq).imp fun h => by omega]
  constructor
  · rintro ⟨h1, h2⟩
    refine ⟨?_, fun q hq => (h1 q hq).2⟩
    intro q hq hq1 hp
    obtain ⟨q', hq', hi⟩ := List.mem_flatMap.1 (h.ann.symm.subset hp)
    have hq1' := one q hq hq1
    have hqa : q.1.headD 0 ∈ a := hmem q hq _ (by rw [hq1']; simp)
    -- the two are different
    have hne : q ≠ q' := by
      rintro rfl
      rw [hq1', List.mem_singleton] at hi
      exact partner_ne hn hi
    -- one comes before the other
    have hpw := (h2.and h.order)
    rcases List.pairwise_iff_getElem.1 hpw with hpw
    obtain ⟨x, hx, ex⟩ := List.getElem_of_mem hq
    obtain ⟨y, hy, ey⟩ := List.getElem_of_mem hq'
    rcases lt_trichotomy x y with hxy | hxy | hxy
    · have := (hpw x y hx hy hxy).1
      rw [ex, ey] at this
      exact this hi (by rw [trashOf, if_pos hq1]; simp)
    · subst hxy; exact hne (ex.symm.trans ey)
    · have := hpw y x hy hx hxy
      rw [ex, ey] at this
      have hlen : q'.1.length = 1 := by
        have hp := hpos _ (h.rank q' hq')
        rcases this.2 with hb | ⟨hb, -⟩
        · omega
        · omega
      have hq1'' := one q' hq' hlen
      rw [hq1'', List.mem_singleton] at hi
      have h3 := this.1
      refine h3 (a := q.1.headD 0) (by rw [hq1']; simp) ?_
      rw [trashOf, if_pos hlen, ← hi, partner_partner (h2n _ hqa)]
      simp
  · rintro ⟨h1, h2⟩
    refine ⟨fun q hq => ⟨by simp, h2 q hq⟩, ?_⟩
    refine List.Pairwise.imp_of_mem ?_ hdis
    intro p q hp hq hd
    rw [trashOf]
    split_ifs with hp1
    · have hk := h1 p hp hp1
      rw [List.disjoint_cons_right, List.disjoint_comm, List.singleton_disjoint]
      refine ⟨fun hi => hk (hmem q hq _ hi), fun hi => ?_⟩
      exact hd (by rw [one p hp hp1]; simp) hi
    · exact fun i hi hi' => hd (List.mem_reverse.1 hi') hi

/-- the selections of the overlap and of its derivative agree -/
theorem keepRow_iff {R : Type} (w : Wfn R) (hpos : ∀ r ∈ w.base.ranks, 0 < r) {n : ℕ} (hn : 0 < n)
    (href : w.base.refwfn < 2 ^ (2 * n)) (hcl : ∀ i ∈ occIndices (some w.base.refwfn), partner n i ∈ occIndices (some w.base.refwfn)) (sd : ℕ)
    {S : List (List ℕ × List ℕ)}
    (h : IsPath w.base.ranks w.base.exops (diffOrbs sd w.base.refwfn).2 (diffOrbs sd w.base.refwfn).1 S) :
    (keepRow n (occIndices (some sd)) (S.map fun q => q.1 ++ q.2) = true ↔ Kept n (diffOrbs sd w.base.refwfn).2 S) ∧
    (keepRow n (occIndices (some w.base.refwfn)) (S.map fun q => q.1 ++ q.2) = true ↔ Kept n (diffOrbs sd w.base.refwfn).2 S) := by
  have hmem : ∀ i, i ∈ (diffOrbs sd w.base.refwfn).2 ↔ i ∈ occIndices (some w.base.refwfn) ∧ i ∉ occIndices (some sd) := by
    intro i
    rw [← List.mem_toFinset, diffOrbs_snd_toFinset, Finset.mem_sdiff, mem_occSet, mem_occSet, mem_occIndices, mem_occIndices]
  have h2n : ∀ i ∈ (diffOrbs sd w.base.refwfn).2, i < 2 * n := by
    intro i hi
    have := mem_occIndices.1 ((hmem i).1 hi).1
    by_contra hc
    rw [Nat.testBit_lt_two_pow (lt_of_lt_of_le href (Nat.pow_le_pow_right (by norm_num) (not_lt.1 hc)))] at this
    cases this
  have hnd : (diffOrbs sd w.base.refwfn).2.Nodup := (sorted_occIndices _).imp fun h => by omega
  have hqa : ∀ q ∈ S, q.1.length = 1 → q.1.headD 0 ∈ (diffOrbs sd w.base.refwfn).2 := by
    intro q hq h1
    obtain ⟨i, hi⟩ := List.length_eq_one_iff.1 h1
    exact h.ann.subset (List.mem_flatMap.2 ⟨q, hq, by rw [hi]; simp⟩)
  constructor
  · rw [keepRow_path h hpos hnd hn h2n (occIndices (some sd))]
    refine ⟨fun h => h.1, fun hk => ⟨hk, fun q hq h1 => ?_⟩⟩
    have h2 := hk q hq h1
    rw [hmem] at h2
    by_contra hc
    exact h2 ⟨hcl _ ((hmem _).1 (hqa q hq h1)).1, hc⟩
  · rw [keepRow_path h hpos hnd hn h2n (occIndices (some w.base.refwfn))]
    exact ⟨fun h => h.1, fun hk => ⟨hk, fun q hq h1 => hcl _ ((hmem _).1 (hqa q hq h1)).1⟩⟩

/-- the rows that are selected -/
theorem selectRows_out {R : Type} (w : Wfn R) (hi : w.indExops = w.base.exops) (occ a c : List ℕ) (L : List (List (List ℕ × List ℕ)))
    (hL : ∀ S ∈ L, IsPath w.base.ranks w.base.exops a c S) :
    selectRows w occ (L.map (out w.base.exops)) =
      (L.filter fun S => keepRow w.nspatial occ (S.map fun q => q.1 ++ q.2)).map (out w.base.exops) := by
  unfold selectRows
  rw [List.filter_map]
  congr 1
  apply List.filter_congr
  intro S hS
  rw [Function.comp_apply, out, List.map_map]
  congr 1
  apply List.map_congr_left
  intro q hq
  rw [Function.comp_apply, hi, List.getD_eq_getElem _ _ (List.idxOf_lt_length_of_mem ((hL S hS).mem q hq))]
  exact List.getElem_idxOf _

/-! ## The product of the sums of operators of each pair -/

/-- the amplitude of an excitation operator: the parameter at the index of its key, and zero if there is no such operator -/
def pairAmplitude {R : Type} [Zero R] (w : CC.Wfn R) (A C : Finset ℕ) : R :=
  if A.sort (· ≤ ·) ++ C.sort (· ≤ ·) ∈ w.exops then w.params (w.exops.idxOf (A.sort (· ≤ ·) ++ C.sort (· ≤ ·))) else 0

/-- the spatial orbital of an operator -/
def spatial (n : ℕ) (q : List ℕ × List ℕ) : ℕ := q.1.headD 0 % n

theorem sort_toFinset {l : List ℕ} (h : l.Pairwise (· < ·)) : l.toFinset.sort (· ≤ ·) = l :=
  (List.toFinset_sort (· ≤ ·) (h.imp fun h => by omega)).2 (h.imp fun h => h.le)

theorem kept_iff {ranks : List ℕ} {exops : List (List ℕ)} {a c : List ℕ} {S : List (List ℕ × List ℕ)} (h : IsPath ranks exops a c S)
    (hpos : ∀ r ∈ ranks, 0 < r) (ha : a.Nodup) {n : ℕ} (hp : ∀ q ∈ S, ∃ i < n, ∀ x ∈ q.1, x = i ∨ x = i + n) :
    Kept n a S ↔ (S.map (spatial n)).Nodup := by
  have hS : (S.flatMap Prod.fst).Nodup := h.ann.nodup_iff.2 ha
  have hmem : ∀ q ∈ S, ∀ i ∈ q.1, i ∈ a := fun q hq i hi => h.ann.subset (List.mem_flatMap.2 ⟨q, hq, hi⟩)
  have hdis : S.Pairwise fun p q => p.1.Disjoint q.1 := by rw [List.nodup_flatMap] at hS; exact hS.2
  have hsp : ∀ q ∈ S, spatial n q < n ∧ ∀ x ∈ q.1, x = spatial n q ∨ x = spatial n q + n := by
    intro q hq
    obtain ⟨i, hi, hx⟩ := hp q hq
    have hl := hpos _ (h.rank q hq)
    rcases hq1 : q.1 with - | ⟨y, r⟩
    · rw [hq1] at hl; simp at hl
    · have hy := hx y (by rw [hq1]; simp)
      have : spatial n q = i := by
        rw [spatial, hq1, List.headD_cons]
        rcases hy with rfl | rfl
        · exact Nat.mod_eq_of_lt hi
        · rw [Nat.add_mod_right]; exact Nat.mod_eq_of_lt hi
      rw [this, ← hq1]; exact ⟨hi, hx⟩
  have hne : ∀ q ∈ S, q.1.headD 0 ∈ q.1 := by
    intro q hq
    have hl := hpos _ (h.rank q hq)
    rcases hq1 : q.1 with - | ⟨y, r⟩
    · rw [hq1] at hl; simp at hl
    · simp
  -- an operator is one of three
  have two : ∀ q ∈ S, q.1.length ≠ 1 → spatial n q ∈ q.1 ∧ spatial n q + n ∈ q.1 := by
    intro q hq h1
    have hl := hpos _ (h.rank q hq)
    have hsrt := h.srtA q hq
    obtain ⟨hi, hx⟩ := hsp q hq
    rcases hq1 : q.1 with - | ⟨y, - | ⟨z, r⟩⟩
    · rw [hq1] at hl; simp at hl
    · rw [hq1] at h1; simp at h1
    · rw [hq1] at hsrt hx
      have hyz : y < z := by rw [List.pairwise_cons] at hsrt; exact hsrt.1 z (by simp)
      have hy := hx y (by simp)
      have hz := hx z (by simp)
      have e1 : y = spatial n q := by omega
      have e2 : z = spatial n q + n := by omega
      rw [← e2]
      constructor
      · rw [← e1]; simp
      · simp
  have pn : ∀ q ∈ S, q.1.length = 1 → ∀ x, (x = spatial n q ∨ x = spatial n q + n) → x ≠ q.1.headD 0 → x = partner n (q.1.headD 0) := by
    intro q hq _ x hx hxn
    obtain ⟨hi, hy⟩ := hsp q hq
    have := hy _ (hne q hq)
    unfold partner
    split_ifs <;> omega
  constructor
  · intro hk
    rw [List.Nodup, List.pairwise_map]
    refine List.Pairwise.imp_of_mem ?_ hdis
    intro p q hp' hq hd e
    have hp1 : p.1.length = 1 := by
      by_contra hc
      obtain ⟨t1, t2⟩ := two p hp' hc
      rcases (hsp q hq).2 _ (hne q hq) with h | h
      · exact hd (by rw [e] at t1; exact t1) (h ▸ hne q hq)
      · exact hd (by rw [e] at t2; exact t2) (h ▸ hne q hq)
    have hx := (hsp q hq).2 _ (hne q hq)
    rw [← e] at hx
    have hxp : q.1.headD 0 ≠ p.1.headD 0 := fun h => hd (hne p hp') (h ▸ hne q hq)
    exact hk p hp' hp1 (pn p hp' hp1 _ hx hxp ▸ hmem q hq _ (hne q hq))
  · intro hn q hq h1 hpa
    obtain ⟨q', hq', hi⟩ := List.mem_flatMap.1 (h.ann.symm.subset hpa)
    obtain ⟨z, hz⟩ := List.length_eq_one_iff.1 h1
    have hpos' : 0 < n := by have := (hsp q hq).1; omega
    have hqq : q ≠ q' := by
      rintro rfl
      rw [hz, List.mem_singleton, List.headD_cons] at hi
      exact partner_ne hpos' hi
    have e : spatial n q = spatial n q' := by
      have h1 := (hsp q' hq').2 _ hi
      have h2 := (hsp q hq).2 _ (hne q hq)
      have h3 := (hsp q hq).1
      have h4 := (hsp q' hq').1
      unfold partner at h1
      split_ifs at h1 <;> omega
    exact hqq (List.inj_on_of_nodup_map hn hq hq' e)

section
variable {R : Type} [CommRing R]

/-- the operators of one pair -/
theorem clusterOp_group (w : CC.Wfn R) {n : ℕ} {V : List ℕ} (hr : w.ranks.Pairwise (· < ·)) (hpos : ∀ r ∈ w.ranks, 0 < r)
    (hV : V.Pairwise (· < ·)) {i : ℕ} (hi : i < n) (Qs : List (List ℕ × List ℕ))
    (hQ : Qs = (opsP w.ranks (List.range (2 * n)) V).filter fun q => decide (q.1 ++ q.2 ∈ w.exops))
    (hp : ∀ q ∈ Qs, ∃ i < n, ∀ x ∈ q.1, x = i ∨ x = i + n) :
    1 + clusterOp w.ranks.toFinset {i, i + n} V.toFinset (pairAmplitude w) =
      groupSum (fun q => pairAmplitude w q.1.toFinset q.2.toFinset • (excOp q.1 q.2 : Module.End R (Fock R))) (spatial n) Qs i := by
  have hin : [i, i + n].Pairwise (· < ·) := by simp; omega
  have e : ({i, i + n} : Finset ℕ) = [i, i + n].toFinset := by ext x; simp
  have hnd : ∀ U : List ℕ, U.Pairwise (· < ·) → (opsP w.ranks U V).Nodup := fun U hU =>
    (opsP_order hr hU hV).imp fun {p q} h => by rintro rfl; exact opLt_asymm h h
  rw [groupSum, e, clusterOp_list (hr.imp fun h => by omega) hin hV]
  congr 1
  have hQn : Qs.Nodup := by rw [hQ]; exact (hnd _ List.pairwise_lt_range).filter _
  rw [← List.sum_toFinset _ (hnd _ hin), ← List.sum_toFinset _ (hQn.filter _)]
  symm
  apply Finset.sum_subset
  · intro q hq
    rw [List.mem_toFinset, List.mem_filter] at hq
    obtain ⟨hq, hs⟩ := hq
    obtain ⟨j, hj, hx⟩ := hp q hq
    rw [hQ, List.mem_filter, mem_opsP] at hq
    obtain ⟨⟨q1, q2, q3, q4⟩, -⟩ := hq
    rw [List.mem_toFinset, mem_opsP]
    refine ⟨q1, q2, ?_, q4⟩
    have hsrt : q.1.Pairwise (· < ·) := List.pairwise_lt_range.sublist q3
    have hji : j = i := by
      have hl := hpos _ q1
      rcases hq1 : q.1 with - | ⟨y, r⟩
      · rw [hq1] at hl; simp at hl
      · have hy := hx y (by rw [hq1]; simp)
        rw [decide_eq_true_eq, spatial, hq1, List.headD_cons] at hs
        rcases hy with rfl | rfl
        · rwa [Nat.mod_eq_of_lt hj] at hs
        · rwa [Nat.add_mod_right, Nat.mod_eq_of_lt hj] at hs
    subst hji
    exact List.sublist_of_subperm_of_pairwise (r := (· < ·)) (List.subperm_of_subset (hsrt.imp fun h => by omega)
      (fun x hx' => by simpa using hx x hx')) hsrt hin
  · intro q hq hn
    rw [List.mem_toFinset, mem_opsP] at hq
    obtain ⟨q1, q2, q3, q4⟩ := hq
    have s1 : q.1.Pairwise (· < ·) := hin.sublist q3
    have s2 : q.2.Pairwise (· < ·) := hV.sublist q4
    have : pairAmplitude w q.1.toFinset q.2.toFinset = 0 := by
      rw [pairAmplitude, sort_toFinset s1, sort_toFinset s2, if_neg]
      intro hm
      apply hn
      rw [List.mem_toFinset, List.mem_filter, hQ, List.mem_filter, mem_opsP]
      refine ⟨⟨⟨q1, q2, ?_, q4⟩, by simpa using hm⟩, ?_⟩
      · refine List.sublist_of_subperm_of_pairwise (r := (· < ·)) (List.subperm_of_subset (s1.imp fun h => by omega) ?_) s1
          List.pairwise_lt_range
        intro x hx
        have := q3.subset hx
        simp at this
        rw [List.mem_range]; omega
      · have hl := hpos _ q1
        rcases hq1 : q.1 with - | ⟨y, r⟩
        · rw [hq1] at hl; simp at hl
        · have hy := q3.subset (show y ∈ q.1 by rw [hq1]; simp)
          simp at hy
          rw [decide_eq_true_eq, spatial, hq1, List.headD_cons]
          rcases hy with rfl | rfl
          · exact Nat.mod_eq_of_lt hi
          · rw [Nat.add_mod_right]; exact Nat.mod_eq_of_lt hi
    rw [this, zero_smul]

/-- the overlap is a coefficient of a product of sums of operators -/
theorem pair_overlap [Nontrivial R] (w : Wfn R) (V : List ℕ) (hr : w.base.ranks.Pairwise (· < ·)) (hpos : ∀ r ∈ w.base.ranks, 0 < r)
    (hV : V.Pairwise (· < ·)) (hn : 0 < w.nspatial) (hi : w.indExops = w.base.exops) (hm : w.base.memo = true)
    (hops : ∀ q : List ℕ × List ℕ, q.1 ++ q.2 ∈ w.base.exops → q.1.length = q.2.length → q.1.Pairwise (· < ·) → q.2.Pairwise (· < ·) →
      (∃ i < w.nspatial, ∀ x ∈ q.1, x = i ∨ x = i + w.nspatial) ∧ (∀ x ∈ q.1, x ∉ V) ∧ ∀ x ∈ q.2, x ∈ V)
    (href : w.base.refwfn < 2 ^ (2 * w.nspatial))
    (hcl : ∀ i ∈ occIndices (some w.base.refwfn), partner w.nspatial i ∈ occIndices (some w.base.refwfn)) (sd : ℕ)
    (hsd : (occSet sd).card = (occSet w.base.refwfn).card) :
    overlap w sd = .ok (((((List.range w.nspatial).map fun i =>
      1 + clusterOp w.base.ranks.toFinset {i, i + w.nspatial} V.toFinset (pairAmplitude w.base)).prod : Module.End R (Fock R))
        (ket (occSet w.base.refwfn))) (occSet sd)) := by
  have ha := sorted_occIndices ((sd ^^^ w.base.refwfn) &&& w.base.refwfn)
  have hc := sorted_occIndices ((sd ^^^ w.base.refwfn) &&& sd)
  have hl := diff_lengths hsd
  have hna : (diffOrbs sd w.base.refwfn).2.Nodup := ha.imp fun h => by omega
  have hrn : w.base.ranks.Nodup := hr.imp fun h => by omega
  obtain ⟨L, l1, l2, l3⟩ := possibleExops_spec w.base.ranks w.base.exops (diffOrbs sd w.base.refwfn).2 (diffOrbs sd w.base.refwfn).1
    hrn hpos ha hc hl
  obtain ⟨s, s1, s2⟩ := signExcite_diff R sd w.base.refwfn
  generalize hQ : ((opsP w.base.ranks (List.range (2 * w.nspatial)) V).filter fun q => decide (q.1 ++ q.2 ∈ w.base.exops)) = Qs
  have hQm : ∀ q ∈ Qs, (q.1.length ∈ w.base.ranks ∧ q.1.length = q.2.length ∧ q.1.Pairwise (· < ·) ∧ q.2.Pairwise (· < ·)) ∧
      q.1 ++ q.2 ∈ w.base.exops := by
    intro q hq
    rw [← hQ, List.mem_filter, mem_opsP] at hq
    obtain ⟨⟨q1, q2, q3, q4⟩, q5⟩ := hq
    exact ⟨⟨q1, q2, List.pairwise_lt_range.sublist q3, hV.sublist q4⟩, by simpa using q5⟩
  have hQf := fun q hq => hops q (hQm q hq).2 (hQm q hq).1.2.1 (hQm q hq).1.2.2.1 (hQm q hq).1.2.2.2
  have hnd : (opsP w.base.ranks (List.range (2 * w.nspatial)) V).Nodup :=
    (opsP_order hr List.pairwise_lt_range hV).imp fun {p q} h => by rintro rfl; exact opLt_asymm h h
  have hop : ∀ q ∈ Qs, Op V.toFinset q := by
    intro q hq
    obtain ⟨-, h1, h2⟩ := hQf q hq
    refine ⟨fun i hi hv => h1 i hi (List.mem_toFinset.1 hv), fun i hi => List.mem_toFinset.2 (h2 i hi), (hQm q hq).1.2.1, ?_⟩
    intro e
    have := hpos _ (hQm q hq).1.1
    rw [e] at this; simp at this
  -- the paths are lists of these operators
  have hpath : ∀ S, IsPath w.base.ranks w.base.exops (diffOrbs sd w.base.refwfn).2 (diffOrbs sd w.base.refwfn).1 S ↔
      S.Sublist Qs ∧ (S.flatMap Prod.fst).Perm (diffOrbs sd w.base.refwfn).2 ∧ (S.flatMap Prod.snd).Perm (diffOrbs sd w.base.refwfn).1 := by
    intro S
    have key := isPath_iff (ranks := w.base.ranks) (U := List.range (2 * w.nspatial)) (V := V) (c := (diffOrbs sd w.base.refwfn).1)
      hr hpos List.pairwise_lt_range hV hna (S := S)
    constructor
    · intro h
      have hm' : ∀ q ∈ S, q ∈ opsP w.base.ranks (List.range (2 * w.nspatial)) V := by
        intro q hq
        obtain ⟨⟨i, hi, hx⟩, -, hc⟩ := hops q (h.mem q hq) (h.len q hq) (h.srtA q hq) (h.srtC q hq)
        rw [mem_opsP]
        have subl : ∀ {l c : List ℕ}, l.Pairwise (· < ·) → c.Pairwise (· < ·) → (∀ i ∈ c, i ∈ l) → c.Sublist l := fun hl hc h =>
          List.sublist_of_subperm_of_pairwise (r := (· < ·)) (List.subperm_of_subset (hc.imp fun h => by omega) h) hc hl
        exact ⟨h.rank q hq, h.len q hq, subl List.pairwise_lt_range (h.srtA q hq) fun x hx' => by
          have := hx x hx'; rw [List.mem_range]; omega, subl hV (h.srtC q hq) hc⟩
      have h' : IsPath w.base.ranks (exopsFrom w.base.ranks (List.range (2 * w.nspatial)) V) (diffOrbs sd w.base.refwfn).2
          (diffOrbs sd w.base.refwfn).1 S :=
        ⟨h.rank, fun q hq => (mem_exopsFrom (h.len q hq)).2 (hm' q hq), h.len, h.srtA, h.srtC, h.ann, h.cre, h.order⟩
      obtain ⟨k1, k2, k3⟩ := key.1 h'
      refine ⟨?_, k2, k3⟩
      have := k1.filter fun q => decide (q.1 ++ q.2 ∈ w.base.exops)
      rwa [hQ, List.filter_eq_self.2 fun q hq => by simpa using h.mem q hq] at this
    · rintro ⟨h1, h2, h3⟩
      have h := key.2 ⟨(hQ ▸ h1).trans List.filter_sublist, h2, h3⟩
      exact ⟨h.rank, fun q hq => (hQm q (h1.subset hq)).2, h.len, h.srtA, h.srtC, h.ann, h.cre, h.order⟩
  have hkept : ∀ S ∈ L, Kept w.nspatial (diffOrbs sd w.base.refwfn).2 S ↔ (S.map (spatial w.nspatial)).Nodup := by
    intro S hS
    exact kept_iff ((l3 S).1 hS) hpos hna fun q hq => (hQf q (((hpath S).1 ((l3 S).1 hS)).1.subset hq)).1
  -- the product
  have hprod : ((List.range w.nspatial).map fun i =>
      1 + clusterOp w.base.ranks.toFinset {i, i + w.nspatial} V.toFinset (pairAmplitude w.base)).prod =
      ((Qs.sublists'.filter fun S => decide (S.map (spatial w.nspatial)).Nodup).map fun S => (S.map fun q =>
        pairAmplitude w.base q.1.toFinset q.2.toFinset • (excOp q.1 q.2 : Module.End R (Fock R))).prod).sum := by
    rw [← prod_groupSum (A := Module.End R (Fock R)) _ (spatial w.nspatial) (List.range w.nspatial) List.nodup_range Qs]
    · congr 1
      apply List.map_congr_left
      intro i hi'
      exact clusterOp_group w.base hr hpos hV (List.mem_range.1 hi') Qs hQ.symm fun q hq => (hQf q hq).1
    · intro p hp q hq
      exact ((excOp_commute (hop p hp) (hop q hq)).smul_left _).smul_right _
    · intro q _
      rw [List.mem_range]
      exact Nat.mod_lt _ hn
  have key := kept_sum (R := R) Qs hop (by rw [← hQ]; exact hnd.filter _) (fun S => decide (S.map (spatial w.nspatial)).Nodup)
    (fun q => pairAmplitude w.base q.1.toFinset q.2.toFinset) (occSet w.base.refwfn) (occSet sd) ha hc hl (diffOrbs_snd_toFinset _ _)
    (diffOrbs_fst_toFinset _ _) (L.filter fun S => decide (S.map (spatial w.nspatial)).Nodup) (l2.filter _) (by
      intro S
      rw [List.mem_filter, l3, hpath]; tauto)
  have s2' : (excOp (occIndices (some ((sd ^^^ w.base.refwfn) &&& w.base.refwfn))) (occIndices (some ((sd ^^^ w.base.refwfn) &&& sd)))
    (ket (occSet w.base.refwfn) : Fock R)) (occSet sd) = (s : R) := s2
  rw [hprod, key, s2']
  have amp : amplitudes w.base.params (selectRows w (occIndices (some sd)) (L.map (out w.base.exops))) =
      ((L.filter fun S => decide (S.map (spatial w.nspatial)).Nodup).map fun S =>
        (S.map fun q => pairAmplitude w.base q.1.toFinset q.2.toFinset).prod * (sgn S : R)).sum := by
    rw [selectRows_out w hi _ _ _ L fun S hS => (l3 S).1 hS]
    have e : (L.filter fun S => keepRow w.nspatial (occIndices (some sd)) (S.map fun q => q.1 ++ q.2)) =
        L.filter fun S => decide (S.map (spatial w.nspatial)).Nodup := by
      apply List.filter_congr
      intro S hS
      rw [Bool.eq_iff_iff, (keepRow_iff w hpos hn href hcl sd ((l3 S).1 hS)).1, hkept S hS, decide_eq_true_eq]
    rw [e]
    unfold amplitudes
    rw [List.map_map]
    congr 1
    apply List.map_congr_left
    intro S hS
    simp only [Function.comp_apply, out, List.map_map]
    congr 2
    apply List.map_congr_left
    intro q hq
    have p := (l3 S).1 (List.mem_of_mem_filter hS)
    rw [Function.comp_apply, pairAmplitude, sort_toFinset (p.srtA q hq), sort_toFinset (p.srtC q hq), if_pos (p.mem q hq)]
  by_cases hsr : sd = w.base.refwfn
  · subst hsr
    have hd : diffOrbs w.base.refwfn w.base.refwfn = ([], []) := by simp [diffOrbs, occIndices_eq_filter]
    rw [overlap, if_pos rfl]
    have hs1 : s = 1 := by
      rw [hd] at s1
      simpa [signExcite, signExciteAnn, signExciteCre, bind, Except.bind] using s1.symm
    have hL : L = [[]] := by
      have hmem : ∀ S, S ∈ L ↔ S = [] := by
        intro S
        rw [l3, hd]
        constructor
        · intro h
          have := h.ann
          rw [List.perm_nil] at this
          cases S with
          | nil => rfl
          | cons q S =>
            rw [List.flatMap_cons, List.append_eq_nil_iff] at this
            have h1 := hpos _ (h.rank q (by simp))
            rw [this.1] at h1; simp at h1
        · rintro rfl
          exact ⟨by simp, by simp, by simp, by simp, by simp, by simp, by simp, by simp⟩
      refine List.Perm.eq_singleton ?_
      exact (List.perm_ext_iff_of_nodup l2 (by simp)).2 fun S => by rw [hmem]; simp
    rw [hL, hs1]
    simp [sgn, CC.hops, listSign]
  · rw [overlap, if_neg hsr]
    simp only [expansion, s1, hm, l1, bind, Except.bind, pure, Except.pure, Bool.not_true, Bool.false_eq_true, if_false]
    rw [amp, mul_comm]

end

end Fanpy.PCCD
