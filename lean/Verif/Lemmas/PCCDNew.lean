import Verif.Model.PCCDNew
import Verif.Lemmas.PCCD

/-! The products of operators that the pair coupled cluster wavefunctions with an option `s_type` keep. -/

namespace Fanpy.PCCD
open Fanpy.Spec Fanpy.Slater Fanpy.Graphs Fanpy.It Fanpy.CC Fanpy.Props Fanpy.Lemmas

/-- what is put in `trash` for a list of annihilators or creators -/
def trashList (n : ℕ) (l : List ℕ) : List ℕ := if l.length = 1 then [partner n (l.headD 0), l.headD 0] else l.reverse

open Classical in
theorem fold_trash {α : Type} (op : List ℕ → α → Option (List ℕ)) (chk T : α → List ℕ) (P : α → Prop) (S : List α)
    (h : ∀ trash, ∀ x ∈ S, op trash x = if (chk x).Disjoint trash ∧ P x then some (T x ++ trash) else none) (trash : List ℕ) :
    (S.foldlM op trash).isSome = true ↔ (∀ x ∈ S, (chk x).Disjoint trash ∧ P x) ∧ S.Pairwise fun p q => (chk q).Disjoint (T p) := by
  induction S generalizing trash with
  | nil => simp
  | cons p S ih =>
    rw [List.foldlM_cons, h trash p (by simp), List.pairwise_cons]
    by_cases hp : (chk p).Disjoint trash ∧ P p
    · rw [if_pos hp]
      simp only [Option.bind_eq_bind, Option.bind_some]
      rw [ih (fun t q hq => h t q (by simp [hq]))]
      simp only [List.disjoint_append_right, List.forall_mem_cons]
      constructor
      · rintro ⟨h1, h2⟩
        exact ⟨⟨hp, fun q hq => ⟨(h1 q hq).1.2, (h1 q hq).2⟩⟩, fun q hq => (h1 q hq).1.1, h2⟩
      · rintro ⟨⟨-, h1⟩, h2, h3⟩
        exact ⟨fun q hq => ⟨⟨h2 q hq, (h1 q hq).1⟩, (h1 q hq).2⟩, h3⟩
    · rw [if_neg hp]
      simp only [Option.bind_eq_bind, Option.bind_none, Option.isSome_none, Bool.false_eq_true, List.forall_mem_cons, false_iff]
      tauto

open Classical in
theorem keepOpV_eq (n : ℕ) (occ trash : List ℕ) (q : List ℕ × List ℕ) (hl : q.1.length = q.2.length) (hn : q.2.Nodup) :
    keepOpV n occ trash (q.1 ++ q.2) =
      if q.2.Disjoint trash ∧ (q.1.length = 1 → partner n (q.2.headD 0) ∉ occ) then some (trashList n q.2 ++ trash) else none := by
  unfold keepOpV
  by_cases h1 : q.1.length = 1
  · obtain ⟨i, hi⟩ := List.length_eq_one_iff.1 h1
    obtain ⟨j, hj⟩ := List.length_eq_one_iff.1 (hl ▸ h1)
    rw [if_pos (by rw [List.length_append]; omega)]
    have hh : (q.1 ++ q.2).getD 1 0 = j := by rw [hi, hj]; rfl
    have h1' : q.2.length = 1 := hl ▸ h1
    rw [hh, trashList, if_pos h1', hi, hj]
    simp only [List.headD_cons, List.length_singleton, List.singleton_disjoint, true_imp_iff, partner]
    by_cases h2 : j ∈ trash
    · simp [h2]
    · by_cases h3 : j < n
      · by_cases h4 : j + n ∈ occ <;> simp [h2, h3, h4]
      · by_cases h4 : j - n ∈ occ <;> simp [h2, h3, h4]
  · rw [if_neg (by rw [List.length_append]; omega)]
    have e : (q.1 ++ q.2).length / 2 = q.1.length := by rw [List.length_append]; omega
    rw [e, List.drop_left, trashAll_eq, trashList, if_neg (fun h => h1 (hl.trans h))]
    by_cases h2 : q.2.Disjoint trash
    · rw [if_pos ⟨hn, h2⟩, if_pos ⟨h2, fun h => absurd h h1⟩]
    · rw [if_neg fun h => h2 h.2, if_neg fun h => h2 h.1]

/-- what an operator adds to `trash` for `"sen-ov"` -/
def trashBoth (n : ℕ) (q : List ℕ × List ℕ) : List ℕ :=
  if q.1.length = 1 then [partner n (q.2.headD 0), q.2.headD 0, partner n (q.1.headD 0), q.1.headD 0] else (q.1 ++ q.2).reverse

open Classical in
theorem keepOpOV_eq (n : ℕ) (occ trash : List ℕ) (q : List ℕ × List ℕ) (hl : q.1.length = q.2.length) (hn : (q.1 ++ q.2).Nodup) :
    keepOpOV n occ trash (q.1 ++ q.2) =
      if (q.1 ++ q.2).Disjoint trash ∧ (q.1.length = 1 → partner n (q.1.headD 0) ∈ occ ∧ partner n (q.2.headD 0) ∉ occ) then
        some (trashBoth n q ++ trash) else none := by
  unfold keepOpOV
  by_cases h1 : q.1.length = 1
  · obtain ⟨i, hi⟩ := List.length_eq_one_iff.1 h1
    obtain ⟨j, hj⟩ := List.length_eq_one_iff.1 (hl ▸ h1)
    rw [if_pos (by rw [List.length_append]; omega)]
    have hh : (q.1 ++ q.2).getD 1 0 = j := by rw [hi, hj]; rfl
    have hh' : (q.1 ++ q.2).headD 0 = i := by rw [hi, hj]; rfl
    rw [hh, hh', trashBoth, if_pos h1, hi, hj]
    simp only [List.headD_cons, List.length_singleton, true_imp_iff, partner, List.singleton_append, List.disjoint_cons_left]
    by_cases h2 : i ∈ trash
    · simp [h2]
    by_cases h2' : j ∈ trash
    · simp [h2']
    have hd : List.Disjoint [] trash := List.disjoint_nil_left _
    by_cases h3 : i < n
    · by_cases h4 : i + n ∈ occ
      · by_cases h5 : j < n
        · by_cases h6 : j + n ∈ occ <;> simp [h2, h2', h3, h4, h5, h6]
        · by_cases h6 : j - n ∈ occ <;> simp [h2, h2', h3, h4, h5, h6]
      · simp [h2, h2', h3, h4]
    · by_cases h4 : i - n ∈ occ
      · by_cases h5 : j < n
        · by_cases h6 : j + n ∈ occ <;> simp [h2, h2', h3, h4, h5, h6]
        · by_cases h6 : j - n ∈ occ <;> simp [h2, h2', h3, h4, h5, h6]
      · simp [h2, h2', h3, h4]
  · rw [if_neg (by rw [List.length_append]; omega)]
    rw [trashAll_eq, trashBoth, if_neg h1]
    by_cases h2 : (q.1 ++ q.2).Disjoint trash
    · rw [if_pos ⟨hn, h2⟩, if_pos ⟨h2, fun h => absurd h h1⟩]
    · rw [if_neg fun h => h2 h.2, if_neg fun h => h2 h.1]

/-- what comes later is not in `trash` exactly if no partner of a single orbital occurs at all -/
theorem pairwise_trash {α : Type} (f : α → List ℕ) (S : List α) (hS : (S.flatMap f).Nodup) (hpos : ∀ q ∈ S, 0 < (f q).length)
    (hord : S.Pairwise fun p q => (f p).length ≤ (f q).length) {n : ℕ} (hn : 0 < n) (h2n : ∀ i ∈ S.flatMap f, i < 2 * n) :
    (S.Pairwise fun p q => (f q).Disjoint (trashList n (f p))) ↔
      ∀ q ∈ S, (f q).length = 1 → partner n ((f q).headD 0) ∉ S.flatMap f := by
  have hdis : S.Pairwise fun p q => (f p).Disjoint (f q) := by rw [List.nodup_flatMap] at hS; exact hS.2
  have one : ∀ q, (f q).length = 1 → f q = [(f q).headD 0] := by
    intro q h1
    obtain ⟨i, hi⟩ := List.length_eq_one_iff.1 h1
    rw [hi]; rfl
  constructor
  · intro h2 q hq hq1 hp
    obtain ⟨q', hq', hi⟩ := List.mem_flatMap.1 hp
    have hq1' := one q hq1
    have hqa : (f q).headD 0 ∈ S.flatMap f := List.mem_flatMap.2 ⟨q, hq, by rw [hq1']; simp⟩
    have hpw := List.pairwise_iff_getElem.1 (h2.and hord)
    obtain ⟨x, hx, ex⟩ := List.getElem_of_mem hq
    obtain ⟨y, hy, ey⟩ := List.getElem_of_mem hq'
    rcases lt_trichotomy x y with hxy | hxy | hxy
    · have := (hpw x y hx hy hxy).1
      rw [ex, ey] at this
      exact this hi (by rw [trashList, if_pos hq1]; simp)
    · subst hxy
      have e := ex.symm.trans ey
      subst e
      rw [hq1', List.mem_singleton, List.headD_cons] at hi
      exact partner_ne hn hi
    · have := hpw y x hy hx hxy
      rw [ex, ey] at this
      have hlen : (f q').length = 1 := by
        have := hpos q' hq'
        omega
      have hq1'' := one q' hlen
      rw [hq1'', List.mem_singleton] at hi
      have h3 := this.1
      refine h3 (a := (f q).headD 0) (by rw [hq1']; simp) ?_
      rw [trashList, if_pos hlen, ← hi, partner_partner (h2n _ hqa)]
      simp
  · intro h1
    refine List.Pairwise.imp_of_mem ?_ hdis
    intro p q hp hq hd
    rw [trashList]
    split_ifs with hp1
    · have hk := h1 p hp hp1
      rw [List.disjoint_cons_right, List.disjoint_comm, List.singleton_disjoint]
      refine ⟨fun hi => hk (List.mem_flatMap.2 ⟨q, hq, hi⟩), fun hi => ?_⟩
      exact hd (by rw [one p hp1]; simp) hi
    · exact fun i hi hi' => hd (List.mem_reverse.1 hi') hi

/-- the rule for the annihilators: a single excitation takes an electron from a pair, and no other operator of the product takes the other
electron -/
def RuleO (n : ℕ) (S : List (List ℕ × List ℕ)) : Prop :=
  ∀ p ∈ S, p.1.length = 1 → ∀ q ∈ S, ∀ i ∈ p.1, partner n i ∉ q.1

/-- the rule for the creators: no operator of the product puts an electron in the partner of the orbital of a single excitation -/
def RuleV (n : ℕ) (S : List (List ℕ × List ℕ)) : Prop :=
  ∀ p ∈ S, p.1.length = 1 → ∀ q ∈ S, ∀ i ∈ p.2, partner n i ∉ q.2

instance (n : ℕ) (S : List (List ℕ × List ℕ)) : Decidable (RuleO n S) := by unfold RuleO; infer_instance
instance (n : ℕ) (S : List (List ℕ × List ℕ)) : Decidable (RuleV n S) := by unfold RuleV; infer_instance

/-- the products that an option allows -/
def Rule (s : SType) (n : ℕ) (S : List (List ℕ × List ℕ)) : Prop :=
  match s with
  | .free => True
  | .senO => RuleO n S
  | .senV => RuleV n S
  | .senOV => RuleO n S ∧ RuleV n S

instance (s : SType) (n : ℕ) (S : List (List ℕ × List ℕ)) : Decidable (Rule s n S) := by unfold Rule; cases s <;> infer_instance

theorem keepRowS_iff {ranks : List ℕ} {exops : List (List ℕ)} {a c : List ℕ} {S : List (List ℕ × List ℕ)} (h : IsPath ranks exops a c S)
    (hpos : ∀ r ∈ ranks, 0 < r) (ha : a.Nodup) (hc : c.Nodup) {n : ℕ} (hn : 0 < n) (ha2 : ∀ i ∈ a, i < 2 * n) (hc2 : ∀ i ∈ c, i < 2 * n)
    {occ : List ℕ} (hao : ∀ i ∈ a, i ∈ occ) (hco : ∀ i ∈ c, i ∉ occ) (hcl : ∀ i ∈ occ, partner n i ∈ occ) (s : SType) :
    keepRowS s n occ (S.map fun q => q.1 ++ q.2) = true ↔ Rule s n S := by
  have hA : (S.flatMap Prod.fst).Nodup := h.ann.nodup_iff.2 ha
  have hC : (S.flatMap Prod.snd).Nodup := h.cre.nodup_iff.2 hc
  have mA : ∀ q ∈ S, ∀ i ∈ q.1, i ∈ a := fun q hq i hi => h.ann.subset (List.mem_flatMap.2 ⟨q, hq, hi⟩)
  have mC : ∀ q ∈ S, ∀ i ∈ q.2, i ∈ c := fun q hq i hi => h.cre.subset (List.mem_flatMap.2 ⟨q, hq, hi⟩)
  have hdA : ∀ q ∈ S, q.1.Nodup := fun q hq => (h.srtA q hq).imp fun h => by omega
  have hdC : ∀ q ∈ S, q.2.Nodup := fun q hq => (h.srtC q hq).imp fun h => by omega
  have hoA : S.Pairwise fun p q => p.1.length ≤ q.1.length := h.order.imp fun {p q} hb => by
    rcases hb with hb | ⟨hb, -⟩ <;> omega
  have hoC : S.Pairwise fun p q => p.2.length ≤ q.2.length := hoA.imp_of_mem fun {p q} hp hq hb => by
    rw [← h.len p hp, ← h.len q hq]; exact hb
  have pco : ∀ i ∈ c, partner n i ∉ occ := by
    intro i hi hp
    have := hcl _ hp
    rw [partner_partner (hc2 i hi)] at this
    exact hco i hi this
  have hd1 : ∀ {l : List ℕ}, l.length = 1 → l.headD 0 ∈ l := by
    intro l hl
    obtain ⟨i, hi⟩ := List.length_eq_one_iff.1 hl
    rw [hi]; simp
  have hd2 : ∀ {l : List ℕ}, l.length = 1 → ∀ i ∈ l, i = l.headD 0 := by
    intro l hl i hi
    obtain ⟨j, hj⟩ := List.length_eq_one_iff.1 hl
    rw [hj] at hi ⊢; simpa using hi
  have ptA := pairwise_trash Prod.fst S hA (fun q hq => hpos _ (h.rank q hq)) hoA hn (fun i hi => ha2 i (h.ann.subset hi))
  have ptC := pairwise_trash Prod.snd S hC (fun q hq => by have := hpos _ (h.rank q hq); have := h.len q hq; omega) hoC hn
    (fun i hi => hc2 i (h.cre.subset hi))
  have rO : (∀ q ∈ S, q.1.length = 1 → partner n (q.1.headD 0) ∉ S.flatMap Prod.fst) ↔ RuleO n S := by
    constructor
    · intro hr p hp h1 q hq i hi hx
      rw [hd2 h1 i hi] at hx
      exact hr p hp h1 (List.mem_flatMap.2 ⟨q, hq, hx⟩)
    · intro hr p hp h1 hx
      obtain ⟨q, hq, hx⟩ := List.mem_flatMap.1 hx
      exact hr p hp h1 q hq _ (hd1 h1) hx
  have rV : (∀ q ∈ S, q.2.length = 1 → partner n (q.2.headD 0) ∉ S.flatMap Prod.snd) ↔ RuleV n S := by
    constructor
    · intro hr p hp h1 q hq i hi hx
      rw [h.len p hp] at h1
      rw [hd2 h1 i hi] at hx
      exact hr p hp h1 (List.mem_flatMap.2 ⟨q, hq, hx⟩)
    · intro hr p hp h1 hx
      obtain ⟨q, hq, hx⟩ := List.mem_flatMap.1 hx
      exact hr p hp (by rw [h.len p hp]; exact h1) q hq _ (hd1 h1) hx
  cases s with
  | free => simp [keepRowS, Rule]
  | senO =>
    rw [keepRowS, Rule, ← rO, ← ptA, keepRow, keepFold n occ S h.len hdA]
    constructor
    · rintro ⟨-, h2⟩
      exact h2
    · intro h2
      exact ⟨fun q hq => ⟨by simp, fun h1 => hcl _ (hao _ (mA q hq _ (hd1 h1)))⟩, h2⟩
  | senV =>
    rw [keepRowS, Rule, ← rV, ← ptC, List.foldlM_map,
      fold_trash (fun t q => keepOpV n occ t (q.1 ++ q.2)) Prod.snd (fun q => trashList n q.2)
        (fun q => q.1.length = 1 → partner n (q.2.headD 0) ∉ occ) S
        (fun t q hq => (keepOpV_eq n occ t q (h.len q hq) (hdC q hq)).trans (by congr))]
    constructor
    · rintro ⟨-, h2⟩
      exact h2
    · intro h2
      exact ⟨fun q hq => ⟨by simp, fun h1 => pco _ (mC q hq _ (hd1 (by rw [← h.len q hq]; exact h1)))⟩, h2⟩
  | senOV =>
    have hac : ∀ i ∈ a, i ∉ c := fun i hi hc => hco i hc (hao i hi)
    rw [keepRowS, Rule, ← rO, ← rV, ← ptA, ← ptC, List.foldlM_map,
      fold_trash (fun t q => keepOpOV n occ t (q.1 ++ q.2)) (fun q => q.1 ++ q.2) (trashBoth n)
        (fun q => q.1.length = 1 → partner n (q.1.headD 0) ∈ occ ∧ partner n (q.2.headD 0) ∉ occ) S
        (fun t q hq => (keepOpOV_eq n occ t q (h.len q hq) (List.nodup_append.2 ⟨hdA q hq, hdC q hq, by
          rintro i hi j hj rfl
          exact hac i (mA q hq i hi) (mC q hq i hj)⟩)).trans (by congr))]
    have hT : ∀ p ∈ S, ∀ x, x ∈ trashBoth n p ↔ x ∈ trashList n p.1 ∨ x ∈ trashList n p.2 := by
      intro p hp x
      rw [trashBoth, trashList, trashList, ← h.len p hp]
      split_ifs with h1
      · simp; tauto
      · rw [List.mem_reverse, List.mem_append, List.mem_reverse, List.mem_reverse]
    have hTA : ∀ p ∈ S, ∀ x ∈ trashList n p.1, x ∈ occ := by
      intro p hp x hx
      rw [trashList] at hx
      split_ifs at hx with h1
      · have hm := hao _ (mA p hp _ (hd1 h1))
        simp only [List.mem_cons, List.not_mem_nil, or_false] at hx
        rcases hx with rfl | rfl
        · exact hcl _ hm
        · exact hm
      · exact hao _ (mA p hp _ (List.mem_reverse.1 hx))
    have hTC : ∀ p ∈ S, ∀ x ∈ trashList n p.2, x ∉ occ := by
      intro p hp x hx
      rw [trashList] at hx
      split_ifs at hx with h1
      · have hm := mC p hp _ (hd1 h1)
        simp only [List.mem_cons, List.not_mem_nil, or_false] at hx
        rcases hx with rfl | rfl
        · exact pco _ hm
        · exact hco _ hm
      · exact hco _ (mC p hp _ (List.mem_reverse.1 hx))
    constructor
    · rintro ⟨-, h2⟩
      refine ⟨h2.imp_of_mem ?_, h2.imp_of_mem ?_⟩
      · intro p q hp hq hd x hx hx'
        exact hd (List.mem_append_left _ hx) ((hT p hp x).2 (Or.inl hx'))
      · intro p q hp hq hd x hx hx'
        exact hd (List.mem_append_right _ hx) ((hT p hp x).2 (Or.inr hx'))
    · rintro ⟨h2, h3⟩
      refine ⟨fun q hq => ⟨by simp, fun h1 => ⟨hcl _ (hao _ (mA q hq _ (hd1 h1))),
        pco _ (mC q hq _ (hd1 (by rw [← h.len q hq]; exact h1)))⟩⟩, (h2.and h3).imp_of_mem ?_⟩
      intro p q hp hq hd x hx hx'
      rcases List.mem_append.1 hx with hx | hx <;> rcases (hT p hp x).1 hx' with hx' | hx'
      · exact hd.1 hx hx'
      · exact hTC p hp x hx' (hao _ (mA q hq x hx))
      · exact hco _ (mC q hq x hx) (hTA p hp x hx')
      · exact hd.2 hx hx'


/-- the rows that are selected -/
theorem selectRowsS_out {R : Type} (t : SType) (w : Wfn R) (hi : w.indExops = w.base.exops) (occ a c : List ℕ)
    (L : List (List (List ℕ × List ℕ))) (hL : ∀ S ∈ L, IsPath w.base.ranks w.base.exops a c S) :
    selectRowsS t w occ (L.map (out w.base.exops)) =
      (L.filter fun S => keepRowS t w.nspatial occ (S.map fun q => q.1 ++ q.2)).map (out w.base.exops) := by
  unfold selectRowsS
  rw [List.filter_map]
  congr 1
  apply List.filter_congr
  intro S hS
  rw [Function.comp_apply, out, List.map_map]
  congr 1
  apply List.map_congr_left
  intro q hq
  rw [Function.comp_apply, hi, List.getD_eq_getElem _ _ (List.idxOf_lt_length_of_mem ((hL S hS).mem q hq))]
  exact List.getElem_idxOf _

section
variable {R : Type} [CommRing R]

theorem evaluate_empty (w : Wfn R) (refresh : ℤ) (hm : w.base.memo = true) (sd : ℕ) (x : R) (sel : List (List ℕ × ℤ) → List (List ℕ × ℤ))
    (f : List (List ℕ × ℤ) → R) :
    (evaluate ⟨w, [], refresh⟩ sd x sel f).2 = if sd = w.base.refwfn then .ok x else do
      let e ← expansion w.base sd
      return (e.1 : R) * f (sel e.2) := by
  unfold evaluate
  split_ifs with h
  · rfl
  · cases hg : signExcite (some w.base.refwfn) (diffOrbs sd w.base.refwfn).2 (diffOrbs sd w.base.refwfn).1 with
    | error e => simp [expansion, hg, bind, Except.bind]
    | ok sign =>
      cases hp : possibleExops w.base.ranks w.base.exops (diffOrbs sd w.base.refwfn).2 (diffOrbs sd w.base.refwfn).1 with
      | error e => simp [lookupPaths, expansion, hg, hm, hp, bind, Except.bind]
      | ok paths => simp [lookupPaths, expansion, hg, hm, hp, bind, Except.bind, pure, Except.pure]

/-- the overlap is a coefficient of a sum of products of operators -/
theorem rule_overlap [Nontrivial R] (t : SType) (w : Wfn R) (V : List ℕ) (hr : w.base.ranks.Pairwise (· < ·)) (hpos : ∀ r ∈ w.base.ranks, 0 < r)
    (hV : V.Pairwise (· < ·)) (hn : 0 < w.nspatial) (hi : w.indExops = w.base.exops) (hm : w.base.memo = true)
    (hops : ∀ q : List ℕ × List ℕ, q.1 ++ q.2 ∈ w.base.exops → q.1.length = q.2.length → q.1.Pairwise (· < ·) → q.2.Pairwise (· < ·) →
      (∃ i < w.nspatial, ∀ x ∈ q.1, x = i ∨ x = i + w.nspatial) ∧ (∀ x ∈ q.1, x ∉ V) ∧ ∀ x ∈ q.2, x ∈ V)
    (href : w.base.refwfn < 2 ^ (2 * w.nspatial))
    (hcl : ∀ i ∈ occIndices (some w.base.refwfn), partner w.nspatial i ∈ occIndices (some w.base.refwfn)) (sd : ℕ)
    (hsd : (occSet sd).card = (occSet w.base.refwfn).card) (hsd2 : sd < 2 ^ (2 * w.nspatial)) :
    ∃ Qs : List (List ℕ × List ℕ), Qs.Nodup ∧
      (∀ q, q ∈ Qs ↔ q.1.length ∈ w.base.ranks ∧ q.1.length = q.2.length ∧ q.1.Pairwise (· < ·) ∧ q.2.Pairwise (· < ·) ∧ q.1 ++ q.2 ∈ w.base.exops) ∧
      overlapS t w sd = .ok (((((Qs.sublists'.filter fun S => decide (Rule t w.nspatial S)).map fun S => (S.map fun q =>
        w.base.params (w.base.exops.idxOf (q.1 ++ q.2)) • (excOp q.1 q.2 : Module.End R (Fock R))).prod).sum : Module.End R (Fock R))
        (ket (occSet w.base.refwfn))) (occSet sd)) := by
  have ha := sorted_occIndices ((sd ^^^ w.base.refwfn) &&& w.base.refwfn)
  have hc := sorted_occIndices ((sd ^^^ w.base.refwfn) &&& sd)
  have hl := diff_lengths hsd
  have hna : (diffOrbs sd w.base.refwfn).2.Nodup := ha.imp fun h => by omega
  have hrn : w.base.ranks.Nodup := hr.imp fun h => by omega
  obtain ⟨L, l1, l2, l3⟩ := possibleExops_spec w.base.ranks w.base.exops (diffOrbs sd w.base.refwfn).2 (diffOrbs sd w.base.refwfn).1
    hrn hpos ha hc hl
  obtain ⟨s, s1, s2⟩ := signExcite_diff R sd w.base.refwfn
  generalize hQ : ((opsP w.base.ranks (List.range (2 * w.nspatial)) V).filter fun q => decide (q.1 ++ q.2 ∈ w.base.exops)) = Qs
  have hQm : ∀ q ∈ Qs, (q.1.length ∈ w.base.ranks ∧ q.1.length = q.2.length ∧ q.1.Pairwise (· < ·) ∧ q.2.Pairwise (· < ·)) ∧
      q.1 ++ q.2 ∈ w.base.exops := by
    intro q hq
    rw [← hQ, List.mem_filter, mem_opsP] at hq
    obtain ⟨⟨q1, q2, q3, q4⟩, q5⟩ := hq
    exact ⟨⟨q1, q2, List.pairwise_lt_range.sublist q3, hV.sublist q4⟩, by simpa using q5⟩
  have hQf := fun q hq => hops q (hQm q hq).2 (hQm q hq).1.2.1 (hQm q hq).1.2.2.1 (hQm q hq).1.2.2.2
  have hnd : (opsP w.base.ranks (List.range (2 * w.nspatial)) V).Nodup :=
    (opsP_order hr List.pairwise_lt_range hV).imp fun {p q} h => by rintro rfl; exact opLt_asymm h h
  have hop : ∀ q ∈ Qs, Op V.toFinset q := by
    intro q hq
    obtain ⟨-, h1, h2⟩ := hQf q hq
    refine ⟨fun i hi hv => h1 i hi (List.mem_toFinset.1 hv), fun i hi => List.mem_toFinset.2 (h2 i hi), (hQm q hq).1.2.1, ?_⟩
    intro e
    have := hpos _ (hQm q hq).1.1
    rw [e] at this; simp at this
  -- the paths are lists of these operators
  have hpath : ∀ S, IsPath w.base.ranks w.base.exops (diffOrbs sd w.base.refwfn).2 (diffOrbs sd w.base.refwfn).1 S ↔
      S.Sublist Qs ∧ (S.flatMap Prod.fst).Perm (diffOrbs sd w.base.refwfn).2 ∧ (S.flatMap Prod.snd).Perm (diffOrbs sd w.base.refwfn).1 := by
    intro S
    have key := isPath_iff (ranks := w.base.ranks) (U := List.range (2 * w.nspatial)) (V := V) (c := (diffOrbs sd w.base.refwfn).1)
      hr hpos List.pairwise_lt_range hV hna (S := S)
    constructor
    · intro h
      have hm' : ∀ q ∈ S, q ∈ opsP w.base.ranks (List.range (2 * w.nspatial)) V := by
        intro q hq
        obtain ⟨⟨i, hi, hx⟩, -, hc⟩ := hops q (h.mem q hq) (h.len q hq) (h.srtA q hq) (h.srtC q hq)
        rw [mem_opsP]
        have subl : ∀ {l c : List ℕ}, l.Pairwise (· < ·) → c.Pairwise (· < ·) → (∀ i ∈ c, i ∈ l) → c.Sublist l := fun hl hc h =>
          List.sublist_of_subperm_of_pairwise (r := (· < ·)) (List.subperm_of_subset (hc.imp fun h => by omega) h) hc hl
        exact ⟨h.rank q hq, h.len q hq, subl List.pairwise_lt_range (h.srtA q hq) fun x hx' => by
          have := hx x hx'; rw [List.mem_range]; omega, subl hV (h.srtC q hq) hc⟩
      have h' : IsPath w.base.ranks (exopsFrom w.base.ranks (List.range (2 * w.nspatial)) V) (diffOrbs sd w.base.refwfn).2
          (diffOrbs sd w.base.refwfn).1 S :=
        ⟨h.rank, fun q hq => (mem_exopsFrom (h.len q hq)).2 (hm' q hq), h.len, h.srtA, h.srtC, h.ann, h.cre, h.order⟩
      obtain ⟨k1, k2, k3⟩ := key.1 h'
      refine ⟨?_, k2, k3⟩
      have := k1.filter fun q => decide (q.1 ++ q.2 ∈ w.base.exops)
      rwa [hQ, List.filter_eq_self.2 fun q hq => by simpa using h.mem q hq] at this
    · rintro ⟨h1, h2, h3⟩
      have h := key.2 ⟨(hQ ▸ h1).trans List.filter_sublist, h2, h3⟩
      exact ⟨h.rank, fun q hq => (hQm q (h1.subset hq)).2, h.len, h.srtA, h.srtC, h.ann, h.cre, h.order⟩
  have lt : ∀ {m : ℕ}, m < 2 ^ (2 * w.nspatial) → ∀ i, m.testBit i = true → i < 2 * w.nspatial := by
    intro m hm i hi
    by_contra hc
    rw [Nat.testBit_lt_two_pow (lt_of_lt_of_le hm (Nat.pow_le_pow_right (by norm_num) (not_lt.1 hc)))] at hi
    cases hi
  have hamem : ∀ i, i ∈ (diffOrbs sd w.base.refwfn).2 ↔ i ∈ occIndices (some w.base.refwfn) ∧ i ∉ occIndices (some sd) := by
    intro i
    rw [← List.mem_toFinset, diffOrbs_snd_toFinset, Finset.mem_sdiff, mem_occSet, mem_occSet, mem_occIndices, mem_occIndices]
  have hcmem : ∀ i, i ∈ (diffOrbs sd w.base.refwfn).1 ↔ i ∈ occIndices (some sd) ∧ i ∉ occIndices (some w.base.refwfn) := by
    intro i
    rw [← List.mem_toFinset, diffOrbs_fst_toFinset, Finset.mem_sdiff, mem_occSet, mem_occSet, mem_occIndices, mem_occIndices]
  have hkept : ∀ S ∈ L, keepRowS t w.nspatial (occIndices (some w.base.refwfn)) (S.map fun q => q.1 ++ q.2) = true ↔ Rule t w.nspatial S := by
    intro S hS
    exact keepRowS_iff ((l3 S).1 hS) hpos hna (hc.imp fun h => by omega) hn (fun i hi => lt href i (mem_occIndices.1 ((hamem i).1 hi).1))
      (fun i hi => lt hsd2 i (mem_occIndices.1 ((hcmem i).1 hi).1)) (fun i hi => ((hamem i).1 hi).1) (fun i hi => ((hcmem i).1 hi).2) hcl t
  refine ⟨Qs, by rw [← hQ]; exact hnd.filter _, ?_, ?_⟩
  · intro q
    constructor
    · intro hq
      obtain ⟨⟨h1, h2, h3, h4⟩, h5⟩ := hQm q hq
      exact ⟨h1, h2, h3, h4, h5⟩
    · rintro ⟨h1, h2, h3, h4, h5⟩
      obtain ⟨⟨i, hi, hx⟩, -, hc⟩ := hops q h5 h2 h3 h4
      have subl : ∀ {l c : List ℕ}, l.Pairwise (· < ·) → c.Pairwise (· < ·) → (∀ i ∈ c, i ∈ l) → c.Sublist l := fun hl hc h =>
        List.sublist_of_subperm_of_pairwise (r := (· < ·)) (List.subperm_of_subset (hc.imp fun h => by omega) h) hc hl
      rw [← hQ, List.mem_filter, mem_opsP]
      exact ⟨⟨h1, h2, subl List.pairwise_lt_range h3 fun x hx' => by have := hx x hx'; rw [List.mem_range]; omega, subl hV h4 hc⟩,
        by simpa using h5⟩
  have key := kept_sum (R := R) Qs hop (by rw [← hQ]; exact hnd.filter _) (fun S => decide (Rule t w.nspatial S))
    (fun q => w.base.params (w.base.exops.idxOf (q.1 ++ q.2))) (occSet w.base.refwfn) (occSet sd) ha hc hl (diffOrbs_snd_toFinset _ _)
    (diffOrbs_fst_toFinset _ _) (L.filter fun S => decide (Rule t w.nspatial S)) (l2.filter _) (by
      intro S
      rw [List.mem_filter, l3, hpath]; tauto)
  have s2' : (excOp (occIndices (some ((sd ^^^ w.base.refwfn) &&& w.base.refwfn))) (occIndices (some ((sd ^^^ w.base.refwfn) &&& sd)))
    (ket (occSet w.base.refwfn) : Fock R)) (occSet sd) = (s : R) := s2
  rw [key, s2']
  have amp : amplitudes w.base.params (selectRowsS t w (occIndices (some w.base.refwfn)) (L.map (out w.base.exops))) =
      ((L.filter fun S => decide (Rule t w.nspatial S)).map fun S =>
        (S.map fun q => w.base.params (w.base.exops.idxOf (q.1 ++ q.2))).prod * (sgn S : R)).sum := by
    rw [selectRowsS_out t w hi _ _ _ L fun S hS => (l3 S).1 hS]
    have e : (L.filter fun S => keepRowS t w.nspatial (occIndices (some w.base.refwfn)) (S.map fun q => q.1 ++ q.2)) =
        L.filter fun S => decide (Rule t w.nspatial S) := by
      apply List.filter_congr
      intro S hS
      rw [Bool.eq_iff_iff, hkept S hS, decide_eq_true_eq]
    rw [e]
    unfold amplitudes
    rw [List.map_map]
    congr 1
    apply List.map_congr_left
    intro S hS
    simp only [Function.comp_apply, out, List.map_map]
    rfl
  by_cases hsr : sd = w.base.refwfn
  · subst hsr
    have hd : diffOrbs w.base.refwfn w.base.refwfn = ([], []) := by simp [diffOrbs, occIndices_eq_filter]
    rw [overlapS, callNew, evaluate_empty _ _ hm, if_pos rfl]
    have hs1 : s = 1 := by
      rw [hd] at s1
      simpa [signExcite, signExciteAnn, signExciteCre, bind, Except.bind] using s1.symm
    have hL : L = [[]] := by
      have hmem : ∀ S, S ∈ L ↔ S = [] := by
        intro S
        rw [l3, hd]
        constructor
        · intro h
          have := h.ann
          rw [List.perm_nil] at this
          cases S with
          | nil => rfl
          | cons q S =>
            rw [List.flatMap_cons, List.append_eq_nil_iff] at this
            have h1 := hpos _ (h.rank q (by simp))
            rw [this.1] at h1; simp at h1
        · rintro rfl
          exact ⟨by simp, by simp, by simp, by simp, by simp, by simp, by simp, by simp⟩
      refine List.Perm.eq_singleton ?_
      exact (List.perm_ext_iff_of_nodup l2 (by simp)).2 fun S => by rw [hmem]; simp
    rw [hL, hs1]
    have hR : Rule t w.nspatial [] := by cases t <;> simp [Rule, RuleO, RuleV]
    simp [hR, sgn, CC.hops, listSign]
  · rw [overlapS, callNew, evaluate_empty _ _ hm, if_neg hsr]
    simp only [expansion, s1, hm, l1, bind, Except.bind, pure, Except.pure, Bool.not_true, Bool.false_eq_true, if_false]
    rw [amp, mul_comm]

end

end Fanpy.PCCD
