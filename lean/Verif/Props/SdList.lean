import Verif.Model.SdList
import Verif.Lemmas.Excite
import Verif.Props.SlaterBits

/-! # Property C14: `sd_list` -/

namespace Fanpy.Props
open Fanpy.Slater Fanpy.Spec Fanpy.It Fanpy.SdList

/-- Specification of the selection criterion, in terms of the sets of spatial orbitals that hold an alpha (beta)
electron.  With `hierarchy` the requested spin `1` also lets every determinant pass (as in the code). -/
def Wanted (sd n : ℕ) (twoSpin seniority : Option ℤ) (hierarchy : Bool) : Prop :=
  if hierarchy then
    (∀ t ∈ twoSpin, t = 2 ∨ t = ((alphaSet sd n).card : ℤ) - (betaSet sd n).card) ∧
      seniority = some ((symmDiff (alphaSet sd n) (betaSet sd n)).card : ℤ)
  else
    (∀ t ∈ twoSpin, t = ((alphaSet sd n).card : ℤ) - (betaSet sd n).card) ∧
      (∀ k ∈ seniority, ((symmDiff (alphaSet sd n) (betaSet sd n)).card : ℤ) ≤ k)

instance (sd n : ℕ) (t s : Option ℤ) (h : Bool) : Decidable (Wanted sd n t s h) := by
  unfold Wanted; infer_instance

theorem satisfiesConditions_eq {sd n : ℕ} (hn : 0 < n) (t s : Option ℤ) (h : Bool) :
    satisfiesConditions sd n t s h = .ok (decide (Wanted sd n t s h)) := by
  unfold satisfiesConditions
  rw [(C07_spin_seniority sd n hn).1, (C07_spin_seniority sd n hn).2]
  simp only [bind, Except.bind, pure, Except.pure]
  cases h
  · cases t <;> cases s <;> simp [Wanted]
  · cases t <;> cases s <;> simp [Wanted]

/-- the loop keeps the first `limit - count` determinants that pass -/
theorem loop_eq {n : ℕ} (hn : 0 < n) (limit : Option ℕ) (t s : Option ℤ) (h : Bool) (cs : List ℕ) (count : ℕ)
    (acc : List ℕ) (hlim : ∀ k ∈ limit, count < k) :
    loop n limit t s h (cs.map fun x => .ok (some x)) count acc =
      .ok (acc ++ limit.elim (cs.filter (fun x => decide (Wanted x n t s h)))
        fun k => (cs.filter (fun x => decide (Wanted x n t s h))).take (k - count)) := by
  induction cs generalizing count acc with
  | nil => cases limit <;> simp [loop]
  | cons c cs ih =>
    simp only [List.map_cons, loop, bind, Except.bind, satisfiesConditions_eq hn]
    by_cases hw : Wanted c n t s h
    · simp only [hw, decide_true, Bool.not_true, Bool.false_eq_true, if_false, List.filter_cons_of_pos]
      split_ifs with hl
      · subst hl
        have : count + 1 - count = 1 := by omega
        simp [this]
      · rw [ih]
        · cases limit with
          | none => simp
          | some k =>
            have h1 := hlim k rfl
            have h2 : k - count = (k - (count + 1)) + 1 := by omega
            simp [h2]
        · intro k hk
          have h1 := hlim k hk
          have : k ≠ count + 1 := fun e => hl (by rw [← e]; exact hk)
          omega
    · simp only [hw, decide_false, Bool.not_false, if_true]
      rw [ih count acc hlim]
      simp [hw]

/-- number of electrons moved relative to the reference -/
def excLevel (ref sd : ℕ) : ℕ := (occSet ref \ occSet sd).card

/-- the determinants visited by the two loops, in order -/
def visited (g : ℕ) (occIdx virIdx : List ℕ) (orders : List ℕ) : List ℕ :=
  orders.flatMap fun k => (comb occIdx k).flatMap fun o => (comb virIdx k).map fun v =>
    sdOf ((occSet g \ o.toFinset) ∪ v.toFinset)

theorem visited_facts {g nspin : ℕ} {occIdx virIdx : List ℕ} (ho : occIdx.Nodup) (hv : virIdx.Nodup)
    (h1 : ∀ i, i ∈ occIdx ↔ g.testBit i = true) (h2 : ∀ i, i ∈ virIdx ↔ i < nspin ∧ g.testBit i = false)
    (hg : g < 2 ^ nspin) (orders : List ℕ) :
    (∀ x, x ∈ visited g occIdx virIdx orders ↔ x < 2 ^ nspin ∧ (occSet x).card = (occSet g).card ∧
      excLevel g x ∈ orders) ∧
    (orders.Nodup → (visited g occIdx virIdx orders).Nodup) ∧
    (orders.Pairwise (· ≤ ·) → ((visited g occIdx virIdx orders).map (excLevel g)).Pairwise (· ≤ ·)) ∧
    (orders.flatMap fun k => (It.prod (comb occIdx k) (comb virIdx k)).map fun p => excite (some g) (p.1 ++ p.2)) =
      (visited g occIdx virIdx orders).map (fun x => .ok (some x)) := by
  have rec1 : ∀ k, ∀ o ∈ comb occIdx k, ∀ v ∈ comb virIdx k,
      o.Nodup ∧ v.Nodup ∧ o.toFinset ⊆ occSet g ∧ Disjoint (occSet g) v.toFinset ∧ o.length = k ∧ v.length = k ∧
      (∀ i ∈ v, i < nspin) := by
    intro k o hok v hvk
    obtain ⟨s1, l1⟩ := mem_comb.1 hok
    obtain ⟨s2, l2⟩ := mem_comb.1 hvk
    refine ⟨ho.sublist s1, hv.sublist s2, ?_, ?_, l1, l2, fun i hi => ((h2 i).1 (s2.subset hi)).1⟩
    · intro i hi; rw [List.mem_toFinset] at hi; rw [mem_occSet]; exact (h1 i).1 (s1.subset hi)
    · rw [Finset.disjoint_left]; intro i hi hi'
      rw [mem_occSet] at hi; rw [List.mem_toFinset] at hi'
      have := ((h2 i).1 (s2.subset hi')).2
      simp [this] at hi
  have rec2 : ∀ k, ∀ o ∈ comb occIdx k, ∀ v ∈ comb virIdx k,
      occSet g \ occSet (sdOf ((occSet g \ o.toFinset) ∪ v.toFinset)) = o.toFinset ∧
      occSet (sdOf ((occSet g \ o.toFinset) ∪ v.toFinset)) \ occSet g = v.toFinset := by
    intro k o hok v hvk
    obtain ⟨-, -, h3, h4, -⟩ := rec1 k o hok v hvk
    rw [occSet_sdOf]; exact excited_recover h3 h4
  have lvl : ∀ k, ∀ o ∈ comb occIdx k, ∀ v ∈ comb virIdx k,
      excLevel g (sdOf ((occSet g \ o.toFinset) ∪ v.toFinset)) = k := by
    intro k o hok v hvk
    obtain ⟨n1, -, -, -, l1, -⟩ := rec1 k o hok v hvk
    rw [excLevel, (rec2 k o hok v hvk).1, List.toFinset_card_of_nodup n1, l1]
  have lvl' : ∀ k x, x ∈ ((comb occIdx k).flatMap fun o => (comb virIdx k).map fun v =>
      sdOf ((occSet g \ o.toFinset) ∪ v.toFinset)) → excLevel g x = k := by
    intro k x hx
    obtain ⟨o, hok, hx⟩ := List.mem_flatMap.1 hx
    obtain ⟨v, hvk, rfl⟩ := List.mem_map.1 hx
    exact lvl k o hok v hvk
  refine ⟨?_, ?_, ?_, ?_⟩
  · intro x
    simp only [visited, List.mem_flatMap, List.mem_map]
    constructor
    · rintro ⟨k, hk, o, hok, v, hvk, rfl⟩
      obtain ⟨n1, n2, s1, d1, l1, l2, lt⟩ := rec1 k o hok v hvk
      refine ⟨?_, ?_, by rw [lvl k o hok v hvk]; exact hk⟩
      · rw [lt_two_pow_iff]; intro i hi
        rw [occSet_sdOf, Finset.mem_union, Finset.mem_sdiff, List.mem_toFinset, List.mem_toFinset] at hi
        rcases hi with hi | hi
        · exact (lt_two_pow_iff.1 hg) i hi.1
        · exact lt i hi
      · rw [occSet_sdOf, Finset.card_union_of_disjoint, Finset.card_sdiff_of_subset s1,
          List.toFinset_card_of_nodup n1, List.toFinset_card_of_nodup n2, l1, l2]
        · have := Finset.card_le_card s1
          rw [List.toFinset_card_of_nodup n1, l1] at this
          omega
        · exact Finset.disjoint_of_subset_left Finset.sdiff_subset d1
    · rintro ⟨hx, hc, hk⟩
      obtain ⟨o, hoc, ho'⟩ := comb_exists occIdx (occSet g \ occSet x) ho (by
        intro i hi; rw [Finset.mem_sdiff, mem_occSet] at hi; rw [List.mem_toFinset, h1]; exact hi.1)
      obtain ⟨v, hvc, hv'⟩ := comb_exists virIdx (occSet x \ occSet g) hv (by
        intro i hi; rw [Finset.mem_sdiff] at hi; rw [List.mem_toFinset, h2]
        refine ⟨(lt_two_pow_iff.1 hx) i hi.1, ?_⟩
        have := hi.2; rw [mem_occSet] at this; simpa using this)
      have hcard : (occSet x \ occSet g).card = (occSet g \ occSet x).card := by
        have a1 := Finset.card_sdiff_add_card_inter (occSet x) (occSet g)
        have a2 := Finset.card_sdiff_add_card_inter (occSet g) (occSet x)
        rw [Finset.inter_comm] at a2; omega
      refine ⟨excLevel g x, hk, o, hoc, v, by rw [excLevel, ← hcard]; exact hvc, ?_⟩
      rw [ho', hv', ← occSet_inj, occSet_sdOf]
      ext i; simp only [Finset.mem_union, Finset.mem_sdiff]; tauto
  · intro hnd
    rw [visited, List.nodup_flatMap]
    constructor
    · intro k hk
      rw [List.nodup_flatMap]
      constructor
      · intro o hok
        refine (comb_nodup k hv).map_on ?_
        intro v hvk v' hvk' he
        have e1 := (rec2 k o hok v hvk).2
        have e2 := (rec2 k o hok v' hvk').2
        rw [he, e2] at e1
        exact sublist_ext hv (mem_comb.1 hvk).1 (mem_comb.1 hvk').1
          (fun i => by rw [← List.mem_toFinset, ← List.mem_toFinset, e1])
      · refine (comb_nodup k ho).imp_of_mem ?_
        intro o o' hok hok' hne
        rw [Function.onFun, List.disjoint_left]
        intro x hx hx'
        obtain ⟨v, hvk, rfl⟩ := List.mem_map.1 hx
        obtain ⟨v', hvk', he⟩ := List.mem_map.1 hx'
        have e1 := (rec2 k o hok v hvk).1
        have e2 := (rec2 k o' hok' v' hvk').1
        rw [he, e1] at e2
        exact hne (sublist_ext ho (mem_comb.1 hok).1 (mem_comb.1 hok').1
          (fun i => by rw [← List.mem_toFinset, ← List.mem_toFinset, e2]))
    · refine hnd.imp ?_
      intro k k' hne
      rw [Function.onFun, List.disjoint_left]
      intro x hx hx'
      exact hne ((lvl' k x hx).symm.trans (lvl' k' x hx'))
  · intro hs
    rw [visited, List.map_flatMap]
    rw [List.pairwise_flatMap]
    constructor
    · intro k hk
      rw [List.pairwise_iff_forall_sublist]
      intro a b hab
      have ha := hab.subset (show a ∈ [a, b] by simp)
      have hb := hab.subset (show b ∈ [a, b] by simp)
      obtain ⟨x, hx, rfl⟩ := List.mem_map.1 ha
      obtain ⟨y, hy, rfl⟩ := List.mem_map.1 hb
      rw [lvl' k x hx, lvl' k y hy]
    · refine hs.imp ?_
      intro k k' hle a ha b hb
      obtain ⟨x, hx, rfl⟩ := List.mem_map.1 ha
      obtain ⟨y, hy, rfl⟩ := List.mem_map.1 hb
      rw [lvl' k x hx, lvl' k' y hy]; exact hle
  · rw [visited, List.map_flatMap]
    congr 1
    funext k
    rw [It.prod, List.map_flatMap, List.map_flatMap]
    apply List.flatMap_congr
    intro o hok
    rw [List.map_map, List.map_map]
    apply List.map_congr_left
    intro v hvk
    obtain ⟨n1, n2, s1, d1, l1, l2, lt⟩ := rec1 k o hok v hvk
    simp only [Function.comp]
    rw [excite_eq_of_length (by rw [l1, l2]), create_annihilate_sdOf n1 n2]
    · intro i hi; rw [← mem_occSet]; exact s1 (List.mem_toFinset.2 hi)
    · intro i hi
      rw [Bool.eq_false_iff, ne_eq, ← mem_occSet]
      exact fun h => (Finset.disjoint_left.1 d1) h (List.mem_toFinset.2 hi)

/-- the index lists of the loops -/
def occOrder (g n : ℕ) : List ℕ :=
  (occIndices (some g)).mergeSort (fun a b => decide (energyKey n a ≥ energyKey n b))
def virOrder (g n nspin : ℕ) : List ℕ :=
  (virIndices (some g) nspin).mergeSort (fun a b => decide (energyKey n a ≤ energyKey n b))

theorem order_facts (g n nspin : ℕ) :
    (occOrder g n).Nodup ∧ (virOrder g n nspin).Nodup ∧
    (∀ i, i ∈ occOrder g n ↔ g.testBit i = true) ∧
    (∀ i, i ∈ virOrder g n nspin ↔ i < nspin ∧ g.testBit i = false) := by
  refine ⟨?_, ?_, ?_, ?_⟩
  · exact (List.mergeSort_perm _ _).nodup_iff.2 (nodup_occIndices g)
  · exact (List.mergeSort_perm _ _).nodup_iff.2 ((sorted_virIndices g nspin).imp (fun h => Nat.ne_of_lt h))
  · intro i; rw [occOrder, List.mem_mergeSort, mem_occIndices]
  · intro i; rw [virOrder, List.mem_mergeSort, mem_virIndices]; simp

theorem ground_ok_facts {nelec nspin g : ℕ} (hg : ground nelec nspin = .ok g) :
    0 < nspin / 2 ∧ g < 2 ^ nspin ∧ (occSet g).card = nelec := by
  have hne : ¬ ∃ e, ground nelec nspin = .error e := by rw [hg]; simp
  rw [C03_ground_error] at hne
  have := C03_ground nelec nspin g hg
  rw [totalOcc_eq] at this
  exact ⟨by omega, this.2.2, this.2.1⟩

/-- all determinants the function would return without a limit -/
def fullList (g nspin : ℕ) (orders : List ℕ) (t s : Option ℤ) (h : Bool) : List ℕ :=
  (if Wanted g (nspin / 2) t s h then [g] else []) ++
    (visited g (occOrder g (nspin / 2)) (virOrder g (nspin / 2) nspin) orders).filter
      (fun x => decide (Wanted x (nspin / 2) t s h))

theorem sdList_eq {nelec nspin g : ℕ} (limit : Option ℤ) (orders : Option (List ℕ)) (t s : Option ℤ) (h : Bool)
    (hg : ground nelec nspin = .ok g) (h1 : ¬ ∃ k ∈ limit, k ≤ 0) (h2 : ¬ ∃ a ∈ t, ∃ v ∈ s, v < |a|) :
    sdList nelec nspin limit orders t s h = .ok
      (limit.elim (fullList g nspin (orders.getD (List.range' 1 nelec)) t s h) fun k =>
        (fullList g nspin (orders.getD (List.range' 1 nelec)) t s h).take
            (if Wanted g (nspin / 2) t s h then k.toNat else k.toNat - 1)) := by
  obtain ⟨hn, hlt, -⟩ := ground_ok_facts hg
  have c1 : badLimit limit = false := by
    cases limit with
    | none => rfl
    | some k => simpa [badLimit] using h1
  have c2 : badSeniority t s = false := by
    cases t with
    | none => rfl
    | some a => cases s with
      | none => rfl
      | some v => simpa [badSeniority] using h2
  unfold sdList
  simp only [c1, c2, Bool.false_eq_true, if_false, hg, bind, Except.bind, pure, Except.pure]
  have e : ((nspin : ℕ) / 2 : ℕ) = nspin / 2 := rfl
  rw [satisfiesConditions_eq hn]
  dsimp only
  obtain ⟨o1, o2, o3, o4⟩ := order_facts g (nspin / 2) nspin
  have vf := (visited_facts o1 o2 o3 o4 hlt (orders.getD (List.range' 1 nelec))).2.2.2
  simp only [occOrder, virOrder] at vf
  simp only [decide_eq_true_eq]
  rw [vf]
  by_cases hl : limit = some 1
  · rw [if_pos hl]; subst hl
    by_cases hw : Wanted g (nspin / 2) t s h <;> simp [fullList, hw]
  · rw [if_neg hl, loop_eq hn]
    · cases limit with
      | none => simp [fullList, occOrder, virOrder]
      | some k =>
        have : 0 < k := by by_contra hk; exact h1 ⟨k, rfl, by omega⟩
        have hk1 : k.toNat = (k.toNat - 1) + 1 := by omega
        by_cases hw : Wanted g (nspin / 2) t s h
        · simp only [Option.map_some, Option.elim_some, fullList, if_pos hw, occOrder, virOrder]
          conv_rhs => rw [hk1]
          simp
        · simp [fullList, occOrder, virOrder, hw]
    · intro k hk
      cases limit with
      | none => simp at hk
      | some k' =>
        simp only [Option.map_some, Option.mem_def, Option.some.injEq] at hk
        have : 0 < k' := by by_contra hk; exact h1 ⟨k', rfl, by omega⟩
        have : k' ≠ 1 := fun e => hl (by rw [e])
        omega

/-- C14. `sd_list` raises exactly when `num_limit` is not positive, the seniority is below `2|spin|`, or the ground
determinant cannot be built. -/
theorem C14_raises (nelec nspin : ℕ) (limit : Option ℤ) (orders : Option (List ℕ)) (t s : Option ℤ) (h : Bool) :
    (∃ e, sdList nelec nspin limit orders t s h = .error e) ↔
      (∃ k ∈ limit, k ≤ 0) ∨ (∃ a ∈ t, ∃ v ∈ s, v < |a|) ∨ nelec > nspin ∨ nspin % 2 = 1 ∨ nelec = 0 := by
  by_cases h1 : ∃ k ∈ limit, k ≤ 0
  · obtain ⟨k, hk, hk0⟩ := h1
    simp only [Option.mem_def] at hk; subst hk
    simp [sdList, badLimit, hk0]
  by_cases h2 : ∃ a ∈ t, ∃ v ∈ s, v < |a|
  · obtain ⟨a, ha, v, hv, hav⟩ := h2
    simp only [Option.mem_def] at ha hv; subst ha; subst hv
    simp only [Option.mem_def, Option.some.injEq, exists_eq_left', hav, true_or, or_true, iff_true]
    unfold sdList
    have : badSeniority (some a) (some v) = true := by simp [badSeniority, hav]
    rw [this]
    dsimp only
    rw [if_pos rfl]
    split_ifs <;> exact ⟨_, rfl⟩
  rw [← C03_ground_error]
  simp only [h1, h2, false_or]
  cases hg : ground nelec nspin with
  | ok g => rw [sdList_eq limit orders t s h hg h1 h2]; simp
  | error e =>
    unfold sdList
    simp only [hg, bind, Except.bind]
    split_ifs <;> simp

theorem ground_level {g : ℕ} : excLevel g g = 0 := by simp [excLevel]

theorem excLevel_pos {g x : ℕ} (h : (occSet x).card = (occSet g).card) (hx : x ≠ g) : excLevel g x ≠ 0 := by
  rw [excLevel, ne_eq, Finset.card_eq_zero, Finset.sdiff_eq_empty_iff_subset]
  intro hs
  exact hx (occSet_inj.1 (Finset.eq_of_subset_of_card_le hs (le_of_eq h)).symm)

theorem sdList_ok_hyps {nelec nspin : ℕ} {limit : Option ℤ} {orders : Option (List ℕ)} {t s : Option ℤ} {h : Bool}
    {L : List ℕ} (hL : sdList nelec nspin limit orders t s h = .ok L) :
    (¬ ∃ k ∈ limit, k ≤ 0) ∧ (¬ ∃ a ∈ t, ∃ v ∈ s, v < |a|) ∧ ∃ g, ground nelec nspin = .ok g := by
  have hne : ¬ ∃ e, sdList nelec nspin limit orders t s h = .error e := by rw [hL]; simp
  rw [C14_raises, ← C03_ground_error] at hne
  simp only [not_or] at hne
  refine ⟨hne.1, hne.2.1, ?_⟩
  cases hg : ground nelec nspin with
  | ok g => exact ⟨g, rfl⟩
  | error e => exact absurd ⟨e, hg⟩ hne.2.2

/-- C14. Without `num_limit` and with distinct positive excitation orders (default: all orders `1, …, nelec`), the
returned list has no repetition and contains exactly the determinants of `nelec` electrons in `nspin` orbitals that
satisfy the spin/seniority conditions and are the ground determinant or have an allowed excitation level with respect
to it (any level, for the default).  If the orders are increasing so are the excitation levels along the list. -/
theorem C14_sd_list (nelec nspin : ℕ) (orders : Option (List ℕ)) (t s : Option ℤ) (h : Bool) (L : List ℕ)
    (hL : sdList nelec nspin none orders t s h = .ok L)
    (hord : ∀ l ∈ orders, l.Nodup ∧ 0 ∉ l) :
    ∃ g, ground nelec nspin = .ok g ∧ L.Nodup ∧
      (∀ x, x ∈ L ↔ x < 2 ^ nspin ∧ (occSet x).card = nelec ∧ Wanted x (nspin / 2) t s h ∧
        (x = g ∨ ∀ l ∈ orders, excLevel g x ∈ l)) ∧
      ((∀ l ∈ orders, l.Pairwise (· ≤ ·)) → (L.map (excLevel g)).Pairwise (· ≤ ·)) := by
  obtain ⟨h1, h2, g, hg⟩ := sdList_ok_hyps hL
  refine ⟨g, hg, ?_⟩
  rw [sdList_eq none orders t s h hg h1 h2] at hL
  injection hL with hL
  simp only [Option.elim_none] at hL
  subst hL
  obtain ⟨hn, hlt, hcard⟩ := ground_ok_facts hg
  obtain ⟨o1, o2, o3, o4⟩ := order_facts g (nspin / 2) nspin
  set O := orders.getD (List.range' 1 nelec) with hO
  have hOn : O.Nodup ∧ 0 ∉ O := by
    cases orders with
    | none => simp [hO, List.nodup_range']
    | some l => exact hord l rfl
  obtain ⟨v1, v2, v3, -⟩ := visited_facts o1 o2 o3 o4 hlt O
  have hgv : g ∉ visited g (occOrder g (nspin / 2)) (virOrder g (nspin / 2) nspin) O := by
    rw [v1, ground_level]; exact fun hh => hOn.2 hh.2.2
  refine ⟨?_, ?_, ?_⟩
  · rw [fullList, List.nodup_append]
    refine ⟨by split_ifs <;> simp, (v2 hOn.1).filter _, ?_⟩
    intro a ha b hb hab
    subst hab
    split_ifs at ha with hw
    · simp only [List.mem_singleton] at ha
      subst ha
      exact hgv (List.mem_filter.1 hb).1
    · simp at ha
  · intro x
    rw [fullList, List.mem_append, List.mem_filter, v1, hcard, decide_eq_true_eq]
    constructor
    · rintro (hx | ⟨⟨hx1, hx2, hx3⟩, hx4⟩)
      · split_ifs at hx with hw
        · simp only [List.mem_singleton] at hx; subst hx
          exact ⟨hlt, hcard, hw, Or.inl rfl⟩
        · simp at hx
      · refine ⟨hx1, hx2, hx4, Or.inr ?_⟩
        intro l hl
        simp only [Option.mem_def] at hl; subst hl
        exact hx3
    · rintro ⟨hx1, hx2, hx3, hx4⟩
      by_cases hxg : x = g
      · subst hxg; left; simp [hx3]
      · right
        refine ⟨⟨hx1, hx2, ?_⟩, hx3⟩
        have hx4 := hx4.resolve_left hxg
        cases orders with
        | some l => exact hx4 l rfl
        | none =>
          simp only [hO, Option.getD_none, List.mem_range'_1]
          have := excLevel_pos (by rw [hx2, hcard]) hxg
          have h3 : excLevel g x ≤ nelec := by
            rw [excLevel, ← hcard]; exact Finset.card_le_card Finset.sdiff_subset
          omega
  · intro hs
    have hOs : O.Pairwise (· ≤ ·) := by
      cases orders with
      | none => exact (List.pairwise_lt_range').imp (fun h => Nat.le_of_lt h)
      | some l => exact hs l rfl
    rw [fullList, List.map_append, List.pairwise_append]
    refine ⟨by split_ifs <;> simp, ?_, ?_⟩
    · exact (v3 hOs).sublist (List.filter_sublist.map _)
    · intro a ha b _
      split_ifs at ha
      · simp only [List.map_cons, List.map_nil, List.mem_singleton, ground_level] at ha
        omega
      · simp at ha

/-- C14. With `num_limit = k` the result is the first `k` determinants of the unlimited list if the ground determinant
itself satisfies the conditions, and only the first `k - 1` otherwise (the code counts the ground determinant even when
it is rejected). -/
theorem C14_limit (nelec nspin : ℕ) (k : ℤ) (orders : Option (List ℕ)) (t s : Option ℤ) (h : Bool) (L : List ℕ)
    (hk : 0 < k) (hL : sdList nelec nspin none orders t s h = .ok L) :
    ∃ g, ground nelec nspin = .ok g ∧
      sdList nelec nspin (some k) orders t s h =
        .ok (L.take (if Wanted g (nspin / 2) t s h then k.toNat else k.toNat - 1)) := by
  obtain ⟨h1, h2, g, hg⟩ := sdList_ok_hyps hL
  refine ⟨g, hg, ?_⟩
  rw [sdList_eq none orders t s h hg h1 h2] at hL
  injection hL with hL
  rw [sdList_eq (some k) orders t s h hg (by simp; omega) h2, ← hL]
  rfl

-- two electrons in four spin orbitals, excitation orders 1 and 2, spin zero: four of the six determinants
example : ∃ L, sdList 2 4 none none (some 0) none false = .ok L ∧ L.Nodup ∧ L.length = 4 ∧ 0b1010 ∈ L ∧
    0b0011 ∉ L := by
  have hg : ground 2 4 = .ok 0b0101 := by decide
  refine ⟨_, sdList_eq none none (some 0) none false hg (by simp) (by simp), ?_⟩
  have e1 : occOrder 0b0101 2 = [0, 2] := by
    have : occIndices (some 0b0101) = [0, 2] := by decide
    rw [occOrder, this]; exact List.mergeSort_of_pairwise (by decide)
  have e2 : virOrder 0b0101 2 4 = [1, 3] := by
    have : virIndices (some 0b0101) 4 = [1, 3] := by decide
    rw [virOrder, show ((4 : ℕ) : ℤ) = 4 from rfl, this]; exact List.mergeSort_of_pairwise (by decide)
  simp only [fullList, show 4 / 2 = 2 from rfl, e1, e2]
  decide +kernel

/-- C14. A requested excitation order `0` makes the ground determinant appear twice, so the positivity of the orders is
needed in `C14_sd_list`. -/
theorem C14_order_zero_duplicates :
    sdList 1 2 none (some [0]) none none false = .ok [1, 1] := by
  have hg : ground 1 2 = .ok 1 := by decide
  rw [sdList_eq none (some [0]) none none false hg (by simp) (by simp)]
  simp only [fullList, visited, Option.getD_some]
  decide +kernel

end Fanpy.Props
