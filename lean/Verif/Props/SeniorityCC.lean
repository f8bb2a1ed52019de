import Verif.Lemmas.SeniorityMain
import Verif.Props.CCDeriv

/-! # Properties C90 and C91: overlaps of `SeniorityCC` and `CCS`

The operators are `Spec.senOp`, the seniority-raising operators of the docstring. -/

namespace Fanpy.Props
open Fanpy.Spec Fanpy.Slater Fanpy.Graphs Fanpy.It Fanpy.CC Fanpy.Lemmas

section
variable {R : Type} [CommRing R]

/-- the parameter of an operator -/
def senAmp (w : SenWfn R) (p : List ℕ × List ℕ) : R := w.params (w.exops.idxOf (p.1 ++ p.2))

/-- the sum over the products, if the signs are known -/
theorem senSum_ok (w : SenWfn R) (hm : w.memo = true) (sd : ℕ) {Lm : List (List (List ℕ))}
    (hL : senExops w.ranks w.exops (diffOrbs sd w.refwfn).2 (diffOrbs sd w.refwfn).1 = .ok Lm) (r : List (List ℕ) → Option ℤ)
    (hr : ∀ ops ∈ Lm, ops ≠ [] ∧ senSign w.nspatial (some w.refwfn) 1 ops = .ok (r ops)) (f : List ℕ → R) :
    senSum w f sd = .ok ((Lm.map fun ops => ((r ops).getD 0 : ℤ) * f (ops.map fun op => w.exops.idxOf op)).sum) := by
  unfold senSum
  simp only [hm, Bool.not_true, Bool.false_eq_true, if_false, hL, bind, Except.bind]
  rw [mapM_okE' _ (fun ops => (((r ops).getD 0 : ℤ) : R) * f (ops.map fun op => w.exops.idxOf op)) Lm]
  · rfl
  · intro ops ho
    obtain ⟨h1, h2⟩ := hr ops ho
    rw [if_neg h1, h2]
    rcases r ops with _ | s <;> simp [pure, Except.pure]

/-- the products lead from the reference to the determinant -/
theorem sen_diff (sd ref : ℕ) : (diffOrbs sd ref).2.Pairwise (· < ·) ∧ (diffOrbs sd ref).1.Pairwise (· < ·) ∧
    ∀ i ∈ (diffOrbs sd ref).2, i ∉ (diffOrbs sd ref).1 := by
  refine ⟨sorted_occIndices _, sorted_occIndices _, fun i hi hi' => ?_⟩
  have h1 := diffOrbs_snd_toFinset sd ref
  have h2 := diffOrbs_fst_toFinset sd ref
  have a1 : i ∈ occSet ref \ occSet sd := h1 ▸ List.mem_toFinset.2 hi
  have a2 : i ∈ occSet sd \ occSet ref := h2 ▸ List.mem_toFinset.2 hi'
  exact (Finset.mem_sdiff.1 a1).2 (Finset.mem_sdiff.1 a2).1

theorem path_ne_nil {ranks : List ℕ} {exops : List (List ℕ)} {sd ref : ℕ} (hsd : (occSet sd).card = (occSet ref).card) (hne : sd ≠ ref)
    {S : List (List ℕ × List ℕ)} (h : IsPath ranks exops (diffOrbs sd ref).2 (diffOrbs sd ref).1 S) : S ≠ [] := by
  rintro rfl
  have h1 := h.ann
  have h2 := h.cre
  rw [List.flatMap_nil, List.nil_perm] at h1 h2
  apply hne
  apply occSet_injective
  have a1 := diffOrbs_snd_toFinset sd ref
  have a2 := diffOrbs_fst_toFinset sd ref
  rw [h1] at a1
  rw [h2] at a2
  exact Finset.Subset.antisymm (Finset.sdiff_eq_empty_iff_subset.1 a2.symm) (Finset.sdiff_eq_empty_iff_subset.1 a1.symm)

/-- the coefficients of the product of the docstring -/
theorem senProduct_coeff {ranks U V : List ℕ} (hr : ranks.Pairwise (· < ·)) (hpos : ∀ r ∈ ranks, 0 < r) (hU : U.Pairwise (· < ·))
    (hV : V.Pairwise (· < ·)) (hUV : ∀ i ∈ U, i ∉ V) {K : ℕ} (hUK : ∀ i ∈ U, i < 2 * K) (hVK : ∀ i ∈ V, i < 2 * K)
    (t : List ℕ × List ℕ → R) (Ops : List (List ℕ × List ℕ)) (hOps : Ops.Perm (opsP ranks U V)) (sd ref : ℕ)
    (L : List (List (List ℕ × List ℕ))) (hLn : L.Nodup)
    (hL : ∀ S, S ∈ L ↔ IsPath ranks (exopsFrom ranks U V) (diffOrbs sd ref).2 (diffOrbs sd ref).1 S) :
    ((Ops.map fun p => 1 + t p • (senOp K p.1 p.2 : Module.End R (Fock R))).prod (ket (occSet ref))) (occSet sd) =
      (L.map fun S => (S.map t).prod *
        ((S.map fun p => (senOp K p.1 p.2 : Module.End R (Fock R))).prod (ket (occSet ref))) (occSet sd)).sum := by
  obtain ⟨ha, hc, -⟩ := sen_diff sd ref
  have hna : (diffOrbs sd ref).2.Nodup := ha.imp fun h => by omega
  have hnc : (diffOrbs sd ref).1.Nodup := hc.imp fun h => by omega
  have has := diffOrbs_snd_toFinset sd ref
  have hcs := diffOrbs_fst_toFinset sd ref
  have hop : ∀ q ∈ opsP ranks U V, Op V.toFinset q := by
    intro q hq
    obtain ⟨h1, h2, h3, h4⟩ := mem_opsP.1 hq
    refine ⟨fun i hi hv => hUV i (h3.subset hi) (List.mem_toFinset.1 hv), fun i hi => List.mem_toFinset.2 (h4.subset hi), h2, ?_⟩
    intro e
    have := hpos _ h1
    rw [e] at this; simp at this
  have hK : ∀ q ∈ opsP ranks U V, ∀ i ∈ q.1 ++ q.2, i < 2 * K := by
    intro q hq i hi
    obtain ⟨-, -, h3, h4⟩ := mem_opsP.1 hq
    rcases List.mem_append.1 hi with hi | hi
    · exact hUK i (h3.subset hi)
    · exact hVK i (h4.subset hi)
  have hnd : (opsP ranks U V).Nodup := (opsP_order hr hU hV).imp fun {p q} h => by rintro rfl; exact opLt_asymm h h
  have e1 : (Ops.map fun p => 1 + t p • (senOp K p.1 p.2 : Module.End R (Fock R))).prod =
      ((opsP ranks U V).map fun p => 1 + t p • (senOp K p.1 p.2 : Module.End R (Fock R))).prod := by
    refine List.Perm.prod_eq' (hOps.map _) ?_
    rw [List.pairwise_map]
    refine List.pairwise_of_forall_mem_list fun p hp q hq => ?_
    have hp := hOps.mem_iff.1 hp
    have hq := hOps.mem_iff.1 hq
    have := ((senOp_commute (R := R) (hop p hp) (hop q hq) (hK p hp) (hK q hq)).smul_left (t p)).smul_right (t q)
    exact ((Commute.one_left _).add_left ((Commute.one_right _).add_right this))
  have e2 : ∀ S : List (List ℕ × List ℕ), (S.map fun p => t p • (senOp K p.1 p.2 : Module.End R (Fock R))).prod =
      (S.map t).prod • (S.map fun p => (senOp K p.1 p.2 : Module.End R (Fock R))).prod := by
    intro S
    induction S with
    | nil => simp
    | cons p S ih => rw [List.map_cons, List.prod_cons, ih, List.map_cons, List.prod_cons, List.map_cons, List.prod_cons,
        smul_mul_smul_comm]
  have e3 : ∀ M : List (List (List ℕ × List ℕ)),
      (((M.map fun S => (S.map fun p => t p • (senOp K p.1 p.2 : Module.End R (Fock R))).prod).sum : Module.End R (Fock R))
        (ket (occSet ref))) (occSet sd) = (M.map fun S => (S.map t).prod *
          ((S.map fun p => (senOp K p.1 p.2 : Module.End R (Fock R))).prod (ket (occSet ref))) (occSet sd)).sum := by
    intro M
    induction M with
    | nil => simp
    | cons S M ih =>
      rw [List.map_cons, List.sum_cons, List.map_cons, List.sum_cons, LinearMap.add_apply, Finsupp.add_apply, ih, e2,
        LinearMap.smul_apply, Finsupp.smul_apply, smul_eq_mul]
  rw [e1, prod_one_add (fun p => t p • (senOp K p.1 p.2 : Module.End R (Fock R))), e3, ← List.sum_toFinset _ hLn, ← List.sum_toFinset _ (List.nodup_sublists'.2 hnd)]
  symm
  apply Finset.sum_subset
  · intro S hS
    obtain ⟨h1, -⟩ := (isPath_iff hr hpos hU hV hna).1 ((hL S).1 (List.mem_toFinset.1 hS))
    rw [List.mem_toFinset, List.mem_sublists']
    exact h1
  · intro S hS hn
    rw [List.mem_toFinset, List.mem_sublists'] at hS
    by_contra hne
    have hz := right_ne_zero_of_mul hne
    rcases (senProd_cases K S (occSet ref) (1 : R)).1 with h0 | h0
    · exact hz (by rw [ket, h0]; rfl)
    · obtain ⟨h2, h3⟩ := prod_coeff_ne S (fun q hq => hop q (hS.subset hq)) (fun _ => (1 : R)) (occSet ref) (occSet sd) hna hnc has hcs (by
        simp only [one_smul]
        rw [ket, ← h0]; exact hz)
      exact hn (List.mem_toFinset.2 ((hL S).2 ((isPath_iff hr hpos hU hV hna).2 ⟨hS, h2, h3⟩)))

/-- the operators of a wavefunction that lead from the reference to a determinant are those from `U` to `V` -/
def OpsFrom (w : SenWfn R) (U V : List ℕ) : Prop :=
  ∀ q : List ℕ × List ℕ, q.1.length = q.2.length → q.1.length ∈ w.ranks → q.1.Pairwise (· < ·) → q.2.Pairwise (· < ·) →
    (∀ i ∈ q.1, i ∈ occSet w.refwfn) → (∀ i ∈ q.2, i ∉ occSet w.refwfn) →
    (q.1 ++ q.2 ∈ w.exops ↔ (∀ i ∈ q.1, i ∈ U) ∧ ∀ i ∈ q.2, i ∈ V)

theorem sublist_of_sorted {l c : List ℕ} (hl : l.Pairwise (· < ·)) (hc : c.Pairwise (· < ·)) (h : ∀ i ∈ c, i ∈ l) : c.Sublist l :=
  List.sublist_of_subperm_of_pairwise (r := (· < ·)) (List.subperm_of_subset (hc.imp fun h => by omega) h) hc hl

theorem opsFrom_path {w : SenWfn R} {U V : List ℕ} (hU : U.Pairwise (· < ·)) (hV : V.Pairwise (· < ·)) (h : OpsFrom w U V) (sd : ℕ)
    (S : List (List ℕ × List ℕ)) :
    IsPath w.ranks w.exops (diffOrbs sd w.refwfn).2 (diffOrbs sd w.refwfn).1 S ↔
      IsPath w.ranks (exopsFrom w.ranks U V) (diffOrbs sd w.refwfn).2 (diffOrbs sd w.refwfn).1 S := by
  have has := diffOrbs_snd_toFinset sd w.refwfn
  have hcs := diffOrbs_fst_toFinset sd w.refwfn
  have key : (∀ q ∈ S, q.1.length ∈ w.ranks) → (∀ q ∈ S, q.1.length = q.2.length) → (∀ q ∈ S, q.1.Pairwise (· < ·)) →
      (∀ q ∈ S, q.2.Pairwise (· < ·)) → (S.flatMap Prod.fst).Perm (diffOrbs sd w.refwfn).2 →
      (S.flatMap Prod.snd).Perm (diffOrbs sd w.refwfn).1 →
      ∀ q ∈ S, (q.1 ++ q.2 ∈ w.exops ↔ q.1 ++ q.2 ∈ exopsFrom w.ranks U V) := by
    intro h1 h2 h3 h4 h5 h6 q hq
    rw [mem_exopsFrom (h2 q hq), mem_opsP, h q (h2 q hq) (h1 q hq) (h3 q hq) (h4 q hq)]
    · constructor
      · rintro ⟨a, b⟩
        exact ⟨h1 q hq, h2 q hq, sublist_of_sorted hU (h3 q hq) a, sublist_of_sorted hV (h4 q hq) b⟩
      · rintro ⟨-, -, a, b⟩
        exact ⟨fun i hi => a.subset hi, fun i hi => b.subset hi⟩
    · intro i hi
      have : i ∈ (diffOrbs sd w.refwfn).2 := h5.mem_iff.1 (List.mem_flatMap.2 ⟨q, hq, hi⟩)
      have := has ▸ List.mem_toFinset.2 this
      exact (Finset.mem_sdiff.1 this).1
    · intro i hi
      have : i ∈ (diffOrbs sd w.refwfn).1 := h6.mem_iff.1 (List.mem_flatMap.2 ⟨q, hq, hi⟩)
      have := hcs ▸ List.mem_toFinset.2 this
      exact (Finset.mem_sdiff.1 this).2
  constructor
  · rintro ⟨h1, h2, h3, h4, h5, h6, h7, h8⟩
    exact ⟨h1, fun q hq => (key h1 h3 h4 h5 h6 h7 q hq).1 (h2 q hq), h3, h4, h5, h6, h7, h8⟩
  · rintro ⟨h1, h2, h3, h4, h5, h6, h7, h8⟩
    exact ⟨h1, fun q hq => (key h1 h3 h4 h5 h6 h7 q hq).2 (h2 q hq), h3, h4, h5, h6, h7, h8⟩

/-- the overlap is the coefficient in the product of the docstring -/
theorem sen_overlap (w : SenWfn R) (U V : List ℕ) (hr : w.ranks.Pairwise (· < ·))
    (hpos : ∀ r ∈ w.ranks, 0 < r) (hU : U.Pairwise (· < ·)) (hV : V.Pairwise (· < ·)) (hUV : ∀ i ∈ U, i ∉ V)
    (hUK : ∀ i ∈ U, i < 2 * w.nspatial) (hVK : ∀ i ∈ V, i < 2 * w.nspatial) (he : OpsFrom w U V) (hci : w.ci = false) (hm : w.memo = true)
    (sd : ℕ) (hsd : (occSet sd).card = (occSet w.refwfn).card) (Ops : List (List ℕ × List ℕ)) (hOps : Ops.Perm (opsP w.ranks U V)) :
    senOverlap w sd = .ok (((Ops.map fun p => 1 + senAmp w p • (senOp w.nspatial p.1 p.2 : Module.End R (Fock R))).prod
      (ket (occSet w.refwfn))) (occSet sd)) := by
  obtain ⟨ha, hc, hd⟩ := sen_diff sd w.refwfn
  have hl := diff_lengths hsd
  have has := diffOrbs_snd_toFinset sd w.refwfn
  have hcs := diffOrbs_fst_toFinset sd w.refwfn
  obtain ⟨Lm, L, l1, l2, l3, l4⟩ := senExops_spec w.ranks w.exops _ _ (hr.imp fun h => by omega) hpos ha hc hl hd
  have l5 : ∀ S, S ∈ L ↔ IsPath w.ranks (exopsFrom w.ranks U V) (diffOrbs sd w.refwfn).2 (diffOrbs sd w.refwfn).1 S := fun S =>
    (l4 S).trans (opsFrom_path hU hV he sd S)
  rw [senProduct_coeff hr hpos hU hV hUV hUK hVK (senAmp w) Ops hOps sd w.refwfn L l3 l5, senOverlap, hci]
  simp only [Bool.false_eq_true, if_false]
  have hna : (diffOrbs sd w.refwfn).2.Nodup := ha.imp fun h => by omega
  have facts : ∀ S ∈ L, (∀ q ∈ S, Op V.toFinset q) ∧ (∀ q ∈ S, ∀ i ∈ q.1 ++ q.2, i < 2 * w.nspatial) := by
    intro S hS
    obtain ⟨h1, -⟩ := (isPath_iff hr hpos hU hV hna).1 ((l5 S).1 hS)
    refine ⟨fun q hq => ?_, fun q hq i hi => ?_⟩
    · obtain ⟨h1, h2, h3, h4⟩ := mem_opsP.1 (h1.subset hq)
      refine ⟨fun i hi hv => hUV i (h3.subset hi) (List.mem_toFinset.1 hv), fun i hi => List.mem_toFinset.2 (h4.subset hi), h2, ?_⟩
      intro e
      have := hpos _ h1
      rw [e] at this; simp at this
    · obtain ⟨-, -, h3, h4⟩ := mem_opsP.1 (h1.subset hq)
      rcases List.mem_append.1 hi with hi | hi
      · exact hUK i (h3.subset hi)
      · exact hVK i (h4.subset hi)
  by_cases hsr : sd = w.refwfn
  · rw [if_pos hsr]
    subst hsr
    have hdz : diffOrbs w.refwfn w.refwfn = ([], []) := by simp [diffOrbs, occIndices_eq_filter]
    have hLs : L = [[]] := by
      have hmem : ∀ S, S ∈ L ↔ S = [] := by
        intro S
        rw [l4, hdz]
        constructor
        · intro h
          have := h.ann
          rw [List.perm_nil] at this
          cases S with
          | nil => rfl
          | cons q S =>
            rw [List.flatMap_cons, List.append_eq_nil_iff] at this
            have h1 := hpos _ (h.rank q (by simp))
            rw [this.1] at h1; simp at h1
        · rintro rfl
          exact ⟨by simp, by simp, by simp, by simp, by simp, by simp, by simp, by simp⟩
      refine List.Perm.eq_singleton ?_
      exact (List.perm_ext_iff_of_nodup l3 (by simp)).2 fun S => by rw [hmem]; simp
    rw [hLs]
    simp [ket]
  · rw [if_neg hsr]
    have hex : ∀ ops, ∃ r : Option ℤ, ∀ S ∈ L, ops = S.map app → senSign w.nspatial (some w.refwfn) 1 ops = .ok r ∧
        ((S.map fun p => (senOp w.nspatial p.1 p.2 : Module.End R (Fock R))).prod (ket (occSet w.refwfn))) (occSet sd) = ((r.getD 0 : ℤ) : R) := by
      intro ops
      by_cases h : ∃ S ∈ L, ops = S.map app
      · obtain ⟨S, hS, rfl⟩ := h
        obtain ⟨r, r1, r2⟩ := senSign_coeff (R := R) (facts S hS).1 (facts S hS).2 has hcs ((l4 S).1 hS).ann ((l4 S).1 hS).cre
        refine ⟨r, fun T hT e => ?_⟩
        have : S = T := map_app_inj ((l4 S).1 hS).len ((l4 T).1 hT).len e
        subst this
        exact ⟨r1, r2⟩
      · exact ⟨none, fun S hS e => absurd ⟨S, hS, e⟩ h⟩
    choose r hr' using hex
    rw [senSum_ok w hm sd l1 r (by
      intro ops ho
      obtain ⟨S, hS, rfl⟩ := List.mem_map.1 (l2.mem_iff.1 ho)
      refine ⟨?_, (hr' _ S hS rfl).1⟩
      have := path_ne_nil hsd hsr ((l4 S).1 hS)
      simpa using this)]
    congr 1
    rw [(l2.map _).sum_eq, List.map_map]
    congr 1
    apply List.map_congr_left
    intro S hS
    rw [Function.comp_apply, (hr' _ S hS rfl).2, mul_comm, prodAmp, List.map_map, List.map_map]
    rfl


/-! ## the constructor -/

/-- the orbitals that the operators may excite from -/
def senFrom (nspin : ℕ) : Option (List ℕ × List ℕ) → List ℕ
  | none => List.range nspin
  | some p => p.1

/-- the orbitals that the operators may excite to -/
def senTo (nspin : ℕ) : Option (List ℕ × List ℕ) → List ℕ
  | none => List.range nspin
  | some p => p.2

theorem seniorityCC_facts {nelec nspin : ℕ} {r : RankArg} {indices : Option (List ℕ × List ℕ)} {refArg : RefArg} {params : ℕ → R} {b : Bool}
    {w : SenWfn R} (h : seniorityCC nelec nspin r indices refArg params b = .ok w) :
    nelec ≠ 0 ∧ nelec % 2 = 0 ∧ nspin ≠ 0 ∧ nspin % 2 = 0 ∧ assignRanks nelec r = .ok w.ranks ∧
      ((indices = none → w.exops = exopsAll w.ranks nspin) ∧ ∀ u v, indices = some (u, v) → w.exops = exopsIndices w.ranks u v) ∧
      w.params = params ∧ w.memo = !b ∧ w.nspatial = nspin / 2 ∧
      ∃ ref, senAssignRef nelec nspin refArg = .ok ref ∧ w.refwfn = ref.getD 0 ∧ w.ci = ref.isNone := by
  unfold seniorityCC at h
  by_cases h1 : nelec = 0 ∨ nelec % 2 ≠ 0
  · rw [if_pos h1] at h; simp at h
  rw [if_neg h1] at h
  by_cases h2 : nspin = 0 ∨ nspin % 2 = 1
  · rw [if_pos h2] at h; simp at h
  rw [if_neg h2] at h
  rcases hr : assignRanks nelec r with e | ranks
  · rw [hr] at h; simp [bind, Except.bind] at h
  rcases hg : ground nelec nspin with e | g
  · rw [hr, hg] at h; simp [bind, Except.bind] at h
  rcases ha : senAssignRef nelec nspin refArg with e | ref
  · rw [hr, hg, ha] at h; simp [bind, Except.bind] at h
  rw [hr, hg, ha] at h
  simp only [bind, Except.bind, pure, Except.pure, Except.ok.injEq] at h
  subst h
  exact ⟨by omega, by omega, by omega, by omega, rfl, ⟨by rintro rfl; rfl, by rintro u v rfl; rfl⟩, rfl, rfl, rfl, ref, rfl, rfl, rfl⟩

theorem senRef_card {nelec nspin : ℕ} {refArg : RefArg} {m : ℕ} (h : senAssignRef nelec nspin refArg = .ok (some m)) :
    (occSet m).card = nelec := by
  cases refArg with
  | none =>
    simp only [senAssignRef] at h
    rcases hg : ground nelec nspin with e | g
    · rw [hg] at h; simp [bind, Except.bind] at h
    · rw [hg] at h
      simp only [bind, Except.bind, pure, Except.pure, Except.ok.injEq, Option.some.injEq] at h
      subst h
      exact (ground_ok_facts hg).2.2
  | int sd =>
    simp only [senAssignRef] at h
    by_cases hm : totalOcc (some sd) ≠ nelec
    · rw [if_pos hm] at h; simp at h
    · rw [if_neg hm] at h
      simp only [Except.ok.injEq, Option.some.injEq] at h
      subst h
      rw [not_not, totalOcc_eq] at hm
      exact hm
  | ci n s sen =>
    simp only [senAssignRef] at h
    split_ifs at h
    all_goals simp at h
  | other => simp [senAssignRef] at h

theorem mem_sortDedup (l : List ℕ) : (l.dedup.mergeSort (fun a b => decide (a ≤ b))).Pairwise (· < ·) ∧
    ∀ i, i ∈ l.dedup.mergeSort (fun a b => decide (a ≤ b)) ↔ i ∈ l := by
  have hp := List.mergeSort_perm l.dedup (fun a b => decide (a ≤ b))
  refine ⟨?_, fun i => by rw [hp.mem_iff, List.mem_dedup]⟩
  have h1 : (l.dedup.mergeSort (fun a b => decide (a ≤ b))).Nodup := hp.nodup_iff.2 (List.nodup_dedup _)
  have h2 := List.pairwise_mergeSort (le := fun a b : ℕ => decide (a ≤ b)) (by simp; omega) (by simp; omega) l.dedup
  refine (h2.and h1).imp ?_
  rintro a b ⟨h, h'⟩
  have := of_decide_eq_true h
  omega

/-- the sorted orbitals of a list that pass a test -/
def senList (nspin : ℕ) (l : List ℕ) (p : ℕ → Bool) : List ℕ := (List.range nspin).filter fun i => decide (i ∈ l) && p i

theorem senList_sorted (nspin : ℕ) (l : List ℕ) (p : ℕ → Bool) : (senList nspin l p).Pairwise (· < ·) := List.pairwise_lt_range.filter _

theorem mem_senList {nspin : ℕ} {l : List ℕ} (hl : ∀ i ∈ l, i < nspin) (p : ℕ → Bool) (i : ℕ) : i ∈ senList nspin l p ↔ i ∈ l ∧ p i = true := by
  rw [senList, List.mem_filter, List.mem_range, Bool.and_eq_true, decide_eq_true_eq]
  exact ⟨fun h => h.2, fun h => ⟨hl i h.1, h⟩⟩

theorem mem_exopsAll {ranks : List ℕ} {nspin : ℕ} {q : List ℕ × List ℕ} (hl : q.1.length = q.2.length) :
    q.1 ++ q.2 ∈ exopsAll ranks nspin ↔ q.1.length ∈ ranks ∧ q.1.Sublist (List.range nspin) ∧
      q.2.Sublist ((List.range nspin).filter fun i => i ∉ q.1) := by
  rw [exopsAll, List.mem_flatMap]
  constructor
  · rintro ⟨rank, hr, h⟩
    obtain ⟨a, ha, h⟩ := List.mem_flatMap.1 h
    obtain ⟨c, hc, h⟩ := List.mem_map.1 h
    rw [mem_comb] at ha hc
    obtain ⟨e1, e2⟩ := List.append_inj h (by
      have := congrArg List.length h
      rw [List.length_append, List.length_append] at this; omega)
    subst e1 e2
    exact ⟨ha.2 ▸ hr, ha.1, hc.1⟩
  · rintro ⟨h1, h2, h3⟩
    exact ⟨_, h1, List.mem_flatMap.2 ⟨q.1, mem_comb.2 ⟨h2, rfl⟩, List.mem_map.2 ⟨q.2, mem_comb.2 ⟨h3, hl.symm⟩, rfl⟩⟩⟩

/-- what the constructor gives -/
theorem seniorityCC_ops {nelec nspin : ℕ} {r : RankArg} {indices : Option (List ℕ × List ℕ)} {refArg : RefArg} {params : ℕ → R} {b : Bool}
    {w : SenWfn R} (h : seniorityCC nelec nspin r indices refArg params b = .ok w)
    (hF : ∀ i ∈ senFrom nspin indices, i < nspin) (hT : ∀ i ∈ senTo nspin indices, i < nspin) :
    OpsFrom w (senList nspin (senFrom nspin indices) fun i => decide (i ∈ occSet w.refwfn))
      (senList nspin (senTo nspin indices) fun i => decide (i ∉ occSet w.refwfn)) := by
  obtain ⟨-, -, -, -, -, he, -⟩ := seniorityCC_facts h
  intro q h1 h2 h3 h4 h5 h6
  simp only [mem_senList hF, mem_senList hT, decide_eq_true_eq]
  cases indices with
  | none =>
    rw [he.1 rfl, mem_exopsAll h1]
    simp only [senFrom, senTo] at hF hT ⊢
    constructor
    · rintro ⟨-, a, c⟩
      exact ⟨fun i hi => ⟨a.subset hi, h5 i hi⟩, fun i hi => ⟨(List.mem_filter.1 (c.subset hi)).1, h6 i hi⟩⟩
    · rintro ⟨a, c⟩
      refine ⟨h2, sublist_of_sorted List.pairwise_lt_range h3 fun i hi => (a i hi).1, sublist_of_sorted (List.pairwise_lt_range.filter _) h4
        fun i hi => List.mem_filter.2 ⟨(c i hi).1, decide_eq_true fun hi' => h6 i hi (h5 i hi')⟩⟩
  | some p =>
    obtain ⟨u, v⟩ := p
    rw [he.2 u v rfl, exopsIndices, mem_exopsFrom h1, mem_opsP]
    simp only [senFrom, senTo] at hF hT ⊢
    obtain ⟨su, mu⟩ := mem_sortDedup u
    obtain ⟨sv, mv⟩ := mem_sortDedup v
    constructor
    · rintro ⟨-, -, a, c⟩
      exact ⟨fun i hi => ⟨(mu i).1 (a.subset hi), h5 i hi⟩, fun i hi => ⟨(mv i).1 (c.subset hi), h6 i hi⟩⟩
    · rintro ⟨a, c⟩
      exact ⟨h2, h1, sublist_of_sorted su h3 fun i hi => (mu i).2 (a i hi).1, sublist_of_sorted sv h4 fun i hi => (mv i).2 (c i hi).1⟩

/-- C90: the overlap with a determinant with the right number of electrons is its coefficient in the product of the docstring,
`∏ (1 + t ς̂)` applied to the reference, over the operators from occupied to virtual orbitals of the reference, in any order.  Missing from the claim: operators that start at a
virtual or end at an occupied orbital of the reference, which the default operators include, have parameters but never contribute; orbitals
that are not there; a `CIWavefunction` as reference and a given `exop_combinations` (`C90_errors`); determinants with another number of
electrons. -/
theorem C90_overlap_partial (nelec nspin : ℕ) (r : RankArg) (indices : Option (List ℕ × List ℕ)) (refArg : RefArg) (params : ℕ → R)
    (w : SenWfn R) (hw : seniorityCC nelec nspin r indices refArg params false = .ok w) (hci : w.ci = false)
    (hF : ∀ i ∈ senFrom nspin indices, i < nspin) (hT : ∀ i ∈ senTo nspin indices, i < nspin) (sd : ℕ) (hsd : (occSet sd).card = nelec)
    (Ops : List (List ℕ × List ℕ)) (hn : Ops.Nodup)
    (hOps : ∀ p, p ∈ Ops ↔ p.1.Pairwise (· < ·) ∧ p.2.Pairwise (· < ·) ∧ (∀ i ∈ p.1, i ∈ senFrom nspin indices ∧ i ∈ occSet w.refwfn) ∧
      (∀ i ∈ p.2, i ∈ senTo nspin indices ∧ i ∉ occSet w.refwfn) ∧ p.1.length = p.2.length ∧ p.1.length ∈ rankSet nelec r) :
    senOverlap w sd = .ok (((Ops.map fun p => 1 + params (w.exops.idxOf (p.1 ++ p.2)) •
      (senOp (nspin / 2) p.1 p.2 : Module.End R (Fock R))).prod (ket (occSet w.refwfn))) (occSet sd)) := by
  obtain ⟨f1, f2, f3, f4, f5, f6, f7, f8, f9, ref, g1, g2, g3⟩ := seniorityCC_facts hw
  have hcard : (occSet w.refwfn).card = nelec := by
    rcases ref with _ | m
    · rw [hci] at g3; simp at g3
    · rw [g2]; exact senRef_card g1
  rcases C41_ranks nelec r with ⟨ranks, r1, r2, r3, r4, -⟩ | ⟨r1, -⟩
  swap
  · rw [f5] at r1; simp at r1
  rw [f5, Except.ok.injEq] at r1
  subst r1
  have key := sen_overlap w (senList nspin (senFrom nspin indices) fun i => decide (i ∈ occSet w.refwfn))
    (senList nspin (senTo nspin indices) fun i => decide (i ∉ occSet w.refwfn)) r2 (fun k hk => (r3 k hk).1) (senList_sorted _ _ _)
    (senList_sorted _ _ _) (fun i hi hi' => by
      rw [mem_senList hF, decide_eq_true_eq] at hi
      rw [mem_senList hT, decide_eq_true_eq] at hi'
      exact hi'.2 hi.2) (fun i hi => by
      rw [mem_senList hF] at hi
      have := hF i hi.1
      omega) (fun i hi => by
      rw [mem_senList hT] at hi
      have := hT i hi.1
      omega) (seniorityCC_ops hw hF hT) hci (by rw [f8]; rfl) sd (hsd.trans hcard.symm) Ops (by
      refine (List.perm_ext_iff_of_nodup hn ((opsP_order r2 (senList_sorted _ _ _) (senList_sorted _ _ _)).imp
        fun {p q} h => by rintro rfl; exact opLt_asymm h h)).2 fun p => ?_
      rw [hOps, mem_opsP]
      have hm : p.1.length ∈ rankSet nelec r ↔ p.1.length ∈ w.ranks := by rw [← r4, List.mem_toFinset]
      rw [hm]
      constructor
      · rintro ⟨a, b, c, d, e, f⟩
        exact ⟨f, e, sublist_of_sorted (senList_sorted _ _ _) a fun i hi => (mem_senList hF _ i).2 ⟨(c i hi).1, decide_eq_true (c i hi).2⟩,
          sublist_of_sorted (senList_sorted _ _ _) b fun i hi => (mem_senList hT _ i).2 ⟨(d i hi).1, decide_eq_true (d i hi).2⟩⟩
      · rintro ⟨f, e, a, b⟩
        refine ⟨(senList_sorted _ _ _).sublist a, (senList_sorted _ _ _).sublist b, fun i hi => ?_, fun i hi => ?_, e, f⟩
        · have := (mem_senList hF _ i).1 (a.subset hi)
          exact ⟨this.1, of_decide_eq_true this.2⟩
        · have := (mem_senList hT _ i).1 (b.subset hi)
          exact ⟨this.1, of_decide_eq_true this.2⟩)
  rw [key]
  simp only [senAmp, f7, f9]


/-! ## derivatives -/

theorem prodAmp_shift (p : ℕ → R) (l : List ℕ) (hn : l.Nodup) (j : ℕ) (h : R) :
    prodAmp (Function.update p j (p j + h)) l = prodAmp p l + h * dProdAmp p l j := by
  unfold prodAmp dProdAmp
  by_cases hj : j ∈ l
  · have he : (l.filter fun i => j ≠ i) = l.erase j := by
      rw [hn.erase_eq_filter]
      apply List.filter_congr
      intro i _
      by_cases e : i = j <;> simp [bne, e, Ne.symm, eq_comm (a := j)]
    rw [if_pos hj, he, amp_prod_erase p j l hj, amp_prod_erase _ j l hj, Function.update_self, amp_prod_update p j _ _ hn.not_mem_erase]
    ring
  · rw [if_neg hj, amp_prod_update p j _ _ hj, mul_zero, add_zero]

theorem path_inds_nodup {ranks : List ℕ} {exops : List (List ℕ)} {a c : List ℕ} (ha : a.Nodup) (hpos : ∀ r ∈ ranks, 0 < r)
    {S : List (List ℕ × List ℕ)} (h : IsPath ranks exops a c S) : ((S.map app).map fun op => exops.idxOf op).Nodup := by
  have hn : (S.flatMap Prod.fst).Nodup := h.ann.nodup_iff.2 ha
  rw [List.map_map]
  apply List.Nodup.map_on
  · intro x hx y hy e
    have e := (List.idxOf_inj (h.mem x hx)).1 e
    have h1 := h.len x hx
    have h2 := h.len y hy
    obtain ⟨e1, e2⟩ := List.append_inj (show x.1 ++ x.2 = y.1 ++ y.2 from e) (by
      have := congrArg List.length (show x.1 ++ x.2 = y.1 ++ y.2 from e)
      rw [List.length_append, List.length_append] at this; omega)
    exact Prod.ext e1 e2
  · refine (List.nodup_flatMap.1 hn).2.imp_of_mem ?_
    rintro x y hx hy hd rfl
    have h1 := hpos _ (h.rank x hx)
    obtain ⟨z, hz⟩ := List.exists_mem_of_length_pos h1
    exact hd hz hz

/-- the contributions to an overlap, with distinct parameters -/
theorem sen_terms (w : SenWfn R) (U V : List ℕ) (hr : w.ranks.Pairwise (· < ·))
    (hpos : ∀ r ∈ w.ranks, 0 < r) (hU : U.Pairwise (· < ·)) (hV : V.Pairwise (· < ·)) (hUV : ∀ i ∈ U, i ∉ V)
    (hUK : ∀ i ∈ U, i < 2 * w.nspatial) (hVK : ∀ i ∈ V, i < 2 * w.nspatial) (he : OpsFrom w U V) (hm : w.memo = true)
    (sd : ℕ) (hsd : (occSet sd).card = (occSet w.refwfn).card) (hsr : sd ≠ w.refwfn) :
    ∃ T : List (ℤ × List ℕ), (∀ f, senSum w f sd = .ok ((T.map fun t => (t.1 : R) * f t.2).sum)) ∧ ∀ t ∈ T, t.2.Nodup := by
  obtain ⟨ha, hc, hd⟩ := sen_diff sd w.refwfn
  have hl := diff_lengths hsd
  have has := diffOrbs_snd_toFinset sd w.refwfn
  have hcs := diffOrbs_fst_toFinset sd w.refwfn
  obtain ⟨Lm, L, l1, l2, l3, l4⟩ := senExops_spec w.ranks w.exops _ _ (hr.imp fun h => by omega) hpos ha hc hl hd
  have hna : (diffOrbs sd w.refwfn).2.Nodup := ha.imp fun h => by omega
  have hex : ∀ ops, ∃ r : Option ℤ, ops ∈ Lm → senSign w.nspatial (some w.refwfn) 1 ops = .ok r := by
    intro ops
    by_cases h : ops ∈ Lm
    · obtain ⟨S, hS, rfl⟩ := List.mem_map.1 (l2.mem_iff.1 h)
      obtain ⟨h1, -⟩ := (isPath_iff hr hpos hU hV hna).1 ((opsFrom_path hU hV he sd S).1 ((l4 S).1 hS))
      obtain ⟨r, r1, -⟩ := senSign_coeff (R := R) (V := V.toFinset) (fun q hq => by
        obtain ⟨h1, h2, h3, h4⟩ := mem_opsP.1 (h1.subset hq)
        refine ⟨fun i hi hv => hUV i (h3.subset hi) (List.mem_toFinset.1 hv), fun i hi => List.mem_toFinset.2 (h4.subset hi), h2, ?_⟩
        intro e
        have := hpos _ h1
        rw [e] at this; simp at this) (fun q hq i hi => by
        obtain ⟨-, -, h3, h4⟩ := mem_opsP.1 (h1.subset hq)
        rcases List.mem_append.1 hi with hi | hi
        · exact hUK i (h3.subset hi)
        · exact hVK i (h4.subset hi)) has hcs ((l4 S).1 hS).ann ((l4 S).1 hS).cre
      exact ⟨r, fun _ => r1⟩
    · exact ⟨none, fun h' => absurd h' h⟩
  choose r hr' using hex
  refine ⟨Lm.map fun ops => ((r ops).getD 0, ops.map fun op => w.exops.idxOf op), fun f => ?_, fun t ht => ?_⟩
  · rw [senSum_ok w hm sd l1 r (fun ops ho => ?_), List.map_map]
    · rfl
    · refine ⟨?_, hr' ops ho⟩
      obtain ⟨S, hS, rfl⟩ := List.mem_map.1 (l2.mem_iff.1 ho)
      have := path_ne_nil hsd hsr ((l4 S).1 hS)
      simpa using this
  · obtain ⟨ops, ho, rfl⟩ := List.mem_map.1 ht
    obtain ⟨S, hS, rfl⟩ := List.mem_map.1 (l2.mem_iff.1 ho)
    exact path_inds_nodup hna hpos ((l4 S).1 hS)

/-- C90: the derivative is the rate at which the overlap changes with a parameter.  Missing from the claim: the reference, where asking for a
derivative is a `TypeError` (`C90_errors`). -/
theorem C90_derivative_partial (nelec nspin : ℕ) (r : RankArg) (indices : Option (List ℕ × List ℕ)) (refArg : RefArg) (params : ℕ → R)
    (w : SenWfn R) (hw : seniorityCC nelec nspin r indices refArg params false = .ok w) (hci : w.ci = false)
    (hF : ∀ i ∈ senFrom nspin indices, i < nspin) (hT : ∀ i ∈ senTo nspin indices, i < nspin) (sd : ℕ) (hsd : (occSet sd).card = nelec)
    (hne : sd ≠ w.refwfn) (j : ℕ) :
    ∃ x d, senOverlap w sd = .ok x ∧ senDOverlap w sd j = .ok d ∧
      ∀ h w', seniorityCC nelec nspin r indices refArg (Function.update params j (params j + h)) false = .ok w' →
        senOverlap w' sd = .ok (x + h * d) := by
  obtain ⟨f1, f2, f3, f4, f5, f6, f7, f8, f9, ref, g1, g2, g3⟩ := seniorityCC_facts hw
  have hcard : (occSet w.refwfn).card = nelec := by
    rcases ref with _ | m
    · rw [hci] at g3; simp at g3
    · rw [g2]; exact senRef_card g1
  rcases C41_ranks nelec r with ⟨ranks, r1, r2, r3, r4, -⟩ | ⟨r1, -⟩
  swap
  · rw [f5] at r1; simp at r1
  rw [f5, Except.ok.injEq] at r1
  subst r1
  obtain ⟨T, t1, t2⟩ := sen_terms w (senList nspin (senFrom nspin indices) fun i => decide (i ∈ occSet w.refwfn))
    (senList nspin (senTo nspin indices) fun i => decide (i ∉ occSet w.refwfn)) r2 (fun k hk => (r3 k hk).1) (senList_sorted _ _ _)
    (senList_sorted _ _ _) (fun i hi hi' => by
      rw [mem_senList hF, decide_eq_true_eq] at hi
      rw [mem_senList hT, decide_eq_true_eq] at hi'
      exact hi'.2 hi.2) (fun i hi => by
      rw [mem_senList hF] at hi
      have := hF i hi.1
      omega) (fun i hi => by
      rw [mem_senList hT] at hi
      have := hT i hi.1
      omega) (seniorityCC_ops hw hF hT) (by rw [f8]; rfl) sd (hsd.trans hcard.symm) hne
  refine ⟨(T.map fun t => (t.1 : R) * prodAmp w.params t.2).sum, (T.map fun t => (t.1 : R) * dProdAmp w.params t.2 j).sum, ?_, ?_, fun h w' hw' => ?_⟩
  · rw [senOverlap, hci, if_neg (by simp), if_neg hne, t1]
  · rw [senDOverlap, hci, if_neg (by simp), if_neg hne, t1]
  · have hww : w' = { w with params := Function.update params j (params j + h) } := by
      obtain ⟨-, -, -, -, f5', f6', f7', f8', f9', ref', g1', g2', g3'⟩ := seniorityCC_facts hw'
      rw [g1, Except.ok.injEq] at g1'
      subst g1'
      rw [f5, Except.ok.injEq] at f5'
      have e : w'.exops = w.exops := by
        rcases indices with _ | ⟨u, v⟩
        · rw [f6.1 rfl, f6'.1 rfl, f5']
        · rw [f6.2 u v rfl, f6'.2 u v rfl, f5']
      obtain ⟨⟨_, _, _, _, _⟩, _, _⟩ := w'
      obtain ⟨⟨_, _, _, _, _⟩, _, _⟩ := w
      simp only at *
      subst f5' g2' g2 e f7' f8 f8' f9 f9' g3 g3'
      rfl
    have hs : ∀ f, senSum w' f sd = senSum w f sd := by rw [hww]; intro f; rfl
    rw [senOverlap, show w'.ci = false by rw [hww]; exact hci, if_neg (by simp), if_neg (by rw [hww]; exact hne), hs, t1, ← List.sum_map_mul_left,
      ← List.sum_map_add]
    congr 2
    apply List.map_congr_left
    intro t ht
    have hp : w'.params = Function.update w.params j (w.params j + h) := by rw [hww, f7]
    rw [hp, prodAmp_shift _ _ (t2 t ht)]
    ring

/-- C90: what raises an error.  The derivative with respect to a parameter at the reference; the second derivative for every other
determinant; every overlap with a `CIWavefunction` as reference, or with `exop_combinations` given. -/
theorem C90_errors (nelec nspin : ℕ) (r : RankArg) (indices : Option (List ℕ × List ℕ)) (refArg : RefArg) (params : ℕ → R) (b : Bool)
    (w : SenWfn R) (hw : seniorityCC nelec nspin r indices refArg params b = .ok w) :
    ((∃ n s sen, refArg = .ci n s sen) → ∀ sd, senOverlap w sd = .error .attributeError) ∧
    ((¬ ∃ n s sen, refArg = .ci n s sen) → (∀ j, senDOverlap w w.refwfn j = .error .typeError) ∧
      (b = true → ∀ sd, sd ≠ w.refwfn → senOverlap w sd = .error .attributeError) ∧
      ∀ sd, (occSet sd).card = nelec → sd ≠ w.refwfn → ∀ i j, senDDOverlap w sd i j = .error .attributeError) := by
  obtain ⟨f1, f2, f3, f4, f5, f6, f7, f8, f9, ref, g1, g2, g3⟩ := seniorityCC_facts hw
  constructor
  · rintro ⟨n, s, sen, rfl⟩ sd
    have : w.ci = true := by
      rcases ref with _ | m
      · rw [g3]; rfl
      · simp only [senAssignRef] at g1
        split_ifs at g1
        all_goals simp at g1
    rw [senOverlap, this, if_pos rfl]
  · intro hnc
    obtain ⟨m, hm⟩ : ∃ m, ref = some m := by
      rcases ref with _ | m
      · exfalso
        cases refArg with
        | none =>
          simp only [senAssignRef] at g1
          rcases hg : ground nelec nspin with e | g
          · rw [hg] at g1; simp [bind, Except.bind] at g1
          · rw [hg] at g1; simp [bind, Except.bind, pure, Except.pure] at g1
        | int sd =>
          simp only [senAssignRef] at g1
          split_ifs at g1
          all_goals simp at g1
        | ci n s sen => exact hnc ⟨n, s, sen, rfl⟩
        | other => simp [senAssignRef] at g1
      · exact ⟨m, rfl⟩
    subst hm
    have hci : w.ci = false := by rw [g3]; rfl
    have hcard : (occSet w.refwfn).card = nelec := by rw [g2]; exact senRef_card g1
    refine ⟨fun j => ?_, ?_, fun sd hsd hne i j => ?_⟩
    · rw [senDOverlap, hci, if_neg (by simp), if_pos rfl]
    · rintro rfl sd hne
      rw [senOverlap, hci, if_neg (by simp), if_neg hne, senSum, f8]
      rfl
    · obtain ⟨s, s1, -⟩ := signExcite_diff ℤ sd w.refwfn
      rw [senDDOverlap, hci, if_neg (by simp), if_neg hne, s1]
      cases b with
      | true => rw [f8]; rfl
      | false =>
        rcases C41_ranks nelec r with ⟨ranks, r1, r2, r3, r4, -⟩ | ⟨r1, -⟩
        swap
        · rw [f5] at r1; simp at r1
        rw [f5, Except.ok.injEq] at r1
        subst r1
        obtain ⟨ha, hc, hd⟩ := sen_diff sd w.refwfn
        obtain ⟨Lm, L, l1, -⟩ := senExops_spec w.ranks w.exops _ _ (r2.imp fun h => by omega) (fun k hk => (r3 k hk).1) ha hc
          (diff_lengths (hsd.trans hcard.symm)) hd
        rw [f8, l1]
        rfl

/-- C90: the constructor succeeds exactly for positive even numbers of electrons and spin orbitals, with no more electrons than orbitals,
ranks that are accepted and a reference with the right number of electrons (and for a `CIWavefunction` orbitals, and seniority zero) -/
theorem C90_constructor (nelec nspin : ℕ) (r : RankArg) (indices : Option (List ℕ × List ℕ)) (refArg : RefArg) (params : ℕ → R) (b : Bool) :
    (∃ w, seniorityCC nelec nspin r indices refArg params b = .ok w) ↔
      0 < nelec ∧ Even nelec ∧ Even nspin ∧ nelec ≤ nspin ∧ (∃ ranks, assignRanks nelec r = .ok ranks) ∧
        match refArg with
        | .none => True
        | .int sd => (occSet sd).card = nelec
        | .ci n s sen => n = nelec ∧ s = nspin ∧ sen = some 0
        | .other => False := by
  have hground : (∃ g, ground nelec nspin = .ok g) ↔ ¬ (nelec > nspin ∨ nspin % 2 = 1 ∨ nelec = 0) := by
    rw [← C03_ground_error]
    rcases ground nelec nspin with e | g <;> simp
  have href : (∃ ref, senAssignRef nelec nspin refArg = .ok ref) ↔ match refArg with
        | .none => ∃ g, ground nelec nspin = .ok g
        | .int sd => (occSet sd).card = nelec
        | .ci n s sen => n = nelec ∧ s = nspin ∧ sen = some 0
        | .other => False := by
    cases refArg with
    | none =>
      simp only [senAssignRef]
      rcases ground nelec nspin with e | g <;> simp [bind, Except.bind, pure, Except.pure]
    | int sd =>
      simp only [senAssignRef]
      rw [← totalOcc_eq]
      split_ifs with h
      · simp [h]
      · simpa using h
    | ci n s sen =>
      simp only [senAssignRef]
      split_ifs with h1 h2 h3
      · simp [h1]
      · simp [h2]
      · simp [h3]
      · simp only [not_not] at h1 h2 h3
        simp [h1, h2, h3]
    | other => simp [senAssignRef]
  constructor
  · rintro ⟨w, hw⟩
    have hg : ∃ g, ground nelec nspin = .ok g := by
      unfold seniorityCC at hw
      by_cases h1 : nelec = 0 ∨ nelec % 2 ≠ 0
      · rw [if_pos h1] at hw; simp at hw
      rw [if_neg h1] at hw
      by_cases h2 : nspin = 0 ∨ nspin % 2 = 1
      · rw [if_pos h2] at hw; simp at hw
      rw [if_neg h2] at hw
      rcases hr : assignRanks nelec r with e | ranks
      · rw [hr] at hw; simp [bind, Except.bind] at hw
      rcases hg : ground nelec nspin with e | g
      · rw [hr, hg] at hw; simp [bind, Except.bind] at hw
      exact ⟨g, rfl⟩
    obtain ⟨f1, f2, f3, f4, f5, f6, f7, f8, f9, ref, g1, g2, g3⟩ := seniorityCC_facts hw
    have hg' := hground.1 hg
    refine ⟨by omega, Nat.even_iff.2 f2, Nat.even_iff.2 f4, by omega, ⟨_, f5⟩, ?_⟩
    have := href.1 ⟨ref, g1⟩
    cases refArg with
    | none => trivial
    | _ => exact this
  · rintro ⟨h1, h2, h3, h4, ⟨ranks, h5⟩, h6⟩
    rw [Nat.even_iff] at h2 h3
    obtain ⟨g, hg⟩ := hground.2 (by omega)
    obtain ⟨ref, hr⟩ := href.2 (by
      cases refArg with
      | none => exact ⟨g, hg⟩
      | _ => exact h6)
    rw [seniorityCC, if_neg (by omega), if_neg (by omega), h5, hg, hr]
    exact ⟨_, rfl⟩

/-! ## C91: `CCS` -/

/-- C91: the overlap with the reference is one, and every other overlap is an error; after the first call an `AttributeError`.
Missing from the claim: the overlap of `exp(T)` (`C91_exponential_false`). -/
theorem C91_overlap_partial (nelec nspin : ℕ) (refwfn : Option ℕ) (params : ℕ → R) (b : Bool) (w : Wfn R)
    (hw : ccs nelec nspin refwfn params b = .ok w) (sd : ℕ) :
    (∀ again, ccsOverlap w again w.refwfn = .ok 1) ∧ (sd ≠ w.refwfn → ccsOverlap w true sd = .error .attributeError ∧
      ∃ e, ccsOverlap w false sd = .error e) := by
  refine ⟨fun again => by rw [ccsOverlap, if_pos rfl], fun hne => ?_⟩
  obtain ⟨s, s1, -⟩ := signExcite_diff ℤ sd w.refwfn
  constructor
  · rw [ccsOverlap, if_neg hne, s1]
    simp [bind, Except.bind]
  · rw [ccsOverlap, if_neg hne, s1]
    simp only [bind, Except.bind]
    by_cases hm : w.memo = true
    · rw [hm]
      rcases ccsExops w.exops (diffOrbs sd w.refwfn).2 (diffOrbs sd w.refwfn).1 with e | l <;> simp
    · rw [Bool.not_eq_true] at hm
      rw [hm]
      simp

/-- C91: the list of products has every pair of orders of the orbitals, though orders that differ by the same permutation are the same
product -/
theorem C91_products (exops : List (List ℕ)) (a c : List ℕ) (l : List (List ℕ × ℤ)) (h : ccsExops exops a c = .ok l) :
    l.length = a.length.factorial * c.length.factorial := by
  unfold ccsExops at h
  rcases hl : (perms a).mapM (fun pa => (perms c).mapM fun pc => (do
    let ops := (List.zip pa pc).map fun p => [p.1, p.2]
    let s ← pathSign a c ops
    let inds ← ops.mapM fun op => if op ∈ exops then .ok (exops.idxOf op) else .error .valueError
    return (inds, s) : Except PyErr (List ℕ × ℤ))) with e | ll
  · rw [hl] at h; simp [bind, Except.bind] at h
  · rw [hl] at h
    simp only [bind, Except.bind, pure, Except.pure, Except.ok.injEq] at h
    subst h
    have len : ∀ {α β : Type} (f : α → Except PyErr β) (xs : List α) (ys : List β), xs.mapM f = .ok ys →
        ys.length = xs.length ∧ ∀ y ∈ ys, ∃ x ∈ xs, f x = .ok y := by
      intro α β f xs
      induction xs with
      | nil =>
        intro ys h
        rw [List.mapM_nil] at h
        simp only [pure, Except.pure, Except.ok.injEq] at h
        subst h; simp
      | cons x xs ih =>
        intro ys h
        rw [List.mapM_cons] at h
        rcases hx : f x with e | y
        · rw [hx] at h; simp [bind, Except.bind] at h
        rcases hxs : xs.mapM f with e | zs
        · rw [hx, hxs] at h; simp [bind, Except.bind] at h
        rw [hx, hxs] at h
        simp only [bind, Except.bind, pure, Except.pure, Except.ok.injEq] at h
        subst h
        obtain ⟨i1, i2⟩ := ih zs hxs
        refine ⟨by simp [i1], fun z hz => ?_⟩
        rcases List.mem_cons.1 hz with rfl | hz
        · exact ⟨x, by simp, hx⟩
        · obtain ⟨x', hx', e⟩ := i2 z hz
          exact ⟨x', by simp [hx'], e⟩
    obtain ⟨k1, k2⟩ := len _ _ _ hl
    rw [List.length_flatten, List.eq_replicate_of_mem (a := c.length.factorial) (l := ll.map List.length) (by
      intro n hn
      obtain ⟨y, hy, rfl⟩ := List.mem_map.1 hn
      obtain ⟨x, -, hx⟩ := k2 y hy
      rw [(len _ _ _ hx).1, perms, length_permsAux rfl]), List.sum_replicate, List.length_map, k1, perms, length_permsAux rfl, smul_eq_mul]

end

/-- C91: it is not so that the overlap is the coefficient in `Σ T^k / k!` applied to the reference, with the single excitations as `T` -/
theorem C91_exponential_false : ¬ ∀ (w : Wfn ℚ), ccs 2 4 none (fun _ => 1) false = .ok w → ∀ sd, (occSet sd).card = 2 →
    ∃ N again, ccsOverlap w again sd = .ok ((expSeries (clusterOp {1} (occSet 0b0101) (Finset.range 4 \ occSet 0b0101) (amplitude w)) N
      (ket (occSet 0b0101))) (occSet sd)) := by
  intro hall
  have hg : ground 2 4 = .ok 0b0101 := by decide +kernel
  have hw : ccs 2 4 none (fun _ => (1 : ℚ)) false = .ok ⟨[1], 0b0101, exopsStandard [1] 4 0b0101, fun _ => 1, true⟩ := by
    have hr : assignRanks 2 (.list [1]) = .ok [1] := by simp [assignRanks]
    simp only [ccs, standardCC, hg, hr, bind, Except.bind]
    rfl
  obtain ⟨N, again, h⟩ := hall _ hw 0b0110 (by decide +kernel)
  obtain ⟨-, h'⟩ := C91_overlap_partial 2 4 none (fun _ => (1 : ℚ)) false _ hw 0b0110
  obtain ⟨e1, e, e2⟩ := h' (by decide)
  cases again
  · rw [e2] at h; simp at h
  · rw [e1] at h; simp at h

/-! ## concrete cases -/

/-- two electrons in four orbitals: the double excitation of the pair counts, the product of the two single excitations does not -/
theorem sen_witness (t : ℕ → ℚ) : ∃ w : SenWfn ℚ, seniorityCC 2 4 (.int 2) none .none t false = .ok w ∧ w.ci = false ∧ w.refwfn = 0b0101 ∧
    (∀ i ∈ senFrom 4 none, i < 4) ∧ (∀ i ∈ senTo 4 none, i < 4) ∧ (occSet 0b1010).card = 2 ∧ (occSet 0b0110).card = 2 ∧
    senOverlap w 0b1010 = .ok (-t 13) ∧ senOverlap w 0b0110 = .ok (t 0) ∧ senDOverlap w 0b1010 13 = .ok (-1) ∧
    senDOverlap w 0b1010 0 = .ok 0 := by
  have hg : ground 2 4 = .ok 0b0101 := by decide +kernel
  have hd : diffOrbs 0b1010 0b0101 = ([1, 3], [0, 2]) := by decide +kernel
  have hd' : diffOrbs 0b0110 0b0101 = ([1], [0]) := by decide +kernel
  have h0 : intPartition [1, 2] 2 2 = some [[2], [1, 1]] := by
    unfold intPartition; simp; unfold intPartition; simp; unfold intPartition; simp; unfold intPartition; simp
  have h1 : intPartition [1, 2] 2 1 = some [[1]] := by
    unfold intPartition; simp; unfold intPartition; simp; unfold intPartition; simp
  have hp : senExops [1, 2] (exopsAll [1, 2] 4) [0, 2] [1, 3] = .ok [[[0, 1], [2, 3]], [[0, 3], [2, 1]], [[0, 2, 1, 3]]] := by
    simp only [senExops, List.length_cons, List.length_nil, zero_add, Nat.reduceAdd, h0, ofOption, bind, Except.bind]
    decide +kernel
  have hp' : senExops [1, 2] (exopsAll [1, 2] 4) [0] [1] = .ok [[[0, 1]]] := by
    simp only [senExops, List.length_cons, List.length_nil, zero_add, Nat.reduceAdd, h1, ofOption, bind, Except.bind]
    decide +kernel
  have s1 : senSign 2 (some 5) 1 [[0, 1], [2, 3]] = .ok none := by decide +kernel
  have s2 : senSign 2 (some 5) 1 [[0, 3], [2, 1]] = .ok none := by decide +kernel
  have s3 : senSign 2 (some 5) 1 [[0, 2, 1, 3]] = .ok (some (-1)) := by decide +kernel
  have s4 : senSign 2 (some 5) 1 [[0, 1]] = .ok (some 1) := by decide +kernel
  have i1 : (exopsAll [1, 2] 4).idxOf [0, 2, 1, 3] = 13 := by decide +kernel
  have i2 : (exopsAll [1, 2] 4).idxOf [0, 1] = 0 := by decide +kernel
  refine ⟨⟨⟨[1, 2], 0b0101, exopsAll [1, 2] 4, t, true⟩, 2, false⟩, ?_, rfl, rfl, by simp [senFrom], by simp [senTo], by decide +kernel,
    by decide +kernel, ?_, ?_, ?_, ?_⟩
  · rw [seniorityCC, if_neg (by decide), if_neg (by decide)]
    simp only [senAssignRef, hg, bind, Except.bind]
    rfl
  · simp [senOverlap, senSum, hd, hp, s1, s2, s3, i1, bind, Except.bind, pure, Except.pure, prodAmp]
  · simp [senOverlap, senSum, hd', hp', s4, i2, bind, Except.bind, pure, Except.pure, prodAmp]
  · simp [senDOverlap, senSum, hd, hp, s1, s2, s3, i1, bind, Except.bind, pure, Except.pure, dProdAmp]
  · simp [senDOverlap, senSum, hd, hp, s1, s2, s3, i1, bind, Except.bind, pure, Except.pure, dProdAmp]

end Fanpy.Props
