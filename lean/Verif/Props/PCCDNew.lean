import Verif.Lemmas.PCCDNew
import Verif.Props.PCCD

/-! # Property C89: the option `s_type` of the pair coupled cluster wavefunctions, and their dictionary of products -/

namespace Fanpy.Props
open Fanpy.Spec Fanpy.Slater Fanpy.Graphs Fanpy.It Fanpy.CC Fanpy.Lemmas
open Fanpy.PCCD (Kind partner pairAmplitude SType PMemo PCall Rule)

/-! ## The reference -/

/-- C89. A determinant is accepted as the reference of a class with `s_type` exactly if it occupies all the orbitals: every pair reference
with an empty orbital is rejected. -/
theorem C89_reference {nelec nspin m : ℕ} (hev : nspin % 2 = 0) (hpos : 0 < nelec) (hlt : m < 2 ^ nspin) :
    (PCCD.assignRefNew nelec nspin m = .ok m ↔ nelec = nspin ∧ occSet m = Finset.range nspin) ∧
    (¬ (nelec = nspin ∧ occSet m = Finset.range nspin) → PCCD.assignRefNew nelec nspin m = .error .valueError) := by
  have hb : ∀ i ∈ occIndices (some m), i < nspin := by
    intro i hi
    rw [mem_occIndices] at hi
    by_contra hc
    rw [Nat.testBit_lt_two_pow (lt_of_lt_of_le hlt (Nat.pow_le_pow_right (by norm_num) (not_lt.1 hc)))] at hi
    cases hi
  have hmem : ∀ i, i ∈ occIndices (some m) ↔ i ∈ occSet m := fun i => by rw [mem_occIndices, mem_occSet]
  have hnd : (occIndices (some m)).Nodup := (sorted_occIndices m).imp fun h => by omega
  have hfin : (occIndices (some m)).toFinset = occSet m := by ext i; rw [List.mem_toFinset, hmem]
  have hlen : (occIndices (some m)).length = (occSet m).card := by rw [← hfin, List.toFinset_card_of_nodup hnd]
  have key : ¬ (nelec = nspin ∧ occSet m = Finset.range nspin) → PCCD.assignRefNew nelec nspin m = .error .valueError := by
    intro hne
    unfold PCCD.assignRefNew
    by_cases c1 : totalOcc (some m) ≠ nelec
    · rw [if_pos c1]
    rw [if_neg c1, if_pos]
    rw [not_not, totalOcc_eq] at c1
    rintro ⟨h1, -⟩
    -- the first orbitals are all smaller than the number of spatial orbitals
    have hsm : ∀ i ∈ (occIndices (some m)).take (nspin / 2), i < nspin / 2 := by
      intro i hi
      have := hb _ (h1 i hi)
      omega
    by_cases hc : nelec ≤ nspin / 2
    · -- all the orbitals have a partner above them
      have htake : (occIndices (some m)).take (nspin / 2) = occIndices (some m) := List.take_of_length_le (by omega)
      rw [htake] at h1 hsm
      have hne' : occIndices (some m) ≠ [] := by
        intro e
        rw [e, List.length_nil] at hlen
        omega
      obtain ⟨i, r, hi⟩ := List.exists_cons_of_ne_nil hne'
      have hi' : i ∈ occIndices (some m) := by rw [hi]; simp
      have := hsm _ (h1 i hi')
      omega
    · have hl : ((occIndices (some m)).take (nspin / 2)).length = nspin / 2 := by rw [List.length_take]; omega
      have hT : ((occIndices (some m)).take (nspin / 2)).toFinset = Finset.range (nspin / 2) := by
        apply Finset.eq_of_subset_of_card_le
        · intro i hi
          rw [Finset.mem_range]
          exact hsm i (List.mem_toFinset.1 hi)
        · rw [Finset.card_range, List.toFinset_card_of_nodup (hnd.sublist (List.take_sublist _ _)), hl]
      have hall : Finset.range nspin ⊆ occSet m := by
        intro i hi
        rw [Finset.mem_range] at hi
        have low : ∀ j < nspin / 2, j ∈ (occIndices (some m)).take (nspin / 2) := by
          intro j hj
          rw [← List.mem_toFinset, hT, Finset.mem_range]; exact hj
        by_cases hi2 : i < nspin / 2
        · exact (hmem i).1 (List.mem_of_mem_take (low i hi2))
        · have := h1 (i - nspin / 2) (low _ (by omega))
          rw [show i - nspin / 2 + nspin / 2 = i by omega] at this
          exact (hmem i).1 this
      have hsub : occSet m ⊆ Finset.range nspin := fun i hi => Finset.mem_range.2 (hb i ((hmem i).2 hi))
      have heq := Finset.Subset.antisymm hsub hall
      apply hne
      refine ⟨?_, heq⟩
      rw [heq, Finset.card_range] at c1
      omega
  refine ⟨⟨fun h => ?_, ?_⟩, key⟩
  · by_contra hn
    rw [key hn] at h
    cases h
  · rintro ⟨rfl, heq⟩
    unfold PCCD.assignRefNew
    have hocc : occIndices (some m) = List.range nelec := by
      refine List.Perm.eq_of_pairwise (le := (· < ·)) (fun a b _ _ h1 h2 => by omega) (sorted_occIndices m) List.pairwise_lt_range ?_
      refine (List.perm_ext_iff_of_nodup hnd List.nodup_range).2 fun i => ?_
      rw [hmem, heq, Finset.mem_range, List.mem_range]
    rw [if_neg (by rw [totalOcc_eq, heq, Finset.card_range]; simp), if_neg]
    rw [not_not, hocc]
    constructor
    · intro i hi
      rw [List.take_range, List.mem_range] at hi
      rw [List.mem_range]; omega
    · intro i hi
      rw [List.range_eq_range', List.drop_range', List.mem_range'_1] at hi
      rw [List.mem_range]; omega

/-- C89. The constructor of a class with `s_type`: without a reference it gives what the class without `s_type` gives, and with a
reference that has an empty orbital it fails. -/
theorem C89_constructor {R : Type} (k : Kind) (hk : k.isSen0 = false) (nelec nspin : ℕ) (rg : Bool) (indices : Option (List ℤ × List ℤ))
    (params : ℕ → R) (b : Bool) :
    PCCD.initNew k nelec nspin rg indices none params b = PCCD.init k nelec nspin rg indices none params b ∧
    ∀ m < 2 ^ nspin, (∃ i < nspin, m.testBit i = false) → ∃ e, PCCD.initNew k nelec nspin rg indices (some m) params b = .error e ∧
      ∀ w, PCCD.initNew k nelec nspin rg indices none params b = .ok w → e = .valueError := by
  constructor
  · unfold PCCD.initNew PCCD.init
    rw [hk]
    rfl
  · intro m hm ⟨i, hi, hbit⟩
    unfold PCCD.initNew
    rw [CI.checkNelec, CI.checkNspin]
    by_cases h1 : nelec = 0
    · simp [h1, bind, Except.bind]
    by_cases h2 : nelec % 2 ≠ 0
    · simp [h1, h2, bind, Except.bind]
    by_cases h3 : nspin = 0 ∨ nspin % 2 = 1
    · simp [h1, h2, h3, bind, Except.bind]
    have h2' : ¬ nelec % 2 = 1 := by omega
    rw [if_neg h1, if_neg h2, if_neg h3]
    rcases hr : PCCD.assignRanks k nelec with e | ranks
    · exact ⟨e, by simp [bind, Except.bind], by intro w hw; simp [bind, Except.bind, h2'] at hw⟩
    rcases hg : ground nelec nspin with e | g
    · exact ⟨e, by simp [bind, Except.bind], by intro w hw; simp [bind, Except.bind, h2'] at hw⟩
    cases rg with
    | true => exact ⟨PCCD.ranksError k, by simp [bind, Except.bind], by intro w hw; simp [bind, Except.bind, h2'] at hw⟩
    | false =>
      rcases he : PCCD.assignExops k nspin g ranks indices with e | exops
      · exact ⟨e, by simp [bind, Except.bind, he], by intro w hw; simp [bind, Except.bind, he, h2'] at hw⟩
      have := (C89_reference (nelec := nelec) (by omega) (by omega) hm).2 (by
        rintro ⟨-, h⟩
        have hi' : i ∈ occSet m := by rw [h, Finset.mem_range]; exact hi
        rw [mem_occSet, hbit] at hi'
        cases hi')
      exact ⟨.valueError, by simp [bind, Except.bind, he, this], fun _ _ => rfl⟩

/-! ## The dictionary -/

/-- what the theorems need of a wavefunction -/
structure PairWfn {R : Type} (nelec : ℕ) (w : PCCD.Wfn R) : Prop where
  ops : w.indExops = w.base.exops
  memo : w.base.memo = true
  rankN : w.base.ranks.Nodup
  rankP : ∀ r ∈ w.base.ranks, 0 < r
  pos : 0 < w.nspatial
  lt : w.base.refwfn < 2 ^ (2 * w.nspatial)
  card : (occSet w.base.refwfn).card = nelec
  closed : ∀ i ∈ occIndices (some w.base.refwfn), partner w.nspatial i ∈ occIndices (some w.base.refwfn)

theorem pairWfn_init {R : Type} {k : Kind} {nelec nspin : ℕ} {indices : Option (List ℤ × List ℤ)} {refwfn : Option ℕ} {params : ℕ → R}
    {w : PCCD.Wfn R} (hw : PCCD.init k nelec nspin false indices refwfn params false = .ok w) (h0 : k.isSen0 = true → refwfn = none)
    (hlt : w.base.refwfn < 2 ^ nspin) : PairWfn nelec w := by
  obtain ⟨-, e1, e2, e3, e4, e5, e6, e7, e8, g, hg, e9, e10, e11, e12⟩ := pccd_init_ok hw
  obtain ⟨hcard, hcl⟩ := pccd_reference hw hlt
  have hi : w.indExops = w.base.exops := by
    rcases hs : k.isSen0 with - | -
    · exact (e11 hs).2
    · obtain ⟨f1, f2⟩ := e12 hs
      rw [h0 hs] at e9
      rw [e9, Option.getD_none] at f1
      rw [f2]
      cases indices with
      | none => rw [PCCD.assignExops] at f1; injection f1
      | some xy => cases k <;> simp [PCCD.assignExops, PCCD.Kind.isSen0] at f1 hs
  obtain ⟨hr, hpos⟩ := pccd_ranks e8
  refine ⟨hi, by rw [e7]; rfl, hr, hpos, by rw [e5]; exact (ground_ok_facts hg).1, ?_, hcard, by rw [e5]; exact hcl⟩
  rw [e5]; refine lt_of_lt_of_eq hlt ?_; congr 1; omega

section
variable {R : Type} [CommRing R]

/-- the products for a determinant and the ones that are kept -/
theorem pair_products {nelec : ℕ} {w : PCCD.Wfn R} (hw : PairWfn nelec w) {sd : ℕ} (hsd : (occSet sd).card = nelec)
    {paths : List (List ℕ × ℤ)}
    (hp : possibleExops w.base.ranks w.base.exops (diffOrbs sd w.base.refwfn).2 (diffOrbs sd w.base.refwfn).1 = .ok paths) :
    PCCD.selectRows w (occIndices (some sd)) paths = PCCD.selectRows w (occIndices (some w.base.refwfn)) paths ∧
    PCCD.selectRows w (occIndices (some sd)) (PCCD.selectRows w (occIndices (some w.base.refwfn)) paths) =
      PCCD.selectRows w (occIndices (some w.base.refwfn)) paths ∧
    PCCD.selectRows w (occIndices (some w.base.refwfn)) (PCCD.selectRows w (occIndices (some w.base.refwfn)) paths) =
      PCCD.selectRows w (occIndices (some w.base.refwfn)) paths := by
  have hsd' : (occSet sd).card = (occSet w.base.refwfn).card := hsd.trans hw.card.symm
  obtain ⟨L, l1, l2, l3⟩ := possibleExops_spec w.base.ranks w.base.exops (diffOrbs sd w.base.refwfn).2 (diffOrbs sd w.base.refwfn).1
    hw.rankN hw.rankP (sorted_occIndices _) (sorted_occIndices _) (diff_lengths hsd')
  rw [l1] at hp
  injection hp with hp
  subst hp
  have hagree : ∀ p ∈ L.map (out w.base.exops), PCCD.keepRow w.nspatial (occIndices (some sd)) (p.1.map fun i => w.indExops.getD i []) =
      PCCD.keepRow w.nspatial (occIndices (some w.base.refwfn)) (p.1.map fun i => w.indExops.getD i []) := by
    intro p hp
    obtain ⟨S, hS, rfl⟩ := List.mem_map.1 hp
    have e : ((out w.base.exops S).1.map fun i => w.indExops.getD i []) = S.map fun q => q.1 ++ q.2 := by
      rw [out, List.map_map]
      apply List.map_congr_left
      intro q hq
      rw [Function.comp_apply, hw.ops, List.getD_eq_getElem _ _ (List.idxOf_lt_length_of_mem (((l3 S).1 hS).mem q hq))]
      exact List.getElem_idxOf _
    have key := PCCD.keepRow_iff w hw.rankP hw.pos (n := w.nspatial) hw.lt hw.closed sd ((l3 S).1 hS)
    rw [e, Bool.eq_iff_iff, key.1, key.2]
  refine ⟨List.filter_congr hagree, ?_, ?_⟩
  · unfold PCCD.selectRows
    rw [List.filter_filter]
    apply List.filter_congr
    intro p hp
    rw [hagree p hp, Bool.and_self]
  · unfold PCCD.selectRows
    rw [List.filter_filter]
    apply List.filter_congr
    intro p hp
    rw [Bool.and_self]

/-- what is stored was generated for its key, and maybe selected -/
def PDictOk (nelec : ℕ) (s : PMemo R) : Prop :=
  ∀ e ∈ s.dict, ∃ sd paths, (occSet sd).card = nelec ∧ e.1 = (diffOrbs sd s.w.base.refwfn).2 ++ (diffOrbs sd s.w.base.refwfn).1 ∧
    possibleExops s.w.base.ranks s.w.base.exops (diffOrbs sd s.w.base.refwfn).2 (diffOrbs sd s.w.base.refwfn).1 = .ok paths ∧
    (e.2 = paths ∨ e.2 = PCCD.selectRows s.w (occIndices (some s.w.base.refwfn)) paths)

theorem dict_mem {α β : Type} [BEq α] [LawfulBEq α] {l : List (α × β)} {k : α} {v : β} (h : l.lookup k = some v) : (k, v) ∈ l := by
  induction l with
  | nil => cases h
  | cons a r ih =>
    obtain ⟨a, b⟩ := a
    rw [List.lookup_cons] at h
    by_cases hk : k == a
    · rw [hk] at h
      have := eq_of_beq hk
      subst this
      simp at h
      simp [h]
    · have : (k == a) = false := by simpa using hk
      rw [this] at h
      exact List.mem_cons_of_mem _ (ih h)

theorem pmemo_evaluate {nelec : ℕ} {s : PMemo R} (hw : PairWfn nelec s.w) (hs : PDictOk nelec s) {sd : ℕ} (hsd : (occSet sd).card = nelec)
    (x : R) (sel : List (List ℕ × ℤ) → List (List ℕ × ℤ)) (f : List (List ℕ × ℤ) → R)
    (hsel : sel = PCCD.selectRows s.w (occIndices (some sd)) ∨ sel = PCCD.selectRows s.w (occIndices (some s.w.base.refwfn))) :
    (PCCD.evaluate s sd x sel f).2 = (if sd = s.w.base.refwfn then .ok x else do
      let e ← expansion s.w.base sd
      return (e.1 : R) * f (PCCD.selectRows s.w (occIndices (some s.w.base.refwfn)) e.2)) ∧
    (PCCD.evaluate s sd x sel f).1.w = s.w ∧ PDictOk nelec (PCCD.evaluate s sd x sel f).1 := by
  unfold PCCD.evaluate
  split_ifs with h
  · exact ⟨rfl, rfl, hs⟩
  cases hg : signExcite (some s.w.base.refwfn) (diffOrbs sd s.w.base.refwfn).2 (diffOrbs sd s.w.base.refwfn).1 with
  | error e => exact ⟨by simp [expansion, hg, bind, Except.bind], rfl, hs⟩
  | ok sign =>
    have hS : ∀ {paths}, possibleExops s.w.base.ranks s.w.base.exops (diffOrbs sd s.w.base.refwfn).2 (diffOrbs sd s.w.base.refwfn).1 = .ok paths →
        sel paths = PCCD.selectRows s.w (occIndices (some s.w.base.refwfn)) paths ∧
        sel (PCCD.selectRows s.w (occIndices (some s.w.base.refwfn)) paths) = PCCD.selectRows s.w (occIndices (some s.w.base.refwfn)) paths := by
      intro paths hp
      obtain ⟨p1, p2, p3⟩ := pair_products hw hsd hp
      rcases hsel with rfl | rfl
      · exact ⟨p1, p2⟩
      · exact ⟨rfl, p3⟩
    have hm : (!s.w.base.memo) = false := by rw [hw.memo]; rfl
    have hex : ∀ paths, possibleExops s.w.base.ranks s.w.base.exops (diffOrbs sd s.w.base.refwfn).2 (diffOrbs sd s.w.base.refwfn).1 = .ok paths →
        expansion s.w.base sd = .ok (sign, paths) := by
      intro paths hp
      simp [expansion, hg, hm, hp, bind, Except.bind, pure, Except.pure]
    -- storing keeps the invariant
    have hst : ∀ (d : List (List ℕ × List (List ℕ × ℤ))) paths,
        possibleExops s.w.base.ranks s.w.base.exops (diffOrbs sd s.w.base.refwfn).2 (diffOrbs sd s.w.base.refwfn).1 = .ok paths →
        PDictOk nelec ⟨s.w, d, s.refresh⟩ →
        PDictOk nelec ⟨s.w, PCCD.store d ((diffOrbs sd s.w.base.refwfn).2 ++ (diffOrbs sd s.w.base.refwfn).1)
          (PCCD.selectRows s.w (occIndices (some s.w.base.refwfn)) paths), s.refresh⟩ := by
      intro d paths hp hd e he
      simp only [PCCD.store, List.mem_map] at he
      obtain ⟨e', he', rfl⟩ := he
      split_ifs with hk
      · exact ⟨sd, paths, hsd, hk, hp, Or.inr rfl⟩
      · exact hd e' he'
    simp only [lookupPaths, hm, Bool.false_eq_true, if_false]
    cases hl : s.dict.lookup ((diffOrbs sd s.w.base.refwfn).2 ++ (diffOrbs sd s.w.base.refwfn).1) with
    | some rows =>
      obtain ⟨sd', paths, hsd', hkey, hp, hrow⟩ := hs _ (dict_mem hl)
      simp only at hkey hrow
      have l1 := diff_lengths (hsd.trans hw.card.symm)
      have l2 := diff_lengths (hsd'.trans hw.card.symm)
      have hlen := congrArg List.length hkey
      rw [List.length_append, List.length_append] at hlen
      obtain ⟨k1, k2⟩ := List.append_inj hkey (by omega)
      rw [← k1, ← k2] at hp
      have hsr : sel rows = PCCD.selectRows s.w (occIndices (some s.w.base.refwfn)) paths := by
        rcases hrow with rfl | rfl
        · exact (hS hp).1
        · exact (hS hp).2
      refine ⟨?_, rfl, ?_⟩
      · simp [hsr, hex paths hp, bind, Except.bind, pure, Except.pure]
      · simp only [hsr]
        exact hst _ paths hp hs
    | none =>
      have hsub : PDictOk nelec ⟨s.w, if s.refresh ≠ 0 ∧ (s.dict.length : ℤ) > s.refresh then [] else s.dict, s.refresh⟩ := by
        intro e he
        refine hs e ?_
        simp only at he
        split_ifs at he
        · simp at he
        · exact he
      cases hp : possibleExops s.w.base.ranks s.w.base.exops (diffOrbs sd s.w.base.refwfn).2 (diffOrbs sd s.w.base.refwfn).1 with
      | error e =>
        refine ⟨?_, rfl, hsub⟩
        simp [expansion, hg, hm, hp, bind, Except.bind]
      | ok paths =>
        refine ⟨?_, rfl, ?_⟩
        · simp [(hS hp).1, hex paths hp, bind, Except.bind, pure, Except.pure]
        · simp only [(hS hp).1]
          refine hst _ paths hp ?_
          intro e he
          rcases List.mem_cons.1 he with rfl | he
          · exact ⟨sd, paths, hsd, rfl, hp, Or.inl rfl⟩
          · exact hsub e he

/-- the wavefunction with other parameters -/
def withParams (w : PCCD.Wfn R) (p : ℕ → R) : PCCD.Wfn R := { w with base := { w.base with params := p } }

/-- the values of a sequence of calls without a dictionary -/
def pplains (w : PCCD.Wfn R) : List (PCall R) → List (Except PyErr R)
  | [] => []
  | .overlap sd :: cs => PCCD.overlap w sd :: pplains w cs
  | .derivative sd j :: cs => PCCD.dOverlap w sd j :: pplains w cs
  | .second sd a b :: cs => PCCD.ddOverlapS .senO w sd a b :: pplains w cs
  | .assignParams p :: cs => .ok 0 :: pplains (withParams w p) cs

/-- the determinant that a call is about -/
def PCall.det : PCall R → Option ℕ
  | .overlap sd => some sd
  | .derivative sd _ => some sd
  | .second sd _ _ => some sd
  | .assignParams _ => none

theorem overlap_plain {nelec : ℕ} {w : PCCD.Wfn R} (hw : PairWfn nelec w) {sd : ℕ} (hsd : (occSet sd).card = nelec) :
    PCCD.overlap w sd = (if sd = w.base.refwfn then .ok 1 else do
      let e ← expansion w.base sd
      return (e.1 : R) * amplitudes w.base.params (PCCD.selectRows w (occIndices (some w.base.refwfn)) e.2)) := by
  rw [PCCD.overlap]
  split_ifs with h
  · rfl
  have hsd' : (occSet sd).card = (occSet w.base.refwfn).card := hsd.trans hw.card.symm
  obtain ⟨L, l1, -, -⟩ := possibleExops_spec w.base.ranks w.base.exops (diffOrbs sd w.base.refwfn).2 (diffOrbs sd w.base.refwfn).1
    hw.rankN hw.rankP (sorted_occIndices _) (sorted_occIndices _) (diff_lengths hsd')
  have hsel := (pair_products hw hsd l1).1
  have hm : (!w.base.memo) = false := by rw [hw.memo]; rfl
  cases hg : signExcite (some w.base.refwfn) (diffOrbs sd w.base.refwfn).2 (diffOrbs sd w.base.refwfn).1 with
  | error e => simp [expansion, hg, bind, Except.bind]
  | ok sign => simp [expansion, hg, hm, l1, hsel, bind, Except.bind, pure, Except.pure]

theorem second_plain {nelec : ℕ} {w : PCCD.Wfn R} (hw : PairWfn nelec w) {sd : ℕ} (hsd : (occSet sd).card = nelec) (t : SType) (a b : ℕ) :
    PCCD.ddOverlapS t w sd a b = (if sd = w.base.refwfn then .ok 0 else do
      let e ← expansion w.base sd
      return (e.1 : R) * ddAmplitudes w.base.params (PCCD.selectRows w (occIndices (some w.base.refwfn)) e.2) a b) :=
  (pmemo_evaluate (s := ⟨w, [], 0⟩) hw (by intro e he; simp at he) hsd 0 _ (fun paths => ddAmplitudes w.base.params paths a b) (Or.inl rfl)).1

theorem derivative_plain {nelec : ℕ} {w : PCCD.Wfn R} (hw : PairWfn nelec w) {sd : ℕ} (hsd : (occSet sd).card = nelec) (t : SType) (j : ℕ) :
    PCCD.dOverlapS t w sd j = PCCD.dOverlap w sd j :=
  (pmemo_evaluate (s := ⟨w, [], 0⟩) hw (by intro e he; simp at he) hsd 0 _ (fun paths => dAmplitudes w.base.params paths j) (Or.inl rfl)).1

/-- both kinds of classes -/
theorem pcalls_plain {nelec : ℕ} (step : PMemo R → PCall R → PMemo R × Except PyErr R) :
    ∀ (cs : List (PCall R)) (s : PMemo R), PairWfn nelec s.w → PDictOk nelec s →
      (∀ c ∈ cs, ∀ sd, PCall.det c = some sd → (occSet sd).card = nelec) →
      ((step = PCCD.call ∧ ∀ c ∈ cs, ∀ sd a b, c ≠ .second sd a b) ∨ step = PCCD.callNew .senO) → PCCD.calls step s cs = pplains s.w cs := by
  intro cs
  induction cs with
  | nil => intros; rfl
  | cons c cs ih =>
    intro s hw hs hd hc
    have hd' := fun c' h => hd c' (List.mem_cons_of_mem _ h)
    have hc' : (step = PCCD.call ∧ ∀ c ∈ cs, ∀ sd a b, c ≠ .second sd a b) ∨ step = PCCD.callNew .senO :=
      hc.imp (fun h => ⟨h.1, fun c' h' => h.2 c' (List.mem_cons_of_mem _ h')⟩) id
    rw [PCCD.calls]
    cases c with
    | overlap sd =>
      have hsd := hd _ List.mem_cons_self sd rfl
      have key : (step s (.overlap sd)).2 = PCCD.overlap s.w sd ∧ (step s (.overlap sd)).1.w = s.w ∧ PDictOk nelec (step s (.overlap sd)).1 := by
        rw [overlap_plain hw hsd]
        rcases hc with ⟨rfl, -⟩ | rfl
        · exact pmemo_evaluate hw hs hsd 1 _ _ (Or.inl rfl)
        · exact pmemo_evaluate hw hs hsd 1 _ _ (Or.inr rfl)
      rw [key.1, ih _ (by rw [key.2.1]; exact hw) key.2.2 hd' hc', key.2.1]
      rfl
    | derivative sd j =>
      have hsd := hd _ List.mem_cons_self sd rfl
      have key : (step s (.derivative sd j)).2 = PCCD.dOverlap s.w sd j ∧ (step s (.derivative sd j)).1.w = s.w ∧
          PDictOk nelec (step s (.derivative sd j)).1 := by
        rcases hc with ⟨rfl, -⟩ | rfl
        · exact pmemo_evaluate hw hs hsd 0 _ (fun paths => dAmplitudes s.w.base.params paths j) (Or.inr rfl)
        · exact pmemo_evaluate hw hs hsd 0 _ (fun paths => dAmplitudes s.w.base.params paths j) (Or.inl rfl)
      rw [key.1, ih _ (by rw [key.2.1]; exact hw) key.2.2 hd' hc', key.2.1]
      rfl
    | second sd a b =>
      have hsd := hd _ List.mem_cons_self sd rfl
      have key : (step s (.second sd a b)).2 = PCCD.ddOverlapS .senO s.w sd a b ∧ (step s (.second sd a b)).1.w = s.w ∧
          PDictOk nelec (step s (.second sd a b)).1 := by
        rw [second_plain hw hsd]
        rcases hc with ⟨-, hc⟩ | rfl
        · exact absurd rfl (hc _ List.mem_cons_self sd a b)
        · exact pmemo_evaluate hw hs hsd 0 _ (fun paths => ddAmplitudes s.w.base.params paths a b) (Or.inl rfl)
      rw [key.1, ih _ (by rw [key.2.1]; exact hw) key.2.2 hd' hc', key.2.1]
      rfl
    | assignParams p =>
      have key : (step s (.assignParams p)) = (⟨withParams s.w p, s.dict, s.refresh⟩, .ok 0) := by
        rcases hc with ⟨rfl, -⟩ | rfl <;> rfl
      rw [key, ih _ ?_ ?_ hd' hc']
      · rfl
      · exact ⟨hw.ops, hw.memo, hw.rankN, hw.rankP, hw.pos, hw.lt, hw.card, hw.closed⟩
      · exact hs

/-- C65 with the dictionary: whatever overlaps and derivatives were computed before, and whichever parameters were assigned, the values are
those with an empty dictionary, although the products that are kept overwrite the ones that were generated.  Missing: second derivatives
(`C89_second_order`), references with orbitals outside the basis, classes with stale operators (`C65_stale_operators`). -/
theorem C65_memory_partial (k : Kind) (nelec nspin : ℕ) (indices : Option (List ℤ × List ℤ)) (refwfn : Option ℕ) (params : ℕ → R)
    (w : PCCD.Wfn R) (hw : PCCD.init k nelec nspin false indices refwfn params false = .ok w) (h0 : k.isSen0 = true → refwfn = none)
    (hlt : w.base.refwfn < 2 ^ nspin) (refresh : ℤ) (cs : List (PCall R))
    (hd : ∀ c ∈ cs, ∀ sd, PCall.det c = some sd → (occSet sd).card = nelec) (hc : ∀ c ∈ cs, ∀ sd a b, c ≠ .second sd a b) :
    PCCD.calls PCCD.call ⟨w, [], refresh⟩ cs = pplains w cs :=
  pcalls_plain PCCD.call cs ⟨w, [], refresh⟩ (pairWfn_init hw h0 hlt) (by intro e he; simp at he) hd (Or.inl ⟨rfl, hc⟩)

theorem pairWfn_new {k : Kind} (hk : k.isSen0 = false) {nelec nspin : ℕ} {indices : Option (List ℤ × List ℤ)} {params : ℕ → R}
    {w : PCCD.Wfn R} (hw : PCCD.initNew k nelec nspin false indices none params false = .ok w) : PairWfn nelec w := by
  rw [(C89_constructor k hk nelec nspin false indices params false).1] at hw
  obtain ⟨-, e1, e2, e3, e4, e5, e6, e7, e8, g, hg, e9, -⟩ := pccd_init_ok hw
  refine pairWfn_init hw (fun _ => rfl) ?_
  rw [e9, Option.getD_none]
  exact (ground_ok_facts hg).2.1

/-- C89. With the default `s_type`, `"sen-o"`, all the overlaps and derivatives are those of the classes without `s_type`, in whichever
order they are computed; the second derivatives are those with an empty dictionary. -/
theorem C89_sen_o (k : Kind) (hk : k.isSen0 = false) (nelec nspin : ℕ) (indices : Option (List ℤ × List ℤ)) (params : ℕ → R)
    (w : PCCD.Wfn R) (hw : PCCD.initNew k nelec nspin false indices none params false = .ok w) (refresh : ℤ) (cs : List (PCall R))
    (hd : ∀ c ∈ cs, ∀ sd, PCall.det c = some sd → (occSet sd).card = nelec) :
    PCCD.calls (PCCD.callNew .senO) ⟨w, [], refresh⟩ cs = pplains w cs :=
  pcalls_plain (PCCD.callNew .senO) cs ⟨w, [], refresh⟩ (pairWfn_new hk hw) (by intro e he; simp at he) hd (Or.inr rfl)

/-- C89. The derivatives of the classes with `s_type` do not depend on it.  For `"sen-o"` the first derivative is the rate at which the
overlap changes with a parameter, and the second derivative is the rate at which the first changes. -/
theorem C89_derivatives_partial [Nontrivial R] (k : Kind) (hk : k.isSen0 = false) (nelec nspin : ℕ) (indices : Option (List ℤ × List ℤ))
    (params : ℕ → R) (w : PCCD.Wfn R) (hw : PCCD.initNew k nelec nspin false indices none params false = .ok w) (sd : ℕ)
    (hsd : (occSet sd).card = nelec) (i j : ℕ) :
    ∃ x d dd, PCCD.overlapS .senO w sd = .ok x ∧ (∀ t, PCCD.dOverlapS t w sd i = .ok d) ∧ (∀ t, PCCD.ddOverlapS t w sd i j = .ok dd) ∧
      (∀ t, PCCD.ddOverlapS t w sd j i = .ok dd) ∧
      (∀ h, PCCD.overlapS .senO (pccdShift w i h) sd = .ok (x + h * d)) ∧ ∀ t h, PCCD.dOverlapS t (pccdShift w j h) sd i = .ok (d + h * dd) := by
  have hg := pairWfn_new hk hw
  have hgs : ∀ j h, PairWfn nelec (pccdShift w j h) := fun j h =>
    ⟨hg.ops, hg.memo, hg.rankN, hg.rankP, hg.pos, hg.lt, hg.card, hg.closed⟩
  have ov : ∀ {w : PCCD.Wfn R}, PairWfn nelec w → PCCD.overlapS .senO w sd = PCCD.overlap w sd := by
    intro w hg
    rw [overlap_plain hg hsd, PCCD.overlapS, PCCD.callNew, PCCD.evaluate_empty _ _ hg.memo]
    rfl
  by_cases hs : sd = w.base.refwfn
  · refine ⟨1, 0, 0, ?_, fun t => ?_, fun t => ?_, fun t => ?_, fun h => ?_, fun t h => ?_⟩
    · rw [ov hg, PCCD.overlap, if_pos hs]
    · rw [derivative_plain hg hsd, PCCD.dOverlap, if_pos hs]
    · rw [second_plain hg hsd, if_pos hs]
    · rw [second_plain hg hsd, if_pos hs]
    · rw [ov (hgs i h), PCCD.overlap, if_pos (by exact hs)]; simp
    · rw [derivative_plain (hgs j h) hsd, PCCD.dOverlap, if_pos (by exact hs)]; simp
  · have hsd' : (occSet sd).card = (occSet w.base.refwfn).card := hsd.trans hg.card.symm
    obtain ⟨s, paths, h1, h2⟩ := expansion_nodup w.base hg.rankN hg.rankP hg.memo sd hsd'
    have hn : ∀ p ∈ PCCD.selectRows w (occIndices (some w.base.refwfn)) paths, p.1.Nodup := fun p hp => h2 p (List.mem_of_mem_filter hp)
    have h0 := h1 w.base.params
    refine ⟨s * amplitudes w.base.params (PCCD.selectRows w (occIndices (some w.base.refwfn)) paths),
      s * dAmplitudes w.base.params (PCCD.selectRows w (occIndices (some w.base.refwfn)) paths) i,
      s * ddAmplitudes w.base.params (PCCD.selectRows w (occIndices (some w.base.refwfn)) paths) i j, ?_, fun t => ?_, fun t => ?_, fun t => ?_,
      fun h => ?_, fun t h => ?_⟩
    · rw [ov hg, overlap_plain hg hsd, if_neg hs, h0]; rfl
    · rw [derivative_plain hg hsd, PCCD.dOverlap, if_neg hs, h0]; rfl
    · rw [second_plain hg hsd, if_neg hs, h0]; rfl
    · rw [second_plain hg hsd, if_neg hs, h0]
      simp only [bind, Except.bind, pure, Except.pure, Except.ok.injEq]
      congr 1
      unfold ddAmplitudes
      congr 1
      apply List.map_congr_left
      intro q hq
      by_cases hab : i = j
      · subst hab; rfl
      · have hba : ¬ j = i := fun e => hab e.symm
        simp [hab, hba, List.erase_comm, and_comm]
    · have e : PCCD.overlap (pccdShift w i h) sd = .ok (s * amplitudes (Function.update w.base.params i (w.base.params i + h))
          (PCCD.selectRows w (occIndices (some w.base.refwfn)) paths)) := by
        rw [overlap_plain (hgs i h) hsd, if_neg (show ¬ sd = (pccdShift w i h).base.refwfn from hs),
          show expansion (pccdShift w i h).base sd = _ from h1 _]
        rfl
      rw [ov (hgs i h), e, amplitudes_shift _ _ hn]
      congr 1; ring
    · have e : PCCD.dOverlap (pccdShift w j h) sd i = .ok (s * dAmplitudes (Function.update w.base.params j (w.base.params j + h))
          (PCCD.selectRows w (occIndices (some w.base.refwfn)) paths) i) := by
        rw [PCCD.dOverlap, if_neg (show ¬ sd = (pccdShift w j h).base.refwfn from hs),
          show expansion (pccdShift w j h).base sd = _ from h1 _]
        rfl
      rw [derivative_plain (hgs j h) hsd, e, dAmplitudes_shift _ _ hn]
      congr 1; ring

/-- C89. The overlap of a wavefunction with an option `s_type`, with an empty dictionary: the coefficient of the determinant in the sum of
the products of different operators that obey the rule of `s_type`, applied to the reference.  `Qs` are the operators, in some order.  The
rule for `"sen-o"`: if an operator of the product annihilates one electron only, no operator of the product annihilates its partner.  For
`"sen-v"`: if it creates one electron only, no operator of the product creates its partner.  For `"sen-ov"`: both.  For `"free"`: all the
products. -/
theorem C89_overlap_partial [Nontrivial R] (t : SType) (k : Kind) (hk : k.isSen0 = false) (nelec nspin : ℕ)
    (indices : Option (List ℤ × List ℤ)) (params : ℕ → R) (w : PCCD.Wfn R)
    (hw : PCCD.initNew k nelec nspin false indices none params false = .ok w)
    (V : Finset ℕ) (hV : ∀ g, ground nelec nspin = .ok g → Disjoint V (occSet g) ∧ Finset.range nspin \ occSet g ⊆ V)
    (hVi : ∀ x y, indices = some (x, y) → (∀ i ∈ x, i.toNat ∈ V) ∧ ∀ i ∈ y, i.toNat ∈ V) (sd : ℕ) (hsd : (occSet sd).card = nelec)
    (hlt : sd < 2 ^ nspin) :
    ∃ Qs : List (List ℕ × List ℕ), Qs.Nodup ∧
      (∀ q, q ∈ Qs ↔ q.1.length ∈ w.base.ranks ∧ q.1.length = q.2.length ∧ q.1.Pairwise (· < ·) ∧ q.2.Pairwise (· < ·) ∧
        q.1 ++ q.2 ∈ w.base.exops) ∧
      PCCD.overlapS t w sd = .ok (((((Qs.sublists'.filter fun S => decide (Rule t (nspin / 2) S)).map fun S => (S.map fun q =>
        params (w.base.exops.idxOf (q.1 ++ q.2)) • (excOp q.1 q.2 : Module.End R (Fock R))).prod).sum : Module.End R (Fock R))
        (ket (occSet w.base.refwfn))) (occSet sd)) := by
  have hg' := pairWfn_new hk hw
  rw [(C89_constructor k hk nelec nspin false indices params false).1] at hw
  obtain ⟨-, e1, e2, e3, e4, e5, e6, e7, e8, g, hg, e9, e10, e11, e12⟩ := pccd_init_ok hw
  obtain ⟨h1, h2, h3, h4, h5, h6, h7⟩ := ground_even hg e2
  obtain ⟨hVd, hVs⟩ := hV g hg
  have hE := e11 hk
  have hkk : hasTriples k = false := by cases k <;> simp_all [PCCD.Kind.isSen0, hasTriples]
  have hkeys := pair_keys hkk hg e2 hE.1 hVs hVi
  have hrk := pair_ranks hkk e8
  have hocc : ∀ o < nelec / 2, o ∉ V ∧ o + nspin / 2 ∉ V := by
    intro o ho
    rw [Finset.disjoint_right] at hVd
    constructor
    · apply hVd; rw [mem_occSet, ← mem_occIndices, h4, List.mem_append, List.mem_range]; exact Or.inl ho
    · apply hVd; rw [mem_occSet, ← mem_occIndices, h4, List.mem_append, List.mem_map]
      exact Or.inr ⟨o, List.mem_range.2 ho, rfl⟩
  have main := PCCD.rule_overlap t w (V.sort (· ≤ ·)) (by rcases hrk with h | h <;> rw [h] <;> simp)
    (by rcases hrk with h | h <;> rw [h] <;> simp) (Finset.sortedLT_sort V).pairwise hg'.pos hE.2 hg'.memo (by
      rw [e5]
      intro q hq hl _ _
      have inj : ∀ {a c : List ℕ}, q.1 ++ q.2 = a ++ c → a.length = c.length → q.1 = a ∧ q.2 = c := by
        intro a c e hac
        refine List.append_inj e ?_
        have := congrArg List.length e
        rw [List.length_append, List.length_append] at this; omega
      simp only [Finset.mem_sort]
      obtain ⟨o, ho, ⟨x, hx, e | e⟩ | ⟨x, hx, y, hy, e⟩⟩ := hkeys _ hq
      · obtain ⟨a1, a2⟩ := inj (a := [o]) (c := [x]) e rfl
        rw [a1, a2]
        exact ⟨⟨o, by omega, by simp⟩, by simpa using (hocc o ho).1, by simpa using hx⟩
      · obtain ⟨a1, a2⟩ := inj (a := [o + nspin / 2]) (c := [x]) e rfl
        rw [a1, a2]
        exact ⟨⟨o, by omega, by simp⟩, by simpa using (hocc o ho).2, by simpa using hx⟩
      · obtain ⟨a1, a2⟩ := inj (a := [o, o + nspin / 2]) (c := [x, y]) e rfl
        rw [a1, a2]
        exact ⟨⟨o, by omega, by simp⟩, by simpa using hocc o ho, by simpa using ⟨hx, hy⟩⟩)
    hg'.lt hg'.closed sd (hsd.trans hg'.card.symm) (by rw [e5]; refine lt_of_lt_of_eq hlt ?_; congr 1; omega)
  rw [e5, e6] at main
  exact main

/-- C89 fails for `"free"`: the overlap has the products of two single excitations, its derivative does not, and after the derivative was computed
the overlap does not have them either. -/
theorem C89_free (t : ℕ → ℚ) : ∃ w : PCCD.Wfn ℚ, PCCD.initNew .generalized 2 4 false none none t false = .ok w ∧
    PCCD.calls (PCCD.callNew .free) ⟨w, [], 0⟩ [.overlap 0b1010, .derivative 0b1010 0, .overlap 0b1010] =
      [.ok (t 0 * t 3 - t 1 * t 2 - t 4), .ok 0, .ok (-t 4)] := by
  have hg : ground 2 4 = .ok 0b0101 := by decide +kernel
  have he : PCCD.assignExops .generalized 4 0b0101 [1, 2] none = .ok [[0, 1], [0, 3], [2, 1], [2, 3], [0, 2, 1, 3]] := by decide +kernel
  have hd : diffOrbs 0b1010 0b0101 = ([1, 3], [0, 2]) := by decide +kernel
  have hs : signExcite (some 0b0101) [0, 2] [1, 3] = .ok (-1) := by decide +kernel
  have ho : occIndices (some 0b0101) = [0, 2] := by decide +kernel
  have ho' : occIndices (some 0b1010) = [1, 3] := by decide +kernel
  have hp : possibleExops [1, 2] [[0, 1], [0, 3], [2, 1], [2, 3], [0, 2, 1, 3]] [0, 2] [1, 3] = .ok [([0, 3], -1), ([1, 2], 1), ([4], 1)] := by
    have h : binSizeNum [2] = [(2, 1)] := by decide +kernel
    have h0 : intPartition [1, 2] 2 2 = some [[2], [1, 1]] := by
      unfold intPartition; simp; unfold intPartition; simp; unfold intPartition; simp; unfold intPartition; simp
    have h' : binSizeNum [1, 1] = [(1, 2)] := by decide +kernel
    simp only [possibleExops, List.length_cons, List.length_nil, zero_add, Nat.reduceAdd, h0, ofOption, bind, Except.bind, List.reverse_cons,
      List.reverse_nil, List.nil_append, List.singleton_append, List.mapM_cons, List.mapM_nil, h, h', pure, Except.pure]
    decide +kernel
  refine ⟨⟨⟨[1, 2], 0b0101, [[0, 1], [0, 3], [2, 1], [2, 3], [0, 2, 1, 3]], t, true⟩, 2, [[0, 1], [0, 3], [2, 1], [2, 3], [0, 2, 1, 3]]⟩, ?_, ?_⟩
  · simp only [PCCD.initNew, CI.checkNelec, CI.checkNspin, PCCD.assignRanks, hg, he, bind, Except.bind]
    rfl
  · simp [PCCD.calls, PCCD.callNew, PCCD.call, PCCD.evaluate, lookupPaths, PCCD.store, hd, hs, hp, ho, ho', PCCD.selectRows, PCCD.selectRowsS, PCCD.keepRowS, PCCD.keepRow, PCCD.keepOp, PCCD.keepOpV, PCCD.keepOpOV, PCCD.trashAll, amplitudes, dAmplitudes, ddAmplitudes, List.lookup]
    ring

/-- C89 fails for `"sen-v"` in the same way: the excitations `0 → 1` and `3 → 5` do not create a pair. -/
theorem C89_sen_v (t : ℕ → ℚ) : ∃ w : PCCD.Wfn ℚ, PCCD.initNew .generalized 2 6 false none none t false = .ok w ∧
    PCCD.calls (PCCD.callNew .senV) ⟨w, [], 0⟩ [.overlap 0b100010, .derivative 0b100010 0, .overlap 0b100010] =
      [.ok (t 0 * t 7 - t 3 * t 4), .ok 0, .ok 0] := by
  have hg : ground 2 6 = .ok 0b001001 := by decide +kernel
  have he : PCCD.assignExops .generalized 6 0b001001 [1, 2] none = .ok [[0, 1], [0, 2], [0, 4], [0, 5], [3, 1], [3, 2], [3, 4], [3, 5], [0, 3, 1, 4], [0, 3, 2, 5]] := by decide +kernel
  have hd : diffOrbs 0b100010 0b001001 = ([1, 5], [0, 3]) := by decide +kernel
  have hs : signExcite (some 0b001001) [0, 3] [1, 5] = .ok (-1) := by decide +kernel
  have ho : occIndices (some 0b001001) = [0, 3] := by decide +kernel
  have ho' : occIndices (some 0b100010) = [1, 5] := by decide +kernel
  have hp : possibleExops [1, 2] [[0, 1], [0, 2], [0, 4], [0, 5], [3, 1], [3, 2], [3, 4], [3, 5], [0, 3, 1, 4], [0, 3, 2, 5]] [0, 3] [1, 5] = .ok [([0, 7], -1), ([3, 4], 1)] := by
    have h : binSizeNum [2] = [(2, 1)] := by decide +kernel
    have h0 : intPartition [1, 2] 2 2 = some [[2], [1, 1]] := by
      unfold intPartition; simp; unfold intPartition; simp; unfold intPartition; simp; unfold intPartition; simp
    have h' : binSizeNum [1, 1] = [(1, 2)] := by decide +kernel
    simp only [possibleExops, List.length_cons, List.length_nil, zero_add, Nat.reduceAdd, h0, ofOption, bind, Except.bind, List.reverse_cons,
      List.reverse_nil, List.nil_append, List.singleton_append, List.mapM_cons, List.mapM_nil, h, h', pure, Except.pure]
    decide +kernel
  refine ⟨⟨⟨[1, 2], 0b001001, [[0, 1], [0, 2], [0, 4], [0, 5], [3, 1], [3, 2], [3, 4], [3, 5], [0, 3, 1, 4], [0, 3, 2, 5]], t, true⟩, 3, [[0, 1], [0, 2], [0, 4], [0, 5], [3, 1], [3, 2], [3, 4], [3, 5], [0, 3, 1, 4], [0, 3, 2, 5]]⟩, ?_, ?_⟩
  · simp only [PCCD.initNew, CI.checkNelec, CI.checkNspin, PCCD.assignRanks, hg, he, bind, Except.bind]
    rfl
  · simp [PCCD.calls, PCCD.callNew, PCCD.call, PCCD.evaluate, lookupPaths, PCCD.store, hd, hs, hp, ho, ho', PCCD.selectRows, PCCD.selectRowsS, PCCD.keepRowS, PCCD.keepRow, PCCD.keepOp, PCCD.keepOpV, PCCD.keepOpOV, PCCD.trashAll, amplitudes, dAmplitudes, ddAmplitudes, List.lookup]
    ring

/-- C89 fails for `"sen-ov"`: the excitations `0 → 2` and `1 → 5` create a pair, so that the overlap is zero whatever the parameters are, but its
derivative is not, until the overlap is computed. -/
theorem C89_sen_ov (t : ℕ → ℚ) : ∃ w : PCCD.Wfn ℚ, PCCD.initNew .generalized 4 6 false none none t false = .ok w ∧
    PCCD.calls (PCCD.callNew .senOV) ⟨w, [], 0⟩ [.derivative 0b111100 0, .overlap 0b111100, .derivative 0b111100 0] =
      [.ok (t 3), .ok 0, .ok 0] := by
  have hg : ground 4 6 = .ok 0b011011 := by decide +kernel
  have he : PCCD.assignExops .generalized 6 0b011011 [1, 2] none = .ok [[0, 2], [0, 5], [1, 2], [1, 5], [3, 2], [3, 5], [4, 2], [4, 5], [0, 3, 2, 5], [1, 4, 2, 5]] := by decide +kernel
  have hd : diffOrbs 0b111100 0b011011 = ([2, 5], [0, 1]) := by decide +kernel
  have hs : signExcite (some 0b011011) [0, 1] [2, 5] = .ok (-1) := by decide +kernel
  have ho : occIndices (some 0b011011) = [0, 1, 3, 4] := by decide +kernel
  have ho' : occIndices (some 0b111100) = [2, 3, 4, 5] := by decide +kernel
  have hp : possibleExops [1, 2] [[0, 2], [0, 5], [1, 2], [1, 5], [3, 2], [3, 5], [4, 2], [4, 5], [0, 3, 2, 5], [1, 4, 2, 5]] [0, 1] [2, 5] = .ok [([0, 3], -1), ([1, 2], 1)] := by
    have h : binSizeNum [2] = [(2, 1)] := by decide +kernel
    have h0 : intPartition [1, 2] 2 2 = some [[2], [1, 1]] := by
      unfold intPartition; simp; unfold intPartition; simp; unfold intPartition; simp; unfold intPartition; simp
    have h' : binSizeNum [1, 1] = [(1, 2)] := by decide +kernel
    simp only [possibleExops, List.length_cons, List.length_nil, zero_add, Nat.reduceAdd, h0, ofOption, bind, Except.bind, List.reverse_cons,
      List.reverse_nil, List.nil_append, List.singleton_append, List.mapM_cons, List.mapM_nil, h, h', pure, Except.pure]
    decide +kernel
  refine ⟨⟨⟨[1, 2], 0b011011, [[0, 2], [0, 5], [1, 2], [1, 5], [3, 2], [3, 5], [4, 2], [4, 5], [0, 3, 2, 5], [1, 4, 2, 5]], t, true⟩, 3, [[0, 2], [0, 5], [1, 2], [1, 5], [3, 2], [3, 5], [4, 2], [4, 5], [0, 3, 2, 5], [1, 4, 2, 5]]⟩, ?_, ?_⟩
  · simp only [PCCD.initNew, CI.checkNelec, CI.checkNspin, PCCD.assignRanks, hg, he, bind, Except.bind]
    rfl
  · simp [PCCD.calls, PCCD.callNew, PCCD.call, PCCD.evaluate, lookupPaths, PCCD.store, hd, hs, hp, ho, ho', PCCD.selectRows, PCCD.selectRowsS, PCCD.keepRowS, PCCD.keepRow, PCCD.keepOp, PCCD.keepOpV, PCCD.keepOpOV, PCCD.trashAll, amplitudes, dAmplitudes, ddAmplitudes, List.lookup]

/-- The second derivative of the classes without `s_type` depends on what was computed before: with an empty dictionary it has the products of two
single excitations, which the overlap does not have; after the overlap it does not have them. -/
theorem C89_second_order (t : ℕ → ℚ) : ∃ w : PCCD.Wfn ℚ, PCCD.initNew .generalized 2 4 false none none t false = .ok w ∧
    PCCD.init .generalized 2 4 false none none t false = .ok w ∧
    PCCD.calls PCCD.call ⟨w, [], 0⟩ [.second 0b1010 0 3, .overlap 0b1010, .second 0b1010 0 3] = [.ok 1, .ok (-t 4), .ok 0] := by
  have hg : ground 2 4 = .ok 0b0101 := by decide +kernel
  have he : PCCD.assignExops .generalized 4 0b0101 [1, 2] none = .ok [[0, 1], [0, 3], [2, 1], [2, 3], [0, 2, 1, 3]] := by decide +kernel
  have hd : diffOrbs 0b1010 0b0101 = ([1, 3], [0, 2]) := by decide +kernel
  have hs : signExcite (some 0b0101) [0, 2] [1, 3] = .ok (-1) := by decide +kernel
  have ho : occIndices (some 0b0101) = [0, 2] := by decide +kernel
  have ho' : occIndices (some 0b1010) = [1, 3] := by decide +kernel
  have hp : possibleExops [1, 2] [[0, 1], [0, 3], [2, 1], [2, 3], [0, 2, 1, 3]] [0, 2] [1, 3] = .ok [([0, 3], -1), ([1, 2], 1), ([4], 1)] := by
    have h : binSizeNum [2] = [(2, 1)] := by decide +kernel
    have h0 : intPartition [1, 2] 2 2 = some [[2], [1, 1]] := by
      unfold intPartition; simp; unfold intPartition; simp; unfold intPartition; simp; unfold intPartition; simp
    have h' : binSizeNum [1, 1] = [(1, 2)] := by decide +kernel
    simp only [possibleExops, List.length_cons, List.length_nil, zero_add, Nat.reduceAdd, h0, ofOption, bind, Except.bind, List.reverse_cons,
      List.reverse_nil, List.nil_append, List.singleton_append, List.mapM_cons, List.mapM_nil, h, h', pure, Except.pure]
    decide +kernel
  refine ⟨⟨⟨[1, 2], 0b0101, [[0, 1], [0, 3], [2, 1], [2, 3], [0, 2, 1, 3]], t, true⟩, 2, [[0, 1], [0, 3], [2, 1], [2, 3], [0, 2, 1, 3]]⟩, ?_, ?_, ?_⟩
  · simp only [PCCD.initNew, CI.checkNelec, CI.checkNspin, PCCD.assignRanks, hg, he, bind, Except.bind]
    rfl
  · simp only [PCCD.init, PCCD.Kind.isSen0, CI.checkNelec, CI.checkNspin, PCCD.assignRanks, hg, he, bind, Except.bind]
    rfl
  · simp [PCCD.calls, PCCD.callNew, PCCD.call, PCCD.evaluate, lookupPaths, PCCD.store, hd, hs, hp, ho, ho', PCCD.selectRows, PCCD.selectRowsS, PCCD.keepRowS, PCCD.keepRow, PCCD.keepOp, PCCD.keepOpV, PCCD.keepOpOV, PCCD.trashAll, amplitudes, dAmplitudes, ddAmplitudes, List.lookup]

/-- the hypotheses of the theorems can be met: two electrons in four spin orbitals -/
example (t : ℕ → ℚ) : ∃ w : PCCD.Wfn ℚ, PCCD.initNew .generalized 2 4 false none none t false = .ok w ∧ (occSet 0b1010).card = 2 ∧
    0b1010 < 2 ^ 4 := by
  obtain ⟨w, hw, -⟩ := C89_free t
  exact ⟨w, hw, by decide +kernel, by norm_num⟩

end

end Fanpy.Props
