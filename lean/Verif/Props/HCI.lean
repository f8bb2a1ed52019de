import Verif.Props.CISpaces
import Mathlib.Tactic.Linarith
import Mathlib.Tactic.FieldSimp
import Mathlib.Tactic.Positivity

/-!
# C55: the spaces of the hierarchy CI wavefunctions
-/

set_option linter.unusedSimpArgs false

namespace Fanpy.Props
open Fanpy.CI Fanpy.Slater Fanpy.SdList Fanpy.Spec Fanpy.Lemmas

/-- the hierarchy of a determinant: `α₁` times the excitation level plus `α₂` times the seniority -/
def hierarchyOf (p : Pattern) (g n x : ℕ) : ℚ := p.alphas.1 * excLevel g x + p.alphas.2 * senOf x n

theorem alpha_ne (p : Pattern) : p.alphas.2 ≠ 0 := by cases p <;> norm_num [Pattern.alphas]

theorem mem_sList {nelec e s : ℕ} : s ∈ sList nelec e ↔
    s % 2 = nelec % 2 ∧ s ≤ nelec ∧ s ≤ nelec % 2 + 2 * e ∧ (s = 0 → e % 2 = 0) := by
  unfold sList
  split_ifs with h1 h2 <;> simp only [List.mem_filter, List.mem_range, decide_eq_true_eq] <;> omega

theorem mem_eSPairs {nelec : ℕ} {p : Pattern} {hs : List ℚ} {e s : ℕ} :
    (e, s) ∈ eSPairs nelec p hs ↔ e ≤ nelec ∧ s ∈ sList nelec e ∧ p.alphas.1 * e + p.alphas.2 * s ∈ hs := by
  have ha := alpha_ne p
  simp only [eSPairs, List.mem_flatMap, List.mem_filterMap, List.mem_range]
  constructor
  · rintro ⟨h, hh, e', he, hx⟩
    split_ifs at hx with hc
    simp only [Option.some.injEq, Prod.mk.injEq] at hx
    obtain ⟨rfl, rfl⟩ := hx
    refine ⟨by omega, hc.2.2, ?_⟩
    have h2 : (((h - p.alphas.1 * (e' : ℚ)) / p.alphas.2).num.toNat : ℚ) = (h - p.alphas.1 * (e' : ℚ)) / p.alphas.2 := by
      set q := (h - p.alphas.1 * (e' : ℚ)) / p.alphas.2 with hq
      have h3 : 0 ≤ q.num := Rat.num_nonneg.2 hc.1
      have h4 : ((q.num.toNat : ℤ) : ℚ) = (q.num : ℚ) := by rw [Int.toNat_of_nonneg h3]
      rw [Int.cast_natCast] at h4
      rw [h4]
      conv_rhs => rw [← Rat.num_div_den q, hc.2.1]
      simp
    rw [h2]
    convert hh using 1
    field_simp
    ring
  · rintro ⟨h1, h2, h3⟩
    refine ⟨_, h3, e, by omega, ?_⟩
    have h4 : (p.alphas.1 * (e : ℚ) + p.alphas.2 * (s : ℚ) - p.alphas.1 * (e : ℚ)) / p.alphas.2 = (s : ℚ) := by
      field_simp
      ring
    simp only [h4, Nat.cast_nonneg, Rat.den_natCast, Rat.num_natCast, Int.toNat_natCast, h2, and_self, if_true]

/-- the seniority of a determinant is one that the code considers for its excitation level -/
theorem sen_mem_sList {nelec nspin g x : ℕ} (hg : ground nelec nspin = .ok g) (hx : (occSet x).card = nelec) :
    senOf x (nspin / 2) ∈ sList nelec (excLevel g x) := by
  have hgf := (ground_ok_facts hg).2.2
  have h1 := senOf_parity x (nspin / 2)
  have h2 := senOf_le x (nspin / 2)
  have h3 := senOf_le_level (nspin / 2) (hx.trans hgf.symm)
  rw [senOf_ground hg] at h3
  rw [mem_sList]
  refine ⟨by omega, by omega, h3, fun h0 => ?_⟩
  have := excLevel_of_senOf_zero (g := g) (x := x) (n := nspin / 2) (by rw [senOf_ground hg]; omega) h0
  omega

theorem mem_sdList_hier {nelec nspin g e s : ℕ} (hg : ground nelec nspin = .ok g) :
    ∃ L, sdList nelec nspin none (some [e]) none (some (s : ℤ)) true = .ok L ∧
      ∀ x, x ∈ L ↔ x < 2 ^ nspin ∧ (occSet x).card = nelec ∧ senOf x (nspin / 2) = s ∧ (x = g ∨ excLevel g x = e) := by
  refine ⟨_, sdList_eq none (some [e]) none (some (s : ℤ)) true hg (by simp) (by simp), fun x => ?_⟩
  obtain ⟨hn, hlt, hcard⟩ := ground_ok_facts hg
  obtain ⟨o1, o2, o3, o4⟩ := order_facts g (nspin / 2) nspin
  obtain ⟨v1, -⟩ := visited_facts o1 o2 o3 o4 hlt [e]
  have hw : ∀ y, Wanted y (nspin / 2) none (some (s : ℤ)) true ↔ senOf y (nspin / 2) = s := by
    intro y
    simp only [Wanted, if_true, Option.mem_def, reduceCtorEq, false_imp_iff, implies_true, true_and, Option.some.injEq, senOf]
    omega
  simp only [Option.elim_none, Option.getD_some, fullList, List.mem_append, List.mem_filter, v1, hcard, decide_eq_true_eq, hw]
  simp only [List.mem_singleton]
  constructor
  · rintro (h | h)
    · split_ifs at h with h1
      · simp only [List.mem_singleton] at h
        subst h
        exact ⟨hlt, hcard, h1, Or.inl rfl⟩
      · simp at h
    · exact ⟨h.1.1, h.1.2.1, h.2, Or.inr h.1.2.2⟩
  · rintro ⟨h1, h2, h3, rfl | h4⟩
    · left; rw [if_pos h3]; simp
    · exact Or.inr ⟨⟨h1, h2, h4⟩, h3⟩

theorem hci_lists {nelec nspin g : ℕ} (hg : ground nelec nspin = .ok g) (ps : List (ℕ × ℕ)) :
    ∃ LL, ps.mapM (fun x => sdList nelec nspin none (some [x.1]) none (some (x.2 : ℤ)) true) = .ok LL ∧
      ∀ x, x ∈ LL.flatten ↔ x < 2 ^ nspin ∧ (occSet x).card = nelec ∧
        ∃ q ∈ ps, senOf x (nspin / 2) = q.2 ∧ (x = g ∨ excLevel g x = q.1) := by
  induction ps with
  | nil => exact ⟨[], rfl, by simp⟩
  | cons q ps ih =>
    obtain ⟨LL, h1, h2⟩ := ih
    obtain ⟨L, h3, h4⟩ := mem_sdList_hier (e := q.1) (s := q.2) hg
    refine ⟨L :: LL, by rw [List.mapM_cons, h3, h1]; rfl, fun x => ?_⟩
    rw [List.flatten_cons, List.mem_append, h4, h2]
    simp only [List.mem_cons, exists_eq_or_imp]
    rw [← and_or_left, ← and_or_left]

theorem ground_valid {nelec nspin g : ℕ} (hg : ground nelec nspin = .ok g) : nelec ≠ 0 ∧ nspin ≠ 0 ∧ nspin % 2 = 0 := by
  have hne : ¬ ∃ e, ground nelec nspin = .error e := by rw [hg]; simp
  rw [C03_ground_error] at hne
  omega

theorem hciSds_eq {nelec nspin g : ℕ} (hg : ground nelec nspin = .ok g) (v : Version) (p : Pattern) (h : ℚ) :
    ∃ l, (∀ x, x ∈ l ↔ x < 2 ^ nspin ∧ (occSet x).card = nelec ∧
        ∃ q ∈ eSPairs nelec p (posHierarchies v p h), senOf x (nspin / 2) = q.2 ∧ (x = g ∨ excLevel g x = q.1)) ∧
      hciSds nelec nspin v p h = if l = [] then .error .warning else .ok (g :: l).dedup := by
  obtain ⟨LL, h1, h2⟩ := hci_lists hg (eSPairs nelec p (posHierarchies v p h))
  refine ⟨LL.flatten, h2, ?_⟩
  have hgf := ground_ok_facts hg
  unfold hciSds
  rw [hg]
  simp only [bind, Except.bind, h1]
  by_cases h0 : LL.flatten = []
  · rw [if_pos h0, if_pos (by simp only [h0, List.length_cons, List.length_nil])]
  · rw [if_neg h0, if_neg (fun e => h0 (List.length_eq_zero_iff.1 (by rw [List.length_cons] at e; omega))), assignSds_eq hgf.1, if_pos]
    refine ⟨?_, fun x hx => ?_⟩
    · intro hd
      have : g ∈ (g :: LL.flatten).dedup := List.mem_dedup.2 (by simp)
      rw [hd] at this
      simp at this
    · rw [List.mem_dedup, List.mem_cons] at hx
      rcases hx with rfl | hx
      · exact ⟨hgf.2.2, by simp, by simp⟩
      · exact ⟨((h2 x).1 hx).2.1, by simp, by simp⟩

/-- C55: the hCI wavefunction has the reference and all determinants whose hierarchy is one of the allowed values, each once. -/
theorem C55_hci {R : Type} [Zero R] [One R] {nelec nspin : ℕ} {p : Pattern} {h : ℚ} {v : Version} {w : Wfn R}
    (hw : hciInit nelec nspin p h v = .ok w) :
    ∃ g, ground nelec nspin = .ok g ∧ w.sds.Nodup ∧
      ∀ x, x ∈ w.sds ↔ x = g ∨ (x < 2 ^ nspin ∧ (occSet x).card = nelec ∧
        hierarchyOf p g (nspin / 2) x ∈ posHierarchies v p h) := by
  have h1 := (init_ok hw).1
  cases hg : ground nelec nspin with
  | error e => unfold hciSds at h1; rw [hg] at h1; simp [bind, Except.bind] at h1
  | ok g =>
    obtain ⟨l, h2, h3⟩ := hciSds_eq hg v p h
    rw [h3] at h1
    split_ifs at h1 with h0
    injection h1 with h1
    refine ⟨g, rfl, by rw [← h1]; exact List.nodup_dedup _, fun x => ?_⟩
    rw [← h1, List.mem_dedup, List.mem_cons, h2]
    constructor
    · rintro (rfl | ⟨h4, h5, q, hq, h6, h7⟩)
      · exact Or.inl rfl
      · rcases h7 with rfl | h7
        · exact Or.inl rfl
        · refine Or.inr ⟨h4, h5, ?_⟩
          have := (mem_eSPairs.1 hq).2.2
          rw [hierarchyOf, h6, h7]
          exact this
    · rintro (rfl | ⟨h4, h5, h6⟩)
      · exact Or.inl rfl
      · refine Or.inr ⟨h4, h5, (excLevel g x, senOf x (nspin / 2)), ?_, rfl, Or.inr rfl⟩
        refine mem_eSPairs.2 ⟨?_, sen_mem_sList hg h5, h6⟩
        rw [← (ground_ok_facts hg).2.2]
        exact Finset.card_le_card Finset.sdiff_subset

/-- C55: the hCI wavefunction exists if some determinant (the reference included) has an allowed hierarchy. -/
theorem C55_hci_exists {R : Type} [Zero R] [One R] {nelec nspin g : ℕ} (hg : ground nelec nspin = .ok g) (p : Pattern) (h : ℚ)
    (v : Version) (hx : ∃ x, x < 2 ^ nspin ∧ (occSet x).card = nelec ∧ hierarchyOf p g (nspin / 2) x ∈ posHierarchies v p h) :
    ∃ w : Wfn R, hciInit nelec nspin p h v = .ok w := by
  obtain ⟨x, h4, h5, h6⟩ := hx
  obtain ⟨l, h2, h3⟩ := hciSds_eq hg v p h
  have hmem : x ∈ l := (h2 x).2 ⟨h4, h5, (excLevel g x, senOf x (nspin / 2)),
    mem_eSPairs.2 ⟨by rw [← (ground_ok_facts hg).2.2]; exact Finset.card_le_card Finset.sdiff_subset, sen_mem_sList hg h5, h6⟩,
    rfl, Or.inr rfl⟩
  unfold hciInit
  have hv := ground_valid hg
  rw [init_ok_iff]
  refine ⟨⟨hv.1, hv.2.1, hv.2.2, by simp, by simp⟩, _, h3.trans (if_neg ?_)⟩
  rintro rfl
  simp at hmem

theorem mem_arange {a b c x : ℚ} (hc : 0 < c) : x ∈ arange a b c ↔ ∃ k : ℕ, x = a + k * c ∧ x < b := by
  unfold arange
  simp only [List.mem_map, List.mem_range]
  have key : ∀ k : ℕ, k < ⌈(b - a) / c⌉.toNat ↔ a + k * c < b := by
    intro k
    rw [Int.lt_toNat, Int.lt_ceil, lt_div_iff₀ hc, Int.cast_natCast]
    constructor <;> intro h <;> linarith
  constructor
  · rintro ⟨k, hk, rfl⟩
    exact ⟨k, rfl, (key k).1 hk⟩
  · rintro ⟨k, rfl, hk⟩
    exact ⟨k, (key k).2 hk, rfl⟩

/-- the step of the hierarchies of a pattern -/
def Pattern.step : Pattern → ℚ
  | .posDiag | .hch => 1 / 2
  | .negDiag | .vch => 1

/-- C55: for an even number of electrons and a hierarchy that is a multiple of the step of the pattern, the (new) hCI
wavefunction exists and has exactly the determinants whose hierarchy is at most the given one (in absolute value for `vch`). -/
theorem C55_hci_new_partial {R : Type} [Zero R] [One R] {nelec nspin g : ℕ} (hg : ground nelec nspin = .ok g) (heven : nelec % 2 = 0)
    (p : Pattern) (m : ℕ) :
    ∃ w : Wfn R, hciInit nelec nspin p (m * Pattern.step p) .new = .ok w ∧
      ∀ x, x ∈ w.sds ↔ x < 2 ^ nspin ∧ (occSet x).card = nelec ∧
        |hierarchyOf p g (nspin / 2) x| ≤ m * Pattern.step p := by
  have hgf := ground_ok_facts hg
  have hval : ∀ x, (occSet x).card = nelec → (hierarchyOf p g (nspin / 2) x ∈ posHierarchies .new p (m * Pattern.step p) ↔
      |hierarchyOf p g (nspin / 2) x| ≤ m * Pattern.step p) := by
    intro x hx
    have h1 := mem_sList.1 (sen_mem_sList hg hx)
    obtain ⟨s, hs⟩ : ∃ s, senOf x (nspin / 2) = 2 * s := ⟨senOf x (nspin / 2) / 2, by omega⟩
    obtain ⟨d, hd⟩ : ∃ d, excLevel g x = s + d := ⟨excLevel g x - s, by omega⟩
    have e : hierarchyOf p g (nspin / 2) x = p.alphas.1 * (s + d) + p.alphas.2 * (2 * s) := by
      rw [hierarchyOf, hs, hd]; push_cast; rfl
    rw [e]
    have hs0 : (0 : ℚ) ≤ s := Nat.cast_nonneg s
    have hd0 : (0 : ℚ) ≤ d := Nat.cast_nonneg d
    cases p with
    | posDiag =>
      simp only [posHierarchies, Pattern.alphas, Pattern.step, mem_arange (show (0 : ℚ) < 1 / 2 by norm_num)]
      rw [abs_of_nonneg (by linarith)]
      constructor
      · rintro ⟨k, h2, h3⟩
        rw [h2] at h3 ⊢
        have h4 : (k : ℚ) < m + 1 := by linarith
        have h5 : k ≤ m := by exact_mod_cast Nat.lt_succ_iff.1 (by exact_mod_cast h4)
        have : (k : ℚ) ≤ m := by exact_mod_cast h5
        linarith
      · intro h2
        exact ⟨2 * s + d, by push_cast; ring, by linarith⟩
    | negDiag =>
      simp only [posHierarchies, Pattern.alphas, Pattern.step, mem_arange (show (0 : ℚ) < 1 by norm_num)]
      rw [abs_of_nonneg (by linarith)]
      constructor
      · rintro ⟨k, h2, h3⟩
        rw [h2] at h3 ⊢
        have h4 : (k : ℚ) < m + 1 := by linarith
        have h5 : k ≤ m := by exact_mod_cast Nat.lt_succ_iff.1 (by exact_mod_cast h4)
        have : (k : ℚ) ≤ m := by exact_mod_cast h5
        linarith
      · intro h2
        exact ⟨d, by ring, by linarith⟩
    | hch =>
      simp only [posHierarchies, Pattern.alphas, Pattern.step, mem_arange (show (0 : ℚ) < 1 / 2 by norm_num)]
      rw [abs_of_nonneg (by linarith)]
      constructor
      · rintro ⟨k, h2, h3⟩
        rw [h2] at h3 ⊢
        have h4 : (k : ℚ) < m + 1 := by linarith
        have h5 : k ≤ m := by exact_mod_cast Nat.lt_succ_iff.1 (by exact_mod_cast h4)
        have : (k : ℚ) ≤ m := by exact_mod_cast h5
        linarith
      · intro h2
        exact ⟨s + 2 * d, by push_cast; ring, by linarith⟩
    | vch =>
      simp only [posHierarchies, Pattern.alphas, Pattern.step, mem_arange (show (0 : ℚ) < 1 by norm_num)]
      rw [abs_le]
      constructor
      · rintro ⟨k, h2, h3⟩
        rw [h2] at h3 ⊢
        have h4 : (k : ℚ) < 2 * m + 1 := by linarith
        have h5 : k ≤ 2 * m := by exact_mod_cast Nat.lt_succ_iff.1 (by exact_mod_cast h4)
        have : (k : ℚ) ≤ 2 * m := by exact_mod_cast h5
        have : (0 : ℚ) ≤ k := Nat.cast_nonneg k
        constructor <;> linarith
      · rintro ⟨h2, h3⟩
        have h4 : (s : ℚ) ≤ d + m := by linarith
        have h5 : s ≤ d + m := by exact_mod_cast h4
        refine ⟨m + d - s, ?_, by linarith⟩
        rw [Nat.cast_sub (by omega)]
        push_cast
        ring
  have hg0 : hierarchyOf p g (nspin / 2) g = 0 := by
    rw [hierarchyOf, senOf_ground hg, heven, ground_level]; simp
  have hstep : 0 ≤ m * Pattern.step p := by
    have : (0 : ℚ) ≤ Pattern.step p := by cases p <;> norm_num [Pattern.step]
    positivity
  obtain ⟨w, hw⟩ := C55_hci_exists (R := R) hg p (m * Pattern.step p) .new
    ⟨g, hgf.2.1, hgf.2.2, (hval g hgf.2.2).2 (by rw [hg0, abs_zero]; exact hstep)⟩
  refine ⟨w, hw, fun x => ?_⟩
  obtain ⟨g', hg', h1, h2⟩ := C55_hci hw
  rw [hg] at hg'
  injection hg' with hg'
  subst hg'
  rw [h2]
  constructor
  · rintro (rfl | ⟨h3, h4, h5⟩)
    · exact ⟨hgf.2.1, hgf.2.2, by rw [hg0, abs_zero]; exact hstep⟩
    · exact ⟨h3, h4, (hval x h4).1 h5⟩
  · rintro ⟨h3, h4, h5⟩
    exact Or.inr ⟨h3, h4, (hval x h4).2 h5⟩

/-- C55, against the documentation ("hierarchies up to the given one"): with a hierarchy that is no multiple of the step,
determinants above it are taken as well: hierarchy 2 with the limit 3/2. -/
theorem C55_hci_above : ∃ w : Wfn ℤ, hciInit 2 4 .negDiag (3 / 2) .new = .ok w ∧ 0b1010 ∈ w.sds ∧
    hierarchyOf .negDiag 0b0101 2 0b1010 = 2 := by
  have hg : ground 2 4 = .ok 0b0101 := by decide +kernel
  have hv : hierarchyOf .negDiag 0b0101 2 0b1010 = 2 := by
    have h1 : excLevel 0b0101 0b1010 = 2 := by decide +kernel
    have h2 : senOf 0b1010 2 = 0 := by decide +kernel
    norm_num [hierarchyOf, h1, h2, Pattern.alphas]
  have hm : (2 : ℚ) ∈ posHierarchies .new .negDiag (3 / 2) := by
    rw [posHierarchies, mem_arange (by norm_num)]
    exact ⟨2, by norm_num, by norm_num⟩
  obtain ⟨w, hw⟩ := C55_hci_exists (R := ℤ) hg .negDiag (3 / 2) .new
    ⟨0b1010, by norm_num, by decide +kernel, by rw [show 4 / 2 = 2 from rfl, hv]; exact hm⟩
  refine ⟨w, hw, ?_, hv⟩
  obtain ⟨g', hg', h1, h2⟩ := C55_hci hw
  rw [hg] at hg'
  injection hg' with hg'
  subst hg'
  exact (h2 _).2 (Or.inr ⟨by norm_num, by decide +kernel, by rw [show 4 / 2 = 2 from rfl, hv]; exact hm⟩)

/-- C55: for an odd number of electrons the new version with any pattern but `vch` never has a determinant: the constructor
always raises the `Warning`. -/
theorem C55_hci_odd {R : Type} [Zero R] [One R] {nelec nspin g : ℕ} (hg : ground nelec nspin = .ok g) (hodd : nelec % 2 = 1)
    (p : Pattern) (hp : p ≠ .vch) (h : ℚ) : (hciInit nelec nspin p h .new : Except PyErr (Wfn R)) = .error .warning := by
  obtain ⟨l, h2, h3⟩ := hciSds_eq hg .new p h
  have hl : l = [] := by
    by_contra hne
    obtain ⟨x, hx⟩ := List.exists_mem_of_ne_nil l hne
    obtain ⟨-, -, q, hq, -⟩ := (h2 x).1 hx
    obtain ⟨-, h4, h5⟩ := mem_eSPairs.1 (show (q.1, q.2) ∈ _ from hq)
    have h6 := (mem_sList.1 h4).1
    obtain ⟨s, hs⟩ : ∃ s, q.2 = 2 * s + 1 := ⟨q.2 / 2, by omega⟩
    rw [hs] at h5
    cases p with
    | vch => exact hp rfl
    | posDiag =>
      simp only [posHierarchies, Pattern.alphas] at h5
      rw [mem_arange (by norm_num)] at h5
      obtain ⟨k, h7, -⟩ := h5
      have h8 : ((2 * q.1 + (2 * s + 1) : ℕ) : ℚ) = (2 * k : ℕ) := by push_cast at h7 ⊢; linarith
      have := Nat.cast_injective h8
      omega
    | negDiag =>
      simp only [posHierarchies, Pattern.alphas] at h5
      rw [mem_arange (by norm_num)] at h5
      obtain ⟨k, h7, -⟩ := h5
      have h8 : ((2 * q.1 : ℕ) : ℚ) = (2 * k + (2 * s + 1) : ℕ) := by push_cast at h7 ⊢; linarith
      have := Nat.cast_injective h8
      omega
    | hch =>
      simp only [posHierarchies, Pattern.alphas] at h5
      rw [mem_arange (by norm_num)] at h5
      obtain ⟨k, h7, -⟩ := h5
      have h8 : ((4 * q.1 : ℕ) : ℚ) = (2 * k + (2 * s + 1) : ℕ) := by push_cast at h7 ⊢; linarith
      have := Nat.cast_injective h8
      omega
  have hv := ground_valid hg
  unfold hciInit
  rw [init_eq, if_pos ⟨hv.1, hv.2.1, hv.2.2, by simp, by simp⟩, h3, if_pos hl]
  rfl

example : (hciInit 3 6 .posDiag 2 .new : Except PyErr (Wfn ℤ)) = .error .warning :=
  C55_hci_odd (g := 0b001011) (by decide +kernel) rfl _ (by decide) _

example : ∃ w : Wfn ℤ, hciInit 4 8 .posDiag 1 .new = .ok w ∧ 0b01010101 ∈ w.sds ∧ 0b11001100 ∉ w.sds := by
  have hg : ground 4 8 = .ok 0b00110011 := by decide +kernel
  obtain ⟨w, hw, h⟩ := C55_hci_new_partial (R := ℤ) hg rfl .posDiag 2
  refine ⟨w, by rw [← hw]; norm_num [Pattern.step], (h _).2 ⟨by norm_num, by decide +kernel, ?_⟩, fun h' => ?_⟩
  · have h1 : excLevel 0b00110011 0b01010101 = 2 := by decide +kernel
    have h2 : senOf 0b01010101 4 = 0 := by decide +kernel
    norm_num [hierarchyOf, h1, h2, Pattern.alphas, Pattern.step]
  · have h3 := ((h _).1 h').2.2
    have h1 : excLevel 0b00110011 0b11001100 = 4 := by decide +kernel
    have h2 : senOf 0b11001100 4 = 0 := by decide +kernel
    norm_num [hierarchyOf, h1, h2, Pattern.alphas, Pattern.step] at h3

end Fanpy.Props
