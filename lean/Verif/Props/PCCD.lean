import Verif.Lemmas.PCCD
import Verif.Props.CCDeriv
import Verif.Props.SlaterBits

/-! # Property C65: overlaps of the pair coupled cluster wavefunctions -/

namespace Fanpy.Props
open Fanpy.Spec Fanpy.Slater Fanpy.Graphs Fanpy.It Fanpy.CC Fanpy.Lemmas
open Fanpy.PCCD (Kind partner pairAmplitude)

/-- what a successful constructor gives -/
theorem pccd_init_ok {R : Type} {k : Kind} {nelec nspin : ℕ} {rg : Bool} {indices : Option (List ℤ × List ℤ)} {refwfn : Option ℕ} {params : ℕ → R}
    {b : Bool} {w : PCCD.Wfn R} (h : PCCD.init k nelec nspin rg indices refwfn params b = .ok w) :
    rg = false ∧ nelec ≠ 0 ∧ nelec % 2 = 0 ∧ nspin ≠ 0 ∧ nspin % 2 = 0 ∧ w.nspatial = nspin / 2 ∧ w.base.params = params ∧ w.base.memo = !b ∧
    PCCD.assignRanks k nelec = .ok w.base.ranks ∧ ∃ g, ground nelec nspin = .ok g ∧ w.base.refwfn = refwfn.getD g ∧
      (∀ m, refwfn = some m → PCCD.assignRef nelec nspin m = .ok m) ∧
      (k.isSen0 = false → PCCD.assignExops k nspin g w.base.ranks indices = .ok w.base.exops ∧ w.indExops = w.base.exops) ∧
      (k.isSen0 = true → PCCD.assignExops k nspin w.base.refwfn w.base.ranks indices = .ok w.base.exops ∧
        w.indExops = PCCD.defaultExops k nspin g w.base.ranks) := by
  unfold PCCD.init at h
  rw [CI.checkNelec, CI.checkNspin] at h
  by_cases h1 : nelec = 0
  · simp [h1, bind, Except.bind] at h
  by_cases h2 : nelec % 2 ≠ 0
  · simp [h1, h2, bind, Except.bind] at h
  by_cases h3 : nspin = 0 ∨ nspin % 2 = 1
  · simp [h1, h2, h3, bind, Except.bind] at h
  rw [if_neg h1, if_neg h2, if_neg h3] at h
  rcases hr : PCCD.assignRanks k nelec with e | ranks
  · rw [hr] at h; simp [bind, Except.bind] at h
  rcases hg : ground nelec nspin with e | g
  · rw [hr, hg] at h; simp [bind, Except.bind] at h
  rw [hr, hg] at h
  simp only [bind, Except.bind, pure, Except.pure] at h
  have hm : ∀ {m r}, PCCD.assignRef nelec nspin m = .ok r → r = m := by
    intro m r hm
    unfold PCCD.assignRef at hm
    by_cases c1 : totalOcc (some m) ≠ nelec
    · rw [if_pos c1] at hm; cases hm
    · rw [if_neg c1] at hm
      split_ifs at hm
      injection hm with hm; exact hm.symm
  by_cases hs : k.isSen0 = true
  · rw [if_pos hs] at h
    cases rg with
    | true =>
      cases refwfn with
      | none => simp at h
      | some m => simp only at h; rcases hf : PCCD.assignRef nelec nspin m with e | ref <;> rw [hf] at h <;> simp at h
    | false =>
      simp only [Bool.false_eq_true, if_false] at h
      cases refwfn with
      | none =>
        simp only at h
        rcases he : PCCD.assignExops k nspin g ranks indices with e | exops
        · rw [he] at h; cases h
        rw [he] at h
        injection h with h
        subst h
        exact ⟨rfl, h1, by omega, by omega, by omega, rfl, rfl, rfl, rfl, g, rfl, rfl, by simp, (fun h => by rw [hs] at h; cases h),
          fun _ => ⟨he, rfl⟩⟩
      | some m =>
        simp only at h
        rcases hf : PCCD.assignRef nelec nspin m with e | ref
        · rw [hf] at h; cases h
        have := hm hf
        subst this
        rw [hf] at h
        simp only at h
        rcases he : PCCD.assignExops k nspin ref ranks indices with e | exops
        · rw [he] at h; cases h
        rw [he] at h
        injection h with h
        subst h
        exact ⟨rfl, h1, by omega, by omega, by omega, rfl, rfl, rfl, rfl, g, rfl, rfl, by rintro m hm; cases hm; exact hf,
          (fun h => by rw [hs] at h; cases h), fun _ => ⟨he, rfl⟩⟩
  · rw [if_neg hs] at h
    cases rg with
    | true => simp at h
    | false =>
      simp only [Bool.false_eq_true, if_false] at h
      rcases he : PCCD.assignExops k nspin g ranks indices with e | exops
      · rw [he] at h; cases h
      rw [he] at h
      simp only at h
      cases refwfn with
      | none =>
        injection h with h
        subst h
        exact ⟨rfl, h1, by omega, by omega, by omega, rfl, rfl, rfl, rfl, g, rfl, rfl, by simp, fun _ => ⟨he, rfl⟩, fun h => absurd h hs⟩
      | some m =>
        simp only at h
        rcases hf : PCCD.assignRef nelec nspin m with e | ref
        · rw [hf] at h; cases h
        have := hm hf
        subst this
        rw [hf] at h
        injection h with h
        subst h
        exact ⟨rfl, h1, by omega, by omega, by omega, rfl, rfl, rfl, rfl, g, rfl, rfl, by rintro m hm; cases hm; exact hf,
          fun _ => ⟨he, rfl⟩, fun h => absurd h hs⟩

/-- the ground state of an even number of electrons -/
theorem ground_even {nelec nspin g : ℕ} (hg : ground nelec nspin = .ok g) (he : nelec % 2 = 0) :
    0 < nelec / 2 ∧ nelec / 2 ≤ nspin / 2 ∧ nspin % 2 = 0 ∧
    occIndices (some g) = List.range (nelec / 2) ++ (List.range (nelec / 2)).map (· + nspin / 2) ∧
    PCCD.occHalf g = List.range (nelec / 2) ∧
    (∀ i, i ∈ PCCD.virt nspin g ↔ (nelec / 2 ≤ i ∧ i < nspin / 2) ∨ (nspin / 2 + nelec / 2 ≤ i ∧ i < nspin)) ∧
    PCCD.virtHalf nspin g = (List.range (nspin / 2)).drop (nelec / 2) := by
  have hne : ¬ ∃ e, ground nelec nspin = .error e := by rw [hg]; simp
  rw [C03_ground_error] at hne
  obtain ⟨hb, -, -⟩ := C03_ground nelec nspin g hg
  have hpos : 0 < nelec / 2 := by omega
  have hle : nelec / 2 ≤ nspin / 2 := by omega
  have hev : nspin % 2 = 0 := by omega
  have hocc : occIndices (some g) = List.range (nelec / 2) ++ (List.range (nelec / 2)).map (· + nspin / 2) := by
    refine List.Perm.eq_of_pairwise (le := (· < ·)) (fun a b _ _ h1 h2 => by omega) (sorted_occIndices g) ?_ ?_
    · rw [List.pairwise_append, List.pairwise_map]
      refine ⟨List.pairwise_lt_range, List.pairwise_lt_range.imp fun h => by omega, ?_⟩
      intro a ha b hb
      obtain ⟨c, hc, rfl⟩ := List.mem_map.1 hb
      rw [List.mem_range] at ha hc; omega
    · refine (List.perm_ext_iff_of_nodup ((sorted_occIndices g).imp fun h => by omega) ?_).2 ?_
      · rw [List.nodup_append]
        refine ⟨List.nodup_range, List.nodup_range.map fun a b h => by simpa using h, ?_⟩
        intro a ha b hb
        obtain ⟨c, hc, rfl⟩ := List.mem_map.1 hb
        rw [List.mem_range] at ha hc; omega
      · intro i
        rw [mem_occIndices, hb, List.mem_append, List.mem_range, List.mem_map]
        constructor
        · rintro (h | ⟨h1, h2⟩)
          · left; omega
          · right; exact ⟨i - nspin / 2, by rw [List.mem_range]; omega, by omega⟩
        · rintro (h | ⟨c, hc, rfl⟩)
          · left; omega
          · rw [List.mem_range] at hc; right; omega
  have hvirt : ∀ i, i ∈ PCCD.virt nspin g ↔ (nelec / 2 ≤ i ∧ i < nspin / 2) ∨ (nspin / 2 + nelec / 2 ≤ i ∧ i < nspin) := by
    intro i
    rw [PCCD.virt, List.mem_filter, List.mem_range, decide_eq_true_eq, mem_occIndices, hb]
    omega
  refine ⟨hpos, hle, hev, hocc, ?_, hvirt, ?_⟩
  · rw [PCCD.occHalf, hocc, List.length_append, List.length_map, List.length_range]
    rw [List.take_left' (by rw [List.length_range]; omega)]
  · have hv : PCCD.virt nspin g = (List.range (nspin / 2)).drop (nelec / 2) ++ ((List.range (nspin / 2)).drop (nelec / 2)).map (· + nspin / 2) := by
      have s1 : ((List.range (nspin / 2)).drop (nelec / 2)).Pairwise (· < ·) := List.pairwise_lt_range.sublist (List.drop_sublist _ _)
      have m1 : ∀ i, i ∈ (List.range (nspin / 2)).drop (nelec / 2) ↔ nelec / 2 ≤ i ∧ i < nspin / 2 := by
        intro i
        rw [List.range_eq_range', List.drop_range', List.mem_range'_1]; omega
      have s2 : ((List.range (nspin / 2)).drop (nelec / 2) ++ ((List.range (nspin / 2)).drop (nelec / 2)).map (· + nspin / 2)).Pairwise (· < ·) := by
        rw [List.pairwise_append, List.pairwise_map]
        refine ⟨s1, s1.imp fun h => by omega, ?_⟩
        intro a ha b hb
        obtain ⟨c, hc, rfl⟩ := List.mem_map.1 hb
        rw [m1] at ha hc; omega
      have s3 : (PCCD.virt nspin g).Pairwise (· < ·) := List.pairwise_lt_range.filter _
      refine List.Perm.eq_of_pairwise (le := (· < ·)) (fun a b _ _ h1 h2 => by omega) s3 s2 ?_
      refine (List.perm_ext_iff_of_nodup (s3.imp fun h => by omega) (s2.imp fun h => by omega)).2 ?_
      intro i
      rw [hvirt, List.mem_append, m1, List.mem_map]
      constructor
      · rintro (h | ⟨h1, h2⟩)
        · left; exact h
        · right; exact ⟨i - nspin / 2, by rw [m1]; omega, by omega⟩
      · rintro (h | ⟨c, hc, rfl⟩)
        · left; exact h
        · rw [m1] at hc; right; omega
    rw [PCCD.virtHalf, hv, List.length_append, List.length_map, List.take_left' (by omega)]

/-- a reference that is accepted and has no orbitals outside the basis is closed -/
theorem assignRef_closed {nelec nspin m : ℕ} (h : PCCD.assignRef nelec nspin m = .ok m) (hev : nspin % 2 = 0) (hlt : m < 2 ^ nspin) :
    (occSet m).card = nelec ∧ ∀ i ∈ occIndices (some m), partner (nspin / 2) i ∈ occIndices (some m) := by
  unfold PCCD.assignRef at h
  by_cases c1 : totalOcc (some m) ≠ nelec
  · rw [if_pos c1] at h; cases h
  rw [if_neg c1] at h
  split_ifs at h with c2
  rw [not_not] at c1
  refine ⟨by rw [← totalOcc_eq]; exact c1, ?_⟩
  have hb : ∀ i ∈ occIndices (some m), i < nspin := by
    intro i hi
    rw [mem_occIndices] at hi
    by_contra hc
    rw [Nat.testBit_lt_two_pow (lt_of_lt_of_le hlt (Nat.pow_le_pow_right (by norm_num) (not_lt.1 hc)))] at hi
    cases hi
  intro i hi
  have hi' := hi
  rw [← List.take_append_drop (nelec / 2) (occIndices (some m)), List.mem_append] at hi
  unfold PCCD.partner
  rcases hi with hi | hi
  · have := c2.1 i hi
    have h2 := hb _ this
    rw [if_pos (by omega)]; exact this
  · have := c2.2 i hi
    rw [if_neg (by omega)]; exact this.2

theorem ground_closed {nelec nspin g : ℕ} (hg : ground nelec nspin = .ok g) (he : nelec % 2 = 0) :
    ∀ i ∈ occIndices (some g), partner (nspin / 2) i ∈ occIndices (some g) := by
  obtain ⟨h1, h2, h3, h4, -⟩ := ground_even hg he
  intro i hi
  rw [h4, List.mem_append, List.mem_range, List.mem_map] at hi ⊢
  unfold PCCD.partner
  rcases hi with hi | ⟨c, hc, rfl⟩
  · right; exact ⟨i, by rwa [List.mem_range], by rw [if_pos (by omega)]⟩
  · rw [List.mem_range] at hc
    left; rw [if_neg (by omega)]; omega

/-- the operators of the classes with at most double excitations -/
def PairKey (n nocc : ℕ) (V : Finset ℕ) (key : List ℕ) : Prop :=
  ∃ o < nocc, (∃ x ∈ V, key = [o, x] ∨ key = [o + n, x]) ∨ ∃ x ∈ V, ∃ y ∈ V, key = [o, o + n, x, y]

/-- the classes with triple and quadruple excitations -/
def hasTriples : Kind → Bool
  | .sdtqSen0 | .sdqSen0 | .sdtSen2qSen0 => true
  | _ => false

theorem mem_sortSet {l : List ℕ} {i : ℕ} : i ∈ PCCD.sortSet l ↔ i ∈ l := by
  rw [PCCD.sortSet, List.mem_mergeSort, List.mem_dedup]

theorem checkSets_ok {ref : ℕ} {x y : List ℤ} {r : List ℕ × List ℕ} (h : PCCD.checkSets ref x y = .ok r) :
    r = (PCCD.sortSet (x.map Int.toNat), PCCD.sortSet (y.map Int.toNat)) ∧ (∀ i ∈ x, 0 ≤ i) ∧ (∀ i ∈ y, 0 ≤ i) := by
  unfold PCCD.checkSets at h
  split_ifs at h with a b c d e
  injection h with h
  rw [List.all_eq_true] at a c
  exact ⟨h.symm, fun i hi => by simpa using a i hi, fun i hi => by simpa using c i hi⟩

theorem pair_keys {k : Kind} (hk : hasTriples k = false) {nelec nspin g : ℕ} (hg : ground nelec nspin = .ok g) (he : nelec % 2 = 0)
    {ranks : List ℕ} {indices : Option (List ℤ × List ℤ)} {exops : List (List ℕ)} (h : PCCD.assignExops k nspin g ranks indices = .ok exops)
    {V : Finset ℕ} (hV : Finset.range nspin \ occSet g ⊆ V)
    (hVi : ∀ x y, indices = some (x, y) → (∀ i ∈ x, i.toNat ∈ V) ∧ ∀ i ∈ y, i.toNat ∈ V) :
    ∀ key ∈ exops, PairKey (nspin / 2) (nelec / 2) V key := by
  obtain ⟨h1, h2, h3, h4, h5, h6, h7⟩ := ground_even hg he
  have hvirt : ∀ i ∈ PCCD.virt nspin g, i ∈ V := by
    intro i hi
    apply hV
    rw [PCCD.virt, List.mem_filter, List.mem_range, decide_eq_true_eq, mem_occIndices] at hi
    rw [Finset.mem_sdiff, Finset.mem_range, mem_occSet]; exact hi
  have hva : ∀ i ∈ PCCD.virtAlphas nspin g, i ∈ V := fun i hi => hvirt i (List.mem_of_mem_filter hi)
  have hvb : ∀ i ∈ PCCD.virtBetas nspin g, i ∈ V := fun i hi => hvirt i (List.mem_of_mem_filter hi)
  have hsing : ∀ {x y : List ℕ}, (∀ i ∈ x, i ∈ V) → (∀ i ∈ y, i ∈ V) → ∀ key ∈ PCCD.singlesSets nspin g x y,
      PairKey (nspin / 2) (nelec / 2) V key := by
    intro x y hx hy key hkey
    rw [PCCD.singlesSets, List.mem_append, List.mem_flatMap, List.mem_flatMap, h5] at hkey
    rcases hkey with ⟨o, ho, hkey⟩ | ⟨o, ho, hkey⟩
    · obtain ⟨v, hv, rfl⟩ := List.mem_map.1 hkey
      exact ⟨o, List.mem_range.1 ho, Or.inl ⟨v, hx v hv, Or.inl rfl⟩⟩
    · obtain ⟨v, hv, rfl⟩ := List.mem_map.1 hkey
      exact ⟨o, List.mem_range.1 ho, Or.inl ⟨v, hy v hv, Or.inr rfl⟩⟩
  have hsets : ∀ {x y : List ℕ}, (∀ i ∈ x, i ∈ V) → (∀ i ∈ y, i ∈ V) → ∀ key ∈ PCCD.doublesSets nspin g x y,
      PairKey (nspin / 2) (nelec / 2) V key := by
    intro x y hx hy key hkey
    simp only [PCCD.doublesSets, List.mem_flatMap, List.mem_map, h5] at hkey
    obtain ⟨o, ho, i, hi, j, hj, rfl⟩ := hkey
    exact ⟨o, List.mem_range.1 ho, Or.inr ⟨i, hx i hi, j, hy j hj, rfl⟩⟩
  have hany : ∀ key ∈ PCCD.doublesAny nspin g, PairKey (nspin / 2) (nelec / 2) V key := by
    intro key hkey
    simp only [PCCD.doublesAny, List.mem_flatMap, List.mem_map, h5] at hkey
    obtain ⟨o, ho, i, hi, j, hj, rfl⟩ := hkey
    exact ⟨o, List.mem_range.1 ho, Or.inr ⟨i, hvirt i hi, j, hvirt j (List.mem_of_mem_drop hj), rfl⟩⟩
  have hpair : ∀ key ∈ PCCD.pairDoubles nspin g, PairKey (nspin / 2) (nelec / 2) V key := by
    intro key hkey
    simp only [PCCD.pairDoubles, List.mem_flatMap, List.mem_map, h5, h7] at hkey
    obtain ⟨o, ho, v, hv, rfl⟩ := hkey
    have hv : nelec / 2 ≤ v ∧ v < nspin / 2 := by
      rw [List.range_eq_range', List.drop_range', List.mem_range'_1] at hv; omega
    exact ⟨o, List.mem_range.1 ho, Or.inr ⟨v, hvirt v ((h6 v).2 (by omega)), _, hvirt _ ((h6 (v + nspin / 2)).2 (by omega)), rfl⟩⟩
  have app : ∀ {a b : List (List ℕ)}, (∀ key ∈ a, PairKey (nspin / 2) (nelec / 2) V key) → (∀ key ∈ b, PairKey (nspin / 2) (nelec / 2) V key) →
      ∀ key ∈ a ++ b, PairKey (nspin / 2) (nelec / 2) V key := by
    intro a b ha hb key hkey
    rcases List.mem_append.1 hkey with h | h
    · exact ha key h
    · exact hb key h
  cases indices with
  | none =>
    rw [PCCD.assignExops] at h
    injection h with h
    subst h
    cases k with
    | pccd => exact hpair
    | apg1roD => exact hany
    | apset1roGD => exact hsets hva hvb
    | generalized => exact app (hsing hvirt hvirt) hpair
    | spin => exact app (hsing hva hvb) hpair
    | apg1roSD => exact app (hsing hvirt hvirt) hany
    | apset1roGSD => exact app (hsing hva hvb) (hsets hva hvb)
    | sdSen0 =>
      refine app ?_ hpair
      intro key hkey
      simp only [List.mem_flatMap, List.mem_map, h4] at hkey
      obtain ⟨o, ho, v, hv, rfl⟩ := hkey
      rw [List.mem_append, List.mem_range, List.mem_map] at ho
      rcases ho with ho | ⟨c, hc, rfl⟩
      · exact ⟨o, ho, Or.inl ⟨v, hvirt v hv, Or.inl rfl⟩⟩
      · exact ⟨c, List.mem_range.1 hc, Or.inl ⟨v, hvirt v hv, Or.inr rfl⟩⟩
    | sdtqSen0 => cases hk
    | sdqSen0 => cases hk
    | sdtSen2qSen0 => cases hk
  | some xy =>
    obtain ⟨x, y⟩ := xy
    obtain ⟨hx, hy⟩ := hVi x y rfl
    have hs : ∀ {l : List ℤ}, (∀ i ∈ l, i.toNat ∈ V) → ∀ i ∈ PCCD.sortSet (l.map Int.toNat), i ∈ V := by
      intro l hl i hi
      rw [mem_sortSet, List.mem_map] at hi
      obtain ⟨j, hj, rfl⟩ := hi
      exact hl j hj
    rcases hc : PCCD.checkSets g x y with e | r
    · cases k <;> simp [PCCD.assignExops, hc, bind, Except.bind] at h
    · obtain ⟨rfl, -⟩ := checkSets_ok hc
      cases k <;> simp only [PCCD.assignExops, hc, bind, Except.bind, pure, Except.pure, reduceCtorEq, Except.ok.injEq] at h
      · subst h; exact hsets (hs hx) (hs hy)
      · subst h; exact app (hsing (hs hx) (hs hy)) (hsets hva hvb)

theorem pair_ranks {k : Kind} (hk : hasTriples k = false) {nelec : ℕ} {ranks : List ℕ} (h : PCCD.assignRanks k nelec = .ok ranks) :
    ranks = [2] ∨ ranks = [1, 2] := by
  cases k <;> simp only [PCCD.assignRanks] at h <;> first | (exact absurd hk (by decide)) | (split_ifs at h; injection h with h; simp [← h]) | (injection h with h; simp [← h])

/-- C65. The overlap of a wavefunction of one of the classes with single and double excitations is the coefficient of the determinant in
`∏_i (1 + T_i)` applied to the reference, where `T_i` is the sum of the operators that annihilate electrons of the spatial orbital `i`: there
is at most one operator for each pair of electrons.  The amplitude of an operator is zero if there is none with its annihilators and its
creators, each in increasing order.  Missing: references with spin orbitals that are not in the basis; `CCSDsen0` with a reference that
is not the ground state (`C65_stale_operators`); determinants with another number of electrons; classes with triple excitations. -/
theorem C65_product_partial {R : Type} [CommRing R] [Nontrivial R] (k : Kind) (hk : hasTriples k = false) (nelec nspin : ℕ)
    (indices : Option (List ℤ × List ℤ)) (refwfn : Option ℕ) (params : ℕ → R) (w : PCCD.Wfn R)
    (hw : PCCD.init k nelec nspin false indices refwfn params false = .ok w) (h0 : k = .sdSen0 → refwfn = none)
    (hlt : w.base.refwfn < 2 ^ nspin) (V : Finset ℕ) (hV : ∀ g, ground nelec nspin = .ok g → Disjoint V (occSet g) ∧ Finset.range nspin \ occSet g ⊆ V)
    (hVi : ∀ x y, indices = some (x, y) → (∀ i ∈ x, i.toNat ∈ V) ∧ ∀ i ∈ y, i.toNat ∈ V) (sd : ℕ) (hsd : (occSet sd).card = nelec) :
    PCCD.overlap w sd = .ok (((((List.range (nspin / 2)).map fun i =>
      1 + clusterOp {1, 2} {i, i + nspin / 2} V (pairAmplitude w.base)).prod : Module.End R (Fock R))
        (ket (occSet w.base.refwfn))) (occSet sd)) := by
  obtain ⟨-, e1, e2, e3, e4, e5, e6, e7, e8, g, hg, e9, e10, e11, e12⟩ := pccd_init_ok hw
  obtain ⟨h1, h2, h3, h4, h5, h6, h7⟩ := ground_even hg e2
  obtain ⟨hVd, hVs⟩ := hV g hg
  have hE : PCCD.assignExops k nspin g w.base.ranks indices = .ok w.base.exops ∧ w.indExops = w.base.exops := by
    rcases hs : k.isSen0 with - | -
    · exact e11 hs
    · obtain ⟨f1, f2⟩ := e12 hs
      have hkk : k = .sdSen0 := by cases k <;> simp_all [PCCD.Kind.isSen0, hasTriples]
      subst hkk
      rw [h0 rfl] at e9
      rw [e9, Option.getD_none] at f1
      refine ⟨f1, ?_⟩
      rw [f2]
      cases indices with
      | none => rw [PCCD.assignExops] at f1; injection f1
      | some xy => simp [PCCD.assignExops] at f1
  have hkeys := pair_keys hk hg e2 hE.1 hVs hVi
  have hrk := pair_ranks hk e8
  have hcl : (occSet w.base.refwfn).card = nelec ∧
      ∀ i ∈ occIndices (some w.base.refwfn), partner (nspin / 2) i ∈ occIndices (some w.base.refwfn) := by
    cases refwfn with
    | none =>
      rw [e9, Option.getD_none]
      exact ⟨(ground_ok_facts hg).2.2, ground_closed hg e2⟩
    | some m =>
      rw [e9, Option.getD_some] at hlt ⊢
      exact assignRef_closed (e10 m rfl) e4 hlt
  have hocc : ∀ o < nelec / 2, o ∉ V ∧ o + nspin / 2 ∉ V := by
    intro o ho
    rw [Finset.disjoint_right] at hVd
    constructor
    · apply hVd; rw [mem_occSet, ← mem_occIndices, h4, List.mem_append, List.mem_range]; exact Or.inl ho
    · apply hVd; rw [mem_occSet, ← mem_occIndices, h4, List.mem_append, List.mem_map]
      exact Or.inr ⟨o, List.mem_range.2 ho, rfl⟩
  have main := PCCD.pair_overlap w (V.sort (· ≤ ·)) (by rcases hrk with h | h <;> rw [h] <;> simp)
    (by rcases hrk with h | h <;> rw [h] <;> simp) (Finset.sortedLT_sort V).pairwise (by rw [e5]; omega) hE.2 (by rw [e7]; rfl) (by
      rw [e5]
      intro q hq hl _ _
      have inj : ∀ {a c : List ℕ}, q.1 ++ q.2 = a ++ c → a.length = c.length → q.1 = a ∧ q.2 = c := by
        intro a c e hac
        refine List.append_inj e ?_
        have := congrArg List.length e
        rw [List.length_append, List.length_append] at this; omega
      simp only [Finset.mem_sort]
      obtain ⟨o, ho, ⟨x, hx, e | e⟩ | ⟨x, hx, y, hy, e⟩⟩ := hkeys _ hq
      · obtain ⟨a1, a2⟩ := inj (a := [o]) (c := [x]) e rfl
        rw [a1, a2]
        exact ⟨⟨o, by omega, by simp⟩, by simpa using (hocc o ho).1, by simpa using hx⟩
      · obtain ⟨a1, a2⟩ := inj (a := [o + nspin / 2]) (c := [x]) e rfl
        rw [a1, a2]
        exact ⟨⟨o, by omega, by simp⟩, by simpa using (hocc o ho).2, by simpa using hx⟩
      · obtain ⟨a1, a2⟩ := inj (a := [o, o + nspin / 2]) (c := [x, y]) e rfl
        rw [a1, a2]
        exact ⟨⟨o, by omega, by simp⟩, by simpa using hocc o ho, by simpa using ⟨hx, hy⟩⟩)
    (by rw [e5]; refine lt_of_lt_of_eq hlt ?_; congr 1; omega) (by rw [e5]; exact hcl.2) sd (hsd.trans hcl.1.symm)
  rw [main, e5, Finset.sort_toFinset]
  rcases hrk with hrk | hrk
  · -- only double excitations: the amplitudes of single excitations are zero
    have hz : ∀ i, clusterOp {1, 2} {i, i + nspin / 2} V (pairAmplitude w.base) =
        (clusterOp ([2] : List ℕ).toFinset {i, i + nspin / 2} V (pairAmplitude w.base) : Module.End R (Fock R)) := by
      intro i
      unfold clusterOp
      rw [Finset.sum_insert (by simp)]
      have : ([2] : List ℕ).toFinset = ({2} : Finset ℕ) := rfl
      rw [this]
      refine Eq.trans (congrArg (· + _) ?_) (zero_add _)
      apply Finset.sum_eq_zero
      intro A hA
      apply Finset.sum_eq_zero
      intro C hC
      rw [Finset.mem_powersetCard] at hA hC
      rw [pairAmplitude, if_neg, zero_smul]
      intro hm
      have hlen : (A.sort (· ≤ ·) ++ C.sort (· ≤ ·)).length = 2 := by simp [hA.2, hC.2]
      have h4 : ∀ key ∈ w.base.exops, key.length = 4 := by
        have hE1 := hE.1
        cases k with
        | pccd =>
          cases indices with
          | none =>
            simp only [PCCD.assignExops, Except.ok.injEq] at hE1
            intro key hkey
            rw [← hE1] at hkey
            simp only [PCCD.defaultExops, PCCD.pairDoubles, List.mem_flatMap, List.mem_map] at hkey
            obtain ⟨_, _, _, _, rfl⟩ := hkey; rfl
          | some xy => simp [PCCD.assignExops] at hE1
        | apg1roD =>
          cases indices with
          | none =>
            simp only [PCCD.assignExops, Except.ok.injEq] at hE1
            intro key hkey
            rw [← hE1] at hkey
            simp only [PCCD.defaultExops, PCCD.doublesAny, List.mem_flatMap, List.mem_map] at hkey
            obtain ⟨_, _, _, _, _, _, rfl⟩ := hkey; rfl
          | some xy => simp [PCCD.assignExops] at hE1
        | apset1roGD =>
          have hx : ∃ x y, w.base.exops = PCCD.doublesSets nspin g x y := by
            cases indices with
            | none => simp only [PCCD.assignExops, Except.ok.injEq] at hE1; exact ⟨_, _, hE1.symm⟩
            | some xy =>
              obtain ⟨x, y⟩ := xy
              rcases hc : PCCD.checkSets g x y with e | r
              · simp [PCCD.assignExops, hc, bind, Except.bind] at hE1
              · simp only [PCCD.assignExops, hc, bind, Except.bind, pure, Except.pure, Except.ok.injEq] at hE1
                exact ⟨_, _, hE1.symm⟩
          obtain ⟨x, y, hx⟩ := hx
          intro key hkey
          rw [hx] at hkey
          simp only [PCCD.doublesSets, List.mem_flatMap, List.mem_map] at hkey
          obtain ⟨_, _, _, _, _, _, rfl⟩ := hkey; rfl
        | generalized => simp only [PCCD.assignRanks, Except.ok.injEq] at e8; rw [hrk] at e8; simp at e8
        | spin => simp only [PCCD.assignRanks, Except.ok.injEq] at e8; rw [hrk] at e8; simp at e8
        | apg1roSD => simp only [PCCD.assignRanks, Except.ok.injEq] at e8; rw [hrk] at e8; simp at e8
        | apset1roGSD => simp only [PCCD.assignRanks, Except.ok.injEq] at e8; rw [hrk] at e8; simp at e8
        | sdSen0 => simp only [PCCD.assignRanks] at e8; split_ifs at e8; injection e8 with e8; rw [hrk] at e8; simp at e8
        | sdtqSen0 => cases hk
        | sdqSen0 => cases hk
        | sdtSen2qSen0 => cases hk
      have := h4 _ hm
      omega
    simp only [hz, hrk]
  · rw [hrk]; rfl

/-- a spin orbital that the ground state of `2 * p` electrons in `2 * n` spin orbitals does not occupy -/
def Virtual (n p i : ℕ) : Prop := (p ≤ i ∧ i < n) ∨ (n + p ≤ i ∧ i < 2 * n)

/-- pair excitations of the pair `o` to the pair `v` -/
def IsPairDouble (n p : ℕ) (key : List ℕ) : Prop := ∃ o v, o < p ∧ p ≤ v ∧ v < n ∧ key = [o, o + n, v, v + n]

/-- excitations of the pair `o` to any two orbitals -/
def IsAnyDouble (n p : ℕ) (key : List ℕ) : Prop := ∃ o v w, o < p ∧ Virtual n p v ∧ Virtual n p w ∧ v < w ∧ key = [o, o + n, v, w]

/-- excitations of the pair `o` to one alpha and one beta orbital -/
def IsSpinDouble (n p : ℕ) (key : List ℕ) : Prop := ∃ o v w, o < p ∧ p ≤ v ∧ v < n ∧ p ≤ w ∧ w < n ∧ key = [o, o + n, v, w + n]

/-- all single excitations -/
def IsSingle (n p : ℕ) (key : List ℕ) : Prop := ∃ o v, o < p ∧ Virtual n p v ∧ (key = [o, v] ∨ key = [o + n, v])

/-- the single excitations that keep the spin -/
def IsSpinSingle (n p : ℕ) (key : List ℕ) : Prop := ∃ o v, o < p ∧ p ≤ v ∧ v < n ∧ (key = [o, v] ∨ key = [o + n, v + n])

/-- C65. The operators of the classes with at most double excitations. -/
theorem C65_operators (k : Kind) (hk : hasTriples k = false) (nelec nspin g : ℕ) (hg : ground nelec nspin = .ok g) (he : nelec % 2 = 0) (ranks : List ℕ) :
    (PCCD.defaultExops k nspin g ranks).Nodup ∧ ∀ key, key ∈ PCCD.defaultExops k nspin g ranks ↔
      match k with
      | .pccd => IsPairDouble (nspin / 2) (nelec / 2) key
      | .apg1roD => IsAnyDouble (nspin / 2) (nelec / 2) key
      | .apset1roGD => IsSpinDouble (nspin / 2) (nelec / 2) key
      | .generalized => IsSingle (nspin / 2) (nelec / 2) key ∨ IsPairDouble (nspin / 2) (nelec / 2) key
      | .spin => IsSpinSingle (nspin / 2) (nelec / 2) key ∨ IsPairDouble (nspin / 2) (nelec / 2) key
      | .apg1roSD => IsSingle (nspin / 2) (nelec / 2) key ∨ IsAnyDouble (nspin / 2) (nelec / 2) key
      | .apset1roGSD => IsSpinSingle (nspin / 2) (nelec / 2) key ∨ IsSpinDouble (nspin / 2) (nelec / 2) key
      | .sdSen0 => IsSingle (nspin / 2) (nelec / 2) key ∨ IsPairDouble (nspin / 2) (nelec / 2) key
      | _ => False := by
  obtain ⟨h1, h2, h3, h4, h5, h6, h7⟩ := ground_even hg he
  have hvn : (PCCD.virt nspin g).Pairwise (· < ·) := List.pairwise_lt_range.filter _
  have hV : ∀ i, i ∈ PCCD.virt nspin g ↔ Virtual (nspin / 2) (nelec / 2) i := by
    intro i; rw [h6, Virtual]; omega
  have hA : ∀ i, i ∈ PCCD.virtAlphas nspin g ↔ nelec / 2 ≤ i ∧ i < nspin / 2 := by
    intro i; rw [PCCD.virtAlphas, List.mem_filter, h6, decide_eq_true_eq]; omega
  have hB : ∀ i, i ∈ PCCD.virtBetas nspin g ↔ nspin / 2 + nelec / 2 ≤ i ∧ i < nspin := by
    intro i; rw [PCCD.virtBetas, List.mem_filter, h6, decide_eq_true_eq]; omega
  have hAn : (PCCD.virtAlphas nspin g).Nodup := (hvn.imp fun h => by omega).filter _
  have hBn : (PCCD.virtBetas nspin g).Nodup := (hvn.imp fun h => by omega).filter _
  have hVn : (PCCD.virt nspin g).Nodup := hvn.imp fun h => by omega
  have hHn : (PCCD.virtHalf nspin g).Nodup := by rw [h7]; exact List.nodup_range.sublist (List.drop_sublist _ _)
  have hH : ∀ i, i ∈ PCCD.virtHalf nspin g ↔ nelec / 2 ≤ i ∧ i < nspin / 2 := by
    intro i; rw [h7, List.range_eq_range', List.drop_range', List.mem_range'_1]; omega
  -- no operator twice in a double loop
  have nd : ∀ {α : Type} {l : List α} {f : α → List (List ℕ)} (_ : l.Nodup) (_ : ∀ x ∈ l, (f x).Nodup)
      (_ : ∀ x y key, key ∈ f x → key ∈ f y → x = y), (l.flatMap f).Nodup := by
    intro α l f hl hf hd
    rw [List.nodup_flatMap]
    refine ⟨hf, hl.imp fun {a b} hab => ?_⟩
    intro key k1 k2
    exact hab (hd a b key k1 k2)
  have pairN : (PCCD.pairDoubles nspin g).Nodup := by
    rw [PCCD.pairDoubles, h5]
    refine nd List.nodup_range (fun x _ => hHn.map fun a b h => by simpa using h) ?_
    intro x y key hx hy
    obtain ⟨a, -, rfl⟩ := List.mem_map.1 hx
    obtain ⟨b, -, hb⟩ := List.mem_map.1 hy
    simp only [List.cons.injEq] at hb; omega
  have pairM : ∀ key, key ∈ PCCD.pairDoubles nspin g ↔ IsPairDouble (nspin / 2) (nelec / 2) key := by
    intro key
    simp only [PCCD.pairDoubles, h5, List.mem_flatMap, List.mem_map, List.mem_range, hH, IsPairDouble]
    constructor
    · rintro ⟨o, ho, v, ⟨hv1, hv2⟩, rfl⟩; exact ⟨o, v, ho, hv1, hv2, rfl⟩
    · rintro ⟨o, v, ho, hv1, hv2, rfl⟩; exact ⟨o, ho, v, ⟨hv1, hv2⟩, rfl⟩
  have anyN : (PCCD.doublesAny nspin g).Nodup := by
    rw [PCCD.doublesAny, h5]
    refine nd List.nodup_range (fun x _ => nd hVn (fun y _ => ?_) ?_) ?_
    · exact (hVn.sublist (List.drop_sublist _ _)).map fun a b h => by simpa using h
    · intro a b key ha hb
      obtain ⟨_, -, rfl⟩ := List.mem_map.1 ha
      obtain ⟨_, -, hb⟩ := List.mem_map.1 hb
      simp only [List.cons.injEq] at hb; omega
    · intro x y key hx hy
      simp only [List.mem_flatMap, List.mem_map] at hx hy
      obtain ⟨_, _, _, _, rfl⟩ := hx
      obtain ⟨_, _, _, _, hb⟩ := hy
      simp only [List.cons.injEq] at hb; omega
  have dropM : ∀ {v w : ℕ}, v ∈ PCCD.virt nspin g →
      (w ∈ (PCCD.virt nspin g).drop ((PCCD.virt nspin g).idxOf v + 1) ↔ w ∈ PCCD.virt nspin g ∧ v < w) := by
    intro v w hv
    have hlt := List.idxOf_lt_length_of_mem hv
    have hget : (PCCD.virt nspin g)[(PCCD.virt nspin g).idxOf v] = v := List.getElem_idxOf hlt
    rw [List.mem_drop_iff_getElem, List.mem_iff_getElem]
    rw [List.pairwise_iff_getElem] at hvn
    constructor
    · rintro ⟨i, hi, rfl⟩
      refine ⟨⟨_, hi, by congr 1; omega⟩, ?_⟩
      have := hvn _ _ hlt hi (by omega)
      rw [hget] at this
      refine lt_of_lt_of_eq this ?_
      congr 1; omega
    · rintro ⟨⟨i, hi, rfl⟩, hvw⟩
      have : (PCCD.virt nspin g).idxOf v < i := by
        by_contra hc
        rcases Nat.lt_or_eq_of_le (not_lt.1 hc) with h | h
        · have := hvn _ _ hi hlt h
          rw [hget] at this; omega
        · subst h; rw [hget] at hvw; omega
      exact ⟨i - ((PCCD.virt nspin g).idxOf v + 1), by omega, by congr 1; omega⟩
  have anyM : ∀ key, key ∈ PCCD.doublesAny nspin g ↔ IsAnyDouble (nspin / 2) (nelec / 2) key := by
    intro key
    simp only [PCCD.doublesAny, h5, List.mem_flatMap, List.mem_map, List.mem_range, IsAnyDouble]
    constructor
    · rintro ⟨o, ho, v, hv, w, hw, rfl⟩
      rw [dropM hv] at hw
      exact ⟨o, v, w, ho, (hV v).1 hv, (hV w).1 hw.1, hw.2, rfl⟩
    · rintro ⟨o, v, w, ho, hv, hw, hvw, rfl⟩
      exact ⟨o, ho, v, (hV v).2 hv, w, (dropM ((hV v).2 hv)).2 ⟨(hV w).2 hw, hvw⟩, rfl⟩
  have setN : (PCCD.doublesSets nspin g (PCCD.virtAlphas nspin g) (PCCD.virtBetas nspin g)).Nodup := by
    rw [PCCD.doublesSets, h5]
    refine nd List.nodup_range (fun x _ => nd hAn (fun y _ => hBn.map fun a b h => by simpa using h) ?_) ?_
    · intro a b key ha hb
      obtain ⟨_, -, rfl⟩ := List.mem_map.1 ha
      obtain ⟨_, -, hb⟩ := List.mem_map.1 hb
      simp only [List.cons.injEq] at hb; omega
    · intro x y key hx hy
      simp only [List.mem_flatMap, List.mem_map] at hx hy
      obtain ⟨_, _, _, _, rfl⟩ := hx
      obtain ⟨_, _, _, _, hb⟩ := hy
      simp only [List.cons.injEq] at hb; omega
  have setM : ∀ key, key ∈ PCCD.doublesSets nspin g (PCCD.virtAlphas nspin g) (PCCD.virtBetas nspin g) ↔
      IsSpinDouble (nspin / 2) (nelec / 2) key := by
    intro key
    simp only [PCCD.doublesSets, h5, List.mem_flatMap, List.mem_map, List.mem_range, hA, hB, IsSpinDouble]
    constructor
    · rintro ⟨o, ho, v, ⟨hv1, hv2⟩, w, ⟨hw1, hw2⟩, rfl⟩
      exact ⟨o, v, w - nspin / 2, ho, hv1, hv2, by omega, by omega, by rw [Nat.sub_add_cancel (by omega)]⟩
    · rintro ⟨o, v, w, ho, hv1, hv2, hw1, hw2, rfl⟩
      exact ⟨o, ho, v, ⟨hv1, hv2⟩, w + nspin / 2, by omega, rfl⟩
  have sinN : ∀ {x y : List ℕ}, x.Nodup → y.Nodup → (PCCD.singlesSets nspin g x y).Nodup := by
    intro x y hx hy
    rw [PCCD.singlesSets, List.nodup_append, h5]
    refine ⟨nd List.nodup_range (fun _ _ => hx.map fun a b h => by simpa using h) ?_,
      nd List.nodup_range (fun _ _ => hy.map fun a b h => by simpa using h) ?_, ?_⟩
    · intro a b key ha hb
      obtain ⟨_, -, rfl⟩ := List.mem_map.1 ha
      obtain ⟨_, -, hb⟩ := List.mem_map.1 hb
      simp only [List.cons.injEq] at hb; omega
    · intro a b key ha hb
      obtain ⟨_, -, rfl⟩ := List.mem_map.1 ha
      obtain ⟨_, -, hb⟩ := List.mem_map.1 hb
      simp only [List.cons.injEq] at hb; omega
    · intro a ha b hb
      simp only [List.mem_flatMap, List.mem_map, List.mem_range] at ha hb
      obtain ⟨o, ho, _, _, rfl⟩ := ha
      obtain ⟨o', ho', _, _, rfl⟩ := hb
      intro e
      simp only [List.cons.injEq] at e; omega
  have sinM : ∀ key, key ∈ PCCD.singlesSets nspin g (PCCD.virt nspin g) (PCCD.virt nspin g) ↔ IsSingle (nspin / 2) (nelec / 2) key := by
    intro key
    simp only [PCCD.singlesSets, h5, List.mem_append, List.mem_flatMap, List.mem_map, List.mem_range, hV, IsSingle]
    constructor
    · rintro (⟨o, ho, v, hv, rfl⟩ | ⟨o, ho, v, hv, rfl⟩)
      · exact ⟨o, v, ho, hv, Or.inl rfl⟩
      · exact ⟨o, v, ho, hv, Or.inr rfl⟩
    · rintro ⟨o, v, ho, hv, rfl | rfl⟩
      · exact Or.inl ⟨o, ho, v, hv, rfl⟩
      · exact Or.inr ⟨o, ho, v, hv, rfl⟩
  have spiM : ∀ key, key ∈ PCCD.singlesSets nspin g (PCCD.virtAlphas nspin g) (PCCD.virtBetas nspin g) ↔
      IsSpinSingle (nspin / 2) (nelec / 2) key := by
    intro key
    simp only [PCCD.singlesSets, h5, List.mem_append, List.mem_flatMap, List.mem_map, List.mem_range, hA, hB, IsSpinSingle]
    constructor
    · rintro (⟨o, ho, v, ⟨hv1, hv2⟩, rfl⟩ | ⟨o, ho, v, ⟨hv1, hv2⟩, rfl⟩)
      · exact ⟨o, v, ho, hv1, hv2, Or.inl rfl⟩
      · exact ⟨o, v - nspin / 2, ho, by omega, by omega, Or.inr (by rw [Nat.sub_add_cancel (by omega)])⟩
    · rintro ⟨o, v, ho, hv1, hv2, rfl | rfl⟩
      · exact Or.inl ⟨o, ho, v, ⟨hv1, hv2⟩, rfl⟩
      · exact Or.inr ⟨o, ho, v + nspin / 2, by omega, rfl⟩
  have allN : ((occIndices (some g)).flatMap fun o => (PCCD.virt nspin g).map fun v => [o, v]).Nodup := by
    refine nd ((sorted_occIndices g).imp fun h => by omega) (fun _ _ => hVn.map fun a b h => by simpa using h) ?_
    intro a b key ha hb
    obtain ⟨_, -, rfl⟩ := List.mem_map.1 ha
    obtain ⟨_, -, hb⟩ := List.mem_map.1 hb
    simp only [List.cons.injEq] at hb; omega
  have allM : ∀ key, (key ∈ (occIndices (some g)).flatMap fun o => (PCCD.virt nspin g).map fun v => [o, v]) ↔
      IsSingle (nspin / 2) (nelec / 2) key := by
    intro key
    rw [← sinM]
    simp only [PCCD.singlesSets, h4, h5, List.flatMap_append, List.mem_append, List.flatMap_map]
  have app : ∀ {a b : List (List ℕ)} {P Q : List ℕ → Prop}, a.Nodup → b.Nodup → (∀ key, key ∈ a ↔ P key) → (∀ key, key ∈ b ↔ Q key) →
      (∀ key, P key → key.length = 2) → (∀ key, Q key → key.length = 4) → (a ++ b).Nodup ∧ ∀ key, key ∈ a ++ b ↔ P key ∨ Q key := by
    intro a b P Q ha hb hP hQ lP lQ
    refine ⟨List.nodup_append.2 ⟨ha, hb, ?_⟩, fun key => by rw [List.mem_append, hP, hQ]⟩
    rintro x hx y hy rfl
    have := lP x ((hP x).1 hx)
    have := lQ x ((hQ x).1 hy)
    omega
  have lP : ∀ key, IsPairDouble (nspin / 2) (nelec / 2) key → key.length = 4 := by rintro key ⟨_, _, _, _, _, rfl⟩; rfl
  have lA : ∀ key, IsAnyDouble (nspin / 2) (nelec / 2) key → key.length = 4 := by rintro key ⟨_, _, _, _, _, _, _, rfl⟩; rfl
  have lD : ∀ key, IsSpinDouble (nspin / 2) (nelec / 2) key → key.length = 4 := by rintro key ⟨_, _, _, _, _, _, _, _, rfl⟩; rfl
  have lS : ∀ key, IsSingle (nspin / 2) (nelec / 2) key → key.length = 2 := by rintro key ⟨_, _, _, _, rfl | rfl⟩ <;> rfl
  have lSS : ∀ key, IsSpinSingle (nspin / 2) (nelec / 2) key → key.length = 2 := by rintro key ⟨_, _, _, _, _, rfl | rfl⟩ <;> rfl
  cases k with
  | pccd => exact ⟨pairN, pairM⟩
  | apg1roD => exact ⟨anyN, anyM⟩
  | apset1roGD => exact ⟨setN, setM⟩
  | generalized => exact app (sinN hVn hVn) pairN sinM pairM lS lP
  | spin => exact app (sinN hAn hBn) pairN spiM pairM lSS lP
  | apg1roSD => exact app (sinN hVn hVn) anyN sinM anyM lS lA
  | apset1roGSD => exact app (sinN hAn hBn) setN spiM setM lSS lD
  | sdSen0 => exact app allN pairN allM pairM lS lP
  | sdtqSen0 => cases hk
  | sdqSen0 => cases hk
  | sdtSen2qSen0 => cases hk

/-- the wavefunction with `h` added to its parameter `j` -/
def pccdShift {R : Type} [CommRing R] (w : PCCD.Wfn R) (j : ℕ) (h : R) : PCCD.Wfn R := { w with base := shift w.base j h }

theorem pccd_ranks {k : Kind} {nelec : ℕ} {ranks : List ℕ} (h : PCCD.assignRanks k nelec = .ok ranks) :
    ranks.Nodup ∧ ∀ r ∈ ranks, 0 < r := by
  cases k <;> simp only [PCCD.assignRanks] at h <;>
    first | (split_ifs at h; injection h with h; subst h; decide) | (injection h with h; subst h; decide)

theorem pccd_reference {R : Type} {k : Kind} {nelec nspin : ℕ} {indices : Option (List ℤ × List ℤ)} {refwfn : Option ℕ} {params : ℕ → R}
    {b : Bool} {w : PCCD.Wfn R} (h : PCCD.init k nelec nspin false indices refwfn params b = .ok w) (hlt : w.base.refwfn < 2 ^ nspin) :
    (occSet w.base.refwfn).card = nelec ∧
      ∀ i ∈ occIndices (some w.base.refwfn), partner (nspin / 2) i ∈ occIndices (some w.base.refwfn) := by
  obtain ⟨-, e1, e2, e3, e4, e5, e6, e7, e8, g, hg, e9, e10, e11, e12⟩ := pccd_init_ok h
  cases refwfn with
  | none =>
    rw [e9, Option.getD_none]
    exact ⟨(ground_ok_facts hg).2.2, ground_closed hg e2⟩
  | some m =>
    rw [e9, Option.getD_some] at hlt ⊢
    exact assignRef_closed (e10 m rfl) e4 hlt

/-- C65. The derivative of the overlap with respect to a parameter is the rate at which the overlap changes with it, for all the classes;
the overlap and its derivative keep the same products although they inspect different determinants. -/
theorem C65_derivative_partial {R : Type} [CommRing R] [Nontrivial R] (k : Kind) (nelec nspin : ℕ)
    (indices : Option (List ℤ × List ℤ)) (refwfn : Option ℕ) (params : ℕ → R) (w : PCCD.Wfn R)
    (hw : PCCD.init k nelec nspin false indices refwfn params false = .ok w) (h0 : k.isSen0 = true → refwfn = none)
    (hlt : w.base.refwfn < 2 ^ nspin) (sd : ℕ) (hsd : (occSet sd).card = nelec) (j : ℕ) :
    ∃ x d, PCCD.overlap w sd = .ok x ∧ PCCD.dOverlap w sd j = .ok d ∧ ∀ h, PCCD.overlap (pccdShift w j h) sd = .ok (x + h * d) := by
  obtain ⟨-, e1, e2, e3, e4, e5, e6, e7, e8, g, hg, e9, e10, e11, e12⟩ := pccd_init_ok hw
  by_cases hs : sd = w.base.refwfn
  · exact ⟨1, 0, by simp [PCCD.overlap, hs], by simp [PCCD.dOverlap, hs], fun h => by simp [PCCD.overlap, pccdShift, shift, hs]⟩
  obtain ⟨hcard, hcl⟩ := pccd_reference hw hlt
  have hi : w.indExops = w.base.exops := by
    rcases hs : k.isSen0 with - | -
    · exact (e11 hs).2
    · obtain ⟨f1, f2⟩ := e12 hs
      rw [h0 hs] at e9
      rw [e9, Option.getD_none] at f1
      rw [f2]
      cases indices with
      | none => rw [PCCD.assignExops] at f1; injection f1
      | some xy => cases k <;> simp [PCCD.assignExops, PCCD.Kind.isSen0] at f1 hs
  obtain ⟨hr, hpos⟩ := pccd_ranks e8
  have hsd' : (occSet sd).card = (occSet w.base.refwfn).card := hsd.trans hcard.symm
  obtain ⟨L, l1, l2, l3⟩ := possibleExops_spec w.base.ranks w.base.exops (diffOrbs sd w.base.refwfn).2 (diffOrbs sd w.base.refwfn).1
    hr hpos (sorted_occIndices _) (sorted_occIndices _) (diff_lengths hsd')
  obtain ⟨s, s1, -⟩ := signExcite_diff R sd w.base.refwfn
  obtain ⟨s', paths, hexp, hnd⟩ := expansion_nodup w.base hr hpos (by rw [e7]; rfl) sd hsd'
  have hex : ∀ p : ℕ → R, expansion { w.base with params := p } sd = .ok (s, L.map (out w.base.exops)) := by
    intro p
    simp [expansion, s1, e7, l1, bind, Except.bind, pure, Except.pure]
  have hpp : (s', paths) = (s, L.map (out w.base.exops)) := by
    have := hexp w.base.params
    rw [hex] at this
    injection this with this
    exact this.symm
  have hps : paths = L.map (out w.base.exops) := congrArg Prod.snd hpp
  have hsel : PCCD.selectRows w (occIndices (some w.base.refwfn)) (L.map (out w.base.exops)) =
      PCCD.selectRows w (occIndices (some sd)) (L.map (out w.base.exops)) := by
    rw [PCCD.selectRows_out w hi _ _ _ L fun S hS => (l3 S).1 hS, PCCD.selectRows_out w hi _ _ _ L fun S hS => (l3 S).1 hS]
    congr 1
    apply List.filter_congr
    intro S hS
    have hn : 0 < nspin / 2 := (ground_ok_facts hg).1
    have key := PCCD.keepRow_iff w hpos hn (n := nspin / 2) (by refine lt_of_lt_of_eq hlt ?_; congr 1; omega) hcl sd ((l3 S).1 hS)
    rw [e5, Bool.eq_iff_iff, key.1, key.2]
  have hnd' : ∀ p ∈ PCCD.selectRows w (occIndices (some sd)) (L.map (out w.base.exops)), p.1.Nodup := by
    intro p hp
    rw [← hps] at hp
    exact hnd p (List.mem_of_mem_filter hp)
  refine ⟨s * amplitudes w.base.params (PCCD.selectRows w (occIndices (some sd)) (L.map (out w.base.exops))),
    s * dAmplitudes w.base.params (PCCD.selectRows w (occIndices (some sd)) (L.map (out w.base.exops))) j, ?_, ?_, fun h => ?_⟩
  · rw [PCCD.overlap, if_neg hs, hex w.base.params]; rfl
  · rw [PCCD.dOverlap, if_neg hs, hex w.base.params]
    simp only [bind, Except.bind, pure, Except.pure]
    rw [hsel]
  · have e : PCCD.overlap (pccdShift w j h) sd = .ok (s * amplitudes (Function.update w.base.params j (w.base.params j + h))
        (PCCD.selectRows w (occIndices (some sd)) (L.map (out w.base.exops)))) := by
      rw [pccdShift, shift, PCCD.overlap, if_neg hs, hex]; rfl
    rw [e, amplitudes_shift _ _ hnd']
    congr 1
    ring

/-! # Property C66: parameters without effect -/

/-- C66. The parameter of an operator whose annihilators or whose creators are not in increasing order does not change any overlap: the
operators of the products that the code looks up have both in increasing order. -/
theorem C66_unordered {R : Type} [CommRing R] [Nontrivial R] (k : Kind) (nelec nspin : ℕ)
    (indices : Option (List ℤ × List ℤ)) (refwfn : Option ℕ) (params : ℕ → R) (w : PCCD.Wfn R)
    (hw : PCCD.init k nelec nspin false indices refwfn params false = .ok w) (sd : ℕ) (hsd : (occSet sd).card = nelec) (j : ℕ)
    (hj : ∀ a c, w.base.exops[j]? = some (a ++ c) → a.length = c.length → ¬ (a.Pairwise (· < ·) ∧ c.Pairwise (· < ·))) (h : R) :
    PCCD.overlap (pccdShift w j h) sd = PCCD.overlap w sd ∧ PCCD.dOverlap w sd j = .ok 0 := by
  obtain ⟨-, e1, e2, e3, e4, e5, e6, e7, e8, g, hg, e9, e10, e11, e12⟩ := pccd_init_ok hw
  by_cases hs : sd = w.base.refwfn
  · exact ⟨by simp [PCCD.overlap, pccdShift, shift, hs], by simp [PCCD.dOverlap, hs]⟩
  have hcard : (occSet w.base.refwfn).card = nelec := by
    cases refwfn with
    | none => rw [e9, Option.getD_none]; exact (ground_ok_facts hg).2.2
    | some m =>
      have := e10 m rfl
      unfold PCCD.assignRef at this
      by_cases c1 : totalOcc (some m) ≠ nelec
      · rw [if_pos c1] at this; cases this
      · rw [not_not, totalOcc_eq] at c1
        rw [e9]; exact c1
  obtain ⟨hr, hpos⟩ := pccd_ranks e8
  have hsd' : (occSet sd).card = (occSet w.base.refwfn).card := hsd.trans hcard.symm
  obtain ⟨L, l1, l2, l3⟩ := possibleExops_spec w.base.ranks w.base.exops (diffOrbs sd w.base.refwfn).2 (diffOrbs sd w.base.refwfn).1
    hr hpos (sorted_occIndices _) (sorted_occIndices _) (diff_lengths hsd')
  obtain ⟨s, s1, -⟩ := signExcite_diff R sd w.base.refwfn
  have hex : ∀ p : ℕ → R, expansion { w.base with params := p } sd = .ok (s, L.map (out w.base.exops)) := by
    intro p
    simp [expansion, s1, e7, l1, bind, Except.bind, pure, Except.pure]
  have hno : ∀ occ, ∀ p ∈ PCCD.selectRows w occ (L.map (out w.base.exops)), j ∉ p.1 := by
    intro occ p hp hjp
    obtain ⟨S, hS, rfl⟩ := List.mem_map.1 (List.mem_of_mem_filter hp)
    simp only [out, List.mem_map] at hjp
    obtain ⟨q, hq, rfl⟩ := hjp
    have hP := (l3 S).1 hS
    refine hj q.1 q.2 ?_ (hP.len q hq) ⟨hP.srtA q hq, hP.srtC q hq⟩
    rw [List.getElem?_eq_getElem (List.idxOf_lt_length_of_mem (hP.mem q hq))]
    exact congrArg some (List.getElem_idxOf _)
  constructor
  · have e : PCCD.overlap (pccdShift w j h) sd = .ok (s * amplitudes (Function.update w.base.params j (w.base.params j + h))
        (PCCD.selectRows w (occIndices (some sd)) (L.map (out w.base.exops)))) := by
      rw [pccdShift, shift, PCCD.overlap, if_neg hs, hex]; rfl
    have e' : PCCD.overlap w sd = .ok (s * amplitudes w.base.params
        (PCCD.selectRows w (occIndices (some sd)) (L.map (out w.base.exops)))) := by
      rw [PCCD.overlap, if_neg hs, hex w.base.params]; rfl
    rw [e, e']
    congr 2
    unfold amplitudes
    congr 1
    apply List.map_congr_left
    intro p hp
    rw [amp_prod_update _ _ _ _ (hno _ p hp)]
  · rw [PCCD.dOverlap, if_neg hs, hex w.base.params]
    simp only [bind, Except.bind, pure, Except.pure]
    congr 1
    refine (congrArg ((s : R) * ·) ?_).trans (mul_zero _)
    unfold dAmplitudes
    apply List.sum_eq_zero
    intro x hx
    obtain ⟨p, hp, rfl⟩ := List.mem_map.1 hx
    rw [if_neg (hno _ p hp)]

theorem exopsFrom_length {ranks a c key : List ℕ} (h : key ∈ exopsFrom ranks a c) : ∃ r ∈ ranks, key.length = 2 * r := by
  simp only [exopsFrom, List.mem_flatMap, List.mem_map] at h
  obtain ⟨r, hr, x, hx, y, hy, rfl⟩ := h
  refine ⟨r, hr, ?_⟩
  rw [List.length_append, (mem_comb.1 hx).2, (mem_comb.1 hy).2]; omega

/-- C66. None of the parameters of the quadruple excitations of `CCSDTQsen0`, `CCSDQsen0` and `CCSDTsen2Qsen0` changes any overlap. -/
theorem C66_quadruples {R : Type} [CommRing R] [Nontrivial R] (k : Kind) (hk : hasTriples k = true) (nelec nspin : ℕ)
    (refwfn : Option ℕ) (params : ℕ → R) (w : PCCD.Wfn R)
    (hw : PCCD.init k nelec nspin false none refwfn params false = .ok w) (hlt : w.base.refwfn < 2 ^ nspin)
    (sd : ℕ) (hsd : (occSet sd).card = nelec) (j : ℕ) (key : List ℕ) (hj : w.base.exops[j]? = some key) (h8 : key.length = 8) (h : R) :
    PCCD.overlap (pccdShift w j h) sd = PCCD.overlap w sd ∧ PCCD.dOverlap w sd j = .ok 0 := by
  obtain ⟨-, e1, e2, e3, e4, e5, e6, e7, e8, g, hg, e9, e10, e11, e12⟩ := pccd_init_ok hw
  refine C66_unordered k nelec nspin none refwfn params w hw sd hsd j ?_ h
  intro a c hac hl
  rw [hj, Option.some.injEq] at hac
  have hs : k.isSen0 = true := by cases k <;> simp_all [PCCD.Kind.isSen0, hasTriples]
  have hE := (e12 hs).1
  rw [PCCD.assignExops] at hE
  injection hE with hE
  have hm : key ∈ w.base.exops := List.mem_of_getElem? hj
  rw [← hE] at hm
  have hq : key ∈ PCCD.quadruples nspin w.base.refwfn := by
    cases k with
    | sdtqSen0 =>
      simp only [PCCD.assignRanks] at e8
      split_ifs at e8
      injection e8 with e8
      rw [PCCD.defaultExops, ← e8, List.mem_append] at hm
      rcases hm with hm | hm
      · obtain ⟨r, hr, hl⟩ := exopsFrom_length hm
        simp at hr; omega
      · exact hm
    | sdqSen0 =>
      simp only [PCCD.assignRanks] at e8
      split_ifs at e8
      injection e8 with e8
      rw [PCCD.defaultExops, ← e8, List.mem_append] at hm
      rcases hm with hm | hm
      · obtain ⟨r, hr, hl⟩ := exopsFrom_length hm
        simp at hr; omega
      · exact hm
    | sdtSen2qSen0 =>
      simp only [PCCD.assignRanks] at e8
      split_ifs at e8
      injection e8 with e8
      rw [PCCD.defaultExops, ← e8, List.mem_append, List.mem_append] at hm
      rcases hm with (hm | hm) | hm
      · obtain ⟨r, hr, hl⟩ := exopsFrom_length hm
        simp at hr; omega
      · simp only [PCCD.triples, List.mem_flatMap, List.mem_map] at hm
        obtain ⟨_, _, _, _, _, _, _, _, rfl⟩ := hm
        simp at h8
      · exact hm
    | _ => cases hk
  simp only [PCCD.quadruples, List.mem_flatMap, List.mem_map] at hq
  obtain ⟨o1, ho1, o2, ho2, v1, hv1, v2, hv2, rfl⟩ := hq
  obtain ⟨rfl, rfl⟩ := List.append_inj (s₁ := [o1, o1 + nspin / 2, o2, o2 + nspin / 2])
    (t₁ := [v1, v1 + nspin / 2, v2, v2 + nspin / 2]) hac (by
      have := congrArg List.length hac
      rw [List.length_append] at this
      simp at this ⊢; omega)
  -- the second pair is below the alpha orbitals' end
  have hlt2 : o2 < nspin / 2 := by
    obtain ⟨hcard, hcl⟩ := pccd_reference hw hlt
    have ho := List.mem_of_mem_drop ho2
    have hlen : (occIndices (some w.base.refwfn)).length = nelec := by rw [length_occIndices, hcard]
    have hb : ∀ i ∈ occIndices (some w.base.refwfn), i < nspin := by
      intro i hi
      rw [mem_occIndices] at hi
      by_contra hc
      rw [Nat.testBit_lt_two_pow (lt_of_lt_of_le hlt (Nat.pow_le_pow_right (by norm_num) (not_lt.1 hc)))] at hi
      cases hi
    have hadd : ∀ i ∈ PCCD.occHalf w.base.refwfn, i + nspin / 2 ∈ occIndices (some w.base.refwfn) := by
      cases refwfn with
      | none =>
        rw [e9, Option.getD_none]
        obtain ⟨h1, h2, h3, h4, h5, -⟩ := ground_even hg e2
        intro i hi
        rw [h5] at hi
        rw [h4, List.mem_append]
        exact Or.inr (List.mem_map.2 ⟨i, hi, rfl⟩)
      | some m =>
        have ha := e10 m rfl
        rw [e9, Option.getD_some] at hlen ⊢
        unfold PCCD.assignRef at ha
        split_ifs at ha with c1 c2
        intro i hi
        rw [PCCD.occHalf, hlen] at hi
        exact c2.1 i hi
    have := hb _ (hadd o2 ho)
    omega
  rintro ⟨hp, -⟩
  simp at hp
  omega

/-- `CCSDsen0` with two electrons in two spatial orbitals meets the hypotheses of `C65_product_partial` and `C65_derivative_partial`: the products
of two single excitations are left out of the overlap with the doubly excited determinant -/
theorem pccd_witness (t : ℕ → ℚ) : ∃ w : PCCD.Wfn ℚ, PCCD.init .sdSen0 2 4 false none none t false = .ok w ∧ w.base.refwfn < 2 ^ 4 ∧
    (∀ g, ground 2 4 = .ok g → Disjoint ({1, 3} : Finset ℕ) (occSet g) ∧ Finset.range 4 \ occSet g ⊆ {1, 3}) ∧
    (occSet 0b1010).card = 2 ∧ (occSet 0b1001).card = 2 ∧ PCCD.overlap w 0b1010 = .ok (-t 4) ∧ PCCD.overlap w 0b1001 = .ok (t 3) ∧
    PCCD.dOverlap w 0b1010 4 = .ok (-1) ∧ PCCD.dOverlap w 0b1010 0 = .ok 0 ∧ PCCD.dOverlap w 0b1001 3 = .ok 1 := by
  have hg : ground 2 4 = .ok 0b0101 := by decide +kernel
  have hd : diffOrbs 0b1010 0b0101 = ([1, 3], [0, 2]) := by decide +kernel
  have hd' : diffOrbs 0b1001 0b0101 = ([3], [2]) := by decide +kernel
  have hs : signExcite (some 0b0101) [0, 2] [1, 3] = .ok (-1) := by decide +kernel
  have hs' : signExcite (some 0b0101) [2] [3] = .ok 1 := by decide +kernel
  have hp : possibleExops [1, 2] [[0, 1], [0, 3], [2, 1], [2, 3], [0, 2, 1, 3]] [0, 2] [1, 3] = .ok [([0, 3], -1), ([1, 2], 1), ([4], 1)] := by
    have h : binSizeNum [2] = [(2, 1)] := by decide +kernel
    have h0 : intPartition [1, 2] 2 2 = some [[2], [1, 1]] := by
      unfold intPartition; simp; unfold intPartition; simp; unfold intPartition; simp; unfold intPartition; simp
    have h' : binSizeNum [1, 1] = [(1, 2)] := by decide +kernel
    simp only [possibleExops, List.length_cons, List.length_nil, zero_add, Nat.reduceAdd, h0, ofOption, bind, Except.bind, List.reverse_cons,
      List.reverse_nil, List.nil_append, List.singleton_append, List.mapM_cons, List.mapM_nil, h, h', pure, Except.pure]
    decide +kernel
  have hp' : possibleExops [1, 2] [[0, 1], [0, 3], [2, 1], [2, 3], [0, 2, 1, 3]] [2] [3] = .ok [([3], 1)] := by
    have h0 : intPartition [1, 2] 2 1 = some [[1]] := by
      unfold intPartition; simp; unfold intPartition; simp; unfold intPartition; simp
    have h' : binSizeNum [1] = [(1, 1)] := by decide +kernel
    simp only [possibleExops, List.length_cons, List.length_nil, zero_add, Nat.reduceAdd, h0, ofOption, bind, Except.bind, List.reverse_cons,
      List.reverse_nil, List.nil_append, List.singleton_append, List.mapM_cons, List.mapM_nil, h', pure, Except.pure]
    decide +kernel
  have hk : ∀ l : List (List ℕ × ℤ), l = [([0, 3], -1), ([1, 2], 1), ([4], 1)] → PCCD.selectRows (⟨⟨[1, 2], 0b0101, [[0, 1], [0, 3], [2, 1], [2, 3], [0, 2, 1, 3]], t, true⟩, 2,
      [[0, 1], [0, 3], [2, 1], [2, 3], [0, 2, 1, 3]]⟩ : PCCD.Wfn ℚ) (occIndices (some 0b1010)) l = [([4], 1)] := by
    have : occIndices (some 0b1010) = [1, 3] := by decide +kernel
    rintro l rfl
    rw [this]
    simp [PCCD.selectRows, PCCD.keepRow, PCCD.keepOp, PCCD.trashAll, List.filter]
  have hk' : ∀ l : List (List ℕ × ℤ), l = [([0, 3], -1), ([1, 2], 1), ([4], 1)] → PCCD.selectRows (⟨⟨[1, 2], 0b0101, [[0, 1], [0, 3], [2, 1], [2, 3], [0, 2, 1, 3]], t, true⟩, 2,
      [[0, 1], [0, 3], [2, 1], [2, 3], [0, 2, 1, 3]]⟩ : PCCD.Wfn ℚ) (occIndices (some 0b0101)) l = [([4], 1)] := by
    have : occIndices (some 0b0101) = [0, 2] := by decide +kernel
    rintro l rfl
    rw [this]
    simp [PCCD.selectRows, PCCD.keepRow, PCCD.keepOp, PCCD.trashAll, List.filter]
  have hk1 : ∀ sd, occIndices (some sd) = [0, 3] ∨ occIndices (some sd) = [0, 2] → PCCD.selectRows (⟨⟨[1, 2], 0b0101, [[0, 1], [0, 3], [2, 1], [2, 3], [0, 2, 1, 3]], t, true⟩, 2,
      [[0, 1], [0, 3], [2, 1], [2, 3], [0, 2, 1, 3]]⟩ : PCCD.Wfn ℚ) (occIndices (some sd)) [([3], 1)] = [([3], 1)] := by
    rintro sd (h | h) <;> rw [h] <;> rfl
  refine ⟨⟨⟨[1, 2], 0b0101, [[0, 1], [0, 3], [2, 1], [2, 3], [0, 2, 1, 3]], t, true⟩, 2, [[0, 1], [0, 3], [2, 1], [2, 3], [0, 2, 1, 3]]⟩, ?_,
    (by norm_num : 0b0101 < 2 ^ 4), ?_, by decide +kernel, by decide +kernel, ?_, ?_, ?_, ?_, ?_⟩
  · have he : PCCD.assignExops .sdSen0 4 0b0101 [1, 2] none = .ok [[0, 1], [0, 3], [2, 1], [2, 3], [0, 2, 1, 3]] := by decide +kernel
    have he' : PCCD.defaultExops .sdSen0 4 0b0101 [1, 2] = [[0, 1], [0, 3], [2, 1], [2, 3], [0, 2, 1, 3]] := by decide +kernel
    have hr : PCCD.assignRanks .sdSen0 2 = .ok [1, 2] := by decide +kernel
    simp only [PCCD.init, hg, hr, he, he', bind, Except.bind]
    rfl
  · intro g h
    rw [hg] at h
    injection h with h
    subst h
    decide +kernel
  · simp [PCCD.overlap, expansion, hd, hs, hp, hk _ rfl, bind, Except.bind, pure, Except.pure, amplitudes]
  · simp [PCCD.overlap, expansion, hd', hs', hp', hk1 0b1001 (Or.inl (by decide +kernel)), bind, Except.bind, pure, Except.pure, amplitudes]
  · simp [PCCD.dOverlap, expansion, hd, hs, hp, hk' _ rfl, bind, Except.bind, pure, Except.pure, dAmplitudes]
  · simp [PCCD.dOverlap, expansion, hd, hs, hp, hk' _ rfl, bind, Except.bind, pure, Except.pure, dAmplitudes]
  · simp [PCCD.dOverlap, expansion, hd', hs', hp', hk1 0b0101 (Or.inr (by decide +kernel)), bind, Except.bind, pure, Except.pure, dAmplitudes]

/-- C65 fails for `CCSDsen0` with a reference that is not the ground state: the products are selected by the operators of the ground state
(`ind_exops` is not assigned again), so the single excitation of an electron of the reference can be left out of the overlap and of its
derivative. -/
theorem C65_stale_operators (t : ℕ → ℚ) : ∃ w : PCCD.Wfn ℚ, PCCD.init .sdSen0 2 6 false none (some 0b010010) t false = .ok w ∧
    w.base.refwfn = 0b010010 ∧ w.base.exops.idxOf [1, 0] = 0 ∧ 0 < w.base.exops.length ∧
    (excOp [1] [0] (ket (occSet 0b010010)) : Fock ℚ) (occSet 0b010001) = 1 ∧
    PCCD.overlap w 0b010001 = .ok 0 ∧ PCCD.dOverlap w 0b010001 0 = .ok 0 := by
  have hg : ground 2 6 = .ok 0b001001 := by decide +kernel
  have hd : diffOrbs 0b010001 0b010010 = ([0], [1]) := by decide +kernel
  have hs : signExcite (some 0b010010) [1] [0] = .ok 1 := by decide +kernel
  have hp : possibleExops [1, 2] [[1, 0], [1, 2], [1, 3], [1, 5], [4, 0], [4, 2], [4, 3], [4, 5], [1, 4, 0, 3], [1, 4, 2, 5]] [1] [0] =
      .ok [([0], 1)] := by
    have h0 : intPartition [1, 2] 2 1 = some [[1]] := by
      unfold intPartition; simp; unfold intPartition; simp; unfold intPartition; simp
    have h' : binSizeNum [1] = [(1, 1)] := by decide +kernel
    simp only [possibleExops, List.length_cons, List.length_nil, zero_add, Nat.reduceAdd, h0, ofOption, bind, Except.bind, List.reverse_cons,
      List.reverse_nil, List.nil_append, List.singleton_append, List.mapM_cons, List.mapM_nil, h', pure, Except.pure]
    decide +kernel
  have hk1 : ∀ sd, occIndices (some sd) = [0, 4] ∨ occIndices (some sd) = [1, 4] → PCCD.selectRows (⟨⟨[1, 2], 0b010010, [[1, 0], [1, 2], [1, 3], [1, 5], [4, 0], [4, 2],
      [4, 3], [4, 5], [1, 4, 0, 3], [1, 4, 2, 5]], t, true⟩, 3, [[0, 1], [0, 2], [0, 4], [0, 5], [3, 1], [3, 2], [3, 4], [3, 5], [0, 3, 1, 4],
      [0, 3, 2, 5]]⟩ : PCCD.Wfn ℚ) (occIndices (some sd)) [([0], 1)] = [] := by
    rintro sd (h | h) <;> rw [h] <;> rfl
  refine ⟨⟨⟨[1, 2], 0b010010, [[1, 0], [1, 2], [1, 3], [1, 5], [4, 0], [4, 2], [4, 3], [4, 5], [1, 4, 0, 3], [1, 4, 2, 5]], t, true⟩, 3,
    [[0, 1], [0, 2], [0, 4], [0, 5], [3, 1], [3, 2], [3, 4], [3, 5], [0, 3, 1, 4], [0, 3, 2, 5]]⟩, ?_, rfl, rfl, by simp, ?_, ?_, ?_⟩
  · have he : PCCD.assignExops .sdSen0 6 0b010010 [1, 2] none = .ok [[1, 0], [1, 2], [1, 3], [1, 5], [4, 0], [4, 2], [4, 3], [4, 5], [1, 4, 0, 3],
        [1, 4, 2, 5]] := by decide +kernel
    have he' : PCCD.defaultExops .sdSen0 6 0b001001 [1, 2] = [[0, 1], [0, 2], [0, 4], [0, 5], [3, 1], [3, 2], [3, 4], [3, 5], [0, 3, 1, 4],
      [0, 3, 2, 5]] := by decide +kernel
    have hr : PCCD.assignRanks .sdSen0 2 = .ok [1, 2] := by decide +kernel
    have ha : PCCD.assignRef 2 6 0b010010 = .ok 0b010010 := by decide +kernel
    simp only [PCCD.init, hg, hr, ha, he, he', bind, Except.bind]
    rfl
  · obtain ⟨s, h1, h2⟩ := signExcite_diff ℚ 0b010001 0b010010
    rw [hd] at h1 h2
    rw [hs] at h1
    injection h1 with h1
    rw [h2, ← h1]
    norm_num
  · simp [PCCD.overlap, expansion, hd, hs, hp, hk1 0b010001 (Or.inl (by decide +kernel)), bind, Except.bind, pure, Except.pure, amplitudes]
  · simp [PCCD.dOverlap, expansion, hd, hs, hp, hk1 0b010010 (Or.inr (by decide +kernel)), bind, Except.bind, pure, Except.pure, dAmplitudes]

/-- the classes of `C66_quadruples` have quadruple excitations -/
example : ∃ w : PCCD.Wfn ℚ, PCCD.init .sdtqSen0 4 8 false none none (fun _ => 1) false = .ok w ∧ [0, 4, 1, 5, 2, 6, 3, 7] ∈ w.base.exops ∧
    w.base.refwfn < 2 ^ 8 := by
  have hg : ground 4 8 = .ok 0b00110011 := by decide +kernel
  have hr : PCCD.assignRanks .sdtqSen0 4 = .ok [1, 2, 3, 4] := by decide +kernel
  have hm : [0, 4, 1, 5, 2, 6, 3, 7] ∈ PCCD.defaultExops .sdtqSen0 8 0b00110011 [1, 2, 3, 4] := by decide +kernel
  refine ⟨⟨⟨[1, 2, 3, 4], 0b00110011, PCCD.defaultExops .sdtqSen0 8 0b00110011 [1, 2, 3, 4], fun _ => 1, true⟩, 4,
    PCCD.defaultExops .sdtqSen0 8 0b00110011 [1, 2, 3, 4]⟩, ?_, hm, by norm_num⟩
  simp only [PCCD.init, hg, hr, PCCD.assignExops, bind, Except.bind]
  rfl

end Fanpy.Props
