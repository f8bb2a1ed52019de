import Verif.Model.JacobiNested
import Verif.Lemmas.RotTwo
import Verif.Props.Jacobi

/-! # C132: rotations of two orbitals after each other -/

namespace Fanpy.Props
open Fanpy.Slater Fanpy.Spec Fanpy.Jacobi Finset

/-! ## Set-up -/

theorem jg_split {n : ℕ} {Ta Tb : Finset ℕ} (ha : Ta ⊆ range n) :
    occSet (sdOf (spinSet n Ta Tb) % 2 ^ n) = Ta ∧ occSet (sdOf (spinSet n Ta Tb) / 2 ^ n) = Tb := by
  have ha' : ∀ k ∈ Ta, k < n := fun k hk => mem_range.1 (ha hk)
  have e : ∀ k, (sdOf (spinSet n Ta Tb)).testBit k = true ↔ k ∈ spinSet n Ta Tb := by
    intro k; rw [← mem_occSet, occSet_sdOf]
  constructor
  · ext k
    rw [mem_occSet, Nat.testBit_mod_two_pow, Bool.and_eq_true, e, mem_spinSet ha']
    constructor
    · rintro ⟨h1, h2⟩
      rwa [if_pos (of_decide_eq_true h1)] at h2
    · intro h
      exact ⟨decide_eq_true (ha' k h), by rwa [if_pos (ha' k h)]⟩
  · ext k
    rw [mem_occSet, Nat.testBit_div_two_pow, e, mem_spinSet_beta ha']

/-- the value of the overlap at the set of the occupied spin orbitals -/
def jgValue {R : Type} [CommRing R] (w : Wfn R) (c s : R) (f : Finset ℕ → R) (S : Finset ℕ) : R :=
  if w.orbtype = .restricted then
    resValue c s w.p w.q w.nspatial f (occSet (sdOf S % 2 ^ w.nspatial)) (occSet (sdOf S / 2 ^ w.nspatial))
  else rotTwo c s w.p w.q f S

section
variable {R : Type} [CommRing R] {w : Wfn R}

theorem jg_overlap (hn : w.nspin % 2 = 0) (h : w.p < w.q)
    (hq : w.q < if w.orbtype = .restricted then w.nspin / 2 else w.nspin) {f : Finset ℕ → R}
    (hf : ∀ S ⊆ range w.nspin, w.comp (some (sdOf S)) = .ok (f S)) (c s : R) {sd : ℕ} (hsd : sd < 2 ^ w.nspin) :
    w.overlap c s sd = .ok (jgValue w c s f (occSet sd)) := by
  rw [Wfn.overlap, jgValue, sdOf_occSet]
  split_ifs at hq ⊢ with ht
  · exact olpRestricted_eq hn hf hsd (h.trans hq) hq c s
  · exact olpSpin_eq hf (h.trans hq) hq hsd c s

omit [CommRing R] in
theorem jg_table {comp : Option ℕ → Except PyErr R} {n : ℕ} {g : ℕ → R} (hc : ∀ sd < 2 ^ n, comp (some sd) = .ok (g sd)) :
    ∀ S ⊆ range n, comp (some (sdOf S)) = .ok (g (sdOf S)) := by
  intro S hS
  refine hc _ (lt_two_pow_iff.2 ?_)
  rw [occSet_sdOf]
  exact fun k hk => mem_range.1 (hS hk)

theorem jg_parts {n sd : ℕ} (hsd : sd < 2 ^ (n + n)) : occSet (sd % 2 ^ n) ⊆ range n ∧ occSet (sd / 2 ^ n) ⊆ range n := by
  constructor
  · exact fun k hk => mem_range.2 (lt_two_pow_iff.1 (Nat.mod_lt _ (by positivity)) k hk)
  · exact fun k hk => mem_range.2 (lt_two_pow_iff.1 (Nat.div_lt_of_lt_mul (by rwa [← pow_add])) k hk)

theorem jg_value_comp (hn : w.nspin % 2 = 0) (h : w.p < w.q)
    (hq : w.q < if w.orbtype = .restricted then w.nspin / 2 else w.nspin) (f : Finset ℕ → R) (c s c' s' : R) {sd : ℕ}
    (hsd : sd < 2 ^ w.nspin) :
    jgValue w c' s' (jgValue w c s f) (occSet sd) = jgValue w (c * c' - s * s') (s * c' + c * s') f (occSet sd) := by
  by_cases ht : w.orbtype = .restricted
  · rw [if_pos ht] at hq
    have hp := h.trans hq
    have hnn : w.nspin = w.nspatial + w.nspatial := by rw [Wfn.nspatial]; omega
    obtain ⟨ha, hb⟩ := jg_parts (n := w.nspatial) (hnn ▸ hsd)
    simp only [jgValue, if_pos ht, sdOf_occSet]
    change w.q < w.nspatial at hq
    change w.p < w.nspatial at hp
    generalize occSet (sd % 2 ^ w.nspatial) = Sa at ha ⊢
    generalize occSet (sd / 2 ^ w.nspatial) = Sb at hb ⊢
    simp only [resValue]
    rw [rotTwo_congr hp hq (g := fun Ta => rotTwo c s w.p w.q (fun Va =>
      rotTwo (c * c' - s * s') (s * c' + c * s') w.p w.q (fun Vb => f (spinSet w.nspatial Va Vb)) Sb) Ta) _ ha]
    · exact rotTwo_comp c s c' s' h.ne _ Sa
    · intro Ta hTa
      rw [rotTwo_congr hp hq (g := fun Tb => rotTwo c s w.p w.q (fun Va =>
        rotTwo c s w.p w.q (fun Vb => f (spinSet w.nspatial Va Vb)) Tb) Ta) _ hb]
      · rw [rotTwo_comm c' s' c s w.p w.q (fun Va Tb => rotTwo c s w.p w.q (fun Vb => f (spinSet w.nspatial Va Vb)) Tb) Sb Ta]
        congr 1
        funext Va
        exact rotTwo_comp c s c' s' h.ne _ Sb
      · intro Tb _
        obtain ⟨e1, e2⟩ := jg_split (n := w.nspatial) (Tb := Tb) hTa
        simp only [jgValue, if_pos ht, resValue, e1, e2]
  · have e : ∀ x y : R, ∀ g, jgValue w x y g = rotTwo x y w.p w.q g := by
      intro x y g; funext S; rw [jgValue, if_neg ht]
    rw [e, e, e]
    exact rotTwo_comp c s c' s' h.ne f _

theorem jg_value_zero (f : Finset ℕ → R) (sd : ℕ) : jgValue w 1 0 f (occSet sd) = f (occSet sd) := by
  rw [jgValue, sdOf_occSet]
  split_ifs with ht
  · rw [resValue, rotTwo_one_zero, rotTwo_one_zero, ← occSet_spinSet]
  · exact rotTwo_one_zero _ _ _ _

end

/-! ## The claims -/

/-- Without parameters the wavefunction has the overlaps of its component, for every kind of orbitals. -/
theorem C132_default (w : Wfn ℝ) (hn : w.nspin % 2 = 0) (h : w.p < w.q)
    (hq : w.q < if w.orbtype = .restricted then w.nspin / 2 else w.nspin)
    (hc : ∀ sd < 2 ^ w.nspin, ∃ v, w.comp (some sd) = .ok v) (sd : ℕ) (hsd : sd < 2 ^ w.nspin) :
    w.overlap (Real.cos (angle none)) (Real.sin (angle none)) sd = w.comp (some sd) := by
  choose! g hg using hc
  rw [angle, Real.cos_zero, Real.sin_zero, jg_overlap hn h hq (jg_table hg) 1 0 hsd, jg_value_zero, sdOf_occSet, hg sd hsd]

/-- A wavefunction rotated by `θ`, as the component of one rotated by `φ` with the same orbitals, is the component rotated by
`θ + φ`: all overlaps are the same. -/
theorem C132_compose (w : Wfn ℝ) (hn : w.nspin % 2 = 0) (h : w.p < w.q)
    (hq : w.q < if w.orbtype = .restricted then w.nspin / 2 else w.nspin)
    (hc : ∀ sd < 2 ^ w.nspin, ∃ v, w.comp (some sd) = .ok v) (θ φ : ℝ) (sd : ℕ) (hsd : sd < 2 ^ w.nspin) :
    Wfn.overlap ⟨w.nspin, w.orbtype, w.p, w.q, w.asComponent (Real.cos (angle (some θ))) (Real.sin (angle (some θ)))⟩
        (Real.cos (angle (some φ))) (Real.sin (angle (some φ))) sd =
      w.overlap (Real.cos (angle (some (θ + φ)))) (Real.sin (angle (some (θ + φ)))) sd := by
  choose! g hg using hc
  simp only [angle]
  have hin : ∀ S ⊆ range w.nspin, w.asComponent (Real.cos θ) (Real.sin θ) (some (sdOf S)) =
      .ok (jgValue w (Real.cos θ) (Real.sin θ) (fun S => g (sdOf S)) S) := by
    intro S hS
    have hS' : sdOf S < 2 ^ w.nspin := lt_two_pow_iff.2 (by rw [occSet_sdOf]; exact fun k hk => mem_range.1 (hS hk))
    rw [Wfn.asComponent, jg_overlap hn h hq (jg_table hg) _ _ hS', occSet_sdOf]
  rw [jg_overlap (w := ⟨w.nspin, w.orbtype, w.p, w.q, w.asComponent (Real.cos θ) (Real.sin θ)⟩) hn h hq hin _ _ hsd, jg_overlap hn h hq (jg_table hg) _ _ hsd,
    Real.cos_add, Real.sin_add]
  exact congrArg _ (jg_value_comp hn h hq (fun S => g (sdOf S)) _ _ _ _ hsd)

/-- A rotation is undone by the opposite angle. -/
theorem C132_inverse (w : Wfn ℝ) (hn : w.nspin % 2 = 0) (h : w.p < w.q)
    (hq : w.q < if w.orbtype = .restricted then w.nspin / 2 else w.nspin)
    (hc : ∀ sd < 2 ^ w.nspin, ∃ v, w.comp (some sd) = .ok v) (θ : ℝ) (sd : ℕ) (hsd : sd < 2 ^ w.nspin) :
    Wfn.overlap ⟨w.nspin, w.orbtype, w.p, w.q, w.asComponent (Real.cos (angle (some θ))) (Real.sin (angle (some θ)))⟩
        (Real.cos (angle (some (-θ)))) (Real.sin (angle (some (-θ)))) sd = w.comp (some sd) := by
  rw [C132_compose w hn h hq hc θ (-θ) sd hsd, add_neg_cancel]
  exact C132_default w hn h hq hc sd hsd

theorem jg_sum_powerset (n : ℕ) (F : Finset ℕ → ℝ) :
    ∑ sd ∈ range (2 ^ n), F (occSet sd) = ∑ S ∈ (range n).powerset, F S := by
  refine sum_nbij' occSet sdOf ?_ ?_ ?_ ?_ ?_
  · intro sd hsd
    exact mem_powerset.2 fun k hk => mem_range.2 (lt_two_pow_iff.1 (mem_range.1 hsd) k hk)
  · intro S hS
    exact mem_range.2 (lt_two_pow_iff.2 (by rw [occSet_sdOf]; exact fun k hk => mem_range.1 (mem_powerset.1 hS hk)))
  · intro sd _; exact sdOf_occSet sd
  · intro S _; exact occSet_sdOf S
  · intro sd _; rfl

theorem jg_sum_parts (n : ℕ) (F : Finset ℕ → Finset ℕ → ℝ) :
    ∑ sd ∈ range (2 ^ (n + n)), F (occSet (sd % 2 ^ n)) (occSet (sd / 2 ^ n)) =
      ∑ Sa ∈ (range n).powerset, ∑ Sb ∈ (range n).powerset, F Sa Sb := by
  rw [← sum_product']
  refine sum_nbij' (fun sd => (occSet (sd % 2 ^ n), occSet (sd / 2 ^ n))) (fun x => sdOf (spinSet n x.1 x.2)) ?_ ?_ ?_ ?_ ?_
  · intro sd hsd
    obtain ⟨ha, hb⟩ := jg_parts (mem_range.1 hsd)
    exact mem_product.2 ⟨mem_powerset.2 ha, mem_powerset.2 hb⟩
  · rintro ⟨Sa, Sb⟩ hx
    have ha := mem_powerset.1 (mem_product.1 hx).1
    have hb := mem_powerset.1 (mem_product.1 hx).2
    refine mem_range.2 (lt_two_pow_iff.2 ?_)
    rw [occSet_sdOf]
    intro k hk
    rw [mem_spinSet (fun k hk => mem_range.1 (ha hk))] at hk
    split_ifs at hk with hkn
    · omega
    · have := mem_range.1 (hb hk); omega
  · intro sd _
    change sdOf (spinSet n (occSet (sd % 2 ^ n)) (occSet (sd / 2 ^ n))) = sd
    rw [← occSet_spinSet, sdOf_occSet]
  · rintro ⟨Sa, Sb⟩ hx
    obtain ⟨e1, e2⟩ := jg_split (n := n) (Tb := Sb) (mem_powerset.1 (mem_product.1 hx).1)
    change (occSet (sdOf (spinSet n Sa Sb) % 2 ^ n), occSet (sdOf (spinSet n Sa Sb) / 2 ^ n)) = (Sa, Sb)
    rw [e1, e2]
  · intro sd _; rfl

/-- The sum of the squares of the overlaps with all determinants is that of the component: a rotation keeps the norm. -/
theorem C132_norm (w : Wfn ℝ) (hn : w.nspin % 2 = 0) (h : w.p < w.q)
    (hq : w.q < if w.orbtype = .restricted then w.nspin / 2 else w.nspin) (f : ℕ → ℝ)
    (hf : ∀ sd < 2 ^ w.nspin, w.comp (some sd) = .ok (f sd)) (θ : ℝ) :
    ∃ g : ℕ → ℝ, (∀ sd < 2 ^ w.nspin, w.overlap (Real.cos θ) (Real.sin θ) sd = .ok (g sd)) ∧
      ∑ sd ∈ range (2 ^ w.nspin), g sd ^ 2 = ∑ sd ∈ range (2 ^ w.nspin), f sd ^ 2 := by
  refine ⟨fun sd => jgValue w (Real.cos θ) (Real.sin θ) (fun S => f (sdOf S)) (occSet sd),
    fun sd hsd => jg_overlap hn h hq (jg_table hf) _ _ hsd, ?_⟩
  have hcs : Real.cos θ ^ 2 + Real.sin θ ^ 2 = 1 := Real.cos_sq_add_sin_sq θ
  have ef : ∑ sd ∈ range (2 ^ w.nspin), f sd ^ 2 = ∑ sd ∈ range (2 ^ w.nspin), f (sdOf (occSet sd)) ^ 2 :=
    sum_congr rfl fun sd _ => by rw [sdOf_occSet]
  rw [ef]
  by_cases ht : w.orbtype = .restricted
  · rw [if_pos ht] at hq
    have hp := h.trans hq
    have hnn : w.nspin = w.nspatial + w.nspatial := by rw [Wfn.nspatial]; omega
    change w.q < w.nspatial at hq
    change w.p < w.nspatial at hp
    have e1 : ∀ sd, f (sdOf (occSet sd)) ^ 2 =
        f (sdOf (spinSet w.nspatial (occSet (sd % 2 ^ w.nspatial)) (occSet (sd / 2 ^ w.nspatial)))) ^ 2 := by
      intro sd; rw [← occSet_spinSet]
    simp only [e1, jgValue, if_pos ht, resValue]
    rw [show (2 : ℕ) ^ w.nspin = 2 ^ (w.nspatial + w.nspatial) by rw [← hnn]]
    simp only [sdOf_occSet]
    rw [jg_sum_parts w.nspatial (fun Sa Sb => rotTwo (Real.cos θ) (Real.sin θ) w.p w.q (fun Ta =>
        rotTwo (Real.cos θ) (Real.sin θ) w.p w.q (fun Tb => f (sdOf (spinSet w.nspatial Ta Tb))) Sb) Sa ^ 2),
      jg_sum_parts w.nspatial (fun Sa Sb => f (sdOf (spinSet w.nspatial Sa Sb)) ^ 2), sum_comm]
    rw [sum_congr rfl fun Sb _ => rotTwo_norm hcs h.ne hp hq (fun Ta =>
        rotTwo (Real.cos θ) (Real.sin θ) w.p w.q (fun Tb => f (sdOf (spinSet w.nspatial Ta Tb))) Sb), sum_comm]
    exact sum_congr rfl fun Sa _ => rotTwo_norm hcs h.ne hp hq (fun Tb => f (sdOf (spinSet w.nspatial Sa Tb)))
  · rw [if_neg ht] at hq
    simp only [jgValue, if_neg ht]
    rw [jg_sum_powerset w.nspin (fun S => rotTwo (Real.cos θ) (Real.sin θ) w.p w.q (fun S => f (sdOf S)) S ^ 2),
      jg_sum_powerset w.nspin (fun S => f (sdOf S) ^ 2)]
    exact rotTwo_norm hcs h.ne (h.trans hq) hq _

theorem jg_card {n : ℕ} {Ta Tb : Finset ℕ} (ha : Ta ⊆ range n) : #(spinSet n Ta Tb) = #Ta + #Tb := by
  rw [spinSet, card_union_of_disjoint, card_map]
  rw [disjoint_left]
  intro k hk hk'
  obtain ⟨j, _, hj⟩ := mem_map.1 hk'
  have := mem_range.1 (ha hk)
  simp only [addRightEmbedding_apply] at hj
  omega

/-- If the overlaps of the component with all determinants of a number of electrons vanish, then those of the wavefunction do. -/
theorem C132_electrons (w : Wfn ℝ) (hn : w.nspin % 2 = 0) (h : w.p < w.q)
    (hq : w.q < if w.orbtype = .restricted then w.nspin / 2 else w.nspin)
    (hc : ∀ sd < 2 ^ w.nspin, ∃ v, w.comp (some sd) = .ok v) (N : ℕ)
    (h0 : ∀ sd < 2 ^ w.nspin, #(occSet sd) = N → w.comp (some sd) = .ok 0) (θ : ℝ) (sd : ℕ) (hsd : sd < 2 ^ w.nspin)
    (hN : #(occSet sd) = N) : w.overlap (Real.cos θ) (Real.sin θ) sd = .ok 0 := by
  choose! g hg using hc
  have hz : ∀ S ⊆ range w.nspin, #S = N → g (sdOf S) = 0 := by
    intro S hS hSN
    have hS' : sdOf S < 2 ^ w.nspin := lt_two_pow_iff.2 (by rw [occSet_sdOf]; exact fun k hk => mem_range.1 (hS hk))
    have := h0 (sdOf S) hS' (by rwa [occSet_sdOf])
    rw [hg _ hS'] at this
    exact Except.ok.inj this
  rw [jg_overlap hn h hq (jg_table hg) _ _ hsd]
  congr 1
  rw [jgValue, sdOf_occSet]
  by_cases ht : w.orbtype = .restricted
  · rw [if_pos ht] at hq ⊢
    have hp := h.trans hq
    have hnn : w.nspin = w.nspatial + w.nspatial := by rw [Wfn.nspatial]; omega
    change w.q < w.nspatial at hq
    change w.p < w.nspatial at hp
    obtain ⟨ha, hb⟩ := jg_parts (n := w.nspatial) (hnn ▸ hsd)
    rw [occSet_spinSet sd w.nspatial, jg_card ha] at hN
    refine rotTwo_card hp hq ha fun Ta hTa hca => rotTwo_card hp hq hb fun Tb hTb hcb => hz _ ?_ ?_
    · intro k hk
      rw [mem_spinSet (fun k hk => mem_range.1 (hTa hk))] at hk
      rw [mem_range]
      split_ifs at hk with hkn
      · omega
      · have := mem_range.1 (hTb hk); omega
    · rw [jg_card hTa, hca, hcb, hN]
  · rw [if_neg ht] at hq ⊢
    refine rotTwo_card (h.trans hq) hq (fun k hk => mem_range.2 (lt_two_pow_iff.1 hsd k hk)) fun T hT hcT => hz T hT (hcT.trans hN)

/-! ## A case -/

example : ∃ w : Wfn ℝ, w.orbtype = .restricted ∧ w.nspin % 2 = 0 ∧ w.p < w.q ∧
    (w.q < if w.orbtype = .restricted then w.nspin / 2 else w.nspin) ∧ (∀ sd < 2 ^ w.nspin, ∃ v, w.comp (some sd) = .ok v) :=
  ⟨⟨4, .restricted, 0, 1, fun d => .ok (d.getD 0 : ℕ)⟩, rfl, by decide, by decide, by simp, fun _ _ => ⟨_, rfl⟩⟩

/-- turned by an angle with cosine 3/5 and sine 4/5, and back -/
example : (Wfn.overlap ⟨4, .restricted, 0, 1, (jacExample .restricted 0 1).asComponent (3 / 5) (4 / 5)⟩ (3 / 5) (-4 / 5) 5 :
    Except PyErr ℚ) = .ok 5 := by decide +kernel

end Fanpy.Props
