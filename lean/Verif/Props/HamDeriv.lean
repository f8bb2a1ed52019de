import Verif.Lemmas.DerivKernel
import Verif.Props.ParamIndex
import Verif.Props.Rotation
import Verif.Props.SpinHam

/-!
# C31: derivatives of the matrix elements with respect to orbital rotations

`integrate_sd_sd_decomposed(sd1, sd2, deriv)` is the derivative, at angle zero, of the matrix element after
`orb_rotate_jacobi((x, y), angle)`, where `(x, y)` is the pair of orbitals of the parameter.
-/

namespace Fanpy.Props
open Fanpy.Slater Fanpy.Spec Fanpy.Ham Fanpy.Lemmas

theorem mapM_eq_ok {α β : Type} {f : α → Except PyErr β} {g : α → β} : ∀ (l : List α), (∀ a ∈ l, f a = .ok (g a)) →
    l.mapM f = .ok (l.map g) := by
  intro l
  induction l with
  | nil => intro _; rfl
  | cons a l ih =>
    intro h
    rw [List.mapM_cons, h a List.mem_cons_self, ih fun b hb => h b (List.mem_cons_of_mem _ hb)]
    rfl

section
variable {R : Type} [CommRing R]

theorem inRange {n : ℕ} {P : List (ℕ × ℕ)} (hP : ∀ p ∈ P, p.1 < p.2 ∧ p.2 < n) :
    ∀ i ∈ P.map (fun p => triuPos n p.1 p.2), 0 ≤ i ∧ i < (n * (n - 1) / 2 : ℕ) := by
  intro i hi
  obtain ⟨p, hp, rfl⟩ := List.mem_map.1 hi
  obtain ⟨h1, h2⟩ := C30_position_range (hP p hp).1 (hP p hp).2
  refine ⟨h1, ?_⟩
  have : ((n * (n - 1) / 2 : ℕ) : ℤ) = n * (n - 1) / 2 := by
    have hn : 1 ≤ n := by have := (hP p hp).2; omega
    push_cast [Nat.cast_sub hn]
    rfl
  rw [this]; exact h2

end

/-- C31, generalized orbitals.  For real integrals with the usual symmetries there is a table `T` of triples such that
`integrate_sd_sd_decomposed` with `deriv` returns `T x y` for each requested pair `(x, y)`, and `T x y` is the derivative at
zero of the triple `(one-electron, coulomb, exchange)` of the Hamiltonian that was rotated by `orb_rotate_jacobi`. -/
theorem C31_generalized_partial (n : ℕ) (h : ℕ → ℕ → ℝ) (g : ℕ → ℕ → ℕ → ℕ → ℝ) (hh : ∀ i j, h i j = h j i)
    (hg : ∀ i j k l, g i j k l = g j i l k) (hr : ∀ i j k l, g i j k l = g k l i j) (sd1 sd2 : ℕ) (h1 : sd1 < 2 ^ n)
    (h2 : sd2 < 2 ^ n) :
    ∃ T : ℕ → ℕ → ℝ × ℝ × ℝ,
      (∀ P : List (ℕ × ℕ), (∀ p ∈ P, p.1 < p.2 ∧ p.2 < n) →
        genDeriv (GenHam.ofInts n h g) sd1 sd2 (P.map fun p => triuPos n p.1 p.2) = .ok (P.map fun p => T p.1 p.2)) ∧
      ∀ x y, x < y → y < n → sd1 ≠ 0 ∨ sd2 ≠ 0 → ∃ F : ℝ → ℝ × ℝ × ℝ,
        (∀ θ, ∃ K, (GenHam.ofInts n h g).rotateJacobi x y (Real.cos θ) (Real.sin θ) = .ok K ∧
          genDecomposed K.cacheTwoInts sd1 sd2 = .ok (F θ)) ∧
        HasDerivAt F (T x y) 0 := by
  have hlt := fun sd => @lt_two_pow_iff sd n
  have h1' := (hlt sd1).1 h1
  have h2' := (hlt sd2).1 h2
  -- the Hamiltonian after the rotation
  have hrot : ∀ x y θ, x < y → y < n → (GenHam.ofInts n h g).rotateJacobi x y (Real.cos θ) (Real.sin θ) =
      .ok { GenHam.ofInts n h g with
        one := jacobiOne (Real.cos θ) (Real.sin θ) x y h, two := jacobiTwo (Real.cos θ) (Real.sin θ) x y g } := by
    intro x y θ hxy hy
    have := rotateJacobi_ok (GenHam.ofInts n h g) (p := x) (q := y) (show x < n by omega) hy (by omega)
      (Real.cos θ) (Real.sin θ)
    rw [min_eq_left hxy.le, max_eq_right hxy.le] at this
    exact this
  have hshared : ∀ i ∈ sharedOrbs sd1 sd2, i < n := by
    intro i hi
    apply h1'
    have : i ∈ occSet sd1 ∩ occSet sd2 := by rw [← sharedOrbs_toFinset]; exact List.mem_toFinset.2 hi
    exact (Finset.mem_inter.1 this).1
  have hnd := sharedOrbs_nodup sd1 sd2
  rcases sdPair_cases sd1 sd2 with ⟨hl, -⟩ | ⟨hl, hl2, -⟩ | ⟨rfl, hd, hs⟩ | ⟨a, b, u, hd, hu, ha, hb, hab, ea, eb, hs⟩ |
    ⟨a, b, c, d, u, hd, hu, ha, hb, hc, hd', hab, hcd, hac, had, hbc, hbd, ea, eb, hs⟩
  · refine ⟨fun _ _ => 0, fun P _ => ?_, fun x y hxy hy _ => ⟨fun _ => 0, fun θ => ⟨_, hrot x y θ hxy hy, ?_⟩,
      hasDerivAt_const _ _⟩⟩
    · simp only [genDeriv, if_pos hl, List.map_map, Function.comp_def]
    · exact gen_far_card _ hl
  · refine ⟨fun _ _ => 0, fun P _ => ?_, fun x y hxy hy _ => ⟨fun _ => 0, fun θ => ⟨_, hrot x y θ hxy hy, ?_⟩,
      hasDerivAt_const _ _⟩⟩
    · simp only [genDeriv, if_neg (not_not.2 hl), if_pos hl2, List.map_map, Function.comp_def]
    · exact gen_far_order _ hl hl2
  · -- the same determinant
    rw [sharedOrbs_self] at hshared hnd
    have hne : (GenHam.ofInts n h g).norb = n := rfl
    refine ⟨fun x y => signTimes 1 (genDerivZero (GenHam.ofInts n h g) x y (occIndices (some sd1))), fun P hP => ?_,
      fun x y hxy hy h0 => ?_⟩
    · simp only [genDeriv, hd, List.length_nil, ne_eq, not_true_eq_false, if_false, List.reverse_nil, hs, bind,
        Except.bind, hne, sharedOrbs_self]
      rw [if_neg (by omega), if_neg (not_not.2 (inRange hP))]
      rw [List.mapM_map]
      apply mapM_eq_ok
      intro p hp
      obtain ⟨hxy, hy⟩ := hP p hp
      simp only [Function.comp_def, C30_position hxy hy, Int.toNat_natCast]
      rw [guardIdx_ok (by
        intro i hi
        simp only [List.append_nil, List.nil_append, List.mem_cons] at hi
        rcases hi with rfl | rfl | hi
        · omega
        · omega
        · exact hshared i hi)]
    · have h0 : sd1 ≠ 0 := by rcases h0 with h | h <;> exact h
      refine ⟨_, fun θ => ⟨_, hrot x y θ hxy hy, gen_same _ h1' h0 hd hs⟩, ?_⟩
      beta_reduce
      rw [genDerivZero_eq (GenHam.ofInts n h g) (by omega : x ≠ y) hh hg hr _ hnd]
      simp only [signTimes, Int.cast_one, one_mul]
      exact hasDerivAt_triple (hasDerivAt_listSum _ fun i => hasDerivAt_jacobiOne x y h i i)
        (hasDerivAt_triuSum _ fun i j => hasDerivAt_jacobiTwo x y g i j i j)
        (hasDerivAt_triuSum _ fun i j => hasDerivAt_jacobiTwo x y g i j j i).neg
  · -- single excitation
    have hne : (GenHam.ofInts n h g).norb = n := rfl
    have ha' : a < n := h1' a (by rw [ea]; exact Finset.mem_insert_self _ _)
    have hb' : b < n := h2' b (by rw [eb]; exact Finset.mem_insert_self _ _)
    refine ⟨fun x y => signTimes (phase u a * phase u b)
      (genDerivOne (GenHam.ofInts n h g) a b x y (sharedOrbs sd1 sd2)), fun P hP => ?_, fun x y hxy hy h0 => ?_⟩
    · simp only [genDeriv, hd, List.length_cons, List.length_nil, ne_eq, not_true_eq_false, if_false, List.reverse_cons,
        List.reverse_nil, List.nil_append, hs, bind, Except.bind, hne]
      rw [if_neg (by omega), if_neg (not_not.2 (inRange hP))]
      rw [List.mapM_map]
      apply mapM_eq_ok
      intro p hp
      obtain ⟨hxy, hy⟩ := hP p hp
      simp only [Function.comp_def, C30_position hxy hy, Int.toNat_natCast]
      rw [guardIdx_ok (by
        intro i hi
        simp only [List.cons_append, List.nil_append, List.mem_cons] at hi
        rcases hi with rfl | rfl | rfl | rfl | hi
        · omega
        · omega
        · exact ha'
        · exact hb'
        · exact hshared i hi)]
    · refine ⟨_, fun θ => ⟨_, hrot x y θ hxy hy, gen_single _ h1' h2' hd hs⟩, ?_⟩
      have ha2 : a ∉ sharedOrbs sd1 sd2 := by rw [← List.mem_toFinset, hu]; exact ha
      have hb2 : b ∉ sharedOrbs sd1 sd2 := by rw [← List.mem_toFinset, hu]; exact hb
      beta_reduce
      rw [genDerivOne_eq (GenHam.ofInts n h g) (by omega : x ≠ y) hg hab _ hnd ha2 hb2]
      exact hasDerivAt_triple ((hasDerivAt_jacobiOne x y h a b).const_mul _)
        ((hasDerivAt_listSum _ fun s => hasDerivAt_jacobiTwo x y g s a s b).const_mul _)
        ((hasDerivAt_listSum _ fun s => hasDerivAt_jacobiTwo x y g s a b s).neg.const_mul _)
  · -- double excitation
    have hne : (GenHam.ofInts n h g).norb = n := rfl
    have ha' : a < n := h1' a (by rw [ea]; simp)
    have hb' : b < n := h1' b (by rw [ea]; simp)
    have hc' : c < n := h2' c (by rw [eb]; simp)
    have hd2 : d < n := h2' d (by rw [eb]; simp)
    refine ⟨fun x y => signTimes (eps (insert a (insert b u)) a b * eps (insert c (insert d u)) c d)
      (genDerivTwo (GenHam.ofInts n h g) a b c d x y), fun P hP => ?_, fun x y hxy hy h0 => ?_⟩
    · simp only [genDeriv, hd, List.length_cons, List.length_nil, ne_eq, not_true_eq_false, if_false, List.reverse_cons,
        List.reverse_nil, List.nil_append, List.cons_append, hs, bind, Except.bind, hne]
      rw [if_neg (by omega), if_neg (not_not.2 (inRange hP))]
      rw [List.mapM_map]
      apply mapM_eq_ok
      intro p hp
      obtain ⟨hxy, hy⟩ := hP p hp
      simp only [Function.comp_def, C30_position hxy hy, Int.toNat_natCast]
      rw [guardIdx_ok (by
        intro i hi
        simp only [List.mem_cons] at hi
        rcases hi with rfl | rfl | rfl | rfl | rfl | rfl | hi
        · omega
        · omega
        · exact ha'
        · exact hb'
        · exact hc'
        · exact hd2
        · exact hshared i hi)]
    · refine ⟨_, fun θ => ⟨_, hrot x y θ hxy hy, gen_double _ h1' h2' hd hs⟩, ?_⟩
      beta_reduce
      rw [genDerivTwo_eq (GenHam.ofInts n h g) (by omega : x ≠ y) hab.ne hac had hbc hbd hcd.ne]
      rw [signTimes, mul_zero]
      exact hasDerivAt_triple (hasDerivAt_const (0 : ℝ) (0 : ℝ))
        ((hasDerivAt_jacobiTwo x y g a b c d).const_mul _)
        ((hasDerivAt_jacobiTwo x y g a b d c).neg.const_mul _)

/-! ### Unrestricted and restricted orbitals -/

/-- position of the pair `(x, y)` of spin `s` among the parameters of an unrestricted Hamiltonian -/
def unrPos (n s x y : ℕ) : ℤ := s * (n * (n - 1) / 2) + triuPos n x y

theorem spatialSpin_ok {n i : ℕ} (h : i < 2 * n) : spatialSpin n i = .ok (if i < n then (i, 0) else (i - n, 1)) := by
  simp only [spatialSpin, spatialIndex_ok h, isAlpha_ok h, bind, Except.bind, pure, Except.pure]
  by_cases hi : i < n <;> simp [hi]

theorem unrPos_rowCol {n s x y : ℕ} (hs : s < 2) (hxy : x < y) (hy : y < n) :
    unrRowColInd n (unrPos n s x y) = .ok ((s : ℤ), (x : ℤ), (y : ℤ)) := by
  have : s = 0 ∨ s = 1 := by omega
  rcases this with rfl | rfl
  · simpa [unrPos] using (C30_unrestricted hxy hy).1
  · simpa [unrPos] using (C30_unrestricted hxy hy).2

theorem unrInRange {n : ℕ} {P : List (ℕ × ℕ × ℕ)} (hP : ∀ p ∈ P, p.1 < 2 ∧ p.2.1 < p.2.2 ∧ p.2.2 < n) :
    ∀ i ∈ P.map (fun p => unrPos n p.1 p.2.1 p.2.2), 0 ≤ i ∧ i < (n * (n - 1) : ℕ) := by
  intro i hi
  obtain ⟨p, hp, rfl⟩ := List.mem_map.1 hi
  obtain ⟨h0, h1, h2⟩ := hP p hp
  obtain ⟨k1, k2⟩ := C30_position_range h1 h2
  have e : ((n * (n - 1) : ℕ) : ℤ) = n * (n - 1) := by
    push_cast [Nat.cast_sub (show 1 ≤ n by omega)]
    rfl
  have e2 : (n : ℤ) * (n - 1) = 2 * (n * (n - 1) / 2) := by
    obtain ⟨k, hk⟩ := Int.even_mul_pred_self (n : ℤ)
    rw [hk]; omega
  rw [e]
  have : p.1 = 0 ∨ p.1 = 1 := by omega
  rcases this with h | h <;> simp only [unrPos, h, Nat.cast_zero, Nat.cast_one, zero_mul, one_mul] <;> omega

/-- the shared orbitals of two determinants, as alpha and beta lists -/
structure SharedAB (n sd1 sd2 : ℕ) (sa sb : List ℕ) : Prop where
  eqA : occIndices (some (sharedSd sd1 sd2 % 2 ^ n)) = sa
  eqB : occIndices (some (sharedSd sd1 sd2 / 2 ^ n)) = sb
  ndA : sa.Nodup
  ndB : sb.Nodup
  ltA : ∀ i ∈ sa, i < n
  ltB : ∀ i ∈ sb, i < n
  memA : ∀ i ∈ sa, i ∈ sharedOrbs sd1 sd2
  memB : ∀ i ∈ sb, i + n ∈ sharedOrbs sd1 sd2

theorem sharedAB {n sd1 sd2 : ℕ} (h1 : sd1 < 2 ^ (2 * n)) : ∃ sa sb, SharedAB n sd1 sd2 sa sb := by
  refine ⟨_, _, rfl, rfl, nodup_occIndices _, nodup_occIndices _, ?_, ?_, ?_, ?_⟩
  · intro i hi
    rw [mem_occIndices, Nat.testBit_mod_two_pow] at hi
    simp at hi; exact hi.1
  · intro i hi
    rw [mem_occIndices, Nat.testBit_div_two_pow, sharedSd, Nat.testBit_and] at hi
    simp only [Bool.and_eq_true] at hi
    have := lt_two_pow_iff.1 h1 (n + i) (mem_occSet.2 (by first | exact hi.1 | (rw [add_comm]; exact hi.1)))
    omega
  · intro i hi
    rw [mem_occIndices, Nat.testBit_mod_two_pow] at hi
    simp at hi
    have : i ∈ (sharedOrbs sd1 sd2).toFinset := by
      rw [sharedOrbs_toFinset, Finset.mem_inter, mem_occSet, mem_occSet]
      simpa [sharedSd, Nat.testBit_and] using hi.2
    exact List.mem_toFinset.1 this
  · intro i hi
    rw [mem_occIndices, Nat.testBit_div_two_pow] at hi
    have : i + n ∈ (sharedOrbs sd1 sd2).toFinset := by
      rw [sharedOrbs_toFinset, Finset.mem_inter, mem_occSet, mem_occSet]
      simpa [sharedSd, Nat.testBit_and, add_comm] using hi
    exact List.mem_toFinset.1 this

/-- Everything about the matrix element of two determinants: a function `V` of the integrals is the matrix element, `du` and
`dr` are what the code returns for `deriv`, and they are related as `Kernel` says. -/
theorem spin_core {n : ℕ} (hn : 0 < n) {sd1 sd2 : ℕ} (h1 : sd1 < 2 ^ (2 * n)) (h2 : sd2 < 2 ^ (2 * n)) :
    ∃ V du dr, Kernel V du dr ∧
      (∀ H : UnrHam ℝ, H.norb = n → unrDecomposed H.cacheTwoInts sd1 sd2 = .ok (V H)) ∧
      (∀ H : UnrHam ℝ, H.norb = n → ∀ P : List (ℕ × ℕ × ℕ), (∀ p ∈ P, p.1 < 2 ∧ p.2.1 < p.2.2 ∧ p.2.2 < n) →
        unrDeriv H sd1 sd2 (P.map fun p => unrPos n p.1 p.2.1 p.2.2) = .ok (P.map fun p => du H p.1 p.2.1 p.2.2)) ∧
      (∀ G : GenHam ℝ, G.norb = n → ∀ P : List (ℕ × ℕ), (∀ p ∈ P, p.1 < p.2 ∧ p.2 < n) →
        resDeriv G sd1 sd2 (P.map fun p => triuPos n p.1 p.2) = .ok (P.map fun p => dr G p.1 p.2)) := by
  have h1' := lt_two_pow_iff.1 h1
  have h2' := lt_two_pow_iff.1 h2
  obtain ⟨sa, sb, hS⟩ := sharedAB (n := n) (sd2 := sd2) h1
  have hsp : splitSpin (sharedSd sd1 sd2) (n : ℤ) = _ := splitSpin_ok hn
  have eA := hS.eqA
  have eB := hS.eqB
  have hg : ∀ {x y : ℕ}, x < y → y < n → ∀ i ∈ x :: y :: (sa ++ sb), i < n := by
    intro x y hxy hy i hi
    simp only [List.mem_cons, List.mem_append] at hi
    rcases hi with rfl | rfl | hi | hi
    · omega
    · exact hy
    · exact hS.ltA i hi
    · exact hS.ltB i hi
  rcases sdPair_cases sd1 sd2 with ⟨hl, -⟩ | ⟨hl, hl2, -⟩ | ⟨rfl, hd, hs⟩ | ⟨a, b, u, hd, hu, ha, hb, hab, ea, eb, hs⟩ |
    ⟨a, b, c, d, u, hd, hu, ha, hb, hc, hd', hab, hcd, hac, had, hbc, hbd, ea, eb, hs⟩
  · refine ⟨_, _, _, zero_kernel, fun H hH => ?_, fun H hH P _ => ?_, fun G hG P _ => ?_⟩
    · subst hH
      simp only [unrDecomposed, UnrHam.cacheTwoInts, hsp, bind, Except.bind, if_pos hl]
      rfl
    · subst hH
      simp only [unrDeriv, hsp, bind, Except.bind, if_pos hl, List.map_map, Function.comp_def]
    · subst hG
      simp only [resDeriv, hsp, bind, Except.bind, if_pos hl, List.map_map, Function.comp_def]
  · refine ⟨_, _, _, zero_kernel, fun H hH => ?_, fun H hH P _ => ?_, fun G hG P _ => ?_⟩
    · subst hH
      simp only [unrDecomposed, UnrHam.cacheTwoInts, hsp, bind, Except.bind, if_neg (not_not.2 hl), if_pos hl2]
      rfl
    · subst hH
      simp only [unrDeriv, hsp, bind, Except.bind, if_neg (not_not.2 hl), if_pos hl2, List.map_map, Function.comp_def]
    · subst hG
      simp only [resDeriv, hsp, bind, Except.bind, if_neg (not_not.2 hl), if_pos hl2, List.map_map, Function.comp_def]
  · -- the same determinant
    refine ⟨_, _, _, sign_kernel 1 (same_kernel sa sb hS.ndA hS.ndB), fun H hH => ?_, fun H hH P hP => ?_,
      fun G hG P hP => ?_⟩
    · subst hH
      simp only [unrDecomposed, UnrHam.cacheTwoInts, hsp, bind, Except.bind, eA, eB, hd, List.length_nil, ne_eq,
        not_true_eq_false, if_false, List.reverse_nil, hs, if_true, unrZero, guardIdx_ok hS.ltA, guardIdx_ok hS.ltB]
      rfl
    · subst hH
      simp only [unrDeriv, hsp, bind, Except.bind, eA, eB, hd, List.length_nil, ne_eq, not_true_eq_false, if_false,
        List.reverse_nil, hs]
      rw [if_neg (by omega), if_neg (not_not.2 (unrInRange hP)), List.mapM_map]
      apply mapM_eq_ok
      intro p hp
      obtain ⟨k0, k1, k2⟩ := hP p hp
      simp only [Function.comp_def, unrPos_rowCol k0 k1 k2, Int.toNat_natCast, guardIdx_ok (hg k1 k2), List.append_nil]
      rfl
    · subst hG
      simp only [resDeriv, hsp, bind, Except.bind, eA, eB, hd, List.length_nil, ne_eq, not_true_eq_false, if_false,
        List.reverse_nil, hs]
      rw [if_neg (by omega), if_neg (not_not.2 (inRange hP)), List.mapM_map]
      apply mapM_eq_ok
      intro p hp
      obtain ⟨k1, k2⟩ := hP p hp
      simp only [Function.comp_def, C30_position k1 k2, Int.toNat_natCast, guardIdx_ok (hg k1 k2), List.append_nil]
      rfl
  · -- single excitation
    have ha' : a < 2 * n := h1' a (by rw [ea]; exact Finset.mem_insert_self _ _)
    have hb' : b < 2 * n := h2' b (by rw [eb]; exact Finset.mem_insert_self _ _)
    have ha2 : a ∉ sharedOrbs sd1 sd2 := by rw [← List.mem_toFinset, hu]; exact ha
    have hb2 : b ∉ sharedOrbs sd1 sd2 := by rw [← List.mem_toFinset, hu]; exact hb
    have gd : ∀ i ∈ [a] ++ [b], i < 2 * n := by simp [ha', hb']
    -- what `deriv` gives, for any pair of spins
    have hU : ∀ (H : UnrHam ℝ), H.norb = n → ∀ (ra rb : ℕ × ℕ), (if a < n then (a, 0) else (a - n, 1)) = ra →
        (if b < n then (b, 0) else (b - n, 1)) = rb → ∀ P : List (ℕ × ℕ × ℕ),
        (∀ p ∈ P, p.1 < 2 ∧ p.2.1 < p.2.2 ∧ p.2.2 < n) →
        unrDeriv H sd1 sd2 (P.map fun p => unrPos n p.1 p.2.1 p.2.2) = .ok (P.map fun p =>
          signTimes (phase u a * phase u b) (unrDerivOne H ra.1 ra.2 rb.1 rb.2 p.1 p.2.1 p.2.2 sa sb)) := by
      intro H hH ra rb era erb P hP
      subst hH
      simp only [unrDeriv, hsp, bind, Except.bind, eA, eB, hd, List.length_cons, List.length_nil, ne_eq,
        not_true_eq_false, if_false, List.reverse_cons, List.reverse_nil, List.nil_append, hs]
      rw [if_neg (by omega), if_neg (not_not.2 (unrInRange hP)), List.mapM_map]
      apply mapM_eq_ok
      intro p hp
      obtain ⟨k0, k1, k2⟩ := hP p hp
      simp only [Function.comp_def, unrPos_rowCol k0 k1 k2, Int.toNat_natCast, guardIdx_ok (hg k1 k2), guardIdx_ok gd,
        spatialSpin_ok ha', spatialSpin_ok hb', era, erb]
    have hR : ∀ (G : GenHam ℝ), G.norb = n → ∀ (ra rb : ℕ × ℕ), (if a < n then (a, 0) else (a - n, 1)) = ra →
        (if b < n then (b, 0) else (b - n, 1)) = rb → ∀ P : List (ℕ × ℕ), (∀ p ∈ P, p.1 < p.2 ∧ p.2 < n) →
        resDeriv G sd1 sd2 (P.map fun p => triuPos n p.1 p.2) = .ok (P.map fun p =>
          signTimes (phase u a * phase u b) (resDerivOne G a ra.1 ra.2 b rb.1 rb.2 p.1 p.2 sa sb)) := by
      intro G hG ra rb era erb P hP
      subst hG
      simp only [resDeriv, hsp, bind, Except.bind, eA, eB, hd, List.length_cons, List.length_nil, ne_eq,
        not_true_eq_false, if_false, List.reverse_cons, List.reverse_nil, List.nil_append, hs]
      rw [if_neg (by omega), if_neg (not_not.2 (inRange hP)), List.mapM_map]
      apply mapM_eq_ok
      intro p hp
      obtain ⟨k1, k2⟩ := hP p hp
      simp only [Function.comp_def, C30_position k1 k2, Int.toNat_natCast, guardIdx_ok (hg k1 k2), guardIdx_ok gd,
        spatialSpin_ok ha', spatialSpin_ok hb', era, erb]
    have hV : ∀ (H : UnrHam ℝ), H.norb = n → unrDecomposed H.cacheTwoInts sd1 sd2 =
        .ok (signTimes (phase u a * phase u b) (if a < n then if b < n then oneVA a b sa sb H else 0
          else if b < n then 0 else oneVB (a - n) (b - n) sa sb H)) := by
      intro H hH
      subst hH
      simp only [unrDecomposed, UnrHam.cacheTwoInts, hsp, bind, Except.bind, eA, eB, hd, List.length_cons, List.length_nil,
        ne_eq, not_true_eq_false, if_false, List.reverse_cons, List.reverse_nil, List.nil_append, hs, zero_add,
        one_ne_zero, if_true, unrOne, spatialIndex_ok ha', spatialIndex_ok hb', isAlpha_ok ha', isAlpha_ok hb',
        Int.toNat_natCast]
      rw [if_neg (by omega)]
      have g0 : ∀ {p q : ℕ}, p < H.norb → q < H.norb → guardIdx H.norb (p :: q :: sa) = .ok () := fun hp hq =>
        guardIdx_ok (by
          intro i hi
          simp only [List.mem_cons] at hi
          rcases hi with rfl | rfl | hi
          · exact hp
          · exact hq
          · exact hS.ltA i hi)
      by_cases ca : a < H.norb <;> by_cases cb : b < H.norb <;>
        simp [ca, cb, pure, Except.pure, g0, guardIdx_ok hS.ltB, oneVA, oneVB, show a - H.norb < H.norb by omega,
          show b - H.norb < H.norb by omega]
      · rfl
      · rfl
    by_cases ca : a < n <;> by_cases cb : b < n
    · have k := sign_kernel (phase u a * phase u b) (singleA_kernel hab sa sb hS.ndA hS.ndB
        (fun h => ha2 (hS.memA a h)) (fun h => hb2 (hS.memA b h)))
      refine ⟨_, _, _, k, fun H hH => ?_, fun H hH P hP => ?_, fun G hG P hP => ?_⟩
      · rw [hV H hH, if_pos ca, if_pos cb]
      · exact hU H hH _ _ (if_pos ca) (if_pos cb) P hP
      · exact hR G hG _ _ (if_pos ca) (if_pos cb) P hP
    · refine ⟨_, _, _, sign_kernel (phase u a * phase u b) zero_kernel, fun H hH => ?_, fun H hH P hP => ?_,
        fun G hG P hP => ?_⟩
      · rw [hV H hH, if_pos ca, if_neg cb]
      · rw [hU H hH _ _ (if_pos ca) (if_neg cb) P hP]
        simp only [unrDerivOne_ne H _ _ (show (0 : ℕ) ≠ 1 by omega)]
      · rw [hR G hG _ _ (if_pos ca) (if_neg cb) P hP]
        simp only [resDerivOne_ne G _ _ (show (0 : ℕ) ≠ 1 by omega)]
    · refine ⟨_, _, _, sign_kernel (phase u a * phase u b) zero_kernel, fun H hH => ?_, fun H hH P hP => ?_,
        fun G hG P hP => ?_⟩
      · rw [hV H hH, if_neg ca, if_pos cb]
      · rw [hU H hH _ _ (if_neg ca) (if_pos cb) P hP]
        simp only [unrDerivOne_ne H _ _ (show (1 : ℕ) ≠ 0 by omega)]
      · rw [hR G hG _ _ (if_neg ca) (if_pos cb) P hP]
        simp only [resDerivOne_ne G _ _ (show (1 : ℕ) ≠ 0 by omega)]
    · have ea' : a - n + n = a := by omega
      have eb' : b - n + n = b := by omega
      have k := sign_kernel (phase u a * phase u b) (singleB_kernel (n := n) (a := a - n) (b := b - n) (by omega) sa sb
        hS.ndA hS.ndB (fun h => ha2 (by have := hS.memB _ h; rwa [ea'] at this))
        (fun h => hb2 (by have := hS.memB _ h; rwa [eb'] at this)) hS.ltB)
      rw [ea', eb'] at k
      refine ⟨_, _, _, k, fun H hH => ?_, fun H hH P hP => ?_, fun G hG P hP => ?_⟩
      · rw [hV H hH, if_neg ca, if_neg cb]
      · exact hU H hH _ _ (if_neg ca) (if_neg cb) P hP
      · exact hR G hG _ _ (if_neg ca) (if_neg cb) P hP
  · -- double excitation
    have ha' : a < 2 * n := h1' a (by rw [ea]; simp)
    have hb' : b < 2 * n := h1' b (by rw [ea]; simp)
    have hc' : c < 2 * n := h2' c (by rw [eb]; simp)
    have hd2 : d < 2 * n := h2' d (by rw [eb]; simp)
    have gd : ∀ i ∈ [a, b] ++ [c, d], i < 2 * n := by simp [ha', hb', hc', hd2]
    obtain ⟨σ, hσ⟩ : ∃ σ, σ = eps (insert a (insert b u)) a b * eps (insert c (insert d u)) c d := ⟨_, rfl⟩
    rw [← hσ] at hs
    have hU : ∀ (H : UnrHam ℝ), H.norb = n → ∀ (ra rb rc rd : ℕ × ℕ), (if a < n then (a, 0) else (a - n, 1)) = ra →
        (if b < n then (b, 0) else (b - n, 1)) = rb → (if c < n then (c, 0) else (c - n, 1)) = rc →
        (if d < n then (d, 0) else (d - n, 1)) = rd → ∀ P : List (ℕ × ℕ × ℕ),
        (∀ p ∈ P, p.1 < 2 ∧ p.2.1 < p.2.2 ∧ p.2.2 < n) →
        unrDeriv H sd1 sd2 (P.map fun p => unrPos n p.1 p.2.1 p.2.2) = .ok (P.map fun p =>
          signTimes σ (unrDerivTwo H ra.1 ra.2 rb.1 rb.2 rc.1 rc.2 rd.1 rd.2 p.1 p.2.1 p.2.2)) := by
      intro H hH ra rb rc rd era erb erc erd P hP
      subst hH
      simp only [unrDeriv, hsp, bind, Except.bind, eA, eB, hd, List.length_cons, List.length_nil, ne_eq,
        not_true_eq_false, if_false, List.reverse_cons, List.reverse_nil, List.nil_append, List.cons_append, hs]
      rw [if_neg (by omega), if_neg (not_not.2 (unrInRange hP)), List.mapM_map]
      apply mapM_eq_ok
      intro p hp
      obtain ⟨k0, k1, k2⟩ := hP p hp
      have gd' : guardIdx (2 * H.norb) [a, b, c, d] = .ok () := guardIdx_ok gd
      simp only [Function.comp_def, unrPos_rowCol k0 k1 k2, Int.toNat_natCast, guardIdx_ok (hg k1 k2), gd',
        spatialSpin_ok ha', spatialSpin_ok hb', spatialSpin_ok hc', spatialSpin_ok hd2, era, erb, erc, erd]
    have hR : ∀ (G : GenHam ℝ), G.norb = n → ∀ (ra rb rc rd : ℕ × ℕ), (if a < n then (a, 0) else (a - n, 1)) = ra →
        (if b < n then (b, 0) else (b - n, 1)) = rb → (if c < n then (c, 0) else (c - n, 1)) = rc →
        (if d < n then (d, 0) else (d - n, 1)) = rd → ∀ P : List (ℕ × ℕ), (∀ p ∈ P, p.1 < p.2 ∧ p.2 < n) →
        resDeriv G sd1 sd2 (P.map fun p => triuPos n p.1 p.2) = .ok (P.map fun p =>
          signTimes σ (resDerivTwo G ra.1 ra.2 rb.1 rb.2 rc.1 rc.2 rd.1 rd.2 p.1 p.2)) := by
      intro G hG ra rb rc rd era erb erc erd P hP
      subst hG
      simp only [resDeriv, hsp, bind, Except.bind, eA, eB, hd, List.length_cons, List.length_nil, ne_eq,
        not_true_eq_false, if_false, List.reverse_cons, List.reverse_nil, List.nil_append, List.cons_append, hs]
      rw [if_neg (by omega), if_neg (not_not.2 (inRange hP)), List.mapM_map]
      apply mapM_eq_ok
      intro p hp
      obtain ⟨k1, k2⟩ := hP p hp
      have gd' : guardIdx (2 * G.norb) [a, b, c, d] = .ok () := guardIdx_ok gd
      simp only [Function.comp_def, C30_position k1 k2, Int.toNat_natCast, guardIdx_ok (hg k1 k2), gd',
        spatialSpin_ok ha', spatialSpin_ok hb', spatialSpin_ok hc', spatialSpin_ok hd2, era, erb, erc, erd]
    have hV : ∀ (H : UnrHam ℝ), H.norb = n → unrDecomposed H.cacheTwoInts sd1 sd2 = .ok (signTimes σ (0,
        (if b < n ∧ d < n then H.twoAA a b c d
          else if a < n ∧ ¬ b < n ∧ c < n ∧ ¬ d < n then H.twoAB a (b - n) c (d - n)
          else if ¬ a < n ∧ ¬ c < n then H.twoBB (a - n) (b - n) (c - n) (d - n) else 0),
        (if b < n ∧ d < n then -H.twoAA a b d c
          else if ¬ a < n ∧ ¬ c < n then -H.twoBB (a - n) (b - n) (d - n) (c - n) else 0))) := by
      intro H hH
      subst hH
      rw [unr_double H.cacheTwoInts hn hd hs, unrTwo_eval H.cacheTwoInts ha' hb' hc' hd2 hab hcd]
      rfl
    have other : (∀ ra rb rc rd : ℕ × ℕ, (if a < n then (a, 0) else (a - n, 1)) = ra →
        (if b < n then (b, 0) else (b - n, 1)) = rb → (if c < n then (c, 0) else (c - n, 1)) = rc →
        (if d < n then (d, 0) else (d - n, 1)) = rd → spinCase ra.2 rb.2 rc.2 rd.2 = 3) →
        ¬ (b < n ∧ d < n) → ¬ (a < n ∧ ¬ b < n ∧ c < n ∧ ¬ d < n) → ¬ (¬ a < n ∧ ¬ c < n) →
        ∃ V du dr, Kernel V du dr ∧
          (∀ H : UnrHam ℝ, H.norb = n → unrDecomposed H.cacheTwoInts sd1 sd2 = .ok (V H)) ∧
          (∀ H : UnrHam ℝ, H.norb = n → ∀ P : List (ℕ × ℕ × ℕ), (∀ p ∈ P, p.1 < 2 ∧ p.2.1 < p.2.2 ∧ p.2.2 < n) →
            unrDeriv H sd1 sd2 (P.map fun p => unrPos n p.1 p.2.1 p.2.2) = .ok (P.map fun p => du H p.1 p.2.1 p.2.2)) ∧
          (∀ G : GenHam ℝ, G.norb = n → ∀ P : List (ℕ × ℕ), (∀ p ∈ P, p.1 < p.2 ∧ p.2 < n) →
            resDeriv G sd1 sd2 (P.map fun p => triuPos n p.1 p.2) = .ok (P.map fun p => dr G p.1 p.2)) := by
      intro h3 n1 n2 n3
      refine ⟨_, _, _, sign_kernel σ zero_kernel, fun H hH => ?_, fun H hH P hP => ?_, fun G hG P hP => ?_⟩
      · rw [hV H hH, if_neg n1, if_neg n2, if_neg n3, if_neg n1, if_neg n3]
        rfl
      · rw [hU H hH _ _ _ _ rfl rfl rfl rfl P hP]
        simp only [unrDerivTwo_other H _ _ (h3 _ _ _ _ rfl rfl rfl rfl)]
      · rw [hR G hG _ _ _ _ rfl rfl rfl rfl P hP]
        simp only [resDerivTwo_none G (h3 _ _ _ _ rfl rfl rfl rfl)]
    by_cases ca : a < n <;> by_cases cb : b < n <;> by_cases cc : c < n <;> by_cases cd : d < n <;>
      first
      | (exfalso; omega)
      | (apply other
         · rintro _ _ _ _ rfl rfl rfl rfl
           simp only [ca, cb, cc, cd, if_true, if_false, spinCase, zero_ne_one, one_ne_zero, and_false, false_and]
         all_goals (simp only [ca, cb, cc, cd]; simp))
      | skip
    · refine ⟨_, _, _, sign_kernel σ (doubleA_kernel hab.ne hac had hbc hbd hcd.ne), fun H hH => ?_, fun H hH P hP => ?_,
        fun G hG P hP => ?_⟩
      · rw [hV H hH, if_pos ⟨cb, cd⟩, if_pos ⟨cb, cd⟩]; rfl
      · exact hU H hH _ _ _ _ (if_pos ca) (if_pos cb) (if_pos cc) (if_pos cd) P hP
      · exact hR G hG _ _ _ _ (if_pos ca) (if_pos cb) (if_pos cc) (if_pos cd) P hP
    · refine ⟨_, _, _, sign_kernel σ (doubleM_kernel (a := a) (b := b - n) (c := c) (d := d - n) hac (by omega)),
        fun H hH => ?_, fun H hH P hP => ?_, fun G hG P hP => ?_⟩
      · rw [hV H hH, if_neg (by omega), if_pos ⟨ca, cb, cc, cd⟩, if_neg (by omega), if_neg (by omega)]; rfl
      · exact hU H hH _ _ _ _ (if_pos ca) (if_neg cb) (if_pos cc) (if_neg cd) P hP
      · exact hR G hG _ _ _ _ (if_pos ca) (if_neg cb) (if_pos cc) (if_neg cd) P hP
    · refine ⟨_, _, _, sign_kernel σ (doubleB_kernel (a := a - n) (b := b - n) (c := c - n) (d := d - n) (by omega)
        (by omega) (by omega) (by omega) (by omega) (by omega)), fun H hH => ?_, fun H hH P hP => ?_, fun G hG P hP => ?_⟩
      · rw [hV H hH, if_neg (by omega), if_neg (by omega), if_pos ⟨ca, cc⟩, if_neg (by omega), if_pos ⟨ca, cc⟩]; rfl
      · exact hU H hH _ _ _ _ (if_neg ca) (if_neg cb) (if_neg cc) (if_neg cd) P hP
      · exact hR G hG _ _ _ _ (if_neg ca) (if_neg cb) (if_neg cc) (if_neg cd) P hP

/-- C31, unrestricted orbitals.  There is a table `T` such that `integrate_sd_sd_decomposed` with `deriv` returns `T s x y`
for each requested spin `s` (0 alpha, 1 beta) and pair `(x, y)` of spatial orbitals, and `T s x y` is the derivative at zero
of the triple of the Hamiltonian whose spin orbitals `x + s n` and `y + s n` were rotated by `orb_rotate_jacobi`. -/
theorem C31_unrestricted {n : ℕ} (hn : 0 < n) (hA hB : ℕ → ℕ → ℝ) (gAA gAB gBB : ℕ → ℕ → ℕ → ℕ → ℝ)
    (hA' : ∀ i j, hA i j = hA j i) (hB' : ∀ i j, hB i j = hB j i) (sAA : ∀ i j k l, gAA i j k l = gAA j i l k)
    (sBB : ∀ i j k l, gBB i j k l = gBB j i l k) (rAA : ∀ i j k l, gAA i j k l = gAA k l i j)
    (rAB : ∀ i j k l, gAB i j k l = gAB k l i j) (rBB : ∀ i j k l, gBB i j k l = gBB k l i j)
    (sd1 sd2 : ℕ) (h1 : sd1 < 2 ^ (2 * n)) (h2 : sd2 < 2 ^ (2 * n)) :
    ∃ T : ℕ → ℕ → ℕ → ℝ × ℝ × ℝ,
      (∀ P : List (ℕ × ℕ × ℕ), (∀ p ∈ P, p.1 < 2 ∧ p.2.1 < p.2.2 ∧ p.2.2 < n) →
        unrDeriv (UnrHam.ofInts n hA hB gAA gAB gBB) sd1 sd2 (P.map fun p => unrPos n p.1 p.2.1 p.2.2) =
          .ok (P.map fun p => T p.1 p.2.1 p.2.2)) ∧
      ∀ s x y, s < 2 → x < y → y < n → ∃ F : ℝ → ℝ × ℝ × ℝ,
        (∀ θ, ∃ K, (UnrHam.ofInts n hA hB gAA gAB gBB).rotateJacobi ((x + s * n : ℕ) : ℤ) ((y + s * n : ℕ) : ℤ)
            (Real.cos θ) (Real.sin θ) = .ok K ∧
          unrDecomposed K.cacheTwoInts sd1 sd2 = .ok (F θ)) ∧
        HasDerivAt F (T s x y) 0 := by
  obtain ⟨V, du, dr, k, eV, eU, -⟩ := spin_core hn h1 h2
  have hS : RealSym (UnrHam.ofInts n hA hB gAA gAB gBB) := ⟨hA', hB', sAA, sBB, rAA, rAB, rBB⟩
  refine ⟨du (UnrHam.ofInts n hA hB gAA gAB gBB), eU _ rfl, fun s x y hs hxy hy => ?_⟩
  have hs' : s = 0 ∨ s = 1 := by omega
  rcases hs' with rfl | rfl
  · let K : ℝ → UnrHam ℝ := fun θ => { UnrHam.ofInts n hA hB gAA gAB gBB with
        oneA := jacobiOne (Real.cos θ) (Real.sin θ) x y hA
        twoAA := jacobiTwo (Real.cos θ) (Real.sin θ) x y gAA
        twoAB := jacobiTwo13 (Real.cos θ) (Real.sin θ) x y gAB }
    refine ⟨fun θ => V (K θ), fun θ => ⟨K θ, ?_, eV _ ?_⟩, ?_⟩
    · have e1 : (UnrHam.ofInts n hA hB gAA gAB gBB).norb = n := rfl
      simp only [UnrHam.rotateJacobi, zero_mul, add_zero, e1, Int.toNat_natCast, if_neg (show ¬ ((x : ℤ) > y) by omega),
        Nat.div_eq_of_lt (show x < n by omega), Nat.div_eq_of_lt hy]
      rw [if_neg (by omega), if_neg (by omega), if_neg (by omega), if_pos trivial]
      simp only [Nat.mod_eq_of_lt (show x < n by omega), Nat.mod_eq_of_lt hy]
      rfl
    · rfl
    · rw [k.alpha _ x y (by omega) hS]
      exact k.deriv _ _ ⟨fun i j => hasDerivAt_jacobiOne x y hA i j, fun _ _ => hasDerivAt_const _ _,
        fun i j k l => hasDerivAt_jacobiTwo x y gAA i j k l, fun i j k l => hasDerivAt_jacobiTwo13 x y gAB i j k l,
        fun _ _ _ _ => hasDerivAt_const _ _⟩
  · let K : ℝ → UnrHam ℝ := fun θ => { UnrHam.ofInts n hA hB gAA gAB gBB with
        oneB := jacobiOne (Real.cos θ) (Real.sin θ) x y hB
        twoBB := jacobiTwo (Real.cos θ) (Real.sin θ) x y gBB
        twoAB := jacobiTwo24 (Real.cos θ) (Real.sin θ) x y gAB }
    refine ⟨fun θ => V (K θ), fun θ => ⟨K θ, ?_, eV _ ?_⟩, ?_⟩
    · have e1 : (UnrHam.ofInts n hA hB gAA gAB gBB).norb = n := rfl
      have d1 : (x + n) / n = 1 := by rw [Nat.add_div_right _ hn, Nat.div_eq_of_lt (by omega)]
      have d2 : (y + n) / n = 1 := by rw [Nat.add_div_right _ hn, Nat.div_eq_of_lt (by omega)]
      simp only [UnrHam.rotateJacobi, one_mul, e1, Int.toNat_natCast, d1, d2,
        if_neg (show ¬ (((x + n : ℕ) : ℤ) > (y + n : ℕ)) by omega)]
      rw [if_neg (by omega), if_neg (by omega), if_neg (by omega), if_neg (by omega)]
      simp only [Nat.add_mod_right, Nat.mod_eq_of_lt (show x < n by omega), Nat.mod_eq_of_lt hy]
      rfl
    · rfl
    · rw [k.beta _ x y (by omega) hS]
      exact k.deriv _ _ ⟨fun _ _ => hasDerivAt_const _ _, fun i j => hasDerivAt_jacobiOne x y hB i j,
        fun _ _ _ _ => hasDerivAt_const _ _, fun i j k l => hasDerivAt_jacobiTwo24 x y gAB i j k l,
        fun i j k l => hasDerivAt_jacobiTwo x y gBB i j k l⟩

theorem rotAxis_swap (c s : ℝ) (x y : ℕ) (f : ℕ → ℕ → ℝ) (i j : ℕ) :
    rotAxis c s x y (fun i => rotAxis c s x y (fun j => f i j) j) i =
      rotAxis c s x y (fun j => rotAxis c s x y (fun i => f i j) i) j := by
  simp only [rotAxis]
  split_ifs <;> ring

theorem jacobiTwo_swap (c s : ℝ) (x y : ℕ) {g : ℕ → ℕ → ℕ → ℕ → ℝ} (hg : ∀ i j k l, g i j k l = g j i l k) :
    ∀ i j k l, jacobiTwo c s x y g i j k l = jacobiTwo c s x y g j i l k := by
  intro i j k l
  have e : ∀ i j, rotAxis c s x y (fun k => rotAxis c s x y (fun l => g i j k l) l) k =
      rotAxis c s x y (fun l => rotAxis c s x y (fun k => g j i l k) k) l := by
    intro i j
    rw [rotAxis_swap]
    simp only [hg i j]
  simp only [jacobiTwo]
  rw [rotAxis_swap]
  simp only [e]

/-- C31, restricted orbitals: as for generalized orbitals, with spatial orbitals in the place of spin orbitals, and with no
exception for the vacuum. -/
theorem C31_restricted {n : ℕ} (hn : 0 < n) (h : ℕ → ℕ → ℝ) (g : ℕ → ℕ → ℕ → ℕ → ℝ) (hh : ∀ i j, h i j = h j i)
    (hg : ∀ i j k l, g i j k l = g j i l k) (hr : ∀ i j k l, g i j k l = g k l i j) (sd1 sd2 : ℕ)
    (h1 : sd1 < 2 ^ (2 * n)) (h2 : sd2 < 2 ^ (2 * n)) :
    ∃ T : ℕ → ℕ → ℝ × ℝ × ℝ,
      (∀ P : List (ℕ × ℕ), (∀ p ∈ P, p.1 < p.2 ∧ p.2 < n) →
        resDeriv (GenHam.ofInts n h g) sd1 sd2 (P.map fun p => triuPos n p.1 p.2) = .ok (P.map fun p => T p.1 p.2)) ∧
      ∀ x y, x < y → y < n → ∃ F : ℝ → ℝ × ℝ × ℝ,
        (∀ θ, ∃ K, (GenHam.ofInts n h g).rotateJacobi x y (Real.cos θ) (Real.sin θ) = .ok K ∧
          resDecomposed K.cacheTwoInts sd1 sd2 = .ok (F θ)) ∧
        HasDerivAt F (T x y) 0 := by
  obtain ⟨V, du, dr, k, eV, -, eR⟩ := spin_core hn h1 h2
  have hS : RealSym (dup (GenHam.ofInts n h g)) := ⟨hh, hh, hg, hg, hr, hr, hr⟩
  refine ⟨dr (GenHam.ofInts n h g), eR _ rfl, fun x y hxy hy => ?_⟩
  refine ⟨fun θ => V (UnrHam.ofInts n (jacobiOne (Real.cos θ) (Real.sin θ) x y h)
    (jacobiOne (Real.cos θ) (Real.sin θ) x y h) (jacobiTwo (Real.cos θ) (Real.sin θ) x y g)
    (jacobiTwo (Real.cos θ) (Real.sin θ) x y g) (jacobiTwo (Real.cos θ) (Real.sin θ) x y g)), fun θ => ?_, ?_⟩
  · have := rotateJacobi_ok (GenHam.ofInts n h g) (p := x) (q := y) (show x < n by omega) hy (by omega)
      (Real.cos θ) (Real.sin θ)
    rw [min_eq_left hxy.le, max_eq_right hxy.le] at this
    refine ⟨_, this, ?_⟩
    have e := C24_restricted_partial n (jacobiOne (Real.cos θ) (Real.sin θ) x y h) (jacobiTwo (Real.cos θ) (Real.sin θ) x y g)
      (jacobiTwo_swap _ _ x y hg) sd1 sd2
    rw [← eV _ rfl]
    exact e
  · rw [k.res _ x y (by omega) hS]
    exact k.deriv _ _ ⟨fun i j => hasDerivAt_jacobiOne x y h i j, fun i j => hasDerivAt_jacobiOne x y h i j,
      fun i j k l => hasDerivAt_jacobiTwo x y g i j k l, fun i j k l => hasDerivAt_jacobiTwo x y g i j k l,
      fun i j k l => hasDerivAt_jacobiTwo x y g i j k l⟩

/-- C31. `integrate_sd_sd` with `deriv` is the derivative of `integrate_sd_sd`, for the three kinds of orbitals. -/
theorem C31_integrate_sd_sd_partial {n : ℕ} (hn : 0 < n) (h : ℕ → ℕ → ℝ) (g : ℕ → ℕ → ℕ → ℕ → ℝ) (hh : ∀ i j, h i j = h j i)
    (hg : ∀ i j k l, g i j k l = g j i l k) (hr : ∀ i j k l, g i j k l = g k l i j) (sd1 sd2 : ℕ) {x y : ℕ} (hxy : x < y)
    (hy : y < n) :
    (sd1 < 2 ^ n → sd2 < 2 ^ n → sd1 ≠ 0 ∨ sd2 ≠ 0 → ∃ (d : ℝ) (F : ℝ → ℝ),
      genSdSdDeriv (GenHam.ofInts n h g) sd1 sd2 [triuPos n x y] = .ok [d] ∧
      (∀ θ, ∃ K, (GenHam.ofInts n h g).rotateJacobi x y (Real.cos θ) (Real.sin θ) = .ok K ∧
        genSdSd K.cacheTwoInts sd1 sd2 = .ok (F θ)) ∧ HasDerivAt F d 0) ∧
    (sd1 < 2 ^ (2 * n) → sd2 < 2 ^ (2 * n) → ∃ (d : ℝ) (F : ℝ → ℝ),
      resSdSdDeriv (GenHam.ofInts n h g) sd1 sd2 [triuPos n x y] = .ok [d] ∧
      (∀ θ, ∃ K, (GenHam.ofInts n h g).rotateJacobi x y (Real.cos θ) (Real.sin θ) = .ok K ∧
        resSdSd K.cacheTwoInts sd1 sd2 = .ok (F θ)) ∧ HasDerivAt F d 0) ∧
    (sd1 < 2 ^ (2 * n) → sd2 < 2 ^ (2 * n) → ∀ s < 2, ∃ (d : ℝ) (F : ℝ → ℝ),
      unrSdSdDeriv (UnrHam.ofInts n h h g g g) sd1 sd2 [unrPos n s x y] = .ok [d] ∧
      (∀ θ, ∃ K, (UnrHam.ofInts n h h g g g).rotateJacobi ((x + s * n : ℕ) : ℤ) ((y + s * n : ℕ) : ℤ)
          (Real.cos θ) (Real.sin θ) = .ok K ∧
        unrSdSd K.cacheTwoInts sd1 sd2 = .ok (F θ)) ∧ HasDerivAt F d 0) := by
  refine ⟨fun h1 h2 h0 => ?_, fun h1 h2 => ?_, fun h1 h2 s hs => ?_⟩
  · obtain ⟨T, hT, hD⟩ := C31_generalized_partial n h g hh hg hr sd1 sd2 h1 h2
    obtain ⟨F, hF, hd⟩ := hD x y hxy hy h0
    refine ⟨sumComp (T x y), fun θ => sumComp (F θ), ?_, fun θ => ?_, hasDerivAt_sumComp hd⟩
    · have := hT [(x, y)] (by simp [hxy, hy])
      simp only [List.map_cons, List.map_nil] at this
      rw [genSdSdDeriv, this]; rfl
    · obtain ⟨K, h1, h2⟩ := hF θ
      exact ⟨K, h1, by rw [genSdSd, h2]; rfl⟩
  · obtain ⟨T, hT, hD⟩ := C31_restricted hn h g hh hg hr sd1 sd2 h1 h2
    obtain ⟨F, hF, hd⟩ := hD x y hxy hy
    refine ⟨sumComp (T x y), fun θ => sumComp (F θ), ?_, fun θ => ?_, hasDerivAt_sumComp hd⟩
    · have := hT [(x, y)] (by simp [hxy, hy])
      simp only [List.map_cons, List.map_nil] at this
      rw [resSdSdDeriv, this]; rfl
    · obtain ⟨K, h1, h2⟩ := hF θ
      exact ⟨K, h1, by rw [resSdSd, h2]; rfl⟩
  · obtain ⟨T, hT, hD⟩ := C31_unrestricted hn h h g g g hh hh hg hg hr hr hr sd1 sd2 h1 h2
    obtain ⟨F, hF, hd⟩ := hD s x y hs hxy hy
    refine ⟨sumComp (T s x y), fun θ => sumComp (F θ), ?_, fun θ => ?_, hasDerivAt_sumComp hd⟩
    · have := hT [(s, x, y)] (by simp [hxy, hy]; omega)
      simp only [List.map_cons, List.map_nil] at this
      rw [unrSdSdDeriv, this]; rfl
    · obtain ⟨K, h1, h2⟩ := hF θ
      exact ⟨K, h1, by rw [unrSdSd, h2]; rfl⟩

section
variable {R : Type} [CommRing R]

/-- C31. An index that is no parameter is rejected with `ValueError` for two determinants that differ by at most two
orbitals. -/
theorem C31_index_error (n : ℕ) (h : ℕ → ℕ → R) (g : ℕ → ℕ → ℕ → ℕ → R) (sd1 sd2 : ℕ) (i : ℤ)
    (hc : (occSet sd1).card = (occSet sd2).card) (ho : (occSet sd1 \ occSet sd2).card ≤ 2) :
    (¬ (0 ≤ i ∧ i < (n * (n - 1) / 2 : ℕ)) → genDeriv (GenHam.ofInts n h g) sd1 sd2 [i] = .error .valueError) ∧
    (0 < n → ¬ (0 ≤ i ∧ i < (n * (n - 1) / 2 : ℕ)) →
      resDeriv (GenHam.ofInts n h g) sd1 sd2 [i] = .error .valueError) ∧
    (0 < n → ¬ (0 ≤ i ∧ i < (n * (n - 1) : ℕ)) →
      unrDeriv (UnrHam.ofInts n h h g g g) sd1 sd2 [i] = .error .valueError) := by
  have e1 : (GenHam.ofInts n h g).norb = n := rfl
  have e2 : (UnrHam.ofInts n h h g g g).norb = n := rfl
  have hs : ∃ σ, signExcite (some sd1) (diffOrbs sd1 sd2).1 (diffOrbs sd1 sd2).2.reverse = .ok σ := by
    rcases sdPair_cases sd1 sd2 with ⟨-, hl⟩ | ⟨-, -, hl2⟩ | ⟨rfl, hd, hs⟩ | ⟨a, b, u, hd, _, _, _, _, _, _, hs⟩ |
      ⟨a, b, c, d, u, hd, _, _, _, _, _, _, _, _, _, _, _, _, _, hs⟩
    · exact absurd hc hl
    · omega
    · exact ⟨_, by rw [hd]; exact hs⟩
    · exact ⟨_, by rw [hd]; exact hs⟩
    · exact ⟨_, by rw [hd]; exact hs⟩
  obtain ⟨σ, hs⟩ := hs
  have hl : ¬ (diffOrbs sd1 sd2).1.length ≠ (diffOrbs sd1 sd2).2.length := not_not.2 ((diff_lengths_iff sd1 sd2).2 hc)
  have hl2 : ¬ (diffOrbs sd1 sd2).1.length > 2 := by rw [diffOrbs_fst_length]; omega
  refine ⟨fun hi => ?_, fun hn hi => ?_, fun hn hi => ?_⟩
  · simp only [genDeriv, if_neg hl, if_neg hl2, hs, bind, Except.bind, e1]
    rw [if_pos (by simpa using hi)]
  · have hsp : splitSpin (sharedSd sd1 sd2) (n : ℤ) = _ := splitSpin_ok hn
    simp only [resDeriv, e1, hsp, if_neg hl, if_neg hl2, hs, bind, Except.bind]
    rw [if_pos (by simpa using hi)]
  · have hsp : splitSpin (sharedSd sd1 sd2) (n : ℤ) = _ := splitSpin_ok hn
    simp only [unrDeriv, e2, hsp, if_neg hl, if_neg hl2, hs, bind, Except.bind]
    rw [if_pos (by simpa using hi)]

/-- C31. Two determinants with different electron numbers or that differ by more than two orbitals: every derivative is
zero, and the indices are not looked at, so that an index that is no parameter gives a zero and no error. -/
theorem C31_far (n : ℕ) (h : ℕ → ℕ → R) (g : ℕ → ℕ → ℕ → ℕ → R) (sd1 sd2 : ℕ) (I : List ℤ)
    (hc : (occSet sd1).card ≠ (occSet sd2).card ∨ 2 < (occSet sd1 \ occSet sd2).card) :
    genDeriv (GenHam.ofInts n h g) sd1 sd2 I = .ok (I.map fun _ => 0) ∧
    (0 < n → resDeriv (GenHam.ofInts n h g) sd1 sd2 I = .ok (I.map fun _ => 0)) ∧
    (0 < n → unrDeriv (UnrHam.ofInts n h h g g g) sd1 sd2 I = .ok (I.map fun _ => 0)) := by
  have e1 : (GenHam.ofInts n h g).norb = n := rfl
  have e2 : (UnrHam.ofInts n h h g g g).norb = n := rfl
  have key : (diffOrbs sd1 sd2).1.length ≠ (diffOrbs sd1 sd2).2.length ∨ (diffOrbs sd1 sd2).1.length > 2 := by
    rcases hc with hc | hc
    · exact .inl fun hl => hc ((diff_lengths_iff sd1 sd2).1 hl)
    · exact .inr (by rw [diffOrbs_fst_length]; exact hc)
  refine ⟨?_, fun hn => ?_, fun hn => ?_⟩
  · simp only [genDeriv]
    rcases key with hl | hl
    · rw [if_pos hl]
    · rw [if_pos hl, ite_self]
  · have hsp : splitSpin (sharedSd sd1 sd2) (n : ℤ) = _ := splitSpin_ok hn
    simp only [resDeriv, e1, hsp, bind, Except.bind]
    rcases key with hl | hl
    · rw [if_pos hl]
    · rw [if_pos hl, ite_self]
  · have hsp : splitSpin (sharedSd sd1 sd2) (n : ℤ) = _ := splitSpin_ok hn
    simp only [unrDeriv, e2, hsp, bind, Except.bind]
    rcases key with hl | hl
    · rw [if_pos hl]
    · rw [if_pos hl, ite_self]

end

/-- two spatial orbitals, real symmetric integrals: the derivative of a diagonal and of an off-diagonal element -/
example : resSdSdDeriv (GenHam.ofInts 2 (fun i j => (i + j + 1 : ℤ)) (fun i j k l => (i * k + 1) * (j * l + 1) + i + j + k + l))
      0b0101 0b0101 [0] = .ok [-16] ∧
    resSdSdDeriv (GenHam.ofInts 2 (fun i j => (i + j + 1 : ℤ)) (fun i j k l => (i * k + 1) * (j * l + 1) + i + j + k + l))
      0b0101 0b0101 [1] = .error .valueError := by decide

end Fanpy.Props
