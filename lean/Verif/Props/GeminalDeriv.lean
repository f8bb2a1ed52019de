import Verif.Props.Geminal
import Verif.Lemmas.PermanentLaplace
import Mathlib.Analysis.Calculus.Deriv.Mul

/-! # C35: derivatives of the overlaps of geminal wavefunctions -/

namespace Fanpy.Props
open Fanpy.Slater Fanpy.Graphs Fanpy.Geminal Fanpy.Spec Fanpy.MathTools

set_option linter.unusedSectionVars false

variable {R : Type} [Field R]

/-- the matrix of parameters with `h` added to the parameter `(r, c)` -/
def shiftParam (P : ℕ → ℕ → R) (r c : ℕ) (h : R) : ℕ → ℕ → R := fun a b => if a = r ∧ b = c then P a b + h else P a b

/-- the derivative of the permanent of the columns `cols` -/
noncomputable def minorOf (P : ℕ → ℕ → R) (n : ℕ) (cols : List ℕ) (r c : ℕ) : R :=
  if c ∈ cols then perSpec (n - 1) (cols.length - 1) fun i j => P (skip r i) (cols.getD (skip (cols.idxOf c) j) 0) else 0

/-- the permanent of the columns `cols` -/
noncomputable def perCols (P : ℕ → ℕ → R) (n : ℕ) (cols : List ℕ) : R :=
  perSpec n cols.length fun i j => P i (cols.getD j 0)

theorem perCols_shift (P : ℕ → ℕ → R) {n : ℕ} {cols : List ℕ} (hn : cols.Nodup) {r : ℕ} (hr : r < n)
    (c : ℕ) (h : R) : perCols (shiftParam P r c h) n cols = perCols P n cols + h * minorOf P n cols r c := by
  rw [minorOf]
  split_ifs with hc
  · have hj := List.idxOf_lt_length_of_mem hc
    obtain ⟨n', rfl⟩ : ∃ n', n = n' + 1 := ⟨n - 1, by omega⟩
    obtain ⟨k, hk⟩ : ∃ k, cols.length = k + 1 := ⟨cols.length - 1, by omega⟩
    have := perSpec_affine (m := n') (n := k) (fun i j => P i (cols.getD j 0)) hr (c := cols.idxOf c) (by omega) h
    rw [perCols, perCols, hk]
    simp only [Nat.add_sub_cancel]
    rw [← this]
    apply perSpec_congr
    intro i j _ hjk
    rw [shiftParam]
    have : cols.getD j 0 = c ↔ j = cols.idxOf c := by
      rw [List.getD_eq_getElem _ _ (by omega)]
      constructor
      · intro hjc
        rw [← hjc, hn.idxOf_getElem]
      · rintro rfl
        exact List.getElem_idxOf hj
    simp only [this]
  · rw [mul_zero, add_zero, perCols, perCols]
    apply perSpec_congr
    intro i j _ hjk
    rw [shiftParam, if_neg]
    rintro ⟨-, h2⟩
    apply hc
    rw [← h2, List.getD_eq_getElem _ _ hjk]
    exact List.getElem_mem _

/-- the truncated permanent of `compute_permanent` -/
theorem permanentDeriv_eq [CharZero R] (P : ℕ → ℕ → R) {norbpair n r c : ℕ} {cols : List ℕ} (hn : cols.Nodup)
    (hr : r < n) (hc : c ∈ cols) (hcn : c < norbpair) (hok : n = 1 ∧ cols.length = 1 ∨ 2 ≤ n ∧ 2 ≤ cols.length) :
    permanentDeriv P norbpair cols (List.range n) (r * norbpair + c) = .ok (minorOf P n cols r c) := by
  have hj := List.idxOf_lt_length_of_mem hc
  have h1 : (r * norbpair + c) / norbpair = r := by
    rw [mul_comm, Nat.mul_add_div (by omega), Nat.div_eq_of_lt hcn, add_zero]
  have h2 : (r * norbpair + c) % norbpair = c := by
    rw [mul_comm, Nat.mul_add_mod, Nat.mod_eq_of_lt hcn]
  have hcg : cols.getD (cols.idxOf c) 0 = c := by
    rw [List.getD_eq_getElem _ _ hj]; exact List.getElem_idxOf hj
  have hrg : (List.range n).getD r 0 = r := by
    rw [List.getD_eq_getElem _ _ (by simpa using hr)]; simp
  obtain ⟨a1, a2⟩ := filter_ne_getD hn hj
  obtain ⟨b1, b2⟩ := filter_ne_getD (List.nodup_range (n := n)) (j := r) (by simpa using hr)
  rw [hcg] at a1 a2
  rw [hrg] at b1 b2
  rw [List.length_range] at b1 b2
  simp only [permanentDeriv, h1, h2]
  rw [if_neg (by rw [List.length_range]; omega), minorOf, if_pos hc]
  by_cases h0 : n = 1
  · have hl : cols.length = 1 := by omega
    rw [if_pos (by omega), h0, hl]
    simp [perSpec]
  · rw [if_neg (by omega), permanentOf_eq _ _ (by simp only [subMatrix]; omega) (by simp only [subMatrix]; omega)]
    congr 1
    simp only [subMatrix]
    rw [show ((List.range n).filter (· ≠ r)).length = n - 1 by omega,
      show (cols.filter (· ≠ c)).length = cols.length - 1 by omega]
    apply perSpec_congr
    intro i j hi hj'
    rw [a2 j (by omega), b2 i (by omega), List.getD_eq_getElem _ _ (by rw [List.length_range, skip]; split_ifs <;> omega),
      List.getElem_range]

theorem foldlM_derivStep [CharZero R] (w : Geminal.Wfn R) {cols : List ℕ} (s : ℤ) (hn : cols.Nodup)
    (hlt : ∀ c ∈ cols, c < w.norbpair) (hok : w.ngem = 1 ∧ cols.length = 1 ∨ 2 ≤ w.ngem ∧ 2 ≤ cols.length) :
    ∀ (l : List (ℕ × ℕ)) (out : ℕ → R), l.Nodup → (∀ p ∈ l, p.1 < w.ngem ∧ p.2 ∈ cols) →
      l.foldlM (w.derivStep cols s) out = .ok fun i => out i + if (i / w.norbpair, i % w.norbpair) ∈ l then
        s * minorOf w.params w.ngem cols (i / w.norbpair) (i % w.norbpair) else 0 := by
  intro l
  induction l with
  | nil => intro out _ _; simp [pure, Except.pure]
  | cons p l ih =>
    intro out hnd h
    obtain ⟨r, c⟩ := p
    obtain ⟨h1, h2⟩ := h (r, c) (List.mem_cons_self ..)
    rw [List.nodup_cons] at hnd
    have hcn := hlt c h2
    rw [List.foldlM_cons, Geminal.Wfn.derivStep]
    simp only [permanentDeriv_eq w.params hn h1 h2 hcn hok, bind, Except.bind, pure, Except.pure]
    rw [ih _ hnd.2 (fun p hp => h p (List.mem_cons_of_mem _ hp))]
    congr 1
    funext i
    rw [bump]
    have hi : i = r * w.norbpair + c ↔ (i / w.norbpair, i % w.norbpair) = (r, c) := by
      constructor
      · rintro rfl
        rw [mul_comm, Nat.mul_add_div (by omega), Nat.div_eq_of_lt hcn, add_zero, Nat.mul_add_mod, Nat.mod_eq_of_lt hcn]
      · intro h
        rw [Prod.mk.injEq] at h
        rw [← h.1, ← h.2, mul_comm, Nat.div_add_mod]
    by_cases hie : i = r * w.norbpair + c
    · have h' := hi.1 hie
      rw [if_pos hie, h', if_neg hnd.1, if_pos (List.mem_cons_self ..)]
      rw [Prod.mk.injEq] at h'
      rw [h'.1, h'.2, add_zero]
    · have h' := fun x => hie (hi.2 x)
      rw [if_neg hie]
      congr 2
      rw [List.mem_cons, eq_iff_iff]
      exact ⟨Or.inr, fun h => h.resolve_left h'⟩

/-- what `generate_possible_orbpairs` gives: the empty scheme, or schemes of `k` different pairs -/
def GenOK (w : Geminal.Wfn R) (k : ℕ) (gen : List (Scheme × ℤ)) : Prop :=
  gen = [([], 1)] ∨ ∀ o ∈ gen, (∀ p ∈ o.1, p ∈ columns w.kind w.nspin) ∧ o.1.length = k ∧ o.1.Nodup

theorem columns_length (w : Geminal.Wfn R) (he : w.nspin % 2 = 0) : (columns w.kind w.nspin).length = w.norbpair := by
  rw [columns.eq_def, Geminal.Wfn.norbpair]
  cases w.kind with
  | apg => exact C37_apg_length _
  | apsetg =>
    simp only
    rw [C37_apsetg_length _ he, sq, show w.nspin - w.nspin / 2 = w.nspin / 2 by omega]
  | apig pairs => rfl

theorem overlap_deriv_of_gen [CharZero R] (w : Geminal.Wfn R) (he : w.nspin % 2 = 0) {sd k : ℕ} {gen : List (Scheme × ℤ)}
    (hgen : w.orbpairs (occIndices (some sd)) = .ok gen) (h : GenOK w k gen)
    (hok : w.ngem = 1 ∧ k = 1 ∨ 2 ≤ w.ngem ∧ 2 ≤ k) :
    ∃ (v : R) (d : ℕ → R), w.overlap sd = .ok v ∧ w.olpDeriv sd = .ok d ∧
      ∀ r c h, r < w.ngem → c < w.norbpair →
        ({ w with params := shiftParam w.params r c h } : Geminal.Wfn R).overlap sd =
          .ok (v + h * d (r * w.norbpair + c)) := by
  rcases h with rfl | h
  · refine ⟨0, fun _ => 0, overlap_nil w hgen, ?_, ?_⟩
    · rw [Geminal.Wfn.olpDeriv, hgen]
      simp [bind, Except.bind, pure, Except.pure, Geminal.Wfn.olpDerivStep]
    · intro r c h _ _
      rw [overlap_nil { w with params := shiftParam w.params r c h } hgen]
      simp
  · set C := columns w.kind w.nspin with hC
    have hover : ∀ P : ℕ → ℕ → R, ({ w with params := P } : Geminal.Wfn R).overlap sd =
        .ok (gen.map fun o => (o.2 : R) * perCols P w.ngem (o.1.map fun p => C.idxOf p)).sum := by
      intro P
      rw [Geminal.Wfn.overlap, show ({ w with params := P } : Geminal.Wfn R).orbpairs (occIndices (some sd)) = .ok gen from hgen]
      simp only [bind, Except.bind]
      rw [foldlM_olpStep { w with params := P } he (show w.ngem ≠ 0 by omega) (k := k) (by omega) gen (0, 0)
        (fun o ho => ⟨(h o ho).1, (h o ho).2.1⟩)]
      simp only [pure, Except.pure, zero_add]
      have : (gen.map fun o => (o.2 : R) * perSpec w.ngem k fun i j => P i (C.idxOf (o.1.getD j (0, 0)))) =
          gen.map fun o => (o.2 : R) * perCols P w.ngem (o.1.map fun p => C.idxOf p) := by
        apply List.map_congr_left
        intro o ho
        obtain ⟨-, h2, -⟩ := h o ho
        rw [perCols, List.length_map, h2]
        congr 1
        apply perSpec_congr
        intro i j _ hj
        rw [List.getD_eq_getElem _ _ (by omega), List.getD_eq_getElem _ _ (by simpa [h2] using hj), List.getElem_map]
      rw [this]
      rcases gen with - | ⟨o, gen⟩
      · simp
      · simp
    have hcols : ∀ o ∈ gen, (o.1.map fun p => C.idxOf p).Nodup ∧ (∀ c ∈ o.1.map fun p => C.idxOf p, c < w.norbpair) ∧
        (o.1.map fun p => C.idxOf p).length = k := by
      intro o ho
      obtain ⟨h1, h2, h3⟩ := h o ho
      refine ⟨?_, ?_, by rw [List.length_map, h2]⟩
      · apply h3.map_on
        intro a ha b hb hab
        exact (List.idxOf_inj (h1 a ha)).1 hab
      · intro c hc
        obtain ⟨p, hp, rfl⟩ := List.mem_map.1 hc
        rw [← columns_length w he]
        exact List.idxOf_lt_length_of_mem (h1 p hp)
    have hder : ∀ (l : List (Scheme × ℤ)) (out : ℕ → R), (∀ o ∈ l, o ∈ gen) → l.foldlM w.olpDerivStep out =
        .ok fun i => out i + (l.map fun o => if i / w.norbpair < w.ngem then (o.2 : R) *
          minorOf w.params w.ngem (o.1.map fun p => C.idxOf p) (i / w.norbpair) (i % w.norbpair) else 0).sum := by
      intro l
      induction l with
      | nil => intro out _; simp [pure, Except.pure]
      | cons o l ih =>
        intro out hl
        have ho := hl o (List.mem_cons_self ..)
        obtain ⟨h1, h2, h3⟩ := h o ho
        obtain ⟨c1, c2, c3⟩ := hcols o ho
        rw [List.foldlM_cons, Geminal.Wfn.olpDerivStep, if_neg (by omega),
          mapM_eq_ok o.1 (fun p hp => colInd_ok w he (h1 p hp))]
        simp only [bind, Except.bind]
        rw [← hC, foldlM_derivStep w o.2 c1 c2 (by omega)]
        · simp only
          rw [ih _ (fun o ho => hl o (List.mem_cons_of_mem _ ho))]
          congr 1
          funext i
          rw [List.map_cons, List.sum_cons, add_assoc]
          congr 2
          simp only [List.mem_flatMap, List.mem_range]
          by_cases hi : i / w.norbpair < w.ngem
          · rw [if_pos hi]
            split_ifs with hm
            · rfl
            · rw [minorOf, if_neg, mul_zero]
              intro hc
              exact hm ⟨_, hi, List.mem_map.2 ⟨_, hc, rfl⟩⟩
          · rw [if_neg hi, if_neg]
            rintro ⟨a, ha, hm⟩
            obtain ⟨b, -, hb⟩ := List.mem_map.1 hm
            rw [Prod.mk.injEq] at hb
            exact hi (hb.1 ▸ ha)
        · rw [List.nodup_flatMap]
          refine ⟨fun r _ => c1.map (fun a b hab => (Prod.mk.inj hab).2), ?_⟩
          apply List.nodup_range.imp
          intro a b hab x hx hy
          obtain ⟨_, -, rfl⟩ := List.mem_map.1 hx
          obtain ⟨_, -, h⟩ := List.mem_map.1 hy
          exact hab (Prod.mk.inj h).1.symm
        · intro p hp
          obtain ⟨r, hr, hp⟩ := List.mem_flatMap.1 hp
          obtain ⟨c, hc, rfl⟩ := List.mem_map.1 hp
          exact ⟨List.mem_range.1 hr, hc⟩
    have hd := hder gen (fun _ => 0) fun o ho => ho
    refine ⟨_, _, hover w.params, (by
      rw [Geminal.Wfn.olpDeriv, hgen]
      simp only [bind, Except.bind]
      exact hd), ?_⟩
    · intro r c x hr hc
      rw [hover]
      congr 1
      rw [mul_comm r, Nat.mul_add_div (by omega), Nat.div_eq_of_lt hc, add_zero, Nat.mul_add_mod, Nat.mod_eq_of_lt hc,
        zero_add, ← List.sum_map_mul_left, ← List.sum_map_add]
      congr 1
      apply List.map_congr_left
      intro o ho
      rw [perCols_shift w.params (hcols o ho).1 hr, if_pos hr]
      ring

/-! ## The schemes of the three classes -/

theorem gen_apg (w : Geminal.Wfn R) (hw : w.kind = .apg) {sd k : ℕ} (hsd : sd < 2 ^ w.nspin)
    (hc : (occSet sd).card = 2 * k) : ∃ gen, w.orbpairs (occIndices (some sd)) = .ok gen ∧ GenOK w k gen := by
  obtain ⟨out, h1, h2⟩ := covers_all (l := occIndices (some sd)) (nspin := w.nspin) (k := k)
    (by rw [length_occIndices, hc]) (sorted_occIndices sd) (fun x hx => by
      rw [lt_two_pow_iff] at hsd
      exact hsd x (mem_occSet.2 (mem_occIndices.1 hx)))
  refine ⟨out, ?_, Or.inr fun o ho => ⟨?_, h2.len o ho, nodup_of_flatPairs (h2.flat o ho)⟩⟩
  · rw [Geminal.Wfn.orbpairs, hw]
    simp only [h1]
    rw [mapM_eq_ok (g := fun p => (p.1.getD [], p.2))]
    · rw [List.map_map]
      congr 1
      simp [Function.comp_def]
    · intro p hp
      obtain ⟨o, -, rfl⟩ := List.mem_map.1 hp
      rfl
  · rw [hw]; exact h2.sub o ho

theorem gen_apsetg (w : Geminal.Wfn R) (hw : w.kind = .apsetg) {sd k : ℕ} (hk : k ≠ 0)
    (hsd : sd < 2 ^ w.nspin) (hc : (occSet sd).card = 2 * k) :
    ∃ gen, w.orbpairs (occIndices (some sd)) = .ok gen ∧ GenOK w k gen := by
  have hb : ∀ x ∈ occIndices (some sd), x < w.nspin := fun x hx => by
    rw [lt_two_pow_iff] at hsd
    exact hsd x (mem_occSet.2 (mem_occIndices.1 hx))
  have hlen : ((occIndices (some sd)).filter (· < w.nspin / 2)).length +
      ((occIndices (some sd)).filter fun i => ¬ i < w.nspin / 2).length = 2 * k := by
    rw [← hc, ← length_occIndices, ← List.length_append]
    have := List.filter_append_perm (fun i => decide (i < w.nspin / 2)) (occIndices (some sd))
    simp only [← decide_not] at this
    exact this.length_eq
  by_cases hab : ((occIndices (some sd)).filter (· < w.nspin / 2)).length =
      ((occIndices (some sd)).filter fun i => ¬ i < w.nspin / 2).length
  · obtain ⟨out, h1, h2⟩ := covers_sets (k := k) (by omega) (sorted_occIndices sd) hb (by omega) (by omega)
    refine ⟨out, ?_, Or.inr fun o ho => ⟨?_, h2.len o ho, nodup_of_flatPairs (h2.flat o ho)⟩⟩
    · rw [Geminal.Wfn.orbpairs, hw]
      simp only [h1, bind, Except.bind]
    · rw [hw]; exact h2.sub o ho
  · obtain ⟨h1, -⟩ := covers_sets_ne (k := k) (sorted_occIndices sd) hab
    refine ⟨[([], 1)], ?_, Or.inl rfl⟩
    rw [Geminal.Wfn.orbpairs, hw]
    simp only [h1, bind, Except.bind]

theorem gen_apig (w : Geminal.Wfn R) {pairs : List (ℕ × ℕ)} (hw : w.kind = .apig pairs)
    (hpairs : (flatPairs pairs).Nodup) {sd k : ℕ} (hn : w.nelec = 2 * k) (hc : (occSet sd).card = w.nelec) :
    ∃ gen, w.orbpairs (occIndices (some sd)) = .ok gen ∧ GenOK w k gen := by
  have hcov := covers_apig hpairs (nodup_occIndices sd) (k := k) (by rw [length_occIndices]; omega)
  have hlen : (occIndices (some sd)).length = w.nelec := by rw [length_occIndices]; omega
  rw [toFinset_occIndices] at hcov
  have hsub : apigSelect pairs (occIndices (some sd)) ⊆ pairs := fun p hp => ((mem_apigSelect hpairs).1 hp).1
  have hnf := flatPairs_nodup_sub hpairs (nodup_apigSelect (nodup_occIndices sd)) hsub
  have horb : w.orbpairs (occIndices (some sd)) =
      if occSet sd ≠ (flatPairs (apigSelect pairs (occIndices (some sd)))).toFinset then .ok [([], 1)]
      else .ok [(apigSelect pairs (occIndices (some sd)),
        listSign (flatPairs (apigSelect pairs (occIndices (some sd)))).reverse)] := by
    rw [Geminal.Wfn.orbpairs, hw]
    simp only [ne_eq, hlen, not_true_eq_false, if_false, signPerm_true _ hnf, bind, Except.bind, pure, Except.pure,
      toFinset_occIndices]
  split_ifs at hcov horb with hcase
  · exact ⟨_, horb, Or.inl rfl⟩
  · refine ⟨_, horb, Or.inr ?_⟩
    intro o ho
    rw [List.mem_singleton] at ho
    subst ho
    have hl := hcov.len _ (List.mem_singleton_self _)
    refine ⟨?_, hl, nodup_apigSelect (nodup_occIndices sd)⟩
    rw [hw]; exact hsub

/-! ## The property -/

/-- C35. The overlap is an affine function of each parameter, and the entry of `get_overlap(sd, deriv)` is its slope:
adding `h` to the parameter in row `i / norbpair` and column `i % norbpair` adds `h` times the entry of index `i`.
One case is excluded: two electrons in two or more geminals (`C35_two_electrons`). -/
theorem C35_deriv_partial [CharZero R] (kind : Kind) (nelec nspin : ℕ) (ngem : Option ℕ) (op : Option (List (ℕ × ℕ)))
    (params : ℕ → ℕ → R) (w : Geminal.Wfn R) (hw : Geminal.Wfn.init kind nelec nspin ngem op params = .ok w)
    (sd : ℕ) (hsd : sd < 2 ^ nspin) (hc : (occSet sd).card = nelec) (htwo : nelec ≠ 2 ∨ w.ngem = 1) :
    ∃ (v : R) (d : ℕ → R), w.overlap sd = .ok v ∧
      (∀ deriv : List ℕ, (∀ i ∈ deriv, i < w.ngem * w.norbpair) → w.overlapDeriv sd deriv = .ok (deriv.map d)) ∧
      ∀ r c h, r < w.ngem → c < w.norbpair →
        ({ w with params := fun a b => if a = r ∧ b = c then params a b + h else params a b } : Geminal.Wfn R).overlap sd =
          .ok (v + h * d (r * w.norbpair + c)) := by
  obtain ⟨⟨h1, h2, -, h4, h5⟩, kind', hk, rfl⟩ := (geminal_init_ok ..).1 hw
  simp only at htwo
  obtain ⟨gen, hg1, hg2⟩ : ∃ gen, (⟨kind', nelec, nspin, ngem.getD (nelec / 2), params⟩ : Geminal.Wfn R).orbpairs
      (occIndices (some sd)) = .ok gen ∧ GenOK ⟨kind', nelec, nspin, ngem.getD (nelec / 2), params⟩ (nelec / 2) gen := by
    cases kind' with
    | apg => exact gen_apg _ rfl hsd (by omega)
    | apsetg => exact gen_apsetg _ rfl (by omega) hsd (by omega)
    | apig pairs =>
      have hp : apigOrbpairs nspin op = .ok pairs := by
        cases kind with
        | apg => simp only [assignOrbpairs] at hk; split_ifs at hk; cases hk
        | apsetg => simp only [assignOrbpairs] at hk; split_ifs at hk; cases hk
        | apig old =>
          simp only [assignOrbpairs] at hk
          rcases hq : apigOrbpairs nspin op with e | q
          · rw [hq] at hk; cases hk
          · rw [hq] at hk
            have : Kind.apig q = Kind.apig pairs := by injection hk
            injection this with this
            rw [this]
      exact gen_apig _ rfl (apigOrbpairs_ok hp).2.1 (by simp only; omega) hc
  obtain ⟨v, d, hv, hd, hshift⟩ := overlap_deriv_of_gen _ h4 hg1 hg2 (by simp only; omega)
  refine ⟨v, d, hv, fun deriv hder => ?_, hshift⟩
  rw [Geminal.Wfn.overlapDeriv, hd]
  simp only [bind, Except.bind]
  rw [mapM_eq_ok (g := d)]
  intro i hi
  rw [if_pos (hder i hi)]

example : Geminal.Wfn.init .apg 4 6 (some 3) none (fun i j => (i + 2 * j : ℚ)) =
    .ok ⟨.apg, 4, 6, 3, fun i j => i + 2 * j⟩ ∧ 45 < 2 ^ 6 ∧ (occSet 45).card = 4 :=
  ⟨rfl, by norm_num, by decide +kernel⟩

/-- C35. The entries are the partial derivatives in the sense of analysis. -/
theorem C35_hasDerivAt_partial (kind : Kind) (nelec nspin : ℕ) (ngem : Option ℕ) (op : Option (List (ℕ × ℕ)))
    (params : ℕ → ℕ → ℝ) (w : Geminal.Wfn ℝ) (hw : Geminal.Wfn.init kind nelec nspin ngem op params = .ok w)
    (sd : ℕ) (hsd : sd < 2 ^ nspin) (hc : (occSet sd).card = nelec) (htwo : nelec ≠ 2 ∨ w.ngem = 1)
    (r c : ℕ) (hr : r < w.ngem) (hcn : c < w.norbpair) :
    ∃ (f : ℝ → ℝ) (d : ℝ),
      (∀ x, ({ w with params := Function.update params r (Function.update (params r) c x) } : Geminal.Wfn ℝ).overlap sd =
        .ok (f x)) ∧
      w.overlapDeriv sd [r * w.norbpair + c] = .ok [d] ∧ HasDerivAt f d (params r c) := by
  obtain ⟨v, d, -, h2, h3⟩ := C35_deriv_partial kind nelec nspin ngem op params w hw sd hsd hc htwo
  refine ⟨fun x => v + (x - params r c) * d (r * w.norbpair + c), d (r * w.norbpair + c), fun x => ?_, ?_, ?_⟩
  · rw [← h3 r c _ hr hcn]
    congr 2
    funext a b
    by_cases ha : a = r
    · subst ha
      by_cases hb : b = c
      · subst hb; simp
      · simp [hb]
    · simp [ha]
  · refine h2 _ ?_
    intro i hi
    rw [List.mem_singleton] at hi
    subst hi
    calc r * w.norbpair + c < r * w.norbpair + w.norbpair := by omega
      _ = (r + 1) * w.norbpair := by ring
      _ ≤ w.ngem * w.norbpair := Nat.mul_le_mul_right _ hr
  · have : HasDerivAt (fun x : ℝ => v + (x - params r c) * d (r * w.norbpair + c))
        (1 * d (r * w.norbpair + c)) (params r c) :=
      (((hasDerivAt_id _).sub_const _).mul_const _).const_add _
    rwa [one_mul] at this

/-- C35. An index outside the parameters raises an `IndexError`. -/
theorem C35_index (w : Geminal.Wfn R) (sd i : ℕ) (hi : w.ngem * w.norbpair ≤ i) (d : ℕ → R)
    (hd : w.olpDeriv sd = .ok d) : w.overlapDeriv sd [i] = .error .indexError := by
  rw [Geminal.Wfn.overlapDeriv, hd]
  simp only [bind, Except.bind, List.mapM_cons]
  rw [if_neg (by omega)]

/-- C35 fails for two electrons in two or more geminals: the derivative of the overlap of `APG` with a determinant of
two electrons raises a `ValueError`, because the truncated matrix has no columns. -/
theorem C35_two_electrons (nspin g : ℕ) (params : ℕ → ℕ → R) (w : Geminal.Wfn R)
    (hw : Geminal.Wfn.init .apg 2 nspin (some g) none params = .ok w) (hg : 2 ≤ g)
    (sd : ℕ) (hsd : sd < 2 ^ nspin) (hc : (occSet sd).card = 2) (deriv : List ℕ) :
    w.overlapDeriv sd deriv = .error .valueError := by
  obtain ⟨⟨h1, h2, -, h4, h5⟩, kind', hk, rfl⟩ := (geminal_init_ok ..).1 hw
  obtain rfl : Kind.apg = kind' := by injection hk
  simp only [Option.getD_some] at *
  have hlen : (occIndices (some sd)).length = 2 := by rw [length_occIndices, hc]
  obtain ⟨a, b, hab⟩ : ∃ a b, occIndices (some sd) = [a, b] := List.length_eq_two.1 hlen
  have hs := sorted_occIndices sd
  have hlt : ∀ x ∈ occIndices (some sd), x < nspin := fun x hx => by
    rw [lt_two_pow_iff] at hsd
    exact hsd x (mem_occSet.2 (mem_occIndices.1 hx))
  rw [hab] at hs hlt
  have hcol := colInd_ok (⟨.apg, 2, nspin, g, params⟩ : Geminal.Wfn R) h4 (p := (a, b))
    (mem_pairsAll.2 ⟨by simpa using hs, hlt b (by simp)⟩)
  rw [Geminal.Wfn.overlapDeriv, Geminal.Wfn.olpDeriv, hab, Geminal.Wfn.orbpairs,
    show completePmatch [a, b] 1 = [(some [(a, b)], 1)] by
      rw [show [a, b] = [] ++ [a, b] from rfl, completePmatch_pair _ _ _ _ (by rfl), completePmatch_nil]; rfl]
  set c := (columns Kind.apg nspin).idxOf (a, b) with hcdef
  have hcn : c < (⟨.apg, 2, nspin, g, params⟩ : Geminal.Wfn R).norbpair := by
    rw [← columns_length _ h4]
    exact List.idxOf_lt_length_of_mem (mem_pairsAll.2 ⟨by simpa using hs, hlt b (by simp)⟩)
  obtain ⟨g', rfl⟩ : ∃ g', g = g' + 1 := ⟨g - 1, by omega⟩
  have hper : permanentDeriv params (⟨.apg, 2, nspin, g' + 1, params⟩ : Geminal.Wfn R).norbpair [c] (List.range (g' + 1))
      (0 * (⟨.apg, 2, nspin, g' + 1, params⟩ : Geminal.Wfn R).norbpair + c) = .error .valueError := by
    obtain ⟨b1, -⟩ := filter_ne_getD (List.nodup_range (n := g' + 1)) (j := 0) (by simp)
    have hrg : (List.range (g' + 1)).getD 0 0 = 0 := by
      rw [List.getD_eq_getElem _ _ (by simp)]; simp
    rw [hrg, List.length_range] at b1
    simp only [permanentDeriv, zero_mul, zero_add]
    have b3 : ([c].filter (· ≠ c)).length = 0 := by simp
    rw [Nat.div_eq_of_lt hcn, Nat.mod_eq_of_lt hcn,
      if_neg (by rw [List.length_range, b3, List.length_singleton]; omega), if_neg (by rw [b3]; omega), permanentOf]
    obtain ⟨e1, e2⟩ := C20_empty (subMatrix params ((List.range (g' + 1)).filter (· ≠ 0)) ([c].filter (· ≠ c)))
      (Or.inr (by simp [subMatrix]))
    rw [e1, e2]
    split_ifs <;> rfl
  simp only [List.mapM_cons, List.mapM_nil, bind, Except.bind, pure, Except.pure, List.foldlM_cons,
    Geminal.Wfn.olpDerivStep, hcol, List.range_succ_eq_map, List.flatMap_cons, List.map_cons, List.map_nil,
    List.cons_append, List.nil_append, Geminal.Wfn.derivStep]
  rw [if_neg (by simp), ← List.range_succ_eq_map, hper]

end Fanpy.Props
