import Verif.Lemmas.UnrTotal

/-!
# The sum computed by `integrate_sd_wfn` of the spin-blocked Hamiltonians
-/

namespace Fanpy.Lemmas
open Finset Fanpy.Spec Fanpy.Slater Fanpy.Props Fanpy.Ham Fanpy.It

variable {R : Type} [CommRing R]
variable {sd n : ℕ} {oa ob va vb : List ℕ}

/-- overlaps of the determinants of a list -/
def ovl (f : ℤ → R) (l : List ℕ) : List R := (l.map (fun (x : ℕ) => (x : ℤ))).map f

/-- `integrate_sd_wfn` with the overlaps of the excitations already computed -/
def spinCore (H : UnrHam R) (f : ℤ → R) (sd : ℕ) (oa ob va vb : List ℕ) : Except PyErr (R × R × R) := do
  let ob' := ob.map (· + H.norb)
  let vb' := vb.map (· + H.norb)
  let zero ← unrSdsZero H oa ob
  let output := scale (f sd) zero
  let one ← unrSdsOneA H oa ob va
  let d ← dotOverlaps scale one (ovl f (excL sd (comb oa 1) (comb va 1)))
  let output := output + d
  let one ← unrSdsOneB H oa ob vb
  let d ← dotOverlaps scale one (ovl f (excL sd (comb ob' 1) (comb vb' 1)))
  let output := output + d
  let output ←
    if oa.length > 1 ∧ va.length > 1 then do
      let two ← unrSdsTwoAA H oa va
      let d ← dotOverlaps scale2 two (ovl f (excL sd (comb oa 2) (comb va 2)))
      pure (output.1, output.2.1 + d.1, output.2.2 + d.2)
    else pure output
  let output ←
    if oa.length > 0 ∧ ob.length > 0 ∧ va.length > 0 ∧ vb.length > 0 then do
      let two ← unrSdsTwoAB H oa ob va vb
      let d ← dotOverlaps (fun c x => c * x) two (ovl f (excL sd (pairsAB oa ob') (pairsAB va vb')))
      pure (output.1, output.2.1 + d, output.2.2)
    else pure output
  if ob.length > 1 ∧ vb.length > 1 then do
    let two ← unrSdsTwoBB H ob vb
    let d ← dotOverlaps scale2 two (ovl f (excL sd (comb ob' 2) (comb vb' 2)))
    return (output.1, output.2.1 + d.1, output.2.2 + d.2)
  else return output

theorem dot_embed {α : Type} [AddCommMonoid α] (mul : R → α → α) (ι : α →+ R × R × R)
    (hι : ∀ c x, ι (mul c x) = scale c (ι x)) (dets : List ℕ) (f : ℤ → R) (L : List α) (D : ℕ → R × R × R)
    (h : L.map ι = dets.map D) :
    ∃ d, dotOverlaps mul L (ovl f dets) = .ok d ∧ ι d = (dets.map (fun (m : ℕ) => scale (f m) (D m))).sum := by
  have hl : L.length = dets.length := by have := congrArg List.length h; simpa using this
  refine ⟨_, by rw [dotOverlaps, if_pos (by simp [ovl, hl])], ?_⟩
  rw [map_list_sum]
  congr 1
  rw [ovl, List.map_map]
  induction dets generalizing L with
  | nil => cases L <;> simp_all
  | cons m ms ih =>
    cases L with
    | nil => simp at hl
    | cons x xs =>
      simp only [List.map_cons, List.cons.injEq] at h
      simp only [List.map_cons, List.zipWith_cons_cons, List.length_cons, Nat.add_right_cancel_iff, Function.comp] at hl ⊢
      rw [hι, h.1]
      congr 1
      exact ih xs h.2 hl

omit [CommRing R] in
theorem dets_ok {α : Type} (ι : α → R × R × R) (elem : ℕ → Except PyErr (R × R × R)) (D : ℕ → R × R × R) (dets : List ℕ)
    (L : List α) (hD : ∀ m ∈ dets, elem m = .ok (D m))
    (h : L.map (fun t => Except.ok (ε := PyErr) (ι t)) = dets.map elem) : L.map ι = dets.map D := by
  have e1 : dets.map elem = (dets.map D).map Except.ok := by
    rw [List.map_map]; exact List.map_congr_left fun m hm => hD m hm
  have e2 : L.map (fun t => Except.ok (ε := PyErr) (ι t)) = (L.map ι).map Except.ok := by rw [List.map_map]; rfl
  rw [e1, e2] at h
  exact List.map_injective_iff.2 (fun a b h => by simpa using h) h

/-- coulomb and exchange in their places -/
def emb2 : R × R →+ R × R × R := AddMonoidHom.inr R (R × R)
/-- coulomb in its place -/
def emb1 : R →+ R × R × R := (AddMonoidHom.inr R (R × R)).comp (AddMonoidHom.inl R R)

theorem add_emb2 (x : R × R × R) (d : R × R) : (x.1, x.2.1 + d.1, x.2.2 + d.2) = x + emb2 d := by
  simp [emb2, Prod.ext_iff]
theorem add_emb1 (x : R × R × R) (d : R) : (x.1, x.2.1 + d, x.2.2) = x + emb1 d := by
  simp [emb1, Prod.ext_iff]

set_option linter.unusedSimpArgs false in
/-- `integrate_sd_wfn` is the sum over all determinants -/
theorem spinCore_eq (H : UnrHam R) (f : ℤ → R) (hn : 0 < H.norb) (hB : Blocks H.norb sd oa ob va vb)
    (hsd : sd < 2 ^ (2 * H.norb)) :
    ∃ D : ℕ → R × R × R, (∀ m < 2 ^ (2 * H.norb), unrDecomposed H sd m = .ok (D m)) ∧
      (∀ m < 2 ^ (2 * H.norb), m ∉ spinExcL sd H.norb oa ob va vb → D m = 0) ∧
      spinCore H f sd oa ob va vb = .ok (∑ m ∈ range (2 ^ (2 * H.norb)), scale (f m) (D m)) := by
  have hT := unr_total H hn hB hsd
  let D : ℕ → R × R × R := fun m => if hm : m < 2 ^ (2 * H.norb) then (hT m hm).choose else 0
  have hD : ∀ m < 2 ^ (2 * H.norb), unrDecomposed H sd m = .ok (D m) := fun m hm => by
    simp only [D, dif_pos hm]; exact (hT m hm).choose_spec.1
  have hS : ∀ m < 2 ^ (2 * H.norb), m ∉ spinExcL sd H.norb oa ob va vb → D m = 0 := fun m hm => by
    simp only [D, dif_pos hm]; exact (hT m hm).choose_spec.2
  refine ⟨D, hD, hS, ?_⟩
  have hlt := spinExcL_lt hB hsd
  rw [sum_all_eq_list _ _ _ (nodup_spinExcL hB) hlt (fun m hm h => by rw [hS m hm h, scale_zero])]
  have hzero : unrSdsZero H oa ob = .ok (D sd) := by rw [← unr_same H hn hB, hD sd hsd]
  simp only [spinExcL, List.map_cons, List.map_append, List.sum_cons, List.sum_append]
  simp only [spinExcL, List.mem_cons, List.mem_append] at hlt
  generalize hdA : excL sd (comb oa 1) (comb va 1) = dA at *
  generalize hdB : excL sd (comb (ob.map (· + H.norb)) 1) (comb (vb.map (· + H.norb)) 1) = dB at *
  generalize hdAA : excL sd (comb oa 2) (comb va 2) = dAA at *
  generalize hdAB : excL sd (pairsAB oa (ob.map (· + H.norb))) (pairsAB va (vb.map (· + H.norb))) = dAB at *
  generalize hdBB : excL sd (comb (ob.map (· + H.norb)) 2) (comb (vb.map (· + H.norb)) 2) = dBB at *
  -- single excitations
  obtain ⟨LA, a1, a2⟩ := unr_arrOneA H hn hB
  rw [hdA] at a2
  obtain ⟨xA, a3, a4⟩ := dot_embed scale (AddMonoidHom.id _) (fun _ _ => rfl) dA f LA D
    (dets_ok id _ D dA LA (fun m hm => hD m (hlt m (by simp [hm]))) a2)
  obtain ⟨LB, b1, b2⟩ := unr_arrOneB H hn hB
  rw [hdB] at b2
  obtain ⟨xB, b3, b4⟩ := dot_embed scale (AddMonoidHom.id _) (fun _ _ => rfl) dB f LB D
    (dets_ok id _ D dB LB (fun m hm => hD m (hlt m (by simp [hm]))) b2)
  simp only [AddMonoidHom.id_apply] at a4 b4
  -- double excitations
  have pAA : ((oa.length > 1 ∧ va.length > 1) ∧ ∃ L d, unrSdsTwoAA H oa va = .ok L ∧
        dotOverlaps scale2 L (ovl f dAA) = .ok d ∧ emb2 d = (dAA.map (fun (m : ℕ) => scale (f m) (D m))).sum) ∨
      (¬ ((oa.length > 1 ∧ va.length > 1)) ∧ (dAA.map (fun (m : ℕ) => scale (f m) (D m))).sum = 0) := by
    by_cases hc : (oa.length > 1 ∧ va.length > 1)
    · obtain ⟨L, h1, h2⟩ := unr_arrTwoAA H hn hB hc.1 hc.2
      rw [hdAA] at h2
      obtain ⟨d, h3, h4⟩ := dot_embed scale2 (emb2 (R := R)) (fun _ _ => by simp [emb2, scale, scale2]) dAA f L D
        (dets_ok _ _ D dAA L (fun m hm => hD m (hlt m (by simp [hm]))) h2)
      exact Or.inl ⟨hc, L, d, h1, h3, h4⟩
    · have : dAA = [] := by
        rw [← hdAA]
        rcases not_and_or.1 hc with h | h <;> simp [excL, comb_two_nil h]
      exact Or.inr ⟨hc, by simp [this]⟩
  have pBB : ((ob.length > 1 ∧ vb.length > 1) ∧ ∃ L d, unrSdsTwoBB H ob vb = .ok L ∧
        dotOverlaps scale2 L (ovl f dBB) = .ok d ∧ emb2 d = (dBB.map (fun (m : ℕ) => scale (f m) (D m))).sum) ∨
      (¬ ((ob.length > 1 ∧ vb.length > 1)) ∧ (dBB.map (fun (m : ℕ) => scale (f m) (D m))).sum = 0) := by
    by_cases hc : (ob.length > 1 ∧ vb.length > 1)
    · obtain ⟨L, h1, h2⟩ := unr_arrTwoBB H hn hB hc.1 hc.2
      rw [hdBB] at h2
      obtain ⟨d, h3, h4⟩ := dot_embed scale2 (emb2 (R := R)) (fun _ _ => by simp [emb2, scale, scale2]) dBB f L D
        (dets_ok _ _ D dBB L (fun m hm => hD m (hlt m (by simp [hm]))) h2)
      exact Or.inl ⟨hc, L, d, h1, h3, h4⟩
    · have : dBB = [] := by
        rw [← hdBB]
        rcases not_and_or.1 hc with h | h
        · rw [comb_two_nil (l := ob.map _) (by simpa using h)]; simp [excL]
        · rw [comb_two_nil (l := vb.map _) (by simpa using h)]; simp [excL]
      exact Or.inr ⟨hc, by simp [this]⟩
  have pAB : ((oa.length > 0 ∧ ob.length > 0 ∧ va.length > 0 ∧ vb.length > 0) ∧ ∃ L d, unrSdsTwoAB H oa ob va vb = .ok L ∧
        dotOverlaps (fun c x => c * x) L (ovl f dAB) = .ok d ∧ emb1 d = (dAB.map (fun (m : ℕ) => scale (f m) (D m))).sum) ∨
      (¬ ((oa.length > 0 ∧ ob.length > 0 ∧ va.length > 0 ∧ vb.length > 0)) ∧ (dAB.map (fun (m : ℕ) => scale (f m) (D m))).sum = 0) := by
    by_cases hc : (oa.length > 0 ∧ ob.length > 0 ∧ va.length > 0 ∧ vb.length > 0)
    · obtain ⟨L, h1, h2⟩ := unr_arrTwoAB H hn hB hc.1 hc.2.1 hc.2.2.1 hc.2.2.2
      rw [hdAB] at h2
      obtain ⟨d, h3, h4⟩ := dot_embed (fun c x => c * x) (emb1 (R := R)) (fun _ _ => by simp [emb1, scale]) dAB f L D
        (dets_ok _ _ D dAB L (fun m hm => hD m (hlt m (by simp [hm]))) h2)
      exact Or.inl ⟨hc, L, d, h1, h3, h4⟩
    · have : dAB = [] := by
        rw [← hdAB, List.eq_nil_iff_forall_not_mem]
        intro m hm
        obtain ⟨o, ho, v, hv, -⟩ := mem_excL.1 hm
        obtain ⟨a, ha, b, hb, -⟩ := mem_pairsAB.1 ho
        obtain ⟨c, hc', d, hd, -⟩ := mem_pairsAB.1 hv
        obtain ⟨b, hb, -⟩ := List.mem_map.1 hb
        obtain ⟨d, hd, -⟩ := List.mem_map.1 hd
        exact hc ⟨List.length_pos_of_mem ha, List.length_pos_of_mem hb, List.length_pos_of_mem hc',
          List.length_pos_of_mem hd⟩
      exact Or.inr ⟨hc, by simp [this]⟩
  simp only [spinCore, hdA, hdB, hdAA, hdAB, hdBB, hzero, a1, a3, b1, b3, bind, Except.bind, a4, b4]
  rcases pAA with ⟨cA, LAA, dA', u1, u2, u3⟩ | ⟨cA, u3⟩ <;> rcases pAB with ⟨cAB, LAB, dAB', w1, w2, w3⟩ | ⟨cAB, w3⟩ <;>
    rcases pBB with ⟨cB, LBB, dB', v1, v2, v3⟩ | ⟨cB, v3⟩
  · simp only [if_pos cA, u1, u2, ← u3, if_pos cAB, w1, w2, ← w3, if_pos cB, v1, v2, ← v3, pure, Except.pure, add_emb2, add_emb1, add_assoc]
  · simp only [if_pos cA, u1, u2, ← u3, if_pos cAB, w1, w2, ← w3, if_neg cB, v3, pure, Except.pure, add_emb2, add_emb1, add_assoc, add_zero, zero_add]
  · simp only [if_pos cA, u1, u2, ← u3, if_neg cAB, w3, if_pos cB, v1, v2, ← v3, pure, Except.pure, add_emb2, add_assoc, add_zero, zero_add]
  · simp only [if_pos cA, u1, u2, ← u3, if_neg cAB, w3, if_neg cB, v3, pure, Except.pure, add_emb2, add_assoc, add_zero, zero_add]
  · simp only [if_neg cA, u3, if_pos cAB, w1, w2, ← w3, if_pos cB, v1, v2, ← v3, pure, Except.pure, add_emb2, add_emb1, add_assoc, add_zero, zero_add]
  · simp only [if_neg cA, u3, if_pos cAB, w1, w2, ← w3, if_neg cB, v3, pure, Except.pure, add_emb1, add_assoc, add_zero, zero_add]
  · simp only [if_neg cA, u3, if_neg cAB, w3, if_pos cB, v1, v2, ← v3, pure, Except.pure, add_emb2, add_assoc, add_zero, zero_add]
  · simp only [if_neg cA, u3, if_neg cAB, w3, if_neg cB, v3, pure, Except.pure, add_assoc, add_zero, zero_add]

end Fanpy.Lemmas
