import Verif.Lemmas.SeniorityPaths
import Verif.Lemmas.SpinSplit
import Verif.Lemmas.Excite
import Verif.Props.CC

/-! The sign of a product of seniority-raising operators, and the sum over the products. -/

namespace Fanpy.CC
open Fanpy.Spec Fanpy.Slater Fanpy.Graphs Fanpy.It Fanpy.Props Fanpy.Lemmas

theorem testBit_mem (m i : ℕ) : m.testBit i = decide (i ∈ occSet m) := by
  rw [Bool.eq_iff_iff, decide_eq_true_eq, mem_occSet]

theorem complementOcc_ok {K i : ℕ} (h : i < 2 * K) (m : ℕ) : complementOcc K (some m) i = .ok (decide (partner K i ∈ occSet m)) := by
  rw [complementOcc, isAlpha_ok h]
  simp only [bind, Except.bind, pure, Except.pure, partner]
  by_cases hi : i < K
  · simp [hi, ← testBit_mem]
  · simp [hi, ← testBit_mem]

theorem complementEmpty_ok {K i : ℕ} (h : i < 2 * K) (m : ℕ) : complementEmpty K (some m) i = .ok (decide (partner K i ∉ occSet m)) := by
  rw [complementEmpty, isAlpha_ok h]
  simp only [bind, Except.bind, pure, Except.pure, partner]
  by_cases hi : i < K
  · simp [hi, ← testBit_mem]
  · simp [hi, ← testBit_mem]

variable {R : Type} [CommRing R]

theorem senSign_spec (K : ℕ) (S : List (List ℕ × List ℕ)) (hS : ∀ q ∈ S, q.1.length = q.2.length ∧ ∀ i ∈ q.1 ++ q.2, i < 2 * K) (m : ℕ)
    (s0 : ℤ) : (senSign K (some m) s0 (S.map app) = .ok none ∧
        (S.reverse.map fun p => (senOp K p.1 p.2 : Module.End R (Fock R))).prod (ket (occSet m)) = 0) ∨
      ∃ (s : ℤ) (m' : ℕ), senSign K (some m) s0 (S.map app) = .ok (some (s0 * s)) ∧
        (S.reverse.map fun p => (senOp K p.1 p.2 : Module.End R (Fock R))).prod (ket (occSet m)) = (s : R) • ket (occSet m') := by
  induction S generalizing m s0 with
  | nil => exact Or.inr ⟨1, m, by simp [senSign], by simp⟩
  | cons p S ih =>
    obtain ⟨hl, hK⟩ := hS p (by simp)
    have e : (app p).length / 2 = p.1.length := by rw [app, List.length_append, ← hl]; omega
    have e1 : (app p).take ((app p).length / 2) = p.1 := by rw [e, app, List.take_left]
    have e2 : (app p).drop ((app p).length / 2) = p.2 := by rw [e, app, List.drop_left]
    have hop : ∀ v : Fock R, ((p :: S).reverse.map fun p => (senOp K p.1 p.2 : Module.End R (Fock R))).prod v =
        (S.reverse.map fun p => (senOp K p.1 p.2 : Module.End R (Fock R))).prod (senOp K p.1 p.2 v) := by
      intro v
      rw [List.reverse_cons, List.map_append, List.prod_append, Module.End.mul_apply]
      simp
    have h1 : p.1.mapM (complementOcc K (some m)) = .ok (p.1.map fun i => decide (partner K i ∈ occSet m)) :=
      mapM_okE' _ _ _ fun i hi => complementOcc_ok (hK i (by simp [hi])) m
    have h2 : p.2.mapM (complementEmpty K (some m)) = .ok (p.2.map fun i => decide (partner K i ∉ occSet m)) :=
      mapM_okE' _ _ _ fun i hi => complementEmpty_ok (hK i (by simp [hi])) m
    have hall : ((p.1.map fun i => decide (partner K i ∈ occSet m)) ++ (p.2.map fun i => decide (partner K i ∉ occSet m))).all id =
        decide (Paired K p.1 p.2 (occSet m)) := by
      rw [Bool.eq_iff_iff]
      simp only [List.all_append, List.all_map, Bool.and_eq_true, List.all_eq_true, Function.comp_apply, id_eq, decide_eq_true_eq]
      rfl
    rw [List.map_cons, senSign, e1, e2, h1, h2]
    simp only [bind, Except.bind, hop]
    rw [hall]
    have hk : (ket (occSet m) : Fock R) = Finsupp.single (occSet m) 1 := rfl
    by_cases hp : Paired K p.1 p.2 (occSet m)
    swap
    · left
      rw [if_pos (by simp [hp]), hk, senOp_single, if_neg hp, map_zero]
      exact ⟨rfl, rfl⟩
    rw [if_neg (by simp [hp]), hk, senOp_single, if_pos hp, ← hk]
    rcases C10_sign_excite R m p.1 p.2 with ⟨s, m', g1, -, g3, g4⟩ | ⟨g1, -, g4⟩
    · have g5 : excite (some m) (app p) = .ok (some m') := by rw [app, excite_eq_of_length hl, g3]
      simp only [g1, g5]
      rw [excOp_apply, g4, map_smul]
      rcases ih (fun q hq => hS q (by simp [hq])) m' (s0 * s) with ⟨k1, k2⟩ | ⟨t, m'', k1, k2⟩
      · left; rw [k1, k2]; exact ⟨rfl, by simp⟩
      · right
        refine ⟨s * t, m'', by rw [k1, mul_assoc], ?_⟩
        rw [k2, smul_smul]; push_cast; rfl
    · left
      simp only [g1]
      rw [excOp_apply, g4, map_zero]
      simp

/-- the sign of a product is its coefficient -/
theorem senSign_coeff {K : ℕ} {V : Finset ℕ} {S : List (List ℕ × List ℕ)} (hop : ∀ q ∈ S, Op V q) (hK : ∀ q ∈ S, ∀ i ∈ q.1 ++ q.2, i < 2 * K)
    {a c : List ℕ} {sd ref : ℕ} (has : a.toFinset = occSet ref \ occSet sd)
    (hcs : c.toFinset = occSet sd \ occSet ref) (h1 : (S.flatMap Prod.fst).Perm a) (h2 : (S.flatMap Prod.snd).Perm c) :
    ∃ r : Option ℤ, senSign K (some ref) 1 (S.map app) = .ok r ∧
      ((S.map fun p => (senOp K p.1 p.2 : Module.End R (Fock R))).prod (ket (occSet ref))) (occSet sd) = ((r.getD 0 : ℤ) : R) := by
  have comm : (S.map fun p => (senOp K p.1 p.2 : Module.End R (Fock R))).prod =
      (S.reverse.map fun p => (senOp K p.1 p.2 : Module.End R (Fock R))).prod := by
    refine List.Perm.prod_eq' ((List.reverse_perm S).symm.map _) ?_
    rw [List.pairwise_map]
    exact List.pairwise_of_forall_mem_list fun p hp q hq => senOp_commute (hop p hp) (hop q hq) (hK p hp) (hK q hq)
  rw [comm]
  rcases senSign_spec (R := R) K S (fun q hq => ⟨(hop q hq).len, hK q hq⟩) ref 1 with ⟨k1, k2⟩ | ⟨s, m', k1, k2⟩
  · exact ⟨none, k1, by rw [k2]; simp⟩
  · refine ⟨some s, by rw [k1, one_mul], ?_⟩
    rw [k2, Finsupp.smul_apply, ket, Finsupp.single_apply]
    by_cases hm : occSet m' = occSet sd
    · rw [if_pos hm]; simp
    · rw [if_neg hm, smul_zero]
      -- the product of the operators leads to `sd`, so its sign is zero
      rw [← comm] at k2
      by_contra hne
      have hs : (s : R) ≠ 0 := fun e => hne (by simp [e])
      have hz : ((S.map fun p => (senOp K p.1 p.2 : Module.End R (Fock R))).prod (ket (occSet ref))) (occSet m') ≠ 0 := by
        rw [k2, Finsupp.smul_apply, ket, Finsupp.single_eq_same, smul_eq_mul, mul_one]; exact hs
      rcases (senProd_cases K S (occSet ref) (1 : R)).1 with h0 | h0
      · exact hz (by rw [ket, h0]; rfl)
      · have hz' : ((S.map fun p => (1 : R) • (excOp p.1 p.2 : Module.End R (Fock R))).prod (ket (occSet ref))) (occSet m') ≠ 0 := by
          simp only [one_smul]
          rw [ket, ← h0]; exact hz
        have hz'' := hz'
        rw [prod_coeff S hop (fun _ => (1 : R))] at hz''
        obtain ⟨-, -, h3, h4⟩ := excOp_ket_ne (V := V) (fun i hi => by
          obtain ⟨q, hq, hi⟩ := List.mem_flatMap.1 hi
          exact (hop q hq).ann i hi) (fun i hi => by
          obtain ⟨q, hq, hi⟩ := List.mem_flatMap.1 hi
          exact (hop q hq).cre i hi) (right_ne_zero_of_mul hz'')
        rw [List.toFinset_eq_of_perm _ _ h1, has] at h3
        rw [List.toFinset_eq_of_perm _ _ h2, hcs] at h4
        apply hm
        ext i
        have e3 := Finset.ext_iff.1 h3 i
        have e4 := Finset.ext_iff.1 h4 i
        simp only [Finset.mem_sdiff] at e3 e4
        tauto

end Fanpy.CC
