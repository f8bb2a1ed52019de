import Verif.Model.Graphs
import Verif.Lemmas.Sign

/-! `itertools.permutations` and the permutation loop of `generate_biclique_pmatch`. -/

namespace Fanpy.It

theorem permsAux_succ {α : Type*} (n : ℕ) (l : List α) :
    permsAux (n + 1) l = (List.range l.length).flatMap fun i =>
      match l[i]? with
      | none => []
      | some x => (permsAux n (l.eraseIdx i)).map (x :: ·) := rfl

theorem mem_permsAux {α : Type*} {n : ℕ} {l : List α} (hn : l.length = n) {p : List α} :
    p ∈ permsAux n l ↔ p.Perm l := by
  induction n generalizing l p with
  | zero =>
    have : l = [] := by simpa using hn
    subst this
    simp [permsAux]
  | succ n ih =>
    rw [permsAux_succ, List.mem_flatMap]
    constructor
    · rintro ⟨i, hi, hp⟩
      have hi : i < l.length := by simpa using hi
      rw [List.getElem?_eq_getElem hi] at hp
      simp only [List.mem_map] at hp
      obtain ⟨q, hq, rfl⟩ := hp
      rw [ih (by rw [List.length_eraseIdx, if_pos hi]; omega)] at hq
      exact (hq.cons _).trans (List.getElem_cons_eraseIdx_perm hi)
    · intro hp
      cases p with
      | nil => simp [← hp.length_eq] at hn
      | cons x q =>
        have hx : x ∈ l := hp.subset (by simp)
        obtain ⟨i, hi, rfl⟩ := List.mem_iff_getElem.1 hx
        refine ⟨i, by simpa using hi, ?_⟩
        rw [List.getElem?_eq_getElem hi]
        simp only [List.mem_map]
        refine ⟨q, ?_, rfl⟩
        rw [ih (by rw [List.length_eraseIdx, if_pos hi]; omega)]
        exact (List.perm_cons l[i]).1 (hp.trans (List.getElem_cons_eraseIdx_perm hi).symm)

theorem permsAux_nodup {α : Type*} {n : ℕ} {l : List α} (hn : l.length = n) (hl : l.Nodup) :
    (permsAux n l).Nodup := by
  induction n generalizing l with
  | zero => simp [permsAux]
  | succ n ih =>
    rw [permsAux_succ, List.nodup_flatMap]
    constructor
    · intro i hi
      have hi : i < l.length := by simpa using hi
      rw [List.getElem?_eq_getElem hi]
      exact (ih (by rw [List.length_eraseIdx, if_pos hi]; omega) (hl.eraseIdx i)).map
        (fun a b h => by simpa using h)
    · refine List.nodup_range.imp_of_mem ?_
      intro i j hi hj hij
      have hi : i < l.length := by simpa using hi
      have hj : j < l.length := by simpa using hj
      rw [Function.onFun, List.disjoint_left, List.getElem?_eq_getElem hi, List.getElem?_eq_getElem hj]
      intro p hp hp'
      simp only [List.mem_map] at hp hp'
      obtain ⟨q, -, rfl⟩ := hp
      obtain ⟨q', -, h⟩ := hp'
      injection h with h1 h2
      exact hij ((List.Nodup.getElem_inj_iff hl).1 h1.symm)

theorem length_permsAux {α : Type*} {n : ℕ} {l : List α} (hn : l.length = n) :
    (permsAux n l).length = n.factorial := by
  induction n generalizing l with
  | zero => simp [permsAux]
  | succ n ih =>
    rw [permsAux_succ, List.length_flatMap]
    have : (List.range l.length).map (fun i => (match l[i]? with
      | none => ([] : List (List α))
      | some x => (permsAux n (l.eraseIdx i)).map (x :: ·)).length) = (List.range l.length).map fun _ => n.factorial := by
      apply List.map_congr_left
      intro i hi
      have hi : i < l.length := by simpa using hi
      rw [List.getElem?_eq_getElem hi]
      simp only [List.length_map]
      exact ih (by rw [List.length_eraseIdx, if_pos hi]; omega)
    rw [this]
    simp [hn, Nat.factorial_succ]

end Fanpy.It

namespace Fanpy.Graphs
open Fanpy.Spec Fanpy.Slater Fanpy.It

/-- `[m, m-1, …, 1]` -/
def desc (m : ℕ) : List ℕ := (List.range' 1 m).reverse

theorem desc_succ (m : ℕ) : desc (m + 1) = (m + 1) :: desc m := by
  rw [desc, desc, List.range'_1_concat]; simp; omega

/-- `L` is the sequence of states visited from `st`, and `r` what the loop body does after the last one. -/
inductive Enum (n : ℕ) : PermState → List PermState → Option PermState → Prop
  | single (st : PermState) : Enum n st [st] (forLoop n n st)
  | step {st st' : PermState} {L : List PermState} {r : Option PermState} :
      forLoop n n st = some st' → Enum n st' L r → Enum n st (st :: L) r

theorem Enum.append {n : ℕ} {st st' : PermState} {L L' : List PermState} {r0 r : Option PermState}
    (h : Enum n st L r0) (hr : r0 = some st') (h' : Enum n st' L' r) : Enum n st (L ++ L') r := by
  induction h with
  | single st => exact .step hr h'
  | step h1 _ ih => exact .step h1 (ih hr)

theorem Enum.whileLoop {n : ℕ} {st : PermState} {L : List PermState} {r : Option PermState}
    (h : Enum n st L r) (hr : r = none) : ∀ fuel, L.length ≤ fuel →
      ∃ L', L = st :: L' ∧ whileLoop n fuel st = some L' := by
  induction h with
  | single st =>
    intro fuel hf
    cases fuel with
    | zero => simp at hf
    | succ fuel => exact ⟨[], rfl, by rw [Graphs.whileLoop, hr]⟩
  | step h1 _ ih =>
    intro fuel hf
    cases fuel with
    | zero => simp at hf
    | succ fuel =>
      obtain ⟨L', rfl, hw⟩ := ih hr fuel (by simp at hf ⊢; omega)
      refine ⟨_, rfl, ?_⟩
      rw [Graphs.whileLoop, h1]
      simp [hw]

theorem listSign_cons_rel {l l' : List ℕ} (x : ℕ) (h : l.Perm l') :
    listSign (x :: l) * listSign (x :: l') = listSign l * listSign l' := by
  rw [listSign, listSign, (h.map _).prod_eq]
  have : (l'.map (fun b => if b < x then (-1 : ℤ) else 1)).prod *
      (l'.map (fun b => if b < x then (-1 : ℤ) else 1)).prod = 1 := by
    clear h
    induction l' with
    | nil => simp
    | cons y m ihm =>
      simp only [List.map_cons, List.prod_cons]
      split_ifs <;> linear_combination ihm
  linear_combination (listSign l * listSign l') * this

theorem eraseIdx_set_succ (s : List ℕ) (k : ℕ) (hk : k + 1 < s.length) :
    (s.eraseIdx k).set k s[k] = s.eraseIdx (k + 1) := by
  induction s generalizing k with
  | nil => simp at hk
  | cons x s ih =>
    cases k with
    | zero => cases s with
      | nil => simp at hk
      | cons y s => simp
    | succ k =>
      simp only [List.eraseIdx_cons_succ, List.set_cons_succ, List.getElem_cons_succ]
      rw [ih k (by simpa using hk)]

/-- one digit of the counter: leaving block `k` -/
theorem leave_block {n m k : ℕ} {pre cpre s : List ℕ} {sign : ℤ} (hs : s.length = m + 1)
    (hpre : pre.length = cpre.length) (hn : n = pre.length + (m + 1)) (hk : k ≤ m) :
    forLoop n (pre.length + 1)
      ⟨pre ++ s.getD k 0 :: s.eraseIdx k, cpre ++ (m + 1 - k) :: desc m, sign * (-1) ^ k⟩ =
    if k < m then
      some ⟨pre ++ s.getD (k + 1) 0 :: s.eraseIdx (k + 1), cpre ++ (m + 1 - (k + 1)) :: desc m, sign * (-1) ^ (k + 1)⟩
    else forLoop n pre.length ⟨pre ++ s, cpre ++ desc (m + 1), sign⟩ := by
  rw [forLoop]
  have hc : (cpre ++ (m + 1 - k) :: desc m).modify pre.length (· - 1) = cpre ++ (m - k) :: desc m := by
    rw [hpre, List.modify_eq_set_getElem?]
    simp [show m + 1 - k - 1 = m - k by omega]
  have hcg : (cpre ++ (m - k) :: desc m).getD pre.length 0 = m - k := by
    rw [hpre]; simp
  simp only [hc, hcg]
  by_cases hkm : k < m
  · rw [if_pos hkm, if_neg (by omega)]
    have hj : n - (m - k) = pre.length + (k + 1) := by omega
    rw [hj]
    have hlen : (s.eraseIdx k).length = m := by rw [List.length_eraseIdx, if_pos (by omega)]; omega
    have g1 : (pre ++ s.getD k 0 :: s.eraseIdx k).getD (pre.length + (k + 1)) 0 = s.getD (k + 1) 0 := by
      rw [List.getD_append_right _ _ _ _ (by omega)]
      rw [show pre.length + (k + 1) - pre.length = k + 1 by omega, List.getD_cons_succ]
      rw [List.getD_eq_getElem _ _ (by omega), List.getD_eq_getElem _ _ (by omega), List.getElem_eraseIdx]
      simp
    have g2 : (pre ++ s.getD k 0 :: s.eraseIdx k).getD pre.length 0 = s.getD k 0 := by simp
    rw [g1, g2]
    congr 2
    · rw [List.set_append_right _ _ (by omega), Nat.sub_self, List.set_cons_zero,
        List.set_append_right _ _ (by omega), show pre.length + (k + 1) - pre.length = k + 1 by omega,
        List.set_cons_succ, List.getD_eq_getElem s 0 (by omega : k < s.length),
        eraseIdx_set_succ s k (by omega)]
    · rw [show m + 1 - (k + 1) = m - k by omega]
    · rw [pow_succ]; ring
  · have hkm' : k = m := by omega
    subst hkm'
    rw [if_neg hkm, if_pos (by omega)]
    congr 2
    · have h1 : (pre ++ s.getD k 0 :: s.eraseIdx k).take pre.length = pre := by simp
      have h2 : (pre ++ s.getD k 0 :: s.eraseIdx k).drop (pre.length + 1) = s.eraseIdx k := by
        rw [List.drop_append, List.drop_eq_nil_of_le (by omega)]; simp
      have h3 : ((pre ++ s.getD k 0 :: s.eraseIdx k).drop pre.length).take 1 = [s.getD k 0] := by simp
      rw [h1, h2, h3]
      congr 1
      rw [List.getD_eq_getElem s 0 (by omega), List.eraseIdx_eq_take_drop_succ, List.drop_eq_nil_of_le (by omega),
        List.append_nil]
      have := List.take_append_getElem (l := s) (i := k) (by omega)
      rw [this, List.take_of_length_le (by omega)]
    · rw [hpre, List.set_append_right _ _ (by omega), Nat.sub_self (cpre.length), List.set_cons_zero, desc_succ,
        ← hpre]
      congr 2; omega
    · rw [show n - pre.length - 1 = k by omega, mul_assoc, ← mul_pow]; simp

theorem enum_block (n m : ℕ) : ∀ (s pre cpre : List ℕ) (sign : ℤ), s.length = m → pre.length = cpre.length →
    n = pre.length + m → s.Nodup →
    ∃ L, Enum n ⟨pre ++ s, cpre ++ desc m, sign⟩ L (forLoop n pre.length ⟨pre ++ s, cpre ++ desc m, sign⟩) ∧
      L.map (fun st => (st.indices, st.sign)) =
        (permsAux m s).map (fun p => (pre ++ p, sign * (listSign s * listSign p))) := by
  induction m with
  | zero =>
    intro s pre cpre sign hs hpre hn _
    have : s = [] := by simpa using hs
    subst this
    have hn' : n = pre.length := by omega
    refine ⟨[⟨pre ++ [], cpre ++ desc 0, sign⟩], ?_, by simp [permsAux, listSign]⟩
    rw [← hn']
    exact Enum.single _
  | succ m ih =>
    intro s pre cpre sign hs hpre hn hnd
    -- chain of the blocks `k, …, m`
    have chain : ∀ d k, k + d = m → ∃ L,
        Enum n ⟨pre ++ s.getD k 0 :: s.eraseIdx k, cpre ++ (m + 1 - k) :: desc m, sign * (-1) ^ k⟩ L
          (forLoop n pre.length ⟨pre ++ s, cpre ++ desc (m + 1), sign⟩) ∧
        L.map (fun st => (st.indices, st.sign)) = (List.range' k (d + 1)).flatMap fun i =>
          (permsAux m (s.eraseIdx i)).map fun p =>
            (pre ++ s.getD i 0 :: p, sign * (listSign s * listSign (s.getD i 0 :: p))) := by
      have block : ∀ k, k ≤ m → ∃ L,
          Enum n ⟨pre ++ s.getD k 0 :: s.eraseIdx k, cpre ++ (m + 1 - k) :: desc m, sign * (-1) ^ k⟩ L
            (forLoop n (pre.length + 1)
              ⟨pre ++ s.getD k 0 :: s.eraseIdx k, cpre ++ (m + 1 - k) :: desc m, sign * (-1) ^ k⟩) ∧
          L.map (fun st => (st.indices, st.sign)) = (permsAux m (s.eraseIdx k)).map fun p =>
            (pre ++ s.getD k 0 :: p, sign * (listSign s * listSign (s.getD k 0 :: p))) := by
        intro k hk
        have hlen : (s.eraseIdx k).length = m := by rw [List.length_eraseIdx, if_pos (by omega)]; omega
        obtain ⟨L, hL, hLm⟩ := ih (s.eraseIdx k) (pre ++ [s.getD k 0]) (cpre ++ [m + 1 - k]) (sign * (-1) ^ k)
          hlen (by simp [hpre]) (by simp; omega) (hnd.eraseIdx k)
        simp only [List.append_assoc, List.cons_append, List.nil_append, List.length_append,
          List.length_singleton] at hL hLm
        refine ⟨L, hL, ?_⟩
        rw [hLm]
        apply List.map_congr_left
        intro p hp
        rw [mem_permsAux hlen] at hp
        have hkl : k < s.length := by omega
        have hsplit : s = s.take k ++ s.getD k 0 :: s.drop (k + 1) := by
          rw [List.getD_eq_getElem s 0 hkl]; simp
        have hmove : listSign s = (-1) ^ k * listSign (s.getD k 0 :: s.eraseIdx k) := by
          have hnot : s.getD k 0 ∉ s.take k := by
            rw [hsplit, List.nodup_append] at hnd
            intro hmem
            exact hnd.2.2 _ hmem _ (by simp) rfl
          have := listSign_move [] (s.take k) (s.drop (k + 1)) (s.getD k 0) hnot
          simp only [List.nil_append, List.length_take, Nat.min_eq_left (Nat.le_of_lt hkl)] at this
          rw [List.eraseIdx_eq_take_drop_succ, ← List.cons_append, this, ← mul_assoc, ← mul_pow]
          simp only [neg_mul_neg, mul_one, one_pow, one_mul]
          rw [← hsplit]
        have hrel := listSign_cons_rel (s.getD k 0) hp.symm
        rw [hmove]
        ext
        · rfl
        · simp only
          linear_combination (-(sign * (-1) ^ k)) * hrel
      intro d
      induction d with
      | zero =>
        intro k hk
        have hk : k = m := by omega
        subst hk
        obtain ⟨L, hL, hLm⟩ := block k le_rfl
        rw [leave_block hs hpre hn le_rfl, if_neg (by omega)] at hL
        exact ⟨L, hL, by simp [hLm]⟩
      | succ d ihd =>
        intro k hk
        obtain ⟨L, hL, hLm⟩ := block k (by omega)
        rw [leave_block hs hpre hn (by omega), if_pos (by omega)] at hL
        obtain ⟨L', hL', hLm'⟩ := ihd (k + 1) (by omega)
        refine ⟨L ++ L', hL.append rfl hL', ?_⟩
        rw [List.map_append, hLm, hLm', List.range'_succ (n := d + 1) (s := k), List.flatMap_cons]
    obtain ⟨L, hL, hLm⟩ := chain m 0 (by omega)
    have h0 : s.getD 0 0 :: s.eraseIdx 0 = s := by
      cases s with
      | nil => simp at hs
      | cons x s => simp
    rw [h0, show m + 1 - 0 = m + 1 from rfl, ← desc_succ, pow_zero, mul_one] at hL
    refine ⟨L, hL, ?_⟩
    rw [hLm, permsAux_succ, List.map_flatMap, hs, List.range_eq_range']
    apply List.flatMap_congr
    intro i hi
    have hi : i < s.length := by rw [← List.range_eq_range'] at hi; rw [hs]; simpa using hi
    rw [List.getElem?_eq_getElem hi, List.getD_eq_getElem s 0 hi]
    simp only [List.map_map]
    rfl

end Fanpy.Graphs
