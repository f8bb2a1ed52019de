import Verif.Model.SlaterBulk
import Verif.Lemmas.Sign
import Mathlib.Data.List.Sublists

/-! Lemmas about the bulk excitation functions. -/

namespace Fanpy.It

theorem mem_comb {α : Type*} {l : List α} {k : ℕ} {c : List α} :
    c ∈ comb l k ↔ c.Sublist l ∧ c.length = k := by
  induction l generalizing k c with
  | nil =>
    cases k with
    | zero => simp [comb]
    | succ k =>
      simp only [comb, List.not_mem_nil, List.sublist_nil, false_iff, not_and]
      rintro rfl; simp
  | cons x xs ih =>
    cases k with
    | zero =>
      simp only [comb, List.mem_singleton]
      constructor
      · rintro rfl; simp
      · rintro ⟨-, h⟩; exact List.length_eq_zero_iff.1 h
    | succ k =>
      simp only [comb, List.mem_append, List.mem_map, ih]
      constructor
      · rintro (⟨d, ⟨h1, h2⟩, rfl⟩ | ⟨h1, h2⟩)
        · exact ⟨h1.cons_cons x, by simp [h2]⟩
        · exact ⟨h1.cons x, h2⟩
      · rintro ⟨h1, h2⟩
        cases h1 with
        | cons _ h => exact Or.inr ⟨h, h2⟩
        | cons_cons _ h => exact Or.inl ⟨_, ⟨h, by simpa using h2⟩, rfl⟩

theorem comb_nodup {α : Type*} {l : List α} (k : ℕ) (h : l.Nodup) : (comb l k).Nodup := by
  induction l generalizing k with
  | nil => cases k <;> simp [comb]
  | cons x xs ih =>
    rw [List.nodup_cons] at h
    cases k with
    | zero => simp [comb]
    | succ k =>
      rw [comb, List.nodup_append]
      refine ⟨(ih k h.2).map (fun a b hab => by simpa using hab), ih _ h.2, ?_⟩
      intro a ha b hb hab
      subst hab
      obtain ⟨d, -, rfl⟩ := List.mem_map.1 ha
      have := (mem_comb.1 hb).1
      exact h.1 (this.subset (by simp))

end Fanpy.It

namespace Fanpy.Slater
open Fanpy.Spec Fanpy.It

/-! ### 64-bit words -/

theorem getLsbD_bits64_aux (l : List ℕ) (acc : BitVec 64) (j : ℕ) :
    (l.foldl (fun acc i => acc ||| (1#64 <<< i)) acc).getLsbD j =
      (acc.getLsbD j || (decide (j < 64) && decide (j ∈ l))) := by
  induction l generalizing acc with
  | nil => simp
  | cons i l ih =>
    rw [List.foldl_cons, ih, BitVec.getLsbD_or, BitVec.getLsbD_shiftLeft]
    by_cases hj : j < 64
    · by_cases hij : j = i
      · subst hij; simp [hj]
      · by_cases hlt : j < i
        · simp [hj, hlt, hij]
        · have : j - i ≠ 0 := by omega
          simp [hj, hlt, hij, BitVec.getLsbD_one, this]
    · simp [hj]

theorem getLsbD_bits64 (l : List ℕ) (j : ℕ) : (bits64 l).getLsbD j = (decide (j < 64) && decide (j ∈ l)) := by
  rw [bits64, getLsbD_bits64_aux]; simp

theorem toInt_of_bits (b : BitVec 64) (n : ℕ) (hn : n < 2 ^ 63)
    (h : ∀ j < 64, b.getLsbD j = n.testBit j) : b.toInt = n := by
  have hb : b = BitVec.ofNat 64 n := by
    apply BitVec.eq_of_getLsbD_eq
    intro i hi
    rw [h i hi, BitVec.getLsbD_ofNat]
    simp [hi]
  rw [hb, BitVec.toInt_eq_toNat_of_lt, BitVec.toNat_ofNat, Nat.mod_eq_of_lt (by omega)]
  rw [BitVec.toNat_ofNat, Nat.mod_eq_of_lt (by omega)]; omega

/-- exciting a determinant with a disjoint pair of index lists, bit by bit -/
theorem create_annihilate_bits {sd : ℕ} {o v : List ℕ} (ho : o.Nodup) (hv : v.Nodup)
    (h1 : ∀ i ∈ o, sd.testBit i = true) (h2 : ∀ i ∈ v, sd.testBit i = false) :
    ∃ sd', create (annihilate (some sd) o) v = some sd' ∧
      ∀ j, sd'.testBit j = ((sd.testBit j ^^ decide (j ∈ o)) || decide (j ∈ v)) := by
  obtain ⟨m, hm, hmo⟩ : ∃ m, annihilate (some sd) o = some m ∧ occSet m = occSet sd \ o.toFinset :=
    ⟨_, annihilate_of ho h1, occSet_sdOf _⟩
  have hc : ∀ i ∈ v, m.testBit i = false := by
    intro i hi
    rw [Bool.eq_false_iff, ne_eq, ← mem_occSet, hmo]
    simp [mem_occSet, h2 i hi]
  obtain ⟨r, hr, hro⟩ : ∃ r, create (some m) v = some r ∧ occSet r = occSet m ∪ v.toFinset :=
    ⟨_, create_of hv hc, occSet_sdOf _⟩
  refine ⟨r, by rw [hm, hr], ?_⟩
  intro j
  rw [Bool.eq_iff_iff, ← mem_occSet, hro, hmo]
  simp only [Finset.mem_union, Finset.mem_sdiff, mem_occSet, List.mem_toFinset, Bool.or_eq_true, decide_eq_true_eq]
  by_cases hjo : j ∈ o
  · simp [hjo, h1 j hjo]
  · simp [hjo]

theorem combineBits_entry {sd : ℕ} {o v : List ℕ} (hsd : sd < 2 ^ 63) (ho : o.Nodup) (hv : v.Nodup)
    (h1 : ∀ i ∈ o, sd.testBit i = true) (h2 : ∀ i ∈ v, sd.testBit i = false) (h3 : ∀ i ∈ v, i < 63) :
    create (annihilate (some sd) o) v =
      some (((BitVec.ofNat 64 sd ^^^ bits64 o) ||| bits64 v).toInt.toNat) ∧
    0 ≤ ((BitVec.ofNat 64 sd ^^^ bits64 o) ||| bits64 v).toInt := by
  obtain ⟨r, hr, hb⟩ := create_annihilate_bits ho hv h1 h2
  have hlt : r < 2 ^ 63 := by
    rw [lt_two_pow_iff]
    intro i hi
    rw [mem_occSet, hb] at hi
    by_contra hge
    have hf : sd.testBit i = false :=
      Nat.testBit_lt_two_pow (lt_of_lt_of_le hsd (Nat.pow_le_pow_right (by norm_num) (by omega)))
    have ho' : i ∉ o := fun h => by rw [h1 i h] at hf; cases hf
    have hv' : i ∉ v := fun h => hge (h3 i h)
    simp [hf, ho', hv'] at hi
  have key : ((BitVec.ofNat 64 sd ^^^ bits64 o) ||| bits64 v).toInt = r := by
    apply toInt_of_bits _ _ hlt
    intro j hj
    rw [BitVec.getLsbD_or, BitVec.getLsbD_xor, BitVec.getLsbD_ofNat, getLsbD_bits64, getLsbD_bits64, hb]
    simp [hj]
  rw [key, hr]
  simp

/-! ### bins -/

/-- in a sorted list the elements below `a` form the prefix of that length -/
theorem getElem_lt_iff_lt_countP {l : List ℕ} (a : ℕ) (h : l.Pairwise (· < ·)) (k : ℕ) (hk : k < l.length) :
    (l[k] < a ↔ k < l.countP (· < a)) := by
  induction l generalizing k with
  | nil => simp at hk
  | cons x xs ih =>
    rw [List.pairwise_cons] at h
    by_cases hx : x < a
    · rw [List.countP_cons_of_pos (by simpa using hx)]
      cases k with
      | zero => simp [hx]
      | succ k => simp only [List.getElem_cons_succ]; rw [ih h.2 k (by simpa using hk)]; omega
    · have h0 : xs.countP (· < a) = 0 := by
        rw [List.countP_eq_zero]; intro y hy; have := h.1 y hy; simp; omega
      rw [List.countP_cons_of_neg (by simpa using hx), h0]
      cases k with
      | zero => simp; omega
      | succ k =>
        simp only [List.getElem_cons_succ, not_lt_zero, iff_false, not_lt]
        have := h.1 (xs[k]'(by simpa using hk)) (List.getElem_mem _)
        omega

theorem advance_eq (occIdx : List ℕ) (a c : ℕ) (hs : occIdx.Pairwise (· < ·)) (hc : c ≤ occIdx.countP (· < a)) :
    advance occIdx a c = occIdx.countP (· < a) := by
  have hle : occIdx.countP (· < a) ≤ occIdx.length := List.countP_le_length
  induction hn : occIdx.length - c generalizing c with
  | zero =>
    rw [advance, dif_neg (by omega)]; omega
  | succ n ih =>
    rw [advance, dif_pos (by omega)]
    have hp := getElem_lt_iff_lt_countP a hs c (by omega)
    split_ifs with h
    · exact ih (c + 1) (by have := hp.1 h; omega) (by omega)
    · have : ¬ c < occIdx.countP (· < a) := fun hh => h (hp.2 hh)
      omega

theorem countP_mono {occIdx : List ℕ} {a b : ℕ} (h : a ≤ b) :
    occIdx.countP (· < a) ≤ occIdx.countP (· < b) := by
  apply List.countP_mono_left
  intro x _ hx
  simp at hx ⊢; omega

theorem binLoop_getD (occIdx : List ℕ) (hs : occIdx.Pairwise (· < ·)) (v : List ℕ) (hv : v.Pairwise (· < ·))
    (c : ℕ) (hc : ∀ a ∈ v, c ≤ occIdx.countP (· < a)) (bins : List ℕ) (hb : bins.length = occIdx.length + 1)
    (j : ℕ) (hj : j < occIdx.length + 1) :
    (binLoop occIdx v c bins).getD j 0 = bins.getD j 0 + (v.map (fun a => occIdx.countP (· < a))).count j := by
  induction v generalizing c bins with
  | nil => simp [binLoop]
  | cons a as ih =>
    rw [List.pairwise_cons] at hv
    rw [binLoop, advance_eq occIdx a c hs (hc a (by simp))]
    have hlt : occIdx.countP (· < a) ≤ occIdx.length := List.countP_le_length
    rw [ih hv.2 (occIdx.countP (· < a)) (fun b hb => countP_mono (hv.1 b hb).le) _ (by simp [hb])]
    rw [List.map_cons, List.count_cons, List.getD_eq_getElem?_getD, List.getElem?_modify]
    have hget : bins[j]? = some (bins.getD j 0) := by
      rw [List.getD_eq_getElem _ _ (by omega), List.getElem?_eq_getElem (by omega)]
    rw [hget]
    by_cases h : occIdx.countP (· < a) = j
    · simp [h]; omega
    · simp [h]

theorem binSizes_getD (occIdx virIdx : List ℕ) (hs : occIdx.Pairwise (· < ·)) (hv : virIdx.Pairwise (· < ·))
    (j : ℕ) (hj : j < occIdx.length + 1) :
    (binSizes occIdx virIdx).getD j 0 = (virIdx.map (fun a => occIdx.countP (· < a))).count j := by
  rw [binSizes, binLoop_getD occIdx hs virIdx hv 0 (by simp) _ (by simp) j hj]
  simp

/-! ### grouping a sorted list by value -/

/-- concatenation of constant blocks -/
theorem blocks_eq (n : ℕ) (L : List ℕ) (hs : L.Pairwise (· ≤ ·)) (hb : ∀ x ∈ L, x < n) :
    (List.range n).flatMap (fun j => List.replicate (L.count j) j) = L := by
  apply List.Perm.eq_of_pairwise (le := (· ≤ ·)) (fun a b _ _ h1 h2 => le_antisymm h1 h2)
  · rw [List.pairwise_flatMap]
    refine ⟨fun j _ => ?_, ?_⟩
    · rw [List.pairwise_replicate]; right; exact le_refl j
    · apply List.pairwise_lt_range.imp
      intro a b hab x hx y hy
      rw [List.eq_of_mem_replicate hx, List.eq_of_mem_replicate hy]; exact hab.le
  · exact hs
  · rw [List.perm_iff_count]
    intro x
    rw [List.count_flatMap]
    have : ∀ (m : List ℕ), m.Nodup → (m.map (List.count x ∘ fun j => List.replicate (L.count j) j)).sum =
        if x ∈ m then L.count x else 0 := by
      intro m hm
      induction m with
      | nil => simp
      | cons y m ih =>
        rw [List.nodup_cons] at hm
        rw [List.map_cons, List.sum_cons, ih hm.2]
        simp only [Function.comp, List.count_replicate, List.mem_cons]
        by_cases hxy : x = y
        · subst hxy; simp [hm.1]
        · have : ¬ (y = x) := fun h => hxy h.symm
          simp [hxy, this]
    rw [this _ List.nodup_range]
    split_ifs with h
    · rfl
    · symm; rw [List.count_eq_zero]; intro hx; exact h (List.mem_range.2 (hb x hx))

theorem blocks_map {β : Type*} (n : ℕ) (L : List ℕ) (hs : L.Pairwise (· ≤ ·)) (hb : ∀ x ∈ L, x < n) (g : ℕ → β) :
    (List.range n).flatMap (fun j => List.replicate (L.count j) (g j)) = L.map g := by
  conv_rhs => rw [← blocks_eq n L hs hb]
  rw [List.map_flatMap]
  simp [List.map_replicate]

/-- all ordered pairs of a list, in `combinations` order, mapped through `g` -/
def pairsMap {α β : Type*} (g : α → α → β) : List α → List β
  | [] => []
  | x :: xs => xs.map (g x) ++ pairsMap g xs

theorem comb_one {α : Type*} (l : List α) : comb l 1 = l.map (fun x => [x]) := by
  induction l with
  | nil => rfl
  | cons x xs ih => rw [comb, ih]; simp [comb]

theorem comb_two_map {α β : Type*} (l : List α) (f : List α → β) :
    (comb l 2).map f = pairsMap (fun x y => f [x, y]) l := by
  induction l with
  | nil => rfl
  | cons x xs ih => rw [comb, List.map_append, ih, comb_one, pairsMap]; simp

theorem pairsMap_map {α β γ : Type*} (h : α → β) (g : β → β → γ) (l : List α) :
    pairsMap g (l.map h) = pairsMap (fun x y => g (h x) (h y)) l := by
  induction l with
  | nil => rfl
  | cons x xs ih => simp only [List.map_cons, pairsMap, ih, List.map_map, Function.comp_def]

theorem pairsMap_replicate_append {β : Type*} (g : ℕ → ℕ → β) (m j : ℕ) (T : List ℕ) :
    pairsMap g (List.replicate m j ++ T) =
      ((List.range m).reverse.flatMap fun len => List.replicate len (g j j) ++ T.map (g j)) ++ pairsMap g T := by
  induction m with
  | zero => simp
  | succ m ih =>
    rw [List.replicate_succ, List.cons_append, pairsMap, ih, List.range_succ, List.reverse_append]
    simp [List.map_replicate]

theorem blocks_pairs {β : Type*} (g : ℕ → ℕ → β) (c : ℕ → ℕ) (k a : ℕ) :
    pairsMap g ((List.range' a k).flatMap fun j => List.replicate (c j) j) =
      (List.range' a k).flatMap fun j1 =>
        (List.range (c j1)).reverse.flatMap fun len =>
          List.replicate len (g j1 j1) ++
            (List.range' (j1 + 1) (a + k - (j1 + 1))).flatMap fun j2 => List.replicate (c j2) (g j1 j2) := by
  induction k generalizing a with
  | zero => simp [pairsMap]
  | succ k ih =>
    rw [List.range'_succ, List.flatMap_cons, List.flatMap_cons, pairsMap_replicate_append, ih (a + 1)]
    congr 1
    · congr 1
      funext len
      congr 1
      rw [List.map_flatMap]
      simp only [List.map_replicate]
      rw [show a + (k + 1) - (a + 1) = k by omega]
    · rw [show a + 1 + k = a + (k + 1) by omega]

/-- sum over positions of the pairs `i1 < i2` -/
theorem pairsMap_range' {β : Type*} (g : ℕ → ℕ → β) (n a : ℕ) :
    pairsMap g (List.range' a n) =
      (List.range' a n).flatMap fun i1 => (List.range' (i1 + 1) (a + n - (i1 + 1))).map (g i1) := by
  induction n generalizing a with
  | zero => simp [pairsMap]
  | succ n ih =>
    rw [List.range'_succ, pairsMap, List.flatMap_cons, ih]
    rw [show a + (n + 1) - (a + 1) = n by omega, show a + 1 + n = a + (n + 1) by omega]

/-! ### signs -/

theorem jumpSign_eq (n : ℕ) (m : ℤ) (h : m = n) : jumpSign m = (-1) ^ n := by
  subst h
  rw [jumpSign, ← neg_one_pow_mod]
  congr 1
  simp; omega

theorem jumpSign_congr {a b : ℤ} (h : a % 2 = b % 2) : jumpSign a = jumpSign b := by
  simp [jumpSign, h]

theorem jumpSign_mul (a b : ℤ) : jumpSign a * jumpSign b = jumpSign (a + b) := by
  unfold jumpSign
  split_ifs <;> omega

theorem phase_eq_jumpSign (s : Finset ℕ) (i : ℕ) : phase s i = jumpSign ((s.filter (· < i)).card : ℤ) := by
  rw [jumpSign_eq _ _ rfl, phase]

theorem countP_eq_card {l : List ℕ} (h : l.Nodup) (a : ℕ) :
    l.countP (· < a) = (l.toFinset.filter (· < a)).card := by
  rw [List.countP_eq_length_filter, ← List.toFinset_card_of_nodup (h.filter _), List.toFinset_filter]
  simp

theorem countP_lt_getElem {l : List ℕ} (hs : l.Pairwise (· < ·)) (k : ℕ) (hk : k < l.length) :
    l.countP (· < l[k]) = k := by
  induction l generalizing k with
  | nil => simp at hk
  | cons x xs ih =>
    rw [List.pairwise_cons] at hs
    cases k with
    | zero =>
      rw [List.getElem_cons_zero, List.countP_eq_zero]
      intro y hy
      rcases List.mem_cons.1 hy with rfl | hy
      · simp
      · have := hs.1 y hy; simp; omega
    | succ k =>
      have h1 := hs.1 (xs[k]'(by simpa using hk)) (List.getElem_mem _)
      rw [List.getElem_cons_succ, List.countP_cons_of_pos (by simpa using h1), ih hs.2]

/-! ### one step of `sign_excite` -/

theorem signExciteAnn_cons {sd i : ℕ} (l : List ℕ) (c : ℤ) (h : sd.testBit i = true) :
    signExciteAnn (some sd) (i :: l) c = signExciteAnn (some (sd ^^^ (1 <<< i))) l (c * phase (occSet sd) i) := by
  have hocc : (!(occ (some sd) i)) = false := by simp [h]
  have e1 : annihilate (some sd) [i] = some (sd ^^^ (1 <<< i)) := by simp [annihilate, h]
  rw [signExciteAnn, hocc]
  simp only [Bool.false_eq_true, if_false, signSwap_zero sd i h, bind, Except.bind, e1]

theorem signExciteCre_cons {sd i : ℕ} (l : List ℕ) (c : ℤ) (h : sd.testBit i = false) :
    signExciteCre (some sd) (i :: l) c = signExciteCre (some (sd ||| (1 <<< i))) l (c * phase (occSet sd) i) := by
  have e1 : create (some sd) [i] = some (sd ||| (1 <<< i)) := by simp [create, h]
  have ht : (sd ||| (1 <<< i)).testBit i = true := by rw [testBit_or_shift]; simp
  have hph : phase (occSet (sd ||| (1 <<< i))) i = phase (occSet sd) i := by
    rw [occSet_or, phase_insert]; simp
  rw [signExciteCre, e1]
  simp only [signSwap_zero _ i ht, bind, Except.bind, hph]

theorem signExciteAnn_nil (sd : Option ℕ) (c : ℤ) : signExciteAnn sd [] c = .ok (c, sd) := rfl
theorem signExciteCre_nil (sd : Option ℕ) (c : ℤ) : signExciteCre sd [] c = .ok c := rfl

theorem signExcite_one_one {sd i a : ℕ} (hi : sd.testBit i = true) (ha : sd.testBit a = false) :
    signExcite (some sd) [i] [a] = .ok (phase (occSet sd) i * phase ((occSet sd).erase i) a) := by
  have hia : i ≠ a := by rintro rfl; rw [hi] at ha; cases ha
  have h1 : (sd ^^^ (1 <<< i)).testBit a = false := by rw [testBit_xor_shift]; simp [ha, hia]
  simp only [signExcite, signExciteAnn_cons _ _ hi, signExciteAnn_nil, bind, Except.bind, signExciteCre_cons _ _ h1,
    signExciteCre_nil, occSet_xor_of_mem hi, one_mul]

theorem signExcite_two_two {sd i j a b : ℕ} (hi : sd.testBit i = true) (hj : sd.testBit j = true) (hij : i ≠ j)
    (ha : sd.testBit a = false) (hb : sd.testBit b = false) (hab : a ≠ b) :
    signExcite (some sd) [i, j] [b, a] = .ok (phase (occSet sd) i * phase ((occSet sd).erase i) j *
      phase (((occSet sd).erase i).erase j) b * phase (insert b (((occSet sd).erase i).erase j)) a) := by
  have hia : i ≠ a := by rintro rfl; rw [hi] at ha; cases ha
  have hib : i ≠ b := by rintro rfl; rw [hi] at hb; cases hb
  have hja : j ≠ a := by rintro rfl; rw [hj] at ha; cases ha
  have hjb : j ≠ b := by rintro rfl; rw [hj] at hb; cases hb
  have h1 : (sd ^^^ (1 <<< i)).testBit j = true := by rw [testBit_xor_shift]; simp [hj, hij]
  have h2 : ((sd ^^^ (1 <<< i)) ^^^ (1 <<< j)).testBit b = false := by
    rw [testBit_xor_shift, testBit_xor_shift]; simp [hb, hib, hjb]
  have h3 : (((sd ^^^ (1 <<< i)) ^^^ (1 <<< j)) ||| (1 <<< b)).testBit a = false := by
    rw [testBit_or_shift, testBit_xor_shift, testBit_xor_shift]; simp [ha, hia, hja, hab.symm]
  simp only [signExcite, signExciteAnn_cons _ _ hi, signExciteAnn_cons _ _ h1, signExciteAnn_nil, bind,
    Except.bind, signExciteCre_cons _ _ h2, signExciteCre_cons _ _ h3, signExciteCre_nil, occSet_or, occSet_xor_of_mem h1,
    occSet_xor_of_mem hi, one_mul]

theorem neg_jumpSign (a : ℤ) : - jumpSign a = jumpSign (a - 1) := by
  unfold jumpSign; split_ifs <;> omega

theorem list_eq_range_map {α : Type*} (l : List α) :
    l = (List.range l.length).attach.map (fun k => l[k.1]'(List.mem_range.1 k.2)) := by
  apply List.ext_getElem
  · simp
  · intro i h1 h2; simp

end Fanpy.Slater
