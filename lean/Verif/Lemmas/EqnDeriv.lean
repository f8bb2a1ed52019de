import Mathlib.Analysis.Calculus.Deriv.Mul
import Mathlib.Analysis.Calculus.Deriv.Inv
import Mathlib.Analysis.Calculus.Deriv.Add
import Mathlib.Analysis.Calculus.Deriv.Pow
import Mathlib.Tactic.FieldSimp
import Verif.Lemmas.Eqn

/-! # Derivatives of the equations -/

namespace Fanpy.Lemmas.Eqn
open Fanpy.Eqn

/-! ## The arrays of derivatives -/

section
variable {R : Type}

theorem mem_objInds {sel : Selection} (hk : (sel.map Prod.fst).Nodup) {j c k : ℕ} (hs : (slots sel)[j]? = some (c, k)) (c' : ℕ) :
    j ∈ getItem (indicesObjective sel 0) c' ↔ c' = c := by
  have hs' := fun j c k => slot_iff hk 0 j c k
  simp only [zero_add] at hs'
  constructor
  · intro h
    obtain ⟨i, hi⟩ := List.mem_iff_getElem?.1 h
    have hil : i < (getItem sel c').length := by
      rw [← length_objInds sel 0 c']
      by_contra hh
      rw [List.getElem?_eq_none (by omega)] at hi; cases hi
    have := (hs' j c' ((getItem sel c')[i])).2 ⟨i, List.getElem?_eq_getElem hil, hi⟩
    rw [hs] at this
    exact (congrArg Prod.fst (Option.some.inj this)).symm
  · rintro rfl
    obtain ⟨i, -, h⟩ := (hs' j c' k).1 hs
    exact List.mem_of_getElem? h

theorem writeComp_slot {st : Store R} {sel : Selection} (h : Valid st sel) {j c k : ℕ} (hs : (slots sel)[j]? = some (c, k))
    (d : ℕ → ℕ → R) (out : ℕ → R) (c' : ℕ) : writeComp sel d out c' j = if c' = c then d c k else out j := by
  have hm := mem_objInds h.1 hs c'
  have hs' := slot_iff h.1 0 j c k
  rw [zero_add] at hs'
  rw [writeComp]
  split_ifs with h1 h2 h2
  · subst h2
    rw [writeSlice, if_pos (hm.2 rfl)]
    obtain ⟨i, hi, hi'⟩ := hs'.1 hs
    -- the positions are different
    have hnd : (getItem (indicesObjective sel 0) c').Nodup := by
      rw [List.nodup_iff_injective_getElem]
      rintro ⟨a, ha⟩ ⟨b, hb⟩ hab
      simp only at hab
      have ha' : a < (getItem sel c').length := by rwa [← length_objInds sel 0 c']
      have hb' : b < (getItem sel c').length := by rwa [← length_objInds sel 0 c']
      have e1 := (slot_iff h.1 0 (getItem (indicesObjective sel 0) c')[a] c' (getItem sel c')[a]).2
        ⟨a, List.getElem?_eq_getElem ha', by rw [zero_add]; exact List.getElem?_eq_getElem ha⟩
      have e2 := (slot_iff h.1 0 (getItem (indicesObjective sel 0) c')[b] c' (getItem sel c')[b]).2
        ⟨b, List.getElem?_eq_getElem hb', by rw [zero_add]; exact List.getElem?_eq_getElem hb⟩
      rw [← hab, e1] at e2
      have e3 := congrArg Prod.snd (Option.some.inj e2)
      have hne : getItem sel c' ≠ [] := by rintro h0; rw [h0] at ha'; simp at ha'
      have hmem := mem_of_getItem (List.getElem_mem ha')
      have hnod : (getItem sel c').Nodup := ((h.2 _ hmem).1).imp fun h => Nat.ne_of_lt h
      have : a = b := (List.Nodup.getElem_inj_iff hnod).1 e3
      subst this; rfl
    have hil : i < (getItem (indicesObjective sel 0) c').length := by
      by_contra hh
      rw [List.getElem?_eq_none (by omega)] at hi'; cases hi'
    have hij : (getItem (indicesObjective sel 0) c')[i] = j := by
      rw [List.getElem?_eq_getElem hil] at hi'; exact Option.some.inj hi'
    have : (getItem (indicesObjective sel 0) c').idxOf j = i := by rw [← hij]; exact hnd.idxOf_getElem i hil
    rw [this, List.getD_eq_getElem?_getD, hi]; rfl
  · rw [writeSlice, if_neg (fun hh => h2 (hm.1 hh))]
  · subst h2
    obtain ⟨i, hi, -⟩ := hs'.1 hs
    exact absurd (List.length_pos_of_mem (List.mem_of_getElem? hi)) h1
  · rfl

theorem foldl_writeComp {st : Store R} {sel : Selection} (h : Valid st sel) {j c k : ℕ} (hs : (slots sel)[j]? = some (c, k))
    (d : ℕ → ℕ → R) (cs : List ℕ) (out : ℕ → R) : cs.foldl (writeComp sel d) out j = if c ∈ cs then d c k else out j := by
  induction cs generalizing out with
  | nil => simp
  | cons a r ih =>
    rw [List.foldl_cons, ih, writeComp_slot h hs]
    by_cases h1 : c ∈ r
    · simp [h1]
    · by_cases h2 : a = c
      · subst h2; simp
      · rw [if_neg h1, if_neg h2, if_neg]
        rw [List.mem_cons, not_or]; exact ⟨fun e => h2 e.symm, h1⟩

variable [Field R]

theorem dOlp_slot {st : Store R} {sel : Selection} (h : Valid st sel) {j c k : ℕ} (hs : (slots sel)[j]? = some (c, k)) (s : Sys R) (st' : Store R)
    (sd : ℕ) : dOlp s sel st' sd j = if c ∈ s.comps then s.dOverlap st' sd c k else 0 := by
  rw [dOlp, foldl_writeComp h hs]

theorem dInt_slot {st : Store R} {sel : Selection} (h : Valid st sel) {j c k : ℕ} (hs : (slots sel)[j]? = some (c, k)) (s : Sys R) (st' : Store R)
    (sd : ℕ) : dInt s sel st' sd j = if c ∈ s.comps ∨ c = s.ham then s.dIntegral st' sd c k else 0 := by
  rw [dInt, writeComp_slot h hs, foldl_writeComp h hs]
  by_cases h1 : s.ham = c
  · subst h1; simp
  · have h1' : ¬ c = s.ham := fun e => h1 e.symm
    simp only [h1, h1', if_false, or_false]

theorem dElem_slot {st : Store R} {sel : Selection} (h : Valid st sel) {j c k : ℕ} (hs : (slots sel)[j]? = some (c, k)) (s : Sys R) (st' : Store R)
    (sd1 sd2 : ℕ) : dElem s sel st' sd1 sd2 j = if c = s.ham then s.dElement st' sd1 sd2 k else 0 := by
  rw [dElem, writeComp_slot h hs]
  simp [eq_comm]

theorem dot_eq (a b : List R) {n : ℕ} (h : a.length ≤ n) : dot a b = ((List.range n).map fun i => a.getD i 0 * b.getD i 0).sum := by
  induction a generalizing b n with
  | nil => simp [dot]
  | cons x xs ih =>
    obtain ⟨m, rfl⟩ : ∃ m, n = m + 1 := ⟨n - 1, by simp at h; omega⟩
    cases b with
    | nil => simp [dot]
    | cons y ys =>
      rw [List.range_succ_eq_map, List.map_cons, List.sum_cons, List.map_map]
      have := ih ys (n := m) (by simpa using h)
      rw [dot] at this ⊢
      rw [List.zipWith_cons_cons, List.sum_cons, this]
      rfl

theorem dot_map (l : List ℕ) (f g : ℕ → R) : dot (l.map f) (l.map g) = (l.map fun i => f i * g i).sum := by
  rw [dot, List.zipWith_map, List.zipWith_self]

end

/-! ## Calculus -/

theorem hasDeriv_listSum {ι : Type} (l : List ι) {f : ι → ℝ → ℝ} {f' : ι → ℝ} {t0 : ℝ} (h : ∀ i ∈ l, HasDerivAt (f i) (f' i) t0) :
    HasDerivAt (fun t => (l.map fun i => f i t).sum) (l.map f').sum t0 := by
  induction l with
  | nil => simpa using hasDerivAt_const t0 (0 : ℝ)
  | cons a r ih =>
    simp only [List.map_cons, List.sum_cons]
    exact (h a (by simp)).add (ih fun i hi => h i (by simp [hi]))

theorem hasDeriv_dot {a b : ℝ → List ℝ} {a' b' : List ℝ} {t0 : ℝ} {n : ℕ} (ha : ∀ t, (a t).length = n) (ha' : a'.length = n)
    (h1 : ∀ i, HasDerivAt (fun t => (a t).getD i 0) (a'.getD i 0) t0) (h2 : ∀ i, HasDerivAt (fun t => (b t).getD i 0) (b'.getD i 0) t0) :
    HasDerivAt (fun t => dot (a t) (b t)) (dot a' (b t0) + dot (a t0) b') t0 := by
  have e : (fun t => dot (a t) (b t)) = fun t => ((List.range n).map fun i => (a t).getD i 0 * (b t).getD i 0).sum := by
    funext t; exact dot_eq _ _ (ha t).le
  rw [e, dot_eq _ _ ha'.le, dot_eq _ _ (ha t0).le, ← List.sum_map_add]
  exact hasDeriv_listSum _ fun i _ => (h1 i).mul (h2 i)

/-- The derivatives of the wavefunction and of the Hamiltonian are right at these parameters, and they depend on nothing but the
parameters of the wavefunction (and its components) and of the Hamiltonian. -/
def Correct (s : Sys ℝ) (st : Store ℝ) : Prop :=
  ∀ c k : ℕ, k < (st c).length →
    (∀ sd, HasDerivAt (fun t => s.overlap (move st c k t) sd) (if c ∈ s.comps then s.dOverlap st sd c k else 0) ((st c).getD k 0)) ∧
    (∀ sd, HasDerivAt (fun t => s.integral (move st c k t) sd)
      (if c ∈ s.comps ∨ c = s.ham then s.dIntegral st sd c k else 0) ((st c).getD k 0)) ∧
    (∀ sd1 sd2, HasDerivAt (fun t => s.element (move st c k t) sd1 sd2)
      (if c = s.ham then s.dElement st sd1 sd2 k else 0) ((st c).getD k 0))

theorem move_self {R : Type} [Zero R] (st : Store R) (c k : ℕ) : move st c k ((st c).getD k 0) = st := by
  have : (st c).set k ((st c).getD k 0) = st c := by
    apply List.ext_getElem?
    intro i
    rw [List.getElem?_set]
    split_ifs with h1 h2
    · subst h1; rw [List.getD_eq_getElem _ _ h2, List.getElem?_eq_getElem h2]
    · subst h1; rw [List.getElem?_eq_none (by omega)]
    · rfl
  rw [move, this, Function.update_eq_self]

section
variable {s : Sys ℝ} {st : Store ℝ} {sel : Selection} {j c k : ℕ}

theorem hasDeriv_olp (hc : Correct s st) (h : Valid st sel) (hs : (slots sel)[j]? = some (c, k)) (sd : ℕ) :
    HasDerivAt (fun t => s.overlap (move st c k t) sd) (dOlp s sel st sd j) ((st c).getD k 0) := by
  rw [dOlp_slot h hs]; exact (hc c k (slot_valid h hs).2).1 sd

theorem hasDeriv_int (hc : Correct s st) (h : Valid st sel) (hs : (slots sel)[j]? = some (c, k)) (sd : ℕ) :
    HasDerivAt (fun t => s.integral (move st c k t) sd) (dInt s sel st sd j) ((st c).getD k 0) := by
  rw [dInt_slot h hs]; exact (hc c k (slot_valid h hs).2).2.1 sd

theorem hasDeriv_elem (hc : Correct s st) (h : Valid st sel) (hs : (slots sel)[j]? = some (c, k)) (sd1 sd2 : ℕ) :
    HasDerivAt (fun t => s.element (move st c k t) sd1 sd2) (dElem s sel st sd1 sd2 j) ((st c).getD k 0) := by
  rw [dElem_slot h hs]; exact (hc c k (slot_valid h hs).2).2.2 sd1 sd2

theorem getD_map (l : List ℕ) (f : ℕ → ℝ) (i : ℕ) : (l.map f).getD i 0 = if h : i < l.length then f l[i] else 0 := by
  split_ifs with h
  · rw [List.getD_eq_getElem _ _ (by simpa using h), List.getElem_map]
  · rw [List.getD_eq_default _ _ (by simpa using h)]

theorem hasDeriv_getD_map (l : List ℕ) {f : ℝ → ℕ → ℝ} {f' : ℕ → ℝ} {t0 : ℝ} (h : ∀ i, HasDerivAt (fun t => f t i) (f' i) t0) (i : ℕ) :
    HasDerivAt (fun t => (l.map (f t)).getD i 0) ((l.map f').getD i 0) t0 := by
  simp only [getD_map]
  split_ifs with h1
  · exact h _
  · exact hasDerivAt_const _ _

theorem length_coeffs_move (ref : Ref) (t : ℝ) : (ref.coeffs s (move st c k t)).length = (ref.coeffs s st).length := by
  cases ref with
  | sds l => simp [Ref.coeffs]
  | ci w l =>
    rw [Ref.coeffs, Ref.coeffs, move]
    by_cases hw : w = c
    · subst hw; simp
    · rw [Function.update_of_ne hw]

theorem length_dCoeffs (ref : Ref) : (ref.dCoeffs s sel st j).length = (ref.coeffs s st).length := by
  cases ref with
  | sds l => simp [Ref.coeffs, Ref.dCoeffs]
  | ci w l => simp [Ref.coeffs, Ref.dCoeffs]

theorem hasDeriv_coeffs (hc : Correct s st) (h : Valid st sel) (hs : (slots sel)[j]? = some (c, k)) (ref : Ref) (i : ℕ) :
    HasDerivAt (fun t => (ref.coeffs s (move st c k t)).getD i 0) ((ref.dCoeffs s sel st j).getD i 0) ((st c).getD k 0) := by
  cases ref with
  | sds l => exact hasDeriv_getD_map l (hasDeriv_olp hc h hs) i
  | ci w l =>
    have hz : ∀ i', ((getItem sel w).zip (getItem (indicesObjective sel 0) w)).contains (i', j) = true ↔ w = c ∧ i' = k := by
      intro i'
      rw [List.contains_iff_mem, List.mem_iff_getElem?]
      have h0 := slot_iff h.1 0 j w i'
      rw [zero_add, hs] at h0
      simp only [List.getElem?_zip_eq_some]
      rw [← h0]
      constructor
      · intro h; cases h; exact ⟨rfl, rfl⟩
      · rintro ⟨rfl, rfl⟩; rfl
    simp only [Ref.coeffs, Ref.dCoeffs, hz]
    by_cases hi : i < (st w).length
    · have e : ((List.range (st w).length).map fun i => if w = c ∧ i = k then (1 : ℝ) else 0).getD i 0 = if w = c ∧ i = k then 1 else 0 := by
        rw [List.getD_eq_getElem _ _ (by simpa using hi), List.getElem_map, List.getElem_range]
      rw [e]
      by_cases hw : w = c
      · subst hw
        by_cases hik : i = k
        · subst hik
          rw [if_pos ⟨rfl, rfl⟩]
          have : (fun t => (move st w i t w).getD i 0) = fun t => t := by
            funext t
            rw [move, Function.update_self, List.getD_eq_getElem?_getD, List.getElem?_set_self hi]; rfl
          rw [this]; exact hasDerivAt_id _
        · rw [if_neg (fun hh => hik hh.2)]
          have : (fun t => (move st w k t w).getD i 0) = fun _ => (st w).getD i 0 := by
            funext t
            rw [move, Function.update_self, List.getD_eq_getElem?_getD, List.getElem?_set_ne (Ne.symm hik), List.getD_eq_getElem?_getD]
          rw [this]; exact hasDerivAt_const _ _
      · rw [if_neg (fun hh => hw hh.1)]
        have : (fun t => (move st c k t w).getD i 0) = fun _ => (st w).getD i 0 := by
          funext t; rw [move, Function.update_of_ne hw]
        rw [this]; exact hasDerivAt_const _ _
    · rw [List.getD_eq_default _ _ (by simpa using hi)]
      have : (fun t => (move st c k t w).getD i 0) = fun _ => 0 := by
        funext t
        refine List.getD_eq_default _ _ ?_
        rw [move]
        by_cases hw : w = c
        · subst hw; rw [Function.update_self, List.length_set]; omega
        · rw [Function.update_of_ne hw]; omega
      rw [this]; exact hasDerivAt_const _ _

theorem hasDeriv_coeffs_dot (hc : Correct s st) (h : Valid st sel) (hs : (slots sel)[j]? = some (c, k)) (ref : Ref)
    {f : Store ℝ → ℕ → ℝ} {f' : ℕ → ℝ} (hf : ∀ i, HasDerivAt (fun t => f (move st c k t) i) (f' i) ((st c).getD k 0)) :
    HasDerivAt (fun t => dot (ref.coeffs s (move st c k t)) (ref.dets.map (f (move st c k t))))
      (dot (ref.dCoeffs s sel st j) (ref.dets.map (f st)) + dot (ref.coeffs s st) (ref.dets.map f')) ((st c).getD k 0) := by
  have := hasDeriv_dot (a := fun t => ref.coeffs s (move st c k t)) (b := fun t => ref.dets.map (f (move st c k t)))
    (a' := ref.dCoeffs s sel st j) (b' := ref.dets.map f') (t0 := (st c).getD k 0) (n := (ref.coeffs s st).length)
    (length_coeffs_move ref) (length_dCoeffs ref) (hasDeriv_coeffs hc h hs ref) (hasDeriv_getD_map _ hf)
  simpa only [move_self] using this

theorem hasDeriv_normOne (hc : Correct s st) (h : Valid st sel) (hs : (slots sel)[j]? = some (c, k)) (ref : Ref) :
    HasDerivAt (fun t => normOne s (move st c k t) ref) (dNormOne s sel st ref j) ((st c).getD k 0) :=
  hasDeriv_coeffs_dot hc h hs ref (hasDeriv_olp hc h hs)

theorem hasDeriv_energyOne (hc : Correct s st) (h : Valid st sel) (hs : (slots sel)[j]? = some (c, k)) (ref : Ref) (hn : normOne s st ref ≠ 0) :
    HasDerivAt (fun t => energyOne s (move st c k t) ref) (dEnergyOne s sel st ref j) ((st c).getD k 0) := by
  have h1 := hasDeriv_coeffs_dot hc h hs ref (hasDeriv_int hc h hs)
  have h2 := hasDeriv_normOne hc h hs ref
  have h3 := h1.fun_div h2 (by rw [move_self]; exact hn)
  refine h3.congr_deriv ?_
  simp only [move_self]
  rw [dEnergyOne, energyOne]
  field_simp

theorem hasDeriv_energyTwo (hc : Correct s st) (h : Valid st sel) (hs : (slots sel)[j]? = some (c, k)) (l : List ℕ) (r n : Option (List ℕ))
    (hn : normTwo s st (n.getD l) ≠ 0) :
    HasDerivAt (fun t => energyTwo s (move st c k t) l r n) (dEnergyTwo s sel st l r n j) ((st c).getD k 0) := by
  have h1 : HasDerivAt (fun t => sumTwo l (r.getD l) fun a b => s.overlap (move st c k t) a * s.element (move st c k t) a b * s.overlap (move st c k t) b)
      (sumTwo l (r.getD l) fun a b => (dOlp s sel st a j * s.element st a b + s.overlap st a * dElem s sel st a b j) * s.overlap st b +
        s.overlap st a * s.element st a b * dOlp s sel st b j) ((st c).getD k 0) := by
    refine hasDeriv_listSum l fun a _ => hasDeriv_listSum _ fun b _ => ?_
    have := ((hasDeriv_olp hc h hs a).fun_mul (hasDeriv_elem hc h hs a b)).fun_mul (hasDeriv_olp hc h hs b)
    simpa only [move_self] using this
  have h2 : HasDerivAt (fun t => normTwo s (move st c k t) (n.getD l))
      (((n.getD l).map fun i => 2 * (s.overlap st i * dOlp s sel st i j)).sum) ((st c).getD k 0) := by
    refine hasDeriv_listSum _ fun a _ => ?_
    have := (hasDeriv_olp hc h hs a).fun_pow 2
    refine this.congr_deriv ?_
    simp only [move_self]; push_cast; ring
  have h3 := h1.fun_div h2 (by rw [move_self]; exact hn)
  refine h3.congr_deriv ?_
  simp only [move_self]
  have e : (sumTwo l (r.getD l) fun a b => (dOlp s sel st a j * s.element st a b + s.overlap st a * dElem s sel st a b j) * s.overlap st b +
        s.overlap st a * s.element st a b * dOlp s sel st b j) =
      sumTwo l (r.getD l) (fun i j' => dOlp s sel st i j * s.element st i j' * s.overlap st j') +
      sumTwo l (r.getD l) (fun i j' => s.overlap st i * dElem s sel st i j' j * s.overlap st j') +
      sumTwo l (r.getD l) (fun i j' => s.overlap st i * s.element st i j' * dOlp s sel st j' j) := by
    simp only [sumTwo, ← List.sum_map_add, add_mul]
  rw [e, List.sum_map_mul_left, dEnergyTwo]
  field_simp

end

end Fanpy.Lemmas.Eqn
