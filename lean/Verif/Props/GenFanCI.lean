import Verif.Lemmas.EqnDeriv
import Verif.Lemmas.Bits
import Verif.Model.GenFanCI
import Verif.Props.FanCIOptimize
import Verif.Spec.Fock

/-! # C93: the FanCI class of a Fanpy wavefunction (`convert_to_fanci`) -/

namespace Fanpy.Props
open Fanpy.FanCI Fanpy.Eqn Fanpy.Lemmas.Eqn

/-! ## The constructor -/

section
variable {R : Type}

theorem mask_full (np : ℕ → ℕ) (sel : Selection) :
    (defaultMask np sel).length = (defaultMask np sel).count true ↔ ∀ p ∈ sel, ∀ i < np p.1, i ∈ p.2 := by
  rw [eq_comm, List.count_eq_length]
  simp only [defaultMask, List.mem_append, List.mem_flatMap, List.mem_map, List.mem_range, List.mem_singleton]
  constructor
  · intro h p hp i hi
    have := h (decide (i ∈ p.2)) (Or.inl ⟨p, hp, i, hi, rfl⟩)
    simpa using this.symm
  · rintro h b (⟨p, hp, i, hi, rfl⟩ | rfl)
    · simpa using h p hp i hi
    · rfl

theorem mask_all (np : ℕ → ℕ) (sel : Selection) (h : ∀ p ∈ sel, ∀ i < np p.1, i ∈ p.2) :
    defaultMask np sel = List.replicate ((sel.map fun p => np p.1).sum + 1) true := by
  rw [List.eq_replicate_iff]
  constructor
  · simp [defaultMask, List.length_flatMap]
  · have := (mask_full np sel).2 h
    rw [eq_comm, List.count_eq_length] at this
    exact fun b hb => (this b hb).symm

/-- **C93, constructor.**  The objective is made if and only if every parameter of every selected component is selected; otherwise
`ValueError`.  The mask then has all the parameters and the energy as active. -/
theorem C93_init (np : ℕ → ℕ) (o : Obj R) :
    ((∀ p ∈ o.sel, ∀ i < np p.1, i ∈ p.2) →
      genInit np o = .ok { o with mask := List.replicate ((o.sel.map fun p => np p.1).sum + 1) true }) ∧
    ((∃ p ∈ o.sel, ∃ i < np p.1, i ∉ p.2) → genInit np o = .error .valueError) := by
  constructor
  · intro h
    have := (mask_full np o.sel).2 h
    simp only [genInit]
    rw [if_neg (by simpa using this), mask_all np o.sel h]
  · rintro ⟨p, hp, i, hi, hn⟩
    simp only [genInit]
    rw [if_pos]
    intro h
    exact hn ((mask_full np o.sel).1 h p hp i hi)

/-- without `nproj`, the space `P` has as many determinants as there are selected parameters and the energy -/
theorem C93_nproj (np : ℕ → ℕ) (sel : Selection) (n : ℕ) :
    genNproj np sel none = (sel.map fun p => ((List.range (np p.1)).filter fun i => decide (i ∈ p.2)).length).sum + 1 ∧
    ((∀ p ∈ sel, ∀ i < np p.1, i ∈ p.2) → genNproj np sel none = (sel.map fun p => np p.1).sum + 1) ∧
    genNproj np sel (some n) = n := by
  refine ⟨?_, fun h => by simp [genNproj, mask_all np sel h], rfl⟩
  simp only [genNproj, Option.getD_none, defaultMask, List.count_append, List.count_singleton_self, List.count_flatMap]
  congr 2
  refine List.map_congr_left fun p _ => ?_
  rw [Function.comp, List.count, List.countP_map, List.countP_eq_length_filter]
  congr 1
  refine List.filter_congr fun i _ => ?_
  simp

end

/-! ## Feeding -/

section
variable {R : Type} [Zero R]

theorem feed_eq (src : ℕ → List ℕ) (x : List R) (sel : Selection) (st : Store R) (hk : (sel.map Prod.fst).Nodup) :
    feed src x sel st = fun c => if c ∈ sel.map Prod.fst then setMany (st c) (getItem sel c) ((src c).map fun i => x.getD i 0) else st c := by
  induction sel generalizing st with
  | nil => simp [feed]
  | cons q r ih =>
    obtain ⟨c0, l⟩ := q
    rw [List.map_cons, List.nodup_cons] at hk
    rw [feed, ih _ hk.2]
    funext c
    rw [getItem_cons]
    by_cases hc : c = c0
    · subst hc
      rw [if_neg hk.1, Function.update_self]
      simp
    · rw [Function.update_of_ne hc, if_neg hc]
      have : c ∈ List.map Prod.fst ((c0, l) :: r) ↔ c ∈ r.map Prod.fst := by
        rw [List.map_cons, List.mem_cons]
        exact or_iff_right hc
      simp only [this]

theorem feedDeriv_assign (o : Obj R) (st : Store R) (h : Valid st o.sel) (x : List R) (hx : x.length = activeNparams o.sel) :
    assignParams (fun _ _ => none) o.sel st x = (feedDeriv o st x, none) := by
  have e : assignParams (fun _ _ => none) o.sel st x = (fun c => setMany (st c) (getItem o.sel c)
      ((getItem (indicesObjective o.sel 0) c).map fun i => x.getD i 0), none) := by
    rw [assignParams, ← assignLoop_ok h (accept := fun _ _ => none) (fun _ _ _ _ => rfl)]
    exact if_neg (by rw [sum_objInds, hx]; simp)
  rw [e, feedDeriv, feed_eq _ _ _ _ h.1]
  congr 1
  funext c
  split_ifs with hc
  · rfl
  · rw [getItem_notMem hc]; rfl

/-- **C93, parameters.**  `compute_overlap` and `compute_overlap_deriv` are evaluated at the same parameters: the entries of `x` one after the
other in the selected parameters, component by component, and the others as they are. -/
theorem C93_feed (o : Obj R) (st : Store R) (h : Valid st o.sel) (x : List R) (hx : x.length = activeNparams o.sel) :
    (∀ c, (feedDeriv o st x c).length = (st c).length) ∧
    (∀ c k : ℕ, k ∉ getItem o.sel c → (feedDeriv o st x c)[k]? = (st c)[k]?) ∧
    (∀ j c k : ℕ, (o.sel.flatMap fun p => p.2.map fun i => (p.1, i))[j]? = some (c, k) → (feedDeriv o st x c)[k]? = x[j]?) := by
  obtain ⟨s, e, h1, h2, h3⟩ := assign_ok h (accept := fun _ _ => none) (fun _ _ _ _ => rfl) hx
  rw [feedDeriv_assign o st h x hx] at e
  simp only [Prod.mk.injEq, and_true] at e
  subst e
  exact ⟨h1, h2, h3⟩

end

/-! ## Derivatives -/

/-- The objective is one that the constructor makes, for a wavefunction with these parameters. -/
structure GenOk (o : Obj ℝ) (st : Store ℝ) : Prop where
  valid : Valid st o.sel
  single : o.product = none → ∃ l, o.sel = [(o.wfn, l)]
  made : genInit (fun c => (st c).length) o = .ok o

/-- The derivatives of the overlaps are right at these parameters, and they depend on nothing but the parameters of the wavefunction (and
its components). -/
def GenDeriv (o : Obj ℝ) (s : Store ℝ) : Prop :=
  ∀ c k : ℕ, k < (s c).length → ∀ sd,
    HasDerivAt (fun t => o.overlap (move s c k t) sd) (if c ∈ o.product.getD [o.wfn] then o.dOverlap s sd c k else 0) ((s c).getD k 0)

section
variable {o : Obj ℝ} {st : Store ℝ} {x : List ℝ}

theorem GenOk.full (h : GenOk o st) : ∀ p ∈ o.sel, ∀ i < (st p.1).length, i ∈ p.2 := by
  by_contra hn
  push Not at hn
  have := (C93_init (fun c => (st c).length) o).2 hn
  rw [h.made] at this
  cases this

theorem GenOk.range (h : GenOk o st) : ∀ p ∈ o.sel, p.2 = List.range (st p.1).length := by
  intro p hp
  have hv := h.valid.2 p hp
  refine List.Perm.eq_of_pairwise (le := (· < ·)) (fun a b _ _ h1 h2 => absurd h1 (lt_asymm h2)) hv.1 List.pairwise_lt_range ?_
  refine (List.perm_ext_iff_of_nodup (hv.1.imp fun h => Nat.ne_of_lt h) List.nodup_range).2 fun i => ?_
  rw [List.mem_range]
  exact ⟨hv.2 i, h.full p hp i⟩

theorem GenOk.mask (h : GenOk o st) : o.mask = List.replicate (activeNparams o.sel + 1) true := by
  have e := (C93_init (fun c => (st c).length) o).1 h.full
  rw [h.made] at e
  have e2 := congrArg Obj.mask (Except.ok.inj e)
  refine e2.trans ?_
  change List.replicate ((o.sel.map fun p => (st p.1).length).sum + 1) true = _
  rw [activeNparams]
  congr 3
  apply List.map_congr_left
  intro p hp
  rw [h.range p hp, List.length_range]

theorem GenOk.energy (h : GenOk o st) : energyActive o = true := by
  rw [energyActive, h.mask, List.getLastD_eq_getLast?, List.getLast?_replicate]; simp

theorem GenOk.nactive (h : GenOk o st) : nactive o = activeNparams o.sel + 1 := by
  rw [FanCI.nactive, h.mask]; simp

theorem GenOk.nwfn (h : GenOk o st) : nwfn o = activeNparams o.sel := by
  rw [FanCI.nwfn, h.nactive, h.energy]; simp

theorem GenOk.position (h : GenOk o st) {i : ℕ} (hi : i < activeNparams o.sel + 1) : (o.mask.take i).count true = i := by
  rw [h.mask, List.take_replicate]; simp; omega

theorem genRow_length (h : GenOk o st) (y : List ℝ) (sd : ℕ) : (derivRow o st y sd).length = activeNparams o.sel := by
  rw [derivRow]
  split
  · rw [List.length_map, derivIndices, nparam, h.mask]
    simp only [List.length_replicate, Nat.add_sub_cancel]
    rw [List.filter_eq_self.2, List.length_range]
    intro i hi
    rw [List.getD_eq_getElem _ _ (by simpa using Nat.lt_succ_of_lt (List.mem_range.1 hi))]
    simp
  · rw [List.length_map, List.length_range, h.nwfn]

/-- the derivative of the overlap -/
theorem genRow_slot (h : GenOk o st) (y : List ℝ) (sd : ℕ) {j c k : ℕ} (hs : (slots o.sel)[j]? = some (c, k)) :
    (derivRow o st y sd).getD j 0 = if c ∈ o.product.getD [o.wfn] then o.dOverlap (feedDeriv o st y) sd c k else 0 := by
  have hj : j < activeNparams o.sel := by
    rw [← length_slots]
    by_contra hh
    rw [List.getElem?_eq_none (by omega)] at hs; cases hs
  rw [derivRow]
  split
  · next hp =>
    obtain ⟨l, hl⟩ := h.single hp
    have hr := h.range (o.wfn, l) (by rw [hl]; simp)
    simp only at hr
    have hn : activeNparams o.sel = (st o.wfn).length := by rw [hl, hr]; simp [activeNparams]
    have e : derivIndices o = List.range (st o.wfn).length := by
      rw [derivIndices, nparam, h.mask]
      simp only [List.length_replicate, Nat.add_sub_cancel]
      rw [hn]
      apply List.filter_eq_self.2
      intro i hi
      rw [List.getD_eq_getElem _ _ (by simpa using Nat.lt_succ_of_lt (List.mem_range.1 hi))]
      simp
    rw [slots, hl, hr] at hs
    simp only [List.flatMap_cons, List.flatMap_nil, List.append_nil, List.getElem?_map] at hs
    rw [List.getElem?_range (by omega)] at hs
    simp only [Option.map_some, Option.some.injEq, Prod.mk.injEq] at hs
    obtain ⟨rfl, rfl⟩ := hs
    rw [e, hp, List.getD_eq_getElem _ _ (by simp; omega), List.getElem_map, List.getElem_range]
    simp
  · next wfns hp =>
    have hc : c ∈ o.sel.map Prod.fst :=
      List.mem_map.2 ⟨_, mem_of_getItem (slot_valid h.valid hs).1, rfl⟩
    rw [List.getD_eq_getElem _ _ (by simpa [h.nwfn] using hj), List.getElem_map, List.getElem_range, foldl_writeComp h.valid hs, hp]
    simp only [List.mem_filter, List.contains_iff_mem, hc, and_true, Option.getD_some]

theorem genOverlap_hasDerivAt (h : GenOk o st) (hx : x.length = activeNparams o.sel + 1) (hd : GenDeriv o (feedDeriv o st x.dropLast))
    {i : ℕ} (hi : i < activeNparams o.sel) (sd : ℕ) :
    HasDerivAt (fun t => o.overlap (feedDeriv o st (x.set i t).dropLast) sd) ((derivRow o st x.dropLast sd).getD i 0) (x.getD i 0) := by
  have hi' : i < (slots o.sel).length := by rw [length_slots]; exact hi
  obtain ⟨⟨c, k⟩, hs⟩ : ∃ q, (slots o.sel)[i]? = some q := ⟨_, List.getElem?_eq_getElem hi'⟩
  have hx' : x.dropLast.length = activeNparams o.sel := by rw [List.length_dropLast]; omega
  have e : ∀ t, feedDeriv o st (x.set i t).dropLast = move (feedDeriv o st x.dropLast) c k t := by
    intro t
    rw [dropLast_set _ _ _ (by omega)]
    have := assign_move h.valid (accept := fun _ _ => none) (fun _ _ _ _ => rfl) hx' hs t
    rw [feedDeriv_assign o st h.valid _ hx', feedDeriv_assign o st h.valid _ (by simpa using hx')] at this
    exact congrArg Prod.fst this
  have hf := C93_feed o st h.valid x.dropLast hx'
  have hk := hd c k (by rw [hf.1]; exact (slot_valid h.valid hs).2) sd
  simp only [e]
  rw [genRow_slot h _ _ hs]
  have e2 : (feedDeriv o st x.dropLast c).getD k 0 = x.getD i 0 := by
    rw [List.getD_eq_getElem?_getD, hf.2.2 i c k hs, ← List.getD_eq_getElem?_getD, getD_dropLast _ _ (by omega)]
  rwa [e2] at hk

theorem genOverlap_getD (o : Obj ℝ) (st : Store ℝ) (y : List ℝ) (sds : List ℕ) (n : ℕ) (hn : n < sds.length) :
    (genOverlap o st y sds).getD n 0 = o.overlap (feedDeriv o st y) (sds.getD n 0) := by
  rw [genOverlap, List.getD_eq_getElem _ _ (by simpa using hn), List.getElem_map, List.getD_eq_getElem _ _ hn]

theorem applyOp_genOverlap (o : Obj ℝ) (st : Store ℝ) (y : List ℝ) (m : ℕ) :
    applyOp o (genOverlap o st y o.sds) m
      = ((List.range o.sds.length).map fun n => o.ciOp m n * o.overlap (feedDeriv o st y) (o.sds.getD n 0)).sum := by
  rw [applyOp]
  congr 1
  apply List.map_congr_left
  intro n hn
  rw [genOverlap_getD _ _ _ _ _ (List.mem_range.mp hn)]

theorem genHam_hasDerivAt (h : GenOk o st) (hx : x.length = activeNparams o.sel + 1) (hd : GenDeriv o (feedDeriv o st x.dropLast))
    {i : ℕ} (hi : i < activeNparams o.sel) (m : ℕ) :
    HasDerivAt (fun t => applyOp o (genOverlap o st (x.set i t).dropLast o.sds) m)
      (applyOp o ((computeOverlapDeriv o st x.dropLast o.sds).map fun r => r.getD i 0) m) (x.getD i 0) := by
  simp only [applyOp_genOverlap]
  rw [applyOp_column]
  exact hasDeriv_listSum _ fun n _ => (genOverlap_hasDerivAt h hx hd hi _).const_mul _

theorem sum_map_sub' {ι : Type} (l : List ι) (f g : ι → ℝ) : (l.map fun i => f i - g i).sum = (l.map f).sum - (l.map g).sum := by
  induction l with
  | nil => simp
  | cons a r ih => simp only [List.map_cons, List.sum_cons, ih]; ring

theorem gen_getD_range (f : ℕ → ℝ) {n i : ℕ} (h : i < n) : ((List.range n).map f).getD i 0 = f i := by
  rw [List.getD_eq_getElem _ _ (by simpa using h), List.getElem_map, List.getElem_range]

theorem feed_self (hx : x.length = activeNparams o.sel + 1) {i : ℕ} (hi : i < activeNparams o.sel + 1) :
    x.set i (x.getD i 0) = x := by
  rw [List.getD_eq_getElem _ _ (by omega), List.set_getElem_self]

/-- **C93, energy.**  When the overlaps in the space `P` are not all zero, `compute_jacobian` of the energy objective has one entry for every
parameter and one for the energy, and the entries are the derivatives of `compute_objective`. -/
theorem C93_energy_gradient (h : GenOk o st) (hx : x.length = activeNparams o.sel + 1)
    (hd : GenDeriv o (feedDeriv o st x.dropLast)) (hP : o.nproj ≤ o.sds.length)
    (hn : ((List.range o.nproj).map fun m => o.overlap (feedDeriv o st x.dropLast) (o.sds.getD m 0) ^ 2).sum ≠ 0) :
    (genEnergyGrad o st x).length = activeNparams o.sel + 1 ∧
    ∀ i < activeNparams o.sel + 1,
      HasDerivAt (fun t => genEnergy o st (x.set i t)) ((genEnergyGrad o st x).getD i 0) (x.getD i 0) := by
  constructor
  · rw [genEnergyGrad, padTo]
    simp [h.nactive, h.nwfn]
  · intro i hi
    rcases Nat.lt_succ_iff_lt_or_eq.1 hi with hi' | hi'
    · have hmem : ∀ m ∈ List.range o.nproj, m < o.sds.length := fun m hm => by have := List.mem_range.1 hm; omega
      have e0 : ∀ y : List ℝ, genEnergy o st y
          = ((List.range o.nproj).map fun m => applyOp o (genOverlap o st y.dropLast o.sds) m * o.overlap (feedDeriv o st y.dropLast) (o.sds.getD m 0)).sum
            / ((List.range o.nproj).map fun m => o.overlap (feedDeriv o st y.dropLast) (o.sds.getD m 0) ^ 2).sum := by
        intro y
        rw [genEnergy]
        congr 2
        · apply List.map_congr_left; intro m hm; rw [genOverlap_getD _ _ _ _ _ (hmem m hm)]
        · apply List.map_congr_left; intro m hm; rw [genOverlap_getD _ _ _ _ _ (hmem m hm)]
      simp only [e0]
      have hnum := hasDeriv_listSum (List.range o.nproj) (t0 := x.getD i 0)
        (f := fun m t => applyOp o (genOverlap o st (x.set i t).dropLast o.sds) m * o.overlap (feedDeriv o st (x.set i t).dropLast) (o.sds.getD m 0))
        (fun m _ => (genHam_hasDerivAt h hx hd hi' m).fun_mul (genOverlap_hasDerivAt h hx hd hi' (o.sds.getD m 0)))
      have hden := hasDeriv_listSum (List.range o.nproj) (t0 := x.getD i 0)
        (f := fun m t => o.overlap (feedDeriv o st (x.set i t).dropLast) (o.sds.getD m 0) ^ 2)
        (fun m _ => (genOverlap_hasDerivAt h hx hd hi' (o.sds.getD m 0)).fun_pow 2)
      have hq := hnum.fun_div hden (by rw [feed_self hx hi]; exact hn)
      refine hq.congr_deriv ?_
      rw [feed_self hx hi]
      rw [genEnergyGrad]
      rw [padTo_getD_lt _ _ _ (by simpa [h.nwfn] using hi'), List.getD_eq_getElem _ _ (by simpa [h.nwfn] using hi'), List.getElem_map,
        List.getElem_range]
      have e1 : ((List.range o.nproj).map fun m => (genOverlap o st x.dropLast o.sds).getD m 0 ^ 2)
          = (List.range o.nproj).map fun m => o.overlap (feedDeriv o st x.dropLast) (o.sds.getD m 0) ^ 2 := by
        apply List.map_congr_left; intro m hm; rw [genOverlap_getD _ _ _ _ _ (hmem m hm)]
      have e2 : ((List.range o.nproj).map fun m => (genOverlap o st x.dropLast o.sds).getD m 0 * applyOp o (genOverlap o st x.dropLast o.sds) m)
          = (List.range o.nproj).map fun m => applyOp o (genOverlap o st x.dropLast o.sds) m * o.overlap (feedDeriv o st x.dropLast) (o.sds.getD m 0) := by
        apply List.map_congr_left; intro m hm; rw [genOverlap_getD _ _ _ _ _ (hmem m hm), mul_comm]
      rw [e1, e2]
      generalize hN : ((List.range o.nproj).map fun m => o.overlap (feedDeriv o st x.dropLast) (o.sds.getD m 0) ^ 2).sum = N
      generalize hE : ((List.range o.nproj).map fun m => applyOp o (genOverlap o st x.dropLast o.sds) m * o.overlap (feedDeriv o st x.dropLast) (o.sds.getD m 0)).sum = E
      rw [div_eq_mul_inv, ← List.sum_map_mul_right, ← List.sum_map_mul_left, ← sum_map_sub', ← List.sum_map_mul_right]
      congr 1
      apply List.map_congr_left
      intro m hm
      rw [genOverlap_getD _ _ _ _ _ (hmem m hm), column_getD' _ _ _ _ _ (hmem m hm)]
      push_cast
      ring
    · subst hi'
      have e0 : ∀ t, genEnergy o st (x.set (activeNparams o.sel) t) = genEnergy o st x := by
        intro t
        rw [genEnergy, genEnergy, dropLast_set_last _ _ _ (by omega)]
      simp only [e0]
      rw [genEnergyGrad, padTo_getD_ge _ _ _ (by simp [h.nwfn])]
      exact hasDerivAt_const _ _

/-- At a solution of the projected equations, the energy objective is the energy of the solution. -/
theorem C93_energy_solution (o : Obj ℝ) (st : Store ℝ) (x : List ℝ) (hP : o.nproj ≤ o.sds.length)
    (hn : ((List.range o.nproj).map fun m => o.overlap (feedDeriv o st x.dropLast) (o.sds.getD m 0) ^ 2).sum ≠ 0)
    (hz : ∀ m < o.nproj, (genProjected o st x).getD m 0 = 0) : genEnergy o st x = x.getLastD 0 := by
  have h1 : ∀ m < o.nproj, applyOp o (genOverlap o st x.dropLast o.sds) m
      = o.overlap (feedDeriv o st x.dropLast) (o.sds.getD m 0) * x.getLastD 0 := by
    intro m hm
    have := hz m hm
    rw [genProjected] at this
    rw [List.getD_append _ _ _ _ (by simpa using hm), List.getD_eq_getElem _ _ (by simpa using hm), List.getElem_map, List.getElem_range,
      genOverlap_getD _ _ _ _ _ (by omega)] at this
    linarith
  rw [genEnergy]
  have e1 : ((List.range o.nproj).map fun m => (genOverlap o st x.dropLast o.sds).getD m 0 ^ 2)
      = (List.range o.nproj).map fun m => o.overlap (feedDeriv o st x.dropLast) (o.sds.getD m 0) ^ 2 := by
    apply List.map_congr_left; intro m hm; rw [genOverlap_getD _ _ _ _ _ (by have := List.mem_range.1 hm; omega)]
  have e2 : ((List.range o.nproj).map fun m => applyOp o (genOverlap o st x.dropLast o.sds) m * (genOverlap o st x.dropLast o.sds).getD m 0)
      = (List.range o.nproj).map fun m => o.overlap (feedDeriv o st x.dropLast) (o.sds.getD m 0) ^ 2 * x.getLastD 0 := by
    apply List.map_congr_left
    intro m hm
    have hm' := List.mem_range.1 hm
    rw [h1 m hm', genOverlap_getD _ _ _ _ _ (by omega)]
    ring
  rw [e1, e2, List.sum_map_mul_right, mul_comm, mul_div_assoc, div_self hn, mul_one]

/-! ## The projected equations -/

/-- the gradients of the constraints, without the exception -/
noncomputable def genGradOf (o : Obj ℝ) (st : Store ℝ) (x : List ℝ) (c : Constraint ℝ) : List ℝ :=
  match genConstraintGrad o st x c with
  | .ok l => l
  | .error _ => []

theorem genNormGrad_eq (o : Obj ℝ) (st : Store ℝ) (x : List ℝ) (cs : List (ℕ × ℕ))
    (h1 : (cs.flatMap fun c => List.range' c.1 (c.2 - c.1)) = List.range o.sds.length)
    (h2 : ∀ c ∈ cs, c.2 ≤ o.sds.length) :
    genNormGrad o st x cs = (List.range (nwfn o)).map fun a =>
      (o.sds.map fun sd => 2 * o.overlap (feedDeriv o st x) sd * (derivRow o st x sd).getD a 0).sum := by
  rw [genNormGrad]
  apply List.map_congr_left
  intro a _
  rw [← sum_chunks o.sds 0 cs _ h1 h2]
  congr 1
  apply List.map_congr_left
  intro c _
  rw [genOverlap, computeOverlapDeriv, ← List.map_take, ← List.map_drop, zip_map_map, List.map_map]
  rfl

theorem genNorm_ok (o : Obj ℝ) (st : Store ℝ) (x : List ℝ) (hs : o.sds ≠ []) :
    genConstraintGrad o st x .norm = .ok (padTo (nactive o) ((List.range (nwfn o)).map fun a =>
      (o.sds.map fun sd => 2 * o.overlap (feedDeriv o st x.dropLast) sd * (derivRow o st x.dropLast sd).getD a 0).sum)) := by
  obtain ⟨cs, e1, e2, e3, -⟩ := C78_chunks o.sds.length o.avail (List.length_pos_iff.mpr hs)
  have : genConstraintGrad o st x .norm = (do
      let cs ← chunks o.sds.length o.avail
      .ok (padTo (nactive o) (genNormGrad o st x.dropLast cs))) := rfl
  rw [this, e1]
  simp only [bind, Except.bind]
  rw [genNormGrad_eq o st x.dropLast cs e2 (fun c hc => (e3 c hc).2)]

theorem genConstraintGrad_ok (hs : o.sds ≠ []) (c : Constraint ℝ) : genConstraintGrad o st x c = .ok (genGradOf o st x c) := by
  cases c with
  | norm => rw [genGradOf, genNorm_ok o st x hs]
  | param => rfl
  | det => rfl
  | custom => rfl

/-- the rows of the projections -/
noncomputable def genRow (o : Obj ℝ) (st : Store ℝ) (x : List ℝ) (m : ℕ) : List ℝ :=
  ((List.range (nwfn o)).map fun a =>
      applyOp o ((computeOverlapDeriv o st x.dropLast o.sds).map fun r => r.getD a 0) m
        - ((computeOverlapDeriv o st x.dropLast o.sds).map fun r => r.getD a 0).getD m 0 * x.getLastD 0)
    ++ (if energyActive o then [(genOverlap o st x.dropLast (o.sds.take o.nproj)).getD m 0 * -1] else [])

theorem genJacobian_ok (hs : o.sds ≠ []) :
    genJacobian o st x = .ok ((List.range o.nproj).map (genRow o st x) ++ o.constraints.map (genGradOf o st x)) := by
  have : genJacobian o st x = (do
      let cons ← o.constraints.mapM (genConstraintGrad o st x)
      return (List.range o.nproj).map (genRow o st x) ++ cons) := rfl
  rw [this, mapM_eq_ok o.constraints (fun c _ => genConstraintGrad_ok hs c)]
  rfl

theorem genConstraint_hasDerivAt (h : GenOk o st) (hx : x.length = activeNparams o.sel + 1)
    (hd : GenDeriv o (feedDeriv o st x.dropLast)) (hs : o.sds ≠ []) (hcu : CustomDeriv o x) (c : Constraint ℝ) (hc : c ∈ o.constraints)
    {i : ℕ} (hi : i < activeNparams o.sel + 1) :
    HasDerivAt (fun t => genConstraintFun o st (x.set i t) c) ((genGradOf o st x c).getD i 0) (x.getD i 0) := by
  have hact : ∀ j, o.mask.getD j false = true ↔ j < activeNparams o.sel + 1 := by
    intro j
    rw [h.mask, List.getD_eq_getElem?_getD, List.getElem?_replicate]
    split_ifs with h1 <;> simp [h1]
  have hwi : i < activeNparams o.sel ∨ i = activeNparams o.sel := by omega
  cases c with
  | param j val =>
    rw [genGradOf, genConstraintGrad]
    simp only [genConstraintFun]
    by_cases haj : o.mask.getD j false = true
    · have hj := (hact j).1 haj
      simp only [haj, if_true]
      rw [h.position hj, h.nactive]
      by_cases hij : i = j
      · subst hij
        have e : ∀ t, (x.set i t).getD i 0 - val = t - val := by
          intro t
          rw [List.getD_eq_getElem _ _ (by simp; omega), List.getElem_set_self]
        rw [funext e, List.getD_eq_getElem _ _ (by simpa using hi), List.getElem_set_self]
        exact (hasDerivAt_id _).sub_const val
      · have e : ∀ t, (x.set i t).getD j 0 - val = x.getD j 0 - val := by
          intro t
          rw [List.getD_eq_getElem?_getD, List.getElem?_set_ne hij, ← List.getD_eq_getElem?_getD]
        have e' : ((List.replicate (activeNparams o.sel + 1) (0 : ℝ)).set j 1).getD i 0 = 0 := by
          rw [List.getD_eq_getElem?_getD, List.getElem?_set_ne (Ne.symm hij), List.getElem?_replicate, if_pos hi]; rfl
        rw [funext e, e']
        exact hasDerivAt_const _ _
    · simp only [haj]
      have : (List.replicate (nactive o) (0 : ℝ)).getD i 0 = 0 := by
        simp only [List.getD_eq_getElem?_getD, List.getElem?_replicate]
        split_ifs <;> rfl
      simp only [Bool.false_eq_true, if_false, this]
      exact hasDerivAt_const _ _
  | det j val =>
    rw [genGradOf, genConstraintGrad]
    simp only [genConstraintFun, genOverlap, computeOverlapDeriv, List.map_cons, List.map_nil, List.getD_cons_zero]
    rcases hwi with hwi | rfl
    · rw [padTo_getD_lt _ _ _ (by rw [genRow_length h]; exact hwi)]
      exact (genOverlap_hasDerivAt h hx hd hwi _).sub_const val
    · have e : ∀ t, (x.set (activeNparams o.sel) t).dropLast = x.dropLast := fun t => dropLast_set_last _ _ _ (by omega)
      simp only [e]
      rw [padTo_getD_ge _ _ _ (by rw [genRow_length h])]
      exact hasDerivAt_const _ _
  | norm =>
    rw [genGradOf, genNorm_ok o st x hs]
    simp only [genConstraintFun, genOverlap, List.map_map, Function.comp_def]
    rcases hwi with hwi | rfl
    · rw [padTo_getD_lt _ _ _ (by simpa [h.nwfn] using hwi), List.getD_eq_getElem _ _ (by simpa [h.nwfn] using hwi), List.getElem_map,
        List.getElem_range]
      refine (hasDeriv_listSum o.sds ?_).sub_const 1
      intro sd _
      have h1 := genOverlap_hasDerivAt h hx hd hwi sd
      refine (h1.fun_mul h1).congr_deriv ?_
      rw [feed_self hx hi]
      ring
    · have e : ∀ t, (x.set (activeNparams o.sel) t).dropLast = x.dropLast := fun t => dropLast_set_last _ _ _ (by omega)
      simp only [e]
      rw [padTo_getD_ge _ _ _ (by simp [h.nwfn])]
      exact hasDerivAt_const _ _
  | custom f df =>
    have := (hcu f df hc).2 i ((hact i).2 hi)
    rwa [h.position hi] at this

/-- **C93, projected equations.**  `compute_jacobian` of the projected objective has one row for every equation and one column for every
parameter and the energy, and the entries are the derivatives of `compute_objective`: for the projected equations and for the constraints,
for one wavefunction and for a `ProductWavefunction`. -/
theorem C93_jacobian_partial (h : GenOk o st) (hx : x.length = activeNparams o.sel + 1)
    (hd : GenDeriv o (feedDeriv o st x.dropLast)) (hs : o.sds ≠ []) (hP : o.nproj ≤ o.sds.length) (hcu : CustomDeriv o x) :
    ∃ J, genJacobian o st x = .ok J ∧ J.length = nequation o ∧ (∀ r ∈ J, r.length = activeNparams o.sel + 1) ∧
      ∀ i < activeNparams o.sel + 1, ∀ m < nequation o,
        HasDerivAt (fun t => (genProjected o st (x.set i t)).getD m 0) ((J.getD m []).getD i 0) (x.getD i 0) := by
  refine ⟨_, genJacobian_ok hs, by simp [nequation], ?_, ?_⟩
  · intro r hr
    rcases List.mem_append.mp hr with hr | hr
    · obtain ⟨m, -, rfl⟩ := List.mem_map.mp hr
      simp [genRow, h.nwfn, h.energy]
    · obtain ⟨c, hc, rfl⟩ := List.mem_map.mp hr
      cases c with
      | param j val =>
        rw [genGradOf, genConstraintGrad]
        dsimp only
        split_ifs <;> simp [h.nactive]
      | det j val =>
        rw [genGradOf, genConstraintGrad]
        simp [padTo, computeOverlapDeriv, genRow_length h, h.nactive]
      | norm =>
        rw [genGradOf, genNorm_ok o st x hs]
        simp [padTo, h.nwfn, h.nactive]
      | custom f df => rw [← h.nactive]; exact (hcu f df hc).1
  · intro i hi m hm
    have hwi : i < activeNparams o.sel ∨ i = activeNparams o.sel := by omega
    by_cases hmp : m < o.nproj
    · have hms : m < o.sds.length := by omega
      have e1 : ∀ y, (genProjected o st y).getD m 0
          = applyOp o (genOverlap o st y.dropLast o.sds) m - o.overlap (feedDeriv o st y.dropLast) (o.sds.getD m 0) * y.getLastD 0 := by
        intro y
        rw [genProjected]
        rw [List.getD_append _ _ _ _ (by simpa using hmp), List.getD_eq_getElem _ _ (by simpa using hmp),
          List.getElem_map, List.getElem_range, genOverlap_getD _ _ _ _ _ hms]
      have e4 : ((List.range o.nproj).map (genRow o st x) ++ o.constraints.map (genGradOf o st x)).getD m [] = genRow o st x m := by
        rw [List.getD_append _ _ _ _ (by simpa using hmp), List.getD_eq_getElem _ _ (by simpa using hmp), List.getElem_map, List.getElem_range]
      rw [funext fun t => e1 (x.set i t), e4, genRow]
      rcases hwi with hwi | rfl
      · rw [List.getD_append _ _ _ _ (by simpa [h.nwfn] using hwi), gen_getD_range _ (by rw [h.nwfn]; exact hwi), column_getD' _ _ _ _ _ hms]
        have e3 : ∀ t, (x.set i t).getLastD 0 = x.getLastD 0 := fun t => getLastD_set _ _ _ (by omega)
        simp only [e3]
        exact (genHam_hasDerivAt h hx hd hwi m).fun_sub ((genOverlap_hasDerivAt h hx hd hwi _).mul_const _)
      · rw [h.energy, if_pos rfl, List.getD_append_right _ _ _ _ (by simp [h.nwfn])]
        simp only [List.length_map, List.length_range, h.nwfn, Nat.sub_self, List.getD_cons_zero]
        have e2 : (o.sds.take o.nproj).getD m 0 = o.sds.getD m 0 := by
          rw [List.getD_eq_getElem?_getD, List.getElem?_take_of_lt hmp, ← List.getD_eq_getElem?_getD]
        rw [genOverlap_getD _ _ _ _ _ (by simp; omega), e2]
        have e : ∀ t, (x.set (activeNparams o.sel) t).dropLast = x.dropLast := fun t => dropLast_set_last _ _ _ (by omega)
        have e3 : ∀ t, (x.set (activeNparams o.sel) t).getLastD 0 = t := fun t => getLastD_set_last _ _ _ (by omega)
        simp only [e, e3]
        have := ((hasDerivAt_id (x.getD (activeNparams o.sel) 0)).const_mul
          (o.overlap (feedDeriv o st x.dropLast) (o.sds.getD m 0))).const_sub (applyOp o (genOverlap o st x.dropLast o.sds) m)
        refine this.congr_deriv ?_
        simp
    · have hmc : m - o.nproj < o.constraints.length := by rw [nequation] at hm; omega
      have e1 : ∀ y, (genProjected o st y).getD m 0 = genConstraintFun o st y o.constraints[m - o.nproj] := by
        intro y
        rw [genProjected]
        rw [List.getD_append_right _ _ _ _ (by simpa using not_lt.mp hmp)]
        simp only [List.length_map, List.length_range]
        rw [List.getD_eq_getElem _ _ (by simpa using hmc), List.getElem_map]
      have e4 : ((List.range o.nproj).map (genRow o st x) ++ o.constraints.map (genGradOf o st x)).getD m []
          = genGradOf o st x o.constraints[m - o.nproj] := by
        rw [List.getD_append_right _ _ _ _ (by simpa using not_lt.mp hmp)]
        simp only [List.length_map, List.length_range]
        rw [List.getD_eq_getElem _ _ (by simpa using hmc), List.getElem_map]
      rw [funext fun t => e1 (x.set i t), e4]
      exact genConstraint_hasDerivAt h hx hd hs hcu _ (List.getElem_mem _) hi

end

/-! ## A product of two wavefunctions, with one parameter each -/

/-- the overlap is the product of the two parameters, for the first determinant, and their sum for the others -/
noncomputable def genExample : Obj ℝ where
  sel := [(0, [0]), (1, [0])]
  wfn := 2
  product := some [0, 1]
  mask := [true, true, true]
  nproj := 2
  sds := [3, 5]
  ciOp := fun m n => if m = n then 1 else 2
  constraints := [.norm]
  avail := 1
  overlap := fun s sd => if sd = 3 then (s 0).getD 0 0 * (s 1).getD 0 0 else (s 0).getD 0 0 + (s 1).getD 0 0
  dOverlap := fun s sd c _ => if sd = 3 then (if c = 0 then (s 1).getD 0 0 else (s 0).getD 0 0) else 1

noncomputable def genStore : Store ℝ := fun c => if c ≤ 1 then [0] else []

theorem genExample_ok : GenOk genExample genStore := by
  refine ⟨⟨by simp [genExample], ?_⟩, by simp [genExample], ?_⟩
  · intro p hp
    simp only [genExample, List.mem_cons, List.not_mem_nil, or_false] at hp
    rcases hp with rfl | rfl <;> simp [genStore]
  · rw [(C93_init (fun c => (genStore c).length) genExample).1]
    · simp [genExample, genStore]
    · intro p hp i hi
      simp only [genExample, List.mem_cons, List.not_mem_nil, or_false] at hp
      rcases hp with rfl | rfl <;> simpa [genStore] using hi

theorem genExample_deriv (a b : ℝ) : GenDeriv genExample (feedDeriv genExample genStore [a, b]) := by
  have e : feedDeriv genExample genStore [a, b] = fun c => if c = 0 then [a] else if c = 1 then [b] else [] := by
    funext c
    rw [feedDeriv, feed_eq _ _ _ _ genExample_ok.valid.1]
    rcases c with _ | _ | c
    · simp [genExample, genStore, getItem, indicesObjective, setMany, List.lookup]
    · simp [genExample, genStore, getItem, indicesObjective, setMany, List.lookup]
    · simp [genExample, genStore]
  rw [e]
  intro c k hk sd
  have hk0 : k = 0 ∧ (c = 0 ∨ c = 1) := by
    rcases c with _ | _ | c
    · simp at hk; exact ⟨hk, Or.inl rfl⟩
    · simp at hk; exact ⟨hk, Or.inr rfl⟩
    · simp at hk
  obtain ⟨rfl, rfl | rfl⟩ := hk0
  · simp only [genExample, move]
    by_cases h : sd = 3
    · simp [h, Function.update]
      simpa using (hasDerivAt_id a).mul_const b
    · simp [h, Function.update]
      exact hasDerivAt_id' a
  · simp only [genExample, move]
    by_cases h : sd = 3
    · simp [h, Function.update]
      simpa using (hasDerivAt_id b).const_mul a
    · simp [h, Function.update]
      exact (hasDerivAt_id b).const_add a

/-- the hypotheses of `C93_jacobian_partial` and of `C93_energy_gradient` hold for the product with the parameters 1 and 2, and the energy 7 -/
example : (∃ J, genJacobian genExample genStore [1, 2, 7] = .ok J ∧ J.length = 3) ∧ (genEnergyGrad genExample genStore [1, 2, 7]).length = 3 := by
  have hl : ([1, 2, 7] : List ℝ).length = activeNparams genExample.sel + 1 := by simp [genExample, activeNparams]
  have hd : GenDeriv genExample (feedDeriv genExample genStore ([1, 2, 7] : List ℝ).dropLast) := genExample_deriv 1 2
  constructor
  · obtain ⟨J, h1, h2, -⟩ := C93_jacobian_partial genExample_ok hl hd (by simp [genExample]) (by simp [genExample]) (by
      intro f df h; simp [genExample] at h)
    exact ⟨J, h1, by rw [h2]; simp [nequation, genExample]⟩
  · refine (C93_energy_gradient genExample_ok hl hd (by simp [genExample]) ?_).1.trans (by simp [genExample, activeNparams])
    have e : (List.range genExample.nproj).map (fun m => genExample.overlap (feedDeriv genExample genStore ([1, 2, 7] : List ℝ).dropLast)
        (genExample.sds.getD m 0) ^ 2) = [4, 9] := by
      have e0 : feedDeriv genExample genStore ([1, 2, 7] : List ℝ).dropLast 0 = [1] := by
        rw [feedDeriv, feed_eq _ _ _ _ genExample_ok.valid.1]
        simp [genExample, genStore, getItem, indicesObjective, setMany, List.lookup]
      have e1 : feedDeriv genExample genStore ([1, 2, 7] : List ℝ).dropLast 1 = [2] := by
        rw [feedDeriv, feed_eq _ _ _ _ genExample_ok.valid.1]
        simp [genExample, genStore, getItem, indicesObjective, setMany, List.lookup]
      have : List.range genExample.nproj = [0, 1] := rfl
      rw [this]
      simp only [List.map_cons, List.map_nil]
      rw [show genExample.sds.getD 0 0 = 3 from rfl, show genExample.sds.getD 1 0 = 5 from rfl]
      simp only [show ∀ s sd, genExample.overlap s sd = if sd = 3 then (s 0).getD 0 0 * (s 1).getD 0 0 else (s 0).getD 0 0 + (s 1).getD 0 0 from fun _ _ => rfl,
        e0, e1]
      norm_num
    rw [e]; norm_num

/-! ## The determinants of DOCI -/

/-- **C93, DOCI.**  The determinants of a DOCI array are those of the alpha orbitals only: half of the electrons.  Those of a full CI array
are as in `C77_fci`. -/
theorem C93_doci (n : ℕ) (rows : List (List ℕ)) (hne : rows ≠ []) (h : ∀ r ∈ rows, r ≠ [] ∧ r.Nodup) (rows' : List (List ℕ × List ℕ)) :
    genConvert n (.doci rows) = .ok (rows.map fun r => some (Spec.sdOf r.toFinset)) ∧
    genConvert n (.fci rows') = convert n (.fci rows') := by
  constructor
  · have e : ∀ l : List (List ℕ), (∀ r ∈ l, r ≠ [] ∧ r.Nodup) → l.map genDociSd = l.map fun r => some (Spec.sdOf r.toFinset) := by
      intro l hl
      apply List.map_congr_left
      intro r hr
      rw [genDociSd, Slater.create_of (hl r hr).2 (by simp)]
      simp
    rcases rows with _ | ⟨r, l⟩
    · exact absurd rfl hne
    · rcases r with _ | ⟨a, r⟩
      · exact absurd rfl (h [] (by simp)).1
      · rw [← e _ h]; rfl
  · rcases rows' with _ | ⟨r, l⟩ <;> rfl

/-- for two orbitals of which the first is doubly occupied: one electron instead of two -/
theorem C93_doci_wrong : genConvert 2 (.doci [[0]]) = .ok [some 1] ∧ convert 2 (.doci [[0]]) = .ok [some 5] := by
  decide

/-! ## `optimize` -/

/-- **C93, `optimize`.**  The modes that start an optimizer: `"lstsq"` for the projected objective, `"cma"` and `"bfgs"` for the energy, and
`"root"` for as many equations as parameters. -/
theorem C93_optimize {R : Type} (o : Obj R) (type : ObjType) (len : ℕ) (mode m : GenMode) :
    genOptimize o type len mode = .ok m ↔ m = mode ∧ len = nparam o ∧
      ((mode = .lstsq ∧ type = .projected) ∨ (mode = .root ∧ nequation o = nactive o) ∨ ((mode = .cma ∨ mode = .bfgs) ∧ type = .energy)) := by
  unfold genOptimize
  cases mode <;> cases type <;> by_cases h1 : len = nparam o <;> by_cases h2 : nequation o = nactive o <;> simp [h1, h2, eq_comm]

/-- With the default `objective_type=None`, nothing but `"root"` starts, and that needs as many equations as parameters. -/
theorem C93_optimize_default {R : Type} (o : Obj R) (len : ℕ) (mode : GenMode) (h : nequation o ≠ nactive o) :
    ∃ e, genOptimize o .other len mode = .error e := by
  unfold genOptimize
  cases mode <;> by_cases h1 : len = nparam o <;> simp [h1, h]

/-- `NotImplementedError` for the modes that are listed but not written -/
theorem C93_optimize_missing {R : Type} (o : Obj R) (type : ObjType) (mode : GenMode) :
    genOptimize o type (nparam o) mode = .error .notImplemented ↔ mode = .trustregion ∨ (mode = .trf ∧ type = .projected) := by
  unfold genOptimize
  cases mode <;> cases type <;> by_cases h2 : nequation o = nactive o <;> simp [h2]

/-- **C93, `optimize_stochastic`.**  It never returns more than the empty list: after the first optimization the message raises `KeyError`. -/
theorem C93_stochastic {R S : Type} [Zero R] (opt : List R → Except PyErr (List R)) (next : List R → S) (reinit : S → Except PyErr Unit)
    (n : ℕ) (x0 : List R) :
    stochastic opt next reinit 0 x0 = .ok [] ∧
    (∀ e, opt x0 = .error e → stochastic opt next reinit (n + 1) x0 = .error e) ∧
    (∀ x, opt x0 = .ok x → stochastic opt next reinit (n + 1) x0 = .error .keyError) := by
  refine ⟨rfl, ?_, ?_⟩
  · intro e h
    rw [stochastic, h]; rfl
  · intro x h
    rw [stochastic, h]; rfl

end Fanpy.Props
