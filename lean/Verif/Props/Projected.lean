import Verif.Props.Energy

/-! # C50 and C51: the projected Schrödinger equation and its least squares -/

namespace Fanpy.Props
open Fanpy.Eqn Fanpy.Lemmas.Eqn

/-! ## Stores reached from a store -/

section
variable {R : Type} [Field R]

/-- The store has the shape and the unselected parameters of `st0`; if the energy is computed, its container is free. -/
def SameOff (p : Proj R) (st0 st : Store R) : Prop :=
  (∀ c, (st c).length = (st0 c).length) ∧
  ∀ c k : ℕ, k ∉ getItem p.sel c → (p.energyType = .compute → c ≠ p.energy) → (st c)[k]? = (st0 c)[k]?

/-- The store is `st0` with the parameters `y`; if the energy is computed, its container is free. -/
def At (p : Proj R) (st0 : Store R) (y : List R) (st : Store R) : Prop :=
  (∀ c, (st c).length = (st0 c).length) ∧
  ∀ c, (p.energyType = .compute → c ≠ p.energy) → st c = (assignParams p.sys.accept p.sel st0 y).1 c

omit [Field R] in
theorem sameOff_self (p : Proj R) (st : Store R) : SameOff p st st := ⟨fun _ => rfl, fun _ _ _ _ => rfl⟩

omit [Field R] in
theorem valid_sameOff {p : Proj R} {st0 st : Store R} (h : Valid st0 p.sel) (hs : SameOff p st0 st) : Valid st p.sel :=
  ⟨h.1, fun q hq => ⟨(h.2 q hq).1, fun i hi => by rw [hs.1]; exact (h.2 q hq).2 i hi⟩⟩

theorem sameOff_at {p : Proj R} {st0 st : Store R} (h : Valid st0 p.sel) {y : List R} (ha : At p st0 y st) : SameOff p st0 st := by
  refine ⟨ha.1, fun c k hk hc => ?_⟩
  rw [ha.2 c hc]
  exact (C47_unselected p.sys.accept h.1 y).2 c k hk

/-- assigning parameters to any store reached gives the same store (but for a computed energy) -/
theorem assign_at {p : Proj R} {st0 st : Store R} (h : Valid st0 p.sel) (hacc : Accepts p.sys p.sel st0) (hs : SameOff p st0 st)
    {y : List R} (hy : y.length = activeNparams p.sel) :
    ∃ st', assignParams p.sys.accept p.sel st y = (st', none) ∧ At p st0 y st' := by
  obtain ⟨s1, e1, l1, n1, p1⟩ := assign_ok (accept := p.sys.accept) (valid_sameOff h hs)
    (fun c hc v hv => hacc c hc v (by rw [hv, hs.1])) hy
  obtain ⟨s0, e0, l0, n0, p0⟩ := assign_ok (accept := p.sys.accept) h hacc hy
  refine ⟨s1, e1, fun c => (l1 c).trans (hs.1 c), fun c hc => ?_⟩
  rw [e0]
  apply List.ext_getElem?
  intro k
  by_cases hk : k ∈ getItem p.sel c
  · obtain ⟨j, hj⟩ := exists_slot h.1 hk
    rw [p1 _ _ _ hj, p0 _ _ _ hj]
  · rw [n1 _ _ hk, n0 _ _ hk, hs.2 c k hk hc]

/-- The wavefunction, the Hamiltonian and the reference do not depend on the container of the energy, which has one parameter. -/
structure EnergyApart (p : Proj R) (st0 : Store R) : Prop where
  one : (st0 p.energy).length = 1
  overlap : ∀ st v m, p.sys.overlap (Function.update st p.energy v) m = p.sys.overlap st m
  integral : ∀ st v m, p.sys.integral (Function.update st p.energy v) m = p.sys.integral st m
  ref : ∀ w l, p.ref = .ci w l → w ≠ p.energy

theorem at_eq {p : Proj R} {st0 st : Store R} {y : List R} (ha : At p st0 y st) :
    st = Function.update (assignParams p.sys.accept p.sel st0 y).1 p.energy (st p.energy) := by
  funext c
  by_cases hc : c = p.energy
  · subst hc; rw [Function.update_self]
  · rw [Function.update_of_ne hc, ha.2 c fun _ => hc]

omit [Field R] in
theorem coeffs_update {p : Proj R} {st0 : Store R} (he : EnergyApart p st0) (st : Store R) (v : List R) :
    p.ref.coeffs p.sys (Function.update st p.energy v) = p.ref.coeffs p.sys st := by
  have h := he.ref
  cases hr : p.ref with
  | sds l =>
    rw [Ref.coeffs, Ref.coeffs]
    exact List.map_congr_left fun m _ => he.overlap st v m
  | ci w l => rw [Ref.coeffs, Ref.coeffs, Function.update_of_ne (h w l hr)]

theorem energyOne_update {p : Proj R} {st0 : Store R} (he : EnergyApart p st0) (st : Store R) (v : List R) :
    energyOne p.sys (Function.update st p.energy v) p.ref = energyOne p.sys st p.ref ∧
    normOne p.sys (Function.update st p.energy v) p.ref = normOne p.sys st p.ref := by
  have e1 : p.ref.dets.map (p.sys.overlap (Function.update st p.energy v)) = p.ref.dets.map (p.sys.overlap st) :=
    List.map_congr_left fun m _ => he.overlap st v m
  have e2 : p.ref.dets.map (p.sys.integral (Function.update st p.energy v)) = p.ref.dets.map (p.sys.integral st) :=
    List.map_congr_left fun m _ => he.integral st v m
  have e3 : normOne p.sys (Function.update st p.energy v) p.ref = normOne p.sys st p.ref := by
    rw [normOne, normOne, coeffs_update he, e1]
  exact ⟨by rw [energyOne, energyOne, e3, coeffs_update he, e2], e3⟩

/-- the energy that is subtracted: the number in the container, or the one-sided energy of the reference if it is computed -/
def energyUsed (p : Proj R) (st : Store R) : R :=
  match p.energyType with
  | .compute => energyOne p.sys st p.ref
  | _ => (st p.energy).getD 0 0

theorem energyOf_at {p : Proj R} {st0 st : Store R} (he : EnergyApart p st0) {y : List R} (ha : At p st0 y st) :
    (p.energyOf st).1 = energyUsed p (assignParams p.sys.accept p.sel st0 y).1 ∧ At p st0 y (p.energyOf st).2 := by
  rw [Proj.energyOf, energyUsed]
  cases ht : p.energyType with
  | compute =>
    refine ⟨?_, fun c => ?_, fun c hc => ?_⟩
    · show energyOne p.sys st p.ref = _
      conv_lhs => rw [at_eq ha]
      exact (energyOne_update he _ _).1
    · by_cases hc : c = p.energy
      · subst hc; simp [he.one]
      · simp only [Function.update_of_ne hc]; exact ha.1 c
    · simp only [Function.update_of_ne (hc ht)]
      exact ha.2 c hc
  | fixed => exact ⟨by rw [← ha.2 p.energy (by rw [ht]; simp)], ha⟩
  | «variable» => exact ⟨by rw [← ha.2 p.energy (by rw [ht]; simp)], ha⟩

/-! ## Constraints -/

/-- A constraint that assigns the same parameters, and whose value `f` does not depend on what was there before. -/
def ConsValue (p : Proj R) (st0 : Store R) (c : Cons R) (f : List R → R) : Prop :=
  ∀ st, SameOff p st0 st → ∀ y : List R, y.length = activeNparams p.sel → ∃ st', At p st0 y st' ∧ c.objective st y = .ok (st', f y)

/-- the same of its gradient at `x` -/
def ConsGrad (p : Proj R) (st0 : Store R) (c : Cons R) (x : List R) (g : ℕ → R) : Prop :=
  ∀ st, SameOff p st0 st → ∃ st', At p st0 x st' ∧ c.gradient st x = .ok (st', g)

theorem runCons_ok {α : Type} {p : Proj R} {st0 : Store R} (h : Valid st0 p.sel) {f : Cons R → Store R → List R → Except PyErr (Store R × α)}
    {y : List R} (F : Cons R → α) (cs : List (Cons R))
    (hf : ∀ c ∈ cs, ∀ st, SameOff p st0 st → ∃ st', At p st0 y st' ∧ f c st y = .ok (st', F c)) {st : Store R} (hs : At p st0 y st) :
    ∃ st', At p st0 y st' ∧ runCons f y cs st = .ok (st', cs.map F) := by
  induction cs generalizing st with
  | nil => exact ⟨st, hs, rfl⟩
  | cons c r ih =>
    obtain ⟨s1, h1, e1⟩ := hf c (by simp) st (sameOff_at h hs)
    obtain ⟨s2, h2, e2⟩ := ih (fun c hc => hf c (by simp [hc])) h1
    refine ⟨s2, h2, ?_⟩
    simp only [runCons, e1, e2, bind, Except.bind, pure, Except.pure, List.map_cons]

/-! ## The objective -/

/-- the residual of a determinant -/
def residual (p : Proj R) (st : Store R) (m : ℕ) : R := p.sys.integral st m - energyUsed p st * p.sys.overlap st m

theorem objective_ok {p : Proj R} {st0 st : Store R} (h : Valid st0 p.sel) (hacc : Accepts p.sys p.sel st0) (he : EnergyApart p st0)
    (hs : SameOff p st0 st) (F : Cons R → List R → R) (hF : ∀ c ∈ p.cons, ConsValue p st0 c (F c)) {y : List R}
    (hy : y.length = activeNparams p.sel) {nrm : Bool} (hn : nrm = true → ∀ st, p.sys.normalize st p.ref = st) :
    ∃ st', At p st0 y st' ∧ p.objective st y true nrm = .ok (st', List.zipWith (· * ·)
      (p.pspace.map (residual p (assignParams p.sys.accept p.sel st0 y).1) ++ p.cons.map fun c => F c y) p.weights) := by
  obtain ⟨s1, e1, a1⟩ := assign_at h hacc hs hy
  have hnorm : normalizeIf p.sys nrm s1 p.ref = s1 := by
    rw [normalizeIf]
    cases nrm with
    | false => rfl
    | true => exact hn rfl s1
  obtain ⟨b1, b2⟩ := energyOf_at he a1
  obtain ⟨s2, a2, e2⟩ := runCons_ok h (fun c => F c y) p.cons (f := Cons.objective) (y := y)
    (fun c hc st hst => hF c hc st hst y hy) b2
  refine ⟨s2, a2, ?_⟩
  simp only [Proj.objective, assignIf_ok p.sys p.sel e1, bind, Except.bind, hnorm, e2, pure, Except.pure]
  congr 3
  congr 1
  refine List.map_congr_left fun m _ => ?_
  rw [b1, residual]
  have q := at_eq b2
  rw [q, he.integral, he.overlap]

/-- `objective` returns the weighted residuals `⟨m|H|Ψ⟩ - E⟨m|Ψ⟩` at the new parameters, followed by the weighted constraints; `E` is the
number in the container of the energy, or the one-sided energy of the reference.  The wavefunction has no `normalize` that changes
something, or it is not asked for. -/
theorem C50_objective {p : Proj R} {st st1 : Store R} (h : Valid st p.sel) (hacc : Accepts p.sys p.sel st) (he : EnergyApart p st)
    (F : Cons R → List R → R) (hF : ∀ c ∈ p.cons, ConsValue p st c (F c)) {x : List R}
    (hx : assignParams p.sys.accept p.sel st x = (st1, none)) {nrm : Bool} (hn : nrm = true → ∀ st, p.sys.normalize st p.ref = st)
    (hw : p.weights.length = p.numEqns) :
    ∃ st' v, p.objective st x true nrm = .ok (st', v) ∧ v.length = p.pspace.length + p.cons.length ∧
      (∀ i (hi : i < p.pspace.length), v[i]? = some ((p.sys.integral st1 p.pspace[i] -
        (if p.energyType = .compute then energyOne p.sys st1 p.ref else (st1 p.energy).getD 0 0) * p.sys.overlap st1 p.pspace[i]) *
          p.weights.getD i 0)) ∧
      ∀ i (hi : i < p.cons.length), v[p.pspace.length + i]? = some (F p.cons[i] x * p.weights.getD (p.pspace.length + i) 0) := by
  have hl := (C47_assign p.sys.accept h hx).1
  obtain ⟨s2, -, e⟩ := objective_ok h hacc he (sameOff_self p st) F hF hl hn
  refine ⟨s2, _, e, ?_, ?_, ?_⟩
  · simp [hw, Proj.numEqns]
  · intro i hi
    have hwi : i < p.weights.length := by rw [hw, Proj.numEqns]; omega
    have hen : energyUsed p st1 = if p.energyType = .compute then energyOne p.sys st1 p.ref else (st1 p.energy).getD 0 0 := by
      rw [energyUsed]; cases p.energyType <;> simp
    rw [List.getElem?_zipWith, List.getElem?_append_left (by simpa using hi), List.getElem?_map, List.getElem?_eq_getElem hi,
      List.getElem?_eq_getElem hwi, hx, List.getD_eq_getElem _ _ hwi, ← hen]
    rfl
  · intro i hi
    have hwi : p.pspace.length + i < p.weights.length := by rw [hw, Proj.numEqns]; omega
    rw [List.getElem?_zipWith, List.getElem?_append_right (by simp), List.length_map, Nat.add_sub_cancel_left, List.getElem?_map,
      List.getElem?_eq_getElem hi, List.getElem?_eq_getElem hwi, List.getD_eq_getElem _ _ hwi]
    rfl

/-- If `⟨m|H|Ψ⟩ = E⟨m|Ψ⟩` for the determinants of the projection space, and the energy is `E` (or the determinants of the reference also
fulfil it, with a norm that is not zero, if the energy is computed), all projection residuals are zero. -/
theorem C50_eigen {p : Proj R} {st st1 : Store R} (h : Valid st p.sel) (hacc : Accepts p.sys p.sel st) (he : EnergyApart p st)
    (F : Cons R → List R → R) (hF : ∀ c ∈ p.cons, ConsValue p st c (F c)) {x : List R}
    (hx : assignParams p.sys.accept p.sel st x = (st1, none)) {nrm : Bool} (hn : nrm = true → ∀ st, p.sys.normalize st p.ref = st)
    (hw : p.weights.length = p.numEqns) (E : R) (hE : ∀ m ∈ p.pspace, p.sys.integral st1 m = E * p.sys.overlap st1 m)
    (h1 : p.energyType = .compute → (∀ m ∈ p.ref.dets, p.sys.integral st1 m = E * p.sys.overlap st1 m) ∧ normOne p.sys st1 p.ref ≠ 0)
    (h2 : p.energyType ≠ .compute → (st1 p.energy).getD 0 0 = E) :
    ∃ st' v, p.objective st x true nrm = .ok (st', v) ∧ ∀ i < p.pspace.length, v[i]? = some 0 := by
  obtain ⟨s, v, e, -, hv, -⟩ := C50_objective h hacc he F hF hx hn hw
  refine ⟨s, v, e, fun i hi => ?_⟩
  rw [hv i hi, hE _ (List.getElem_mem hi)]
  have : (if p.energyType = .compute then energyOne p.sys st1 p.ref else (st1 p.energy).getD 0 0) = E := by
    split_ifs with ht
    · exact C48_eigen _ _ _ _ (h1 ht).1 (h1 ht).2
    · exact h2 ht
  rw [this, sub_self, zero_mul]

/-- The weights are one for projections and the number of projections for constraints by default; others must be as many as there are
equations. -/
theorem C50_weights (nproj ncons : ℕ) (w : Option (List R)) :
    (∀ v, w = some v → v.length ≠ nproj + ncons → assignWeights nproj ncons w = .error .valueError) ∧
    (∀ v, assignWeights nproj ncons w = .ok v → v.length = nproj + ncons) ∧
    (∀ v, w = some v → v.length = nproj + ncons → assignWeights nproj ncons w = .ok v) ∧
    (w = none → ∃ v : List R, assignWeights nproj ncons w = .ok v ∧ (∀ i < nproj, v[i]? = some 1) ∧
      ∀ i < ncons, v[nproj + i]? = some (nproj : R)) := by
  refine ⟨?_, ?_, ?_, ?_⟩
  · rintro v rfl hv; exact if_pos hv
  · intro v hv
    cases w with
    | none =>
      obtain rfl : defaultWeights nproj ncons = v := Except.ok.inj hv
      simp [defaultWeights]
    | some u =>
      by_cases hu : u.length ≠ nproj + ncons
      · rw [assignWeights, if_pos hu] at hv; cases hv
      · rw [assignWeights, if_neg hu] at hv
        obtain rfl := Except.ok.inj hv
        exact not_not.1 hu
  · rintro v rfl hv; exact if_neg (not_not.2 hv)
  · rintro rfl
    refine ⟨_, rfl, fun i hi => ?_, fun i hi => ?_⟩
    · rw [defaultWeights, List.getElem?_append_left (by simpa using hi), List.getElem?_replicate, if_pos hi]
    · rw [defaultWeights, List.getElem?_append_right (by simp), List.length_replicate, Nat.add_sub_cancel_left, List.getElem?_replicate,
        if_pos hi]

/-- The errors of the assignment and of the constraints are the errors of the objective. -/
theorem C50_refused (p : Proj R) {st st' : Store R} {x : List R} {e : PyErr} (nrm : Bool)
    (h : assignParams p.sys.accept p.sel st x = (st', some e)) :
    p.objective st x true nrm = .error e ∧ p.jacobian st x true nrm = .error e := by
  rw [Proj.objective, Proj.jacobian, assignIf_error p.sys p.sel h]
  exact ⟨rfl, rfl⟩

/-! ## The norm constraint is such a constraint -/

theorem normOne_at {p : Proj R} {st0 st : Store R} (he : EnergyApart p st0) {y : List R} (ha : At p st0 y st) :
    normOne p.sys st p.ref = normOne p.sys (assignParams p.sys.accept p.sel st0 y).1 p.ref := by
  conv_lhs => rw [at_eq ha]
  exact (energyOne_update he _ _).2

theorem C50_norm_constraint_value {p : Proj R} {st0 : Store R} (h : Valid st0 p.sel) (hacc : Accepts p.sys p.sel st0) (he : EnergyApart p st0) :
    ConsValue p st0 (normCons p.sys p.sel p.ref) fun y => normOne p.sys (assignParams p.sys.accept p.sel st0 y).1 p.ref - 1 := by
  intro st hs y hy
  obtain ⟨s1, e1, a1⟩ := assign_at h hacc hs hy
  refine ⟨s1, a1, ?_⟩
  rw [normCons]
  simp only [normObjective, assignIf_ok p.sys p.sel e1, bind, Except.bind, pure, Except.pure]
  rw [normOne_at he a1]

end

/-! ## The jacobian -/

/-- the derivatives do not depend on the container of the energy either -/
structure DerivApart (p : Proj ℝ) : Prop where
  overlap : ∀ st v m c k, p.sys.dOverlap (Function.update st p.energy v) m c k = p.sys.dOverlap st m c k
  integral : ∀ st v m c k, p.sys.dIntegral (Function.update st p.energy v) m c k = p.sys.dIntegral st m c k

theorem dOlp_update {p : Proj ℝ} (hd : DerivApart p) (st : Store ℝ) (v : List ℝ) (m : ℕ) :
    dOlp p.sys p.sel (Function.update st p.energy v) m = dOlp p.sys p.sel st m := by
  have : p.sys.dOverlap (Function.update st p.energy v) m = p.sys.dOverlap st m := by
    funext c k; exact hd.overlap st v m c k
  rw [dOlp, dOlp, this]

theorem dInt_update {p : Proj ℝ} (hd : DerivApart p) (st : Store ℝ) (v : List ℝ) (m : ℕ) :
    dInt p.sys p.sel (Function.update st p.energy v) m = dInt p.sys p.sel st m := by
  have : p.sys.dIntegral (Function.update st p.energy v) m = p.sys.dIntegral st m := by
    funext c k; exact hd.integral st v m c k
  rw [dInt, dInt, this]

theorem dCoeffs_update {p : Proj ℝ} {st0 : Store ℝ} (he : EnergyApart p st0) (hd : DerivApart p) (st : Store ℝ) (v : List ℝ) (j : ℕ) :
    p.ref.dCoeffs p.sys p.sel (Function.update st p.energy v) j = p.ref.dCoeffs p.sys p.sel st j := by
  have h := he.ref
  cases hr : p.ref with
  | sds l => simp only [Ref.dCoeffs, dOlp_update hd]
  | ci w l => rw [Ref.dCoeffs, Ref.dCoeffs, Function.update_of_ne (h w l hr)]

theorem dNormOne_update {p : Proj ℝ} {st0 : Store ℝ} (he : EnergyApart p st0) (hd : DerivApart p) (st : Store ℝ) (v : List ℝ) (j : ℕ) :
    dNormOne p.sys p.sel (Function.update st p.energy v) p.ref j = dNormOne p.sys p.sel st p.ref j := by
  have e1 : p.sys.overlap (Function.update st p.energy v) = p.sys.overlap st := funext fun m => he.overlap st v m
  simp only [dNormOne, dCoeffs_update he hd, coeffs_update he, dOlp_update hd, e1]

theorem dEnergy_update {p : Proj ℝ} {st0 : Store ℝ} (he : EnergyApart p st0) (hd : DerivApart p) (st : Store ℝ) (v : List ℝ) (j : ℕ) :
    p.dEnergy (Function.update st p.energy v) j = p.dEnergy st j := by
  have e2 : p.sys.integral (Function.update st p.energy v) = p.sys.integral st := funext fun m => he.integral st v m
  simp only [Proj.dEnergy, dCoeffs_update he hd, coeffs_update he, dNormOne_update he hd, dInt_update hd, e2, (energyOne_update he st v).1,
    (energyOne_update he st v).2]

theorem energyUsed_slope {p : Proj ℝ} {st : Store ℝ} (h : Valid st p.sel) (hc : Correct p.sys st)
    (hl : (st p.energy).length = 1) (hn : p.energyType = .compute → normOne p.sys st p.ref ≠ 0) {j c k : ℕ}
    (hs : (slots p.sel)[j]? = some (c, k)) :
    HasDerivAt (fun t => energyUsed p (move st c k t)) (p.dEnergy st j) ((st c).getD k 0) := by
  have hnc : p.energyType ≠ .compute → HasDerivAt (fun t => (move st c k t p.energy).getD 0 0)
      (if (getItem p.sel p.energy).length > 0 ∧ j ∈ getItem (indicesObjective p.sel 0) p.energy then (1 : ℝ) else 0) ((st c).getD k 0) := by
    intro _
    refine (hasDeriv_move st c k p.energy 0 (slot_valid h hs).2).congr_deriv ?_
    have hm := mem_objInds h.1 hs p.energy
    by_cases hce : p.energy = c
    · have hk0 : 0 = k := by
        have := (slot_valid h hs).2
        rw [← hce, hl] at this; omega
      have hpos : (getItem p.sel p.energy).length > 0 := by
        rw [hce]; exact List.length_pos_of_mem (slot_valid h hs).1
      rw [if_pos ⟨hce, hk0⟩, if_pos ⟨hpos, hm.2 hce⟩]
    · rw [if_neg (fun hh => hce hh.1), if_neg (fun hh => hce (hm.1 hh.2))]
  cases ht : p.energyType with
  | compute =>
    simp only [energyUsed, Proj.dEnergy, ht]
    refine (hasDeriv_energyOne hc h hs p.ref (hn ht)).congr_deriv ?_
    rw [dEnergyOne]
    ring
  | fixed => simp only [energyUsed, Proj.dEnergy, ht]; exact hnc (by rw [ht]; simp)
  | «variable» => simp only [energyUsed, Proj.dEnergy, ht]; exact hnc (by rw [ht]; simp)

/-- row `m` of the jacobian -/
noncomputable def resRow (p : Proj ℝ) (st : Store ℝ) (m : ℕ) : ℕ → ℝ := fun j =>
  dInt p.sys p.sel st m j - energyUsed p st * dOlp p.sys p.sel st m j - p.dEnergy st j * p.sys.overlap st m

theorem residual_slope {p : Proj ℝ} {st : Store ℝ} (h : Valid st p.sel) (hc : Correct p.sys st)
    (hl : (st p.energy).length = 1) (hn : p.energyType = .compute → normOne p.sys st p.ref ≠ 0) {j c k : ℕ}
    (hs : (slots p.sel)[j]? = some (c, k)) (m : ℕ) :
    HasDerivAt (fun t => residual p (move st c k t) m) (resRow p st m j) ((st c).getD k 0) := by
  have h1 := (hasDeriv_int hc h hs m).fun_sub ((energyUsed_slope h hc hl hn hs).fun_mul (hasDeriv_olp hc h hs m))
  refine h1.congr_deriv ?_
  simp only [move_self]
  rw [resRow]; ring

theorem jacobian_ok {p : Proj ℝ} {st0 st : Store ℝ} (h : Valid st0 p.sel) (hacc : Accepts p.sys p.sel st0) (he : EnergyApart p st0)
    (hd : DerivApart p) {x : List ℝ} (hx : x.length = activeNparams p.sel) (G : Cons ℝ → ℕ → ℝ)
    (hG : ∀ c ∈ p.cons, ConsGrad p st0 c x (G c)) (assign nrm : Bool) (hn : nrm = true → ∀ st, p.sys.normalize st p.ref = st)
    (hs : if assign then SameOff p st0 st else At p st0 x st) :
    ∃ st', At p st0 x st' ∧ p.jacobian st x assign nrm = .ok (st', List.zipWith (fun f w => fun j => f j * w)
      (p.pspace.map (resRow p (assignParams p.sys.accept p.sel st0 x).1) ++ p.cons.map G) p.weights) := by
  obtain ⟨s1, e1, a1⟩ : ∃ s1, assignIf p.sys p.sel assign st x = .ok s1 ∧ At p st0 x s1 := by
    cases assign with
    | false => exact ⟨st, rfl, hs⟩
    | true =>
      obtain ⟨s1, e1, a1⟩ := assign_at h hacc hs hx
      exact ⟨s1, assignIf_ok p.sys p.sel e1, a1⟩
  have hnorm : normalizeIf p.sys nrm s1 p.ref = s1 := by
    rw [normalizeIf]
    cases nrm with
    | false => rfl
    | true => exact hn rfl s1
  obtain ⟨b1, b2⟩ := energyOf_at he a1
  obtain ⟨s2, a2, e2⟩ := runCons_ok h G p.cons (f := Cons.gradient) (y := x) (fun c hc st hst => hG c hc st hst) b2
  refine ⟨s2, a2, ?_⟩
  simp only [Proj.jacobian, e1, bind, Except.bind, hnorm, e2, pure, Except.pure]
  congr 3
  congr 1
  refine List.map_congr_left fun m _ => ?_
  funext j
  rw [b1, resRow]
  have q := at_eq b2
  have q1 := at_eq a1
  rw [q, dInt_update hd, dOlp_update hd, he.overlap]
  rw [q1, dEnergy_update he hd]

/-- The jacobian is the derivative of the objective: both succeed, have as many rows as there are equations, and the entry `j` of row `i`
is the derivative of entry `i` with respect to entry `j` of the vector. -/
def IsJacobian (p : Proj ℝ) (x : List ℝ) (objective : List ℝ → Except PyErr (Store ℝ × List ℝ))
    (jacobian : List ℝ → Except PyErr (Store ℝ × List (ℕ → ℝ))) : Prop :=
  ∃ st' rows, jacobian x = .ok (st', rows) ∧ rows.length = p.numEqns ∧ ∀ j < activeNparams p.sel, ∃ v : ℝ → List ℝ,
    (∀ t, (∃ st'', objective (x.set j t) = .ok (st'', v t)) ∧ (v t).length = p.numEqns) ∧
    ∀ i, HasDerivAt (fun t => (v t).getD i 0) (rows.getD i (fun _ => 0) j) (x.getD j 0)

/-- what is asked of the constraints: value, gradient, and the gradient is the derivative of the value -/
def GoodCons (p : Proj ℝ) (st0 : Store ℝ) (x : List ℝ) (c : Cons ℝ) : Prop :=
  ∃ f g, ConsValue p st0 c f ∧ ConsGrad p st0 c x g ∧ ∀ j < activeNparams p.sel, HasDerivAt (fun t => f (x.set j t)) (g j) (x.getD j 0)

theorem isJacobian_of {p : Proj ℝ} {st0 st1 : Store ℝ} (h : Valid st0 p.sel) (hacc : Accepts p.sys p.sel st0) (he : EnergyApart p st0)
    (hd : DerivApart p) {x : List ℝ} (hx : assignParams p.sys.accept p.sel st0 x = (st1, none)) (hc : Correct p.sys st1)
    (hn : p.energyType = .compute → normOne p.sys st1 p.ref ≠ 0) (hw : p.weights.length = p.numEqns)
    (hcons : ∀ c ∈ p.cons, GoodCons p st0 x c) (an nn oa : Bool) (so sj : Store ℝ)
    (hoa : oa = true → ∀ st, p.sys.normalize st p.ref = st) (hnn : nn = true → ∀ st, p.sys.normalize st p.ref = st)
    (hso : SameOff p st0 so) (hsj : if an then SameOff p st0 sj else At p st0 x sj) :
    IsJacobian p x (p.objective so · true oa) (p.jacobian sj · an nn) := by
  choose! F G hF hG hFG using hcons
  obtain ⟨hl, -, hv1, hlen, -⟩ := C47_assign p.sys.accept h hx
  obtain ⟨s', a', e'⟩ := jacobian_ok h hacc he hd hl G hG an nn hnn hsj
  refine ⟨s', _, e', by simp [hw, Proj.numEqns], fun j hj => ?_⟩
  obtain ⟨c, k, hs⟩ := slot_exists hj
  have hm := assign_move (accept := p.sys.accept) h hacc hl hs
  rw [hx] at hm
  have hjx : x.getD j 0 = (st1 c).getD k 0 := by
    obtain ⟨s1, e1, -, -, p1⟩ := assign_ok (accept := p.sys.accept) h hacc hl
    rw [hx] at e1
    obtain rfl : st1 = s1 := congrArg Prod.fst e1
    rw [List.getD_eq_getElem?_getD, ← p1 _ _ _ hs, ← List.getD_eq_getElem?_getD]
  refine ⟨fun t => List.zipWith (· * ·) (p.pspace.map (residual p (move st1 c k t)) ++ p.cons.map fun c => F c (x.set j t)) p.weights,
    fun t => ⟨?_, by simp [hw, Proj.numEqns]⟩, fun i => ?_⟩
  · obtain ⟨s2, -, e2⟩ := objective_ok h hacc he hso F hF (y := x.set j t) (by simpa using hl) hoa
    refine ⟨s2, ?_⟩
    simp only [hm t] at e2
    exact e2
  · rw [hx]
    by_cases hi : i < p.numEqns
    · have hwi : i < p.weights.length := by omega
      have key : ∀ {α β : Type} (f : α → ℝ → β) (a : List α) (d : β), a.length = p.numEqns → ∀ (ha : i < a.length),
          (List.zipWith f a p.weights).getD i d = f a[i] p.weights[i] := by
        intro α β f a d hal ha
        rw [List.getD_eq_getElem _ _ (by rw [List.length_zipWith]; omega), List.getElem_zipWith]
      have l1 : ∀ t, (p.pspace.map (residual p (move st1 c k t)) ++ p.cons.map fun c => F c (x.set j t)).length = p.numEqns :=
        fun t => by simp [Proj.numEqns]
      have l2 : (p.pspace.map (resRow p st1) ++ p.cons.map G).length = p.numEqns := by simp [Proj.numEqns]
      rw [key (fun f w => fun j => f j * w) _ _ l2 (by omega)]
      have e3 : (fun t => (List.zipWith (· * ·) (p.pspace.map (residual p (move st1 c k t)) ++ p.cons.map fun c => F c (x.set j t))
          p.weights).getD i 0) = fun t => (p.pspace.map (residual p (move st1 c k t)) ++ p.cons.map fun c => F c (x.set j t))[i]'(by
            rw [l1]; exact hi) * p.weights[i] := by
        funext t
        exact key (fun a b : ℝ => a * b) _ _ (l1 t) (by rw [l1]; exact hi)
      rw [e3]
      refine HasDerivAt.mul_const ?_ _
      by_cases hip : i < p.pspace.length
      · simp only [List.getElem_append_left (show i < (p.pspace.map _).length by simpa using hip), List.getElem_map]
        rw [hjx]
        exact residual_slope hv1 hc (by rw [hlen]; exact he.one) hn hs p.pspace[i]
      · have hic : i - p.pspace.length < p.cons.length := by rw [Proj.numEqns] at hi; omega
        simp only [List.getElem_append_right (show (p.pspace.map _).length ≤ i by simpa using hip), List.getElem_map, List.length_map]
        exact hFG _ (List.getElem_mem hic) j hj
    · have hlen1 : ∀ t, (List.zipWith (· * ·) (p.pspace.map (residual p (move st1 c k t)) ++ p.cons.map fun c => F c (x.set j t))
          p.weights).getD i 0 = 0 := fun t => List.getD_eq_default _ _ (by simp [hw, Proj.numEqns] at hi ⊢; omega)
      simp only [hlen1]
      rw [List.getD_eq_default _ _ (by simp [hw, Proj.numEqns] at hi ⊢; omega)]
      exact hasDerivAt_const _ _

/-- With `assign=True` the jacobian at `x` is the derivative of the objective at `x`, for all energy types, if normalization changes
nothing (or is not asked for). -/
theorem C50_jacobian_partial {p : Proj ℝ} {st st1 : Store ℝ} (h : Valid st p.sel) (hacc : Accepts p.sys p.sel st) (he : EnergyApart p st)
    (hd : DerivApart p) {x : List ℝ} (hx : assignParams p.sys.accept p.sel st x = (st1, none)) (hc : Correct p.sys st1)
    (hn : p.energyType = .compute → normOne p.sys st1 p.ref ≠ 0) (hw : p.weights.length = p.numEqns)
    (hcons : ∀ c ∈ p.cons, GoodCons p st x c) (oa nn : Bool)
    (hno : oa = true ∨ nn = true → ∀ st, p.sys.normalize st p.ref = st) :
    IsJacobian p x (p.objective st · true oa) (p.jacobian st · true nn) :=
  isJacobian_of h hacc he hd hx hc hn hw hcons true nn oa st st (fun h => hno (Or.inl h)) (fun h => hno (Or.inr h))
    (sameOff_self p st) (sameOff_self p st)

/-- With the default flags the jacobian is the derivative of the objective if the objective was evaluated at the same parameters just
before. -/
theorem C50_jacobian_after_objective_partial {p : Proj ℝ} {st st1 : Store ℝ} (h : Valid st p.sel) (hacc : Accepts p.sys p.sel st)
    (he : EnergyApart p st) (hd : DerivApart p) {x : List ℝ} (hx : assignParams p.sys.accept p.sel st x = (st1, none))
    (hc : Correct p.sys st1) (hn : p.energyType = .compute → normOne p.sys st1 p.ref ≠ 0) (hw : p.weights.length = p.numEqns)
    (hcons : ∀ c ∈ p.cons, GoodCons p st x c) (hno : ∀ st, p.sys.normalize st p.ref = st) :
    ∃ st' v, p.objective st x = .ok (st', v) ∧ IsJacobian p x (p.objective st' ·) (p.jacobian st' ·) := by
  have hcons' := hcons
  choose! F G hF hG hFG using hcons'
  have hl := (C47_assign p.sys.accept h hx).1
  obtain ⟨s2, a2, e2⟩ := objective_ok h hacc he (sameOff_self p st) F hF hl (nrm := true) (fun _ => hno)
  exact ⟨s2, _, e2, isJacobian_of h hacc he hd hx hc hn hw hcons false false true s2 s2 (fun _ => hno) (by simp)
    (sameOff_at h a2) a2⟩

/-- The norm constraint fulfils what the theorems ask of constraints. -/
theorem C50_norm_constraint {p : Proj ℝ} {st st1 : Store ℝ} (h : Valid st p.sel) (hacc : Accepts p.sys p.sel st) (he : EnergyApart p st)
    (hd : DerivApart p) {x : List ℝ} (hx : assignParams p.sys.accept p.sel st x = (st1, none)) (hc : Correct p.sys st1) :
    GoodCons p st x (normCons p.sys p.sel p.ref) := by
  obtain ⟨hl, -, hv1, -⟩ := C47_assign p.sys.accept h hx
  refine ⟨_, dNormOne p.sys p.sel st1 p.ref, C50_norm_constraint_value h hacc he, ?_, ?_⟩
  · intro s hs
    obtain ⟨s1, e1, a1⟩ := assign_at h hacc hs hl
    refine ⟨s1, a1, ?_⟩
    rw [normCons]
    simp only [normGradient, assignIf_ok p.sys p.sel e1, bind, Except.bind, pure, Except.pure]
    have q := at_eq a1
    rw [hx] at q
    congr 2
    funext j
    conv_lhs => rw [q]
    exact dNormOne_update he hd _ _ j
  · intro j hj
    obtain ⟨c, k, hs⟩ := slot_exists hj
    have hm := assign_move (accept := p.sys.accept) h hacc hl hs
    rw [hx] at hm
    have hjx : x.getD j 0 = (st1 c).getD k 0 := by
      obtain ⟨s1, e1, -, -, p1⟩ := assign_ok (accept := p.sys.accept) h hacc hl
      rw [hx] at e1
      obtain rfl : st1 = s1 := congrArg Prod.fst e1
      rw [List.getD_eq_getElem?_getD, ← p1 _ _ _ hs, ← List.getD_eq_getElem?_getD]
    simp only [hm, hjx]
    exact (hasDeriv_normOne hc hv1 hs p.ref).sub_const 1

/-! ## Least squares -/

/-- The objective is the sum of the squares of the system of equations, never negative, and zero exactly if all of them are zero; the
number of equations and `step_print` are as before. -/
theorem C51_objective {p : Proj ℝ} (s : Ls ℝ) {x : List ℝ} {st' : Store ℝ} {v : List ℝ} (h : p.objective s.store x = .ok (st', v)) :
    ∃ y, Ls.objective p s x = ({ s with store := st' }, .ok y) ∧ y = (v.map fun r => r * r).sum ∧ 0 ≤ y ∧ (y = 0 ↔ ∀ r ∈ v, r = 0) := by
  have hnn : ∀ l : List ℝ, 0 ≤ (l.map fun r => r * r).sum ∧ ((l.map fun r => r * r).sum = 0 ↔ ∀ r ∈ l, r = 0) := by
    intro l
    induction l with
    | nil => simp
    | cons a r ih =>
      rw [List.map_cons, List.sum_cons]
      have ha := mul_self_nonneg a
      refine ⟨add_nonneg ha ih.1, ?_⟩
      rw [add_eq_zero_iff_of_nonneg ha ih.1, ih.2, mul_self_eq_zero]
      simp
  refine ⟨_, ?_, rfl, hnn v⟩
  rw [Ls.objective, h]
  simp only [pow_two]

/-- An error of the system of equations is an error of the sum, and the number of equations stays that of the system. -/
theorem C51_failure {R : Type} [Field R] {p : Proj R} (s : Ls R) {x : List R} {e : PyErr} (h : p.objective s.store x = .error e) :
    (Ls.objective p s x).2 = .error e ∧ (Ls.gradient p s x).2 = .error e ∧
    (Ls.objective p s x).1.patched = true ∧ (Ls.gradient p s x).1.patched = true ∧ (Ls.gradient p s x).1.stepPrint = false := by
  rw [Ls.objective, Ls.gradient, h]
  exact ⟨rfl, rfl, rfl, rfl, rfl⟩

/-- The gradient is the derivative of the sum of squares, if normalization changes nothing; the number of equations and `step_print` are
as before. -/
theorem C51_gradient_partial {p : Proj ℝ} (s : Ls ℝ) {st1 : Store ℝ} (h : Valid s.store p.sel) (hacc : Accepts p.sys p.sel s.store)
    (he : EnergyApart p s.store) (hd : DerivApart p) {x : List ℝ} (hx : assignParams p.sys.accept p.sel s.store x = (st1, none))
    (hc : Correct p.sys st1) (hn : p.energyType = .compute → normOne p.sys st1 p.ref ≠ 0) (hw : p.weights.length = p.numEqns)
    (hcons : ∀ c ∈ p.cons, GoodCons p s.store x c) (hno : ∀ st, p.sys.normalize st p.ref = st) :
    ∃ st' g, Ls.gradient p s x = ({ s with store := st' }, .ok g) ∧ ∀ j < activeNparams p.sel, ∃ f : ℝ → ℝ,
      (∀ t, (Ls.objective p s (x.set j t)).2 = .ok (f t)) ∧ HasDerivAt f (g j) (x.getD j 0) := by
  have hcons' := hcons
  choose! F G hF hG hFG using hcons'
  have hl := (C47_assign p.sys.accept h hx).1
  obtain ⟨s2, a2, e2⟩ := objective_ok h hacc he (sameOff_self p s.store) F hF hl (nrm := true) (fun _ => hno)
  obtain ⟨s3, a3, e3⟩ := objective_ok h hacc he (sameOff_at h a2) F hF hl (nrm := true) (fun _ => hno)
  obtain ⟨v0, hv0⟩ : ∃ v0, List.zipWith (· * ·) (p.pspace.map (residual p (assignParams p.sys.accept p.sel s.store x).1) ++
    p.cons.map fun c => F c x) p.weights = v0 := ⟨_, rfl⟩
  rw [hv0] at e2 e3
  obtain ⟨s4, rows, e4, hlr, hj4⟩ := isJacobian_of h hacc he hd hx hc hn hw hcons false false true s.store s3 (fun _ => hno) (by simp)
    (sameOff_self p s.store) a3
  refine ⟨s4, fun j => 2 * (List.zipWith (fun x f => x * f j) v0 rows).sum, ?_, fun j hj => ?_⟩
  · rw [Ls.gradient, e2]
    simp only [e3, e4]
  · obtain ⟨v, hv, hdv⟩ := hj4 j hj
    refine ⟨fun t => ((v t).map fun r => r ^ 2).sum, fun t => ?_, ?_⟩
    · obtain ⟨⟨s5, e5⟩, -⟩ := hv t
      simp only at e5
      rw [Ls.objective, e5]
    · have hsum : ∀ t, ((v t).map fun r => r ^ 2).sum = ((List.range p.numEqns).map fun i => (v t).getD i 0 ^ 2).sum := by
        intro t
        have := dot_eq (v t) (v t) (hv t).2.le
        rw [dot, List.zipWith_self] at this
        simp only [pow_two]
        exact this
      have hv0' : v (x.getD j 0) = v0 := by
        obtain ⟨⟨s5, e5⟩, -⟩ := hv (x.getD j 0)
        have hxs : x.set j (x.getD j 0) = x := by
          have := congrFun (move_self (fun _ : ℕ => x) 0 j) 0
          rwa [move, Function.update_self] at this
        simp only [hxs, e2] at e5
        exact (congrArg Prod.snd (Except.ok.inj e5)).symm
      simp only [hsum]
      have h1 := hasDeriv_listSum (List.range p.numEqns) (f := fun i t => (v t).getD i 0 ^ 2)
        (f' := fun i => 2 * ((v (x.getD j 0)).getD i 0 * rows.getD i (fun _ => 0) j)) (t0 := x.getD j 0) fun i _ => by
          refine ((hdv i).fun_pow 2).congr_deriv ?_
          push_cast; ring
      refine h1.congr_deriv ?_
      rw [List.sum_map_mul_left, hv0']
      congr 1
      have hlv : v0.length = p.numEqns := by rw [← hv0']; exact (hv _).2
      have e6 := dot_eq v0 (rows.map fun f => f j) hlv.le
      rw [dot, List.zipWith_map_right] at e6
      rw [e6]
      congr 1
      refine List.map_congr_left fun i hi => ?_
      rw [List.mem_range] at hi
      rw [List.getD_eq_getElem _ _ (show i < rows.length by omega), List.getD_eq_getElem (rows.map _) _ (by simp; omega), List.getElem_map]

/-- a call of `objective` or of `gradient` -/
inductive LsCall (R : Type)
  | obj (x : List R)
  | grad (x : List R)

/-- the state after a call, failed or not -/
def lsStep {R : Type} [Field R] (p : Proj R) (s : Ls R) : LsCall R → Ls R
  | .obj x => (Ls.objective p s x).1
  | .grad x => (Ls.gradient p s x).1

/-- whether the call succeeds -/
def lsOk {R : Type} [Field R] (p : Proj R) (s : Ls R) : LsCall R → Bool
  | .obj x => (Ls.objective p s x).2.isOk
  | .grad x => (Ls.gradient p s x).2.isOk

/-- whether all calls of the history succeed -/
def lsAllOk {R : Type} [Field R] (p : Proj R) : Ls R → List (LsCall R) → Bool
  | _, [] => true
  | s, c :: r => lsOk p s c && lsAllOk p (lsStep p s c) r

theorem lsStep_ok {R : Type} [Field R] (p : Proj R) (s : Ls R) (c : LsCall R) (h : lsOk p s c = true) :
    (lsStep p s c).patched = s.patched ∧ (lsStep p s c).stepPrint = s.stepPrint := by
  cases c with
  | obj x =>
    rw [lsOk, Ls.objective] at h
    rw [lsStep, Ls.objective]
    cases e : p.objective s.store x with
    | error a => rw [e] at h; cases h
    | ok q => exact ⟨rfl, rfl⟩
  | grad x =>
    rw [lsOk, Ls.gradient] at h
    rw [lsStep, Ls.gradient]
    cases e : p.objective s.store x with
    | error a => rw [e] at h; cases h
    | ok q =>
      rw [e] at h
      simp only at h ⊢
      cases e2 : p.objective q.1 x with
      | error a => rw [e2] at h; cases h
      | ok q2 =>
        rw [e2] at h
        simp only at h ⊢
        cases e3 : p.jacobian q2.1 x with
        | error a => rw [e3] at h; cases h
        | ok q3 => exact ⟨rfl, rfl⟩

/-- As long as no call fails, the number of equations is 1 after every history of calls. -/
theorem C51_restored_partial {R : Type} [Field R] (p : Proj R) (s : Ls R) (hs : s.patched = false) (calls : List (LsCall R))
    (h : lsAllOk p s calls = true) :
    Ls.numEqns p (calls.foldl (lsStep p) s) = 1 ∧ (calls.foldl (lsStep p) s).stepPrint = s.stepPrint := by
  induction calls generalizing s with
  | nil => rw [List.foldl_nil, Ls.numEqns, hs]; exact ⟨rfl, rfl⟩
  | cons c r ih =>
    rw [lsAllOk, Bool.and_eq_true] at h
    obtain ⟨h1, h2⟩ := lsStep_ok p s c h.1
    obtain ⟨i1, i2⟩ := ih (lsStep p s c) (h1.trans hs) h.2
    exact ⟨i1, i2.trans h2⟩

theorem lsStep_patched {R : Type} [Field R] (p : Proj R) (s : Ls R) (c : LsCall R) (h : s.patched = true) : (lsStep p s c).patched = true := by
  cases c with
  | obj x =>
    rw [lsStep, Ls.objective]
    cases p.objective s.store x with
    | error a => rfl
    | ok q => exact h
  | grad x =>
    rw [lsStep, Ls.gradient]
    cases p.objective s.store x with
    | error a => rfl
    | ok q =>
      simp only
      cases p.objective q.1 x with
      | error a => rfl
      | ok q2 =>
        simp only
        cases p.jacobian q2.1 x with
        | error a => rfl
        | ok q3 => exact h

/-- After one failure (here: a vector of the wrong length) the number of equations is that of the system, whatever is called afterwards:
the claim that it is restored is false. -/
theorem C51_not_restored {R : Type} [Field R] (p : Proj R) (s : Ls R) (x : List R) (hx : x.length ≠ activeNparams p.sel)
    (calls : List (LsCall R)) :
    (Ls.objective p s x).2 = .error .valueError ∧
    Ls.numEqns p (calls.foldl (lsStep p) (lsStep p s (.obj x))) = p.pspace.length + p.cons.length := by
  have e := (C50_refused p true (C47_wrong_length p.sys.accept p.sel s.store x hx)).1
  have h := C51_failure (p := p) s e
  refine ⟨h.1, ?_⟩
  have hp : ∀ (cs : List (LsCall R)) (s : Ls R), s.patched = true → (cs.foldl (lsStep p) s).patched = true := by
    intro cs
    induction cs with
    | nil => intro s hs; exact hs
    | cons c r ih => intro s hs; exact ih _ (lsStep_patched p s c hs)
  have hq : (calls.foldl (lsStep p) (lsStep p s (.obj x))).patched = true := hp calls _ h.2.2.1
  rw [Ls.numEqns, hq]; rfl

/-! ## Cases -/

/-- the projections on both determinants, with the norm constraint -/
noncomputable def exProj (t : EnergyType) : Proj ℝ where
  sys := exSys
  sel := [(0, [0, 1]), (1, [0]), (2, [0])]
  pspace := [0, 1]
  ref := .sds [0, 1]
  energyType := t
  energy := 2
  cons := [normCons exSys [(0, [0, 1]), (1, [0]), (2, [0])] (.sds [0, 1])]
  weights := defaultWeights 2 1

noncomputable def exSt2 : Store ℝ := fun c => if c = 0 then [1, 1] else if c = 1 then [3] else if c = 2 then [7] else []

theorem exValid2 : Valid exSt2 [(0, [0, 1]), (1, [0]), (2, [0])] := by
  refine ⟨by decide, ?_⟩
  intro p hp
  simp only [List.mem_cons, List.not_mem_nil, or_false] at hp
  rcases hp with rfl | rfl | rfl
  all_goals
    refine ⟨by decide, ?_⟩
    intro i hi; simp at hi; simp [exSt2]; omega

theorem exApart (t : EnergyType) : EnergyApart (exProj t) exSt2 where
  one := rfl
  overlap := fun _ _ _ => by simp [exProj, exSys]
  integral := fun _ _ _ => by simp [exProj, exSys]
  ref := fun _ _ h => by cases h

theorem exDerivApart (t : EnergyType) : DerivApart (exProj t) where
  overlap := fun _ _ _ _ _ => by simp [exProj, exSys]
  integral := fun _ _ _ _ _ => by simp [exProj, exSys]

/-- all hypotheses hold for every energy type, with a constraint, at the parameters 2, 1, 5 and the energy 4 -/
example (t : EnergyType) : ∃ st1, assignParams (exProj t).sys.accept (exProj t).sel exSt2 [2, 1, 5, 4] = (st1, none) ∧
    Correct (exProj t).sys st1 ∧ normOne (exProj t).sys st1 (exProj t).ref ≠ 0 ∧ (exProj t).weights.length = (exProj t).numEqns ∧
    (∀ c ∈ (exProj t).cons, GoodCons (exProj t) exSt2 [2, 1, 5, 4] c) ∧ ∀ st, (exProj t).sys.normalize st (exProj t).ref = st := by
  have hacc : Accepts (exProj t).sys (exProj t).sel exSt2 := fun _ _ _ _ => rfl
  obtain ⟨st1, e, -, -, h3⟩ := assign_ok (accept := exSys.accept) exValid2 (fun _ _ _ _ => rfl) (x := [2, 1, 5, 4]) (by rfl)
  have e0 : exSys.overlap st1 0 = 2 := by
    show (st1 0).getD 0 0 = 2
    rw [List.getD_eq_getElem?_getD, h3 0 0 0 rfl]; rfl
  have e1 : exSys.overlap st1 1 = 1 := by
    show (st1 0).getD 1 0 = 1
    rw [List.getD_eq_getElem?_getD, h3 1 0 1 rfl]; rfl
  refine ⟨st1, e, exSys_correct st1, ?_, rfl, ?_, fun _ => rfl⟩
  · simp [exProj, normOne, dot, Ref.coeffs, Ref.dets, e0, e1]; norm_num
  · intro c hc
    obtain rfl : c = normCons exSys [(0, [0, 1]), (1, [0]), (2, [0])] (.sds [0, 1]) := by simpa [exProj] using hc
    exact C50_norm_constraint (p := exProj t) exValid2 hacc (exApart t) (exDerivApart t) e (exSys_correct st1)

/-! ## Default flags -/

/-- the system with the normalization of geminals, without constraints, computed energy, reference `0` -/
def exProjQ : Proj ℚ where
  sys := exNormSys
  sel := [(0, [0, 1])]
  pspace := [0, 1]
  ref := .sds [0]
  energyType := .compute
  energy := 2
  cons := []
  weights := [1, 1]

def exStQ : Store ℚ := fun c => if c = 0 then [1, 1] else if c = 1 then [3] else if c = 2 then [7] else []

/-- the entries of a jacobian -/
def jacAt (r : Except PyErr (Store ℚ × List (ℕ → ℚ))) (n : ℕ) : List (List ℚ) :=
  match r with
  | .ok (_, rows) => rows.map fun f => (List.range n).map f
  | .error _ => []

/-- the entries of the objective -/
def objAt (r : Except PyErr (Store ℚ × List ℚ)) : List ℚ := match r with | .ok (_, v) => v | .error _ => []

/-- By default `jacobian` does not assign the parameters it is given: at `2`, `1` it returns the jacobian of the parameters `1`, `1` that
were there before.  The claim that `jacobian(params)` is the derivative at `params` is false. -/
theorem C50_jacobian_default :
    jacAt (exProjQ.jacobian exStQ [2, 1]) 2 = [[0, 0], [2, -5]] ∧
    jacAt (exProjQ.jacobian exStQ [1, 1] true) 2 = [[0, 0], [2, -5]] ∧
    jacAt (exProjQ.jacobian exStQ [2, 1] true) 2 = [[0, 0], [5 / 4, -4]] := by decide +kernel

/-- If the wavefunction has a `normalize`, `objective` normalizes by default, `jacobian` does not.  The residual of the determinant `1`
at the parameters `2`, `b` is `1 - (3 + b / 2) * (b / 2)` (that of the normalized parameters `1`, `b / 2`), so its derivative with
respect to `b` is `-2` at `b = 1`; the jacobian gives `-4`, with `assign=True` and also right after the objective. -/
theorem C50_normalize :
    (∀ b : ℚ, objAt (exProjQ.objective exStQ [2, b]) = [0, 1 - (3 + b / 2) * (b / 2)]) ∧
    jacAt (exProjQ.jacobian exStQ [2, 1] true) 2 = [[0, 0], [5 / 4, -4]] ∧
    (∃ st v, exProjQ.objective exStQ [2, 1] = .ok (st, v) ∧ jacAt (exProjQ.jacobian st [2, 1]) 2 = [[0, 0], [5 / 4, -4]]) := by
  refine ⟨fun b => ?_, by decide +kernel, ⟨_, _, rfl, by decide +kernel⟩⟩
  have e1 : objAt (exProjQ.objective exStQ [2, b]) =
      [((3 * (2 / 2) + b / 2) - (2 / 2 * (3 * (2 / 2) + b / 2) + 0) / (2 / 2 * (2 / 2) + 0) * (2 / 2)) * 1,
        (2 / 2 - (2 / 2 * (3 * (2 / 2) + b / 2) + 0) / (2 / 2 * (2 / 2) + 0) * (b / 2)) * 1] := rfl
  rw [e1]
  norm_num

/-- The constraints are evaluated at the parameters before the normalization: the norm constraint of the normalized wavefunction at `2`,
`1` is `3`, not zero. -/
theorem C50_constraint_raw :
    objAt (({ exProjQ with cons := [normCons exNormSys [(0, [0, 1])] (.sds [0])], weights := [1, 1, 1] } : Proj ℚ).objective exStQ [2, 1]) =
      [0, -3 / 4, 3] ∧
    normOne exNormSys (exNormSys.normalize (assignParams exNormSys.accept [(0, [0, 1])] exStQ [2, 1]).1 (.sds [0])) (.sds [0]) = 1 := by
  decide +kernel

end Fanpy.Props
