import Verif.Spec.FanptRun
import Verif.Props.PyciIface
import Verif.Props.FanCIOptimize
import Verif.Props.FANPTUpdate

namespace Fanpy.FanptRun
open Fanpy.FanCI Fanpy.FanBase Fanpy.PyciIface Fanpy.FANPT Fanpy.Props

variable {R I : Type}

theorem setEnergy_mask {s : Iface R I} {M : List Bool} {a : Bool} (b : Bool) (h : s.obj.mask = M ++ [a]) :
    (setEnergy b s).obj.mask = M ++ [b] := by
  simp [setEnergy, h, List.set_append]

theorem mask_split {s : Iface R I} (h : s.obj.mask ≠ []) : ∃ M a, s.obj.mask = M ++ [a] :=
  ⟨_, _, (List.dropLast_append_getLast h).symm⟩

theorem forSolve_mask {s : Iface R I} {M : List Bool} {a active : Bool} (h : s.obj.mask = M ++ [a]) (ha : active = true → a = true) :
    (forSolve active s).obj.mask = M ++ [true] := by
  cases active with
  | true => rw [ha rfl] at h; exact h
  | false => exact setEnergy_mask true h

theorem afterSolve_mask {s : Iface R I} {M : List Bool} {active : Bool} (h : s.obj.mask = M ++ [true]) :
    (afterSolve active s).obj.mask = M ++ [active] := by
  cases active with
  | true => exact h
  | false => exact setEnergy_mask false h

theorem forSolve_obj (active : Bool) (s : Iface R I) :
    (forSolve active s).obj.ham = s.obj.ham ∧ (forSolve active s).obj.opHam = s.obj.opHam ∧
      (forSolve active s).obj.nparam = s.obj.nparam ∧ (forSolve active s).obj.mask.length = s.obj.mask.length := by
  cases active <;> simp [forSolve, setEnergy]

theorem afterSolve_obj (active : Bool) (s : Iface R I) :
    (afterSolve active s).obj.ham = s.obj.ham ∧ (afterSolve active s).obj.opHam = s.obj.opHam := by
  cases active <;> simp [afterSolve, setEnergy]

/-! ## Interfaces that are alike -/

theorem Alike.refl (active : Bool) (s : Iface R I) : Alike active s s :=
  ⟨⟨rfl, rfl, rfl, rfl, rfl, rfl, rfl⟩, ⟨rfl, rfl, rfl, rfl, rfl⟩, rfl, rfl, fun _ => rfl⟩

theorem Alike.trans {active : Bool} {a b c : Iface R I} (h : Alike active a b) (h' : Alike active b c) : Alike active a c := by
  obtain ⟨⟨a1, a2, a3, a4, a5, a6, a7⟩, ⟨b1, b2, b3, b4, b5⟩, m1, m2, m3⟩ := h
  obtain ⟨⟨a1', a2', a3', a4', a5', a6', a7'⟩, ⟨b1', b2', b3', b4', b5'⟩, m1', m2', m3'⟩ := h'
  exact ⟨⟨a1'.trans a1, a2'.trans a2, a3'.trans a3, a4'.trans a4, a5'.trans a5, a6'.trans a6, a7'.trans a7⟩,
    ⟨b1'.trans b1, b2'.trans b2, b3'.trans b3, b4'.trans b4, b5'.trans b5⟩, m1'.trans m1, m2'.trans m2, fun h => (m3' h).trans (m3 h)⟩

theorem setEnergy_alike (b : Bool) (s : Iface R I) : Alike false s (setEnergy b s) := by
  refine ⟨⟨rfl, rfl, rfl, rfl, rfl, rfl, rfl⟩, ⟨rfl, rfl, rfl, rfl, rfl⟩, ?_, by simp [setEnergy], by simp⟩
  rcases List.eq_nil_or_concat s.obj.mask with h | ⟨M, a, h⟩
  · simp [setEnergy, h]
  · rw [List.concat_eq_append] at h
    rw [setEnergy_mask b h, h]
    simp

theorem forSolve_alike (active : Bool) (s : Iface R I) : Alike active s (forSolve active s) := by
  cases active with
  | true => exact Alike.refl _ _
  | false => exact setEnergy_alike _ _

theorem afterSolve_alike (active : Bool) (s : Iface R I) : Alike active s (afterSolve active s) := by
  cases active with
  | true => exact Alike.refl _ _
  | false => exact setEnergy_alike _ _

theorem setPyciHam_alike (active : Bool) {s s' : Iface R I} {n : NewHam R I} (h : setPyciHam s n = .ok s') : Alike active s s' := by
  cases n <;> cases h <;> exact ⟨⟨rfl, rfl, rfl, rfl, rfl, rfl, rfl⟩, ⟨rfl, rfl, rfl, rfl, rfl⟩, rfl, rfl, fun _ => rfl⟩

/-- how the projection space of the objective is filled, and the number of projections, after `update_objective` -/
def fillOf (e : Proj I) : Fill := if e.seniority = some 0 then .seniority else .excitation

def nprojOf (e : Proj I) : ℕ :=
  min e.pspace.length (if e.seniority = some 0 then (e.nspin / 2).choose (e.nelec / 2)
    else (e.nspin / 2).choose (e.nelec - e.nelec / 2) * (e.nspin / 2).choose (e.nelec / 2))

/-- the interface that `update_objective` makes for a mask `m` -/
def rebuilt (s : Iface R I) (h : PHam R I) (m : List Bool) : Iface R I where
  eqn := { s.eqn with
    ham := ⟨h.one, h.two⟩, excOrders := none, consEqns := [1] }
  fanpyHam := ⟨h.one, h.two⟩
  energyNuc := h.ecore
  pyciHam := h
  opts := { s.opts with
    verbose := 4, kwargs := [] }
  nproj := nprojOf s.eqn
  nparam := m.length
  fill := fillOf s.eqn
  obj := {
    ham := h, opHam := h
    nUp := if s.eqn.seniority = some 0 then s.eqn.nelec / 2 else s.eqn.nelec - s.eqn.nelec / 2
    nDown := s.eqn.nelec / 2, fill := fillOf s.eqn, nproj := nprojOf s.eqn, nparam := m.length, mask := m
    constraints := objConstraints { s.opts with
      verbose := 4, kwargs := [] }
    kwargs := [] }

theorem updateObjective_eq (s : Iface R I) (h : PHam R I) :
    updateObjective s (.inl h) = if s.opts.constraints ≠ none then .error .typeError
      else if s.eqn.weights ≠ s.eqn.pspace.length + 1 then .error .valueError else .ok (rebuilt s h s.obj.mask) := by
  cases hc : s.opts.constraints with
  | some d =>
    rw [if_pos (by simp)]
    exact (C110_update_disagrees s (.inl h)).1 (by simp [hc])
  | none =>
    rw [if_neg (by simp)]
    by_cases hw : s.eqn.weights = s.eqn.pspace.length + 1
    · rw [if_neg (by simpa using hw)]
      have hm : ∀ m', objMask s.opts.legacy (.array m') = .ok m' := fun m' => by
        cases s.opts.legacy <;> simp [objMask, makeMask]
      have hmin : ∀ a b : ℕ, (if a > b then b else a) = min a b := fun a b => by split <;> omega
      unfold updateObjective mkEqn
      rw [hc]
      simp only [assignConstraints, assignWeights, bind, Except.bind, pure, Except.pure, List.sum_cons, List.sum_nil, add_zero]
      rw [if_neg (by simpa using hw)]
      simp only [construct, maxNproj, bind, Except.bind, pure, Except.pure, maskOf, build, List.isEmpty_nil, Bool.not_true,
        Bool.and_false, Bool.false_eq_true, if_false, hm, rebuilt, nprojOf, fillOf, hmin]
      by_cases hs : s.eqn.seniority = some 0 <;> simp [hs, hc, maskLen]
    · rw [if_pos hw]
      unfold updateObjective mkEqn
      rw [hc]
      simp only [assignConstraints, assignWeights, bind, Except.bind, pure, Except.pure, List.sum_cons, List.sum_nil, add_zero]
      rw [if_pos hw]

theorem rebuilt_alike {active : Bool} {s s' : Iface R I} (h : Alike active s s') (ham : PHam R I) (m : List Bool) :
    rebuilt s' ham m = rebuilt s ham m := by
  obtain ⟨⟨a1, a2, a3, a4, a5, a6, a7⟩, ⟨b1, b2, b3, b4, b5⟩, _⟩ := h
  have e1 : ({ s'.eqn with
    ham := ⟨ham.one, ham.two⟩, excOrders := none, consEqns := [1] } : Proj I) = { s.eqn with
    ham := ⟨ham.one, ham.two⟩, excOrders := none, consEqns := [1] } := by
    rw [Proj.mk.injEq]
    exact ⟨a1, a2, a3, rfl, a4, a5, a6, rfl, rfl, a7⟩
  have e2 : ({ s'.opts with
    verbose := 4, kwargs := [] } : Opts R) = { s.opts with
    verbose := 4, kwargs := [] } := by
    rw [Opts.mk.injEq]
    exact ⟨b1, b2, b3, b4, b5, rfl, rfl⟩
  have e3 : nprojOf s'.eqn = nprojOf s.eqn := by rw [nprojOf, nprojOf, a1, a2, a3, a6]
  have e4 : fillOf s'.eqn = fillOf s.eqn := by rw [fillOf, fillOf, a3]
  rw [rebuilt, rebuilt, e1, e2, e3, e4, a1, a3]

theorem alike_rebuilt (active : Bool) (s : Iface R I) (h : PHam R I) : Alike active s (rebuilt s h s.obj.mask) :=
  ⟨⟨rfl, rfl, rfl, rfl, rfl, rfl, rfl⟩, ⟨rfl, rfl, rfl, rfl, rfl⟩, rfl, rfl, fun _ => rfl⟩

theorem forSolve_rebuilt {active : Bool} {s s' : Iface R I} (h : Alike active s s') (ham : PHam R I) :
    forSolve active (rebuilt s' ham s'.obj.mask) = forSolve active (rebuilt s ham s.obj.mask) := by
  rw [rebuilt_alike h]
  cases active with
  | true => rw [h.2.2.2.2 rfl]
  | false =>
    have e : s'.obj.mask.set (s'.obj.mask.length - 1) true = s.obj.mask.set (s.obj.mask.length - 1) true := by
      obtain ⟨_, _, m1, m2, _⟩ := h
      rcases List.eq_nil_or_concat s.obj.mask with e | ⟨M, a, e⟩
      · rw [e] at m2 ⊢
        rw [List.length_eq_zero_iff.1 m2]
      · rw [List.concat_eq_append] at e
        rcases List.eq_nil_or_concat s'.obj.mask with e' | ⟨M', a', e'⟩
        · rw [e', e] at m2; simp at m2
        · rw [List.concat_eq_append] at e'
          rw [e, e'] at m1 ⊢
          simp only [List.dropLast_concat] at m1
          simp [m1, List.set_append]
    have l : s'.obj.mask.length = s.obj.mask.length := h.2.2.2.1
    rw [l] at e
    simp only [forSolve, setEnergy, rebuilt, Bool.false_eq_true, if_false, e, l]

theorem updateObjective_alike {active : Bool} {s s' : Iface R I} {h : PHam R I} (hu : updateObjective s (.inl h) = .ok s') :
    Alike active s s' := by
  rw [updateObjective_eq] at hu
  split_ifs at hu
  rw [← Except.ok.inj hu]
  exact alike_rebuilt _ _ _

theorem updateObjective_obj {s s' : Iface R I} {h : PHam R I} (hu : updateObjective s (.inl h) = .ok s') :
    s'.obj.ham = h ∧ s'.obj.opHam = h ∧ s'.obj.mask = s.obj.mask ∧ s'.obj.nparam = s.obj.mask.length := by
  rw [updateObjective_eq] at hu
  split_ifs at hu
  rw [← Except.ok.inj hu]
  exact ⟨rfl, rfl, rfl, rfl⟩

section
variable [Field R]

theorem solveStep_alike (X : Ext R I) (active : Bool) (s : Iface R I) (g : List R) : Alike active s (solveStep X active s g).1 := by
  rw [solveStep]
  split_ifs
  · exact forSolve_alike _ _
  · split
    · exact forSolve_alike _ _
    · exact (forSolve_alike _ _).trans (afterSolve_alike _ _)

theorem solveStep_congr (X : Ext R I) (active : Bool) {s s' : Iface R I} (g : List R) (h : forSolve active s' = forSolve active s) :
    solveStep X active s' g = solveStep X active s g := by
  rw [solveStep, solveStep, h]

/-- what a solution of the optimizer leaves -/
theorem solveStep_ok {X : Ext R I} {active : Bool} {s s' : Iface R I} {g : List R} {t : List (FanObj R I × List R)} {x p : List R}
    (h : solveStep X active s g = (s', t, .ok (x, p))) :
    g.length = s.obj.nparam ∧ X.solve (forSolve active s).obj g = .ok x ∧ s' = afterSolve active (forSolve active s) ∧
      t = [((forSolve active s).obj, g)] ∧ p = scatter (forSolve active s).obj.mask g x := by
  rw [solveStep] at h
  split_ifs at h with hg
  · simp at h
  · rw [not_not] at hg
    split at h
    · simp at h
    · rename_i x' hx
      simp only [Prod.mk.injEq, Except.ok.injEq] at h
      obtain ⟨rfl, rfl, rfl, rfl⟩ := h
      exact ⟨hg.trans (forSolve_obj active s).2.2.1, hx, rfl, rfl, rfl⟩

/-- what an exception of the optimizer leaves -/
theorem solveStep_error {X : Ext R I} {active : Bool} {s s' : Iface R I} {g : List R} {t : List (FanObj R I × List R)} {e : PyErr}
    (h : solveStep X active s g = (s', t, .error e)) :
    s' = forSolve active s ∧ ((t = [] ∧ g.length ≠ s.obj.nparam ∧ e = .valueError) ∨ (t = [((forSolve active s).obj, g)] ∧
      g.length = s.obj.nparam ∧ X.solve (forSolve active s).obj g = .error e)) := by
  rw [solveStep] at h
  split_ifs at h with hg
  · simp only [Prod.mk.injEq, Except.error.injEq] at h
    rw [(forSolve_obj active s).2.2.1] at hg
    exact ⟨h.1.symm, .inl ⟨h.2.1.symm, hg, h.2.2.symm⟩⟩
  · rw [not_not, (forSolve_obj active s).2.2.1] at hg
    split at h
    · rename_i e' he
      simp only [Prod.mk.injEq, Except.error.injEq] at h
      obtain ⟨rfl, rfl, rfl⟩ := h
      exact ⟨rfl, .inr ⟨rfl, hg, he⟩⟩
    · simp at h

end

section
variable [Field R] [LinearOrder R] [AddCommGroup I] [Module R I]

theorem ptStep_alike (X : Ext R I) (c : Cfg R I) (s : Iface R I) (p : List R) (l l' : R) (active : Bool) :
    Alike active s (ptStep X c s p l l').1 := by
  have h := fun s1 => setPyciHam_alike active (s := s) (s' := s1) (n := .pyci (linearComb c.ham1 c.ham0 l (1 - l)))
  rw [ptStep]
  split_ifs
  · exact Alike.refl _ _
  · split
    · exact Alike.refl _ _
    · rename_i s1 hs
      split_ifs
      · exact h _ hs
      · split
        · exact h _ hs
        · split
          · exact h _ hs
          · exact h _ hs

theorem ptStep_ok {X : Ext R I} {c : Cfg R I} {s s' : Iface R I} {p g : List R} {l l' : R} (h : ptStep X c s p l l' = (s', .ok g)) :
    ∃ ds e, X.pt s'.obj p l l' = .ok (ds, e) ∧ g = addCorrections s.obj.mask.dropLast p.dropLast ds ++ [e] ∧
      s'.obj = { s.obj with
        ham := linearComb c.ham1 c.ham0 l (1 - l) } ∧ (c.energyActive = false → s.obj.mask.getLastD false = false) ∧ l < l' ∧ l' ≤ 1 := by
  rw [ptStep] at h
  split_ifs at h with h1
  · simp at h
  · split at h
    · simp at h
    · rename_i s1 hs
      split_ifs at h with h2
      · simp at h
      · split at h
        · simp at h
        · rename_i hu
          split at h
          · simp at h
          · rename_i ds e he
            simp only [Prod.mk.injEq, Except.ok.injEq] at h
            obtain ⟨rfl, rfl⟩ := h
            have hs' := Except.ok.inj hs
            have ho : s1.obj = { s.obj with
              ham := linearComb c.ham1 c.ham0 l (1 - l) } := by rw [← hs']
            have hm : s1.obj.mask = s.obj.mask := by rw [ho]
            refine ⟨ds, e, he, by rw [hm], ho, ?_, ?_⟩
            · intro ha
              rw [ha] at h1
              simpa using h1
            · rw [checkUpdater] at hu
              split_ifs at hu with h3
              exact h3

theorem loop_alike (X : Ext R I) (c : Cfg R I) : ∀ (ls : List (R × R)) (s : Iface R I) (p x : List R),
    Alike c.energyActive s (loop X c ls s p x).state
  | [], s, p, x => Alike.refl _ _
  | (l, l') :: ls, s, p, x => by
    rw [loop]
    have h1 := ptStep_alike X c s p l l' c.energyActive
    split
    · rename_i s1 e he
      rw [he] at h1; exact h1
    · rename_i s1 g hg
      rw [hg] at h1
      split
      · exact h1
      · rename_i s2 h2
        have h2' := h1.trans (updateObjective_alike h2)
        have h3 := solveStep_alike X c.energyActive s2 g
        split
        · rename_i s3 t e he
          rw [he] at h3
          exact h2'.trans h3
        · rename_i s3 t x' p' he
          rw [he] at h3
          exact (h2'.trans h3).trans (loop_alike X c ls s3 p' x')

theorem run_alike (X : Ext R I) (c : Cfg R I) (s : Iface R I) (guess : List R) (energy li lf : R) (steps : ℕ) :
    Alike c.energyActive s (run X c s guess energy li lf steps).state := by
  rw [run]
  split
  · exact Alike.refl _ _
  · rename_i s1 h1
    have h1' := updateObjective_alike (active := c.energyActive) h1
    have h2 := solveStep_alike X c.energyActive s1 (guess ++ [energy])
    split
    · rename_i s2 t e he
      rw [he] at h2
      exact h1'.trans h2
    · rename_i s2 t x p he
      rw [he] at h2
      split_ifs
      · exact h1'.trans h2
      · exact (h1'.trans h2).trans (loop_alike X c _ _ _ _)

theorem run_congr (X : Ext R I) (c : Cfg R I) {s s' : Iface R I} (h : Alike c.energyActive s s') (guess : List R) (energy li lf : R)
    (steps : ℕ) :
    (run X c s' guess energy li lf steps).solves = (run X c s guess energy li lf steps).solves ∧
    (run X c s' guess energy li lf steps).result = (run X c s guess energy li lf steps).result ∧
    ((run X c s guess energy li lf steps).solves ≠ [] →
      (run X c s' guess energy li lf steps).state = (run X c s guess energy li lf steps).state) := by
  have e1 : s'.opts.constraints = s.opts.constraints := h.2.1.2.2.1
  have e2 : s'.eqn.weights = s.eqn.weights := h.1.2.2.2.2.2.2
  have e3 : s'.eqn.pspace = s.eqn.pspace := h.1.2.2.2.2.2.1
  have hr := solveStep_congr X c.energyActive (guess ++ [energy]) (forSolve_rebuilt h c.ham0)
  rw [run, run, updateObjective_eq, updateObjective_eq, e1, e2, e3]
  by_cases h1 : s.opts.constraints ≠ none
  · rw [if_pos h1, if_pos h1]
    exact ⟨rfl, rfl, by simp⟩
  rw [if_neg h1, if_neg h1]
  by_cases h2 : s.eqn.weights ≠ s.eqn.pspace.length + 1
  · rw [if_pos h2, if_pos h2]
    exact ⟨rfl, rfl, by simp⟩
  rw [if_neg h2, if_neg h2]
  simp only [hr]
  exact ⟨trivial, trivial, fun _ => trivial⟩

theorem fills_scatter {M : List Bool} {g x : List R} (hg : g.length = M.length + 1) (hx : x.length = (M ++ [true]).count true) :
    Fills (M ++ [true]) g x (scatter (M ++ [true]) g x) :=
  ⟨scatter_length _ _ _, fun i hi => scatter_frozen _ _ _ i hi, fun i hi => scatter_active _ _ _ i (by simp [hg]) hx hi⟩

theorem last_scatter {M : List Bool} {g x : List R} (hg : g.length = M.length + 1) (hx : x.length = (M ++ [true]).count true) :
    x.getLast? = some ((scatter (M ++ [true]) g x).getLastD 0) := by
  have h1 := (fills_scatter hg hx).2.2 M.length (by simp)
  have h2 := (fills_scatter hg hx).1
  rw [List.take_left] at h1
  have h3 : x.length - 1 = M.count true := by rw [hx]; simp
  have h4 : 0 < x.length := by rw [hx]; simp
  rw [List.getLast?_eq_getElem?, h3, ← h1, List.getLastD_eq_getLast?, List.getLast?_eq_getElem?, h2, hg, Nat.add_sub_cancel]
  rw [h1, ← h3, List.getElem?_eq_getElem (by omega)]
  rfl

theorem loop_spec {X : Ext R I} (hX : Sized X) (c : Cfg R I) (M : List Bool) : ∀ (ls : List (R × R)) (s : Iface R I) (p x : List R)
    (t0 : FanObj R I × List R), s.obj.mask = M ++ [c.energyActive] → t0.1.mask = M ++ [true] → t0.2.length = M.length + 1 →
    X.solve t0.1 t0.2 = .ok x → p = scatter t0.1.mask t0.2 x → s.obj.opHam = t0.1.opHam → s.obj.ham = t0.1.opHam →
    (∃ k ≤ ls.length, (loop X c ls s p x).solves.map (fun t => t.1.ham) =
        (ls.take k).map (fun q => linearComb c.ham1 c.ham0 q.2 (1 - q.2)) ∧
      ∀ r, (loop X c ls s p x).result = .ok r → k = ls.length) ∧
    (∀ t ∈ (loop X c ls s p x).solves, t.1.opHam = t.1.ham ∧ t.1.mask = M ++ [true] ∧ t.1.nparam = M.length + 1 ∧
      t.2.length = M.length + 1) ∧
    (∀ (k : ℕ) t t', (t0 :: (loop X c ls s p x).solves)[k]? = some t → (loop X c ls s p x).solves[k]? = some t' →
      ∃ q : R × R, ls[k]? = some q ∧
        Follows X c.energyActive M (fun l => linearComb c.ham1 c.ham0 l (1 - l)) q.1 q.2 t t') ∧
    (∀ x' e, (loop X c ls s p x).result = .ok (x', e) → (loop X c ls s p x).state.obj.mask = M ++ [c.energyActive] ∧
      (∃ t, (t0 :: (loop X c ls s p x).solves).getLast? = some t ∧ X.solve t.1 t.2 = .ok x' ∧ x'.getLast? = some e ∧
        (loop X c ls s p x).state.obj.ham = t.1.opHam ∧ (loop X c ls s p x).state.obj.opHam = t.1.opHam) ∧
      ∀ q ∈ ls, q.1 < q.2 ∧ q.2 ≤ 1)
  | [], s, p, x, t0, hm, ht, hl, hs, hp, ho, hh => by
    have hx := hX.solve _ _ _ hs
    refine ⟨⟨0, le_rfl, rfl, fun _ _ => rfl⟩, by simp [loop], by simp [loop], ?_⟩
    intro x' e h
    rw [loop] at h
    simp only [Except.ok.injEq, Prod.mk.injEq] at h
    obtain ⟨rfl, rfl⟩ := h
    refine ⟨hm, ⟨t0, rfl, hs, ?_, hh, ho⟩, by simp⟩
    rw [ht] at hx
    rw [hp, ht]
    exact last_scatter hl hx
  | (l, l') :: ls, s, p, x, t0, hm, ht, hl, hs, hp, ho, hh => by
    have hx := hX.solve _ _ _ hs
    rw [ht] at hx
    have hfill : Fills t0.1.mask t0.2 x p := by rw [hp, ht]; exact fills_scatter hl hx
    rw [loop]
    split
    · exact ⟨⟨0, by simp, rfl, fun _ h => by simp at h⟩, by simp, by simp, fun _ _ h => by simp at h⟩
    · rename_i s1 g hg
      obtain ⟨ds, e, hpt, hgeq, hobj, hlast, hlt, hle⟩ := ptStep_ok hg
      split
      · exact ⟨⟨0, by simp, rfl, fun _ h => by simp at h⟩, by simp, by simp, fun _ _ h => by simp at h⟩
      · rename_i s2 hu
        obtain ⟨u1, u2, u3, u4⟩ := updateObjective_obj hu
        have hm1 : s1.obj.mask = M ++ [c.energyActive] := by rw [hobj]; exact hm
        have hm2 : (forSolve c.energyActive s2).obj.mask = M ++ [true] := forSolve_mask (u3.trans hm1) id
        obtain ⟨f1, f2, f3, f4⟩ := forSolve_obj c.energyActive s2
        have hpl : p.length = M.length + 1 := by rw [hfill.1, hl]
        have hds : ds.length = M.count true := by
          have := hX.pt _ _ _ _ _ _ hpt
          rw [hm1] at this
          simpa using this
        have hdl : s.obj.mask.dropLast = M := by rw [hm]; simp
        rw [hdl] at hgeq
        obtain ⟨a1, a2⟩ := C84_update M p.dropLast ds (by simp [hpl]) hds
        have hgl : g.length = M.length + 1 := by rw [hgeq]; simp [a1, hpl]
        have hgi : ∀ i < M.length, g[i]? = (addCorrections M p.dropLast ds)[i]? := by
          intro i hi
          rw [hgeq, List.getElem?_append_left (by rw [a1]; simp [hpl, hi])]
        have hpi : ∀ i < M.length, p.dropLast[i]? = p[i]? := by
          intro i hi
          rw [List.getElem?_dropLast, if_pos (by omega)]
        have hfol : Follows X c.energyActive M (fun l => linearComb c.ham1 c.ham0 l (1 - l)) l l' t0
            ((forSolve c.energyActive s2).obj, g) := by
          refine ⟨x, p, s1.obj, ds, e, hs, hfill, by rw [hobj], by rw [hobj]; exact ho, hm1, hpt, by rw [hgl, hpl], ?_, ?_, ?_⟩
          · change g[M.length]? = some e
            rw [hgeq, List.getElem?_append_right (by rw [a1]; simp [hpl])]
            simp [a1, hpl]
          · intro i hi hf
            change g[i]? = _
            rw [hgi i hi, (a2 i).1 hf, hpi i hi]
            apply hfill.2.1
            rw [ht]
            rw [List.getD_append _ _ _ _ hi]
            exact hf
          · intro i hi hf
            change g.getD i 0 = _
            have := (a2 i).2 hf
            rw [List.getD_eq_getElem?_getD, hgi i hi, ← List.getD_eq_getElem?_getD, this, List.getD_eq_getElem?_getD, hpi i hi,
              ← List.getD_eq_getElem?_getD]
        have hprob : (forSolve c.energyActive s2).obj.ham = linearComb c.ham1 c.ham0 l' (1 - l') ∧
            (forSolve c.energyActive s2).obj.opHam = (forSolve c.energyActive s2).obj.ham ∧
            (forSolve c.energyActive s2).obj.nparam = M.length + 1 :=
          ⟨f1.trans u1, by rw [f1, f2, u1, u2], by rw [f3, u4, hm1]; simp⟩
        split
        · rename_i s3 t er he
          obtain ⟨_, h | h⟩ := solveStep_error he
          · rw [h.1]
            exact ⟨⟨0, by simp, rfl, fun _ h => by simp at h⟩, by simp, by simp, fun _ _ h => by simp at h⟩
          · rw [h.1]
            refine ⟨⟨1, by simp, ?_, fun _ h => by simp at h⟩, ?_, ?_, fun _ _ h => by simp at h⟩
            · simp [hprob.1]
            · intro t' ht'
              rw [List.mem_singleton] at ht'
              rw [ht']
              exact ⟨hprob.2.1, hm2, hprob.2.2, hgl⟩
            · intro k t' t'' h1 h2
              cases k with
              | zero =>
                simp only [List.getElem?_cons_zero, Option.some.injEq] at h1 h2
                subst h1 h2
                exact ⟨_, rfl, hfol⟩
              | succ k => simp at h2
        · rename_i s3 t x1 p1 he
          obtain ⟨b1, b2, b3, b4, b5⟩ := solveStep_ok he
          obtain ⟨g1, g2⟩ := afterSolve_obj c.energyActive (forSolve c.energyActive s2)
          have ih := loop_spec hX c M ls s3 p1 x1 ((forSolve c.energyActive s2).obj, g)
            (by rw [b3]; exact afterSolve_mask hm2) hm2 hgl b2 b5 (by rw [b3, g2]) (by rw [b3, g1]; exact hprob.2.1.symm)
          rw [b4]
          obtain ⟨⟨k, k1, k2, k3⟩, i2, i3, i4⟩ := ih
          refine ⟨⟨k + 1, by simp [k1], ?_, fun r h => by simp [k3 r h]⟩, ?_, ?_, ?_⟩
          · simp [k2, hprob.1]
          · intro t' ht'
            rcases List.mem_cons.1 ht' with rfl | ht'
            · exact ⟨hprob.2.1, hm2, hprob.2.2, hgl⟩
            · exact i2 t' ht'
          · intro k t' t'' h1 h2
            cases k with
            | zero =>
              simp only [List.singleton_append, List.getElem?_cons_zero, Option.some.injEq] at h1 h2
              subst h1 h2
              exact ⟨_, rfl, hfol⟩
            | succ k =>
              simp only [List.singleton_append, List.getElem?_cons_succ] at h1 h2 ⊢
              exact i3 k t' t'' h1 h2
          · intro x' e' h
            obtain ⟨j1, ⟨t', j2, j3⟩, j4⟩ := i4 x' e' h
            refine ⟨j1, ⟨t', ?_, j3⟩, ?_⟩
            · rw [List.singleton_append, List.getLast?_cons_cons]; exact j2
            · intro q hq
              rcases List.mem_cons.1 hq with rfl | hq
              · exact ⟨hlt, hle⟩
              · exact j4 q hq

theorem solveStep_total {X : Ext R I} (hs : ∀ o g, ∃ x, X.solve o g = .ok x) (active : Bool) (s : Iface R I) (g : List R)
    (hg : g.length = s.obj.nparam) : ∃ s' t x, solveStep X active s g = (s', t, .ok (x, scatter (forSolve active s).obj.mask g x)) ∧
      X.solve (forSolve active s).obj g = .ok x ∧ s' = afterSolve active (forSolve active s) := by
  obtain ⟨x, hx⟩ := hs (forSolve active s).obj g
  refine ⟨_, [((forSolve active s).obj, g)], x, ?_, hx, rfl⟩
  rw [solveStep, if_neg, hx]
  rw [not_not, (forSolve_obj active s).2.2.1, hg]

theorem ptStep_total {X : Ext R I} (hp : ∀ o p l l', ∃ r, X.pt o p l l' = .ok r) (c : Cfg R I) (s : Iface R I) (p : List R) (l l' : R)
    (hm : s.obj.mask.getLastD false = c.energyActive) (hi : c.inorm = true → Name.det c.refSd ∈ s.obj.constraints)
    (hl : l < l') (hl' : l' ≤ 1) (ho : 0 ≤ usedOrder c s.obj) :
    ∃ s' g, ptStep X c s p l l' = (s', .ok g) := by
  have h1 : (!c.energyActive && s.obj.mask.getLastD false) = false := by rw [hm]; cases c.energyActive <;> rfl
  rw [ptStep, h1]
  rw [if_neg (by simp)]
  simp only [setPyciHam]
  rw [if_neg]
  · obtain ⟨⟨ds, e⟩, hr⟩ := hp { s.obj with
        ham := linearComb c.ham1 c.ham0 l (1 - l) } p l l'
    have hc : checkUpdater l l' (usedOrder c { s.obj with
        ham := linearComb c.ham1 c.ham0 l (1 - l) }) = .ok () := by
      rw [checkUpdater, if_neg (by simpa using ⟨hl, hl'⟩), if_neg]
      rw [not_lt]
      exact ho
    simp only [hc, hr]
    exact ⟨_, _, rfl⟩
  · simp only [Bool.and_eq_true, Bool.not_eq_true', decide_eq_false_iff_not, not_and, not_not]
    exact hi

theorem loop_total {X : Ext R I} (hX : Sized X) (hs : ∀ o g, ∃ x, X.solve o g = .ok x) (hp : ∀ o p l l', ∃ r, X.pt o p l l' = .ok r)
    (c : Cfg R I) (M : List Bool) (hi : c.inorm = false) (ho : 0 ≤ c.finalOrder) :
    ∀ (ls : List (R × R)) (s : Iface R I) (p x : List R), (∀ q ∈ ls, q.1 < q.2 ∧ q.2 ≤ 1) → s.obj.mask = M ++ [c.energyActive] →
      p.length = M.length + 1 → s.opts.constraints = none → s.eqn.weights = s.eqn.pspace.length + 1 →
      ∃ r, (loop X c ls s p x).result = .ok r
  | [], s, p, x, _, _, _, _, _ => ⟨_, rfl⟩
  | (l, l') :: ls, s, p, x, hq, hm, hl, hc, hw => by
    have hu : ∀ o : FanObj R I, 0 ≤ usedOrder c o := fun o => by
      rw [usedOrder]; split_ifs
      · exact le_rfl
      · exact ho
    obtain ⟨s1, g, h1⟩ := ptStep_total hp c s p l l' (by rw [hm]; simp) (by simp [hi]) (hq (l, l') (by simp)).1
      (hq (l, l') (by simp)).2 (hu _)
    obtain ⟨ds, e, hpt, hgeq, hobj, _⟩ := ptStep_ok h1
    have a1 := ptStep_alike X c s p l l' c.energyActive
    rw [h1] at a1
    have hm1 : s1.obj.mask = M ++ [c.energyActive] := by rw [hobj]; exact hm
    have hds : ds.length = M.count true := by
      have := hX.pt _ _ _ _ _ _ hpt
      rw [hm1] at this
      simpa using this
    have hgl : g.length = M.length + 1 := by
      have hdl : s.obj.mask.dropLast = M := by rw [hm]; simp
      rw [hdl] at hgeq
      rw [hgeq]
      simp [(C84_update M p.dropLast ds (by simp [hl]) hds).1, hl]
    have hc1 : s1.opts.constraints = none := a1.2.1.2.2.1.trans hc
    have hw1 : s1.eqn.weights = s1.eqn.pspace.length + 1 := by
      rw [show s1.eqn.weights = s.eqn.weights from a1.1.2.2.2.2.2.2, show s1.eqn.pspace = s.eqn.pspace from a1.1.2.2.2.2.2.1, hw]
    have h2 : updateObjective s1 (.inl (linearComb c.ham1 c.ham0 l' (1 - l'))) =
        .ok (rebuilt s1 (linearComb c.ham1 c.ham0 l' (1 - l')) s1.obj.mask) := by
      rw [updateObjective_eq, if_neg (by simpa using hc1), if_neg (by simpa using hw1)]
    generalize rebuilt s1 (linearComb c.ham1 c.ham0 l' (1 - l')) s1.obj.mask = s2 at h2
    obtain ⟨u1, u2, u3, u4⟩ := updateObjective_obj h2
    have a2 := updateObjective_alike (active := c.energyActive) h2
    obtain ⟨s3, t, x', h3, h4, h5⟩ := solveStep_total hs c.energyActive s2 g (by rw [hgl, u4, hm1]; simp)
    have a3 := solveStep_alike X c.energyActive s2 g
    rw [h3] at a3
    have a4 := a2.trans a3
    have hm2 : (forSolve c.energyActive s2).obj.mask = M ++ [true] := forSolve_mask (u3.trans hm1) id
    rw [loop, h1]
    simp only [h2, h3]
    refine loop_total hX hs hp c M hi ho ls s3 _ x' (fun q h => hq q (List.mem_cons_of_mem _ h)) ?_ ?_ ?_ ?_
    · rw [h5]; exact afterSolve_mask hm2
    · rw [scatter_length, hgl]
    · exact a4.2.1.2.2.1.trans hc1
    · rw [show s3.eqn.weights = s1.eqn.weights from a4.1.2.2.2.2.2.2, show s3.eqn.pspace = s1.eqn.pspace from a4.1.2.2.2.2.2.1, hw1]

end

end Fanpy.FanptRun
