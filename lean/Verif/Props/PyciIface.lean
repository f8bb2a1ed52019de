import Verif.Model.PyciIface
import Verif.Lemmas.DetCount
import Verif.Props.SdList

/-! # Property C110: the interface to PyCI -/

namespace Fanpy.Props
open Fanpy.PyciIface Fanpy.FanCI Fanpy.FanBase Fanpy.DetCount Fanpy.Spec

namespace PyciIface

variable {R I : Type}

theorem construct_some {e : Proj I} {en : R} {o : Opts R} {m : MaskIn} {s : Iface R I} (h : construct e en o m = .ok s) :
    ∃ mx obj, maxNproj e s.fill = .ok mx ∧ s.fill = (if e.seniority = some 0 then Fill.seniority else .excitation) ∧
      s.nproj = min e.pspace.length mx ∧
      build e ⟨en, e.ham.one, e.ham.two⟩ o s.fill s.nproj (maskOf e m) = .ok obj ∧
      s = ⟨e, e.ham, en, ⟨en, e.ham.one, e.ham.two⟩, o, s.nproj, maskLen (maskOf e m), s.fill, obj⟩ := by
  unfold construct at h
  simp only [bind, Except.bind, pure, Except.pure] at h
  split at h
  · cases h
  · rename_i mx hmx
    split at h
    · cases h
    · rename_i obj hobj
      have hs := Except.ok.inj h
      subst hs
      refine ⟨mx, obj, hmx, rfl, ?_, hobj, rfl⟩
      simp only
      split <;> omega

theorem build_some {e : Proj I} {h : PHam R I} {o : Opts R} {f : Fill} {np : ℕ} {m : MaskIn} {obj : FanObj R I}
    (hb : build e h o f np m = .ok obj) :
    (o.legacy = true → o.kwargs = []) ∧ objMask o.legacy m = .ok obj.mask ∧ obj.ham = h ∧ obj.opHam = h ∧
      obj.nUp = (if f = .seniority then e.nelec / 2 else e.nelec - e.nelec / 2) ∧
      obj.nDown = e.nelec / 2 ∧ obj.fill = f ∧ obj.nproj = np ∧ obj.nparam = maskLen m ∧
      obj.constraints = objConstraints o ∧ obj.kwargs = o.kwargs := by
  unfold build at hb
  split at hb
  · cases hb
  · rename_i hk
    split at hb
    · cases hb
    · rename_i mask hm
      have := Except.ok.inj hb
      subst this
      refine ⟨?_, hm, rfl, rfl, by cases f <;> rfl, rfl, rfl, rfl, rfl, rfl, rfl⟩
      intro hl
      rw [hl] at hk
      simpa using hk

/-- everything that the interface knows about the Hamiltonian agrees -/
def Consistent (s : Iface R I) : Prop :=
  s.pyciHam = ⟨s.energyNuc, s.fanpyHam.one, s.fanpyHam.two⟩ ∧ s.eqn.ham = s.fanpyHam ∧ s.obj.ham = s.pyciHam

/-- what can be done with an interface -/
inductive Op (R I : Type)
  | setPyci (h : NewHam R I)
  | setFanpy (h : NewHam R I)
  | update (h : PHam R I ⊕ FHam I)

/-- one operation -/
def step (s : Iface R I) : Op R I → Except PyErr (Iface R I)
  | .setPyci h => setPyciHam s h
  | .setFanpy h => setFanpyHam s h
  | .update h => updateObjective s h

/-- states that can be reached from the constructor -/
inductive Reach (e : Proj I) (en : R) (o : Opts R) (m : MaskIn) : Iface R I → Prop
  | init {s} : construct e en o m = .ok s → Reach e en o m s
  | next {s s' op} : Reach e en o m s → step s op = .ok s' → Reach e en o m s'

theorem updateObjective_some {s s' : Iface R I} {new : PHam R I ⊕ FHam I} (h : updateObjective s new = .ok s') :
    s.opts.constraints = none ∧ s.eqn.weights = s.eqn.pspace.length + 1 ∧
      construct { s.eqn with
          ham := new.elim (fun h => ⟨h.one, h.two⟩) id, excOrders := none, consEqns := [1] }
        (new.elim PHam.ecore fun _ => s.energyNuc)
        { s.opts with verbose := 4, kwargs := [] } (.array s.obj.mask) = .ok s' := by
  unfold updateObjective mkEqn at h
  cases hc : s.opts.constraints with
  | some d =>
    rw [hc] at h
    simp [assignConstraints, bind, Except.bind] at h
  | none =>
    rw [hc] at h
    simp only [assignConstraints, assignWeights, bind, Except.bind, pure, Except.pure, List.sum_cons, List.sum_nil,
      add_zero] at h
    by_cases hw : s.eqn.weights = s.eqn.pspace.length + 1
    · rw [if_neg (by simpa using hw)] at h
      refine ⟨rfl, hw, ?_⟩
      rw [← h]
      cases new <;> simp [hc]
    · rw [if_pos hw] at h
      simp at h

theorem step_consistent {s s' : Iface R I} {op : Op R I} (hs : Consistent s) (h : step s op = .ok s') :
    Consistent s' := by
  cases op with
  | setPyci n =>
    cases n with
    | pyci p => cases h; exact ⟨rfl, rfl, rfl⟩
    | fanpy f => cases h
    | other => cases h; exact hs
  | setFanpy n =>
    cases n with
    | pyci p => cases h
    | fanpy f => cases h; exact ⟨rfl, rfl, rfl⟩
    | other => cases h; exact hs
  | update n =>
    obtain ⟨_, _, hc⟩ := updateObjective_some h
    obtain ⟨mx, obj, _, _, _, hb, e⟩ := construct_some hc
    obtain ⟨_, _, e1, _⟩ := build_some hb
    rw [e]
    exact ⟨rfl, rfl, e1⟩

end PyciIface

open PyciIface

variable {R I : Type}

/-- C110. Whatever is done with an interface, the nuclear energy, the Hamiltonian of Fanpy, that of PyCI, that of the objective of
Fanpy and the attribute `ham` of the objective of FanCI have the same integrals and core energy. -/
theorem C110_consistent_partial (e : Proj I) (en : R) (o : Opts R) (m : MaskIn) (s : Iface R I) (h : Reach e en o m s) :
    s.pyciHam = ⟨s.energyNuc, s.fanpyHam.one, s.fanpyHam.two⟩ ∧ s.eqn.ham = s.fanpyHam ∧ s.obj.ham = s.pyciHam := by
  induction h with
  | init hc =>
    obtain ⟨mx, obj, _, _, _, hb, e'⟩ := construct_some hc
    obtain ⟨_, _, e1, _⟩ := build_some hb
    rw [e']
    exact ⟨rfl, rfl, e1⟩
  | next _ hs ih => exact step_consistent ih hs

/-- C110. Without excitation orders, the number of projections is that of the objective of Fanpy, but at most the number of
determinants with the electrons of the wavefunction of PyCI (with doubly occupied orbitals only, for seniority zero). -/
theorem C110_projections (e : Proj I) (en : R) (o : Opts R) (m : MaskIn) (s : Iface R I) (n : ℕ)
    (hn : e.nspin = 2 * n) (he : e.excOrders = none) (h : construct e en o m = .ok s) :
    s.nproj = min e.pspace.length (if e.seniority = some 0 then (pairDets n (e.nelec / 2)).card
      else (dets n (e.nelec - e.nelec / 2) (e.nelec / 2)).card) ∧
    s.obj.nproj = s.nproj ∧ s.obj.fill = (if e.seniority = some 0 then .seniority else .excitation) ∧
    s.obj.nDown = e.nelec / 2 ∧
    s.obj.nUp = (if e.seniority = some 0 then e.nelec / 2 else e.nelec - e.nelec / 2) := by
  obtain ⟨mx, obj, h1, h2, h3, hb, e'⟩ := construct_some h
  obtain ⟨_, _, _, _, b1, b2, b3, b4, _⟩ := build_some hb
  have eo : s.obj = obj := by rw [e']
  rw [eo, b1, b2, b3, b4, h3, h2]
  rw [h2] at h1
  simp only [maxNproj, he, hn, Nat.mul_div_cancel_left n (show 0 < 2 by norm_num)] at h1
  have h1 := Except.ok.inj h1
  rw [← h1, card_pairDets, card_dets]
  by_cases hs : e.seniority = some 0 <;> simp [hs]

/-- C110. With excitation orders, the number of projections is at most the number of determinants of spin zero, of at most the
seniority, at one of the orders of excitation from the ground state. -/
theorem C110_projections_orders (e : Proj I) (en : R) (o : Opts R) (m : MaskIn) (s : Iface R I) (orders : List ℕ)
    (he : e.excOrders = some orders) (ho : orders.Nodup ∧ 0 ∉ orders) (h : construct e en o m = .ok s) :
    ∃ g, Slater.ground e.nelec e.nspin = .ok g ∧
      s.nproj = min e.pspace.length ((Finset.range (2 ^ e.nspin)).filter fun x =>
        (occSet x).card = e.nelec ∧ (alphaSet x (e.nspin / 2)).card = (betaSet x (e.nspin / 2)).card ∧
        (∀ k ∈ e.seniority, ((symmDiff (alphaSet x (e.nspin / 2)) (betaSet x (e.nspin / 2))).card : ℤ) ≤ k) ∧
        (x = g ∨ excLevel g x ∈ orders)).card := by
  obtain ⟨mx, obj, h1, h2, h3, hb, e'⟩ := construct_some h
  simp only [maxNproj, he] at h1
  cases hL : SdList.sdList e.nelec e.nspin none (some orders) (some 0) e.seniority false with
  | error x => rw [hL] at h1; cases h1
  | ok L =>
    rw [hL] at h1
    have h1 := Except.ok.inj h1
    obtain ⟨g, hg, hnd, hmem, _⟩ := C14_sd_list _ _ _ _ _ _ L hL (by simpa using ho)
    refine ⟨g, hg, ?_⟩
    rw [h3, ← h1, ← List.toFinset_card_of_nodup hnd]
    congr 2
    ext x
    rw [List.mem_toFinset, hmem]
    simp only [Finset.mem_filter, Finset.mem_range, Wanted, Option.mem_def, Option.some.injEq, forall_eq', Bool.false_eq_true,
      if_false, and_assoc]
    refine and_congr Iff.rfl (and_congr Iff.rfl (and_congr ?_ Iff.rfl))
    omega

/-- C110, the code disagrees with "the projections have the electrons of the wavefunction": if the number of electrons is odd and the
projection space was made from orders of excitation (the default), no determinant has spin zero and the interface has no
projection at all. -/
theorem C110_odd_disagrees (e : Proj I) (en : R) (o : Opts R) (m : MaskIn) (s : Iface R I) (orders : List ℕ)
    (he : e.excOrders = some orders) (ho : orders.Nodup ∧ 0 ∉ orders) (hodd : e.nelec % 2 = 1)
    (h : construct e en o m = .ok s) : s.nproj = 0 ∧ s.obj.nproj = 0 := by
  obtain ⟨mx, obj, h1, h2, h3, hb, e'⟩ := construct_some h
  obtain ⟨_, _, _, _, _, _, _, b4, _⟩ := build_some hb
  obtain ⟨g, _, hp⟩ := C110_projections_orders e en o m s orders he ho h
  have h0 : s.nproj = 0 := by
    rw [hp, Finset.card_eq_zero.2, Nat.min_zero]
    rw [Finset.filter_eq_empty_iff]
    rintro x - ⟨hx1, hx2, -⟩
    have hsplit : (occSet x).card = (alphaSet x (e.nspin / 2)).card + (betaSet x (e.nspin / 2)).card := by
      rw [alphaSet, betaSet, Finset.card_image_of_injOn, ← Finset.card_filter_add_card_filter_not (s := occSet x) (· < e.nspin / 2)]
      · simp only [not_lt]
      · intro a ha b hb hab
        simp only [Finset.coe_filter, Set.mem_ofPred_eq] at ha hb
        simp only at hab
        omega
    omega
  refine ⟨h0, ?_⟩
  rw [e']
  exact b4.trans h0

/-- C110. The setters: a Hamiltonian of the same kind replaces the Hamiltonians of the interface and of both objectives (the
core energy only comes with a Hamiltonian of PyCI); anything that is no Hamiltonian is ignored. -/
theorem C110_setters (s : Iface R I) (p : PHam R I) (f : FHam I) :
    (∃ s', setPyciHam s (.pyci p) = .ok s' ∧ s'.pyciHam = p ∧ s'.fanpyHam = ⟨p.one, p.two⟩ ∧ s'.energyNuc = p.ecore ∧
      s'.obj.ham = p ∧ s'.eqn.ham = ⟨p.one, p.two⟩ ∧ s'.nproj = s.nproj ∧ s'.obj.mask = s.obj.mask ∧ s'.opts = s.opts) ∧
    (∃ s', setFanpyHam s (.fanpy f) = .ok s' ∧ s'.pyciHam = ⟨s.energyNuc, f.one, f.two⟩ ∧ s'.fanpyHam = f ∧
      s'.energyNuc = s.energyNuc ∧ s'.obj.ham = ⟨s.energyNuc, f.one, f.two⟩ ∧ s'.eqn.ham = f ∧ s'.nproj = s.nproj ∧
      s'.obj.mask = s.obj.mask ∧ s'.opts = s.opts) ∧
    setPyciHam s .other = .ok s ∧ setFanpyHam s .other = .ok s :=
  ⟨⟨_, rfl, rfl, rfl, rfl, rfl, rfl, rfl, rfl, rfl⟩, ⟨_, rfl, rfl, rfl, rfl, rfl, rfl, rfl, rfl, rfl⟩, rfl, rfl⟩

/-- C110, the code disagrees with the documentation of the setters: a Hamiltonian of the other kind raises a `TypeError`. -/
theorem C110_setters_disagree (s : Iface R I) (p : PHam R I) (f : FHam I) :
    setPyciHam s (.fanpy f) = .error .typeError ∧ setFanpyHam s (.pyci p) = .error .typeError := ⟨rfl, rfl⟩

/-- C110, the code disagrees with "a setter replaces the Hamiltonian of the problem": the CI operator of the objective, with which
equations are computed, stays that of the old Hamiltonian through any number of assignments; only `update_objective` makes it
anew. -/
theorem C110_operator_disagrees (s s' : Iface R I) (n : NewHam R I)
    (h : setPyciHam s n = .ok s' ∨ setFanpyHam s n = .ok s') : s'.obj.opHam = s.obj.opHam := by
  cases n <;> rcases h with h | h <;> cases h <;> rfl

/-- C110. `update_objective` succeeds exactly if the interface has no constraints of its own and the objective of Fanpy has one
equation of constraints (as many weights as projections and one). -/
theorem C110_update_ok (e : Proj I) (en : R) (o : Opts R) (m : MaskIn) (s : Iface R I) (hr : Reach e en o m s)
    (new : PHam R I ⊕ FHam I) :
    (∃ s', updateObjective s new = .ok s') ↔
      s.opts.constraints = none ∧ s.eqn.weights = s.eqn.pspace.length + 1 := by
  constructor
  · rintro ⟨s', h⟩
    obtain ⟨h1, h2, _⟩ := updateObjective_some h
    exact ⟨h1, h2⟩
  · rintro ⟨h1, h2⟩
    unfold updateObjective mkEqn
    rw [h1]
    simp only [assignConstraints, assignWeights, bind, Except.bind, pure, Except.pure, List.sum_cons, List.sum_nil, add_zero]
    rw [if_neg (by simpa using h2)]
    simp only [construct, maxNproj, bind, Except.bind, pure, Except.pure, maskOf, build, List.isEmpty_nil, Bool.not_true,
      Bool.and_false, Bool.false_eq_true, if_false]
    have : ∃ l, objMask s.opts.legacy (.array s.obj.mask) = .ok l := by
      cases s.opts.legacy <;> simp [objMask, makeMask]
    obtain ⟨l, hl⟩ := this
    cases new <;> simp [hl]

/-- C110. What `update_objective` gives: both objectives, with a new CI operator, have the new Hamiltonian (and the old nuclear energy,
if the Hamiltonian is one of Fanpy); the mask, the options and the projection space of Fanpy are kept.  The number of
projections is kept if it was not made from orders of excitation. -/
theorem C110_update (s s' : Iface R I) (new : PHam R I ⊕ FHam I) (h : updateObjective s new = .ok s') :
    s'.fanpyHam = new.elim (fun h => ⟨h.one, h.two⟩) id ∧
    s'.energyNuc = (new.elim PHam.ecore fun _ => s.energyNuc) ∧
    s'.obj.ham = ⟨s'.energyNuc, s'.fanpyHam.one, s'.fanpyHam.two⟩ ∧ s'.obj.opHam = s'.obj.ham ∧ s'.eqn.ham = s'.fanpyHam ∧
    s'.obj.mask = s.obj.mask ∧ s'.nparam = s.obj.mask.length ∧ s'.eqn.pspace = s.eqn.pspace ∧ s'.eqn.consEqns = [1] ∧
    s'.opts = { s.opts with verbose := 4, kwargs := [] } ∧
    (∀ e en o m, Reach e en o m s → e.excOrders = none → s'.nproj = s.nproj) := by
  obtain ⟨h1, h2, hc⟩ := updateObjective_some h
  obtain ⟨mx, obj, c1, c2, c3, hb, e'⟩ := construct_some hc
  obtain ⟨_, bm, b1, b2, _⟩ := build_some hb
  have hm : obj.mask = s.obj.mask := by
    have : objMask s.opts.legacy (.array s.obj.mask) = .ok s.obj.mask := by
      cases s.opts.legacy <;> simp [objMask, makeMask]
    simp only [maskOf] at bm
    rw [this] at bm
    exact (Except.ok.inj bm).symm
  have last : ∀ e en o m, Reach e en o m s → e.excOrders = none → s'.nproj = s.nproj := by
    intro e en o m hr he
    have key : ∀ t : Iface R I, Reach e en o m t → t.eqn.excOrders = none ∧
        t.nproj = min t.eqn.pspace.length (if t.eqn.seniority = some 0 then (t.eqn.nspin / 2).choose (t.eqn.nelec / 2)
          else (t.eqn.nspin / 2).choose (t.eqn.nelec - t.eqn.nelec / 2) * (t.eqn.nspin / 2).choose (t.eqn.nelec / 2)) := by
      have base : ∀ (e1 : Proj I) (en1 : R) (o1 : Opts R) (m1 : MaskIn) (t : Iface R I), construct e1 en1 o1 m1 = .ok t →
          e1.excOrders = none → t.eqn.excOrders = none ∧
          t.nproj = min t.eqn.pspace.length (if t.eqn.seniority = some 0 then (t.eqn.nspin / 2).choose (t.eqn.nelec / 2)
          else (t.eqn.nspin / 2).choose (t.eqn.nelec - t.eqn.nelec / 2) * (t.eqn.nspin / 2).choose (t.eqn.nelec / 2)) := by
        intro e1 en1 o1 m1 t ht he1
        obtain ⟨mx, obj, c1, c2, c3, _, e'⟩ := construct_some ht
        have ee : t.eqn = e1 := by rw [e']
        rw [ee]
        refine ⟨he1, ?_⟩
        rw [c3]
        simp only [maxNproj, he1, c2] at c1
        rw [← Except.ok.inj c1]
        by_cases hs : e1.seniority = some 0 <;> simp [hs]
      intro t ht
      induction ht with
      | init hc => exact base _ _ _ _ _ hc he
      | @next t1 t2 op _ hs ih =>
        cases op with
        | setPyci n => cases n <;> cases hs <;> exact ih
        | setFanpy n => cases n <;> cases hs <;> exact ih
        | update n =>
          obtain ⟨_, _, hc⟩ := updateObjective_some hs
          exact base _ _ _ _ _ hc rfl
    obtain ⟨k1, k2⟩ := key s hr
    obtain ⟨k3, k4⟩ := key s' (.next (op := .update new) hr h)
    have ee : s'.eqn.pspace = s.eqn.pspace ∧ s'.eqn.seniority = s.eqn.seniority ∧ s'.eqn.nspin = s.eqn.nspin ∧
        s'.eqn.nelec = s.eqn.nelec := by rw [e']; exact ⟨rfl, rfl, rfl, rfl⟩
    rw [k4, k2, ee.1, ee.2.1, ee.2.2.1, ee.2.2.2]
  refine ⟨?_, ?_, ?_, ?_, ?_, ?_, ?_, ?_, ?_, ?_, last⟩
  · rw [e']
  · rw [e']
  · rw [e']; exact b1
  · rw [e']; exact b2.trans b1.symm
  · rw [e']
  · rw [e']; exact hm
  · rw [e']; rfl
  · rw [e']
  · rw [e']
  · rw [e']

/-- C110, the code disagrees with "update_objective replaces the Hamiltonian": with constraints of FanCI it raises a `TypeError`; if the
objective of Fanpy has not exactly one equation of constraints (none, for example), a `ValueError`. -/
theorem C110_update_disagrees (s : Iface R I) (new : PHam R I ⊕ FHam I) :
    (s.opts.constraints.isSome → updateObjective s new = .error .typeError) ∧
    (s.opts.constraints = none → s.eqn.weights = s.eqn.pspace.length + s.eqn.consEqns.sum → s.eqn.consEqns.sum ≠ 1 →
      updateObjective s new = .error .valueError) := by
  constructor
  · intro h
    obtain ⟨d, hd⟩ := Option.isSome_iff_exists.1 h
    unfold updateObjective mkEqn
    rw [hd]
    rfl
  · intro h1 h2 h3
    unfold updateObjective mkEqn
    rw [h1]
    simp only [assignConstraints, assignWeights, bind, Except.bind, pure, Except.pure, List.sum_cons, List.sum_nil, add_zero]
    rw [if_pos (by omega)]

/-- C110. With no mask given, the mask of the problem has one entry for every parameter of the components (active if it is
selected) and one more, active, for the energy; the number of parameters is its length. -/
theorem C110_default_mask (e : Proj I) (en : R) (o : Opts R) (s : Iface R I) (h : construct e en o .none = .ok s) :
    s.obj.mask = e.sel.flatMap (fun p => (List.range (e.nparams p.1)).map (fun i => decide (i ∈ p.2))) ++ [true] ∧
    s.nparam = (e.sel.map fun p => e.nparams p.1).sum + 1 ∧ s.obj.nparam = s.nparam := by
  obtain ⟨mx, obj, _, _, _, hb, e'⟩ := construct_some h
  obtain ⟨_, bm, _, _, _, _, _, _, b5, _⟩ := build_some hb
  have hm : obj.mask = defaultMask e.nparams e.sel := by
    have : objMask o.legacy (.array (defaultMask e.nparams e.sel)) = .ok (defaultMask e.nparams e.sel) := by
      cases o.legacy <;> simp [objMask, makeMask]
    simp only [maskOf] at bm
    rw [this] at bm
    exact (Except.ok.inj bm).symm
  have e1 : s.nparam = (defaultMask e.nparams e.sel).length := by rw [e']; rfl
  refine ⟨by rw [e']; exact hm, ?_, by rw [e']; exact b5⟩
  rw [e1]
  simp [defaultMask, List.length_flatMap]

/-- C110. The interface can be made whenever no mask is given, the excitation orders are not known, and no unknown keyword is given
to the legacy objective. -/
theorem C110_construct_ok (e : Proj I) (en : R) (o : Opts R) (he : e.excOrders = none)
    (hk : o.legacy = true → o.kwargs = []) : ∃ s, construct e en o .none = .ok s := by
  have hm : objMask o.legacy (.array (defaultMask e.nparams e.sel)) = .ok (defaultMask e.nparams e.sel) := by
    cases o.legacy <;> simp [objMask, makeMask]
  have hc : (o.legacy && !o.kwargs.isEmpty) = false := by
    cases hl : o.legacy with
    | false => rfl
    | true => rw [hk hl]; rfl
  simp only [construct, maxNproj, he, bind, Except.bind, pure, Except.pure, maskOf, build, hc, hm, Bool.false_eq_true,
    if_false, Except.ok.injEq, exists_eq']

/-- C110, the code disagrees with the documentation of `mask`, "each element corresponds to a frozen parameter": if the mask is a list
of integers, the number of parameters becomes the number of integers (legacy), and any list is a `TypeError` for the other
objective. -/
theorem C110_mask_disagrees (e : Proj I) (en : R) (o : Opts R) (l : List ℤ) :
    (∀ s, construct e en o (.ints l) = .ok s → s.nparam = l.length ∧ s.obj.mask.length = l.length) ∧
    (o.legacy = false → e.excOrders = none → construct e en o (.ints l) = .error .typeError ∧
      ∀ b, construct e en o (.bools b) = .error .typeError) := by
  constructor
  · intro s h
    obtain ⟨mx, obj, _, _, _, hb, e'⟩ := construct_some h
    obtain ⟨_, bm, _⟩ := build_some hb
    refine ⟨by rw [e']; rfl, ?_⟩
    rw [show s.obj = obj by rw [e']]
    cases hl : o.legacy with
    | false => rw [hl] at bm; simp [objMask, maskOf] at bm
    | true =>
      rw [hl] at bm
      simp only [objMask, maskOf, makeMask] at bm
      split at bm
      · cases bm
      · have key : ∀ (l : List ℤ) (m0 m : List Bool), l.foldlM (fun m i => pySet m i false) m0 = Except.ok m → m.length = m0.length := by
          intro l
          induction l with
          | nil => intro m0 m h; cases h; rfl
          | cons a r ih =>
            intro m0 m h
            rw [List.foldlM_cons] at h
            cases hp : pySet m0 a false with
            | error x => rw [hp] at h; cases h
            | ok m1 =>
              rw [hp] at h
              have h1 : m1.length = m0.length := by
                unfold pySet at hp
                split at hp
                · cases hp; simp
                · split at hp
                  · cases hp; simp
                  · cases hp
              exact (ih m1 m h).trans h1
        simpa using key _ _ _ bm
  · intro hl he
    have : ∀ m, (∀ a, m ≠ MaskIn.array a) → m ≠ .none → construct e en o m = .error .typeError := by
      intro m h1 h2
      have hm : maskOf e m = m := by cases m <;> simp_all [maskOf]
      have hb : ∀ f np h, build e h o f np m = (.error .typeError : Except PyErr (FanObj R I)) := by
        intro f np h
        cases m <;> simp_all [build, objMask]
      simp only [construct, maxNproj, he, bind, Except.bind, hm, hb]
    exact ⟨this _ (by simp) (by simp), fun b => this _ (by simp) (by simp)⟩

/-- C110. Constraints: those that are given, or the norm if neither constraints nor determinants are given; then one for every
normalized parameter and determinant.  The code disagrees with "norm_param are normalized parameters" for the legacy objective:
they are ignored. -/
theorem C110_constraints (e : Proj I) (en : R) (o : Opts R) (m : MaskIn) (s : Iface R I) (h : construct e en o m = .ok s) (n : Name) :
    n ∈ s.obj.constraints ↔
      (n ∈ o.constraints.getD [] ∨ (o.constraints = none ∧ o.normDet = none ∧ n = normName)) ∨
      (o.legacy = false ∧ ∃ p ∈ o.normParam.getD [], n = .param p.1) ∨ ∃ p ∈ o.normDet.getD [], n = .det p.1 := by
  obtain ⟨mx, obj, _, _, _, hb, e'⟩ := construct_some h
  obtain ⟨_, _, _, _, _, _, _, _, _, bc, _⟩ := build_some hb
  rw [show s.obj.constraints = objConstraints o by rw [e']; exact bc]
  have ins : ∀ (d : List (Name × Unit)) (a : Name), n ∈ (FanBase.insert d a ()).map Prod.fst ↔ n ∈ d.map Prod.fst ∨ n = a := by
    intro d a
    unfold FanBase.insert
    split
    · rename_i ha
      have : (d.map fun e => if e.1 = a then (a, ()) else e).map Prod.fst = d.map Prod.fst := by
        rw [List.map_map]
        refine List.map_congr_left fun x _ => ?_
        by_cases hx : x.1 = a <;> simp [hx]
      rw [this]
      exact ⟨.inl, fun h => h.elim id (fun h => h ▸ ha)⟩
    · simp
  have fold : ∀ (f : ℕ → Name) (ps : List (ℕ × R)) (d : List (Name × Unit)),
      n ∈ (ps.foldl (fun d p => FanBase.insert d (f p.1) ()) d).map Prod.fst ↔ n ∈ d.map Prod.fst ∨ ∃ p ∈ ps, n = f p.1 := by
    intro f ps
    induction ps with
    | nil => intro d; simp
    | cons p r ih =>
      intro d
      rw [List.foldl_cons, ih, ins]
      simp only [List.mem_cons, exists_eq_or_imp, or_assoc]
  unfold objConstraints makeConstraints
  simp only
  rw [fold, fold, or_assoc]
  refine or_congr ?_ (or_congr ?_ Iff.rfl)
  · rw [List.map_map, show (Prod.fst ∘ fun n : Name => (n, ())) = id from rfl, List.map_id]
    cases hc : o.constraints with
    | none => cases hd : o.normDet <;> simp
    | some d => simp
  · cases hl : o.legacy <;> simp

/-- C110. The constructor of `FANPT`: it never finds a norm constraint on a determinant (`inorm` is false); the energy is active as
asked for; with `resum` there is one step, and the energy must be inactive and there must be as many equations (projections and the
norm) as active parameters; the approximation must be 2, or 3 with an active energy. -/
theorem C110_fanpt [One R] (e : Proj I) (en : R) (legacy active resum : Bool) (refSd steps : ℕ) (quasi : ℤ) (s : Iface R I)
    (hs : construct e en (fanptOpts legacy) .none = .ok s) :
    let mask := s.obj.mask.dropLast ++ [active]
    fanptInit e en legacy active resum refSd steps quasi =
      if (resum = true ∧ (active = true ∨ s.nproj + 1 ≠ mask.count true)) ∨ (quasi ≠ 2 ∧ ¬ (quasi = 3 ∧ active = true)) then
        .error .valueError
      else .ok ⟨{ s with obj := { s.obj with mask := mask } }, false, if resum then some [(refSd, 1)] else none,
        if resum then 1 else steps⟩ := by
  have hcons : s.obj.constraints = [normName] := by
    obtain ⟨mx, obj, _, _, _, hb, e'⟩ := construct_some hs
    obtain ⟨_, _, _, _, _, _, _, _, _, bc, _⟩ := build_some hb
    rw [show s.obj.constraints = objConstraints (fanptOpts legacy : Opts R) by rw [e']; exact bc]
    cases legacy <;> rfl
  have hnp : s.obj.nproj = s.nproj := by
    obtain ⟨mx, obj, _, _, _, hb, e'⟩ := construct_some hs
    obtain ⟨_, _, _, _, _, _, _, b4, _⟩ := build_some hb
    rw [e']; exact b4
  have hmask : ∃ l a, s.obj.mask = l ++ [a] := ⟨_, true, (C110_default_mask e en _ s hs).1⟩
  obtain ⟨l, a, hla⟩ := hmask
  have hset : s.obj.mask.set (s.obj.mask.length - 1) active = s.obj.mask.dropLast ++ [active] := by
    rw [hla]; simp
  have hin : decide (Name.det refSd ∈ s.obj.constraints) = false := by
    rw [hcons]; simp [normName]
  have hne : Name.det refSd ≠ normName := by simp [normName]
  intro mask
  unfold fanptInit
  rw [hs]
  simp only [bind, Except.bind, hin, hset, Bool.not_false, Bool.true_and, Bool.false_and, Bool.false_eq_true, if_false,
    FanObj.nequation, FanObj.nactive, hcons, List.length_singleton, hnp]
  rw [show s.obj.mask.dropLast ++ [active] = mask from rfl]
  cases resum with
  | false =>
    simp only [Bool.false_eq_true, if_false, false_and, false_or]
    by_cases h2 : quasi = 2
    · subst h2; simp [hne]
    · by_cases h3 : quasi = 3
      · subst h3; cases active <;> simp [hne]
      · simp [h2, h3, hne]
  | true =>
    cases active with
    | true => simp
    | false =>
      by_cases he : s.nproj + 1 = mask.count true
      · by_cases h2 : quasi = 2
        · subst h2; simp [he, hne]
        · by_cases h3 : quasi = 3
          · subst h3; simp [he, hne]
          · simp [he, h2, h3, hne]
      · simp [he, hne]

/-! ## Cases -/

/-- two electrons in four spin orbitals, two parameters of which one is selected; ground state and the four single excitations -/
def pyciCase : Proj ℕ :=
  ⟨2, 4, none, ⟨1, 2⟩, fun _ => 2, [(0, [1])], [5, 3, 6, 9, 12], none, [1], 6⟩

/-- options by default -/
def pyciOpts : Opts ℤ := ⟨none, none, none, 8192, true, 3, []⟩

example : ∃ s, construct pyciCase (7 : ℤ) pyciOpts .none = .ok s ∧ s.nproj = 4 ∧ s.obj.mask = [false, true, true] ∧
    s.obj.nUp = 1 ∧ s.obj.nDown = 1 ∧ s.obj.constraints = [normName] ∧
    (∃ s1, setFanpyHam s (.fanpy ⟨8, 9⟩) = .ok s1 ∧ s1.obj.ham = ⟨7, 8, 9⟩ ∧ s1.obj.opHam = ⟨7, 1, 2⟩ ∧
      ∃ s2, updateObjective s1 (.inl ⟨0, 3, 4⟩) = .ok s2 ∧ s2.obj.ham = ⟨0, 3, 4⟩ ∧ s2.obj.opHam = ⟨0, 3, 4⟩ ∧
        s2.opts.verbose = 4) :=
  ⟨_, rfl, rfl, rfl, rfl, rfl, rfl, _, rfl, rfl, rfl, _, rfl, rfl, rfl, rfl⟩

-- an objective without constraints cannot be updated
example : ∃ s, construct { pyciCase with consEqns := [], weights := 5 } (7 : ℤ) pyciOpts .none = .ok s ∧
    updateObjective s (.inr ⟨0, 0⟩) = .error .valueError := ⟨_, rfl, rfl⟩

-- the parameter 2 of an objective with two parameters and the energy cannot be frozen by its number
example : construct pyciCase (7 : ℤ) pyciOpts (.ints [2]) = .error .indexError := rfl

-- FANPT: four projections and the norm, one active parameter
example : ∃ f, fanptInit pyciCase (7 : ℤ) true true false 0 3 2 = .ok f ∧ f.inorm = false ∧ f.steps = 3 := ⟨_, rfl, rfl, rfl⟩
example : fanptInit pyciCase (7 : ℤ) true false true 0 3 2 = .error .valueError := rfl

/-- C110, the code disagrees with "update_objective keeps the projections": the orders of excitation are not handed on, so a number of
projections that was cut to the determinants of spin zero at these orders grows. -/
theorem C110_update_projections_disagree :
    ∃ (s s' : Iface ℤ ℕ), construct { pyciCase with excOrders := some [1] } (7 : ℤ) pyciOpts .none = .ok s ∧
      updateObjective s (.inr ⟨1, 2⟩) = .ok s' ∧ s.nproj = 3 ∧ s'.nproj = 4 ∧ s'.eqn.pspace = s.eqn.pspace := by
  have hg : Slater.ground 2 4 = .ok 0b0101 := by decide
  have hL : (SdList.sdList 2 4 none (some [1]) (some 0) none false).map List.length = .ok 3 := by
    rw [sdList_eq none (some [1]) (some 0) none false hg (by simp) (by simp)]
    have e1 : occOrder 0b0101 2 = [0, 2] := by
      have : Slater.occIndices (some 0b0101) = [0, 2] := by decide
      rw [occOrder, this]; exact List.mergeSort_of_pairwise (by decide)
    have e2 : virOrder 0b0101 2 4 = [1, 3] := by
      have : Slater.virIndices (some 0b0101) 4 = [1, 3] := by decide
      rw [virOrder, show ((4 : ℕ) : ℤ) = 4 from rfl, this]; exact List.mergeSort_of_pairwise (by decide)
    simp only [fullList, show 4 / 2 = 2 from rfl, e1, e2]
    decide +kernel
  have hc : ∃ s, construct { pyciCase with excOrders := some [1] } (7 : ℤ) pyciOpts .none = .ok s ∧ s.nproj = 3 ∧
      s.eqn = { pyciCase with excOrders := some [1] } ∧ s.opts = pyciOpts ∧ s.obj.mask = [false, true, true] := by
    have gen : ∀ (e : Proj ℕ), maxNproj e .excitation = .ok 3 → e.seniority = none → e.pspace.length = 5 →
        defaultMask e.nparams e.sel = [false, true, true] → ∃ s, construct e (7 : ℤ) pyciOpts .none = .ok s ∧ s.nproj = 3 ∧
        s.eqn = e ∧ s.opts = pyciOpts ∧ s.obj.mask = [false, true, true] := by
      intro e h1 h2 h3 h4
      unfold construct
      simp only [h2, reduceCtorEq, if_false, h1, h3, bind, Except.bind, maskOf, h4]
      exact ⟨_, rfl, rfl, rfl, rfl, rfl⟩
    exact gen _ hL rfl rfl rfl
  obtain ⟨s, h1, h2, h3, h4, h5⟩ := hc
  have hu : ∃ s', updateObjective s (.inr ⟨1, 2⟩) = .ok s' ∧ s'.nproj = 4 ∧ s'.eqn.pspace = [5, 3, 6, 9, 12] := by
    unfold updateObjective
    rw [h3, h4, h5]
    exact ⟨_, rfl, rfl, rfl⟩
  obtain ⟨s', u1, u2, u3⟩ := hu
  exact ⟨s, s', h1, u1, h2, u2, by rw [u3, h3]; rfl⟩

-- one electron in two orbitals, single excitations: there is an interface, and it has no projections
example : ∃ s, construct { pyciCase with nelec := 1, nspin := 2, pspace := [1, 2], excOrders := some [1] } (7 : ℤ) pyciOpts .none =
    .ok s ∧ s.nproj = 0 := by
  have hg : Slater.ground 1 2 = .ok 1 := by decide
  have hL : (SdList.sdList 1 2 none (some [1]) (some 0) none false).map List.length = .ok 0 := by
    rw [sdList_eq none (some [1]) (some 0) none false hg (by simp) (by simp)]
    have e1 : occOrder 1 1 = [0] := by
      have : Slater.occIndices (some 1) = [0] := by decide
      rw [occOrder, this]; exact List.mergeSort_of_pairwise (by decide)
    have e2 : virOrder 1 1 2 = [1] := by
      have : Slater.virIndices (some 1) 2 = [1] := by decide
      rw [virOrder, show ((2 : ℕ) : ℤ) = 2 from rfl, this]; exact List.mergeSort_of_pairwise (by decide)
    simp only [fullList, show 2 / 2 = 1 from rfl, e1, e2]
    decide +kernel
  have gen : ∀ (e : Proj ℕ), maxNproj e .excitation = .ok 0 → e.seniority = none →
      defaultMask e.nparams e.sel = [false, true, true] → ∃ s, construct e (7 : ℤ) pyciOpts .none = .ok s ∧ s.nproj = 0 := by
    intro e h1 h2 h4
    unfold construct
    simp only [h2, reduceCtorEq, if_false, h1, bind, Except.bind, maskOf, h4]
    refine ⟨_, rfl, ?_⟩
    simp only
    split <;> omega
  exact gen _ hL rfl rfl

end Fanpy.Props
