import Verif.Model.NormInit
import Verif.Props.EqnInit

/-! # C92: the constructor of `NormConstraint` -/

namespace Fanpy.Props
open Fanpy.Eqn

theorem setItem_norm (c n : ℕ) : setItem [] c n (.ints ((List.range n).map fun i => Int.ofNat i)) = .ok [(c, List.range n)] := by
  have hinj : Function.Injective fun i : ℕ => Int.ofNat i := fun a b h => Int.ofNat.inj h
  have hnd : ((List.range n).map fun i => Int.ofNat i).Nodup := List.nodup_range.map hinj
  have h1 : ((List.range n).map fun i => Int.ofNat i).dedup = (List.range n).map fun i => Int.ofNat i := hnd.dedup
  simp only [setItem]
  rw [h1, if_neg (by simp), if_neg]
  · have h2 : ((List.range n).map fun i => Int.ofNat i).map Int.toNat = List.range n := by
      rw [List.map_map]
      exact List.map_id'' (fun _ => rfl) _
    rw [h2, List.Pairwise.insertionSort_eq]
    · rfl
    · exact List.pairwise_lt_range.imp fun h => h.le
  · simp

theorem eqSel_self (a : Selection) : eqSel a a = true := by
  simp only [eqSel, Bool.and_eq_true, List.all_eq_true, beq_self_eq_true, implies_true, and_true, List.contains_iff_mem]
  exact ⟨fun p hp => List.mem_map_of_mem hp, fun p hp => List.mem_map_of_mem hp⟩

/-- C92: `NormConstraint` keeps a reference of the wavefunction's space and changes no selection that was there, also when it is refused.  A given
`ComponentParameterIndices` is shared; by default all parameters of the wavefunction are selected, in a new one.  A reference that is refused by
`EnergyOneSideProjection` is refused with the same error. -/
theorem C92_norm_init (E : Env) (rf : SpaceArg) (sel : SelArg) (h : Heap) :
    (∀ d < h.dicts.length, (normInit E rf sel h).1.dicts[d]? = h.dicts[d]?) ∧ (normInit E rf sel h).1.nextComp = h.nextComp ∧
    (∀ e, oneRefwfn E.space rf = .error e → normInit E rf sel h = (h, .error e)) ∧
    (∀ e, (normInit E rf sel h).2 = .error e → (normInit E rf sel h).1 = h) ∧
    (∀ c r, (normInit E rf sel h).2 = .ok (c, r) → RefOk E.space r ∧ c.numEqns = 1 ∧
      (∀ d, sel = .dict d → c.dict = d) ∧ ((∀ d, sel ≠ .dict d) → c.dict = h.dicts.length)) ∧
    (∀ r, oneRefwfn E.space rf = .ok r →
      (∀ d, sel = .dict d → (normInit E rf sel h).2 = .ok (⟨d, 1⟩, r)) ∧
      (sel = .none → (normInit E rf sel h).2 = .ok (⟨h.dicts.length, 1⟩, r) ∧
        (normInit E rf sel h).1.dicts[h.dicts.length]? = some [(E.wfn, List.range (E.nparams E.wfn))])) := by
  have hr := (C92_one_sided E.space rf).1
  unfold normInit
  rcases hone : oneRefwfn E.space rf with e | r
  · refine ⟨fun d _ => rfl, rfl, ?_, fun _ _ => rfl, ?_, ?_⟩
    · intro e' he
      injection he with he
      rw [he]
    · intro c r hc
      cases hc
    · intro r hr
      cases hr
  · have hR := hr r hone
    cases sel with
    | dict d =>
      refine ⟨fun d _ => rfl, rfl, ?_, ?_, ?_, ?_⟩
      · intro e he; cases he
      · intro e he; cases he
      · intro c r' hc
        simp only [normSelection, Except.ok.injEq, Prod.mk.injEq] at hc
        obtain ⟨rfl, rfl⟩ := hc
        refine ⟨hR, rfl, ?_, ?_⟩
        · intro d' hd; injection hd
        · intro hd; exact absurd rfl (hd d)
      · intro r' hr'
        injection hr' with hr'
        subst hr'
        refine ⟨?_, ?_⟩
        · intro d' hd; injection hd with hd; subst hd; rfl
        · intro hd; cases hd
    | none =>
      have hs : normSelection E .none h = ({ h with dicts := h.dicts ++ [[(E.wfn, List.range (E.nparams E.wfn))]] }, .ok h.dicts.length) := by
        simp only [normSelection, List.foldlM_cons, List.foldlM_nil, setItem_norm, bind, Except.bind, pure, Except.pure]
      rw [hs]
      refine ⟨fun d hd => List.getElem?_append_left hd, rfl, ?_, ?_, ?_, ?_⟩
      · intro e he; cases he
      · intro e he; cases he
      · intro c r' hc
        simp only [Except.ok.injEq, Prod.mk.injEq] at hc
        obtain ⟨rfl, rfl⟩ := hc
        refine ⟨hR, rfl, ?_, fun _ => rfl⟩
        intro d' hd; cases hd
      · intro r' hr'
        injection hr' with hr'
        subst hr'
        refine ⟨?_, ?_⟩
        · intro d' hd; cases hd
        · intro _; exact ⟨rfl, by simp⟩
    | items l =>
      have hs : ∃ x : Except PyErr Selection, normSelection E (.items l) h = (match x with
          | .error e => (h, .error e)
          | .ok s => ({ h with dicts := h.dicts ++ [s] }, .ok h.dicts.length)) := ⟨_, rfl⟩
      obtain ⟨e | s, hs⟩ := hs <;> rw [hs]
      · refine ⟨fun d _ => rfl, rfl, ?_, fun _ _ => rfl, ?_, ?_⟩
        · intro e he; cases he
        · intro c r' hc; cases hc
        · intro r' _
          refine ⟨?_, ?_⟩
          · intro d' hd; cases hd
          · intro hd; cases hd
      · refine ⟨fun d hd => List.getElem?_append_left hd, rfl, ?_, ?_, ?_, ?_⟩
        · intro e he; cases he
        · intro e he; cases he
        · intro c r' hc
          simp only [Except.ok.injEq, Prod.mk.injEq] at hc
          obtain ⟨rfl, rfl⟩ := hc
          refine ⟨hR, rfl, ?_, fun _ => rfl⟩
          intro d' hd; cases hd
        · intro r' _
          refine ⟨?_, ?_⟩
          · intro d' hd; cases hd
          · intro hd; cases hd

/-- C92: constraints made with a `ComponentParameterIndices` that is then given to the equations are accepted for every type of energy, because the
new energy is added to the selection of the constraints too.  (With a selection of their own they are not, see `C92_energy_constraint`.) -/
theorem C92_norm_shared (E : Env) (d : ℕ) (ps : SpaceArg) (ex : Option (List ℕ)) (rf rf' : SpaceArg) (k : EnergyKind) (h h1 : Heap)
    (c : Con) (r : RefVal) (hc : normInit E rf' (.dict d) h = (h1, .ok (c, r)))
    (e : PyErr) (he : (projInit E (.dict d) false ps ex rf k true (.one c) h1).2 = .error e) :
    E.space.nspin ≠ E.hamSpin ∨ projPspace E.space ex ps = .error e ∨ projRefwfn E.space rf = .error e ∨ k = .other := by
  have hd : c.dict = d := by
    have := (C92_norm_init E rf' (.dict d) h).2.2.2.2.1 c r (by rw [hc])
    exact this.2.2.1 d rfl
  by_cases hn : E.space.nspin ≠ E.hamSpin
  · exact .inl hn
  · unfold projInit at he
    simp only [baseInit, if_neg hn, Bool.false_and, Bool.false_eq_true, if_false] at he
    rcases hp : projPspace E.space ex ps with e' | p
    · rw [hp] at he
      simp only [Except.error.injEq] at he
      exact .inr (.inl (by rw [he]))
    · rw [hp] at he
      simp only at he
      rcases hq : projRefwfn E.space rf with e' | q
      · rw [hq] at he
        simp only [Except.error.injEq] at he
        exact .inr (.inr (.inl (by rw [he])))
      · rw [hq] at he
        simp only [Bool.not_true, Bool.false_eq_true, if_false] at he
        by_cases hk : k = .other
        · exact .inr (.inr (.inr hk))
        · rw [if_neg hk] at he
          simp only [assignConstraints, consList, bind, Except.bind, pure, Except.pure, List.any_cons, List.any_nil, Option.isNone_some,
            Bool.or_false, Bool.false_eq_true, if_false, List.filterMap_cons, List.filterMap_nil, id, List.all_cons, List.all_nil,
            hd, eqSel_self, Bool.and_true, Bool.not_true] at he
          cases he

/-- a wavefunction (number 0) with two parameters: the default selection, and a selection that is shared -/
example :
    let E : Env := ⟨fun _ => 2, 0, 1, 4, ⟨2, 4, none, none⟩⟩
    normInit E (.sd 0b0101) .none ⟨[[(0, [1])]], 2⟩ = (⟨[[(0, [1])], [(0, [0, 1])]], 2⟩, .ok (⟨1, 1⟩, .sds [0b0101])) ∧
    normInit E (.sd 0b0101) (.dict 0) ⟨[[(0, [1])]], 2⟩ = (⟨[[(0, [1])]], 2⟩, .ok (⟨0, 1⟩, .sds [0b0101])) ∧
    normInit E (.sd 0b0111) .none ⟨[], 2⟩ = (⟨[], 2⟩, .error .valueError) := by
  refine ⟨?_, ?_, ?_⟩ <;> rfl

end Fanpy.Props
