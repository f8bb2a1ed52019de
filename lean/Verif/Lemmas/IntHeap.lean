import Verif.Spec.IntHeap

namespace Fanpy.IntHeap
open Fanpy.Ham

variable {R : Type} [CommRing R]

/-! ### Memory -/

omit [CommRing R] in
theorem allocOne_one (m : Mem R) (h : ℕ → ℕ → R) (a : ℕ) :
    (m.allocOne h).2.one a = if a = m.nextOne then h else m.one a := by
  simp [Mem.allocOne, Function.update_apply]

omit [CommRing R] in
theorem allocTwo_two (m : Mem R) (g : ℕ → ℕ → ℕ → ℕ → R) (a : ℕ) :
    (m.allocTwo g).2.two a = if a = m.nextTwo then g else m.two a := by
  simp [Mem.allocTwo, Function.update_apply]

omit [CommRing R] in
theorem modifyOne_one (m : Mem R) (b : ℕ) (f : (ℕ → ℕ → R) → ℕ → ℕ → R) (a : ℕ) :
    (m.modifyOne b f).one a = if a = b then f (m.one b) else m.one a := by
  simp [Mem.modifyOne, Function.update_apply]

omit [CommRing R] in
theorem modifyTwo_two (m : Mem R) (b : ℕ) (f : (ℕ → ℕ → ℕ → ℕ → R) → ℕ → ℕ → ℕ → ℕ → R) (a : ℕ) :
    (m.modifyTwo b f).two a = if a = b then f (m.two b) else m.two a := by
  simp [Mem.modifyTwo, Function.update_apply]

/-! ### Generalized -/

/-- The unitary matrix of `assign_params`, with the parameters and the previous values. -/
def genPlan (um : List R → Except PyErr (ℕ × (ℕ → ℕ → R))) (norb : ℕ) (prev : Option (List R × ℕ × (ℕ → ℕ → R)))
    (params : Option (List R)) : Except PyErr (List R × (List R × ℕ × (ℕ → ℕ → R)) × ℕ × (ℕ → ℕ → R)) := do
  let numParams := norb * (norb - 1) / 2
  let p := params.getD (List.replicate numParams 0)
  if p.length ≠ numParams then .error .valueError
  else do
    let prev ← match prev with
      | some v => pure v
      | none => do
        let u ← um (List.replicate p.length 0)
        pure (List.replicate p.length 0, u)
    let diff ← um (subParams p prev.1)
    let unitary ← dotSquare prev.2 diff
    return (p, prev, unitary)

theorem gen_pure_eq (um : List R → Except PyErr (ℕ × (ℕ → ℕ → R))) (S : GenState R) (params : Option (List R)) :
    S.assignParams um params = (genPlan um S.ham.norb S.prev params).bind fun r =>
      ((GenHam.rotateMatrix { S.ham with norb := S.refNorb, one := S.refOne, two := S.refTwo } r.2.2.1 r.2.2.1 r.2.2.2).map
        fun H => { S with
          ham := H.cacheTwoInts
          params := r.1
          prev := some (if S.update then (r.1, r.2.2) else r.2.1) }) := by
  unfold GenState.assignParams genPlan
  dsimp only
  split
  · rfl
  · rcases S.prev with _ | v
    · dsimp only
      rcases um (List.replicate (params.getD (List.replicate (S.ham.norb * (S.ham.norb - 1) / 2) 0)).length 0) with e | u
      · rfl
      · show (Except.bind _ _) = Except.bind (Except.bind _ _) _
        simp only [pure, Except.pure, bind, Except.bind]
        rcases um (subParams _ _) with e | d
        · rfl
        · simp only [Except.bind]
          rcases dotSquare u d with e | w
          · rfl
          · simp only [Except.bind]
            rcases GenHam.rotateMatrix _ _ _ _ with e | H <;> rfl
    · dsimp only
      simp only [pure, Except.pure, bind, Except.bind]
      rcases um (subParams _ _) with e | d
      · rfl
      · simp only [Except.bind]
        rcases dotSquare v.2 d with e | w
        · rfl
        · simp only [Except.bind]
          rcases GenHam.rotateMatrix _ _ _ _ with e | H <;> rfl

theorem gen_heap_eq (um : List R → Except PyErr (ℕ × (ℕ → ℕ → R))) (m : Mem R) (o : GenObj R) (params : Option (List R)) :
    o.assignParams um m params = (genPlan um o.norb o.prev params).bind fun r =>
      let x := m.allocOne (m.one o.refOne)
      let y := x.2.allocTwo (x.2.two o.refTwo)
      (((o.assignIntegrals o.refNorb x.1 y.1).rotateMatrix y.2 r.2.2.1 r.2.2.1 r.2.2.2).map fun z =>
        (z.1, GenObj.cacheTwoInts z.1 { z.2 with
          params := r.1
          prev := some (if o.update then (r.1, r.2.2) else r.2.1) })) := by
  unfold GenObj.assignParams genPlan
  dsimp only
  split
  · rfl
  · rcases o.prev with _ | v
    · dsimp only
      rcases um (List.replicate (params.getD (List.replicate (o.norb * (o.norb - 1) / 2) 0)).length 0) with e | u
      · rfl
      · simp only [pure, Except.pure, bind, Except.bind]
        rcases um (subParams _ _) with e | d
        · rfl
        · simp only [Except.bind]
          rcases dotSquare u d with e | w
          · rfl
          · simp only [Except.bind]
            rcases GenObj.rotateMatrix _ _ _ _ _ with e | H <;> rfl
    · dsimp only
      simp only [pure, Except.pure, bind, Except.bind]
      rcases um (subParams _ _) with e | d
      · rfl
      · simp only [Except.bind]
        rcases dotSquare v.2 d with e | w
        · rfl
        · simp only [Except.bind]
          rcases GenObj.rotateMatrix _ _ _ _ _ with e | H <;> rfl

/-- The reference arrays are in use, and not the caller's. -/
structure GenRef (n k : ℕ) (x : Mem R × GenObj R) : Prop where
  one : n ≤ x.2.refOne ∧ x.2.refOne < x.1.nextOne
  two : k ≤ x.2.refTwo ∧ x.2.refTwo < x.1.nextTwo

/-- The arrays of the Hamiltonian are its own. -/
structure GenSep (n k : ℕ) (x : Mem R × GenObj R) : Prop extends GenRef n k x where
  cone : n ≤ x.2.one ∧ x.2.one < x.1.nextOne ∧ x.2.one ≠ x.2.refOne
  ctwo : k ≤ x.2.two ∧ x.2.two < x.1.nextTwo ∧ x.2.two ≠ x.2.refTwo

/-- What one event has to satisfy. -/
def GenGood (n k : ℕ) (ev : Event R) (x : Mem R × GenObj R) (r : Except PyErr (Mem R × GenObj R))
    (v : Except PyErr (GenState R)) : Prop :=
  (r.map fun y => y.2.view y.1) = v ∧ ∀ y, r = .ok y → GenSep n k y ∧
    (∀ a < n, y.1.one a = ownOne a (x.1.one a) ev) ∧ ∀ a < k, y.1.two a = ownTwo a (x.1.two a) ev

theorem gen_params_good (um : List R → Except PyErr (ℕ × (ℕ → ℕ → R))) (n k : ℕ) (x : Mem R × GenObj R)
    (hx : GenRef n k x) (p : Option (List R)) (ev : Event R) (h1 : ∀ a h, ownOne a h ev = h) (h2 : ∀ a g, ownTwo a g ev = g) :
    GenGood n k ev x (x.2.assignParams um x.1 p) ((x.2.view x.1).assignParams um p) := by
  obtain ⟨m, o⟩ := x
  obtain ⟨⟨a1, a2⟩, b1, b2⟩ := hx
  dsimp only at a1 a2 b1 b2
  unfold GenGood
  rw [gen_pure_eq, gen_heap_eq]
  show Except.map _ (Except.bind (genPlan um o.norb o.prev p) _) = Except.bind (genPlan um o.norb o.prev p) _ ∧ _
  rcases genPlan um o.norb o.prev p with e | ⟨pp, prev, d, u⟩
  · exact ⟨rfl, fun y hy => by cases hy⟩
  · simp only [Except.bind, GenObj.rotateMatrix, GenHam.rotateMatrix, GenObj.assignIntegrals, GenObj.view]
    by_cases hd : d ≠ o.refNorb
    · simp [hd, Except.map]
    · simp only [hd, if_false, Except.map]
      have e1 : o.refOne ≠ m.nextOne := by omega
      have e2 : o.refTwo ≠ m.nextTwo := by omega
      refine ⟨?_, ?_⟩
      · simp [Mem.allocOne, Mem.allocTwo, GenObj.cacheTwoInts, GenHam.cacheTwoInts, Function.update_apply, e1, e2,
          show o.refOne ≠ m.nextOne + 1 by omega, show o.refTwo ≠ m.nextTwo + 1 by omega]
        rfl
      · intro y hy
        injection hy with hy
        subst hy
        simp only [h1, h2]
        refine ⟨⟨⟨?_, ?_⟩, ?_, ?_⟩, fun a ha => ?_, fun a ha => ?_⟩
        all_goals simp [Mem.allocOne, Mem.allocTwo, GenObj.cacheTwoInts, Function.update_apply]
        · omega
        · omega
        · omega
        · omega
        · rw [if_neg (by omega), if_neg (by omega)]
        · rw [if_neg (by omega), if_neg (by omega)]

theorem gen_step_good (um : List R → Except PyErr (ℕ × (ℕ → ℕ → R))) (n k : ℕ) (x : Mem R × GenObj R)
    (hx : GenSep n k x) (ev : Event R) (hev : ev.Own n k) :
    GenGood n k ev x (GenObj.step um x ev) (genValue um (x.2.view x.1) ev) := by
  cases ev with
  | params p => exact gen_params_good um n k x hx.toGenRef p _ (fun _ _ => rfl) fun _ _ => rfl
  | jacobi p q c s =>
    obtain ⟨m, o⟩ := x
    obtain ⟨⟨⟨a1, a2⟩, b1, b2⟩, ⟨c1, c2, c3⟩, d1, d2, d3⟩ := hx
    dsimp only at a1 a2 b1 b2 c1 c2 c3 d1 d2 d3
    show GenGood n k _ _ (o.rotateJacobi m p q c s)
      (((o.view m).ham.rotateJacobi p q c s).map fun H => { o.view m with ham := H })
    by_cases e1 : p = q
    · rw [show o.rotateJacobi m p q c s = _ from if_pos e1, show (o.view m).ham.rotateJacobi p q c s = _ from if_pos e1]
      exact ⟨rfl, fun y hy => by cases hy⟩
    by_cases e2 : ¬(0 ≤ p ∧ p < o.norb ∧ 0 ≤ q ∧ q < o.norb)
    · rw [show o.rotateJacobi m p q c s = _ from (if_neg e1).trans (if_pos e2),
        show (o.view m).ham.rotateJacobi p q c s = _ from (if_neg e1).trans (if_pos e2)]
      exact ⟨rfl, fun y hy => by cases hy⟩
    rw [show o.rotateJacobi m p q c s = _ from (if_neg e1).trans (if_neg e2),
        show (o.view m).ham.rotateJacobi p q c s = _ from (if_neg e1).trans (if_neg e2)]
    dsimp only
    generalize (if p > q then (q.toNat, p.toNat) else (p.toNat, q.toNat)) = pq
    unfold GenGood
    refine ⟨?_, ?_⟩
    · simp [GenObj.view, Except.map, Mem.modifyOne, Mem.modifyTwo, c3.symm, d3.symm]
    · intro y hy
      injection hy with hy
      subst hy
      refine ⟨⟨⟨⟨a1, a2⟩, b1, b2⟩, ⟨c1, c2, c3⟩, d1, d2, d3⟩, fun a ha => ?_, fun a ha => ?_⟩
      · simp [Mem.modifyOne, Mem.modifyTwo, Function.update_apply, ownOne, show a ≠ o.one by omega]
      · simp [Mem.modifyOne, Mem.modifyTwo, Function.update_apply, ownTwo, show a ≠ o.two by omega]
  | matrix rows rowsB cols u v =>
    obtain ⟨m, o⟩ := x
    obtain ⟨⟨⟨a1, a2⟩, b1, b2⟩, ⟨c1, c2, c3⟩, d1, d2, d3⟩ := hx
    dsimp only at a1 a2 b1 b2 c1 c2 c3 d1 d2 d3
    show GenGood n k _ _ (o.rotateMatrix m rows cols u)
      (((o.view m).ham.rotateMatrix rows cols u).map fun H => { o.view m with ham := H })
    by_cases e1 : rows ≠ o.norb
    · rw [show o.rotateMatrix m rows cols u = _ from if_pos e1,
        show (o.view m).ham.rotateMatrix rows cols u = _ from if_pos e1]
      exact ⟨rfl, fun y hy => by cases hy⟩
    · rw [show o.rotateMatrix m rows cols u = _ from if_neg e1,
        show (o.view m).ham.rotateMatrix rows cols u = _ from if_neg e1]
      refine ⟨?_, ?_⟩
      · simp [GenObj.view, Except.map, Mem.allocOne, Mem.allocTwo, Function.update_apply, show o.refOne ≠ m.nextOne by omega,
          show o.refTwo ≠ m.nextTwo by omega]
      · intro y hy
        injection hy with hy
        subst hy
        refine ⟨⟨⟨?_, ?_⟩, ?_, ?_⟩, fun a ha => ?_, fun a ha => ?_⟩
        · simp [Mem.allocOne, Mem.allocTwo]; omega
        · simp [Mem.allocOne, Mem.allocTwo]; omega
        · simp [Mem.allocOne, Mem.allocTwo]; omega
        · simp [Mem.allocOne, Mem.allocTwo]; omega
        · simp [Mem.allocOne, Mem.allocTwo, Function.update_apply, ownOne, show a ≠ m.nextOne by omega]
        · simp [Mem.allocOne, Mem.allocTwo, Function.update_apply, ownTwo, show a ≠ m.nextTwo by omega]
  | setRef =>
    obtain ⟨m, o⟩ := x
    obtain ⟨⟨⟨a1, a2⟩, b1, b2⟩, ⟨c1, c2, c3⟩, d1, d2, d3⟩ := hx
    dsimp only at a1 a2 b1 b2 c1 c2 c3 d1 d2 d3
    simp only [GenGood, GenObj.step, genValue, GenObj.setRefInts, GenObj.view]
    refine ⟨?_, ?_⟩
    · simp [Except.map, Mem.allocOne, Mem.allocTwo, Function.update_apply, show o.one ≠ m.nextOne by omega,
          show o.two ≠ m.nextTwo by omega]
    · intro y hy
      injection hy with hy
      subst hy
      refine ⟨⟨⟨?_, ?_⟩, ?_, ?_⟩, fun a ha => ?_, fun a ha => ?_⟩
      · simp [Mem.allocOne, Mem.allocTwo]; omega
      · simp [Mem.allocOne, Mem.allocTwo]; omega
      · simp [Mem.allocOne, Mem.allocTwo]; omega
      · simp [Mem.allocOne, Mem.allocTwo]; omega
      · simp [Mem.allocOne, Mem.allocTwo, Function.update_apply, ownOne, show a ≠ m.nextOne by omega]
      · simp [Mem.allocOne, Mem.allocTwo, Function.update_apply, ownTwo, show a ≠ m.nextTwo by omega]
  | cache =>
    refine ⟨rfl, fun y hy => ?_⟩
    injection hy with hy
    subst hy
    exact ⟨⟨⟨hx.one, hx.two⟩, hx.cone, hx.ctwo⟩, fun _ _ => rfl, fun _ _ => rfl⟩
  | writeOne b h =>
    obtain ⟨m, o⟩ := x
    obtain ⟨⟨⟨a1, a2⟩, b1, b2⟩, ⟨c1, c2, c3⟩, d1, d2, d3⟩ := hx
    dsimp only at a1 a2 b1 b2 c1 c2 c3 d1 d2 d3
    have hb : b < n := hev
    refine ⟨?_, fun y hy => ?_⟩
    · simp [GenObj.step, genValue, GenObj.view, Except.map, Mem.modifyOne, Function.update_apply,
        show o.one ≠ b by omega, show o.refOne ≠ b by omega]
    · injection hy with hy
      subst hy
      refine ⟨⟨⟨⟨a1, a2⟩, b1, b2⟩, ⟨c1, c2, c3⟩, d1, d2, d3⟩, fun a ha => ?_, fun a ha => rfl⟩
      simp [Mem.modifyOne, Function.update_apply, ownOne]
  | writeTwo b h =>
    obtain ⟨m, o⟩ := x
    obtain ⟨⟨⟨a1, a2⟩, b1, b2⟩, ⟨c1, c2, c3⟩, d1, d2, d3⟩ := hx
    dsimp only at a1 a2 b1 b2 c1 c2 c3 d1 d2 d3
    have hb : b < k := hev
    refine ⟨?_, fun y hy => ?_⟩
    · simp [GenObj.step, genValue, GenObj.view, Except.map, Mem.modifyTwo, Function.update_apply,
        show o.two ≠ b by omega, show o.refTwo ≠ b by omega]
    · injection hy with hy
      subst hy
      refine ⟨⟨⟨⟨a1, a2⟩, b1, b2⟩, ⟨c1, c2, c3⟩, d1, d2, d3⟩, fun a ha => rfl, fun a ha => ?_⟩
      simp [Mem.modifyTwo, Function.update_apply, ownTwo]

theorem gen_run_good (um : List R → Except PyErr (ℕ × (ℕ → ℕ → R))) (n k : ℕ) (evs : List (Event R))
    (hev : ∀ ev ∈ evs, ev.Own n k) (x : Mem R × GenObj R) (hx : GenSep n k x) :
    ((evs.foldlM (GenObj.step um) x).map fun y => y.2.view y.1) = evs.foldlM (genValue um) (x.2.view x.1) ∧
    ∀ y, evs.foldlM (GenObj.step um) x = .ok y →
      (∀ a < n, y.1.one a = evs.foldl (ownOne a) (x.1.one a)) ∧ ∀ a < k, y.1.two a = evs.foldl (ownTwo a) (x.1.two a) := by
  induction evs generalizing x with
  | nil => 
    refine ⟨rfl, fun y hy => ?_⟩
    injection hy with hy
    subst hy
    exact ⟨fun _ _ => rfl, fun _ _ => rfl⟩
  | cons ev evs ih =>
    obtain ⟨h1, h2⟩ := gen_step_good um n k x hx ev (hev _ (by simp))
    simp only [List.foldlM_cons]
    rcases hs : GenObj.step um x ev with e | z
    · rw [hs] at h1
      rw [← h1]
      exact ⟨rfl, fun y hy => by cases hy⟩
    · rw [hs] at h1
      rw [← h1]
      obtain ⟨h3, h4, h5⟩ := h2 z hs
      obtain ⟨h6, h7⟩ := ih (fun e he => hev e (by simp [he])) z h3
      refine ⟨h6, fun y hy => ?_⟩
      obtain ⟨h8, h9⟩ := h7 y hy
      refine ⟨fun a ha => ?_, fun a ha => ?_⟩
      · rw [h8 a ha, h4 a ha]; rfl
      · rw [h9 a ha, h5 a ha]; rfl

theorem gen_init_good (um : List R → Except PyErr (ℕ × (ℕ → ℕ → R))) (m : Mem R) (norb one two : ℕ)
    (params : Option (List R)) (update : Bool) (h1 : one < m.nextOne) (h2 : two < m.nextTwo) :
    ((GenObj.init um m norb one two params update).map fun y => y.2.view y.1) =
      GenState.init um norb (m.one one) (m.two two) params update ∧
    ∀ y, GenObj.init um m norb one two params update = .ok y → GenSep m.nextOne m.nextTwo y ∧
      (∀ a < m.nextOne, y.1.one a = m.one a) ∧ ∀ a < m.nextTwo, y.1.two a = m.two a := by
  let o : GenObj R :=
    { norb, one, two, refNorb := norb, refOne := one, refTwo := two, cIJIJ := fun _ _ => 0, cIJJI := fun _ _ => 0,
      params := [], prev := none, update }
  let r := o.setRefInts m
  have hr : GenRef m.nextOne m.nextTwo (r.1, r.2.cacheTwoInts r.1) := by
    refine ⟨?_, ?_⟩ <;> simp [r, GenObj.setRefInts, GenObj.cacheTwoInts, Mem.allocOne, Mem.allocTwo]
  have e1 : one ≠ m.nextOne := by omega
  have e2 : two ≠ m.nextTwo := by omega
  have hv : (r.2.cacheTwoInts r.1).view r.1 =
      { ham := GenHam.ofInts norb (m.one one) (m.two two), refNorb := norb, refOne := m.one one, refTwo := m.two two,
        params := [], prev := none, update } := by
    simp [r, o, GenObj.setRefInts, GenObj.cacheTwoInts, GenObj.view, Mem.allocOne, Mem.allocTwo, e1, e2, GenHam.ofInts,
      GenHam.cacheTwoInts]
  obtain ⟨g1, g2⟩ := gen_params_good um m.nextOne m.nextTwo (r.1, r.2.cacheTwoInts r.1) hr params .setRef
    (fun _ _ => rfl) fun _ _ => rfl
  refine ⟨?_, fun y hy => ?_⟩
  · dsimp only at g1
    rw [hv] at g1
    exact g1
  · obtain ⟨g3, g4, g5⟩ := g2 y hy
    refine ⟨g3, fun a ha => (g4 a ha).trans ?_, fun a ha => (g5 a ha).trans ?_⟩
    · simp [r, o, GenObj.setRefInts, ownOne, Mem.allocOne, Mem.allocTwo, show a ≠ m.nextOne by omega]
    · simp [r, o, GenObj.setRefInts, ownTwo, Mem.allocOne, Mem.allocTwo, show a ≠ m.nextTwo by omega]

/-! ### Unrestricted -/

/-- The unitary matrices of `assign_params`, with the parameters and the previous values. -/
def unrPlan (um : List R → Except PyErr (ℕ × (ℕ → ℕ → R))) (norb : ℕ)
    (prev : Option (List R × (ℕ × (ℕ → ℕ → R)) × (ℕ × (ℕ → ℕ → R)))) (params : Option (List R)) :
    Except PyErr (List R × (List R × (ℕ × (ℕ → ℕ → R)) × (ℕ × (ℕ → ℕ → R))) × (ℕ × (ℕ → ℕ → R)) × (ℕ × (ℕ → ℕ → R))) := do
  let numParams := norb * (norb - 1)
  let p := params.getD (List.replicate numParams 0)
  if p.length ≠ numParams then .error .valueError
  else do
    let half := numParams / 2
    let prev ← match prev with
      | some v => pure v
      | none => do
        let ua ← um ((List.replicate p.length 0).take half)
        let ub ← um ((List.replicate p.length 0).drop half)
        pure (List.replicate p.length 0, ua, ub)
    let diff := subParams p prev.1
    let da ← um (diff.take half)
    let ua ← dotSquare prev.2.1 da
    let db ← um (diff.drop half)
    let ub ← dotSquare prev.2.2 db
    return (p, prev, ua, ub)

theorem unr_pure_eq (um : List R → Except PyErr (ℕ × (ℕ → ℕ → R))) (S : UnrState R) (params : Option (List R)) :
    S.assignParams um params = (unrPlan um S.ham.norb S.prev params).bind fun r =>
      ((S.ref.rotateMatrix r.2.2.1.1 r.2.2.2.1 r.2.2.1.1 r.2.2.1.2 r.2.2.2.2).map
        fun H => { S with
          ham := H.cacheTwoInts
          params := r.1
          prev := some (if S.update then (r.1, r.2.2.1, r.2.2.2) else r.2.1) }) := by
  unfold UnrState.assignParams unrPlan
  dsimp only
  split
  · rfl
  · rcases S.prev with _ | v
    · dsimp only
      simp only [pure, Except.pure, bind]
      rcases um (List.take _ (List.replicate _ _)) with e | a
      · rfl
      simp only [Except.bind]
      rcases um (List.drop _ (List.replicate _ _)) with e | b
      · rfl
      simp only [Except.bind]
      rcases um (List.take _ (subParams _ _)) with e | a1
      · rfl
      simp only [Except.bind]
      rcases dotSquare a a1 with e | a2
      · rfl
      simp only [Except.bind]
      rcases um (List.drop _ (subParams _ _)) with e | b1
      · rfl
      simp only [Except.bind]
      rcases dotSquare b b1 with e | b2
      · rfl
      simp only [Except.bind]
      rcases UnrHam.rotateMatrix _ _ _ _ _ _ with e | H <;> rfl
    · dsimp only
      simp only [pure, Except.pure, bind, Except.bind]
      rcases um (List.take _ (subParams _ _)) with e | a1
      · rfl
      simp only [Except.bind]
      rcases dotSquare v.2.1 a1 with e | a2
      · rfl
      simp only [Except.bind]
      rcases um (List.drop _ (subParams _ _)) with e | b1
      · rfl
      simp only [Except.bind]
      rcases dotSquare v.2.2 b1 with e | b2
      · rfl
      simp only [Except.bind]
      rcases UnrHam.rotateMatrix _ _ _ _ _ _ with e | H <;> rfl

theorem unr_heap_eq (um : List R → Except PyErr (ℕ × (ℕ → ℕ → R))) (m : Mem R) (o : UnrObj R) (params : Option (List R)) :
    o.assignParams um m params = (unrPlan um o.norb o.prev params).bind fun r =>
      (((o.assignIntegrals o.refNorb (copyCells m o.ref).2).rotateMatrix (copyCells m o.ref).1 r.2.2.1.1 r.2.2.2.1 r.2.2.1.1
        r.2.2.1.2 r.2.2.2.2).map fun z =>
        (z.1, UnrObj.cacheTwoInts z.1 { z.2 with
          params := r.1
          prev := some (if o.update then (r.1, r.2.2.1, r.2.2.2) else r.2.1) })) := by
  unfold UnrObj.assignParams unrPlan
  dsimp only
  split
  · rfl
  · rcases o.prev with _ | v
    · dsimp only
      simp only [pure, Except.pure, bind]
      rcases um (List.take _ (List.replicate _ _)) with e | a
      · rfl
      simp only [Except.bind]
      rcases um (List.drop _ (List.replicate _ _)) with e | b
      · rfl
      simp only [Except.bind]
      rcases um (List.take _ (subParams _ _)) with e | a1
      · rfl
      simp only [Except.bind]
      rcases dotSquare a a1 with e | a2
      · rfl
      simp only [Except.bind]
      rcases um (List.drop _ (subParams _ _)) with e | b1
      · rfl
      simp only [Except.bind]
      rcases dotSquare b b1 with e | b2
      · rfl
      simp only [Except.bind]
      rcases UnrObj.rotateMatrix _ _ _ _ _ _ _ with e | H <;> rfl
    · dsimp only
      simp only [pure, Except.pure, bind, Except.bind]
      rcases um (List.take _ (subParams _ _)) with e | a1
      · rfl
      simp only [Except.bind]
      rcases dotSquare v.2.1 a1 with e | a2
      · rfl
      simp only [Except.bind]
      rcases um (List.drop _ (subParams _ _)) with e | b1
      · rfl
      simp only [Except.bind]
      rcases dotSquare v.2.2 b1 with e | b2
      · rfl
      simp only [Except.bind]
      rcases UnrObj.rotateMatrix _ _ _ _ _ _ _ with e | H <;> rfl

/-- The places are in use, and not the caller's. -/
structure Cells.In (n k : ℕ) (m : Mem R) (x : Cells) : Prop where
  oneA : n ≤ x.oneA ∧ x.oneA < m.nextOne
  oneB : n ≤ x.oneB ∧ x.oneB < m.nextOne
  twoAA : k ≤ x.twoAA ∧ x.twoAA < m.nextTwo
  twoAB : k ≤ x.twoAB ∧ x.twoAB < m.nextTwo
  twoBB : k ≤ x.twoBB ∧ x.twoBB < m.nextTwo

/-- The five arrays are different arrays. -/
structure Cells.Distinct (x : Cells) : Prop where
  one : x.oneA ≠ x.oneB
  aaab : x.twoAA ≠ x.twoAB
  aabb : x.twoAA ≠ x.twoBB
  abbb : x.twoAB ≠ x.twoBB

/-- No array of the one is an array of the other. -/
structure Cells.Apart (x y : Cells) : Prop where
  aa : x.oneA ≠ y.oneA
  ab : x.oneA ≠ y.oneB
  ba : x.oneB ≠ y.oneA
  bb : x.oneB ≠ y.oneB
  t11 : x.twoAA ≠ y.twoAA
  t12 : x.twoAA ≠ y.twoAB
  t13 : x.twoAA ≠ y.twoBB
  t21 : x.twoAB ≠ y.twoAA
  t22 : x.twoAB ≠ y.twoAB
  t23 : x.twoAB ≠ y.twoBB
  t31 : x.twoBB ≠ y.twoAA
  t32 : x.twoBB ≠ y.twoAB
  t33 : x.twoBB ≠ y.twoBB

/-- The arrays of the Hamiltonian are its own. -/
structure UnrSep (n k : ℕ) (x : Mem R × UnrObj R) : Prop where
  ref : x.2.ref.In n k x.1
  cur : x.2.cur.In n k x.1
  dist : x.2.cur.Distinct
  apart : x.2.cur.Apart x.2.ref

section
variable (m : Mem R) (hA hB : ℕ → ℕ → R) (gAA gAB gBB : ℕ → ℕ → ℕ → ℕ → R)

omit [CommRing R] in
theorem newCells_oneA : (newCells m hA hB gAA gAB gBB).1.one (newCells m hA hB gAA gAB gBB).2.oneA = hA := by
  simp [newCells, Mem.allocOne, Mem.allocTwo, Function.update_apply]

omit [CommRing R] in
theorem newCells_oneB : (newCells m hA hB gAA gAB gBB).1.one (newCells m hA hB gAA gAB gBB).2.oneB = hB := by
  simp [newCells, Mem.allocOne, Mem.allocTwo]

omit [CommRing R] in
theorem newCells_twoAA : (newCells m hA hB gAA gAB gBB).1.two (newCells m hA hB gAA gAB gBB).2.twoAA = gAA := by
  simp [newCells, Mem.allocOne, Mem.allocTwo, Function.update_apply]
  omega

omit [CommRing R] in
theorem newCells_twoAB : (newCells m hA hB gAA gAB gBB).1.two (newCells m hA hB gAA gAB gBB).2.twoAB = gAB := by
  simp [newCells, Mem.allocOne, Mem.allocTwo, Function.update_apply]

omit [CommRing R] in
theorem newCells_twoBB : (newCells m hA hB gAA gAB gBB).1.two (newCells m hA hB gAA gAB gBB).2.twoBB = gBB := by
  simp [newCells, Mem.allocOne, Mem.allocTwo]

omit [CommRing R] in
theorem newCells_one {a : ℕ} (ha : a < m.nextOne) : (newCells m hA hB gAA gAB gBB).1.one a = m.one a := by
  simp [newCells, Mem.allocOne, Mem.allocTwo, Function.update_apply, show a ≠ m.nextOne by omega,
    show a ≠ m.nextOne + 1 by omega]

omit [CommRing R] in
theorem newCells_two {a : ℕ} (ha : a < m.nextTwo) : (newCells m hA hB gAA gAB gBB).1.two a = m.two a := by
  simp [newCells, Mem.allocOne, Mem.allocTwo, Function.update_apply, show a ≠ m.nextTwo by omega,
    show a ≠ m.nextTwo + 1 by omega, show a ≠ m.nextTwo + 1 + 1 by omega]

omit [CommRing R] in
theorem newCells_next : (newCells m hA hB gAA gAB gBB).1.nextOne = m.nextOne + 2 ∧
    (newCells m hA hB gAA gAB gBB).1.nextTwo = m.nextTwo + 3 := ⟨rfl, rfl⟩

omit [CommRing R] in
theorem newCells_cells : (newCells m hA hB gAA gAB gBB).2 =
    ⟨m.nextOne, m.nextOne + 1, m.nextTwo, m.nextTwo + 1, m.nextTwo + 2⟩ := rfl

omit [CommRing R] in
theorem newCells_in {n k : ℕ} (h1 : n ≤ m.nextOne) (h2 : k ≤ m.nextTwo) :
    (newCells m hA hB gAA gAB gBB).2.In n k (newCells m hA hB gAA gAB gBB).1 := by
  obtain ⟨e1, e2⟩ := newCells_next m hA hB gAA gAB gBB
  rw [newCells_cells]
  constructor <;> simp only [e1, e2] <;> omega

omit [CommRing R] in
theorem newCells_distinct : (newCells m hA hB gAA gAB gBB).2.Distinct := by
  rw [newCells_cells]
  constructor <;> dsimp only <;> omega

omit [CommRing R] in
theorem In.grow {n k : ℕ} {x : Cells} (hx : x.In n k m) : x.In n k (newCells m hA hB gAA gAB gBB).1 := by
  obtain ⟨e1, e2⟩ := newCells_next m hA hB gAA gAB gBB
  obtain ⟨h1, h2, h3, h4, h5⟩ := hx
  constructor <;> simp only [e1, e2] <;> omega

omit [CommRing R] in
theorem newCells_apart {n k : ℕ} {x : Cells} (hx : x.In n k m) : (newCells m hA hB gAA gAB gBB).2.Apart x := by
  obtain ⟨h1, h2, h3, h4, h5⟩ := hx
  rw [newCells_cells]
  constructor <;> dsimp only <;> omega

omit [CommRing R] in
theorem Apart.symm {x y : Cells} (h : x.Apart y) : y.Apart x := by
  obtain ⟨h1, h2, h3, h4, h5, h6, h7, h8, h9, h10, h11, h12, h13⟩ := h
  constructor <;> exact Ne.symm ‹_›

end

/-- What one event has to satisfy. -/
def UnrGood (n k : ℕ) (ev : Event R) (x : Mem R × UnrObj R) (r : Except PyErr (Mem R × UnrObj R))
    (v : Except PyErr (UnrState R)) : Prop :=
  (r.map fun y => y.2.view y.1) = v ∧ ∀ y, r = .ok y → UnrSep n k y ∧
    (∀ a < n, y.1.one a = ownOne a (x.1.one a) ev) ∧ ∀ a < k, y.1.two a = ownTwo a (x.1.two a) ev

theorem unr_params_good (um : List R → Except PyErr (ℕ × (ℕ → ℕ → R))) (n k : ℕ) (x : Mem R × UnrObj R)
    (hx : x.2.ref.In n k x.1) (p : Option (List R)) (ev : Event R) (h1 : ∀ a h, ownOne a h ev = h)
    (h2 : ∀ a g, ownTwo a g ev = g) :
    UnrGood n k ev x (x.2.assignParams um x.1 p) ((x.2.view x.1).assignParams um p) := by
  obtain ⟨m, o⟩ := x
  dsimp only at hx
  unfold UnrGood
  rw [unr_pure_eq, unr_heap_eq]
  show Except.map _ (Except.bind (unrPlan um o.norb o.prev p) _) = Except.bind (unrPlan um o.norb o.prev p) _ ∧ _
  have hn : n ≤ m.nextOne := by have := hx.oneA; omega
  have hk : k ≤ m.nextTwo := by have := hx.twoAA; omega
  rcases unrPlan um o.norb o.prev p with e | ⟨pp, prev, ⟨d, u⟩, d', v⟩
  · exact ⟨rfl, fun y hy => by cases hy⟩
  · dsimp only [Except.bind]
    set r := copyCells m o.ref with hr
    have r1 : ∀ a < m.nextOne, r.1.one a = m.one a := fun a ha => newCells_one _ _ _ _ _ _ ha
    have r2 : ∀ a < m.nextTwo, r.1.two a = m.two a := fun a ha => newCells_two _ _ _ _ _ _ ha
    have rA : r.1.one r.2.oneA = m.one o.ref.oneA := newCells_oneA _ _ _ _ _ _
    have rB : r.1.one r.2.oneB = m.one o.ref.oneB := newCells_oneB _ _ _ _ _ _
    have rAA : r.1.two r.2.twoAA = m.two o.ref.twoAA := newCells_twoAA _ _ _ _ _ _
    have rAB : r.1.two r.2.twoAB = m.two o.ref.twoAB := newCells_twoAB _ _ _ _ _ _
    have rBB : r.1.two r.2.twoBB = m.two o.ref.twoBB := newCells_twoBB _ _ _ _ _ _
    have rn1 : r.1.nextOne = m.nextOne + 2 := rfl
    have rn2 : r.1.nextTwo = m.nextTwo + 3 := rfl
    have rin : o.ref.In n k r.1 := In.grow _ _ _ _ _ _ hx
    clear_value r
    by_cases e1 : ¬(d = o.refNorb ∧ d' = o.refNorb)
    · rw [show (o.assignIntegrals o.refNorb r.2).rotateMatrix r.1 d d' d u v = _ from if_pos e1,
        show (o.view m).ref.rotateMatrix d d' d u v = _ from if_pos e1]
      exact ⟨rfl, fun y hy => by cases hy⟩
    · rw [show (o.assignIntegrals o.refNorb r.2).rotateMatrix r.1 d d' d u v = _ from if_neg e1,
        show (o.view m).ref.rotateMatrix d d' d u v = _ from if_neg e1]
      dsimp only [UnrObj.assignIntegrals]
      set w := newCells r.1 (matrixOne o.refNorb u (r.1.one r.2.oneA)) (matrixOne o.refNorb v (r.1.one r.2.oneB))
        (matrixTwo o.refNorb u u (r.1.two r.2.twoAA)) (matrixTwo o.refNorb u v (r.1.two r.2.twoAB))
        (matrixTwo o.refNorb v v (r.1.two r.2.twoBB)) with hw
      have w1 : ∀ a < r.1.nextOne, w.1.one a = r.1.one a := fun a ha => newCells_one _ _ _ _ _ _ ha
      have w2 : ∀ a < r.1.nextTwo, w.1.two a = r.1.two a := fun a ha => newCells_two _ _ _ _ _ _ ha
      have wA : w.1.one w.2.oneA = matrixOne o.refNorb u (m.one o.ref.oneA) := by
        rw [← rA]; exact newCells_oneA _ _ _ _ _ _
      have wB : w.1.one w.2.oneB = matrixOne o.refNorb v (m.one o.ref.oneB) := by
        rw [← rB]; exact newCells_oneB _ _ _ _ _ _
      have wAA : w.1.two w.2.twoAA = matrixTwo o.refNorb u u (m.two o.ref.twoAA) := by
        rw [← rAA]; exact newCells_twoAA _ _ _ _ _ _
      have wAB : w.1.two w.2.twoAB = matrixTwo o.refNorb u v (m.two o.ref.twoAB) := by
        rw [← rAB]; exact newCells_twoAB _ _ _ _ _ _
      have wBB : w.1.two w.2.twoBB = matrixTwo o.refNorb v v (m.two o.ref.twoBB) := by
        rw [← rBB]; exact newCells_twoBB _ _ _ _ _ _
      have win : o.ref.In n k w.1 := In.grow _ _ _ _ _ _ rin
      have win' : w.2.In n k w.1 := newCells_in _ _ _ _ _ _ (by omega) (by omega)
      have wd : w.2.Distinct := newCells_distinct _ _ _ _ _ _
      have wa : w.2.Apart o.ref := newCells_apart _ _ _ _ _ _ rin
      clear_value w
      obtain ⟨i1, i2, i3, i4, i5⟩ := hx
      refine ⟨?_, ?_⟩
      · simp only [Except.map, UnrObj.view, UnrObj.cacheTwoInts, UnrHam.cacheTwoInts, wA, wB, wAA, wAB, wBB,
          w1 _ (show o.ref.oneA < r.1.nextOne by omega), r1 _ i1.2, w1 _ (show o.ref.oneB < r.1.nextOne by omega), r1 _ i2.2,
          w2 _ (show o.ref.twoAA < r.1.nextTwo by omega), r2 _ i3.2, w2 _ (show o.ref.twoAB < r.1.nextTwo by omega), r2 _ i4.2,
          w2 _ (show o.ref.twoBB < r.1.nextTwo by omega), r2 _ i5.2]
        rfl
      · intro y hy
        injection hy with hy
        subst hy
        refine ⟨⟨win, win', wd, wa⟩, fun a ha => ?_, fun a ha => ?_⟩
        · rw [h1]
          exact (w1 a (by omega)).trans (r1 a (by omega))
        · rw [h2]
          exact (w2 a (by omega)).trans (r2 a (by omega))

theorem unr_step_good (um : List R → Except PyErr (ℕ × (ℕ → ℕ → R))) (n k : ℕ) (x : Mem R × UnrObj R)
    (hx : UnrSep n k x) (ev : Event R) (hev : ev.Own n k) :
    UnrGood n k ev x (UnrObj.step um x ev) (unrValue um (x.2.view x.1) ev) := by
  cases ev with
  | params p => exact unr_params_good um n k x hx.ref p _ (fun _ _ => rfl) fun _ _ => rfl
  | jacobi p q c s =>
    obtain ⟨m, o⟩ := x
    obtain ⟨⟨a1, a2, a3, a4, a5⟩, ⟨b1, b2, b3, b4, b5⟩, ⟨d1, d2, d3, d4⟩,
      ⟨g1, g2, g3, g4, g5, g6, g7, g8, g9, g10, g11, g12, g13⟩⟩ := hx
    have hsep : UnrSep n k (m, o) := ⟨⟨a1, a2, a3, a4, a5⟩, ⟨b1, b2, b3, b4, b5⟩, ⟨d1, d2, d3, d4⟩,
      ⟨g1, g2, g3, g4, g5, g6, g7, g8, g9, g10, g11, g12, g13⟩⟩
    dsimp only at a1 a2 a3 a4 a5 b1 b2 b3 b4 b5 d1 d2 d3 d4 g1 g2 g3 g4 g5 g6 g7 g8 g9 g10 g11 g12 g13
    show UnrGood n k _ _ (o.rotateJacobi m p q c s)
      (((o.view m).ham.rotateJacobi p q c s).map fun H => { o.view m with ham := H })
    by_cases e1 : p = q
    · rw [show o.rotateJacobi m p q c s = _ from if_pos e1, show (o.view m).ham.rotateJacobi p q c s = _ from if_pos e1]
      exact ⟨rfl, fun y hy => by cases hy⟩
    by_cases e2 : ¬(0 ≤ p ∧ p < 2 * o.norb ∧ 0 ≤ q ∧ q < 2 * o.norb)
    · rw [show o.rotateJacobi m p q c s = _ from (if_neg e1).trans (if_pos e2),
        show (o.view m).ham.rotateJacobi p q c s = _ from (if_neg e1).trans (if_pos e2)]
      exact ⟨rfl, fun y hy => by cases hy⟩
    by_cases e3 : p.toNat / o.norb ≠ q.toNat / o.norb
    · rw [show o.rotateJacobi m p q c s = _ from (if_neg e1).trans ((if_neg e2).trans (if_pos e3)),
        show (o.view m).ham.rotateJacobi p q c s = _ from (if_neg e1).trans ((if_neg e2).trans (if_pos e3))]
      exact ⟨rfl, fun y hy => by cases hy⟩
    have hm : (o.view m).ham.norb = o.norb := rfl
    rw [show o.rotateJacobi m p q c s = _ from (if_neg e1).trans ((if_neg e2).trans (if_neg e3)),
        show (o.view m).ham.rotateJacobi p q c s = _ from (if_neg e1).trans ((if_neg e2).trans (if_neg e3))]
    dsimp only
    rw [hm]
    generalize (if p > q then (q.toNat, p.toNat) else (p.toNat, q.toNat)) = pq
    generalize pq.1 % o.norb = i
    generalize pq.2 % o.norb = j
    by_cases e4 : pq.1 / o.norb = 0
    · rw [if_pos e4, if_pos e4]
      refine ⟨?_, ?_⟩
      · simp [UnrObj.view, Except.map, Mem.modifyOne, Mem.modifyTwo, d1.symm, d2, d2.symm, d3.symm, d4.symm, g1.symm,
          g2.symm, g5.symm, g6.symm, g7.symm, g8.symm, g9.symm, g10.symm]
      · intro y hy
        injection hy with hy
        subst hy
        refine ⟨⟨⟨a1, a2, a3, a4, a5⟩, ⟨b1, b2, b3, b4, b5⟩, hsep.dist, hsep.apart⟩, fun a ha => ?_, fun a ha => ?_⟩
        · simp [Mem.modifyOne, Mem.modifyTwo, ownOne, show a ≠ o.cur.oneA by omega]
        · simp [Mem.modifyOne, Mem.modifyTwo, ownTwo, show a ≠ o.cur.twoAA by omega, show a ≠ o.cur.twoAB by omega]
    · rw [if_neg e4, if_neg e4]
      refine ⟨?_, ?_⟩
      · simp [UnrObj.view, Except.map, Mem.modifyOne, Mem.modifyTwo, d1, d2, d3, d4, d4.symm, g3.symm,
          g4.symm, g8.symm, g9.symm, g10.symm, g11.symm, g12.symm, g13.symm]
      · intro y hy
        injection hy with hy
        subst hy
        refine ⟨⟨⟨a1, a2, a3, a4, a5⟩, ⟨b1, b2, b3, b4, b5⟩, hsep.dist, hsep.apart⟩, fun a ha => ?_, fun a ha => ?_⟩
        · simp [Mem.modifyOne, Mem.modifyTwo, ownOne, show a ≠ o.cur.oneB by omega]
        · simp [Mem.modifyOne, Mem.modifyTwo, ownTwo, show a ≠ o.cur.twoBB by omega, show a ≠ o.cur.twoAB by omega]
  | matrix rowsA rowsB cols u v =>
    obtain ⟨m, o⟩ := x
    obtain ⟨h1, h2, h3, h4⟩ := hx
    dsimp only at h1 h2 h3 h4
    have hn : n ≤ m.nextOne := by have := h1.oneA; omega
    have hk : k ≤ m.nextTwo := by have := h1.twoAA; omega
    show UnrGood n k _ _ (o.rotateMatrix m rowsA rowsB cols u v)
      (((o.view m).ham.rotateMatrix rowsA rowsB cols u v).map fun H => { o.view m with ham := H })
    by_cases e1 : ¬(rowsA = o.norb ∧ rowsB = o.norb)
    · rw [show o.rotateMatrix m rowsA rowsB cols u v = _ from if_pos e1,
        show (o.view m).ham.rotateMatrix rowsA rowsB cols u v = _ from if_pos e1]
      exact ⟨rfl, fun y hy => by cases hy⟩
    · rw [show o.rotateMatrix m rowsA rowsB cols u v = _ from if_neg e1,
        show (o.view m).ham.rotateMatrix rowsA rowsB cols u v = _ from if_neg e1]
      dsimp only
      refine ⟨?_, ?_⟩
      · simp only [Except.map, UnrObj.view, newCells_oneA, newCells_oneB, newCells_twoAA, newCells_twoAB, newCells_twoBB,
          newCells_one _ _ _ _ _ _ h1.oneA.2, newCells_one _ _ _ _ _ _ h1.oneB.2, newCells_two _ _ _ _ _ _ h1.twoAA.2,
          newCells_two _ _ _ _ _ _ h1.twoAB.2, newCells_two _ _ _ _ _ _ h1.twoBB.2]
      · intro y hy
        injection hy with hy
        subst hy
        exact ⟨⟨In.grow _ _ _ _ _ _ h1, newCells_in _ _ _ _ _ _ hn hk, newCells_distinct _ _ _ _ _ _,
          newCells_apart _ _ _ _ _ _ h1⟩, fun a ha => newCells_one _ _ _ _ _ _ (by omega),
          fun a ha => newCells_two _ _ _ _ _ _ (by omega)⟩
  | setRef =>
    obtain ⟨m, o⟩ := x
    obtain ⟨h1, h2, h3, h4⟩ := hx
    dsimp only at h1 h2 h3 h4
    have hn : n ≤ m.nextOne := by have := h1.oneA; omega
    have hk : k ≤ m.nextTwo := by have := h1.twoAA; omega
    refine ⟨?_, ?_⟩
    · simp only [UnrObj.step, unrValue, UnrObj.setRefInts, copyCells, Except.map, UnrObj.view, newCells_oneA,
        newCells_oneB, newCells_twoAA, newCells_twoAB, newCells_twoBB,
        newCells_one _ _ _ _ _ _ h2.oneA.2, newCells_one _ _ _ _ _ _ h2.oneB.2, newCells_two _ _ _ _ _ _ h2.twoAA.2,
        newCells_two _ _ _ _ _ _ h2.twoAB.2, newCells_two _ _ _ _ _ _ h2.twoBB.2]
      rfl
    · intro y hy
      injection hy with hy
      subst hy
      exact ⟨⟨newCells_in _ _ _ _ _ _ hn hk, In.grow _ _ _ _ _ _ h2, h3,
          Apart.symm (newCells_apart _ _ _ _ _ _ h2)⟩, fun a ha => newCells_one _ _ _ _ _ _ (lt_of_lt_of_le ha hn),
          fun a ha => newCells_two _ _ _ _ _ _ (lt_of_lt_of_le ha hk)⟩
  | cache =>
    refine ⟨rfl, fun y hy => ?_⟩
    injection hy with hy
    subst hy
    exact ⟨⟨hx.ref, hx.cur, hx.dist, hx.apart⟩, fun _ _ => rfl, fun _ _ => rfl⟩
  | writeOne b h =>
    obtain ⟨m, o⟩ := x
    have hb : b < n := hev
    obtain ⟨h1, h2, h3, h4⟩ := hx
    dsimp only at h1 h2 h3 h4
    refine ⟨?_, fun y hy => ?_⟩
    · have i1 := h1.oneA
      have i2 := h1.oneB
      have i3 := h2.oneA
      have i4 := h2.oneB
      simp [UnrObj.step, unrValue, UnrObj.view, Except.map, Mem.modifyOne,
        show o.ref.oneA ≠ b by omega, show o.ref.oneB ≠ b by omega, show o.cur.oneA ≠ b by omega,
        show o.cur.oneB ≠ b by omega]
    · injection hy with hy
      subst hy
      refine ⟨⟨⟨h1.1, h1.2, h1.3, h1.4, h1.5⟩, ⟨h2.1, h2.2, h2.3, h2.4, h2.5⟩, h3, h4⟩, fun a ha => ?_, fun a ha => rfl⟩
      simp [Mem.modifyOne, Function.update_apply, ownOne]
  | writeTwo b h =>
    obtain ⟨m, o⟩ := x
    have hb : b < k := hev
    obtain ⟨h1, h2, h3, h4⟩ := hx
    dsimp only at h1 h2 h3 h4
    refine ⟨?_, fun y hy => ?_⟩
    · have i1 := h1.twoAA
      have i2 := h1.twoAB
      have i3 := h1.twoBB
      have i4 := h2.twoAA
      have i5 := h2.twoAB
      have i6 := h2.twoBB
      simp [UnrObj.step, unrValue, UnrObj.view, Except.map, Mem.modifyTwo,
        show o.ref.twoAA ≠ b by omega, show o.ref.twoAB ≠ b by omega, show o.ref.twoBB ≠ b by omega,
        show o.cur.twoAA ≠ b by omega, show o.cur.twoAB ≠ b by omega, show o.cur.twoBB ≠ b by omega]
    · injection hy with hy
      subst hy
      refine ⟨⟨⟨h1.1, h1.2, h1.3, h1.4, h1.5⟩, ⟨h2.1, h2.2, h2.3, h2.4, h2.5⟩, h3, h4⟩, fun a ha => rfl, fun a ha => ?_⟩
      simp [Mem.modifyTwo, Function.update_apply, ownTwo]

theorem unr_run_good (um : List R → Except PyErr (ℕ × (ℕ → ℕ → R))) (n k : ℕ) (evs : List (Event R))
    (hev : ∀ ev ∈ evs, ev.Own n k) (x : Mem R × UnrObj R) (hx : UnrSep n k x) :
    ((evs.foldlM (UnrObj.step um) x).map fun y => y.2.view y.1) = evs.foldlM (unrValue um) (x.2.view x.1) ∧
    ∀ y, evs.foldlM (UnrObj.step um) x = .ok y →
      (∀ a < n, y.1.one a = evs.foldl (ownOne a) (x.1.one a)) ∧ ∀ a < k, y.1.two a = evs.foldl (ownTwo a) (x.1.two a) := by
  induction evs generalizing x with
  | nil =>
    refine ⟨rfl, fun y hy => ?_⟩
    injection hy with hy
    subst hy
    exact ⟨fun _ _ => rfl, fun _ _ => rfl⟩
  | cons ev evs ih =>
    obtain ⟨h1, h2⟩ := unr_step_good um n k x hx ev (hev _ (by simp))
    simp only [List.foldlM_cons]
    rcases hs : UnrObj.step um x ev with e | z
    · rw [hs] at h1
      rw [← h1]
      exact ⟨rfl, fun y hy => by cases hy⟩
    · rw [hs] at h1
      rw [← h1]
      obtain ⟨h3, h4, h5⟩ := h2 z hs
      obtain ⟨h6, h7⟩ := ih (fun e he => hev e (by simp [he])) z h3
      refine ⟨h6, fun y hy => ?_⟩
      obtain ⟨h8, h9⟩ := h7 y hy
      refine ⟨fun a ha => ?_, fun a ha => ?_⟩
      · rw [h8 a ha, h4 a ha]; rfl
      · rw [h9 a ha, h5 a ha]; rfl

theorem unr_init_good (um : List R → Except PyErr (ℕ × (ℕ → ℕ → R))) (m : Mem R) (norb : ℕ) (x : Cells)
    (params : Option (List R)) (update : Bool) (hx : x.In 0 0 m) :
    ((UnrObj.init um m norb x params update).map fun y => y.2.view y.1) =
      UnrState.init um (UnrHam.ofInts norb (m.one x.oneA) (m.one x.oneB) (m.two x.twoAA) (m.two x.twoAB) (m.two x.twoBB))
        params update ∧
    ∀ y, UnrObj.init um m norb x params update = .ok y → UnrSep m.nextOne m.nextTwo y ∧
      (∀ a < m.nextOne, y.1.one a = m.one a) ∧ ∀ a < m.nextTwo, y.1.two a = m.two a := by
  let o : UnrObj R :=
    { norb, cur := x, refNorb := norb, ref := x, c0IJIJ := fun _ _ => 0, c1IJIJ := fun _ _ => 0,
      c2IJIJ := fun _ _ => 0, c0IJJI := fun _ _ => 0, c2IJJI := fun _ _ => 0, params := [], prev := none, update }
  let r := o.setRefInts m
  have hr : (r.2.cacheTwoInts r.1).ref.In m.nextOne m.nextTwo r.1 := newCells_in _ _ _ _ _ _ le_rfl le_rfl
  have hv : (r.2.cacheTwoInts r.1).view r.1 =
      { ham := (UnrHam.ofInts norb (m.one x.oneA) (m.one x.oneB) (m.two x.twoAA) (m.two x.twoAB)
          (m.two x.twoBB)).cacheTwoInts,
        ref := UnrHam.ofInts norb (m.one x.oneA) (m.one x.oneB) (m.two x.twoAA) (m.two x.twoAB) (m.two x.twoBB),
        params := [], prev := none, update } := by
    simp only [r, o, UnrObj.setRefInts, UnrObj.cacheTwoInts, UnrObj.view, copyCells, newCells_oneA,
        newCells_oneB, newCells_twoAA, newCells_twoAB, newCells_twoBB,
        newCells_one _ _ _ _ _ _ hx.oneA.2, newCells_one _ _ _ _ _ _ hx.oneB.2, newCells_two _ _ _ _ _ _ hx.twoAA.2,
        newCells_two _ _ _ _ _ _ hx.twoAB.2, newCells_two _ _ _ _ _ _ hx.twoBB.2]
    rfl
  obtain ⟨g1, g2⟩ := unr_params_good um m.nextOne m.nextTwo (r.1, r.2.cacheTwoInts r.1) hr params .setRef
    (fun _ _ => rfl) fun _ _ => rfl
  refine ⟨?_, fun y hy => ?_⟩
  · dsimp only at g1
    rw [hv] at g1
    exact g1
  · obtain ⟨g3, g4, g5⟩ := g2 y hy
    exact ⟨g3, fun a ha => (g4 a ha).trans (newCells_one _ _ _ _ _ _ ha),
      fun a ha => (g5 a ha).trans (newCells_two _ _ _ _ _ _ ha)⟩

end Fanpy.IntHeap
