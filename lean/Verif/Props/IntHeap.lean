import Verif.Lemmas.IntHeap
import Mathlib.Tactic.NormNum

/-!
# C112: who owns the integrals of a Hamiltonian
-/

namespace Fanpy.Props
open Fanpy.Ham Fanpy.IntHeap

variable {R : Type} [CommRing R]

/-! ### The checks of `assign_integrals` -/

/-- **C112.** Generalized integrals are accepted iff they are an `n × n` array and an `n × n × n × n` array; the number type
does not matter. -/
theorem C112_check_gen (one two : Item) :
    checkGen one two = .ok () ↔ ∃ b b' n, one = .array b [n, n] ∧ two = .array b' [n, n, n, n] := by
  constructor
  · intro h
    rcases one with _ | ⟨b, s⟩
    · cases h
    rcases two with _ | ⟨b', t⟩
    · cases h
    unfold checkGen at h
    dsimp only at h
    split_ifs at h with h1 h2 h3
    obtain ⟨l1, l2⟩ := h1
    obtain ⟨k1, k2, k3, k4⟩ := h2
    rcases s with _ | ⟨s0, _ | ⟨s1, _ | _⟩⟩ <;> simp at l1
    rcases t with _ | ⟨t0, _ | ⟨t1, _ | ⟨t2, _ | ⟨t3, _ | _⟩⟩⟩⟩ <;> simp at k1
    simp at l2 k2 k3 k4 h3
    subst l2 h3 k2 k3 k4
    exact ⟨b, b', s0, rfl, rfl⟩
  · rintro ⟨b, b', n, rfl, rfl⟩
    simp [checkGen]

/-- **C112.** What is not an array is a `TypeError`, a wrong shape a `ValueError`. -/
theorem C112_check_gen_error (one two : Item) :
    (checkGen one two = .error .typeError ↔ one = .other ∨ two = .other) ∧
    (checkGen one two = .error .valueError ↔
      ∃ b b' s t, one = .array b s ∧ two = .array b' t ∧ ¬∃ n, s = [n, n] ∧ t = [n, n, n, n]) := by
  rcases one with _ | ⟨b, s⟩
  · simp [checkGen]
  rcases two with _ | ⟨b', t⟩
  · simp [checkGen]
  have hc := C112_check_gen (.array b s) (.array b' t)
  have hd : checkGen (.array b s) (.array b' t) = .ok () ∨ checkGen (.array b s) (.array b' t) = .error .valueError := by
    unfold checkGen
    dsimp only
    split_ifs <;> simp
  rcases hd with hd | hd
  · obtain ⟨x, x', n, e1, e2⟩ := hc.1 hd
    rw [hd]
    refine ⟨by simp, ?_⟩
    injection e1 with _ e1
    injection e2 with _ e2
    subst e1 e2
    simp
  · rw [hd]
    refine ⟨by simp, ?_⟩
    refine ⟨fun _ => ⟨b, b', s, t, rfl, rfl, ?_⟩, fun _ => rfl⟩
    rintro ⟨n, rfl, rfl⟩
    have := hc.2 ⟨b, b', n, rfl, rfl⟩
    rw [hd] at this
    cases this

example : checkGen (.array false [2, 2]) (.array true [2, 2, 2, 2]) = .ok () := by decide
example : checkGen (.array true [2, 2]) (.array true [3, 3, 3, 3]) = .error .valueError := by decide

/-- **C112.** Unrestricted integrals are accepted iff they are two `n × n` arrays and three `n × n × n × n` arrays of real
(double precision) or complex numbers. -/
theorem C112_check_unr (one two : Arg) :
    checkUnr one two = .ok () ↔ ∃ n, one = .seq [.array true [n, n], .array true [n, n]] ∧
      two = .seq [.array true [n, n, n, n], .array true [n, n, n, n], .array true [n, n, n, n]] := by
  constructor
  · intro h
    rcases one with _ | xs
    · cases h
    unfold checkUnr at h
    dsimp only at h
    by_cases h1 : ¬(xs.length = 2 ∧ xs.all Item.isFloat)
    · rw [if_pos h1] at h
      cases h
    rw [if_neg h1] at h
    rcases two with _ | ys
    · cases h
    dsimp only at h
    split_ifs at h with h2 h3 h4 h5 h6 h7
    push Not at h1
    obtain ⟨l1, l2⟩ := h1
    obtain ⟨k1, k2⟩ := h2
    rcases xs with _ | ⟨x0, _ | ⟨x1, _ | _⟩⟩ <;> simp at l1
    rcases ys with _ | ⟨y0, _ | ⟨y1, _ | ⟨y2, _ | _⟩⟩⟩ <;> simp at k1
    rcases x0 with _ | ⟨b0, s0⟩
    · simp [Item.isFloat] at l2
    rcases x1 with _ | ⟨b1, s1⟩
    · simp [Item.isFloat] at l2
    rcases y0 with _ | ⟨c0, t0⟩
    · simp [Item.isFloat] at k2
    rcases y1 with _ | ⟨c1, t1⟩
    · simp [Item.isFloat] at k2
    rcases y2 with _ | ⟨c2, t2⟩
    · simp [Item.isFloat] at k2
    simp [Item.isFloat] at l2 k2
    simp [Item.shape] at h3 h4 h5 h6 h7
    obtain ⟨rfl, rfl⟩ := l2
    obtain ⟨rfl, rfl, rfl⟩ := k2
    obtain ⟨⟨m1, m2⟩, _⟩ := h3
    obtain ⟨⟨p1, p2, p3, p4⟩, _⟩ := h4
    subst h5
    obtain ⟨rfl, rfl⟩ := h6
    rcases s0 with _ | ⟨u0, _ | ⟨u1, _ | _⟩⟩ <;> simp at m1
    rcases t0 with _ | ⟨v0, _ | ⟨v1, _ | ⟨v2, _ | ⟨v3, _ | _⟩⟩⟩⟩ <;> simp at p1
    simp at m2 p2 p3 p4 h7
    subst m2 h7 p2 p3 p4
    exact ⟨u0, rfl, rfl⟩
  · rintro ⟨n, rfl, rfl⟩
    simp [checkUnr, Item.isFloat, Item.shape]

/-- **C112.** The `TypeError`: not a list or tuple of two, and of three, such arrays. -/
theorem C112_check_unr_type (one two : Arg) :
    checkUnr one two = .error .typeError ↔
      ¬∃ s0 s1 t0 t1 t2, one = .seq [.array true s0, .array true s1] ∧
        two = .seq [.array true t0, .array true t1, .array true t2] := by
  constructor
  · rintro h ⟨s0, s1, t0, t1, t2, rfl, rfl⟩
    unfold checkUnr at h
    simp only [Item.isFloat, List.length_cons, List.length_nil, List.all_cons, List.all_nil] at h
    simp only [Bool.and_self, and_self, not_true, if_false] at h
    split_ifs at h <;> cases h
  · intro h
    rcases one with _ | xs
    · rfl
    by_cases h1 : ¬(xs.length = 2 ∧ xs.all Item.isFloat)
    · exact if_pos h1
    refine (if_neg h1).trans ?_
    rcases two with _ | ys
    · rfl
    refine if_pos ?_
    intro h2
    apply h
    push Not at h1
    obtain ⟨l1, l2⟩ := h1
    obtain ⟨k1, k2⟩ := h2
    rcases xs with _ | ⟨x0, _ | ⟨x1, _ | _⟩⟩ <;> simp at l1
    rcases ys with _ | ⟨y0, _ | ⟨y1, _ | ⟨y2, _ | _⟩⟩⟩ <;> simp at k1
    rcases x0 with _ | ⟨b0, s0⟩
    · simp [Item.isFloat] at l2
    rcases x1 with _ | ⟨b1, s1⟩
    · simp [Item.isFloat] at l2
    rcases y0 with _ | ⟨c0, t0⟩
    · simp [Item.isFloat] at k2
    rcases y1 with _ | ⟨c1, t1⟩
    · simp [Item.isFloat] at k2
    rcases y2 with _ | ⟨c2, t2⟩
    · simp [Item.isFloat] at k2
    simp [Item.isFloat] at l2 k2
    obtain ⟨rfl, rfl⟩ := l2
    obtain ⟨rfl, rfl, rfl⟩ := k2
    exact ⟨s0, s1, t0, t1, t2, rfl, rfl⟩

example : checkUnr (.seq [.array true [2, 2], .array false [2, 2]])
    (.seq [.array true [2, 2, 2, 2], .array true [2, 2, 2, 2], .array true [2, 2, 2, 2]]) = .error .typeError := by decide
example : checkUnr (.seq [.array true [2, 2], .array true [3, 3]])
    (.seq [.array true [2, 2, 2, 2], .array true [2, 2, 2, 2], .array true [2, 2, 2, 2]]) = .error .valueError := by decide

/-! ### Hamiltonians made by the constructors -/

/-- **C112.** A generalized or restricted chemical Hamiltonian owns its integrals: from the constructor on, after any calls of
its methods and any writes of the caller into its own arrays, the Hamiltonian is what it would be if integrals were values,
and the arrays of the caller contain what the caller has written. -/
theorem C112_values_gen_partial (um : List R → Except PyErr (ℕ × (ℕ → ℕ → R))) (m : Mem R) (norb one two : ℕ)
    (params : Option (List R)) (update : Bool) (evs : List (Event R)) (h1 : one < m.nextOne) (h2 : two < m.nextTwo)
    (hev : ∀ ev ∈ evs, ev.Own m.nextOne m.nextTwo) :
    (((GenObj.init um m norb one two params update).bind fun x => evs.foldlM (GenObj.step um) x).map fun y => y.2.view y.1) =
      ((GenState.init um norb (m.one one) (m.two two) params update).bind fun S => evs.foldlM (genValue um) S) ∧
    ∀ y, ((GenObj.init um m norb one two params update).bind fun x => evs.foldlM (GenObj.step um) x) = .ok y →
      (∀ a < m.nextOne, y.1.one a = evs.foldl (ownOne a) (m.one a)) ∧
      ∀ a < m.nextTwo, y.1.two a = evs.foldl (ownTwo a) (m.two a) := by
  obtain ⟨g1, g2⟩ := gen_init_good um m norb one two params update h1 h2
  rcases hi : GenObj.init um m norb one two params update with e | x
  · rw [hi] at g1
    rw [← g1]
    exact ⟨rfl, fun y hy => by cases hy⟩
  · rw [hi] at g1
    rw [← g1]
    obtain ⟨g3, g4, g5⟩ := g2 x hi
    obtain ⟨r1, r2⟩ := gen_run_good um _ _ evs hev x g3
    refine ⟨r1, fun y hy => ?_⟩
    obtain ⟨r3, r4⟩ := r2 y hy
    exact ⟨fun a ha => by rw [r3 a ha, g4 a ha], fun a ha => by rw [r4 a ha, g5 a ha]⟩

/-- **C112.** The same for an unrestricted chemical Hamiltonian, also if the caller gives the same array several times. -/
theorem C112_values_unr_partial (um : List R → Except PyErr (ℕ × (ℕ → ℕ → R))) (m : Mem R) (norb : ℕ) (x : Cells)
    (params : Option (List R)) (update : Bool) (evs : List (Event R)) (hA : x.oneA < m.nextOne) (hB : x.oneB < m.nextOne)
    (hAA : x.twoAA < m.nextTwo) (hAB : x.twoAB < m.nextTwo) (hBB : x.twoBB < m.nextTwo)
    (hev : ∀ ev ∈ evs, ev.Own m.nextOne m.nextTwo) :
    (((UnrObj.init um m norb x params update).bind fun z => evs.foldlM (UnrObj.step um) z).map fun y => y.2.view y.1) =
      ((UnrState.init um (UnrHam.ofInts norb (m.one x.oneA) (m.one x.oneB) (m.two x.twoAA) (m.two x.twoAB)
        (m.two x.twoBB)) params update).bind fun S => evs.foldlM (unrValue um) S) ∧
    ∀ y, ((UnrObj.init um m norb x params update).bind fun z => evs.foldlM (UnrObj.step um) z) = .ok y →
      (∀ a < m.nextOne, y.1.one a = evs.foldl (ownOne a) (m.one a)) ∧
      ∀ a < m.nextTwo, y.1.two a = evs.foldl (ownTwo a) (m.two a) := by
  obtain ⟨g1, g2⟩ := unr_init_good um m norb x params update
    ⟨⟨Nat.zero_le _, hA⟩, ⟨Nat.zero_le _, hB⟩, ⟨Nat.zero_le _, hAA⟩, ⟨Nat.zero_le _, hAB⟩, ⟨Nat.zero_le _, hBB⟩⟩
  rcases hi : UnrObj.init um m norb x params update with e | z
  · rw [hi] at g1
    rw [← g1]
    exact ⟨rfl, fun y hy => by cases hy⟩
  · rw [hi] at g1
    rw [← g1]
    obtain ⟨g3, g4, g5⟩ := g2 z hi
    obtain ⟨r1, r2⟩ := unr_run_good um _ _ evs hev z g3
    refine ⟨r1, fun y hy => ?_⟩
    obtain ⟨r3, r4⟩ := r2 y hy
    exact ⟨fun a ha => by rw [r3 a ha, g4 a ha], fun a ha => by rw [r4 a ha, g5 a ha]⟩

/-- A memory with one matrix and one tensor (place 0), for the examples. -/
def mem0 : Mem ℤ where
  one := fun _ i j => if i = 0 ∧ j = 0 then 1 else 0
  two := fun _ i j k l => if i = 0 ∧ j = 0 ∧ k = 0 ∧ l = 0 then 1 else 0
  nextOne := 1
  nextTwo := 1

/-- The identity for every set of parameters, for the examples. -/
def um0 (_ : List ℤ) : Except PyErr (ℕ × (ℕ → ℕ → ℤ)) := .ok (2, fun i j => if i = j then 1 else 0)

/-- The constructor succeeds on shared arrays, and a rotation and a write of the caller follow. -/
example : ∃ y, ((UnrObj.init um0 mem0 2 ⟨0, 0, 0, 0, 0⟩ none true).bind fun z =>
    [.jacobi 0 1 0 1, .writeOne 0 (fun _ _ => 7)].foldlM (UnrObj.step um0) z) = .ok y ∧
    (y.2.view y.1).ham.oneA 1 1 = 1 ∧ (y.2.view y.1).ham.oneB 0 0 = 1 ∧ y.1.one 0 0 0 = 7 := by
  refine ⟨_, rfl, ?_, ?_, ?_⟩ <;> decide +kernel

/-! ### Arrays that are given to `assign_integrals` -/

/-- **C112.** After `assign_integrals` (or the constructor of the base class) the arrays are still the caller's:
`orb_rotate_jacobi` rotates the caller's arrays, and nothing else. -/
theorem C112_direct_gen (m : Mem R) (o : GenObj R) (norb one two : ℕ) (p q : ℤ) (c s : R) :
    ((o.assignIntegrals norb one two).rotateJacobi m p q c s).map (fun y => (y.2, y.1.nextOne, y.1.nextTwo)) =
      (GenHam.rotateJacobi (GenHam.ofInts norb (m.one one) (m.two two)) p q c s).map
        (fun _ => (o.assignIntegrals norb one two, m.nextOne, m.nextTwo)) ∧
    ∀ y H, (o.assignIntegrals norb one two).rotateJacobi m p q c s = .ok y →
      GenHam.rotateJacobi (GenHam.ofInts norb (m.one one) (m.two two)) p q c s = .ok H →
      y.1.one one = H.one ∧ y.1.two two = H.two ∧ (∀ a, a ≠ one → y.1.one a = m.one a) ∧
      ∀ a, a ≠ two → y.1.two a = m.two a := by
  set A := (o.assignIntegrals norb one two).rotateJacobi m p q c s with hA
  set B := GenHam.rotateJacobi (GenHam.ofInts norb (m.one one) (m.two two)) p q c s with hB
  by_cases e1 : p = q
  · rw [show A = _ from if_pos e1, show B = _ from if_pos e1]
    exact ⟨rfl, fun y H hy => by cases hy⟩
  by_cases e2 : ¬(0 ≤ p ∧ p < norb ∧ 0 ≤ q ∧ q < norb)
  · rw [show A = _ from (if_neg e1).trans (if_pos e2), show B = _ from (if_neg e1).trans (if_pos e2)]
    exact ⟨rfl, fun y H hy => by cases hy⟩
  rw [show A = _ from (if_neg e1).trans (if_neg e2), show B = _ from (if_neg e1).trans (if_neg e2)]
  refine ⟨rfl, fun y H hy hH => ?_⟩
  injection hy with hy
  injection hH with hH
  subst hy hH
  refine ⟨?_, ?_, fun a ha => ?_, fun a ha => ?_⟩
  · simp [GenObj.assignIntegrals, modifyTwo_two, Mem.modifyTwo, modifyOne_one, GenHam.ofInts, GenHam.cacheTwoInts]
  · simp [GenObj.assignIntegrals, modifyTwo_two, Mem.modifyOne, GenHam.ofInts, GenHam.cacheTwoInts]
  · simp [GenObj.assignIntegrals, Mem.modifyTwo, modifyOne_one, ha]
  · simp [GenObj.assignIntegrals, modifyTwo_two, Mem.modifyOne, ha]

/-- An object for the examples. -/
def gen0 : GenObj ℤ where
  norb := 2
  one := 0
  two := 0
  refNorb := 2
  refOne := 0
  refTwo := 0
  cIJIJ := fun _ _ => 0
  cIJJI := fun _ _ => 0
  params := []
  prev := none
  update := false

/-- **C112 (disagreement).** So the caller's array is changed by a rotation of the Hamiltonian. -/
theorem C112_direct_disagrees :
    ∃ (y : Mem ℤ × GenObj ℤ), (gen0.assignIntegrals 2 0 0).rotateJacobi mem0 0 1 0 1 = .ok y ∧
      y.1.one 0 0 0 = 0 ∧ mem0.one 0 0 0 = 1 := by
  refine ⟨_, rfl, ?_, ?_⟩ <;> decide +kernel

/-- **C112.** `assign_integrals` of five different arrays, then a rotation: the integrals are the rotated ones, in the
caller's arrays. -/
theorem C112_direct_unr (m : Mem R) (o : UnrObj R) (norb : ℕ) (x : Cells) (p q : ℤ) (c s : R) (h1 : x.oneA ≠ x.oneB)
    (h2 : x.twoAA ≠ x.twoAB) (h3 : x.twoAA ≠ x.twoBB) (h4 : x.twoAB ≠ x.twoBB) :
    (((o.assignIntegrals norb x).rotateJacobi m p q c s).map fun y => (y.2.view y.1).ham) =
      UnrHam.rotateJacobi ((o.assignIntegrals norb x).view m).ham p q c s ∧
    ∀ y, (o.assignIntegrals norb x).rotateJacobi m p q c s = .ok y → y.2.cur = x := by
  set A := (o.assignIntegrals norb x).rotateJacobi m p q c s with hA
  set B := UnrHam.rotateJacobi ((o.assignIntegrals norb x).view m).ham p q c s with hB
  by_cases e1 : p = q
  · rw [show A = _ from if_pos e1, show B = _ from if_pos e1]
    exact ⟨rfl, fun y hy => by cases hy⟩
  by_cases e2 : ¬(0 ≤ p ∧ p < 2 * norb ∧ 0 ≤ q ∧ q < 2 * norb)
  · rw [show A = _ from (if_neg e1).trans (if_pos e2), show B = _ from (if_neg e1).trans (if_pos e2)]
    exact ⟨rfl, fun y hy => by cases hy⟩
  by_cases e3 : p.toNat / norb ≠ q.toNat / norb
  · rw [show A = _ from (if_neg e1).trans ((if_neg e2).trans (if_pos e3)),
      show B = _ from (if_neg e1).trans ((if_neg e2).trans (if_pos e3))]
    exact ⟨rfl, fun y hy => by cases hy⟩
  rw [show A = _ from (if_neg e1).trans ((if_neg e2).trans (if_neg e3)),
      show B = _ from (if_neg e1).trans ((if_neg e2).trans (if_neg e3))]
  have k1 : (o.assignIntegrals norb x).norb = norb := rfl
  have k2 : ((o.assignIntegrals norb x).view m).ham.norb = norb := rfl
  dsimp only
  rw [k1, k2]
  generalize (if p > q then (q.toNat, p.toNat) else (p.toNat, q.toNat)) = pq
  generalize pq.1 % norb = i
  generalize pq.2 % norb = j
  by_cases e4 : pq.1 / norb = 0
  · rw [if_pos e4, if_pos e4]
    refine ⟨?_, ?_⟩
    · simp [Except.map, UnrObj.view, UnrObj.assignIntegrals, Mem.modifyOne, Mem.modifyTwo, h1.symm, h2, h2.symm, h3.symm,
        h4.symm]
    · intro y hy
      injection hy with hy
      subst hy
      rfl
  · rw [if_neg e4, if_neg e4]
    refine ⟨?_, ?_⟩
    · simp [Except.map, UnrObj.view, UnrObj.assignIntegrals, Mem.modifyOne, Mem.modifyTwo, h1, h2, h3, h4, h4.symm]
    · intro y hy
      injection hy with hy
      subst hy
      rfl

/-- An object for the examples. -/
def unr0 : UnrObj ℤ where
  norb := 2
  cur := ⟨0, 0, 0, 0, 0⟩
  refNorb := 2
  ref := ⟨0, 0, 0, 0, 0⟩
  c0IJIJ := fun _ _ => 0
  c1IJIJ := fun _ _ => 0
  c2IJIJ := fun _ _ => 0
  c0IJJI := fun _ _ => 0
  c2IJJI := fun _ _ => 0
  params := []
  prev := none
  update := false

/-- **C112.** If the same arrays are given for both spins, `assign_integrals([h, h], [g, g, g])`, a rotation of
two alpha orbitals also rotates the beta integrals, and the two-electron integrals are rotated twice along the first and
third axis. -/
theorem C112_shared (m : Mem R) (o : UnrObj R) (norb a b : ℕ) (p q : ℕ) (c s : R) (hp : p < q) (hq : q < norb) :
    ∃ y, (o.assignIntegrals norb ⟨a, a, b, b, b⟩).rotateJacobi m p q c s = .ok y ∧
      (y.2.view y.1).ham.oneA = jacobiOne c s p q (m.one a) ∧ (y.2.view y.1).ham.oneB = jacobiOne c s p q (m.one a) ∧
      (y.2.view y.1).ham.twoAA = jacobiTwo13 c s p q (jacobiTwo c s p q (m.two b)) ∧
      (y.2.view y.1).ham.twoAB = jacobiTwo13 c s p q (jacobiTwo c s p q (m.two b)) ∧
      (y.2.view y.1).ham.twoBB = jacobiTwo13 c s p q (jacobiTwo c s p q (m.two b)) := by
  set A := (o.assignIntegrals norb ⟨a, a, b, b, b⟩).rotateJacobi m p q c s with hA
  have e1 : ¬((p : ℤ) = q) := by omega
  have e2 : ¬¬(0 ≤ (p : ℤ) ∧ (p : ℤ) < 2 * norb ∧ 0 ≤ (q : ℤ) ∧ (q : ℤ) < 2 * norb) := by
    push Not
    omega
  have e5 : p / norb = 0 := Nat.div_eq_of_lt (by omega)
  have e6 : q / norb = 0 := Nat.div_eq_of_lt (by omega)
  have e3 : ¬((p : ℤ).toNat / norb ≠ (q : ℤ).toNat / norb) := by simp [e5, e6]
  have e4 : ¬((p : ℤ) > q) := by omega
  have h : A = .ok (((m.modifyOne a (jacobiOne c s p q)).modifyTwo b (jacobiTwo c s p q)).modifyTwo b
      (jacobiTwo13 c s p q), o.assignIntegrals norb ⟨a, a, b, b, b⟩) := by
    refine (if_neg e1).trans ((if_neg e2).trans ((if_neg e3).trans ?_))
    dsimp only
    have k1 : (o.assignIntegrals norb ⟨a, a, b, b, b⟩).norb = norb := rfl
    rw [k1, if_neg e4]
    dsimp only [Int.toNat_natCast]
    rw [if_pos e5, Nat.mod_eq_of_lt (show p < norb by omega), Nat.mod_eq_of_lt hq]
    rfl
  refine ⟨_, h, ?_⟩
  simp [UnrObj.view, UnrObj.assignIntegrals, Mem.modifyOne, Mem.modifyTwo]

/-- **C112 (disagreement).** A rotation of two alpha orbitals must leave the beta integrals alone and rotate the alpha-alpha
integrals once; with shared arrays it does not. -/
theorem C112_shared_disagrees :
    ∃ y H, (unr0.assignIntegrals 2 ⟨0, 0, 0, 0, 0⟩).rotateJacobi mem0 0 1 0 1 = .ok y ∧
      UnrHam.rotateJacobi (UnrHam.ofInts 2 (mem0.one 0) (mem0.one 0) (mem0.two 0) (mem0.two 0) (mem0.two 0)) 0 1 0 1 = .ok H ∧
      (y.2.view y.1).ham.oneB 0 0 = 0 ∧ H.oneB 0 0 = 1 ∧ (y.2.view y.1).ham.twoAA 1 1 1 1 = 0 ∧ H.twoAA 1 1 1 1 = 1 := by
  refine ⟨_, _, rfl, rfl, ?_, ?_, ?_, ?_⟩ <;> decide +kernel

/-- **C112.** Writing into an array of real numbers is the rotation. -/
theorem C112_cast (c s : R) (p q : ℕ) (h : ℕ → ℕ → R) : jacobiOneCast id c s p q h = jacobiOne c s p q h := by
  have key : ∀ (f : ℕ → R) (i : ℕ), (if i = p ∨ i = q then id (rotAxis c s p q f i) else f i) = rotAxis c s p q f i := by
    intro f i
    by_cases h1 : i = p
    · simp [h1]
    · by_cases h2 : i = q
      · simp [h2]
      · simp [rotAxis, h1, h2]
  funext i j
  unfold jacobiOneCast jacobiOne
  simp only [key]

/-- **C112 (disagreement).** `assign_integrals` accepts an array of integers; a rotation drops the fractional parts.  The
matrix with the single entry 1 becomes zero by a rotation with cosine 3/5 and sine 4/5, while the trace of the rotated
matrix is 1. -/
theorem C112_integer_disagrees :
    let h : ℕ → ℕ → ℚ := fun i j => if i = 0 ∧ j = 0 then 1 else 0
    let cast : ℚ → ℚ := fun x => ((x.num.tdiv x.den : ℤ) : ℚ)
    (∀ i j, jacobiOneCast cast (3 / 5) (4 / 5) 0 1 h i j = 0) ∧
      jacobiOne (3 / 5) (4 / 5) 0 1 h 0 0 + jacobiOne (3 / 5) (4 / 5) 0 1 h 1 1 = 1 := by
  intro h cast
  have c1 : cast (3 / 5) = 0 := by decide +kernel
  have c2 : cast (4 / 5) = 0 := by decide +kernel
  have c0 : cast 0 = 0 := by decide +kernel
  refine ⟨fun i j => ?_, ?_⟩
  · have key : ∀ i j, (if j = 0 ∨ j = 1 then cast (rotAxis (3 / 5) (4 / 5) 0 1 (fun j => h i j) j) else h i j) = 0 := by
      intro i j
      by_cases h0 : j = 0
      · subst h0
        by_cases hi : i = 0 <;> simp [rotAxis, h, hi, c0, c1]
      · by_cases h1 : j = 1
        · subst h1
          by_cases hi : i = 0 <;> simp [rotAxis, h, hi, c0, c2]
        · simp [h0, h1, h]
    unfold jacobiOneCast
    simp only [key]
    by_cases h0 : i = 0
    · simp [h0, rotAxis, c0]
    · by_cases h1 : i = 1
      · simp [h1, rotAxis, c0]
      · simp [h0, h1]
  · simp only [jacobiOne, rotAxis, h]
    norm_num

end Fanpy.Props
