import Verif.Props.Unitary
import Verif.Lemmas.Rotation

/-!
# C56: the state kept by `assign_params`

Assigning orbital-rotation parameters always starts from the reference integrals.  Without `update_prev_params` the result
depends only on the last parameters; with it, each assignment rotates the present orbitals by the exponential of the change
of the parameters.  `um` is `math_tools.unitary_matrix` (C57).
-/

namespace Fanpy.Props
open Fanpy.Ham Fanpy.Spec Fanpy.Slater Fanpy.Lemmas Finset

variable {R : Type} [CommRing R]

/-- `um` returns an `n × n` matrix for every list of `n (n - 1) / 2` parameters -/
def Gives (um : List R → Except PyErr (ℕ × (ℕ → ℕ → R))) (n : ℕ) (U : List R → ℕ → ℕ → R) : Prop :=
  ∀ p, p.length = n * (n - 1) / 2 → um p = .ok (n, U p)

/-- parameters that are accepted: `None`, or an array of the right size -/
def Fits (k : ℕ) (p : Option (List R)) : Prop := ∀ q, p = some q → q.length = k

/-- the parameters that are assigned: zeros for `None` -/
def valueOf (k : ℕ) (p : Option (List R)) : List R := p.getD (List.replicate k 0)

/-- C57. `unitary_matrix` satisfies the assumption on `um`, for at least one orbital, and zeros give the identity. -/
theorem C57_gives {F : Type} [Field F] (small huge : (ℕ → ℕ → F) → Bool) (expm : (ℕ → ℕ → F) → ℕ → ℕ → F) (nt n : ℕ)
    (hnt : 1 ≤ nt) (hn : 1 ≤ n) (hh : huge (fun _ _ => 0) = false) :
    ∃ U, Gives (unitaryMatrix small huge expm nt) n U ∧ U (List.replicate (n * (n - 1) / 2) 0) = idMat := by
  classical
  have h : ∀ p : List F, ∃ u, p.length = n * (n - 1) / 2 → unitaryMatrix small huge expm nt p = .ok (n, u) := by
    intro p
    by_cases hp : p.length = n * (n - 1) / 2
    · obtain ⟨u, hu⟩ := (C57_size small huge expm nt p).1 n hn hp
      exact ⟨u, fun _ => hu⟩
    · exact ⟨fun _ _ => 0, fun h => absurd h hp⟩
  choose U hU using h
  refine ⟨U, hU, ?_⟩
  have h0 := hU (List.replicate (n * (n - 1) / 2) 0) (by simp)
  have ha : antiherm n (List.replicate (n * (n - 1) / 2) (0 : F)) = fun _ _ => 0 := by
    funext i j
    have e : ∀ m t : ℕ, (List.replicate m (0 : F)).getD t 0 = 0 := by
      intro m t
      rw [List.getD_eq_getElem?_getD, List.getElem?_replicate]
      split_ifs <;> rfl
    simp only [antiherm, e, ite_self, sub_zero]
  have ht : ∀ k, 1 ≤ k → taylorTerm n (fun _ _ => (0 : F)) k = fun _ _ => 0 := by
    intro k hk
    obtain ⟨t, rfl⟩ : ∃ t, k = t + 1 := ⟨k - 1, by omega⟩
    cases t with
    | zero => rfl
    | succ t => funext i j; rw [taylorTerm_step]; simp [matMul]
  obtain ⟨m, m1, _, _, _, m5⟩ := C57_taylor small huge expm nt hnt _ n _ h0
  rw [ha] at m5
  rcases m5 with ⟨h1, h2, -⟩ | ⟨-, -, h3⟩
  · rw [ht m m1, hh] at h2; exact absurd h2 (by decide)
  · funext i j
    obtain ⟨t, rfl⟩ : ∃ t, m = t + 1 := ⟨m - 1, by omega⟩
    rw [h3, sum_range_succ', sum_eq_zero fun k _ => by rw [ht (k + 1) (by omega)], zero_add]
    rfl

/-! ### Generalized and restricted Hamiltonians -/

/-- the assignments `ps`, one after another -/
def assignAll (um : List R → Except PyErr (ℕ × (ℕ → ℕ → R))) (S : GenState R) (ps : List (Option (List R))) :
    Except PyErr (GenState R) := ps.foldlM (GenState.assignParams um) S

/-- the total rotation: start from `U 0`, multiply from the right by the exponential of each change of the parameters -/
def totalRotation (n k : ℕ) (U : List R → ℕ → ℕ → R) : List (List R) → List R × (ℕ → ℕ → R)
  | ps => ps.foldl (fun S p => (p, matMul n S.2 (U (subParams p S.1)))) (List.replicate k 0, U (List.replicate k 0))

theorem subParams_zero (k : ℕ) (p : List R) (hp : p.length = k) : subParams p (List.replicate k 0) = p := by
  subst hp
  induction p with
  | nil => rfl
  | cons a p ih =>
    simp only [subParams, List.length_cons, List.replicate_succ, List.zipWith_cons_cons, sub_zero] at ih ⊢
    rw [ih]

theorem valueOf_length {k : ℕ} {p : Option (List R)} (h : Fits k p) : (valueOf k p).length = k := by
  cases p with
  | none => simp [valueOf]
  | some q => exact h q rfl

theorem subParams_length (p q : List R) (k : ℕ) (hp : p.length = k) (hq : q.length = k) : (subParams p q).length = k := by
  simp [subParams, hp, hq]

/-- one assignment -/
theorem assign_step {um : List R → Except PyErr (ℕ × (ℕ → ℕ → R))} {n : ℕ} {U : List R → ℕ → ℕ → R} (hU : Gives um n U)
    (S : GenState R) (hn : S.ham.norb = n) (hr : S.refNorb = n) (q : List R) (M : ℕ → ℕ → R)
    (hq : q.length = n * (n - 1) / 2)
    (hprev : S.prev = some (q, n, M) ∨
      (S.prev = none ∧ q = List.replicate (n * (n - 1) / 2) 0 ∧ M = U (List.replicate (n * (n - 1) / 2) 0)))
    (p : Option (List R)) (hp : Fits (n * (n - 1) / 2) p) :
    S.assignParams um p = .ok { S with
      ham := GenHam.ofInts n
        (matrixOne n (matMul n M (U (subParams (valueOf (n * (n - 1) / 2) p) q))) S.refOne)
        (matrixTwo n (matMul n M (U (subParams (valueOf (n * (n - 1) / 2) p) q)))
          (matMul n M (U (subParams (valueOf (n * (n - 1) / 2) p) q))) S.refTwo)
      params := valueOf (n * (n - 1) / 2) p
      prev := some (if S.update then
        (valueOf (n * (n - 1) / 2) p, n, matMul n M (U (subParams (valueOf (n * (n - 1) / 2) p) q))) else (q, n, M)) } := by
  have hl := valueOf_length hp
  have hd := subParams_length _ _ _ hl hq
  simp only [GenState.assignParams, hn]
  rw [show p.getD (List.replicate (n * (n - 1) / 2) 0) = valueOf (n * (n - 1) / 2) p from rfl,
    if_neg (not_not.2 hl)]
  rcases hprev with h | ⟨h, h2, h3⟩
  · rw [h]
    simp only [bind, Except.bind, pure, Except.pure, hU _ hd, dotSquare, ne_eq, not_true, if_false,
      GenHam.rotateMatrix, hr]
    rfl
  · subst h2 h3
    rw [h, hl]
    simp only [bind, Except.bind, pure, Except.pure, hU _ (List.length_replicate ..), hU _ hd, dotSquare, ne_eq, not_true,
      if_false, GenHam.rotateMatrix, hr]
    rfl

/-- C56. Parameters of a wrong size are rejected. -/
theorem C56_wrong_size (um : List R → Except PyErr (ℕ × (ℕ → ℕ → R))) (S : GenState R) (q : List R)
    (h : q.length ≠ S.ham.norb * (S.ham.norb - 1) / 2) : S.assignParams um (some q) = .error .valueError := by
  simp only [GenState.assignParams, Option.getD_some]
  rw [if_pos h]

theorem assignAll_snoc (um : List R → Except PyErr (ℕ × (ℕ → ℕ → R))) (S : GenState R) (ps : List (Option (List R)))
    (p : Option (List R)) : assignAll um S (ps ++ [p]) = (assignAll um S ps >>= fun T => T.assignParams um p) := by
  simp only [assignAll, List.foldlM_append, List.foldlM_cons, List.foldlM_nil]
  cases List.foldlM (GenState.assignParams um) S ps with
  | error e => rfl
  | ok T =>
    simp only [bind, Except.bind]
    cases T.assignParams um p <;> rfl

/-- C56. Without `update_prev_params`: whatever was assigned before, after assigning `p` the Hamiltonian is the one
constructed from the reference integrals rotated by `U(0) U(p)`, caches included. -/
theorem C56_last_only_partial {um : List R → Except PyErr (ℕ × (ℕ → ℕ → R))} {n : ℕ} {U : List R → ℕ → ℕ → R} (hU : Gives um n U)
    (one : ℕ → ℕ → R) (two : ℕ → ℕ → ℕ → ℕ → R) (p0 : Option (List R)) (ps : List (Option (List R)))
    (hps : ∀ p ∈ p0 :: ps, Fits (n * (n - 1) / 2) p) :
    ∃ S K, (GenState.init um n one two p0 false >>= fun S => assignAll um S ps) = .ok S ∧
      S.params = valueOf (n * (n - 1) / 2) ((p0 :: ps).getLast (by simp)) ∧
      (GenHam.ofInts n one two).rotateMatrix n n (matMul n (U (List.replicate (n * (n - 1) / 2) 0)) (U S.params)) = .ok K ∧
      S.ham = GenHam.ofInts n K.one K.two ∧ S.refOne = one ∧ S.refTwo = two ∧ S.refNorb = n ∧ S.update = false ∧
      S.prev = some (List.replicate (n * (n - 1) / 2) 0, n, U (List.replicate (n * (n - 1) / 2) 0)) := by
  set z : List R := List.replicate (n * (n - 1) / 2) 0 with hz
  have hzl : z.length = n * (n - 1) / 2 := by simp [hz]
  induction ps using List.reverseRecOn with
  | nil =>
    have hf := hps p0 (by simp)
    have h := assign_step hU ⟨GenHam.ofInts n one two, n, one, two, [], none, false⟩ rfl rfl z (U z) hzl (.inr ⟨rfl, rfl, rfl⟩) p0 hf
    rw [subParams_zero _ _ (valueOf_length hf)] at h
    refine ⟨_, _, Eq.trans ?_ h, rfl, rotateMatrix_ok (GenHam.ofInts n one two) n _, rfl, rfl, rfl, rfl, rfl, rfl⟩
    rw [GenState.init, h]
    rfl
  | append_singleton ps p ih =>
    obtain ⟨S, K, h1, h2, h3, h4, h5, h6, h7, h8, h9⟩ := ih fun q hq => hps q (by
      rcases List.mem_cons.1 hq with rfl | hq
      · simp
      · simp [hq])
    have hf := hps p (by simp)
    have h := assign_step hU S (by rw [h4]; rfl) h7 z (U z) hzl (.inl h9) p hf
    rw [subParams_zero _ _ (valueOf_length hf), h5, h6, h8] at h
    refine ⟨_, _, Eq.trans ?_ h, ?_, rotateMatrix_ok (GenHam.ofInts n one two) n _, rfl, rfl, rfl, h7, rfl, rfl⟩
    · rw [show (GenState.init um n one two p0 false >>= fun S => assignAll um S (ps ++ [p])) =
        ((GenState.init um n one two p0 false >>= fun S => assignAll um S ps) >>= fun T => T.assignParams um p) by
        simp only [assignAll_snoc, bind_assoc], h1]
      rfl
    · simp

/-- C56. With `update_prev_params`: after any sequence of assignments the Hamiltonian is the one constructed from the
reference integrals rotated by the product, in order, of the exponentials of the changes of the parameters. -/
theorem C56_update_partial {um : List R → Except PyErr (ℕ × (ℕ → ℕ → R))} {n : ℕ} {U : List R → ℕ → ℕ → R} (hU : Gives um n U)
    (one : ℕ → ℕ → R) (two : ℕ → ℕ → ℕ → ℕ → R) (p0 : Option (List R)) (ps : List (Option (List R)))
    (hps : ∀ p ∈ p0 :: ps, Fits (n * (n - 1) / 2) p) :
    ∃ S K, (GenState.init um n one two p0 true >>= fun S => assignAll um S ps) = .ok S ∧
      S.params = valueOf (n * (n - 1) / 2) ((p0 :: ps).getLast (by simp)) ∧
      (GenHam.ofInts n one two).rotateMatrix n n
        (totalRotation n (n * (n - 1) / 2) U ((p0 :: ps).map (valueOf (n * (n - 1) / 2)))).2 = .ok K ∧
      S.ham = GenHam.ofInts n K.one K.two ∧ S.refOne = one ∧ S.refTwo = two ∧ S.refNorb = n ∧ S.update = true ∧
      S.prev = some (S.params, n, (totalRotation n (n * (n - 1) / 2) U ((p0 :: ps).map (valueOf (n * (n - 1) / 2)))).2) := by
  set k := n * (n - 1) / 2 with hk
  have hzl : (List.replicate k (0 : R)).length = k := by simp
  induction ps using List.reverseRecOn with
  | nil =>
    have hf := hps p0 (by simp)
    have h := assign_step hU ⟨GenHam.ofInts n one two, n, one, two, [], none, true⟩ rfl rfl (List.replicate k 0) (U (List.replicate k 0)) hzl (.inr ⟨rfl, rfl, rfl⟩) p0 hf
    refine ⟨_, _, Eq.trans ?_ h, rfl, rotateMatrix_ok (GenHam.ofInts n one two) n _, rfl, rfl, rfl, rfl, rfl, rfl⟩
    rw [GenState.init, h]
    rfl
  | append_singleton ps p ih =>
    obtain ⟨S, K, h1, h2, h3, h4, h5, h6, h7, h8, h9⟩ := ih fun q hq => hps q (by
      rcases List.mem_cons.1 hq with rfl | hq
      · simp
      · simp [hq])
    have hf := hps p (by simp)
    have hlast : S.params.length = k := by
      rw [h2]
      exact valueOf_length (hps _ (by
        rcases List.mem_cons.1 (List.getLast_mem (l := p0 :: ps) (by simp)) with h | h
        · simp [h]
        · simp [h]))
    have h := assign_step hU S (by rw [h4]; rfl) h7 S.params _ hlast (.inl h9) p hf
    rw [h5, h6, h8] at h
    have hfst : (totalRotation n k U ((p0 :: ps).map (valueOf k))).1 = S.params := by
      rw [h2]
      clear h h9 h8 h7 h6 h5 h4 h3 h2 h1 hlast ih
      induction ps using List.reverseRecOn with
      | nil => rfl
      | append_singleton qs q _ => simp [totalRotation]
    have htot : (totalRotation n k U ((p0 :: (ps ++ [p])).map (valueOf k))) =
        (valueOf k p, matMul n (totalRotation n k U ((p0 :: ps).map (valueOf k))).2
          (U (subParams (valueOf k p) S.params))) := by
      rw [← hfst]
      simp only [totalRotation, List.map_cons, List.map_append, List.map_nil, List.foldl_cons, List.foldl_append,
        List.foldl_nil]
    rw [htot]
    refine ⟨_, _, Eq.trans ?_ h, ?_, rotateMatrix_ok (GenHam.ofInts n one two) n _, rfl, rfl, rfl, h7, rfl, rfl⟩
    · rw [show (GenState.init um n one two p0 true >>= fun S => assignAll um S (ps ++ [p])) =
        ((GenState.init um n one two p0 true >>= fun S => assignAll um S ps) >>= fun T => T.assignParams um p) by
        simp only [assignAll_snoc, bind_assoc], h1]
      rfl
    · simp [hk]

/-- C56. With `update_prev_params` every assignment after the first is a rotation of the present integrals by the
exponential of the change of the parameters. -/
theorem C56_update_incremental_partial {um : List R → Except PyErr (ℕ × (ℕ → ℕ → R))} {n : ℕ} {U : List R → ℕ → ℕ → R}
    (hU : Gives um n U) (one : ℕ → ℕ → R) (two : ℕ → ℕ → ℕ → ℕ → R) (p0 : Option (List R)) (ps : List (Option (List R)))
    (hps : ∀ p ∈ p0 :: ps, Fits (n * (n - 1) / 2) p) (S : GenState R)
    (hS : (GenState.init um n one two p0 true >>= fun S => assignAll um S ps) = .ok S) (p : Option (List R))
    (hp : Fits (n * (n - 1) / 2) p) :
    ∃ T K, S.assignParams um p = .ok T ∧
      S.ham.rotateMatrix n n (U (subParams (valueOf (n * (n - 1) / 2) p) S.params)) = .ok K ∧ SameInts T.ham K := by
  obtain ⟨S', K', h1, h2, h3, h4, h5, h6, h7, h8, h9⟩ := C56_update_partial hU one two p0 ps hps
  rw [hS] at h1
  cases h1
  have hlast : S.params.length = n * (n - 1) / 2 := by
    rw [h2]
    exact valueOf_length (hps _ (List.getLast_mem (by simp)))
  have hnorb : S.ham.norb = n := by rw [h4]; rfl
  have h := assign_step hU S hnorb h7 S.params _ hlast (.inl h9) p hp
  have hr := rotateMatrix_ok S.ham n (U (subParams (valueOf (n * (n - 1) / 2) p) S.params))
  rw [hnorb] at hr
  refine ⟨_, _, h, hr, rfl, ?_, ?_⟩
  · intro i j _ _
    cases (rotateMatrix_ok (GenHam.ofInts n one two) n _).symm.trans h3
    simp only [h4, h5, GenHam.ofInts, GenHam.cacheTwoInts]
    rw [matrixOne_comp]
  · intro i j k l _ _ _ _
    cases (rotateMatrix_ok (GenHam.ofInts n one two) n _).symm.trans h3
    simp only [h4, h6, GenHam.ofInts, GenHam.cacheTwoInts]
    rw [matrixTwo_comp]

/-! ### Unrestricted Hamiltonians -/

/-- the unrestricted Hamiltonian with rotated integrals and fresh caches -/
def rotatedU (H : UnrHam R) (n : ℕ) (u v : ℕ → ℕ → R) : UnrHam R := UnrHam.cacheTwoInts { H with
  norb := n
  oneA := matrixOne n u H.oneA
  oneB := matrixOne n v H.oneB
  twoAA := matrixTwo n u u H.twoAA
  twoAB := matrixTwo n u v H.twoAB
  twoBB := matrixTwo n v v H.twoBB }

/-- the assignments `ps`, one after another -/
def assignAllU (um : List R → Except PyErr (ℕ × (ℕ → ℕ → R))) (S : UnrState R) (ps : List (Option (List R))) :
    Except PyErr (UnrState R) := ps.foldlM (UnrState.assignParams um) S

omit [CommRing R] in
theorem half_length (n : ℕ) (p : List R) (h : p.length = n * (n - 1)) :
    (p.take (n * (n - 1) / 2)).length = n * (n - 1) / 2 ∧ (p.drop (n * (n - 1) / 2)).length = n * (n - 1) / 2 := by
  have he : n * (n - 1) = n * (n - 1) / 2 + n * (n - 1) / 2 := by
    rcases n with _ | m
    · rfl
    · obtain ⟨t, ht⟩ := Nat.even_mul_succ_self m
      rw [Nat.add_sub_cancel, mul_comm (m + 1), ht]; omega
  rw [List.length_take, List.length_drop, h]
  omega

/-- one assignment -/
theorem assign_stepU {um : List R → Except PyErr (ℕ × (ℕ → ℕ → R))} {n : ℕ} {U : List R → ℕ → ℕ → R} (hU : Gives um n U)
    (S : UnrState R) (hn : S.ham.norb = n) (hr : S.ref.norb = n) (q : List R) (M N : ℕ → ℕ → R)
    (hq : q.length = n * (n - 1))
    (hprev : S.prev = some (q, (n, M), (n, N)) ∨
      (S.prev = none ∧ q = List.replicate (n * (n - 1)) 0 ∧ M = U (List.replicate (n * (n - 1) / 2) 0) ∧
        N = U (List.replicate (n * (n - 1) / 2) 0)))
    (p : Option (List R)) (hp : Fits (n * (n - 1)) p) :
    S.assignParams um p = .ok { S with
      ham := rotatedU S.ref n
        (matMul n M (U ((subParams (valueOf (n * (n - 1)) p) q).take (n * (n - 1) / 2))))
        (matMul n N (U ((subParams (valueOf (n * (n - 1)) p) q).drop (n * (n - 1) / 2))))
      params := valueOf (n * (n - 1)) p
      prev := some (if S.update then
        (valueOf (n * (n - 1)) p, (n, matMul n M (U ((subParams (valueOf (n * (n - 1)) p) q).take (n * (n - 1) / 2)))),
          (n, matMul n N (U ((subParams (valueOf (n * (n - 1)) p) q).drop (n * (n - 1) / 2))))) else (q, (n, M), (n, N))) } := by
  have hl := valueOf_length hp
  have hd := half_length n _ (subParams_length _ _ _ hl hq)
  simp only [UnrState.assignParams, hn]
  rw [show p.getD (List.replicate (n * (n - 1)) 0) = valueOf (n * (n - 1)) p from rfl, if_neg (not_not.2 hl)]
  rcases hprev with h | ⟨h, h2, h3, h4⟩
  · rw [h]
    simp only [bind, Except.bind, pure, Except.pure, hU _ hd.1, hU _ hd.2, dotSquare, ne_eq, not_true, if_false,
      UnrHam.rotateMatrix, hr, and_self]
    rfl
  · have hz := half_length n (List.replicate (n * (n - 1)) (0 : R)) (List.length_replicate ..)
    have ht : (List.replicate (n * (n - 1)) (0 : R)).take (n * (n - 1) / 2) = List.replicate (n * (n - 1) / 2) 0 := by
      rw [List.take_replicate]
      rw [List.length_take, List.length_replicate] at hz
      rw [hz.1]
    have ht2 : (List.replicate (n * (n - 1)) (0 : R)).drop (n * (n - 1) / 2) = List.replicate (n * (n - 1) / 2) 0 := by
      rw [List.drop_replicate]
      rw [List.length_drop, List.length_replicate] at hz
      rw [hz.2]
    subst h2 h3 h4
    rw [h, hl, ht, ht2]
    simp only [bind, Except.bind, pure, Except.pure, hU _ (List.length_replicate ..), hU _ hd.1, hU _ hd.2, dotSquare,
      ne_eq, not_true, if_false, UnrHam.rotateMatrix, hr, and_self]
    rfl

/-- C56. Parameters of a wrong size are rejected. -/
theorem C56_unrestricted_wrong_size (um : List R → Except PyErr (ℕ × (ℕ → ℕ → R))) (S : UnrState R) (q : List R)
    (h : q.length ≠ S.ham.norb * (S.ham.norb - 1)) : S.assignParams um (some q) = .error .valueError := by
  simp only [UnrState.assignParams, Option.getD_some]
  rw [if_pos h]

theorem assignAllU_snoc (um : List R → Except PyErr (ℕ × (ℕ → ℕ → R))) (S : UnrState R) (ps : List (Option (List R)))
    (p : Option (List R)) : assignAllU um S (ps ++ [p]) = (assignAllU um S ps >>= fun T => T.assignParams um p) := by
  simp only [assignAllU, List.foldlM_append, List.foldlM_cons, List.foldlM_nil]
  cases List.foldlM (UnrState.assignParams um) S ps with
  | error e => rfl
  | ok T =>
    simp only [bind, Except.bind]
    cases T.assignParams um p <;> rfl

/-- C56. Unrestricted orbitals, without `update_prev_params`: whatever was assigned before, after assigning `p` the
Hamiltonian is the one constructed from the reference integrals rotated by the exponential of the first half of the
parameters (alpha) and of the second half (beta), caches included. -/
theorem C56_unrestricted_last_only_partial {um : List R → Except PyErr (ℕ × (ℕ → ℕ → R))} {n : ℕ} {U : List R → ℕ → ℕ → R}
    (hU : Gives um n U) (H : UnrHam R) (hH : H.norb = n) (p0 : Option (List R)) (ps : List (Option (List R)))
    (hps : ∀ p ∈ p0 :: ps, Fits (n * (n - 1)) p) :
    ∃ S K, (UnrState.init um H p0 false >>= fun S => assignAllU um S ps) = .ok S ∧
      S.params = valueOf (n * (n - 1)) ((p0 :: ps).getLast (by simp)) ∧
      H.rotateMatrix n n n (matMul n (U (List.replicate (n * (n - 1) / 2) 0)) (U (S.params.take (n * (n - 1) / 2))))
        (matMul n (U (List.replicate (n * (n - 1) / 2) 0)) (U (S.params.drop (n * (n - 1) / 2)))) = .ok K ∧
      S.ham = K.cacheTwoInts ∧ S.ref = H ∧ S.update = false ∧ S.prev = some (List.replicate (n * (n - 1)) 0,
        (n, U (List.replicate (n * (n - 1) / 2) 0)), (n, U (List.replicate (n * (n - 1) / 2) 0))) := by
  subst hH
  set n := H.norb with hn
  have hzl : (List.replicate (n * (n - 1)) (0 : R)).length = n * (n - 1) := by simp
  induction ps using List.reverseRecOn with
  | nil =>
    have hf := hps p0 (by simp)
    have h := assign_stepU hU ⟨H.cacheTwoInts, H, [], none, false⟩ rfl rfl _ _ _ hzl (.inr ⟨rfl, rfl, rfl, rfl⟩) p0 hf
    rw [subParams_zero _ _ (valueOf_length hf)] at h
    refine ⟨_, _, Eq.trans ?_ h, rfl, rotateMatrixU_ok H n _ _, rfl, rfl, rfl, rfl⟩
    rw [UnrState.init, h]
    rfl
  | append_singleton ps p ih =>
    obtain ⟨S, K, h1, h2, h3, h4, h5, h6, h7⟩ := ih fun q hq => hps q (by
      rcases List.mem_cons.1 hq with rfl | hq
      · simp
      · simp [hq])
    have hf := hps p (by simp)
    cases (rotateMatrixU_ok H n _ _).symm.trans h3
    have h := assign_stepU hU S (by rw [h4]; rfl) (by rw [h5]) _ _ _ hzl (.inl h7) p hf
    rw [subParams_zero _ _ (valueOf_length hf), h5, h6] at h
    refine ⟨_, _, Eq.trans ?_ h, ?_, rotateMatrixU_ok H n _ _, rfl, rfl, rfl, rfl⟩
    · rw [show (UnrState.init um H p0 false >>= fun S => assignAllU um S (ps ++ [p])) =
        ((UnrState.init um H p0 false >>= fun S => assignAllU um S ps) >>= fun T => T.assignParams um p) by
        simp only [assignAllU_snoc, bind_assoc], h1]
      rfl
    · simp

/-- C56. Unrestricted orbitals, with `update_prev_params`: an assignment rotates the present integrals by the exponentials
of the changes of the two halves of the parameters, and stores the parameters and the total rotations. -/
theorem C56_unrestricted_update_partial {um : List R → Except PyErr (ℕ × (ℕ → ℕ → R))} {n : ℕ} {U : List R → ℕ → ℕ → R}
    (hU : Gives um n U) (H : UnrHam R) (hH : H.norb = n) (p0 : Option (List R)) (ps : List (Option (List R)))
    (hps : ∀ p ∈ p0 :: ps, Fits (n * (n - 1)) p) :
    ∃ S M N, (UnrState.init um H p0 true >>= fun S => assignAllU um S ps) = .ok S ∧
      S.params = valueOf (n * (n - 1)) ((p0 :: ps).getLast (by simp)) ∧
      S.ham = rotatedU H n M N ∧ S.ref = H ∧ S.update = true ∧ S.prev = some (S.params, (n, M), (n, N)) ∧
      ∀ p, Fits (n * (n - 1)) p → ∃ T K, S.assignParams um p = .ok T ∧
        S.ham.rotateMatrix n n n (U ((subParams (valueOf (n * (n - 1)) p) S.params).take (n * (n - 1) / 2)))
          (U ((subParams (valueOf (n * (n - 1)) p) S.params).drop (n * (n - 1) / 2))) = .ok K ∧ SameIntsU T.ham K := by
  subst hH
  set n := H.norb with hn
  have hzl : (List.replicate (n * (n - 1)) (0 : R)).length = n * (n - 1) := by simp
  have incr : ∀ (S : UnrState R) M N, S.ham = rotatedU H n M N → S.ref = H → S.params.length = n * (n - 1) →
      S.prev = some (S.params, (n, M), (n, N)) →
      ∀ p, Fits (n * (n - 1)) p → ∃ T K, S.assignParams um p = .ok T ∧
        S.ham.rotateMatrix n n n (U ((subParams (valueOf (n * (n - 1)) p) S.params).take (n * (n - 1) / 2)))
          (U ((subParams (valueOf (n * (n - 1)) p) S.params).drop (n * (n - 1) / 2))) = .ok K ∧ SameIntsU T.ham K := by
    intro S M N h1 h2 h3 h4 p hp
    have h := assign_stepU hU S (by rw [h1]; rfl) (by rw [h2]) _ _ _ h3 (.inl h4) p hp
    have hr := rotateMatrixU_ok S.ham n (U ((subParams (valueOf (n * (n - 1)) p) S.params).take (n * (n - 1) / 2)))
      (U ((subParams (valueOf (n * (n - 1)) p) S.params).drop (n * (n - 1) / 2)))
    rw [show S.ham.norb = n by rw [h1]; rfl] at hr
    refine ⟨_, _, h, hr, rfl, ?_, ?_⟩
    · intro i j _ _
      simp only [h1, h2, rotatedU, UnrHam.cacheTwoInts]
      rw [matrixOne_comp, matrixOne_comp]
      exact ⟨rfl, rfl⟩
    · intro i j k l _ _ _ _
      simp only [h1, h2, rotatedU, UnrHam.cacheTwoInts]
      rw [matrixTwo_comp, matrixTwo_comp, matrixTwo_comp]
      exact ⟨rfl, rfl, rfl⟩
  induction ps using List.reverseRecOn with
  | nil =>
    have hf := hps p0 (by simp)
    have h := assign_stepU hU ⟨H.cacheTwoInts, H, [], none, true⟩ rfl rfl _ _ _ hzl (.inr ⟨rfl, rfl, rfl, rfl⟩) p0 hf
    refine ⟨_, _, _, Eq.trans ?_ h, rfl, rfl, rfl, rfl, rfl, incr _ _ _ rfl rfl (valueOf_length hf) rfl⟩
    rw [UnrState.init, h]
    rfl
  | append_singleton ps p ih =>
    obtain ⟨S, M, N, h1, h2, h3, h4, h5, h6, -⟩ := ih fun q hq => hps q (by
      rcases List.mem_cons.1 hq with rfl | hq
      · simp
      · simp [hq])
    have hf := hps p (by simp)
    have hlast : S.params.length = n * (n - 1) := by
      rw [h2]
      exact valueOf_length (hps _ (by
        rcases List.mem_cons.1 (List.getLast_mem (l := p0 :: ps) (by simp)) with h | h
        · simp [h]
        · simp [h]))
    have h := assign_stepU hU S (by rw [h3]; rfl) (by rw [h4]) _ _ _ hlast (.inl h6) p hf
    rw [h4, h5] at h
    refine ⟨_, _, _, Eq.trans ?_ h, ?_, rfl, rfl, rfl, rfl, incr _ _ _ rfl rfl (valueOf_length hf) rfl⟩
    · rw [show (UnrState.init um H p0 true >>= fun S => assignAllU um S (ps ++ [p])) =
        ((UnrState.init um H p0 true >>= fun S => assignAllU um S ps) >>= fun T => T.assignParams um p) by
        simp only [assignAllU_snoc, bind_assoc], h1]
      rfl
    · simp

/-! ### A corner case and concrete cases -/

/-- A Hamiltonian without orbitals cannot be constructed: `unitary_matrix` of no elements is the `1 × 1` identity, which
does not match the integrals. -/
theorem C56_no_orbitals {F : Type} [Field F] (small huge : (ℕ → ℕ → F) → Bool) (expm : (ℕ → ℕ → F) → ℕ → ℕ → F) (nt : ℕ)
    (one : ℕ → ℕ → F) (two : ℕ → ℕ → ℕ → ℕ → F) (upd : Bool) :
    GenState.init (unitaryMatrix small huge expm nt) 0 one two none upd = .error .valueError := by
  obtain ⟨u, hu⟩ := (C57_size small huge expm nt []).1 1 le_rfl rfl
  simp only [GenState.init, GenState.assignParams, GenHam.ofInts, GenHam.cacheTwoInts, Option.getD_none, Nat.zero_mul, Nat.zero_div,
    List.replicate_zero, List.length_nil, ne_eq, not_true, if_false, bind, Except.bind, hu, pure, Except.pure, subParams,
    List.zipWith_nil_left, dotSquare, GenHam.rotateMatrix]
  rfl

/-- three orbitals, three assignments after the construction with `None`; the exponential is cut after the linear term -/
example : ∃ U, Gives (unitaryMatrix (F := ℚ) (fun _ => false) (fun _ => false) (fun a => a) 2) 3 U ∧
    ∃ S, (GenState.init (unitaryMatrix (F := ℚ) (fun _ => false) (fun _ => false) (fun a => a) 2) 3
      (fun i j => i + j) (fun i j k l => i * k + j * l) none true >>= fun S => assignAll (unitaryMatrix (fun _ => false) (fun _ => false) (fun a => a) 2) S
        [some [1, 2, 3], none, some [0, 1, 0]]) = .ok S ∧ S.params = [0, 1, 0] := by
  obtain ⟨U, hU, -⟩ := C57_gives (F := ℚ) (fun _ => false) (fun _ => false) (fun a => a) 2 3 (by omega) (by omega) rfl
  obtain ⟨S, K, h, hp, -⟩ := C56_update_partial hU (fun i j => i + j) (fun i j k l => i * k + j * l) none
    [some [1, 2, 3], none, some [0, 1, 0]] (by
      intro p hp q hq
      subst hq
      simp at hp
      rcases hp with rfl | rfl <;> rfl)
  exact ⟨U, hU, S, h, hp⟩

end Fanpy.Props
