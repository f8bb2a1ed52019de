import Verif.Props.Energy
import Verif.Props.PCCDNew

/-! # C47, C49, C89: all parameters, the variational energy, and names of the option `s_type` -/

namespace Fanpy.Props
open Fanpy.Eqn Fanpy.Lemmas.Eqn

/-- the entries at increasing positions are a sublist -/
theorem pick_sublist {R : Type} [Zero R] (v : List R) (l : List ℕ) (hp : l.Pairwise (· < ·)) (hl : ∀ i ∈ l, i < v.length) :
    (l.map fun i => v.getD i 0).Sublist v := by
  have h1 : l.Sublist (List.range v.length) := by
    refine List.sublist_of_subperm_of_pairwise (r := (· < ·)) ?_ hp List.pairwise_lt_range
    exact (List.subperm_of_subset (hp.imp fun h => ne_of_lt h) fun i hi => List.mem_range.2 (hl i hi))
  have h2 : (List.range v.length).map (fun i => v.getD i 0) = v := by
    apply List.ext_getElem (by simp)
    intro i a b
    rw [List.getElem_map, List.getElem_range, List.getD_eq_getElem?_getD, List.getElem?_eq_getElem b]
    rfl
  calc (l.map fun i => v.getD i 0).Sublist ((List.range v.length).map fun i => v.getD i 0) := h1.map _
    _ = v := h2

/-- **C47, all parameters.**  `active_params` are some of `all_params`, in the same order; they are all of them exactly if every parameter is
selected. -/
theorem C47_all_params {R : Type} [Zero R] {st : Store R} {sel : Selection} (h : Valid st sel) :
    (activeParams sel st).Sublist (allParams sel st) ∧
    (activeParams sel st = allParams sel st ↔ ∀ p ∈ sel, p.2 = List.range (st p.1).length) := by
  have hs : ∀ p ∈ sel, (p.2.map fun i => (st p.1).getD i 0).Sublist (st p.1) := fun p hp => pick_sublist _ _ (h.2 p hp).1 (h.2 p hp).2
  have hsub : (activeParams sel st).Sublist (allParams sel st) := by
    rw [activeParams, allParams]
    clear h
    induction sel with
    | nil => simp
    | cons p sel ih =>
      rw [List.flatMap_cons, List.flatMap_cons]
      exact (hs p (by simp)).append (ih fun q hq => hs q (by simp [hq]))
  refine ⟨hsub, ?_⟩
  constructor
  · intro he
    have hlen : ((sel.map fun p => p.2.length).sum) = (sel.map fun p => (st p.1).length).sum := by
      have := congrArg List.length he
      simpa [activeParams, allParams, List.length_flatMap] using this
    have hle : ∀ p ∈ sel, p.2.length ≤ (st p.1).length := fun p hp => by simpa using (hs p hp).length_le
    have heq : ∀ p ∈ sel, p.2.length = (st p.1).length := by
      clear hs hsub he h
      induction sel with
      | nil => simp
      | cons p sel ih =>
        rw [List.map_cons, List.sum_cons, List.map_cons, List.sum_cons] at hlen
        have h1 := hle p (by simp)
        have h2 : (sel.map fun p => p.2.length).sum ≤ (sel.map fun p => (st p.1).length).sum :=
          List.sum_le_sum fun q hq => hle q (by simp [hq])
        intro q hq
        rcases List.mem_cons.1 hq with rfl | hq
        · omega
        · exact ih (by omega) (fun q hq => hle q (by simp [hq])) q hq
    intro p hp
    have h1 : p.2.Sublist (List.range (st p.1).length) := by
      refine List.sublist_of_subperm_of_pairwise (r := (· < ·)) ?_ (h.2 p hp).1 List.pairwise_lt_range
      exact (List.subperm_of_subset ((h.2 p hp).1.imp fun h => ne_of_lt h) fun i hi => List.mem_range.2 ((h.2 p hp).2 i hi))
    exact h1.eq_of_length (by rw [heq p hp, List.length_range])
  · intro hall
    rw [activeParams, allParams]
    refine List.flatMap_congr fun p hp => ?_
    apply (hs p hp).eq_of_length
    rw [List.length_map, hall p hp, List.length_range]

/-- **C49, variational energy.**  `EnergyVariational.objective` is the quotient of `⟨Ψ|H|Ψ⟩` and `⟨Ψ|Ψ⟩` in the one space at the new parameters. -/
theorem C49_variational {R : Type} [Field R] (s : Sys R) (sel : Selection) (p : List ℕ) {st st' : Store R} {x : List R}
    (h : assignParams s.accept sel st x = (st', none)) :
    varObjective s sel p st x = .ok (st', (p.map fun i => (p.map fun j => s.overlap st' i * s.element st' i j * s.overlap st' j).sum).sum /
      (p.map fun i => s.overlap st' i * s.overlap st' i).sum) := by
  rw [varObjective, C49_objective s sel p (some p) (some p) h]

/-- **C49, variational energy of an eigenvector.**  If the overlaps are an eigenvector of the matrix of the Hamiltonian in the space, it is the
eigenvalue. -/
theorem C49_variational_eigen {R : Type} [Field R] (s : Sys R) (sel : Selection) (p : List ℕ) {st st' : Store R} {x : List R} (E : R)
    (h : assignParams s.accept sel st x = (st', none))
    (he : ∀ i ∈ p, (p.map fun j => s.element st' i j * s.overlap st' j).sum = E * s.overlap st' i)
    (hn : (p.map fun i => s.overlap st' i * s.overlap st' i).sum ≠ 0) : varObjective s sel p st x = .ok (st', E) := by
  rw [C49_variational s sel p h]
  have : (p.map fun i => (p.map fun j => s.overlap st' i * s.element st' i j * s.overlap st' j).sum).sum =
      E * (p.map fun i => s.overlap st' i * s.overlap st' i).sum := by
    rw [← List.sum_map_mul_left]
    congr 1
    refine List.map_congr_left fun i hi => ?_
    have h1 : (p.map fun j => s.overlap st' i * s.element st' i j * s.overlap st' j) =
        p.map fun j => s.overlap st' i * (s.element st' i j * s.overlap st' j) := List.map_congr_left fun j _ => mul_assoc _ _ _
    rw [h1, List.sum_map_mul_left, he i hi]
    ring
  rw [this, mul_div_cancel_right₀ _ hn]

/-- **C89, names.**  A name that is none of the options is not refused, although the documentation promises a `ValueError`: it is computed with as
`"free"`, so that the overlap after the derivative is another one than before it. -/
theorem C89_names (name : String) (h : name ∉ ["sen-o", "sen-v", "sen-ov"]) (t : ℕ → ℚ) :
    ∃ w : PCCD.Wfn ℚ, PCCD.initNew .generalized 2 4 false none none t false = .ok w ∧
      PCCD.calls (PCCD.callNew (PCCD.assignSType name)) ⟨w, [], 0⟩ [.overlap 0b1010, .derivative 0b1010 0, .overlap 0b1010] =
        [.ok (t 0 * t 3 - t 1 * t 2 - t 4), .ok 0, .ok (-t 4)] := by
  have : PCCD.assignSType name = .free := by
    simp only [List.mem_cons, List.not_mem_nil, or_false, not_or] at h
    rw [PCCD.assignSType, if_neg h.1, if_neg h.2.1, if_neg h.2.2]
  rw [this]
  exact C89_free t

/-- a misspelt name -/
example : "sen_o" ∉ ["sen-o", "sen-v", "sen-ov"] := by decide +kernel

/-- two components, with two of three and one of two parameters selected -/
example :
    let st : Store ℤ := fun c => if c = 0 then [1, 2, 3] else [4, 5]
    Valid st [(0, [0, 2]), (1, [1])] ∧ activeParams [(0, [0, 2]), (1, [1])] st = [1, 3, 5] ∧ allParams [(0, [0, 2]), (1, [1])] st = [1, 2, 3, 4, 5] := by
  refine ⟨⟨by decide, by decide⟩, rfl, rfl⟩

end Fanpy.Props
