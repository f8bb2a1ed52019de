import Verif.Model.EmbedScript
import Verif.Props.Embedding
import Mathlib.Algebra.BigOperators.Group.Finset.Basic
import Mathlib.Algebra.Order.BigOperators.Group.Finset
import Mathlib.Data.List.Range
import Mathlib.Tactic.Linarith

/-! C125: the scripts for embedded wavefunctions. -/

namespace Fanpy.Props
open Fanpy.EmbedScript Fanpy.Composite

/-- the system of the orbital `i`, by the atom that its label names. -/
def systemOf (sys aos : List ℕ) (i : ℕ) : ℕ := sys.getD (aos.getD i 0) 0

/-- the spatial orbitals of system `k`, in order. -/
def orbitalsOf (sys aos : List ℕ) (k : ℕ) : List ℕ := (List.range aos.length).filter fun i => systemOf sys aos i = k

/-- the number of systems. -/
def numSystems (sys : List ℕ) : ℕ := sys.foldl max 0 + 1

theorem foldl_max_ge (l : List ℕ) : ∀ a, a ≤ l.foldl max a ∧ ∀ x ∈ l, x ≤ l.foldl max a := by
  induction l with
  | nil => intro a; simp
  | cons y ys ih =>
    intro a
    obtain ⟨h1, h2⟩ := ih (max a y)
    refine ⟨le_trans (le_max_left a y) h1, ?_⟩
    intro x hx
    rcases List.mem_cons.mp hx with rfl | hx
    · exact le_trans (le_max_right a x) h1
    · exact h2 x hx

theorem foldlM_modify {α : Type} (key : α → ℕ) (w : α → List ℕ) (K : ℕ)
    (step : List (List ℕ) → α → Except PyErr (List (List ℕ))) (xs : List α)
    (hstep : ∀ x ∈ xs, ∀ l : List (List ℕ), l.length = K → step l x = .ok (l.modify (key x) (· ++ w x))) :
    ∀ l : List (List ℕ), l.length = K → ∃ l', xs.foldlM step l = .ok l' ∧ l'.length = K ∧
      ∀ k, k < K → l'.getD k [] = l.getD k [] ++ (xs.filter fun x => key x = k).flatMap w := by
  induction xs with
  | nil => intro l hl; exact ⟨l, rfl, hl, by simp⟩
  | cons x xs ih =>
    intro l hl
    have hx := hstep x (List.mem_cons_self ..) l hl
    obtain ⟨l', h1, h2, h3⟩ := ih (fun y hy => hstep y (List.mem_cons_of_mem _ hy)) (l.modify (key x) (· ++ w x))
      (by rw [List.length_modify, hl])
    refine ⟨l', ?_, h2, ?_⟩
    · rw [List.foldlM_cons, hx]; exact h1
    · intro k hk
      rw [h3 k hk]
      have hk' : k < l.length := by omega
      by_cases hkx : key x = k
      · subst hkx
        simp [List.getD_eq_getElem?_getD, List.getElem?_modify, hk']
      · simp [List.getD_eq_getElem?_getD, List.getElem?_modify, hk', hkx]

theorem pairs_perm (n : ℕ) (ps : List (ℕ × ℕ)) :
    (ps.flatMap fun p : ℕ × ℕ => [p.2, p.2 + n]).Perm (ps.map Prod.snd ++ (ps.map Prod.snd).map (n + ·)) := by
  induction ps with
  | nil => simp
  | cons p ps ih =>
    simp only [List.flatMap_cons, List.map_cons, List.cons_append, List.nil_append]
    refine List.Perm.cons _ ?_
    have h1 : ((p.2 + n) :: ps.flatMap fun p : ℕ × ℕ => [p.2, p.2 + n]).Perm
        ((p.2 + n) :: (ps.map Prod.snd ++ (ps.map Prod.snd).map (n + ·))) := List.Perm.cons _ ih
    refine h1.trans ?_
    rw [Nat.add_comm p.2 n]
    exact List.perm_middle.symm

theorem zipIdx_filter (aos : List ℕ) (f : ℕ → ℕ → Bool) :
    ((aos.zipIdx.filter fun p => f p.1 p.2).map Prod.snd) = (List.range aos.length).filter fun i => f (aos.getD i 0) i := by
  have : aos.zipIdx = (List.range aos.length).map fun i => (aos.getD i 0, i) := by
    apply List.ext_getElem
    · simp
    · intro i h1 h2
      have h3 : i < aos.length := by simpa using h1
      simp [List.getD_eq_getElem?_getD, h3]
  rw [this, List.filter_map, List.map_map]
  simp [Function.comp_def]

theorem orbitals_sorted (sys aos : List ℕ) (k : ℕ) : (orbitalsOf sys aos k).Pairwise (· < ·) :=
  List.Pairwise.filter _ List.pairwise_lt_range

theorem both_sorted (n : ℕ) (A : List ℕ) (hA : A.Pairwise (· < ·)) (hn : ∀ i ∈ A, i < n) :
    (A ++ A.map (n + ·)).Pairwise (· < ·) := by
  rw [List.pairwise_append]
  refine ⟨hA, ?_, ?_⟩
  · rw [List.pairwise_map]
    exact hA.imp (fun h => by omega)
  · intro a ha b hb
    obtain ⟨c, _, rfl⟩ := List.mem_map.mp hb
    have := hn a ha
    omega

theorem sort_eq {l A : List ℕ} (hp : l.Perm A) (hA : A.Pairwise (· < ·)) : sortNat l = A := by
  have hd : l.Nodup := hp.nodup_iff.mpr (hA.imp (fun h => by omega))
  have h1 := sortNat_sorted hd
  have h2 : (sortNat l).Perm A := (sortNat_perm l).trans hp
  exact h2.eq_of_pairwise (fun a b _ _ h3 h4 => absurd h3 (by omega)) h1 hA

theorem lists_ext {l' : List (List ℕ)} {K : ℕ} (hl : l'.length = K) {f : ℕ → List ℕ}
    (h : ∀ k, k < K → sortNat (l'.getD k []) = f k) : l'.map sortNat = (List.range K).map f := by
  apply List.ext_getElem
  · simp [hl]
  · intro k h1 h2
    have hk : k < l'.length := by simpa using h1
    have := h k (hl ▸ hk)
    simpa [List.getD_eq_getElem?_getD, hk] using this

/-- the electrons of a system: those of the pairs of the lowest orbitals. -/
theorem nelec_both (nelec n : ℕ) (A : List ℕ) (hn : ∀ i ∈ A, i < n) :
    nelecOf nelec (2 * n) (A ++ A.map (n + ·)) = 2 * (A.filter fun i => i < nelec / 2).length := by
  have h2 : 2 * n / 2 = n := by omega
  unfold nelecOf
  rw [h2, List.filter_append, List.length_append, List.filter_map, List.length_map]
  have e1 : (A.filter fun i => decide (i < nelec / 2 ∨ (n ≤ i ∧ i < n + nelec / 2))) = A.filter fun i => i < nelec / 2 := by
    apply List.filter_congr
    intro i hi
    have := hn i hi
    simp only [decide_eq_decide]
    omega
  have e2 : (A.filter ((fun i => decide (i < nelec / 2 ∨ (n ≤ i ∧ i < n + nelec / 2))) ∘ (n + ·))) =
      A.filter fun i => i < nelec / 2 := by
    apply List.filter_congr
    intro i hi
    have := hn i hi
    simp only [Function.comp_apply, decide_eq_decide]
    omega
  rw [e1, e2]
  omega

/-- the loop over labels of known atoms. -/
theorem loop_known (n : ℕ) (sys aos : List ℕ) (hlen : aos.length ≤ n) (hao : ∀ a ∈ aos, a < sys.length) :
    ∃ l', aos.zipIdx.foldlM (fun l p => execLines true n sys p.2 p.1 l ((loopLines false).takeWhile fun s => 0 < s.indent))
        (List.replicate (numSystems sys) []) = .ok l' ∧ l'.length = numSystems sys ∧
      ∀ k, k < numSystems sys → l'.getD k [] = (List.replicate (numSystems sys) ([] : List ℕ)).getD k [] ++
        (aos.zipIdx.filter fun p => sys.getD p.1 0 = k).flatMap fun p => [p.2, p.2 + n] := by
  exact foldlM_modify (fun p : ℕ × ℕ => sys.getD p.1 0) (fun p => [p.2, p.2 + n]) (numSystems sys)
    (fun l p => execLines true n sys p.2 p.1 l ((loopLines false).takeWhile fun s => 0 < s.indent)) aos.zipIdx
    (by
      intro p hp l hl
      have hp1 : p.1 < sys.length := hao _ (List.fst_mem_of_mem_zipIdx hp)
      have hp2 : p.2 < n := by
        have := List.snd_lt_of_mem_zipIdx hp
        omega
      have hs : sys[p.1]? = some (sys.getD p.1 0) := by simp [List.getD_eq_getElem?_getD, hp1]
      have hK : sys.getD p.1 0 < l.length := by
        have hm : sys.getD p.1 0 ∈ sys := by
          rw [List.getD_eq_getElem?_getD, List.getElem?_eq_getElem hp1]
          exact List.getElem_mem hp1
        have := (foldl_max_ge sys 0).2 _ hm
        rw [hl]
        unfold numSystems
        omega
      have hb : (loopLines false).takeWhile (fun s => 0 < s.indent) = [⟨4, .alpha true⟩, ⟨4, .beta true⟩] := rfl
      rw [hb]
      have e1 : execStmt true n sys p.2 p.1 l (.alpha true) = .ok (l.modify (sys.getD p.1 0) (· ++ [p.2])) := by
        simp only [execStmt, target, if_true, hs, if_pos hK]
      have e2 : execStmt true n sys p.2 p.1 (l.modify (sys.getD p.1 0) (· ++ [p.2])) (.beta true) =
          .ok ((l.modify (sys.getD p.1 0) (· ++ [p.2])).modify (sys.getD p.1 0) (· ++ [p.2 + n])) := by
        have hK' : sys.getD p.1 0 < (l.modify (sys.getD p.1 0) (· ++ [p.2])).length := by rwa [List.length_modify]
        simp only [execStmt, target, if_true, hs, if_neg (not_not.mpr hK'), if_neg (not_not.mpr hp2), Bool.true_eq_false,
          if_false]
      change Bind.bind (execStmt true n sys p.2 p.1 l (.alpha true))
        (fun a => Bind.bind (execStmt true n sys p.2 p.1 a (.beta true)) pure) = _
      rw [e1]
      change Bind.bind (execStmt true n sys p.2 p.1 (l.modify (sys.getD p.1 0) (· ++ [p.2])) (.beta true)) pure = _
      rw [e2]
      change Except.ok _ = _
      rw [List.modify_modify_eq]
      congr 2
      funext x
      simp)
    (List.replicate (numSystems sys) []) (by simp)

/-- **C125 (lists).**  If every label names an atom of `system_inds` and there are no more labels than spatial orbitals, the
script (for any localization but SVD) gives to each system exactly the alpha and beta orbitals of its atoms, in order, and
as many electrons as fill its orbitals among the lowest `nelec // 2`. -/
theorem C125_lists (v : Variant) (given : List String) (hv : v = .embedding ∨ "slater" ∈ given) (nelec n : ℕ)
    (sys aos : List ℕ) (hlen : aos.length ≤ n) (hao : ∀ a ∈ aos, a < sys.length) :
    scriptLists v given nelec (2 * n) sys aos false =
      .ok ((List.range (numSystems sys)).map fun k => orbitalsOf sys aos k ++ (orbitalsOf sys aos k).map (n + ·),
        (List.range (numSystems sys)).map fun k => 2 * ((orbitalsOf sys aos k).filter fun i => i < nelec / 2).length) := by
  have hn : 2 * n / 2 = n := by omega
  have hk : knowsSlater v given = true := by
    rcases hv with rfl | h
    · rfl
    · simp [knowsSlater, h]
  have hlt : ∀ k, ∀ i ∈ orbitalsOf sys aos k, i < n := by
    intro k i hi
    have := List.mem_range.mp (List.mem_of_mem_filter hi)
    omega
  obtain ⟨l', h1, h2, h3⟩ := loop_known n sys aos hlen hao
  have hind : indicesList v given (2 * n) sys aos false =
      .ok ((List.range (numSystems sys)).map fun k => orbitalsOf sys aos k ++ (orbitalsOf sys aos k).map (n + ·)) := by
    have hloop : execLoop true n sys aos (loopLines false) (List.replicate (numSystems sys) []) = .ok l' := by
      unfold execLoop
      rw [h1]
      rfl
    unfold indicesList
    rw [hk, hn, show sys.foldl max 0 + 1 = numSystems sys from rfl, hloop]
    refine congrArg Except.ok (lists_ext h2 ?_)
    intro k hk
    rw [h3 k hk]
    have hrep : (List.replicate (numSystems sys) ([] : List ℕ)).getD k [] = [] := by
      simp [List.getD_eq_getElem?_getD, hk]
    rw [hrep, List.nil_append]
    refine sort_eq ?_ (both_sorted n _ (orbitals_sorted sys aos k) (hlt k))
    have hz := zipIdx_filter aos (fun a _ => decide (sys.getD a 0 = k))
    have hp := pairs_perm n (aos.zipIdx.filter fun x => decide (sys.getD x.1 0 = k))
    rw [hz] at hp
    exact hp
  unfold scriptLists
  rw [hind]
  simp only [List.map_map]
  refine congrArg Except.ok (Prod.ext rfl ?_)
  apply List.map_congr_left
  intro k _
  exact nelec_both nelec n _ (hlt k)

theorem mem_orbitals (sys aos : List ℕ) (k i : ℕ) : i ∈ orbitalsOf sys aos k ↔ i < aos.length ∧ systemOf sys aos i = k := by
  simp [orbitalsOf]

theorem systemOf_lt {sys aos : List ℕ} (hao : ∀ a ∈ aos, a < sys.length) {i : ℕ} (hi : i < aos.length) :
    systemOf sys aos i < numSystems sys := by
  have h1 : aos.getD i 0 ∈ aos := by
    rw [List.getD_eq_getElem?_getD, List.getElem?_eq_getElem hi]
    exact List.getElem_mem hi
  have h2 := hao _ h1
  have h3 : sys.getD (aos.getD i 0) 0 ∈ sys := by
    rw [List.getD_eq_getElem?_getD (l := sys), List.getElem?_eq_getElem h2]
    exact List.getElem_mem h2
  have := (foldl_max_ge sys 0).2 _ h3
  unfold systemOf numSystems
  omega

theorem range_indicator (K a : ℕ) (ha : a < K) : ((List.range K).map fun k => if a = k then 1 else 0).sum = 1 := by
  induction K with
  | zero => omega
  | succ K ih =>
    rw [List.range_succ, List.map_append, List.sum_append]
    by_cases hK : a = K
    · subst hK
      have : ((List.range a).map fun k => if a = k then 1 else 0) = (List.range a).map fun _ => 0 := by
        apply List.map_congr_left
        intro k hk
        have := List.mem_range.mp hk
        exact if_neg (by omega)
      rw [this]
      simp
    · rw [ih (by omega)]
      simp [hK]

theorem sum_fibers (K : ℕ) (f : ℕ → ℕ) (xs : List ℕ) (h : ∀ x ∈ xs, f x < K) :
    ((List.range K).map fun k => (xs.filter fun x => f x = k).length).sum = xs.length := by
  induction xs with
  | nil => simp
  | cons x xs ih =>
    have : ((List.range K).map fun k => ((x :: xs).filter fun x => f x = k).length) =
        (List.range K).map fun k => (xs.filter fun x => f x = k).length + if f x = k then 1 else 0 := by
      apply List.map_congr_left
      intro k _
      by_cases hk : f x = k <;> simp [hk]
    rw [this, List.sum_map_add, ih (fun y hy => h y (List.mem_cons_of_mem _ hy)),
      range_indicator K (f x) (h x (List.mem_cons_self ..)), List.length_cons]

theorem no_overlapping (L : List (List ℕ)) (h : L.Pairwise fun l m => ∀ i ∈ m, i ∉ l) : overlapping L = false := by
  induction L with
  | nil => rfl
  | cons l ls ih =>
    rw [List.pairwise_cons] at h
    rw [overlapping, ih h.2, Bool.or_false]
    rw [Bool.eq_false_iff]
    intro hc
    obtain ⟨m, hm, hc⟩ := List.any_eq_true.mp hc
    obtain ⟨i, hi, hc⟩ := List.any_eq_true.mp hc
    exact h.1 m hm i hi (by simpa using hc)

theorem both_check (n : ℕ) (A : List ℕ) (hA : A.Pairwise (· < ·)) (hn : ∀ i ∈ A, i < n) :
    checkIndices n (A ++ A.map (n + ·)) = true := by
  have hs := both_sorted n A hA hn
  have hd : (A ++ A.map (n + ·)).Nodup := hs.imp (fun h => by omega)
  have hdA : A.Nodup := hA.imp (fun h => by omega)
  have h1 : (A.map fun i => if i < n then i else i - n) = A := by
    conv_rhs => rw [← List.map_id A]
    apply List.map_congr_left
    intro i hi
    simp [hn i hi]
  have h2 : ((A.map (n + ·)).map fun i => if i < n then i else i - n) = A := by
    rw [List.map_map]
    conv_rhs => rw [← List.map_id A]
    apply List.map_congr_left
    intro i hi
    simp
  unfold checkIndices
  simp only [decide_eq_true_eq]
  refine ⟨hd, ?_⟩
  rw [List.map_append, h1, h2, List.toFinset_append, Finset.union_self, List.toFinset_card_of_nodup hdA]
  simp
  omega

/-- **C125 (wavefunction).**  With one label for every spatial orbital and wavefunctions of the numbers of electrons and
orbitals that the script gives them, the embedded wavefunction is made with the lists of the script, unless the systems are
disjoint and the electrons of the systems do not add up; they add up to `2 * min (nelec // 2) nspatial`, so exactly odd
numbers of electrons (and numbers too large) are refused with `ValueError`. -/
theorem C125_wfn {R : Type} (v : Variant) (given : List String)
    (hv : v = .embedding ∨ ("slater" ∈ given ∧ "FixedEmbeddedWavefunction" ∈ given)) (nelec n : ℕ) (hnelec : nelec ≠ 0)
    (hn0 : n ≠ 0) (sys aos : List ℕ) (hlen : aos.length = n) (hao : ∀ a ∈ aos, a < sys.length) :
    ∃ l ns, scriptLists v given nelec (2 * n) sys aos false = .ok (l, ns) ∧ ns.sum = 2 * min (nelec / 2) n ∧
      ∀ (wfns : List (Comp R)) (disjoint : Bool), wfns.map Comp.nelec = ns → wfns.map Comp.nspin = l.map List.length →
        scriptWfn v given nelec (2 * n) l wfns disjoint =
          if disjoint = true ∧ (nelec % 2 = 1 ∨ 2 * n < nelec) then .error .valueError
          else .ok ⟨nelec, 2 * n, l, wfns, dictSystemSub l⟩ := by
  have hsum : ((List.range (numSystems sys)).map fun k =>
      2 * ((orbitalsOf sys aos k).filter fun i => i < nelec / 2).length).sum = 2 * min (nelec / 2) n := by
    have h1 : ((List.range (numSystems sys)).map fun k => 2 * ((orbitalsOf sys aos k).filter fun i => i < nelec / 2).length) =
        ((List.range (numSystems sys)).map fun k =>
          2 * ((((List.range aos.length).filter fun i => i < nelec / 2)).filter fun i => systemOf sys aos i = k).length) := by
      apply List.map_congr_left
      intro k _
      unfold orbitalsOf
      rw [List.filter_comm]
    rw [h1, List.sum_map_mul_left, sum_fibers (numSystems sys) (systemOf sys aos)]
    · rw [hlen]
      congr 1
      have : ((List.range n).filter fun i => decide (i < nelec / 2)) = List.range (min (nelec / 2) n) := by
        apply List.Perm.eq_of_pairwise (le := (· < ·))
        · intro a b _ _ h3 h4; omega
        · exact List.Pairwise.filter _ List.pairwise_lt_range
        · exact List.pairwise_lt_range
        · rw [List.perm_ext_iff_of_nodup (List.Nodup.filter _ List.nodup_range) List.nodup_range]
          intro a
          simp only [List.mem_filter, List.mem_range, decide_eq_true_eq, lt_min_iff]
          tauto
      rw [this, List.length_range]
    · intro i hi
      exact systemOf_lt hao (List.mem_range.mp (List.mem_of_mem_filter hi))
  refine ⟨_, _, C125_lists v given (hv.imp id And.left) nelec n sys aos hlen.le hao, hsum, ?_⟩
  · intro wfns disjoint he hs
    set L := (List.range (numSystems sys)).map fun k => orbitalsOf sys aos k ++ (orbitalsOf sys aos k).map (n + ·) with hL
    have hlt : ∀ k, ∀ i ∈ orbitalsOf sys aos k, i < n := by
      intro k i hi
      have := ((mem_orbitals sys aos k i).mp hi).1
      omega
    have ha : L.any (fun l => ! checkIndices (2 * n / 2) l) = false := by
      rw [Bool.eq_false_iff]
      intro hc
      obtain ⟨l, hl, hc⟩ := List.any_eq_true.mp hc
      obtain ⟨k, _, rfl⟩ := List.mem_map.mp hl
      rw [show 2 * n / 2 = n by omega, both_check n _ (orbitals_sorted sys aos k) (hlt k)] at hc
      exact absurd hc (by decide)
    have hmem : ∀ k i, i ∈ orbitalsOf sys aos k ++ (orbitalsOf sys aos k).map (n + ·) ↔
        i < 2 * n ∧ systemOf sys aos (i % n) = k := by
      intro k i
      rw [List.mem_append, List.mem_map, mem_orbitals, hlen]
      constructor
      · rintro (⟨h1, h2⟩ | ⟨j, h1, rfl⟩)
        · rw [Nat.mod_eq_of_lt h1]
          exact ⟨by omega, h2⟩
        · obtain ⟨h1, h2⟩ := (mem_orbitals sys aos k j).mp h1
          rw [hlen] at h1
          rw [Nat.add_mod_left, Nat.mod_eq_of_lt h1]
          exact ⟨by omega, h2⟩
      · rintro ⟨h1, h2⟩
        by_cases h3 : i < n
        · rw [Nat.mod_eq_of_lt h3] at h2
          exact Or.inl ⟨h3, h2⟩
        · refine Or.inr ⟨i - n, ?_, by omega⟩
          rw [mem_orbitals, hlen]
          have h4 : i % n = i - n := by
            rw [Nat.mod_eq_sub_mod (by omega), Nat.mod_eq_of_lt (by omega)]
          rw [h4] at h2
          exact ⟨by omega, h2⟩
    have hb : L.flatten.toFinset = Finset.range (2 * n) := by
      ext i
      simp only [List.mem_toFinset, List.mem_flatten, Finset.mem_range]
      constructor
      · rintro ⟨l, hl, hi⟩
        obtain ⟨k, _, rfl⟩ := List.mem_map.mp hl
        exact ((hmem k i).mp hi).1
      · intro hi
        refine ⟨_, List.mem_map.mpr ⟨systemOf sys aos (i % n), ?_, rfl⟩, (hmem _ i).mpr ⟨hi, rfl⟩⟩
        exact List.mem_range.mpr (systemOf_lt hao (by rw [hlen]; exact Nat.mod_lt _ (by omega)))
    have hpw : L.Pairwise fun l m => ∀ i ∈ m, i ∉ l := by
      rw [hL, List.pairwise_map]
      refine List.pairwise_lt_range.imp ?_
      intro a b hab i hi hj
      have h1 := ((hmem b i).mp hi).2
      have h2 := ((hmem a i).mp hj).2
      omega
    have hc : wfns.length = L.length := by
      have := congrArg List.length hs
      simpa using this
    have hd : (List.zipWith (fun (w : Comp R) l => decide (w.nspin ≠ l.length)) wfns L).any id = false := by
      clear ha hb hpw hc he
      clear_value L
      clear hL hmem hlt
      induction wfns generalizing L with
      | nil => simp
      | cons w ws ih =>
        cases L with
        | nil => simp
        | cons l ls =>
          simp only [List.map_cons, List.cons.injEq] at hs
          simp only [List.zipWith_cons_cons, List.any_cons, id, hs.1, ne_eq, not_true, decide_false, Bool.false_or]
          exact ih ls hs.2
    have hf : (wfns.map Comp.nspin).sum = 2 * n := by
      rw [hs, ← List.length_flatten]
      have hnd : L.flatten.Nodup := by
        rw [List.nodup_flatten]
        refine ⟨?_, hpw.imp ?_⟩
        · intro l hl
          obtain ⟨k, _, rfl⟩ := List.mem_map.mp hl
          exact (both_sorted n _ (orbitals_sorted sys aos k) (hlt k)).imp (fun h => by omega)
        · intro l m h i hi hj
          exact h i hj hi
      rw [← List.toFinset_card_of_nodup hnd, hb, Finset.card_range]
    have hg : (wfns.map Comp.nelec).sum = 2 * min (nelec / 2) n := by rw [he]; exact hsum
    have hv' : v = .embedding ∨ "FixedEmbeddedWavefunction" ∈ given := hv.imp id And.right
    unfold scriptWfn
    rw [if_pos hv']
    unfold Embed.init
    rw [CI.checkNelec, if_neg hnelec, CI.checkNspin, if_neg (by omega)]
    change (if L.any (fun l => ! checkIndices (2 * n / 2) l) = true then _ else _) = _
    rw [if_neg (by rw [ha]; decide), if_neg (not_not.mpr hb), if_neg (not_not.mpr hc), if_neg (by rw [hd]; decide), hg, hf,
      no_overlapping L hpw]
    by_cases hcond : disjoint = true ∧ (nelec % 2 = 1 ∨ 2 * n < nelec)
    · rw [if_pos hcond, if_pos ⟨hcond.1, by omega⟩]
    · rw [if_neg hcond, if_neg, if_neg, if_neg]
      · rfl
      · simp
      · simp
      · intro hc'
        apply hcond
        refine ⟨hc'.1, ?_⟩
        have := hc'.2
        omega

/-- **C125 (SVD disagrees).**  For the localization `svd` the second line of the text put into the loop has no spaces before
it, so it is not in the loop: of the beta orbitals only that of the last orbital is given to a system.  With two or more
spatial orbitals the embedded wavefunction is refused with `ValueError`, whatever the wavefunctions of the systems. -/
theorem C125_svd_disagrees {R : Type} (v : Variant) (given : List String)
    (hv : v = .embedding ∨ ("slater" ∈ given ∧ "FixedEmbeddedWavefunction" ∈ given)) (nelec n : ℕ) (hn2 : 2 ≤ n)
    (sys aos : List ℕ) (hlen : aos.length = n) (hao : ∀ a ∈ aos, a < numSystems sys) :
    ∃ l ns, scriptLists v given nelec (2 * n) sys aos true = .ok (l, ns) ∧
      (∀ k i, k < numSystems sys →
        (i ∈ l.getD k [] ↔ (i < n ∧ aos.getD i 0 = k) ∨ (i = 2 * n - 1 ∧ aos.getD (n - 1) 0 = k))) ∧
      ∀ (wfns : List (Comp R)) (disjoint : Bool),
        scriptWfn v given nelec (2 * n) l wfns disjoint = .error .valueError := by
  have hn : 2 * n / 2 = n := by omega
  have hk : knowsSlater v given = true := by
    rcases hv with rfl | h
    · rfl
    · simp [knowsSlater, h.1]
  obtain ⟨l', h1, h2, h3⟩ := foldlM_modify (fun p : ℕ × ℕ => p.1) (fun p => [p.2]) (numSystems sys)
    (fun l p => execLines true n sys p.2 p.1 l ((loopLines true).takeWhile fun s => 0 < s.indent)) aos.zipIdx
    (by
      intro p hp l hl
      have hK : p.1 < l.length := by
        rw [hl]
        exact hao _ (List.fst_mem_of_mem_zipIdx hp)
      have e1 : execStmt true n sys p.2 p.1 l (.alpha false) = .ok (l.modify p.1 (· ++ [p.2])) := by
        simp only [execStmt, target, Bool.false_eq_true, if_false, if_pos hK]
      change Bind.bind (execStmt true n sys p.2 p.1 l (.alpha false)) pure = _
      rw [e1]
      rfl)
    (List.replicate (numSystems sys) []) (by simp)
  have hget : ∀ i, i < n → aos[i]? = some (aos.getD i 0) := by
    intro i hi
    rw [← hlen] at hi
    simp [List.getD_eq_getElem?_getD, hi]
  have hlast : aos.zipIdx.getLast? = some (aos.getD (n - 1) 0, n - 1) := by
    rw [List.getLast?_eq_getElem?, List.length_zipIdx, List.getElem?_zipIdx, hlen, hget (n - 1) (by omega)]
    simp
  set a := aos.getD (n - 1) 0 with ha
  have hamem : a ∈ aos := List.mem_of_getElem? (hget (n - 1) (by omega))
  have haK : a < l'.length := by rw [h2]; exact hao a hamem
  have e2 : execStmt true n sys (n - 1) a l' (.beta false) = .ok (l'.modify a (· ++ [n - 1 + n])) := by
    have hp2 : n - 1 < n := by omega
    simp only [execStmt, target, Bool.false_eq_true, if_false, if_neg (not_not.mpr haK), if_neg (not_not.mpr hp2),
      Bool.true_eq_false]
  have hloop : execLoop true n sys aos (loopLines true) (List.replicate (numSystems sys) []) =
      .ok (l'.modify a (· ++ [n - 1 + n])) := by
    unfold execLoop
    rw [h1]
    change (match aos.zipIdx.getLast? with
      | none => Except.error PyErr.runtimeError
      | some p => execLines true n sys p.2 p.1 l' [⟨0, .beta false⟩]) = _
    rw [hlast]
    change Bind.bind (execStmt true n sys (n - 1) a l' (.beta false)) pure = _
    rw [e2]
    rfl
  have hind : indicesList v given (2 * n) sys aos true = .ok ((l'.modify a (· ++ [n - 1 + n])).map sortNat) := by
    unfold indicesList
    rw [hk, hn, show sys.foldl max 0 + 1 = numSystems sys from rfl, hloop]
  have hmem' : ∀ k i, k < numSystems sys → (i ∈ l'.getD k [] ↔ i < n ∧ aos.getD i 0 = k) := by
    intro k i hkK
    have hrep : (List.replicate (numSystems sys) ([] : List ℕ)).getD k [] = [] := by
      simp [List.getD_eq_getElem?_getD, hkK]
    rw [h3 k hkK, hrep, List.nil_append]
    have hz := zipIdx_filter aos (fun a _ => decide (a = k))
    have : (aos.zipIdx.filter fun x => decide (x.1 = k)).flatMap (fun p => [p.2]) =
        (aos.zipIdx.filter fun x => decide (x.1 = k)).map Prod.snd := by
      generalize (aos.zipIdx.filter fun x => decide (x.1 = k)) = q
      induction q with
      | nil => rfl
      | cons y ys ih => simp [List.flatMap_cons, ih]
    rw [this, hz, hlen]
    simp
  have hmem : ∀ k i, k < numSystems sys → (i ∈ ((l'.modify a (· ++ [n - 1 + n])).map sortNat).getD k [] ↔
      (i < n ∧ aos.getD i 0 = k) ∨ (i = 2 * n - 1 ∧ a = k)) := by
    intro k i hkK
    have hk' : k < l'.length := by rw [h2]; exact hkK
    have hs : ((l'.modify a (· ++ [n - 1 + n])).map sortNat).getD k [] =
        sortNat (if a = k then l'.getD k [] ++ [n - 1 + n] else l'.getD k []) := by
      by_cases hak : a = k
      · subst hak
        simp [List.getD_eq_getElem?_getD, List.getElem?_modify, hk']
      · simp [List.getD_eq_getElem?_getD, List.getElem?_modify, hk', hak]
    rw [hs, (sortNat_perm _).mem_iff]
    by_cases hak : a = k
    · rw [if_pos hak, List.mem_append, hmem' k i hkK, List.mem_singleton]
      have : (i = n - 1 + n) ↔ (i = 2 * n - 1 ∧ a = k) := by
        constructor
        · intro h; exact ⟨by omega, hak⟩
        · intro h; omega
      rw [this]
    · rw [if_neg hak, hmem' k i hkK]
      tauto
  refine ⟨_, _, by unfold scriptLists; rw [hind], hmem, ?_⟩
  intro wfns disjoint
  set L := (l'.modify a (· ++ [n - 1 + n])).map sortNat with hL
  have hb : L.flatten.toFinset ≠ Finset.range (2 * n) := by
    intro hc
    have hin : n ∈ L.flatten.toFinset := by rw [hc]; exact Finset.mem_range.mpr (by omega)
    rw [List.mem_toFinset, List.mem_flatten] at hin
    obtain ⟨m, hm, hin⟩ := hin
    obtain ⟨k, hkl, rfl⟩ := List.mem_iff_getElem.mp hm
    have hkK : k < numSystems sys := by
      rw [hL, List.length_map, List.length_modify, h2] at hkl
      exact hkl
    have hg : L[k] = L.getD k [] := by
      rw [List.getD_eq_getElem?_getD, List.getElem?_eq_getElem hkl]
      rfl
    rw [hg] at hin
    rcases (hmem k n hkK).mp hin with h | h
    · omega
    · omega
  have hv' : v = .embedding ∨ "FixedEmbeddedWavefunction" ∈ given := hv.imp id And.right
  unfold scriptWfn
  rw [if_pos hv']
  unfold Embed.init
  rw [CI.checkNelec]
  by_cases hne : nelec = 0
  · rw [if_pos hne]
    rfl
  rw [if_neg hne, CI.checkNspin, if_neg (by omega)]
  change (if L.any (fun l => ! checkIndices (2 * n / 2) l) = true then Except.error PyErr.valueError
    else if L.flatten.toFinset ≠ Finset.range (2 * n) then Except.error PyErr.valueError else _) = _
  by_cases hany : L.any (fun l => ! checkIndices (2 * n / 2) l) = true
  · rw [if_pos hany]
  · rw [if_neg hany, if_pos hb]

/-- **C125 (errors).**  The first label that names no atom raises `IndexError`, and one label more than there are spatial
orbitals raises `ValueError`. -/
theorem C125_errors (v : Variant) (given : List String) (hv : v = .embedding ∨ "slater" ∈ given) (nelec n : ℕ)
    (sys pre post : List ℕ) (a : ℕ) (hpre : ∀ b ∈ pre, b < sys.length) :
    (pre.length ≤ n → sys.length ≤ a →
      scriptLists v given nelec (2 * n) sys (pre ++ a :: post) false = .error .indexError) ∧
    (pre.length = n → a < sys.length →
      scriptLists v given nelec (2 * n) sys (pre ++ a :: post) false = .error .valueError) := by
  have hn : 2 * n / 2 = n := by omega
  have hk : knowsSlater v given = true := by
    rcases hv with rfl | h
    · rfl
    · simp [knowsSlater, h]
  have key : ∀ e, pre.length ≤ n → (∀ l : List (List ℕ), l.length = numSystems sys →
      execLines true n sys pre.length a l ((loopLines false).takeWhile fun s => 0 < s.indent) = .error e) →
      scriptLists v given nelec (2 * n) sys (pre ++ a :: post) false = .error e := by
    intro e hlen he
    obtain ⟨l', h1, h2, _⟩ := loop_known n sys pre hlen hpre
    have hloop : execLoop true n sys (pre ++ a :: post) (loopLines false) (List.replicate (numSystems sys) []) = .error e := by
      have hf : (pre ++ a :: post).zipIdx.foldlM
          (fun l p => execLines true n sys p.2 p.1 l ((loopLines false).takeWhile fun s => 0 < s.indent))
          (List.replicate (numSystems sys) []) = .error e := by
        rw [List.zipIdx_append, List.foldlM_append, h1]
        simp only [List.zipIdx_cons, List.foldlM_cons, Nat.zero_add, bind, Except.bind, he l' h2]
      unfold execLoop
      rw [hf]
    unfold scriptLists indicesList
    rw [hk, hn, show sys.foldl max 0 + 1 = numSystems sys from rfl, hloop]
  refine ⟨fun hlen ha => key _ hlen ?_, fun hlen ha => key _ hlen.le ?_⟩
  · intro l hl
    have hs : sys[a]? = none := List.getElem?_eq_none ha
    change Bind.bind (execStmt true n sys pre.length a l (.alpha true))
        (fun b => Bind.bind (execStmt true n sys pre.length a b (.beta true)) pure) = _
    have e1 : execStmt true n sys pre.length a l (.alpha true) = .error .indexError := by
      simp only [execStmt, target, if_true, hs]
    rw [e1]
    rfl
  · intro l hl
    have hs : sys[a]? = some (sys.getD a 0) := by simp [List.getD_eq_getElem?_getD, ha]
    have hm : sys.getD a 0 ∈ sys := by
      rw [List.getD_eq_getElem?_getD, List.getElem?_eq_getElem ha]
      exact List.getElem_mem ha
    have hK : sys.getD a 0 < l.length := by
      have := (foldl_max_ge sys 0).2 _ hm
      rw [hl]
      unfold numSystems
      omega
    have e1 : execStmt true n sys pre.length a l (.alpha true) = .ok (l.modify (sys.getD a 0) (· ++ [pre.length])) := by
      simp only [execStmt, target, if_true, hs, if_pos hK]
    have e2 : execStmt true n sys pre.length a (l.modify (sys.getD a 0) (· ++ [pre.length])) (.beta true) =
        .error .valueError := by
      have hK' : sys.getD a 0 < (l.modify (sys.getD a 0) (· ++ [pre.length])).length := by rwa [List.length_modify]
      have hp : ¬ pre.length < n := by omega
      simp only [execStmt, target, if_true, hs, if_neg (not_not.mpr hK'), Bool.true_eq_false, if_false, if_pos hp]
    change Bind.bind (execStmt true n sys pre.length a l (.alpha true))
        (fun b => Bind.bind (execStmt true n sys pre.length a b (.beta true)) pure) = _
    rw [e1]
    change Bind.bind (execStmt true n sys pre.length a (l.modify (sys.getD a 0) (· ++ [pre.length])) (.beta true)) pure = _
    rw [e2]
    rfl

/-- **C125 (imports disagree).**  The script of make_cc_embedding_script.py uses `slater` without importing it: if none of
the given scripts has that name, `NameError` is raised at the first orbital. -/
theorem C125_cc_disagrees (given : List String) (hg : "slater" ∉ given) (nelec nspin : ℕ) (sys aos : List ℕ) (a : ℕ)
    (ha : a < sys.length) : scriptLists .cc given nelec nspin sys (a :: aos) false = .error .runtimeError := by
  have hk : knowsSlater .cc given = false := by simp [knowsSlater, hg]
  have hs : sys[a]? = some (sys.getD a 0) := by simp [List.getD_eq_getElem?_getD, ha]
  have hm : sys.getD a 0 ∈ sys := by
    rw [List.getD_eq_getElem?_getD, List.getElem?_eq_getElem ha]
    exact List.getElem_mem ha
  have hK : sys.getD a 0 < numSystems sys := by
    have := (foldl_max_ge sys 0).2 _ hm
    unfold numSystems
    omega
  have hloop : execLoop false (nspin / 2) sys (a :: aos) (loopLines false) (List.replicate (numSystems sys) []) =
      .error .runtimeError := by
    unfold execLoop
    have e1 : execStmt false (nspin / 2) sys 0 a (List.replicate (numSystems sys) []) (.alpha true) =
        .ok ((List.replicate (numSystems sys) []).modify (sys.getD a 0) (· ++ [0])) := by
      simp only [execStmt, target, if_true, hs, List.length_replicate, if_pos hK]
    have e2 : execStmt false (nspin / 2) sys 0 a ((List.replicate (numSystems sys) []).modify (sys.getD a 0) (· ++ [0]))
        (.beta true) = .error .runtimeError := by
      have hK' : sys.getD a 0 < ((List.replicate (numSystems sys) []).modify (sys.getD a 0) (· ++ [0])).length := by
        rwa [List.length_modify, List.length_replicate]
      simp only [execStmt, target, if_true, hs, if_neg (not_not.mpr hK')]
    have e3 : execLines false (nspin / 2) sys 0 a (List.replicate (numSystems sys) [])
        ((loopLines false).takeWhile fun s => 0 < s.indent) = .error .runtimeError := by
      change Bind.bind (execStmt false (nspin / 2) sys 0 a (List.replicate (numSystems sys) []) (.alpha true))
        (fun b => Bind.bind (execStmt false (nspin / 2) sys 0 a b (.beta true)) pure) = _
      rw [e1]
      change Bind.bind (execStmt false (nspin / 2) sys 0 a
        ((List.replicate (numSystems sys) []).modify (sys.getD a 0) (· ++ [0])) (.beta true)) pure = _
      rw [e2]
      rfl
    rw [List.zipIdx_cons, List.foldlM_cons]
    simp only [e3]
    rfl
  unfold scriptLists indicesList
  rw [hk, show sys.foldl max 0 + 1 = numSystems sys from rfl, hloop]

/-- **C125 (command line).**  The command line of the two programs raises `TypeError` always: `make_script` is called with
the arguments of another function. -/
theorem C125_main_disagrees : mainCall = .error .typeError := by decide

theorem maxOf_spec (x : ℤ) (xs : List ℤ) : ∃ m, maxOf (x :: xs) = .ok m ∧ m ∈ x :: xs ∧ ∀ z ∈ x :: xs, z ≤ m := by
  refine ⟨xs.foldl max x, rfl, ?_⟩
  induction xs generalizing x with
  | nil => simp
  | cons y ys ih =>
    obtain ⟨h1, h2⟩ := ih (max x y)
    simp only [List.foldl_cons]
    refine ⟨?_, ?_⟩
    · rcases List.mem_cons.mp h1 with h | h
      · rw [h]
        rcases max_choice x y with h' | h' <;> rw [h'] <;> simp
      · exact List.mem_cons_of_mem _ (List.mem_cons_of_mem _ h)
    · intro z hz
      rcases List.mem_cons.mp hz with rfl | hz
      · exact le_trans (le_max_left z y) (h2 _ (List.mem_cons_self ..))
      · rcases List.mem_cons.mp hz with rfl | hz
        · exact le_trans (le_max_right x z) (h2 _ (List.mem_cons_self ..))
        · exact h2 z (List.mem_cons_of_mem _ hz)

/-- **C125 (checks).**  The scripts and systems are accepted exactly if all scripts exist, there is at least one, and the
systems of the atoms are the numbers below the number of scripts, each of them used; everything else raises `ValueError`. -/
theorem C125_check (scripts : List Bool) (inds : List ℤ) :
    ((check scripts inds = .ok () ∧ (∀ e ∈ scripts, e = true) ∧ scripts ≠ [] ∧
        ∀ z, z ∈ inds ↔ 0 ≤ z ∧ z < scripts.length) ∨
      (check scripts inds = .error .valueError ∧
        ¬ ((∀ e ∈ scripts, e = true) ∧ scripts ≠ [] ∧ ∀ z, z ∈ inds ↔ 0 ≤ z ∧ z < scripts.length))) := by
  have hrange : ∀ m : ℕ, ((List.range m).map fun (k : ℕ) => (k : ℤ)).toFinset.card = m := by
    intro m
    rw [List.toFinset_card_of_nodup, List.length_map, List.length_range]
    exact (List.nodup_map_iff (fun a b h => by simpa using h)).mpr List.nodup_range
  unfold check
  by_cases h1 : scripts.any (fun e => !e) = true
  · right
    rw [if_pos h1]
    refine ⟨rfl, fun h => ?_⟩
    obtain ⟨e, he, he'⟩ := List.any_eq_true.mp h1
    rw [h.1 e he] at he'
    exact absurd he' (by decide)
  have hall : ∀ e ∈ scripts, e = true := by
    intro e he
    by_contra hc
    exact h1 (List.any_eq_true.mpr ⟨e, he, by simpa using hc⟩)
  rw [if_neg h1]
  by_cases h2 : scripts.length ≠ inds.toFinset.card
  · right
    rw [if_pos h2]
    refine ⟨rfl, fun h => h2 ?_⟩
    have : inds.toFinset = ((List.range scripts.length).map fun (k : ℕ) => (k : ℤ)).toFinset := by
      ext z
      simp only [List.mem_toFinset, List.mem_map, List.mem_range, h.2.2 z]
      constructor
      · rintro ⟨h3, h4⟩
        exact ⟨z.toNat, by omega, by omega⟩
      · rintro ⟨k, h3, rfl⟩
        omega
    rw [this, hrange]
  rw [if_neg h2]
  push Not at h2
  cases inds with
  | nil =>
    right
    refine ⟨rfl, fun h => h.2.1 (List.length_eq_zero_iff.mp (by simpa using h2))⟩
  | cons x xs =>
    obtain ⟨m, hm, hmem, hle⟩ := maxOf_spec x xs
    rw [hm]
    have hne : scripts ≠ [] := by
      rintro rfl
      have : x ∈ (x :: xs).toFinset := by simp
      have := Finset.card_pos.mpr ⟨x, this⟩
      simp only [List.length_nil] at h2
      omega
    dsimp only
    by_cases h3 : (x :: xs).toFinset ≠ ((List.range (m + 1).toNat).map fun (k : ℕ) => (k : ℤ)).toFinset
    · right
      rw [if_pos h3]
      refine ⟨rfl, fun h => h3 ?_⟩
      ext z
      simp only [List.mem_toFinset, List.mem_map, List.mem_range]
      constructor
      · intro hz
        have := (h.2.2 z).mp hz
        have := hle z hz
        exact ⟨z.toNat, by omega, by omega⟩
      · rintro ⟨k, h4, rfl⟩
        have := (h.2.2 m).mp hmem
        exact (h.2.2 k).mpr (by omega)
    · left
      rw [if_neg h3]
      push Not at h3
      refine ⟨rfl, hall, hne, ?_⟩
      have hc : scripts.length = (m + 1).toNat := by rw [h2, h3, hrange]
      intro z
      have : z ∈ (x :: xs).toFinset ↔ z ∈ ((List.range (m + 1).toNat).map fun (k : ℕ) => (k : ℤ)).toFinset := by rw [h3]
      simp only [List.mem_toFinset, List.mem_map, List.mem_range] at this
      rw [List.mem_cons, ← List.mem_cons, this]
      constructor
      · rintro ⟨k, h4, rfl⟩
        omega
      · intro h4
        exact ⟨z.toNat, by omega, by omega⟩

/-- three atoms in two systems, four orbitals: the hypotheses of `C125_lists` and `C125_wfn` hold, and the lists are those
one expects; with `svd` the beta orbitals 4, 5 and 6 are missing. -/
example : check [true, true] [0, 1, 1] = .ok () ∧ check [true, true] [0, 2, 2] = .error .valueError ∧
    scriptLists .embedding [] 4 8 [0, 1, 1] [0, 2, 1, 0] false = .ok ([[0, 3, 4, 7], [1, 2, 5, 6]], [2, 2]) ∧
    scriptLists .embedding [] 4 8 [0, 1, 1] [0, 1, 1, 0] true = .ok ([[0, 3, 7], [1, 2]], [1, 1]) ∧
    scriptLists .embedding [] 4 8 [0, 1, 1] [0, 3, 1, 0] false = .error .indexError ∧
    scriptLists .cc ["np"] 4 8 [0, 1, 1] [0, 2, 1, 0] false = .error .runtimeError := by
  refine ⟨by decide, by decide, ?_, ?_, ?_, ?_⟩ <;> decide +kernel

end Fanpy.Props
