import Verif.Props.RBMDeriv

/-! # Properties C72 and C73: all determinants at once, parameters and normalization of the restricted Boltzmann machine -/

namespace Fanpy.Props
open Fanpy.Spec Fanpy.Slater Fanpy.RBM

variable {R : Type} [CommRing R]

/-- one column of arrays -/
def column (n : ℕ) (L : List (ℕ → ℕ → R)) : List (ℕ → R) := L.map fun x i => x i n

theorem batchFirst_column (nspin : ℕ) (occ : ℕ → ℕ → Bool) : ∀ (L : List (ℕ × (ℕ → ℕ → R))) (extra : ℕ) (vals : ℕ → ℕ → R) (acts : List (ℕ → ℕ → R))
    (out : (ℕ → ℕ → R) × List (ℕ → ℕ → R)), batchFirst nspin occ L extra vals acts = .ok out →
    ∀ n, firstLayer nspin (occ n) L (fun i => vals i n) (column n acts) = .ok (fun i => out.1 i n, column n out.2)
  | [], extra, vals, acts, out, h, n => by
    rw [batchFirst] at h
    injection h with h
    rw [← h]
    rfl
  | (k, W) :: r, extra, vals, acts, out, h, n => by
    rw [batchFirst] at h
    split_ifs at h with hk
    have hk0 : k ≠ 0 := by omega
    have := batchFirst_column nspin occ r _ _ _ out h n
    rw [firstLayer, inputLayer, if_neg hk0]
    simp only [bind, Except.bind]
    rw [column, List.map_append] at this
    exact this

theorem batchHidden_column (act : R → R) (B n : ℕ) : ∀ (Hs : List (ℕ → ℕ → R)) (vals : ℕ → ℕ → R) (acts lins : List (ℕ → ℕ → R)),
    hiddenLayers act B Hs (fun i => vals i n) (column n acts) (column n lins) =
      (fun i => (batchHidden act B Hs vals acts lins).1 i n, column n (batchHidden act B Hs vals acts lins).2.1,
        column n (batchHidden act B Hs vals acts lins).2.2)
  | [], vals, acts, lins => rfl
  | W :: r, vals, acts, lins => by
    rw [hiddenLayers, batchHidden]
    have := batchHidden_column act B n r (fun i m => act (∑ j ∈ Finset.range B, W i j * vals j m)) (acts ++ [vals])
      (lins ++ [fun i m => ∑ j ∈ Finset.range B, W i j * vals j m])
    rw [column, column, List.map_append, List.map_append] at this
    exact this

/-- every determinant has its own column -/
theorem batchHelper_column (act : R → R) (w : RBM.Wfn R) (hw : widths w.nspin w.nbath w.orders w.numLayers ≠ []) (sds : List ℕ)
    (out : (ℕ → ℕ → R) × List (ℕ → ℕ → R) × List (ℕ → ℕ → R)) (h : batchHelper act w sds = .ok out) (n : ℕ) (hn : n < sds.length) :
    olpHelper act w (sds.getD n 0) = .ok (fun i => out.1 i n, column n out.2.1, column n out.2.2) := by
  rw [batchHelper] at h
  split_ifs at h with h1 h2
  simp only at h
  rcases hb : batchFirst w.nspin (fun n i => decide (i ∈ occIndices (some (sds.getD n 0)))) (w.orders.zip w.params) 0 (fun _ _ => 0) [] with e | o
  · rw [hb] at h; cases h
  rw [hb] at h
  simp only [bind, Except.bind, pure, Except.pure, Except.ok.injEq] at h
  have hf := batchFirst_column w.nspin _ _ 0 _ [] o hb n
  have hall : (occIndices (some (sds.getD n 0))).all (· < w.nspin) = true := by
    rw [List.all_eq_true] at h2
    exact h2 _ (by rw [List.getD_eq_getElem _ _ hn]; exact List.getElem_mem _)
  rw [olpHelper, occMask, if_pos hall]
  simp only [bind, Except.bind, if_neg hw, pure, Except.pure]
  simp only [column, List.map_nil] at hf
  rw [hf]
  simp only
  have := batchHidden_column act w.nbath n (w.params.drop w.orders.length) (fun i m => act (o.1 i m)) o.2 (w.orders.map fun _ => o.1)
  rw [h] at this
  rw [← this]
  congr 2
  simp [column]

/-- the errors of a list of orders: `extra` axes and an order above one before another order -/
theorem batchFirst_ok (nspin : ℕ) (occ : ℕ → ℕ → Bool) : ∀ (L : List (ℕ × (ℕ → ℕ → R))) (vals : ℕ → ℕ → R) (acts : List (ℕ → ℕ → R)),
    ((∃ out, batchFirst nspin occ L 0 vals acts = .ok out) ↔ (∀ q ∈ L, q.1 ≠ 0) ∧ ∀ q ∈ L.dropLast, q.1 = 1) ∧
    ((∃ e, batchFirst nspin occ L 0 vals acts = .error e) → batchFirst nspin occ L 0 vals acts = .error .indexError)
  | [], vals, acts => by simp [batchFirst]
  | [(k, W)], vals, acts => by
    by_cases hk : k = 0
    · simp [batchFirst, hk]
    · have : ¬ (1 + k < 2 + 0 + (k - 1)) := by omega
      simp [batchFirst, hk, this]
  | (k, W) :: (k', W') :: r, vals, acts => by
    by_cases hk : k = 0
    · simp [batchFirst, hk]
    · have h1 : ¬ (1 + k < 2 + 0 + (k - 1)) := by omega
      rw [batchFirst, if_neg h1]
      by_cases hk1 : k = 1
      · subst hk1
        have ih := batchFirst_ok nspin occ ((k', W') :: r) (fun i n => vals i n + ∑ c ∈ Finset.range (nspin ^ 1), W i c *
          (if maskAt nspin (occ n) (1 - 1) c then 1 else 0)) (acts ++ [fun c n => if maskAt nspin (occ n) (1 - 1) c then 1 else 0])
        simp only [Nat.sub_self, add_zero] at ih ⊢
        refine ⟨ih.1.trans ?_, ih.2⟩
        simp
      · have h2 : 1 + k' < 2 + (0 + (k - 1)) + (k' - 1) := by omega
        rw [batchFirst, if_pos h2]
        simp [hk1]

theorem batch_ok (act : R → R) (w : RBM.Wfn R) (ho : ∀ k ∈ w.orders, k ≠ 0) (hlast : ∀ k ∈ w.orders.dropLast, k = 1)
    (hp : w.orders.length ≤ w.params.length)
    (sds : List ℕ) (N : ℕ) (hN : ∀ sd ∈ sds, (occSet sd).card = N) (hsd : ∀ sd ∈ sds, ∀ i ∈ occSet sd, i < w.nspin) :
    ∃ out, batchHelper act w sds = .ok out := by
  have h1 : (sds.all fun sd => (occIndices (some sd)).length == (occIndices (some (sds.headD 0))).length) = true := by
    rw [List.all_eq_true]
    intro sd hs
    rcases sds with _ | ⟨x, r⟩
    · simp at hs
    · rw [List.headD_cons, length_occIndices, length_occIndices, hN sd hs, hN x (by simp)]
      simp
  have h2 : (sds.all fun sd => (occIndices (some sd)).all (· < w.nspin)) = true := by
    rw [List.all_eq_true]
    intro sd hs
    rw [List.all_eq_true]
    intro i hi
    rw [mem_occIndices, ← mem_occSet] at hi
    simpa using hsd sd hs i hi
  rw [batchHelper]
  simp only [h1, h2, not_true_eq_false, if_false]
  have h3 := ((batchFirst_ok w.nspin (fun n i => decide (i ∈ occIndices (some (sds.getD n 0)))) (w.orders.zip w.params) (fun _ _ => 0) []).1).2 ⟨
    fun q hq => ho _ (List.of_mem_zip hq).1, by
      intro q hq
      apply hlast
      have hz : (w.orders.zip w.params).dropLast.map Prod.fst = w.orders.dropLast := by
        rw [List.map_dropLast, List.map_fst_zip hp]
      rw [← hz]
      exact List.mem_map_of_mem hq⟩
  obtain ⟨o, h3⟩ := h3
  rw [h3]
  exact ⟨_, rfl⟩

theorem mapM_range {α : Type} (f : ℕ → Except PyErr α) (g : ℕ → α) (sds : List ℕ) (h : ∀ n < sds.length, f (sds.getD n 0) = .ok (g n)) :
    sds.mapM f = .ok ((List.range sds.length).map g) := by
  induction sds generalizing g with
  | nil => rfl
  | cons x l ih =>
    have h0 := h 0 (by simp)
    rw [List.getD_cons_zero] at h0
    rw [List.mapM_cons, h0, ih (fun n => g (n + 1)) (fun n hn => by
      have := h (n + 1) (by simpa using hn)
      rwa [List.getD_cons_succ] at this)]
    rw [List.length_cons, List.range_succ_eq_map, List.map_cons, List.map_map]
    rfl

/-- **C72**.  If the determinants have equally many electrons in the spin orbitals and every order but the last is one, `get_overlaps` gives the
overlaps of the determinants one by one. -/
theorem C72_overlaps_partial (act : R → R) (w : RBM.Wfn R) (s : R) (hs : w.scale = some s) (ho : ∀ k ∈ w.orders, k ≠ 0)
    (hl : w.orders ≠ [] ∨ 1 < w.numLayers) (hlast : ∀ k ∈ w.orders.dropLast, k = 1) (hp : w.orders.length ≤ w.params.length)
    (sds : List ℕ) (N : ℕ) (hN : ∀ sd ∈ sds, (occSet sd).card = N) (hsd : ∀ sd ∈ sds, ∀ i ∈ occSet sd, i < w.nspin) :
    overlaps act w sds = sds.mapM (olp act w) ∧ ∃ L, overlaps act w sds = .ok L := by
  by_cases h0 : sds = []
  · subst h0
    exact ⟨rfl, [], rfl⟩
  have hwid : widths w.nspin w.nbath w.orders w.numLayers ≠ [] := by
    rw [widths]
    rcases hl with h | h
    · simp [h]
    · have : w.numLayers - 1 ≠ 0 := by omega
      simp [this]
  obtain ⟨out, hout⟩ := batch_ok act w ho hlast hp sds N hN hsd
  have e : overlaps act w sds = .ok ((List.range sds.length).map fun n => ∏ y ∈ Finset.range w.nbath, out.1 y n * s) := by
    rw [overlaps, if_neg h0, hout]
    simp only [bind, Except.bind, outputScale, hs, pure, Except.pure]
  refine ⟨?_, _, e⟩
  rw [e, mapM_range]
  intro n hn
  rw [olp, batchHelper_column act w hwid sds out hout n hn]
  simp only [bind, Except.bind, outputScale, hs, pure, Except.pure]

/-- **C72**, the orders: `get_overlaps` of any determinants fails with IndexError as soon as an order above one is followed by another order, though
`get_overlap` has the value. -/
theorem C72_orders (act : R → R) (w : RBM.Wfn R) (hp : w.orders.length ≤ w.params.length) (hbad : ∃ k ∈ w.orders.dropLast, k ≠ 1)
    (sds : List ℕ) (h0 : sds ≠ []) (N : ℕ) (hN : ∀ sd ∈ sds, (occSet sd).card = N) : overlaps act w sds = .error .indexError := by
  have h1 : (sds.all fun sd => (occIndices (some sd)).length == (occIndices (some (sds.headD 0))).length) = true := by
    rw [List.all_eq_true]
    intro sd hs
    rcases sds with _ | ⟨x, r⟩
    · simp at hs
    · rw [List.headD_cons, length_occIndices, length_occIndices, hN sd hs, hN x (by simp)]
      simp
  rw [overlaps, if_neg h0, batchHelper]
  simp only [h1, not_true_eq_false, if_false]
  by_cases h2 : (sds.all fun sd => (occIndices (some sd)).all (· < w.nspin)) = true
  · simp only [h2, not_true_eq_false, if_false]
    have hb := batchFirst_ok w.nspin (fun n i => decide (i ∈ occIndices (some (sds.getD n 0)))) (w.orders.zip w.params) (fun _ _ => 0) []
    rcases he : batchFirst w.nspin (fun n i => decide (i ∈ occIndices (some (sds.getD n 0)))) (w.orders.zip w.params) 0 (fun _ _ => 0) [] with e | o
    · rw [hb.2 ⟨e, he⟩] at he
      rw [← he]
      rfl
    · exfalso
      have := (hb.1.1 ⟨o, he⟩).2
      obtain ⟨k, hk, hk1⟩ := hbad
      have hz : (w.orders.zip w.params).dropLast.map Prod.fst = w.orders.dropLast := by
        rw [List.map_dropLast, List.map_fst_zip hp]
      rw [← hz, List.mem_map] at hk
      obtain ⟨q, hq, rfl⟩ := hk
      exact hk1 (this q hq)
  · simp only [h2]
    rfl

/-- **C72**, numbers of electrons: different numbers of electrons are a ValueError. -/
theorem C72_electrons (act : R → R) (w : RBM.Wfn R) (a b : ℕ) (r : List ℕ) (hb : b ∈ r) (hab : (occSet a).card ≠ (occSet b).card) :
    overlaps act w (a :: r) = .error .valueError := by
  have : ¬ ((a :: r).all fun sd => (occIndices (some sd)).length == (occIndices (some ((a :: r).headD 0))).length) = true := by
    rw [List.all_eq_true]
    intro h
    have := h b (by simp [hb])
    rw [List.headD_cons, length_occIndices, length_occIndices] at this
    simp at this
    exact hab this.symm
  rw [overlaps, if_neg (by simp), batchHelper, if_pos this]
  rfl

theorem column_getD (L : List (ℕ → ℕ → R)) (n i : ℕ) : (column n L).getD i 0 = fun j => L.getD i 0 j n := by
  by_cases hi : i < L.length
  · rw [List.getD_eq_getElem _ _ (by simpa [column] using hi), List.getD_eq_getElem _ _ hi]
    simp [column]
  · rw [List.getD_eq_default _ _ (by simpa [column] using hi), List.getD_eq_default _ _ (by omega)]
    rfl

theorem batchStep_column (dact : R → R) (w : RBM.Wfn R) (acts lins : List (ℕ → ℕ → R)) (s : R) (n : ℕ) : ∀ (l : List ℕ)
    (st : (ℕ → ℕ → ℕ → R) × List (ℕ → ℕ → ℕ → ℕ → R)),
    l.foldl (backStep dact w (column n acts) (column n lins) s) (fun y r => st.1 y r n, st.2.map fun g y r c => g y r c n) =
      (fun y r => (l.foldl (batchStep dact w acts lins s) st).1 y r n, (l.foldl (batchStep dact w acts lins s) st).2.map fun g y r c => g y r c n)
  | [], st => rfl
  | i :: l, st => by
    rw [List.foldl_cons, List.foldl_cons, ← batchStep_column dact w acts lins s n l]
    congr 1
    rw [backStep, batchStep]
    simp only [column_getD, List.map_append, List.map_cons, List.map_nil]
    congr 1
    split_ifs <;> rfl

/-- **C72**, derivatives: under the same conditions `get_overlaps(sds, deriv)` gives the derivatives of the determinants one by one. -/
theorem C72_derivatives_partial (act dact : R → R) (w : RBM.Wfn R) (s : R) (hs : w.scale = some s) (hn : 0 < w.nspin) (ho : ∀ k ∈ w.orders, k ≠ 0)
    (hl : w.orders ≠ [] ∨ 1 < w.numLayers) (hlast : ∀ k ∈ w.orders.dropLast, k = 1)
    (hp : w.params.length = (widths w.nspin w.nbath w.orders w.numLayers).length)
    (sds : List ℕ) (N : ℕ) (hN : ∀ sd ∈ sds, (occSet sd).card = N) (hsd : ∀ sd ∈ sds, ∀ i ∈ occSet sd, i < w.nspin) (deriv : List ℕ) :
    overlapsDeriv act dact w sds deriv = sds.mapM fun sd => overlapDeriv act dact w sd deriv := by
  by_cases h0 : sds = []
  · subst h0
    rfl
  have hwid : widths w.nspin w.nbath w.orders w.numLayers ≠ [] := by
    rw [widths]
    rcases hl with h | h
    · simp [h]
    · have : w.numLayers - 1 ≠ 0 := by omega
      simp [this]
  have hp0 : w.params ≠ [] := by
    intro h
    rw [h] at hp
    exact hwid (List.eq_nil_of_length_eq_zero hp.symm)
  have hpo : w.orders.length ≤ w.params.length := by rw [hp, widths]; simp
  have hzl : (w.orders.zip w.params).length = w.orders.length := by rw [List.length_zip]; omega
  obtain ⟨out, hout⟩ := batch_ok act w ho hlast hpo sds N hN hsd
  have hrow : ∀ n < sds.length, olpDeriv act dact w (sds.getD n 0) = .ok
      (((((List.range w.params.length).reverse.foldl (batchStep dact w out.2.1 out.2.2 s) (fun y r _ => if y = r then 1 else 0, [])).2.reverse.zip
        (widths w.nspin w.nbath w.orders w.numLayers)).map fun q => flat w.nbath q.2 fun r c => ∑ y ∈ Finset.range w.nbath,
          ((otherIndices w.nbath y).map fun k => out.1 k n * s).prod * q.1 y r c n).flatten) := by
    intro n hnl
    have hm : sds.getD n 0 ∈ sds := by rw [List.getD_eq_getElem _ _ hnl]; exact List.getElem_mem _
    have hc := batchHelper_column act w hwid sds out hout n hnl
    have hk := olpHelper_ok act w hn ho hwid (sds.getD n 0) (hsd _ hm)
    rw [hc] at hk
    injection hk with hk
    rw [Prod.mk.injEq, Prod.mk.injEq] at hk
    obtain ⟨k1, k2, k3⟩ := hk
    have hg := grads_eq act dact w s (fun b => act (bathInput w.nspin (occSet (sds.getD n 0)) (w.orders.zip w.params) b))
      (bathInput w.nspin (occSet (sds.getD n 0)) (w.orders.zip w.params))
      ((w.orders.zip w.params).map fun q => inputAt w.nspin (fun i => decide (i ∈ occIndices (some (sds.getD n 0)))) q.1)
      (by rw [List.length_map, hzl]) hpo
    have hb := batchStep_column dact w out.2.1 out.2.2 s n (List.range w.params.length).reverse (fun y r _ => if y = r then 1 else 0, [])
    simp only [List.map_nil] at hb
    rw [← k2, ← k3, hb] at hg
    simp only at hg
    rw [← List.map_reverse, List.map_map] at hg
    rw [rbmDeriv_ok act dact w s hs hn ho hwid hp _ (hsd _ hm), allGrads, ← k1]
    congr 2
    have hg' : (w.orders.zip w.params).map ((fun x => fun y r c => jac act dact w.nbath (w.params.drop w.orders.length)
        (fun b => act (bathInput w.nspin (occSet (sds.getD n 0)) (w.orders.zip w.params) b)) y r *
          dact (bathInput w.nspin (occSet (sds.getD n 0)) (w.orders.zip w.params) r) * x c * s) ∘
        fun q => inputAt w.nspin (fun i => decide (i ∈ occIndices (some (sds.getD n 0)))) q.1) =
        (w.orders.zip w.params).map fun q => fun y r c => jac act dact w.nbath (w.params.drop w.orders.length)
        (fun b => act (bathInput w.nspin (occSet (sds.getD n 0)) (w.orders.zip w.params) b)) y r *
          dact (bathInput w.nspin (occSet (sds.getD n 0)) (w.orders.zip w.params) r) *
          inputAt w.nspin (fun i => decide (i ∈ occIndices (some (sds.getD n 0)))) q.1 c * s := rfl
    rw [hg'] at hg
    rw [← hg, List.map_map, List.zip_map_left, List.map_map]
    rfl
  rw [overlapsDeriv, if_neg h0, hout]
  simp only [bind, Except.bind, outputScale, hs, if_neg hp0]
  rw [List.mapM_map]
  have hsds : sds = (List.range sds.length).map fun n => sds.getD n 0 := by
    apply List.ext_getElem (by simp)
    intro i h1 h2
    rw [List.getElem_map, List.getElem_range, List.getD_eq_getElem _ _ h1]
  conv_rhs => rw [hsds, List.mapM_map]
  have : ∀ (l : List ℕ) (f g : ℕ → Except PyErr (List R)), (∀ n ∈ l, f n = g n) → l.mapM f = l.mapM g := by
    intro l f g h
    induction l with
    | nil => rfl
    | cons x l ih => rw [List.mapM_cons, List.mapM_cons, h x (by simp), ih fun n hn => h n (by simp [hn])]
  apply this
  intro n hn
  rw [List.mem_range] at hn
  simp only [Function.comp, overlapDeriv, hrow n hn, bind, Except.bind]

/-! ### parameters -/

/-- **C73**.  An array of at least as many numbers as parameters is taken, and `params` gives its beginning back; a shorter array is a ValueError. -/
theorem C73_roundtrip_partial (w : RBM.Wfn R) (h1 : 1 ≤ w.numLayers) (P : List R) :
    (nparams w.nspin w.nbath w.orders w.numLayers ≤ P.length → ∃ w', assignParams w P = .ok w' ∧ w'.scale = w.scale ∧
      flatParams w' = P.take (nparams w.nspin w.nbath w.orders w.numLayers).toNat) ∧
    ((P.length : ℤ) < nparams w.nspin w.nbath w.orders w.numLayers → assignParams w P = .error .valueError) := by
  have e : (total w.nbath (widths w.nspin w.nbath w.orders w.numLayers) : ℤ) = nparams w.nspin w.nbath w.orders w.numLayers := by
    obtain ⟨m, hm⟩ : ∃ m, w.numLayers = m + 1 := ⟨w.numLayers - 1, by omega⟩
    rw [nparams, total, widths, List.map_append, List.sum_append, List.map_map, List.map_replicate, List.sum_replicate, hm]
    push_cast
    simp [Function.comp_def]
    left
    ring
  rw [← e, Int.toNat_natCast]
  constructor
  · intro h
    have h : total w.nbath (widths w.nspin w.nbath w.orders w.numLayers) ≤ P.length := by exact_mod_cast h
    refine ⟨{ w with params := cut w.nbath (widths w.nspin w.nbath w.orders w.numLayers) P }, ?_, rfl, ?_⟩
    · rw [assignParams, structured_ok _ _ _ h]; rfl
    · rw [flatParams]
      exact flatten_cut _ _ _ h
  · intro h
    have h : P.length < total w.nbath (widths w.nspin w.nbath w.orders w.numLayers) := by exact_mod_cast h
    rw [assignParams, structured_error _ _ _ h]
    rfl

/-- **C73**, without layers: `nparams` is not the number of parameters. -/
theorem C73_no_layers : ∃ w : RBM.Wfn ℤ, RBM.init 0 2 3 none 0 [1] = .ok w ∧ (flatParams w).length = 6 ∧ nparams 2 3 [1] 0 = -3 :=
  ⟨_, rfl, by decide +kernel, by decide +kernel⟩

/-! ### normalization -/

/-- `norm ** (-0.5 / nbath)` -/
noncomputable def normPow (nbath : ℕ) (x : ℝ) : ℝ := x ^ (-(1 / 2 : ℝ) / nbath)

/-- **C73**.  After `normalize(pspace)` the squares of the overlaps with the determinants of `pspace` add up to one. -/
theorem C73_normalize (w : RBM.Wfn ℝ) (s : ℝ) (hs : w.scale = some s) (hpos : 0 < s) (hn : 0 < w.nspin) (hB : 0 < w.nbath)
    (ho : ∀ k ∈ w.orders, k ≠ 0) (hl : w.orders ≠ [] ∨ 1 < w.numLayers) (pspace : List ℕ) (h0 : pspace ≠ [])
    (hsd : ∀ sd ∈ pspace, ∀ i ∈ occSet sd, i < w.nspin) :
    ∃ w' L, RBM.normalize expAct (normPow w.nbath) w pspace = .ok w' ∧ pspace.mapM (olp expAct w') = .ok L ∧ (L.map fun x => x ^ 2).sum = 1 := by
  let out : ℕ → ℕ → ℝ := fun sd b => network expAct w.nbath (w.params.drop w.orders.length)
      (fun b => expAct (((w.orders.zip w.params).map fun q => tupleSum w.nspin (occSet sd) (q.1 - 1) (q.2 b)).sum)) b
  have hval : ∀ c : ℝ, pspace.mapM (olp expAct { w with scale := some c }) = .ok (pspace.map fun sd => ∏ b ∈ Finset.range w.nbath, c * out sd b) := by
    intro c
    apply mapM_eq_ok
    intro sd hm
    exact C70_overlap expAct { w with scale := some c } c rfl hn ho hl sd (hsd sd hm)
  have hw : ({ w with scale := some s } : RBM.Wfn ℝ) = w := by rw [← hs]
  have hv := hval s
  rw [hw] at hv
  generalize hnorm : ((pspace.map fun sd => ∏ b ∈ Finset.range w.nbath, s * out sd b).map fun x => x ^ 2).sum = norm at *
  have hnpos : 0 < norm := by
    rw [← hnorm]
    apply List.sum_pos
    · intro x hx
      rw [List.map_map] at hx
      obtain ⟨sd, -, rfl⟩ := List.mem_map.1 hx
      have : 0 < ∏ b ∈ Finset.range w.nbath, s * out sd b := by
        apply Finset.prod_pos
        intro b _
        exact mul_pos hpos (network_pos _ _ _ (fun _ => expAct_pos _) b)
      simp only [Function.comp]
      positivity
    · simpa using h0
  refine ⟨{ w with scale := some (s * normPow w.nbath norm) }, _, ?_, hval _, ?_⟩
  · have hB' : ¬ w.nbath = 0 := by omega
    rw [RBM.normalize, hv]
    simp only [bind, Except.bind, outputScale, hs, if_neg hB', if_neg h0, pure, Except.pure, hnorm]
  · have hpow : normPow w.nbath norm ^ w.nbath = norm ^ (-(1 / 2 : ℝ)) := by
      rw [normPow, ← Real.rpow_natCast, ← Real.rpow_mul hnpos.le]
      congr 1
      have : (w.nbath : ℝ) ≠ 0 := by exact_mod_cast hB.ne'
      field_simp
    have hsq : (norm ^ (-(1 / 2 : ℝ))) ^ 2 = norm⁻¹ := by
      rw [← Real.rpow_natCast, ← Real.rpow_mul hnpos.le]
      norm_num
      exact Real.rpow_neg_one norm
    have hterm : ∀ sd, (∏ b ∈ Finset.range w.nbath, s * normPow w.nbath norm * out sd b) ^ 2 =
        norm⁻¹ * (∏ b ∈ Finset.range w.nbath, s * out sd b) ^ 2 := by
      intro sd
      have : ∏ b ∈ Finset.range w.nbath, s * normPow w.nbath norm * out sd b = normPow w.nbath norm ^ w.nbath * ∏ b ∈ Finset.range w.nbath, s * out sd b := by
        have h1 : ∀ b ∈ Finset.range w.nbath, s * normPow w.nbath norm * out sd b = normPow w.nbath norm * (s * out sd b) := fun b _ => by ring
        rw [Finset.prod_congr rfl h1, Finset.prod_mul_distrib, Finset.prod_const, Finset.card_range]
      rw [this, hpow, mul_pow, hsq]
    rw [List.map_map] at hnorm ⊢
    have hlist : pspace.map ((fun x => x ^ 2) ∘ fun sd => ∏ b ∈ Finset.range w.nbath, s * normPow w.nbath norm * out sd b) =
        pspace.map fun sd => norm⁻¹ * ((fun x => x ^ 2) ∘ fun sd => ∏ b ∈ Finset.range w.nbath, s * out sd b) sd := by
      apply List.map_congr_left
      intro sd _
      exact hterm sd
    rw [hlist, List.sum_map_mul_left, hnorm]
    exact inv_mul_cancel₀ hnpos.ne'

/-- **C73**, no determinants: `normalize()` with the default `pspace_norm`, which is empty, is a ZeroDivisionError. -/
theorem C73_normalize_empty (act pow : R → R) (w : RBM.Wfn R) (s : R) (hs : w.scale = some s) : RBM.normalize act pow w [] = .error .zeroDivision := by
  rw [RBM.normalize]
  simp [bind, Except.bind, outputScale, hs, pure, Except.pure]

/-! ### concrete cases -/

example : overlaps (fun x => x - 1) rbmCase [5, 3] = .ok [24768, 4788] ∧ olp (fun x => x - 1) rbmCase 3 = .ok 4788 := ⟨rfl, rfl⟩

example := C72_overlaps_partial (fun x => x - 1) rbmCase 3 rfl (by decide) (by decide) (by decide) (by decide) [5, 3] 2 (by decide +kernel) (by decide +kernel)

example := C72_derivatives_partial (fun x => x - 1) (fun _ => 1) rbmCase 3 rfl (by decide) (by decide) (by decide) (by decide) (by decide) [5, 3] 2
  (by decide +kernel) (by decide +kernel) [0, 3]

/-- orders two and one -/
def rbmOrders : RBM.Wfn ℤ := ⟨4, 2, [2, 1], 1, [fun i j => i + 2 * j, fun i j => j - i], some 3⟩

example : overlaps (fun x => x - 1) rbmOrders [5, 3] = .error .indexError ∧ olp (fun x => x - 1) rbmOrders 5 = .ok 15867 :=
  ⟨C72_orders _ _ (by decide) (by decide) _ (by decide) 2 (by decide +kernel), rfl⟩

example : overlaps (fun x => x - 1) rbmCase [5, 7] = .error .valueError := C72_electrons _ _ _ 7 _ (by decide) (by decide +kernel)

example : ∃ w', assignParams rbmCase (List.range' 1 60 |>.map Int.ofNat) = .ok w' ∧ w'.scale = some 3 ∧
    flatParams w' = (List.range' 1 44).map Int.ofNat :=
  (C73_roundtrip_partial rbmCase (by decide) _).1 (by decide +kernel)

example : assignParams rbmCase [1, 2, 3] = .error .valueError := (C73_roundtrip_partial rbmCase (by decide) _).2 (by decide +kernel)

example := C73_normalize ⟨4, 2, [1, 2], 2, [fun i j => i + 2 * j, fun i j => j - i, fun i j => 1 + i * j], some 3⟩ 3 rfl (by norm_num) (by decide)
  (by decide) (by decide) (by decide) [5, 3] (by decide) (by decide +kernel)

end Fanpy.Props
