import Verif.Lemmas.Factory
import Verif.Props.HamWfn
import Verif.Props.HamWfnFock
import Mathlib.Analysis.Calculus.Deriv.Add
import Mathlib.Analysis.Calculus.Deriv.Mul

/-!
# C117: Hamiltonians and wavefunctions made by `ham_factory` and `wfn_factory`
-/

namespace Fanpy.Props
open Finset Fanpy.Spec Fanpy.Slater Fanpy.It Fanpy.Factory Fanpy.Lemmas Fanpy.Ham

variable {R : Type} [CommRing R]

/-- C117. Let `D m` be the components that the given function returns for `sd` and `m`.  With a wavefunction that gives numbers,
`integrate_sd_wfn(sd, wfn, orders=orders)` is a sum over all determinants `m`: the overlap with `m` times the sum of the components,
as many times as the excitation order from `sd` to `m` is in `orders`, and once more for `sd` itself. -/
theorem C117_number {I W : Type} (h : MadeHam R I W Unit R) (hc : h.custom = none) (sd : ℕ) (hsd : sd < 2 ^ h.nspin) (D : ℕ → List R)
    (hD : ∀ m < 2 ^ h.nspin, h.decomposed sd m h.integrals = .ok (D m)) (olp : W → ℕ → Except PyErr R) (w : W) (F : ℕ → R)
    (hF : ∀ m < 2 ^ h.nspin, olp w m = .ok (F m)) (orders : Option (List ℤ)) (ho : ∀ o ∈ orders.getD h.orders, 0 ≤ o) :
    madeSdWfn h (fun r x => x * r) (fun a b => .ok (a + b)) (fun w m _ => olp w m) sd w () orders =
      .ok (∑ m ∈ range (2 ^ h.nspin), (((if m = sd then 1 else 0) + if (occSet m).card = (occSet sd).card then
        (orders.getD h.orders).count ((occSet sd \ occSet m).card : ℤ) else 0 : ℕ) : R) * (F m * (D m).sum)) := by
  simp only [madeSdWfn, hc]
  rw [madeLoop_eq id (fun r x => x * r) (fun r x => x * r) (fun a b => .ok (a + b)) (fun _ _ => rfl) (fun _ _ => rfl) h.nspin sd hsd
    (madeSdSd h) (fun m => olp w m) (fun m => (D m).sum) F
    (fun m hm => by simp [madeSdSd, madeDecomposed, hD m hm, bind, Except.bind, pure, Except.pure]) hF _ ho]
  simp only [id, visits, nsmul_eq_mul]

/-- C117. The same for derivatives: the wavefunction gives arrays of a fixed length `k` (entry `j` of the array for `m` is `F m j`), and
the result is the array of the sums. -/
theorem C117_array {I W A : Type} (h : MadeHam R I W A (List R)) (hc : h.custom = none) (sd : ℕ) (hsd : sd < 2 ^ h.nspin)
    (D : ℕ → List R) (hD : ∀ m < 2 ^ h.nspin, h.decomposed sd m h.integrals = .ok (D m)) (olp : W → ℕ → A → Except PyErr (List R))
    (w : W) (d : A) (k : ℕ) (F : ℕ → Fin k → R) (hF : ∀ m < 2 ^ h.nspin, olp w m d = .ok (List.ofFn (F m)))
    (orders : Option (List ℤ)) (ho : ∀ o ∈ orders.getD h.orders, 0 ≤ o) :
    madeSdWfn h (fun r a => a.map (· * r)) addInto olp sd w d orders =
      .ok (List.ofFn fun j => ∑ m ∈ range (2 ^ h.nspin), (((if m = sd then 1 else 0) + if (occSet m).card = (occSet sd).card then
        (orders.getD h.orders).count ((occSet sd \ occSet m).card : ℤ) else 0 : ℕ) : R) * (F m j * (D m).sum)) := by
  simp only [madeSdWfn, hc]
  rw [madeLoop_eq (List.ofFn (n := k)) (fun r f j => f j * r) (fun r a => a.map (· * r)) addInto
    (fun r a => by rw [List.map_ofFn]; rfl)
    (fun a b => by
      refine (if_pos (by simp)).trans ?_
      congr 1
      apply List.ext_getElem <;> simp) h.nspin sd hsd
    (madeSdSd h) (fun m => olp w m d) (fun m => (D m).sum) F
    (fun m hm => by simp [madeSdSd, madeDecomposed, hD m hm, bind, Except.bind, pure, Except.pure]) hF _ ho]
  congr 2
  ext j
  rw [Finset.sum_apply]
  refine Finset.sum_congr rfl fun m _ => ?_
  rw [Pi.smul_apply, nsmul_eq_mul]
  rfl

theorem foldlM_either {V α : Type} {Q : V → Prop} {step : V → α → Except PyErr V} {l : List α}
    (h : ∀ acc, Q acc → ∀ x ∈ l, step acc x = .error .valueError ∨ ∃ a, step acc x = .ok a ∧ Q a) (acc : V) (hq : Q acc) :
    (l.foldlM step acc = .error .valueError ∨ ∃ a, l.foldlM step acc = .ok a ∧ Q a) ∧
      ((∃ x ∈ l, ∀ acc, Q acc → step acc x = .error .valueError) → l.foldlM step acc = .error .valueError) := by
  induction l generalizing acc with
  | nil => exact ⟨.inr ⟨acc, rfl, hq⟩, by simp⟩
  | cons x xs ih =>
    rw [List.foldlM_cons]
    rcases h acc hq x (by simp) with e | ⟨a, e, hqa⟩
    · rw [e]; exact ⟨.inl rfl, fun _ => rfl⟩
    · rw [e]
      obtain ⟨i1, i2⟩ := ih (fun acc hq y hy => h acc hq y (by simp [hy])) a hqa
      refine ⟨i1, ?_⟩
      rintro ⟨y, hy, hbad⟩
      rcases List.mem_cons.1 hy with rfl | hy
      · rw [hbad acc hq] at e; cases e
      · exact i2 ⟨y, hy, hbad⟩

/-- C117. Arrays of different lengths: if the array of a determinant that the loops visit has neither the length of the array of `sd` nor length
one, `ValueError` is raised. -/
theorem C117_array_lengths {I W A : Type} (h : MadeHam R I W A (List R)) (hc : h.custom = none) (sd : ℕ) (hsd : sd < 2 ^ h.nspin)
    (D : ℕ → List R) (hD : ∀ m < 2 ^ h.nspin, h.decomposed sd m h.integrals = .ok (D m)) (olp : W → ℕ → A → Except PyErr (List R))
    (w : W) (d : A) (F : ℕ → List R) (hF : ∀ m < 2 ^ h.nspin, olp w m d = .ok (F m)) (orders : Option (List ℤ))
    (ho : ∀ o ∈ orders.getD h.orders, 0 ≤ o) (m : ℕ) (hm : m < 2 ^ h.nspin) (hcard : (occSet m).card = (occSet sd).card)
    (hvisit : ((occSet sd \ occSet m).card : ℤ) ∈ orders.getD h.orders) (h1 : (F m).length ≠ (F sd).length) (h2 : (F m).length ≠ 1) :
    madeSdWfn h (fun r a => a.map (· * r)) addInto olp sd w d orders = .error .valueError := by
  have hX := fun k => exc_comb (sd := sd) (sorted_occIndices sd) (sorted_virIndices sd h.nspin) (fun _ hi => mem_occIndices.1 hi)
    (fun _ hi => (mem_virIndices.1 hi).2) k
  have hE : ∀ m < 2 ^ h.nspin, madeSdSd h sd m = .ok (D m).sum := fun m hm => by
    simp [madeSdSd, madeDecomposed, hD m hm, bind, Except.bind, pure, Except.pure]
  have hstep : ∀ k, ∀ o ∈ comb (occIndices (some sd)) k, ∀ v ∈ comb (virIndices (some sd) h.nspin) k, ∀ acc : List R,
      madeStep (madeSdSd h) (fun r a => a.map (· * r)) addInto (fun m => olp w m d) sd o v acc =
        addInto acc ((F (exc sd o v)).map (· * (D (exc sd o v)).sum)) := by
    intro k o ho v hv acc
    have hlt : exc sd o v < 2 ^ h.nspin := exc_lt hsd fun i hi => by
      have := (mem_virIndices.1 ((mem_comb.1 hv).1.subset hi)).1; omega
    simp only [madeStep, (hX k o ho v hv).excite, bind, Except.bind, hE _ hlt, hF _ hlt]
  have hadd : ∀ acc b : List R, acc.length = (F sd).length → addInto acc b = .error .valueError ∨
      ∃ a, addInto acc b = .ok a ∧ a.length = (F sd).length := by
    intro acc b hq
    unfold addInto
    split_ifs with hl
    · exact .inr ⟨_, rfl, by simp [hl, hq]⟩
    · split
      · exact .inr ⟨_, rfl, by simp [hq]⟩
      · exact .inl rfl
  have hbad : ∀ acc b : List R, acc.length = (F sd).length → b.length = (F m).length → addInto acc b = .error .valueError := by
    intro acc b hq hb
    unfold addInto
    rw [if_neg (by rw [hb, hq]; exact h1)]
    split
    · rename_i x; simp at hb; exact absurd hb.symm h2
    · rfl
  have hmem : m ∈ excL sd (comb (occIndices (some sd)) (occSet sd \ occSet m).card) (comb (virIndices (some sd) h.nspin) (occSet sd \ occSet m).card) := by
    rw [mem_excL_all hsd]
    have e : (diffOrbs sd m).1.length = (diffOrbs sd m).2.length := (diff_lengths_iff sd m).2 hcard.symm
    exact ⟨hm, diffOrbs_fst_length sd m, by rw [← e]; exact diffOrbs_fst_length sd m⟩
  simp only [excL, List.mem_flatMap, List.mem_map] at hmem
  obtain ⟨o₀, ho₀, v₀, hv₀, hm₀⟩ := hmem
  simp only [madeSdWfn, hc, madeLoop, hF sd hsd, hE sd hsd, bind, Except.bind]
  have inner : ∀ k, ∀ o ∈ comb (occIndices (some sd)) k, ∀ acc : List R, acc.length = (F sd).length → _ := fun k o hoo acc hq =>
    foldlM_either (Q := fun a : List R => a.length = (F sd).length)
      (step := fun acc v => madeStep (madeSdSd h) (fun r a => a.map (· * r)) addInto (fun m => olp w m d) sd o v acc)
      (l := comb (virIndices (some sd) h.nspin) k) (fun acc hq v hv => by
        show madeStep _ _ _ _ _ _ _ _ = _ ∨ _
        rw [hstep k o hoo v hv acc]; exact hadd acc _ hq) acc hq
  have middle : ∀ k, ∀ acc : List R, acc.length = (F sd).length → _ := fun k acc hq =>
    foldlM_either (Q := fun a : List R => a.length = (F sd).length)
      (step := fun acc o => (comb (virIndices (some sd) h.nspin) k).foldlM
        (fun acc v => madeStep (madeSdSd h) (fun r a => a.map (· * r)) addInto (fun m => olp w m d) sd o v acc) acc)
      (l := comb (occIndices (some sd)) k) (fun acc hq o hoo => (inner k o hoo acc hq).1) acc hq
  refine (foldlM_either (Q := fun a : List R => a.length = (F sd).length) ?_ _ (by simp)).2 ⟨_, hvisit, ?_⟩
  · intro acc hq k hk
    simp only [combinations, if_neg (not_lt.2 (ho k hk))]
    exact (middle k.toNat acc hq).1
  · intro acc hq
    simp only [combinations, if_neg (not_lt.2 (Int.natCast_nonneg _)), Int.toNat_natCast]
    refine (middle _ acc hq).2 ⟨o₀, ho₀, fun acc hq => ?_⟩
    refine (inner _ o₀ ho₀ acc hq).2 ⟨v₀, hv₀, fun acc hq => ?_⟩
    show madeStep _ _ _ _ _ _ _ _ = _
    rw [hstep _ o₀ ho₀ v₀ hv₀ acc]
    exact hbad acc _ hq (by rw [hm₀]; simp)

/-- two electrons in four spin orbitals; the array of the determinant `0b0110` has another length -/
example : madeSdWfn (⟨fun _ _ _ => .ok [1, 2], (), 4, [1, 2], none⟩ : MadeHam ℤ Unit Unit Unit (List ℤ)) (fun r a => a.map (· * r)) addInto
    (fun _ m _ => .ok (if m = 0b0110 then [1, 2, 3] else [1, 2])) 0b0101 () () none = .error .valueError :=
  C117_array_lengths _ rfl 0b0101 (by decide) (fun _ => [1, 2]) (fun _ _ => rfl) _ () () (fun m => if m = 0b0110 then [1, 2, 3] else [1, 2])
    (fun _ _ => rfl) none (by simp) 0b0110 (by decide) (by decide +kernel) (by decide +kernel) (by decide) (by decide)

/-- C117. With the default orders and matrix elements that are zero beyond double excitations and between different numbers of electrons,
this is the sum over all determinants, each one once. -/
theorem C117_default {I W : Type} (h : MadeHam R I W Unit R) (hc : h.custom = none) (hord : h.orders = [1, 2]) (sd : ℕ)
    (hsd : sd < 2 ^ h.nspin) (D : ℕ → List R)
    (hD : ∀ m < 2 ^ h.nspin, h.decomposed sd m h.integrals = .ok (D m))
    (hz : ∀ m < 2 ^ h.nspin, ((occSet m).card ≠ (occSet sd).card ∨ 2 < (occSet sd \ occSet m).card) → (D m).sum = 0)
    (olp : W → ℕ → Except PyErr R) (w : W) (F : ℕ → R) (hF : ∀ m < 2 ^ h.nspin, olp w m = .ok (F m)) :
    madeSdWfn h (fun r x => x * r) (fun a b => .ok (a + b)) (fun w m _ => olp w m) sd w () none =
      .ok (∑ m ∈ range (2 ^ h.nspin), F m * (D m).sum) := by
  rw [C117_number h hc sd hsd D hD olp w F hF none (by simp [hord])]
  congr 1
  refine Finset.sum_congr rfl fun m hm => ?_
  rw [Option.getD_none, hord]
  by_cases hb : (occSet m).card ≠ (occSet sd).card ∨ 2 < (occSet sd \ occSet m).card
  · rw [hz m (Finset.mem_range.1 hm) hb, mul_zero, mul_zero]
  · push Not at hb
    rw [if_pos hb.1]
    by_cases hms : m = sd
    · subst hms
      simp
    · have h0 : (occSet sd \ occSet m).card ≠ 0 := by
        intro h0
        rw [Finset.card_eq_zero, Finset.sdiff_eq_empty_iff_subset] at h0
        exact hms (occSet_injective (Finset.eq_of_subset_of_card_le h0 hb.1.le)).symm
      rw [if_neg hms]
      have : (occSet sd \ occSet m).card = 1 ∨ (occSet sd \ occSet m).card = 2 := by omega
      rcases this with e | e <;> simp [e]

/-- C117. A negative order raises `ValueError` if the loops get to it. -/
theorem C117_negative {I W : Type} (h : MadeHam R I W Unit R) (hc : h.custom = none) (sd : ℕ) (hsd : sd < 2 ^ h.nspin) (D : ℕ → List R)
    (hD : ∀ m < 2 ^ h.nspin, h.decomposed sd m h.integrals = .ok (D m)) (olp : W → ℕ → Except PyErr R) (w : W) (F : ℕ → R)
    (hF : ∀ m < 2 ^ h.nspin, olp w m = .ok (F m)) (orders : List ℤ) (ho : ∃ o ∈ orders, o < 0) :
    madeSdWfn h (fun r x => x * r) (fun a b => .ok (a + b)) (fun w m _ => olp w m) sd w () (some orders) = .error .valueError := by
  obtain ⟨o, ho, hneg⟩ := ho
  obtain ⟨l₁, l₂, hl, hfirst⟩ : ∃ l₁ l₂ : List ℤ, (∃ a < 0, orders = l₁ ++ a :: l₂) ∧ ∀ o ∈ l₁, 0 ≤ o := by
    clear hF hD
    induction orders with
    | nil => simp at ho
    | cons a rest ih =>
      by_cases ha : a < 0
      · exact ⟨[], rest, ⟨a, ha, rfl⟩, by simp⟩
      · rcases List.mem_cons.1 ho with rfl | hr
        · exact absurd hneg ha
        · obtain ⟨l₁, l₂, ⟨b, hb, e⟩, hf⟩ := ih hr
          refine ⟨a :: l₁, l₂, ⟨b, hb, by rw [e]; rfl⟩, fun x hx => ?_⟩
          rcases List.mem_cons.1 hx with rfl | hx
          · exact not_lt.1 ha
          · exact hf x hx
  obtain ⟨a, ha, rfl⟩ := hl
  have h1 := C117_number h hc sd hsd D hD olp w F hF (some l₁) hfirst
  simp only [madeSdWfn, hc, Option.getD_some, madeLoop, hF sd hsd, madeSdSd, madeDecomposed, hD sd hsd, bind, Except.bind, pure,
    Except.pure] at h1 ⊢
  rw [List.foldlM_append, h1]
  simp only [bind, Except.bind, List.foldlM_cons, combinations, if_pos ha]

/-- C117. If a function for `integrate_sd_wfn` is given, its result is returned: the orders, given to `ham_factory` or to the call, and
the function for the matrix elements have no effect. -/
theorem C117_custom {I W D V : Type} (h h' : MadeHam R I W D V) (g : I → ℕ → ℕ → W → D → Except PyErr V) (hc : h.custom = some g)
    (hc' : h'.custom = some g) (hi : h.integrals = h'.integrals) (hn : h.nspin = h'.nspin) (smul : R → V → V)
    (add : V → V → Except PyErr V) (olp : W → ℕ → D → Except PyErr V) (sd : ℕ) (w : W) (d : D) (orders orders' : Option (List ℤ)) :
    madeSdWfn h smul add olp sd w d orders = madeSdWfn h' smul add olp sd w d orders' ∧
      madeSdWfn h smul add olp sd w d orders = g h.integrals h.nspin sd w d := by
  simp [madeSdWfn, hc, hc', hi, hn]

/-- C117. The integrals in use are the last ones assigned. -/
theorem C117_integrals {I W D V : Type} (h : MadeHam R I W D V) (history : List I) (last : I) (sd1 sd2 : ℕ) (T : List R)
    (hT : h.decomposed sd1 sd2 last = .ok T) :
    madeSdSd ((history ++ [last]).foldl assignIntegrals h) sd1 sd2 = .ok T.sum := by
  have hd : ∀ (l : List I) (h : MadeHam R I W D V), (l.foldl assignIntegrals h).decomposed = h.decomposed := by
    intro l
    induction l with
    | nil => intro h; rfl
    | cons a l ih => intro h; rw [List.foldl_cons, ih]; rfl
  rw [List.foldl_append]
  simp only [List.foldl_cons, List.foldl_nil, madeSdSd, madeDecomposed, assignIntegrals, hd, hT, bind, Except.bind, pure, Except.pure]

/-- C117. Given the matrix elements of a Hamiltonian in generalized orbitals, the generated Hamiltonian has the `integrate_sd_wfn` of
`GeneralizedMolecularHamiltonian` (up to 63 spin orbitals; the generated one has no such limit). -/
theorem C117_generalized (H : GenHam R) {I W : Type} (h : MadeHam R I W Unit R) (hc : h.custom = none) (hord : h.orders = [1, 2])
    (hn : h.nspin = H.norb)
    (hd : h.decomposed = fun sd1 sd2 _ => (genDecomposed H sd1 sd2).map fun t => [t.1, t.2.1, t.2.2]) (sd : ℕ)
    (hsd : sd < 2 ^ H.norb) (h0 : sd ≠ 0) (h63 : H.norb ≤ 63) (w : W) (f : ℤ → R) :
    madeSdWfn h (fun r x => x * r) (fun a b => .ok (a + b)) (fun _ m _ => .ok (f m)) sd w () none =
      (genSdWfn H f sd).map sumComp := by
  have hT := gen_total H sd hsd h0
  let D : ℕ → R × R × R := fun m => if hm : m < 2 ^ H.norb then (hT m hm).choose else 0
  have hD : ∀ m < 2 ^ H.norb, genDecomposed H sd m = .ok (D m) := fun m hm => by
    simp only [D, dif_pos hm]; exact (hT m hm).choose_spec.1
  have hS : ∀ m < 2 ^ H.norb,
      ¬ ((diffOrbs sd m).1.length = (diffOrbs sd m).2.length ∧ (diffOrbs sd m).1.length ≤ 2) → D m = 0 := fun m hm => by
    simp only [D, dif_pos hm]; exact (hT m hm).choose_spec.2
  obtain ⟨D', hD', -, hsum⟩ := C27_generalized H f sd hsd h0
  rw [hsum h63, C117_default h hc hord sd (by rw [hn]; exact hsd) (fun m => [(D m).1, (D m).2.1, (D m).2.2])
    (fun m hm => by rw [hd]; simp only [hD m (by rw [← hn]; exact hm)]; rfl)
    (fun m hm hb => ?_) (fun _ m => .ok (f m)) w (fun m => f m) (fun _ _ => rfl)]
  · rw [hn]
    simp only [Except.map]
    congr 1
    have hsc : sumComp (∑ m ∈ range (2 ^ H.norb), scale (f m) (D' m)) = ∑ m ∈ range (2 ^ H.norb), f m * sumComp (D' m) := by
      have := map_sum (⟨⟨sumComp, by simp [sumComp]⟩, fun a b => by simp only [sumComp, Prod.fst_add, Prod.snd_add]; ring⟩ :
        R × R × R →+ R) (fun m : ℕ => scale (f m) (D' m)) (range (2 ^ H.norb))
      refine this.trans (Finset.sum_congr rfl fun m _ => ?_)
      simp only [AddMonoidHom.coe_mk, ZeroHom.coe_mk, sumComp, scale]
      ring
    rw [hsc]
    refine Finset.sum_congr rfl fun m hm => ?_
    have e : D m = D' m := Except.ok.inj ((hD m (Finset.mem_range.1 hm)).symm.trans (hD' m (Finset.mem_range.1 hm)))
    rw [e]
    simp [sumComp]
  · rw [hS m (by rw [← hn]; exact hm)]
    · simp
    · rw [diff_lengths_iff, diffOrbs_fst_length]
      rintro ⟨h1, h2⟩
      rcases hb with hb | hb
      · exact hb h1.symm
      · omega

/-! ### Wavefunctions -/

theorem entry_eq (a : List R) (i : ℕ) (hi : i < a.length) : entry a (i : ℤ) = .ok a[i] := by
  simp [entry, hi]

theorem mapM_entries {α β : Type} (f : α → Except PyErr β) (g : α → β) : ∀ (l : List α), (∀ x ∈ l, f x = .ok (g x)) →
    l.mapM f = .ok (l.map g)
  | [], _ => rfl
  | x :: xs, h => by
    rw [List.mapM_cons, h x (by simp), mapM_entries f g xs fun y hy => h y (by simp [hy])]
    rfl

/-- C117. After any history of assignments without a custom function, the parameters are the last ones given that are not `None`, and
`get_overlap(sd)` and `get_overlap(sd, deriv)` are the given functions at these parameters; the entries of the derivative are those of
`deriv`, in this order. -/
theorem C117_wfn {P : Type} (w : MadeWfn R P P) (hc : w.custom = none) (history : List (Option P)) (sd : ℕ) :
    (assignAll w id history).params = (history.filterMap id).getLastD w.params ∧
      getOverlap (assignAll w id history) sd = w.olp sd ((history.filterMap id).getLastD w.params) ∧
      ∀ a, w.olpDeriv sd ((history.filterMap id).getLastD w.params) = .ok a → ∀ deriv : List ℕ, (∀ i ∈ deriv, i < a.length) →
        getOverlapDeriv (assignAll w id history) sd (deriv.map fun i : ℕ => (i : ℤ)) = .ok (deriv.map fun i => a.getD i 0) := by
  have key : ∀ (l : List (Option P)) (w : MadeWfn R P P), w.custom = none →
      assignAll w id l = { w with params := (l.filterMap id).getLastD w.params } := by
    intro l
    induction l with
    | nil => intro w _; rfl
    | cons a l ih =>
      intro w hw
      cases a with
      | none => 
        have : assignAll w id (none :: l) = assignAll w id l := by simp only [assignAll, assignParams, hw]
        rw [this, ih w hw]; rfl
      | some a =>
        have : assignAll w id (some a :: l) = assignAll { w with params := a } id l := by
          simp only [assignAll, assignParams, hw]; rfl
        rw [this, ih { w with params := a } hw]
        simp only [List.filterMap_cons, id, List.getLastD_cons]
  rw [key history w hc]
  refine ⟨rfl, rfl, fun a ha deriv hd => ?_⟩
  simp only [getOverlapDeriv, ha, bind, Except.bind, entries]
  rw [mapM_entries _ (fun i : ℤ => a.getD i.toNat 0)]
  · simp
  · intro i hi
    obtain ⟨j, hj, rfl⟩ := List.mem_map.1 hi
    have := hd j hj
    rw [entry_eq a j this]
    simp [this]

/-- C117. With a function for `assign_params`, the parameters after any history of assignments are made by this function from the parameters
before and the argument, also if the argument is `None`; a call that raises leaves the parameters. -/
theorem C117_wfn_custom {P A : Type} (w : MadeWfn R P A) (g : P → Option A → Except PyErr P) (hc : w.custom = some g) (store : A → P)
    (history : List (Option A)) (step : P → Option A → P)
    (hstep : ∀ p a, (∀ q, g p a = .ok q → step p a = q) ∧ ∀ e, g p a = .error e → step p a = p) (sd : ℕ) :
    (assignAll w store history).params = history.foldl step w.params ∧
      getOverlap (assignAll w store history) sd = w.olp sd (history.foldl step w.params) := by
  have key : ∀ (l : List (Option A)) (w : MadeWfn R P A), w.custom = some g →
      assignAll w store l = { w with params := l.foldl step w.params } := by
    intro l
    induction l with
    | nil => intro w _; rfl
    | cons a l ih =>
      intro w hw
      rcases hg : g w.params a with e | q
      · have : assignParams w store a = .error e := by simp [assignParams, hw, hg, bind, Except.bind]
        simp only [assignAll, this, ih w hw, List.foldl_cons, (hstep w.params a).2 e hg]
      · have : assignParams w store a = .ok { w with params := q } := by simp [assignParams, hw, hg, bind, Except.bind, pure, Except.pure]
        simp only [assignAll, this]
        rw [ih _ (by exact hw), List.foldl_cons, (hstep w.params a).1 q hg]
  rw [key history w hc]
  exact ⟨rfl, rfl⟩

example : (assignAll (⟨fun _ p => .ok p, fun _ p => .ok [p], some fun p a => if a = none then .error .valueError else .ok (p + a.getD 0), 3⟩ : MadeWfn ℤ ℤ ℤ)
    id [some 2, none, some 5]).params = 10 := by decide +kernel

/-- C117. `None` raises `NotImplementedError`; an index outside of the array raises `IndexError`. -/
theorem C117_wfn_errors {P : Type} (w : MadeWfn R P P) (hc : w.custom = none) (sd : ℕ) (a : List R) (ha : w.olpDeriv sd w.params = .ok a)
    (d₁ d₂ : List ℤ) (i : ℤ) (hok : ∀ j ∈ d₁, -(a.length : ℤ) ≤ j ∧ j < a.length) (hi : i < -(a.length : ℤ) ∨ (a.length : ℤ) ≤ i) :
    assignParams w id none = .error .notImplemented ∧ getOverlapDeriv w sd (d₁ ++ i :: d₂) = .error .indexError := by
  refine ⟨by simp [assignParams, hc], ?_⟩
  simp only [getOverlapDeriv, ha, bind, Except.bind, entries]
  have hbad : entry a i = .error .indexError := by
    unfold entry
    rcases hi with h | h
    · rw [if_neg (by omega), if_neg (by omega)]
    · rw [if_pos (by omega)]
      rw [List.getElem?_eq_none (by omega)]
  have hgood : ∀ j ∈ d₁, ∃ x, entry a j = .ok x := by
    intro j hj
    have := hok j hj
    unfold entry
    by_cases h0 : 0 ≤ j
    · rw [if_pos h0]
      have : j.toNat < a.length := by omega
      rw [List.getElem?_eq_getElem this]
      exact ⟨_, rfl⟩
    · rw [if_neg h0, if_pos (by omega)]
      exact ⟨_, rfl⟩
  clear hok
  induction d₁ with
  | nil => simp [List.mapM_cons, hbad, bind, Except.bind]
  | cons j d₁ ih =>
    obtain ⟨x, hx⟩ := hgood j (by simp)
    rw [List.cons_append, List.mapM_cons, hx]
    simp only [bind, Except.bind]
    rw [ih fun y hy => hgood y (by simp [hy])]

/-- C117. If, for every determinant, entry `i` of `olp_deriv` is the derivative of `olp` along parameter `i`, then entry `j` of
`integrate_sd_wfn(sd, wfn, wfn_deriv=deriv)` is the derivative of `integrate_sd_wfn(sd, wfn)` along parameter `deriv[j]`, for any
generated Hamiltonian whose function for the matrix elements does not raise. -/
theorem C117_derivative {I : Type} (decomposed : ℕ → ℕ → I → Except PyErr (List ℝ)) (integrals : I) (nspin : ℕ) (orders : List ℤ)
    (ho : ∀ o ∈ orders, 0 ≤ o) (sd : ℕ) (hsd : sd < 2 ^ nspin) (D : ℕ → List ℝ)
    (hD : ∀ m < 2 ^ nspin, decomposed sd m integrals = .ok (D m)) (k : ℕ) (w : MadeWfn ℝ (Fin k → ℝ) (Fin k → ℝ))
    (olp : ℕ → (Fin k → ℝ) → ℝ) (holp : ∀ m < 2 ^ nspin, ∀ p, w.olp m p = .ok (olp m p))
    (grad : ℕ → (Fin k → ℝ) → Fin k → ℝ) (hgrad : ∀ m < 2 ^ nspin, ∀ p, w.olpDeriv m p = .ok (List.ofFn (grad m p)))
    (hder : ∀ m < 2 ^ nspin, ∀ p i, HasDerivAt (fun t => olp m (Function.update p i t)) (grad m p i) (p i))
    (deriv : List (Fin k)) :
    ∃ (val : (Fin k → ℝ) → ℝ) (der : List ℝ),
      (∀ p, madeSdWfn (⟨decomposed, integrals, nspin, orders, none⟩ : MadeHam ℝ I (MadeWfn ℝ (Fin k → ℝ) (Fin k → ℝ)) Unit ℝ)
        (fun r x => x * r) (fun a b => .ok (a + b)) (fun w m _ => getOverlap w m) sd { w with params := p } () none = .ok (val p)) ∧
      madeSdWfn (⟨decomposed, integrals, nspin, orders, none⟩ : MadeHam ℝ I (MadeWfn ℝ (Fin k → ℝ) (Fin k → ℝ)) (List ℤ) (List ℝ))
        (fun r a => a.map (· * r)) addInto getOverlapDeriv sd w (deriv.map fun i : Fin k => ((i : ℕ) : ℤ)) none = .ok der ∧
      der.length = deriv.length ∧ ∀ j (hj : j < deriv.length) (hj' : j < der.length),
        HasDerivAt (fun t => val (Function.update w.params deriv[j] t)) der[j] (w.params deriv[j]) := by
  refine ⟨_, _, fun p => C117_number (⟨decomposed, integrals, nspin, orders, none⟩ :
    MadeHam ℝ I (MadeWfn ℝ (Fin k → ℝ) (Fin k → ℝ)) Unit ℝ) rfl sd hsd D hD getOverlap { w with params := p } (fun m => olp m p) (fun m hm => holp m hm p) none
    ho, C117_array (⟨decomposed, integrals, nspin, orders, none⟩ : MadeHam ℝ I (MadeWfn ℝ (Fin k → ℝ) (Fin k → ℝ)) (List ℤ) (List ℝ))
    rfl sd hsd D hD getOverlapDeriv w _ deriv.length (fun m j => grad m w.params (deriv.get j)) (fun m hm => ?_) none ho, by simp, ?_⟩
  · simp only [getOverlapDeriv, hgrad m hm, bind, Except.bind, entries]
    rw [mapM_entries _ (fun i : ℤ => (List.ofFn (grad m w.params)).getD i.toNat 0)]
    · congr 1
      rw [List.map_map]
      apply List.ext_getElem <;> simp
    · intro i hi
      obtain ⟨j, hj, rfl⟩ := List.mem_map.1 hi
      rw [entry_eq _ (j : ℕ) (by simp)]
      simp
  · intro j hj hj'
    rw [List.getElem_ofFn]
    refine HasDerivAt.fun_sum fun m hm => ?_
    exact ((hder m (Finset.mem_range.1 hm) w.params deriv[j]).mul_const _).const_mul _

/-- C117. Calls of the objectives without derivatives by Hamiltonian parameters are accepted by the generated classes, those with
`ham_deriv`, `deriv` or `components`, which every other Hamiltonian takes, raise `TypeError`. -/
theorem C117_keywords (kws : List String) :
    (checkCall true "integrate_sd_wfn" kws = .ok () ↔ ∀ k ∈ kws, k = "wfn_deriv" ∨ k = "orders") ∧
      (checkCall true "integrate_sd_sd" kws = .ok () ↔ kws = []) ∧
      checkCall true "integrate_sd_wfn" ["ham_deriv"] = .error .typeError ∧ checkCall false "integrate_sd_wfn" ["ham_deriv"] = .ok () ∧
      checkCall true "integrate_sd_sd" ["deriv"] = .error .typeError ∧ checkCall false "integrate_sd_sd" ["deriv"] = .ok () := by
  refine ⟨?_, ?_, rfl, rfl, rfl, rfl⟩
  · have e : checkCall true "integrate_sd_wfn" kws =
        if ∀ k ∈ kws, k ∈ (["wfn_deriv", "orders"] : List String) then .ok () else .error .typeError := rfl
    rw [e]
    by_cases h : ∀ k ∈ kws, k ∈ (["wfn_deriv", "orders"] : List String)
    · rw [if_pos h]; simpa using h
    · rw [if_neg h]; simpa using h
  · simp only [checkCall, keywords]
    cases kws with
    | nil => simp
    | cons a l =>
      simp only [Bool.true_eq, if_true, reduceCtorEq, iff_false]
      rw [if_neg (fun h => by simpa using h a (by simp))]
      simp

/-! ### Cases -/

/-- matrix elements of a model in four spin orbitals -/
def caseElem (sd1 sd2 _ : ℕ) : Except PyErr (List ℤ) := .ok [(sd1 : ℤ) + 2 * sd2, sd1 * sd2]

def caseHam (orders : List ℤ) : MadeHam ℤ ℕ ℕ Unit ℤ := ⟨caseElem, 0, 4, orders, none⟩

/-- C117. The order 0 is the determinant itself, which is counted a second time; a repeated order is counted twice. -/
theorem C117_orders_disagree :
    madeSdWfn (caseHam [1, 2]) (fun r x => x * r) (fun a b => .ok (a + b)) (fun _ m _ => .ok (m : ℤ)) 0b0011 0 () none = .ok 2110 ∧
      madeSdWfn (caseHam [0, 1, 2]) (fun r x => x * r) (fun a b => .ok (a + b)) (fun _ m _ => .ok (m : ℤ)) 0b0011 0 () none = .ok 2164 ∧
      madeSdWfn (caseHam [1, 2, 2]) (fun r x => x * r) (fun a b => .ok (a + b)) (fun _ m _ => .ok (m : ℤ)) 0b0011 0 () none = .ok 2866 := by
  decide +kernel

example : madeSdWfn (caseHam [1, 2]) (fun r x => x * r) (fun a b => .ok (a + b)) (fun _ m _ => .ok (m : ℤ)) 0b0011 0 () (some [1, -1]) =
    .error .valueError := by decide +kernel

/-- functions that meet the hypotheses of `C117_derivative`: the overlap with `m` is `m p₀ p₁` -/
example : ∀ m < 2 ^ 4, ∀ (p : Fin 2 → ℝ) (i : Fin 2),
    HasDerivAt (fun t => (m : ℝ) * (Function.update p i t 0 * Function.update p i t 1)) ((m : ℝ) * p (1 - i)) (p i) := by
  intro m _ p i
  have h := (hasDerivAt_id (p i)).mul_const (p (1 - i))
  rw [one_mul] at h
  have e : (fun t => (m : ℝ) * (Function.update p i t 0 * Function.update p i t 1)) = fun t => (m : ℝ) * (id t * p (1 - i)) := by
    funext t
    fin_cases i
    · simp [Function.update]
    · simp [Function.update, mul_comm]
  rw [e]
  exact h.const_mul (m : ℝ)

example : getOverlapDeriv (⟨fun _ _ => .ok 0, fun sd p => .ok [p, p + sd, 7], none, 5⟩ : MadeWfn ℤ ℤ ℤ) 3 [2, 0, -2] =
    .ok [7, 5, 8] := by decide +kernel

end Fanpy.Props
