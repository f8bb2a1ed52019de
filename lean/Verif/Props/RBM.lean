import Verif.Lemmas.RBM
import Verif.Spec.Network
import Verif.Props.SlaterBits
import Mathlib.Analysis.SpecialFunctions.Pow.Real

/-! # Property C70: the overlap of the restricted Boltzmann machine -/

namespace Fanpy.Props
open Fanpy.Spec Fanpy.Slater Fanpy.RBM

variable {R : Type} [CommRing R]

theorem fwd_network (act : R → R) (B : ℕ) (Hs : List (ℕ → ℕ → R)) : ∀ a, fwd act B Hs a = network act B Hs a := by
  induction Hs with
  | nil => intro a; rfl
  | cons W r ih => intro a; rw [fwd, ih]; rfl

theorem sum_range_mul (n m : ℕ) (f : ℕ → R) : ∑ c ∈ Finset.range (m * n), f c = ∑ q ∈ Finset.range m, ∑ r ∈ Finset.range n, f (q * n + r) := by
  induction m with
  | zero => simp
  | succ m ih => rw [Finset.sum_range_succ, ← ih, add_mul, one_mul, Finset.sum_range_add]

theorem mask_sum {n : ℕ} (hn : 0 < n) {s : Finset ℕ} (hs : ∀ i ∈ s, i < n) (occ : ℕ → Bool) (ho : ∀ i < n, occ i = true ↔ i ∈ s) :
    ∀ (m : ℕ) (g : ℕ → R), ∑ c ∈ Finset.range (n ^ (m + 1)), (if maskAt n occ m c then g c else 0) = tupleSum n s m g := by
  have h1 : ∀ g : ℕ → R, ∑ c ∈ Finset.range n, (if occ c then g c else 0) = ∑ i ∈ s, g i := by
    intro g
    rw [← Finset.sum_filter]
    apply Finset.sum_congr _ fun _ _ => rfl
    ext i
    rw [Finset.mem_filter, Finset.mem_range]
    constructor
    · rintro ⟨hi, h⟩; exact (ho i hi).1 h
    · intro h; exact ⟨hs i h, (ho i (hs i h)).2 h⟩
  intro m
  induction m with
  | zero => intro g; rw [zero_add, pow_one, tupleSum, ← h1]; rfl
  | succ m ih =>
    intro g
    rw [pow_succ, sum_range_mul, tupleSum, ← ih]
    apply Finset.sum_congr rfl
    intro q _
    rw [← h1]
    by_cases hq : maskAt n occ m q = true
    · rw [if_pos hq]
      apply Finset.sum_congr rfl
      intro r hr
      rw [Finset.mem_range] at hr
      rw [maskAt, mul_comm q n, Nat.mul_add_div hn, Nat.div_eq_of_lt hr, add_zero, Nat.mul_add_mod, Nat.mod_eq_of_lt hr, hq, Bool.true_and]
    · rw [if_neg hq]
      apply Finset.sum_eq_zero
      intro r hr
      rw [Finset.mem_range] at hr
      rw [maskAt, mul_comm q n, Nat.mul_add_div hn, Nat.div_eq_of_lt hr, add_zero, Nat.mul_add_mod, Nat.mod_eq_of_lt hr]
      simp [hq]

/-- the linear input of the bath states -/
def bathInput (n : ℕ) (s : Finset ℕ) (L : List (ℕ × (ℕ → ℕ → R))) (b : ℕ) : R := (L.map fun q => tupleSum n s (q.1 - 1) (q.2 b)).sum

theorem occMask_ok {n sd : ℕ} (h : ∀ i ∈ occSet sd, i < n) : occMask n sd = .ok fun i => decide (i ∈ occIndices (some sd)) := by
  rw [occMask, if_pos]
  rw [List.all_eq_true]
  intro i hi
  rw [mem_occIndices, ← mem_occSet] at hi
  simpa using h i hi

theorem olpHelper_ok (act : R → R) (w : RBM.Wfn R) (hn : 0 < w.nspin) (ho : ∀ k ∈ w.orders, k ≠ 0)
    (hw : widths w.nspin w.nbath w.orders w.numLayers ≠ []) (sd : ℕ) (hsd : ∀ i ∈ occSet sd, i < w.nspin) :
    olpHelper act w sd = .ok (
      fwd act w.nbath (w.params.drop w.orders.length) (fun b => act (bathInput w.nspin (occSet sd) (w.orders.zip w.params) b)),
      ((w.orders.zip w.params).map fun q => inputAt w.nspin (fun i => decide (i ∈ occIndices (some sd))) q.1) ++
        actsOf act w.nbath (w.params.drop w.orders.length) (fun b => act (bathInput w.nspin (occSet sd) (w.orders.zip w.params) b)),
      (w.orders.map fun _ => bathInput w.nspin (occSet sd) (w.orders.zip w.params)) ++
        linsOf act w.nbath (w.params.drop w.orders.length) (fun b => act (bathInput w.nspin (occSet sd) (w.orders.zip w.params) b))) := by
  have hz : ∀ q ∈ w.orders.zip w.params, q.1 ≠ 0 := fun q hq => ho _ (List.of_mem_zip hq).1
  rw [olpHelper, occMask_ok hsd]
  simp only [bind, Except.bind, if_neg hw, firstLayer_ok _ _ _ hz, pure, Except.pure, hiddenLayers_eq, List.nil_append, zero_add]
  have he : (fun i => ((w.orders.zip w.params).map fun q => dot (w.nspin ^ q.1) q.2
      (inputAt w.nspin (fun i => decide (i ∈ occIndices (some sd))) q.1) i).sum) = bathInput w.nspin (occSet sd) (w.orders.zip w.params) := by
    funext b
    rw [bathInput]
    congr 1
    apply List.map_congr_left
    intro q hq
    have hk := hz q hq
    obtain ⟨m, hm⟩ := Nat.exists_eq_succ_of_ne_zero hk
    rw [← mask_sum hn hsd (fun i => decide (i ∈ occIndices (some sd))) (fun i _ => by
      rw [decide_eq_true_eq, mem_occIndices, mem_occSet]), dot, hm]
    apply Finset.sum_congr rfl
    intro c _
    simp [inputAt]
  have he' := congrFun he
  simp only [he']

/-- **C70**.  The overlap is the product over the bath states of the scaled outputs of the network whose first layer adds, for every order `k`, the
parameters of all `k`-tuples of occupied orbitals. -/
theorem C70_overlap (act : R → R) (w : RBM.Wfn R) (s : R) (hs : w.scale = some s) (hn : 0 < w.nspin) (ho : ∀ k ∈ w.orders, k ≠ 0)
    (hw : w.orders ≠ [] ∨ 1 < w.numLayers) (sd : ℕ) (hsd : ∀ i ∈ occSet sd, i < w.nspin) :
    olp act w sd = .ok (∏ b ∈ Finset.range w.nbath, s * network act w.nbath (w.params.drop w.orders.length)
      (fun b => act (((w.orders.zip w.params).map fun q => tupleSum w.nspin (occSet sd) (q.1 - 1) (q.2 b)).sum)) b) := by
  have hwid : widths w.nspin w.nbath w.orders w.numLayers ≠ [] := by
    rw [widths]
    rcases hw with h | h
    · simp [h]
    · have : w.numLayers - 1 ≠ 0 := by omega
      simp [this]
  rw [olp, olpHelper_ok act w hn ho hwid sd hsd]
  simp only [bind, Except.bind, outputScale, hs, pure, Except.pure]
  congr 1
  apply Finset.prod_congr rfl
  intro b _
  rw [fwd_network, mul_comm]
  rfl

/-- the activation of the code -/
noncomputable def expAct (x : ℝ) : ℝ := 1 + Real.exp x

/-- **C70**, the usual machine: one layer with first and second orders. -/
theorem C70_boltzmann (w : RBM.Wfn ℝ) (s : ℝ) (W V : ℕ → ℕ → ℝ) (hs : w.scale = some s) (hn : 0 < w.nspin) (ho : w.orders = [1, 2])
    (hp : w.params = [W, V]) (sd : ℕ) (hsd : ∀ i ∈ occSet sd, i < w.nspin) :
    olp expAct w sd = .ok (∏ b ∈ Finset.range w.nbath, s * (1 + Real.exp (∑ i ∈ occSet sd, W b i +
      ∑ i ∈ occSet sd, ∑ j ∈ occSet sd, V b (i * w.nspin + j)))) := by
  rw [C70_overlap expAct w s hs hn (by rw [ho]; simp) (by rw [ho]; simp) sd hsd, ho, hp]
  simp [network, tupleSum, expAct]

theorem expAct_pos (x : ℝ) : 0 < expAct x := by rw [expAct]; positivity

theorem network_pos (B : ℕ) (Hs : List (ℕ → ℕ → ℝ)) : ∀ a : ℕ → ℝ, (∀ i, 0 < a i) → ∀ i, 0 < network expAct B Hs a i := by
  induction Hs with
  | nil => intro a h i; exact h i
  | cons W r ih =>
    intro a h i
    exact ih _ (fun _ => expAct_pos _) i

/-- **C70**.  Whatever the parameters, every overlap is positive: the machine cannot represent the sign of a wavefunction. -/
theorem C70_positive (w : RBM.Wfn ℝ) (s : ℝ) (hs : w.scale = some s) (hpos : 0 < s) (hn : 0 < w.nspin) (ho : ∀ k ∈ w.orders, k ≠ 0)
    (hw : w.orders ≠ [] ∨ 1 < w.numLayers) (sd : ℕ) (hsd : ∀ i ∈ occSet sd, i < w.nspin) : ∃ v, olp expAct w sd = .ok v ∧ 0 < v := by
  refine ⟨_, C70_overlap expAct w s hs hn ho hw sd hsd, ?_⟩
  apply Finset.prod_pos
  intro b _
  exact mul_pos hpos (network_pos _ _ _ (fun _ => expAct_pos _) b)

theorem tupleSum_zero (n : ℕ) (s : Finset ℕ) : ∀ m, tupleSum n s m (fun _ => (0 : R)) = 0
  | 0 => by simp [tupleSum]
  | m + 1 => by
    rw [tupleSum]
    simp only [Finset.sum_const_zero]
    exact tupleSum_zero n s m

theorem network_zero (act : R → R) (B : ℕ) (Hs : List (ℕ → ℕ → R)) (h : ∀ W ∈ Hs, W = fun _ _ => 0) : network act B Hs (fun _ => act 0) = fun _ => act 0 := by
  induction Hs with
  | nil => rfl
  | cons W r ih =>
    rw [network, List.foldl_cons, h W (by simp)]
    simp only [zero_mul, Finset.sum_const_zero]
    exact ih fun V hV => h V (by simp [hV])

/-- **C70**.  With the default parameters the overlap with every determinant is one. -/
theorem C70_default (nspin nbath numLayers : ℕ) (orders : List ℕ) (ho : ∀ k ∈ orders, k ≠ 0) (hw : orders ≠ [] ∨ 1 < numLayers)
    (w : RBM.Wfn ℝ) (hi : RBM.init (1 / 2) nspin nbath none numLayers orders = .ok w) (sd : ℕ) (hsd : ∀ i ∈ occSet sd, i < nspin) :
    olp expAct w sd = .ok 1 := by
  rw [RBM.init, CI.checkNspin] at hi
  by_cases h3 : nspin = 0 ∨ nspin % 2 = 1
  · simp [h3, bind, Except.bind] at hi
  simp only [h3, bind, Except.bind, pure, Except.pure, if_false, Except.ok.injEq] at hi
  subst hi
  rw [C70_overlap expAct _ (1 / 2) rfl (by simp only; omega) ho hw sd hsd]
  simp only [template]
  have hz : ∀ W ∈ (widths nspin nbath orders numLayers).map fun _ => (fun _ _ => 0 : ℕ → ℕ → ℝ), W = fun _ _ => 0 := by
    intro W hW
    obtain ⟨_, _, rfl⟩ := List.mem_map.1 hW
    rfl
  have h1 : ∀ b, ((orders.zip ((widths nspin nbath orders numLayers).map fun _ => (fun _ _ => 0 : ℕ → ℕ → ℝ))).map fun q =>
      tupleSum nspin (occSet sd) (q.1 - 1) (q.2 b)).sum = 0 := by
    intro b
    apply List.sum_eq_zero
    intro x hx
    obtain ⟨q, hq, rfl⟩ := List.mem_map.1 hx
    rw [hz q.2 (List.of_mem_zip hq).2]
    exact tupleSum_zero _ _ _
  simp only [h1]
  rw [network_zero _ _ _ fun W hW => hz W (List.mem_of_mem_drop hW)]
  simp [expAct]
  norm_num

/-- **C70**, parameters given at construction: `output_scale` is never set and every overlap is an AttributeError. -/
theorem C70_no_scale (act : R → R) (half : R) (nspin nbath numLayers : ℕ) (orders : List ℕ) (ho : ∀ k ∈ orders, k ≠ 0)
    (hw : orders ≠ [] ∨ 1 < numLayers) (l : List R) (w : RBM.Wfn R) (hi : RBM.init half nspin nbath (some l) numLayers orders = .ok w) (sd : ℕ)
    (hsd : ∀ i ∈ occSet sd, i < nspin) : olp act w sd = .error .attributeError := by
  rw [RBM.init, CI.checkNspin] at hi
  by_cases h3 : nspin = 0 ∨ nspin % 2 = 1
  · simp [h3, bind, Except.bind] at hi
  simp only [h3, bind, Except.bind, pure, Except.pure, if_false] at hi
  rcases hst : structured nbath (widths nspin nbath orders numLayers) l with e | P
  · rw [hst] at hi; cases hi
  rw [hst] at hi
  simp only [Except.ok.injEq] at hi
  subst hi
  have hwid : widths nspin nbath orders numLayers ≠ [] := by
    rw [widths]
    rcases hw with h | h
    · simp [h]
    · have : numLayers - 1 ≠ 0 := by omega
      simp [this]
  rw [olp, olpHelper_ok act _ (by simp only; omega) ho hwid sd hsd]
  rfl

/-- **C70**, errors: an orbital outside of the spin orbitals, and an order zero. -/
theorem C70_orbital_error (act : R → R) (w : RBM.Wfn R) (sd i : ℕ) (hi : i ∈ occSet sd) (hn : w.nspin ≤ i) : olp act w sd = .error .indexError := by
  have : ¬ (occIndices (some sd)).all (· < w.nspin) = true := by
    rw [List.all_eq_true]
    intro h
    rw [mem_occSet, ← mem_occIndices] at hi
    have := h i hi
    simp at this
    omega
  rw [olp, olpHelper, occMask, if_neg this]
  rfl

theorem C70_order_zero (act : R → R) (w : RBM.Wfn R) (sd : ℕ) (h0 : 0 ∈ w.orders) (hp : w.orders.length ≤ w.params.length) :
    olp act w sd = .error .indexError := by
  have hwid : widths w.nspin w.nbath w.orders w.numLayers ≠ [] := by
    rw [widths]
    intro h
    rw [List.append_eq_nil_iff, List.map_eq_nil_iff] at h
    rw [h.1] at h0
    simp at h0
  have hz : ∃ q ∈ w.orders.zip w.params, q.1 = 0 := by
    rw [List.mem_iff_getElem] at h0
    obtain ⟨i, hi, he⟩ := h0
    refine ⟨(w.orders.zip w.params)[i]'(by rw [List.length_zip]; omega), List.getElem_mem _, ?_⟩
    rw [List.getElem_zip]
    exact he
  rw [olp, olpHelper]
  rcases ho : occMask w.nspin sd with e | occ
  · have : e = .indexError := by
      rw [occMask] at ho
      split_ifs at ho
      exact (Except.error.inj ho).symm
    rw [this]; rfl
  · simp only [bind, Except.bind, if_neg hwid, firstLayer_error _ _ _ hz]

/-- a machine with two bath states and four spin orbitals -/
def rbmCase : RBM.Wfn ℤ := ⟨4, 2, [1, 2], 2, [fun i j => i + 2 * j, fun i j => j - i, fun i j => 1 + i * j], some 3⟩

/-- orbitals 0 and 2: the inputs `0 + 4 + (0 + 2 + 8 + 10)` and `1 + 5 + (-1 + 1 + 7 + 9)` -/
example : olp (fun x => x - 1) rbmCase 5 = .ok (3 * (1 * 23 + 1 * 21 - 1) * (3 * (1 * 23 + 2 * 21 - 1))) := by decide +kernel

example : (∀ k ∈ rbmCase.orders, k ≠ 0) ∧ rbmCase.orders ≠ [] ∧ (∀ i ∈ occSet 5, i < rbmCase.nspin) ∧ rbmCase.scale = some 3 := by
  refine ⟨by decide +kernel, by decide +kernel, by decide +kernel, rfl⟩

example : ∃ w : RBM.Wfn ℝ, RBM.init (1 / 2) 4 3 none 2 [1, 2] = .ok w ∧ olp expAct w 5 = .ok 1 :=
  ⟨_, rfl, C70_default 4 3 2 [1, 2] (by simp) (by simp) _ rfl 5 (by decide +kernel)⟩

example : ∃ w : RBM.Wfn ℤ, RBM.init 0 2 1 (some [5, 6]) 1 [1] = .ok w ∧ olp (fun x => x) w 1 = .error .attributeError :=
  ⟨_, rfl, C70_no_scale _ 0 2 1 1 [1] (by simp) (by simp) [5, 6] _ rfl 1 (by decide +kernel)⟩

example : 4 ∈ occSet 16 ∧ olp (fun x => x) rbmCase 16 = .error .indexError := by decide +kernel

end Fanpy.Props
