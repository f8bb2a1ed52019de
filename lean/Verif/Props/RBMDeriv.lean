import Verif.Lemmas.RBMFlat
import Verif.Props.RBM
import Verif.Props.HamDeriv
import Mathlib.Analysis.Calculus.Deriv.Mul
import Mathlib.Analysis.Calculus.Deriv.Comp
import Mathlib.Analysis.SpecialFunctions.ExpDeriv

/-! # Property C71: derivatives of the overlap of the restricted Boltzmann machine -/

namespace Fanpy.Props
open Fanpy.Spec Fanpy.Slater Fanpy.RBM

section
variable {R : Type} [CommRing R]

theorem otherIndices_perm {B y : ℕ} (hy : y < B) : (otherIndices B y).Perm ((List.range B).erase y) := by
  have h1 : otherIndices B y = (List.range B).drop (y + 1) ++ (List.range B).take y := by
    rw [otherIndices, List.rotate_eq_drop_append_take (by simpa using hy), List.take_succ_eq_append_getElem (by simpa using hy), ← List.append_assoc,
      List.dropLast_concat]
  rw [h1]
  have h2 : (List.range B) = (List.range B).take y ++ y :: (List.range B).drop (y + 1) := by
    conv_lhs => rw [← List.take_append_drop y (List.range B), List.drop_eq_getElem_cons (by simpa using hy)]
    simp
  refine List.perm_append_comm.trans ?_
  have h3 : (List.range B).erase y = (List.range B).take y ++ (List.range B).drop (y + 1) := by
    conv_lhs => rw [h2]
    rw [List.erase_append_right, List.erase_cons_head]
    intro hm
    rw [List.mem_take_iff_getElem] at hm
    obtain ⟨i, hi, he⟩ := hm
    simp at hi he
    omega
  rw [h3]

theorem otherVals_eq {B y : ℕ} (hy : y < B) (vals : ℕ → R) (s : R) : otherVals B vals s y = ∏ k ∈ (Finset.range B).erase y, vals k * s := by
  rw [otherVals, (List.Perm.map _ (otherIndices_perm hy)).prod_eq, ← List.prod_toFinset _ (List.nodup_range.erase y)]
  congr 1
  ext i
  rw [List.mem_toFinset, List.Nodup.mem_erase_iff List.nodup_range, Finset.mem_erase, List.mem_range, Finset.mem_range]

theorem zipIdx_flat (B : ℕ) (other : ℕ → R) (G : List (ℕ → ℕ → ℕ → R)) (bs : List ℕ)
    (hlast : ∀ g, G.getLast? = some g → ∀ y r c, y ≠ r → g y r c = 0) (hl : G.length = bs.length) :
    (((G.zip bs).zipIdx).map fun q => gradFlat B q.1.2 other (q.2 + 1 == G.length) q.1.1).flatten =
      (((G.map fun g => fun r c => ∑ y ∈ Finset.range B, other y * g y r c).zip bs).map fun q => flat B q.2 q.1).flatten := by
  congr 1
  apply List.ext_getElem (by simp)
  intro i h1 h2
  simp at h1 h2
  simp only [List.getElem_map, List.getElem_zipIdx, List.getElem_zip, zero_add, gradFlat]
  by_cases hi : i + 1 = G.length
  · have hb : (i + 1 == G.length) = true := by simpa using hi
    simp only [hb, if_true]
    have hg : G.getLast? = some G[i] := by
      have hi' : G.length - 1 = i := by omega
      rw [List.getLast?_eq_getElem?, hi', List.getElem?_eq_getElem]
    congr 1
    funext r c
    apply Finset.sum_congr rfl
    intro y _
    by_cases hyr : y = r
    · rw [hyr]
    · rw [hlast _ hg y r c hyr, mul_zero, mul_zero]
  · have hb : (i + 1 == G.length) = false := by simpa using hi
    simp only [hb, Bool.false_eq_true, if_false]

theorem gradsOf_last (act dact : R → R) (B : ℕ) (s : R) : ∀ (Hs : List (ℕ → ℕ → R)) (a : ℕ → R) (g), (gradsOf act dact B s Hs a).getLast? = some g →
    ∀ y r c, y ≠ r → g y r c = 0
  | [], a, g, h => by simp [gradsOf] at h
  | [W], a, g, h => by
    intro y r c hyr
    simp [gradsOf] at h
    rw [← h]
    simp [jac, hyr]
  | W :: V :: t, a, g, h => by
    rw [gradsOf] at h
    have : (gradsOf act dact B s (V :: t) fun i => act (dot B W a i)) ≠ [] := by simp [gradsOf]
    rw [List.getLast?_cons_of_ne_nil this] at h
    exact gradsOf_last act dact B s (V :: t) _ g h

/-- the gradient arrays of the code, in the order of the layers -/
def allGrads (act dact : R → R) (w : RBM.Wfn R) (s : R) (sd : ℕ) : List (ℕ → ℕ → ℕ → R) :=
  let z := bathInput w.nspin (occSet sd) (w.orders.zip w.params)
  ((w.orders.zip w.params).map fun q => fun y r c => jac act dact w.nbath (w.params.drop w.orders.length) (fun b => act (z b)) y r * dact (z r) *
    inputAt w.nspin (fun i => decide (i ∈ occIndices (some sd))) q.1 c * s) ++
  gradsOf act dact w.nbath s (w.params.drop w.orders.length) fun b => act (z b)

theorem rbmDeriv_ok (act dact : R → R) (w : RBM.Wfn R) (s : R) (hs : w.scale = some s) (hn : 0 < w.nspin) (ho : ∀ k ∈ w.orders, k ≠ 0)
    (hw : widths w.nspin w.nbath w.orders w.numLayers ≠ []) (hp : w.params.length = (widths w.nspin w.nbath w.orders w.numLayers).length)
    (sd : ℕ) (hsd : ∀ i ∈ occSet sd, i < w.nspin) :
    olpDeriv act dact w sd = .ok ((((allGrads act dact w s sd).map fun g => fun r c => ∑ y ∈ Finset.range w.nbath,
      otherVals w.nbath (fwd act w.nbath (w.params.drop w.orders.length) fun b => act (bathInput w.nspin (occSet sd) (w.orders.zip w.params) b)) s y *
        g y r c).zip (widths w.nspin w.nbath w.orders w.numLayers)).map fun q => flat w.nbath q.2 q.1).flatten := by
  have hpo : w.orders.length ≤ w.params.length := by rw [hp, widths]; simp
  have hzl : (w.orders.zip w.params).length = w.orders.length := by rw [List.length_zip]; omega
  rw [olpDeriv, olpHelper_ok act w hn ho hw sd hsd]
  simp only [bind, Except.bind, outputScale, hs, pure, Except.pure]
  rw [grads_eq act dact w s _ _ _ (by rw [List.length_map, hzl]) hpo, List.map_map]
  congr 1
  refine zipIdx_flat w.nbath _ (allGrads act dact w s sd) _ ?_ ?_
  · intro g hg
    rw [allGrads] at hg
    rcases hd : w.params.drop w.orders.length with _ | ⟨W, t⟩
    · rw [hd] at hg
      simp only [gradsOf, List.append_nil] at hg
      have := List.mem_of_getLast? hg
      obtain ⟨q, -, rfl⟩ := List.mem_map.1 this
      intro y r c hyr
      simp [jac, hyr]
    · rw [hd] at hg
      rw [List.getLast?_append_of_ne_nil _ (by simp [gradsOf])] at hg
      exact gradsOf_last act dact _ s _ _ g hg
  · rw [allGrads]
    simp only [List.length_append, List.length_map, hzl, length_gradsOf, List.length_drop]
    omega

end

variable {𝕜 : Type} [NontriviallyNormedField 𝕜]

/-- arrays moved along a line -/
def moved (Ws Vs : List (ℕ → ℕ → 𝕜)) (t : 𝕜) : List (ℕ → ℕ → 𝕜) := List.zipWith (fun W V i c => W i c + t * V i c) Ws Vs

theorem moved_zero : ∀ (Ws Vs : List (ℕ → ℕ → 𝕜)), Ws.length = Vs.length → moved Ws Vs 0 = Ws
  | [], Vs, _ => by simp [moved]
  | W :: Ws, [], h => by simp at h
  | W :: Ws, V :: Vs, h => by
    have := moved_zero Ws Vs (by simpa using h)
    rw [moved] at this ⊢
    rw [List.zipWith_cons_cons, this]
    congr 1
    funext i c
    simp

theorem hasDeriv_line (x y : 𝕜) : HasDerivAt (fun t => x + t * y) y 0 := by
  simpa using ((hasDerivAt_id (0 : 𝕜)).mul_const y).const_add x

theorem hasDeriv_dot (B : ℕ) (W V : ℕ → ℕ → 𝕜) (a : 𝕜 → ℕ → 𝕜) (a' : ℕ → 𝕜) (ha : ∀ r, HasDerivAt (fun t => a t r) (a' r) 0) (i : ℕ) :
    HasDerivAt (fun t => dot B (fun i c => W i c + t * V i c) (a t) i) (∑ j ∈ Finset.range B, (V i j * a 0 j + W i j * a' j)) 0 := by
  simp only [dot]
  apply HasDerivAt.fun_sum
  intro j _
  have := (hasDeriv_line (W i j) (V i j)).fun_mul (ha j)
  simpa using this

theorem hasDeriv_fwd {act dact : 𝕜 → 𝕜} (hact : ∀ x, HasDerivAt act (dact x) x) (B : ℕ) (s : 𝕜) : ∀ (Hs Vs : List (ℕ → ℕ → 𝕜)), Hs.length = Vs.length →
    ∀ (a : 𝕜 → ℕ → 𝕜) (a' : ℕ → 𝕜), (∀ r, HasDerivAt (fun t => a t r) (a' r) 0) → ∀ y < B,
    HasDerivAt (fun t => fwd act B (moved Hs Vs t) (a t) y * s) (∑ r ∈ Finset.range B, jac act dact B Hs (a 0) y r * a' r * s +
      (List.zipWith (fun g V => ∑ r ∈ Finset.range B, ∑ c ∈ Finset.range B, g y r c * V r c) (gradsOf act dact B s Hs (a 0)) Vs).sum) 0
  | [], Vs, _, a, a', ha, y, hy => by
    have h1 : ∑ r ∈ Finset.range B, jac act dact B [] (a 0) y r * a' r * s = a' y * s := by
      rw [Finset.sum_eq_single y]
      · simp [jac]
      · intro b _ hb; simp [jac, Ne.symm hb]
      · intro h; exact absurd (Finset.mem_range.2 hy) h
    rw [h1]
    simpa [gradsOf, moved, fwd] using (ha y).mul_const s
  | W :: Hs, [], h, _, _, _, _, _ => by simp at h
  | W :: Hs, V :: Vs, h, a, a', ha, y, hy => by
    have hW : (fun i c => W i c + (0 : 𝕜) * V i c) = W := by funext i c; simp
    have hz := hasDeriv_dot B W V a a' ha
    have h1 : ∀ r, HasDerivAt (fun t => act (dot B (fun i c => W i c + t * V i c) (a t) r))
        (dact (dot B W (a 0) r) * ∑ j ∈ Finset.range B, (V r j * a 0 j + W r j * a' j)) 0 := by
      intro r
      have h2 := hact (dot B (fun i c => W i c + (0 : 𝕜) * V i c) (a 0) r)
      have := HasDerivAt.comp (0 : 𝕜) h2 (hz r)
      rw [hW] at this
      exact this
    have ih := hasDeriv_fwd hact B s Hs Vs (by simpa using h) _ _ h1 y hy
    simp only [hW] at ih
    have he : (fun t => fwd act B (moved (W :: Hs) (V :: Vs) t) (a t) y * s) =
        fun t => fwd act B (moved Hs Vs t) (fun r => act (dot B (fun i c => W i c + t * V i c) (a t) r)) y * s := by
      funext t; rfl
    rw [he]
    convert ih using 1
    rw [gradsOf, List.zipWith_cons_cons, List.sum_cons, ← add_assoc]
    congr 1
    simp only [jac]
    have e1 : ∀ r ∈ Finset.range B, (∑ i ∈ Finset.range B, jac act dact B Hs (fun i => act (dot B W (a 0) i)) y i * dact (dot B W (a 0) i) * W i r) * a' r * s =
        ∑ i ∈ Finset.range B, jac act dact B Hs (fun i => act (dot B W (a 0) i)) y i * dact (dot B W (a 0) i) * W i r * a' r * s := by
      intro r _
      rw [Finset.sum_mul, Finset.sum_mul]
    rw [Finset.sum_congr rfl e1, Finset.sum_comm, ← Finset.sum_add_distrib]
    apply Finset.sum_congr rfl
    intro r _
    rw [← Finset.sum_add_distrib, Finset.mul_sum, Finset.mul_sum, Finset.sum_mul]
    apply Finset.sum_congr rfl
    intro c _
    ring

theorem dot_inputAt {n : ℕ} (hn : 0 < n) {sd : ℕ} (hsd : ∀ i ∈ occSet sd, i < n) {k : ℕ} (hk : k ≠ 0) (V : ℕ → 𝕜) :
    ∑ c ∈ Finset.range (n ^ k), inputAt n (fun i => decide (i ∈ occIndices (some sd))) k c * V c = tupleSum n (occSet sd) (k - 1) V := by
  obtain ⟨m, rfl⟩ := Nat.exists_eq_succ_of_ne_zero hk
  rw [← mask_sum hn hsd (fun i => decide (i ∈ occIndices (some sd))) (fun i _ => by rw [decide_eq_true_eq, mem_occIndices, mem_occSet])]
  apply Finset.sum_congr rfl
  intro c _
  simp [inputAt]

theorem tupleSum_line (n : ℕ) (s : Finset ℕ) (t : 𝕜) : ∀ (m : ℕ) (g h : ℕ → 𝕜), tupleSum n s m (fun c => g c + t * h c) =
    tupleSum n s m g + t * tupleSum n s m h
  | 0, g, h => by simp only [tupleSum, Finset.sum_add_distrib, Finset.mul_sum]
  | m + 1, g, h => by
    simp only [tupleSum]
    rw [← tupleSum_line n s t m]
    simp only [Finset.sum_add_distrib, Finset.mul_sum]

theorem bathInput_line (n : ℕ) (s : Finset ℕ) (t : 𝕜) (b : ℕ) : ∀ (orders : List ℕ) (Ws Vs : List (ℕ → ℕ → 𝕜)), Ws.length = Vs.length →
    bathInput n s (orders.zip (moved Ws Vs t)) b = bathInput n s (orders.zip Ws) b + t * bathInput n s (orders.zip Vs) b
  | [], Ws, Vs, _ => by simp [bathInput]
  | k :: ks, [], [], _ => by simp [bathInput, moved]
  | k :: ks, [], V :: Vs, h => by simp at h
  | k :: ks, W :: Ws, [], h => by simp at h
  | k :: ks, W :: Ws, V :: Vs, h => by
    have ih := bathInput_line n s t b ks Ws Vs (by simpa using h)
    rw [moved] at ih ⊢
    rw [bathInput] at ih ⊢
    rw [bathInput, bathInput] at ih ⊢
    rw [List.zipWith_cons_cons, List.zip_cons_cons, List.zip_cons_cons, List.zip_cons_cons, List.map_cons, List.map_cons, List.map_cons,
      List.sum_cons, List.sum_cons, List.sum_cons, ih]
    simp only [tupleSum_line]
    ring

theorem zip_first {α β γ : Type} (h : ℕ → α) (e : ℕ → ℕ) (F : α × ℕ → γ → β) : ∀ (orders : List ℕ) {δ : Type} (Ws : List δ) (Vs : List γ),
    orders.length ≤ Ws.length →
    List.zipWith F (((orders.zip Ws).map fun q => h q.1).zip (orders.map e)) Vs = (orders.zip Vs).map fun q => F (h q.1, e q.1) q.2
  | [], _, Ws, Vs, _ => by simp
  | k :: ks, _, [], Vs, hl => by simp at hl
  | k :: ks, _, W :: Ws, [], hl => by simp
  | k :: ks, _, W :: Ws, V :: Vs, hl => by
    simp only [List.zip_cons_cons, List.map_cons, List.zipWith_cons_cons]
    rw [zip_first h e F ks Ws Vs (by simpa using hl)]

theorem zip_hidden {α β γ δ : Type} (T : δ → α) (B : ℕ) (F : α × ℕ → γ → β) : ∀ (G : List δ) (Vs : List γ),
    List.zipWith F ((G.map T).zip (List.replicate G.length B)) Vs = List.zipWith (fun g V => F (T g, B) V) G Vs
  | [], Vs => by simp
  | g :: G, [] => by simp
  | g :: G, V :: Vs => by
    simp only [List.length_cons, List.replicate_succ, List.map_cons, List.zip_cons_cons, List.zipWith_cons_cons]
    rw [zip_hidden T B F G Vs]

theorem swap_hidden (B : ℕ) (other : ℕ → 𝕜) : ∀ (G : List (ℕ → ℕ → ℕ → 𝕜)) (Vs : List (ℕ → ℕ → 𝕜)),
    (List.zipWith (fun g V => ∑ r ∈ Finset.range B, ∑ c ∈ Finset.range B, (∑ y ∈ Finset.range B, other y * g y r c) * V r c) G Vs).sum =
      ∑ y ∈ Finset.range B, other y * (List.zipWith (fun g V => ∑ r ∈ Finset.range B, ∑ c ∈ Finset.range B, g y r c * V r c) G Vs).sum
  | [], Vs => by simp
  | g :: G, [] => by simp
  | g :: G, V :: Vs => by
    simp only [List.zipWith_cons_cons, List.sum_cons]
    rw [swap_hidden B other G Vs]
    simp only [mul_add, Finset.sum_add_distrib]
    congr 1
    simp only [Finset.sum_mul, Finset.mul_sum]
    have : ∀ r ∈ Finset.range B, ∑ c ∈ Finset.range B, ∑ y ∈ Finset.range B, other y * g y r c * V r c =
        ∑ y ∈ Finset.range B, ∑ c ∈ Finset.range B, other y * g y r c * V r c := fun r _ => Finset.sum_comm
    rw [Finset.sum_congr rfl this, Finset.sum_comm]
    simp only [mul_assoc]

theorem swap_first {n : ℕ} (hn : 0 < n) {sd : ℕ} (hsd : ∀ i ∈ occSet sd, i < n) (B : ℕ) (s : 𝕜) (other : ℕ → 𝕜) (J : ℕ → ℕ → 𝕜) (d : ℕ → 𝕜) :
    ∀ (L : List (ℕ × (ℕ → ℕ → 𝕜))), (∀ q ∈ L, q.1 ≠ 0) →
    (L.map fun q => ∑ r ∈ Finset.range B, ∑ c ∈ Finset.range (n ^ q.1), (∑ y ∈ Finset.range B, other y *
      (J y r * d r * inputAt n (fun i => decide (i ∈ occIndices (some sd))) q.1 c * s)) * q.2 r c).sum =
    ∑ y ∈ Finset.range B, other y * ∑ r ∈ Finset.range B, J y r * (d r * bathInput n (occSet sd) L r) * s
  | [], _ => by simp [bathInput]
  | (k, V) :: L, h => by
    have hb : ∀ r, bathInput n (occSet sd) ((k, V) :: L) r = tupleSum n (occSet sd) (k - 1) (V r) + bathInput n (occSet sd) L r := by
      intro r; simp [bathInput]
    rw [List.map_cons, List.sum_cons, swap_first hn hsd B s other J d L fun q hq => h q (by simp [hq])]
    simp only [hb]
    have h1 : ∀ r ∈ Finset.range B, ∑ c ∈ Finset.range (n ^ k), (∑ y ∈ Finset.range B, other y *
        (J y r * d r * inputAt n (fun i => decide (i ∈ occIndices (some sd))) k c * s)) * V r c =
        ∑ y ∈ Finset.range B, other y * (J y r * (d r * tupleSum n (occSet sd) (k - 1) (V r)) * s) := by
      intro r _
      rw [← dot_inputAt hn hsd (h (k, V) (by simp)) (V r)]
      simp only [Finset.sum_mul, Finset.mul_sum]
      rw [Finset.sum_comm]
      apply Finset.sum_congr rfl
      intro y _
      apply Finset.sum_congr rfl
      intro c _
      ring
    rw [Finset.sum_congr rfl h1, Finset.sum_comm, ← Finset.sum_add_distrib]
    apply Finset.sum_congr rfl
    intro y _
    rw [← Finset.mul_sum, ← mul_add, ← Finset.sum_add_distrib]
    congr 1
    apply Finset.sum_congr rfl
    intro r _
    ring

theorem scaled_prod_deriv (B : ℕ) (f : 𝕜 → ℕ → 𝕜) (f' : ℕ → 𝕜) (h : ∀ y < B, HasDerivAt (fun t => f t y) (f' y) 0) :
    HasDerivAt (fun t => ∏ y ∈ Finset.range B, f t y) (∑ y ∈ Finset.range B, (∏ k ∈ (Finset.range B).erase y, f 0 k) * f' y) 0 := by
  have := HasDerivAt.fun_finset_prod (u := Finset.range B) (f := fun y t => f t y) (f' := f') (x := (0 : 𝕜))
    fun y hy => h y (Finset.mem_range.1 hy)
  simpa [smul_eq_mul] using this

/-- the derivative along a line of parameters -/
theorem rbm_line {act dact : 𝕜 → 𝕜} (hact : ∀ x, HasDerivAt act (dact x) x) (w : RBM.Wfn 𝕜) (s : 𝕜) (hs : w.scale = some s) (hn : 0 < w.nspin)
    (ho : ∀ k ∈ w.orders, k ≠ 0) (hw : widths w.nspin w.nbath w.orders w.numLayers ≠ [])
    (hp : w.params.length = (widths w.nspin w.nbath w.orders w.numLayers).length) (sd : ℕ) (hsd : ∀ i ∈ occSet sd, i < w.nspin)
    (Vs : List (ℕ → ℕ → 𝕜)) (hV : w.params.length = Vs.length) :
    ∃ D f, olpDeriv act dact w sd = .ok D ∧ D.length = total w.nbath (widths w.nspin w.nbath w.orders w.numLayers) ∧
      (∀ t, olp act { w with params := moved w.params Vs t } sd = .ok (f t)) ∧
      HasDerivAt f (List.zipWith (· * ·) D ((Vs.zip (widths w.nspin w.nbath w.orders w.numLayers)).map fun q => flat w.nbath q.2 q.1).flatten).sum 0 := by
  have hpo : w.orders.length ≤ w.params.length := by rw [hp, widths]; simp
  have hgl : (allGrads act dact w s sd).length = (widths w.nspin w.nbath w.orders w.numLayers).length := by
    rw [allGrads, ← hp]
    simp only [List.length_append, List.length_map, List.length_zip, length_gradsOf, List.length_drop]
    omega
  refine ⟨_, fun t => ∏ y ∈ Finset.range w.nbath, fwd act w.nbath ((moved w.params Vs t).drop w.orders.length)
    (fun b => act (bathInput w.nspin (occSet sd) (w.orders.zip (moved w.params Vs t)) b)) y * s, rbmDeriv_ok act dact w s hs hn ho hw hp sd hsd, ?_, ?_, ?_⟩
  · rw [length_flatten_flat _ _ _ (by rw [List.length_map, hgl])]
  · intro t
    rw [olp, olpHelper_ok act { w with params := moved w.params Vs t } hn ho hw sd hsd]
    simp only [bind, Except.bind, outputScale, hs, pure, Except.pure]
  · have hdrop : ∀ t, (moved w.params Vs t).drop w.orders.length = moved (w.params.drop w.orders.length) (Vs.drop w.orders.length) t := by
      intro t; rw [moved, List.drop_zipWith, moved]
    simp only [hdrop, bathInput_line _ _ _ _ w.orders w.params Vs hV]
    have hin : ∀ b, HasDerivAt (fun t => act (bathInput w.nspin (occSet sd) (w.orders.zip w.params) b + t * bathInput w.nspin (occSet sd) (w.orders.zip Vs) b))
        (dact (bathInput w.nspin (occSet sd) (w.orders.zip w.params) b) * bathInput w.nspin (occSet sd) (w.orders.zip Vs) b) 0 := by
      intro b
      have h2 := hact (bathInput w.nspin (occSet sd) (w.orders.zip w.params) b + 0 * bathInput w.nspin (occSet sd) (w.orders.zip Vs) b)
      have := HasDerivAt.comp (0 : 𝕜) h2 (hasDeriv_line _ _)
      rw [zero_mul, add_zero] at this
      exact this
    have hf := fun y hy => hasDeriv_fwd hact w.nbath s (w.params.drop w.orders.length) (Vs.drop w.orders.length)
      (by rw [List.length_drop, List.length_drop, hV]) _ _ hin y hy
    have hP := scaled_prod_deriv w.nbath _ _ hf
    convert hP using 1
    rw [sum_zip_flatten _ _ _ _ (by rw [List.length_map, hgl]) (by rw [← hV, hp])]
    have hz0 : moved (w.params.drop w.orders.length) (Vs.drop w.orders.length) 0 = w.params.drop w.orders.length :=
      moved_zero _ _ (by rw [List.length_drop, List.length_drop, hV])
    simp only [hz0, zero_mul, add_zero]
    have hother : ∀ y ∈ Finset.range w.nbath, (∏ k ∈ (Finset.range w.nbath).erase y, fwd act w.nbath (w.params.drop w.orders.length)
        (fun b => act (bathInput w.nspin (occSet sd) (w.orders.zip w.params) b)) k * s) = otherVals w.nbath (fwd act w.nbath (w.params.drop w.orders.length)
        (fun b => act (bathInput w.nspin (occSet sd) (w.orders.zip w.params) b))) s y := fun y hy => (otherVals_eq (Finset.mem_range.1 hy) _ _).symm
    rw [Finset.sum_congr rfl fun y hy => by rw [hother y hy]]
    generalize otherVals w.nbath (fwd act w.nbath (w.params.drop w.orders.length)
        (fun b => act (bathInput w.nspin (occSet sd) (w.orders.zip w.params) b))) s = other
    simp only [mul_add, Finset.sum_add_distrib]
    rw [← swap_hidden, ← swap_first hn hsd w.nbath s other (jac act dact w.nbath (w.params.drop w.orders.length)
      fun b => act (bathInput w.nspin (occSet sd) (w.orders.zip w.params) b)) (fun r => dact (bathInput w.nspin (occSet sd) (w.orders.zip w.params) r))
      (w.orders.zip Vs) (fun q hq => ho _ (List.of_mem_zip hq).1)]
    have hrep : w.numLayers - 1 = (gradsOf act dact w.nbath s (w.params.drop w.orders.length)
        fun b => act (bathInput w.nspin (occSet sd) (w.orders.zip w.params) b)).length := by
      rw [length_gradsOf, List.length_drop, hp, widths]
      simp
    have hVs : Vs = Vs.take w.orders.length ++ Vs.drop w.orders.length := (List.take_append_drop _ _).symm
    rw [allGrads, widths, List.map_append, List.zip_append (by simp; omega)]
    conv_lhs => rw [hVs]
    rw [List.zipWith_append (by simp; omega), List.sum_append]
    congr 1
    · rw [List.map_map]
      have h1 := zip_first (fun k => fun r c => ∑ y ∈ Finset.range w.nbath, other y * (jac act dact w.nbath (w.params.drop w.orders.length)
        (fun b => act (bathInput w.nspin (occSet sd) (w.orders.zip w.params) b)) y r * dact (bathInput w.nspin (occSet sd) (w.orders.zip w.params) r) *
          inputAt w.nspin (fun i => decide (i ∈ occIndices (some sd))) k c * s)) (fun k => w.nspin ^ k)
        (fun (q : (ℕ → ℕ → 𝕜) × ℕ) (V : ℕ → ℕ → 𝕜) => ∑ r ∈ Finset.range w.nbath, ∑ c ∈ Finset.range q.2, q.1 r c * V r c)
        w.orders w.params (Vs.take w.orders.length) hpo
      refine (congrArg List.sum h1).trans ?_
      have h2 : w.orders.zip (Vs.take w.orders.length) = w.orders.zip Vs := by
        clear * -
        generalize w.orders = l
        induction l generalizing Vs with
        | nil => simp
        | cons k l ih =>
          rcases Vs with _ | ⟨V, Vs⟩
          · simp
          · simp [ih Vs]
      rw [h2]
    · rw [hrep, zip_hidden]

theorem zip_unit (D : List 𝕜) : ∀ (p : ℕ), (List.zipWith (· * ·) D ((List.replicate D.length 0).set p 1)).sum = D.getD p 0 := by
  induction D with
  | nil => intro p; simp
  | cons x D ih =>
    intro p
    rw [List.length_cons, List.replicate_succ]
    cases p with
    | zero =>
      rw [List.set_cons_zero, List.zipWith_cons_cons, List.sum_cons]
      have : ∀ D : List 𝕜, (List.zipWith (· * ·) D (List.replicate D.length 0)).sum = 0 := by
        intro D
        induction D with
        | nil => simp
        | cons y D ih => simp [List.replicate_succ, ih]
      rw [this D]
      simp
    | succ p =>
      rw [List.set_cons_succ, List.zipWith_cons_cons, List.sum_cons, ih p]
      simp

theorem set_line (P : List 𝕜) (t : 𝕜) : ∀ (p : ℕ), List.zipWith (fun x y => x + t * y) P ((List.replicate P.length 0).set p 1) =
    P.set p (P.getD p 0 + t) := by
  have h0 : ∀ P : List 𝕜, List.zipWith (fun x y => x + t * y) P (List.replicate P.length 0) = P := by
    intro P
    induction P with
    | nil => simp
    | cons y D ih => simp [List.replicate_succ, ih]
  induction P with
  | nil => intro p; simp
  | cons x P ih =>
    intro p
    rw [List.length_cons, List.replicate_succ]
    cases p with
    | zero => rw [List.set_cons_zero, List.zipWith_cons_cons, h0 P]; simp
    | succ p => rw [List.set_cons_succ, List.zipWith_cons_cons, ih p]; simp

/-- **C71**.  For every array `P` of as many parameters as there are, `_olp_deriv` has one entry for every parameter, and it is the derivative of the
overlap in that parameter. -/
theorem C71_derivative {act dact : 𝕜 → 𝕜} (hact : ∀ x, HasDerivAt act (dact x) x) (w : RBM.Wfn 𝕜) (s : 𝕜) (hs : w.scale = some s) (hn : 0 < w.nspin)
    (ho : ∀ k ∈ w.orders, k ≠ 0) (hl : w.orders ≠ [] ∨ 1 < w.numLayers) (h1 : 1 ≤ w.numLayers) (P : List 𝕜)
    (hP : (P.length : ℤ) = nparams w.nspin w.nbath w.orders w.numLayers) (sd : ℕ) (hsd : ∀ i ∈ occSet sd, i < w.nspin) :
    ∃ w' D, assignParams w P = .ok w' ∧ olpDeriv act dact w' sd = .ok D ∧ D.length = P.length ∧
      ∀ p < P.length, overlapDeriv act dact w' sd [p] = .ok [D.getD p 0] ∧
        ∃ f : 𝕜 → 𝕜, (∀ t, ∃ wt, assignParams w (P.set p (P.getD p 0 + t)) = .ok wt ∧ olp act wt sd = .ok (f t)) ∧ HasDerivAt f (D.getD p 0) 0 := by
  have hwid : widths w.nspin w.nbath w.orders w.numLayers ≠ [] := by
    rw [widths]
    rcases hl with h | h
    · simp [h]
    · have : w.numLayers - 1 ≠ 0 := by omega
      simp [this]
  have htot : total w.nbath (widths w.nspin w.nbath w.orders w.numLayers) = P.length := by
    have e : (total w.nbath (widths w.nspin w.nbath w.orders w.numLayers) : ℤ) = nparams w.nspin w.nbath w.orders w.numLayers := by
      obtain ⟨m, hm⟩ : ∃ m, w.numLayers = m + 1 := ⟨w.numLayers - 1, by omega⟩
      rw [nparams, total, widths, List.map_append, List.sum_append, List.map_map, List.map_replicate, List.sum_replicate, hm]
      push_cast
      simp [Function.comp_def]
      left
      ring
    rw [← hP] at e
    exact_mod_cast e
  have hass : ∀ Q : List 𝕜, Q.length = P.length → assignParams w Q = .ok { w with params := cut w.nbath (widths w.nspin w.nbath w.orders w.numLayers) Q } := by
    intro Q hQ
    rw [assignParams, structured_ok _ _ _ (by omega)]
    rfl
  have key : ∀ p < P.length, ∃ D f, olpDeriv act dact { w with params := cut w.nbath (widths w.nspin w.nbath w.orders w.numLayers) P } sd = .ok D ∧
      D.length = P.length ∧ (∀ t, ∃ wt, assignParams w (P.set p (P.getD p 0 + t)) = .ok wt ∧ olp act wt sd = .ok (f t)) ∧ HasDerivAt f (D.getD p 0) 0 := by
    intro p hp
    obtain ⟨D, f, hD, hDl, hf, hd⟩ := rbm_line hact { w with params := cut w.nbath (widths w.nspin w.nbath w.orders w.numLayers) P } s hs hn ho hwid
      (length_cut _ _ _) sd hsd (cut w.nbath (widths w.nspin w.nbath w.orders w.numLayers) ((List.replicate P.length 0).set p 1))
      (by rw [length_cut, length_cut])
    simp only at hDl hf hd
    rw [htot] at hDl
    refine ⟨D, f, hD, hDl, fun t => ⟨_, hass _ (by simp), ?_⟩, ?_⟩
    · rw [← hf t, ← set_line, cut_add _ _ _ _ _ (by simp), moved]
    · rw [flatten_cut _ _ _ (by rw [htot]; simp), htot, List.take_of_length_le (by simp), ← hDl, zip_unit] at hd
      exact hd
  by_cases h0 : P.length = 0
  · obtain ⟨D, f, hD, hDl, -⟩ := rbm_line hact { w with params := cut w.nbath (widths w.nspin w.nbath w.orders w.numLayers) P } s hs hn ho hwid
      (length_cut _ _ _) sd hsd (cut w.nbath (widths w.nspin w.nbath w.orders w.numLayers) P) rfl
    exact ⟨_, D, hass P rfl, hD, by simp only at hDl; rw [hDl, htot], fun p hp => by omega⟩
  · obtain ⟨D, -, hD, hDl, -⟩ := key 0 (by omega)
    refine ⟨_, D, hass P rfl, hD, hDl, fun p hp => ⟨?_, ?_⟩⟩
    · rw [overlapDeriv, hD]
      simp only [bind, Except.bind]
      exact mapM_eq_ok [p] (g := fun j => D.getD j 0) fun a ha => by
        rw [List.mem_singleton] at ha
        subst ha
        rw [CreationCC.item, List.getElem?_eq_getElem (by omega), List.getD_eq_getElem _ _ (by omega)]
    · obtain ⟨D', f, hD', -, h2, h3⟩ := key p hp
      rw [hD] at hD'
      injection hD' with hD'
      subst hD'
      exact ⟨f, h2, h3⟩

/-- **C71** for the activation of the code, over the real numbers. -/
theorem C71_exponential (w : RBM.Wfn ℝ) (s : ℝ) (hs : w.scale = some s) (hn : 0 < w.nspin)
    (ho : ∀ k ∈ w.orders, k ≠ 0) (hl : w.orders ≠ [] ∨ 1 < w.numLayers) (h1 : 1 ≤ w.numLayers) (P : List ℝ)
    (hP : (P.length : ℤ) = nparams w.nspin w.nbath w.orders w.numLayers) (sd : ℕ) (hsd : ∀ i ∈ occSet sd, i < w.nspin) :
    ∃ w' D, assignParams w P = .ok w' ∧ olpDeriv expAct Real.exp w' sd = .ok D ∧ D.length = P.length ∧
      ∀ p < P.length, overlapDeriv expAct Real.exp w' sd [p] = .ok [D.getD p 0] ∧
        ∃ f : ℝ → ℝ, (∀ t, ∃ wt, assignParams w (P.set p (P.getD p 0 + t)) = .ok wt ∧ olp expAct wt sd = .ok (f t)) ∧ HasDerivAt f (D.getD p 0) 0 :=
  C71_derivative (fun x => (Real.hasDerivAt_exp x).const_add 1) w s hs hn ho hl h1 P hP sd hsd

/-- the gradient of the concrete machine: orbitals 0 and 2, scaled outputs 129 and 192 -/
example : olpDeriv (fun x => x - 1) (fun _ => 1) rbmCase 5 = .ok [963, 0, 963, 0, 1350, 0, 1350, 0, 963, 0, 963, 0, 0, 0, 0, 0, 963, 0, 963, 0, 0, 0, 0, 0,
    1350, 0, 1350, 0, 0, 0, 0, 0, 1350, 0, 1350, 0, 0, 0, 0, 0, 13248, 12096, 8901, 8127] ∧
    ((flatParams rbmCase).length : ℤ) = nparams 4 2 [1, 2] 2 := by decide +kernel

end Fanpy.Props
