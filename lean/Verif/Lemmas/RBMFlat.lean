import Verif.Lemmas.RBM

/-! # Lemmas about the flat parameters of the restricted Boltzmann machine -/

namespace Fanpy.RBM

variable {R : Type} [CommRing R]

theorem length_flat (a b : ℕ) (W : ℕ → ℕ → R) : (flat a b W).length = a * b := by
  simp [flat, List.length_flatMap]

theorem flat_reshape (a b : ℕ) (l : List R) (h : l.length = a * b) :
    flat a b (fun i j => if i < a ∧ j < b then l.getD (i * b + j) 0 else 0) = l := by
  have key : ∀ (a : ℕ) (l : List R), l.length = a * b → (List.range a).flatMap (fun i => (List.range b).map fun j => l.getD (i * b + j) 0) = l := by
    intro a
    induction a with
    | zero => intro l hl; simp at hl; simp [hl]
    | succ a ih =>
      intro l hl
      rw [List.range_succ, List.flatMap_append]
      have h1 := ih (l.take (a * b)) (by rw [List.length_take, hl]; nlinarith [Nat.min_eq_left (show a * b ≤ (a + 1) * b by nlinarith)])
      have h2 : ((List.range a).flatMap fun i => (List.range b).map fun j => l.getD (i * b + j) 0) =
          (List.range a).flatMap fun i => (List.range b).map fun j => (l.take (a * b)).getD (i * b + j) 0 := by
        apply List.flatMap_congr
        intro i hi
        apply List.map_congr_left
        intro j hj
        rw [List.mem_range] at hi hj
        have : i * b + j < a * b := by nlinarith
        rw [List.getD_eq_getElem _ _ (by rw [hl]; nlinarith), List.getD_eq_getElem _ _ (by rw [List.length_take, hl]; exact lt_min this (by nlinarith)),
          List.getElem_take]
      rw [h2, h1]
      have h3 : (List.range b).map (fun j => l.getD (a * b + j) 0) = l.drop (a * b) := by
        apply List.ext_getElem
        · simp [hl, add_mul]
        · intro j h4 h5
          simp at h4
          rw [List.getElem_map, List.getElem_range, List.getElem_drop, List.getD_eq_getElem _ _ (by rw [hl, add_mul]; omega)]
      simp only [List.flatMap_cons, List.flatMap_nil, List.append_nil]
      rw [h3, List.take_append_drop]
  refine Eq.trans ?_ (key a l h)
  rw [flat]
  apply List.flatMap_congr
  intro i hi
  apply List.map_congr_left
  intro j hj
  rw [List.mem_range] at hi hj
  rw [if_pos ⟨hi, hj⟩]

/-- the number of parameters of arrays with `B` rows -/
def total (B : ℕ) (bs : List ℕ) : ℕ := (bs.map fun b => B * b).sum

/-- the arrays cut from a list -/
def cut (B : ℕ) : List ℕ → List R → List (ℕ → ℕ → R)
  | [], _ => []
  | b :: bs, l => (fun i j => if i < B ∧ j < b then (l.take (B * b)).getD (i * b + j) 0 else 0) :: cut B bs (l.drop (B * b))

theorem structured_ok (B : ℕ) : ∀ (bs : List ℕ) (l : List R), total B bs ≤ l.length → structured B bs l = .ok (cut B bs l)
  | [], l, _ => rfl
  | b :: bs, l, h => by
    rw [total, List.map_cons, List.sum_cons, ← total] at h
    have h1 : (l.take (B * b)).length = B * b := by rw [List.length_take]; omega
    rw [structured, reshape, if_pos h1, structured_ok B bs (l.drop (B * b)) (by rw [List.length_drop]; omega)]
    rfl

theorem structured_error (B : ℕ) : ∀ (bs : List ℕ) (l : List R), l.length < total B bs → structured B bs l = .error .valueError
  | [], l, h => by simp [total] at h
  | b :: bs, l, h => by
    rw [total, List.map_cons, List.sum_cons, ← total] at h
    rw [structured, reshape]
    by_cases h1 : (l.take (B * b)).length = B * b
    · rw [if_pos h1]
      rw [List.length_take] at h1
      rw [structured_error B bs (l.drop (B * b)) (by rw [List.length_drop]; omega)]
      rfl
    · rw [if_neg h1]
      rfl

theorem length_cut (B : ℕ) : ∀ (bs : List ℕ) (l : List R), (cut B bs l).length = bs.length
  | [], _ => rfl
  | b :: bs, l => by rw [cut, List.length_cons, List.length_cons, length_cut B bs]

/-- putting the arrays together again -/
theorem flatten_cut (B : ℕ) : ∀ (bs : List ℕ) (l : List R), total B bs ≤ l.length →
    (((cut B bs l).zip bs).map fun q => flat B q.2 q.1).flatten = l.take (total B bs)
  | [], l, _ => by simp [cut, total]
  | b :: bs, l, h => by
    rw [total, List.map_cons, List.sum_cons, ← total] at h
    rw [cut, List.zip_cons_cons, List.map_cons, List.flatten_cons]
    have h1 : (l.take (B * b)).length = B * b := by rw [List.length_take]; omega
    rw [flat_reshape B b _ h1, flatten_cut B bs _ (by rw [List.length_drop]; omega)]
    have : total B (b :: bs) = B * b + total B bs := by simp [total]
    rw [this, List.take_add]

theorem zip_getD (f : R → R → R) (h0 : f 0 0 = 0) (l v : List R) (h : l.length = v.length) (i : ℕ) :
    (List.zipWith f l v).getD i 0 = f (l.getD i 0) (v.getD i 0) := by
  by_cases hi : i < l.length
  · rw [List.getD_eq_getElem _ _ (by simp; omega), List.getD_eq_getElem _ _ hi, List.getD_eq_getElem _ _ (by omega), List.getElem_zipWith]
  · rw [List.getD_eq_default _ _ (by simp; omega), List.getD_eq_default _ _ (by omega), List.getD_eq_default _ _ (by omega), h0]

/-- arrays of a sum of lists -/
theorem cut_add (B : ℕ) (t : R) : ∀ (bs : List ℕ) (l v : List R), l.length = v.length →
    cut B bs (List.zipWith (fun x y => x + t * y) l v) = List.zipWith (fun W V i c => W i c + t * V i c) (cut B bs l) (cut B bs v)
  | [], _, _, _ => rfl
  | b :: bs, l, v, h => by
    rw [cut, cut, cut, List.zipWith_cons_cons, List.drop_zipWith, List.take_zipWith,
      cut_add B t bs _ _ (by rw [List.length_drop, List.length_drop, h])]
    congr 1
    funext i j
    rw [zip_getD _ (by simp) _ _ (by rw [List.length_take, List.length_take, h])]
    by_cases hx : i < B ∧ j < b
    · simp only [if_pos hx]
    · simp only [if_neg hx]
      simp

theorem sum_zip_flat (B b : ℕ) (G V : ℕ → ℕ → R) :
    (List.zipWith (· * ·) (flat B b G) (flat B b V)).sum = ∑ r ∈ Finset.range B, ∑ c ∈ Finset.range b, G r c * V r c := by
  have h1 : ∀ b (f g : ℕ → R), (List.zipWith (· * ·) ((List.range b).map f) ((List.range b).map g)).sum = ∑ c ∈ Finset.range b, f c * g c := by
    intro b f g
    rw [List.zipWith_map, List.zipWith_self]
    rw [Finset.sum, Finset.range_val, ← Multiset.coe_range, Multiset.map_coe, Multiset.sum_coe]
  induction B with
  | zero => simp [flat]
  | succ B ih =>
    rw [Finset.sum_range_succ, ← ih, flat, flat, List.range_succ, List.flatMap_append, List.flatMap_append, List.zipWith_append, List.sum_append]
    · congr 1
      simp only [List.flatMap_cons, List.flatMap_nil, List.append_nil]
      exact h1 b _ _
    · have := length_flat B b G
      have h2 := length_flat B b V
      rw [flat] at this h2
      rw [this, h2]

/-- the sum of the products of two flat lists of arrays -/
theorem sum_zip_flatten (B : ℕ) : ∀ (bs : List ℕ) (Gs Vs : List (ℕ → ℕ → R)), Gs.length = bs.length → Vs.length = bs.length →
    (List.zipWith (· * ·) ((Gs.zip bs).map fun q => flat B q.2 q.1).flatten ((Vs.zip bs).map fun q => flat B q.2 q.1).flatten).sum =
      (List.zipWith (fun (q : (ℕ → ℕ → R) × ℕ) (V : ℕ → ℕ → R) => ∑ r ∈ Finset.range B, ∑ c ∈ Finset.range q.2, q.1 r c * V r c) (Gs.zip bs) Vs).sum
  | [], Gs, Vs, h1, h2 => by simp
  | b :: bs, [], Vs, h1, h2 => by simp at h1
  | b :: bs, G :: Gs, [], h1, h2 => by simp at h2
  | b :: bs, G :: Gs, V :: Vs, h1, h2 => by
    rw [List.zip_cons_cons, List.zip_cons_cons, List.map_cons, List.map_cons, List.flatten_cons, List.flatten_cons,
      List.zipWith_append (by rw [length_flat, length_flat]), List.sum_append, sum_zip_flat,
      sum_zip_flatten B bs Gs Vs (by simpa using h1) (by simpa using h2), List.zipWith_cons_cons, List.sum_cons]

theorem length_flatten_flat (B : ℕ) : ∀ (bs : List ℕ) (Gs : List (ℕ → ℕ → R)), Gs.length = bs.length →
    ((Gs.zip bs).map fun q => flat B q.2 q.1).flatten.length = total B bs
  | [], Gs, _ => by simp [total]
  | b :: bs, [], h => by simp at h
  | b :: bs, G :: Gs, h => by
    rw [List.zip_cons_cons, List.map_cons, List.flatten_cons, List.length_append, length_flat, length_flatten_flat B bs Gs (by simpa using h)]
    simp [total]

end Fanpy.RBM
