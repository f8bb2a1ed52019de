import Verif.Model.RBM
import Mathlib.Tactic.Ring
import Mathlib.Data.List.GetD

/-! # Lemmas about the restricted Boltzmann machine: the loops as recursions over the layers -/

namespace Fanpy.RBM
open Fanpy.Slater

variable {R : Type} [CommRing R]

/-- the output of the layers after the first one -/
def fwd (act : R → R) (B : ℕ) : List (ℕ → ℕ → R) → (ℕ → R) → ℕ → R
  | [], a => a
  | W :: r, a => fwd act B r fun i => act (dot B W a i)

/-- the inputs of the layers -/
def actsOf (act : R → R) (B : ℕ) : List (ℕ → ℕ → R) → (ℕ → R) → List (ℕ → R)
  | [], _ => []
  | W :: r, a => a :: actsOf act B r fun i => act (dot B W a i)

/-- the linear outputs of the layers -/
def linsOf (act : R → R) (B : ℕ) : List (ℕ → ℕ → R) → (ℕ → R) → List (ℕ → R)
  | [], _ => []
  | W :: r, a => dot B W a :: linsOf act B r fun i => act (dot B W a i)

theorem hiddenLayers_eq (act : R → R) (B : ℕ) (Hs : List (ℕ → ℕ → R)) : ∀ a acts lins,
    hiddenLayers act B Hs a acts lins = (fwd act B Hs a, acts ++ actsOf act B Hs a, lins ++ linsOf act B Hs a) := by
  induction Hs with
  | nil => intro a acts lins; simp [hiddenLayers, fwd, actsOf, linsOf]
  | cons W r ih => intro a acts lins; simp [hiddenLayers, fwd, actsOf, linsOf, ih]

theorem length_actsOf (act : R → R) (B : ℕ) (Hs : List (ℕ → ℕ → R)) : ∀ a, (actsOf act B Hs a).length = Hs.length := by
  induction Hs with
  | nil => intro a; rfl
  | cons W r ih => intro a; simp [actsOf, ih]

theorem length_linsOf (act : R → R) (B : ℕ) (Hs : List (ℕ → ℕ → R)) : ∀ a, (linsOf act B Hs a).length = Hs.length := by
  induction Hs with
  | nil => intro a; rfl
  | cons W r ih => intro a; simp [linsOf, ih]

/-- the input of the first layer -/
def inputAt (n : ℕ) (occ : ℕ → Bool) (k : ℕ) : ℕ → R := fun c => if maskAt n occ (k - 1) c then 1 else 0

theorem firstLayer_ok (n : ℕ) (occ : ℕ → Bool) : ∀ (L : List (ℕ × (ℕ → ℕ → R))), (∀ q ∈ L, q.1 ≠ 0) → ∀ out acts,
    firstLayer n occ L out acts = .ok (fun i => out i + (L.map fun q => dot (n ^ q.1) q.2 (inputAt n occ q.1) i).sum,
      acts ++ L.map fun q => inputAt n occ q.1)
  | [], _, out, acts => by simp [firstLayer]
  | (k, W) :: r, h, out, acts => by
    have hk : k ≠ 0 := h (k, W) (by simp)
    rw [firstLayer, inputLayer, if_neg hk]
    simp only [bind, Except.bind]
    have := firstLayer_ok n occ r (fun q hq => h q (by simp [hq])) (fun i => out i + dot (n ^ k) W (inputAt n occ k) i) (acts ++ [inputAt n occ k])
    refine this.trans ?_
    simp [add_assoc]

theorem firstLayer_error (n : ℕ) (occ : ℕ → Bool) : ∀ (L : List (ℕ × (ℕ → ℕ → R))), (∃ q ∈ L, q.1 = 0) → ∀ out acts,
    firstLayer n occ L out acts = .error .indexError
  | [], h, _, _ => by simp at h
  | (k, W) :: r, h, out, acts => by
    rw [firstLayer, inputLayer]
    by_cases hk : k = 0
    · rw [if_pos hk]; rfl
    · rw [if_neg hk]
      simp only [bind, Except.bind]
      apply firstLayer_error
      obtain ⟨q, hq, h0⟩ := h
      rw [List.mem_cons] at hq
      rcases hq with rfl | hq
      · exact absurd h0 hk
      · exact ⟨q, hq, h0⟩

/-- derivative of the output in the input of the layers -/
def jac (act dact : R → R) (B : ℕ) : List (ℕ → ℕ → R) → (ℕ → R) → ℕ → ℕ → R
  | [], _ => fun y r => if y = r then 1 else 0
  | W :: t, a => fun y c => ∑ r ∈ Finset.range B, jac act dact B t (fun i => act (dot B W a i)) y r * dact (dot B W a r) * W r c

/-- derivatives of the output in the parameters of the layers, times `s` -/
def gradsOf (act dact : R → R) (B : ℕ) (s : R) : List (ℕ → ℕ → R) → (ℕ → R) → List (ℕ → ℕ → ℕ → R)
  | [], _ => []
  | W :: t, a => (fun y r c => jac act dact B t (fun i => act (dot B W a i)) y r * dact (dot B W a r) * a c * s) ::
      gradsOf act dact B s t fun i => act (dot B W a i)

theorem length_gradsOf (act dact : R → R) (B : ℕ) (s : R) (Hs : List (ℕ → ℕ → R)) : ∀ a, (gradsOf act dact B s Hs a).length = Hs.length := by
  induction Hs with
  | nil => intro a; rfl
  | cons W r ih => intro a; simp [gradsOf, ih]

theorem foldl_hidden (act dact : R → R) (w : Wfn R) (s : R) : ∀ (Hs : List (ℕ → ℕ → R)) (a : ℕ → R) (o : ℕ) (acts lins : List (ℕ → R)),
    w.orders.length ≤ o → w.params.drop o = Hs → acts.drop o = actsOf act w.nbath Hs a → lins.drop o = linsOf act w.nbath Hs a →
    (List.range' o Hs.length).reverse.foldl (backStep dact w acts lins s) (fun y r => if y = r then 1 else 0, []) =
      (jac act dact w.nbath Hs a, (gradsOf act dact w.nbath s Hs a).reverse)
  | [], _, _, _, _, _, _, _, _ => rfl
  | W :: t, a, o, acts, lins, ho, hp, ha, hl => by
    have hd : ∀ {α : Type} (l : List α) (x : α) (r : List α) (d : α), l.drop o = x :: r → l.getD o d = x ∧ l.drop (o + 1) = r := by
      intro α l x r d h
      constructor
      · have := congrArg List.head? h
        rw [List.head?_drop, List.head?_cons] at this
        rw [List.getD_eq_getElem?_getD, this, Option.getD_some]
      · have := congrArg List.tail h
        rwa [List.tail_drop, List.tail_cons] at this
    obtain ⟨p1, p2⟩ := hd _ _ _ 0 hp
    obtain ⟨a1, a2⟩ := hd _ _ _ 0 (ha.trans rfl : acts.drop o = a :: actsOf act w.nbath t fun i => act (dot w.nbath W a i))
    obtain ⟨l1, l2⟩ := hd _ _ _ 0 (hl.trans rfl : lins.drop o = dot w.nbath W a :: linsOf act w.nbath t fun i => act (dot w.nbath W a i))
    rw [List.length_cons, List.range'_succ, List.reverse_cons, List.foldl_append,
      foldl_hidden act dact w s t _ (o + 1) acts lins (by omega) p2 a2 l2, List.foldl_cons, List.foldl_nil, backStep]
    simp only [p1, a1, l1, if_pos ho, jac, gradsOf, List.reverse_cons]

theorem foldl_first (dact : R → R) (w : Wfn R) (acts lins : List (ℕ → R)) (s : R) (J : ℕ → ℕ → R) : ∀ (n : ℕ), n ≤ w.orders.length →
    ∀ g, (List.range n).reverse.foldl (backStep dact w acts lins s) (J, g) =
      (J, g ++ ((List.range n).map fun i => fun y r c => J y r * dact (lins.getD i 0 r) * acts.getD i 0 c * s).reverse)
  | 0, _, g => by simp
  | n + 1, h, g => by
    have hn : ¬ w.orders.length ≤ n := by omega
    rw [List.range_succ, List.reverse_append, List.reverse_singleton, List.singleton_append, List.foldl_cons, backStep, if_neg hn]
    simp only
    rw [foldl_first dact w acts lins s J n (by omega)]
    simp

/-- all gradients, in the order of the layers -/
theorem grads_eq (act dact : R → R) (w : Wfn R) (s : R) (a z : ℕ → R) (X : List (ℕ → R)) (hX : X.length = w.orders.length)
    (hp : w.orders.length ≤ w.params.length) :
    ((List.range w.params.length).reverse.foldl (backStep dact w (X ++ actsOf act w.nbath (w.params.drop w.orders.length) a)
      ((w.orders.map fun _ => z) ++ linsOf act w.nbath (w.params.drop w.orders.length) a) s) (fun y r => if y = r then 1 else 0, [])).2.reverse =
    (X.map fun x => fun y r c => jac act dact w.nbath (w.params.drop w.orders.length) a y r * dact (z r) * x c * s) ++
      gradsOf act dact w.nbath s (w.params.drop w.orders.length) a := by
  have hr : List.range w.params.length = List.range w.orders.length ++ List.range' w.orders.length (w.params.drop w.orders.length).length := by
    have := List.range'_append_1 (s := 0) (m := w.orders.length) (n := w.params.length - w.orders.length)
    rw [show 0 + w.orders.length = w.orders.length by omega, show w.orders.length + (w.params.length - w.orders.length) = w.params.length by omega]
      at this
    rw [List.length_drop, List.range_eq_range', List.range_eq_range', this]
  rw [hr, List.reverse_append, List.foldl_append,
    foldl_hidden act dact w s (w.params.drop w.orders.length) a w.orders.length _ _ le_rfl rfl (by rw [List.drop_append_of_le_length (by omega),
      List.drop_eq_nil_of_le (by omega), List.nil_append]) (by rw [List.drop_append_of_le_length (by simp),
      List.drop_eq_nil_of_le (by simp), List.nil_append]), foldl_first _ _ _ _ _ _ _ le_rfl]
  simp only [List.reverse_append, List.reverse_reverse]
  congr 1
  apply List.ext_getElem (by simp [hX])
  intro i h1 h2
  simp at h1 h2
  rw [List.getElem_map, List.getElem_map, List.getElem_range]
  rw [List.getD_eq_getElem _ _ (by simp; omega), List.getD_eq_getElem _ _ (by simp; omega), List.getElem_append_left (by simpa using h1),
    List.getElem_append_left h2, List.getElem_map]

end Fanpy.RBM
