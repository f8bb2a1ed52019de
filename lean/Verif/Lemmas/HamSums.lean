import Verif.Model.Hamiltonian
import Verif.Lemmas.SdPair
import Verif.Lemmas.SlaterCondonSums
import Mathlib.Algebra.BigOperators.Group.Finset.Basic
import Mathlib.Tactic.LinearCombination

/-!
# Sums over index lists used by the Hamiltonians
-/

namespace Fanpy.Lemmas
open Finset Fanpy.Spec Fanpy.Slater Fanpy.Props Fanpy.Ham

variable {R : Type} [CommRing R]

theorem list_sum_eq {l : List ℕ} (hl : l.Nodup) (f : ℕ → R) : (l.map f).sum = ∑ i ∈ l.toFinset, f i :=
  (List.sum_toFinset f hl).symm

theorem fullSum_eq {l1 l2 : List ℕ} (h1 : l1.Nodup) (h2 : l2.Nodup) (f : ℕ → ℕ → R) :
    fullSum f l1 l2 = ∑ i ∈ l1.toFinset, ∑ j ∈ l2.toFinset, f i j := by
  rw [fullSum, list_sum_eq h1]
  exact Finset.sum_congr rfl fun i _ => list_sum_eq h2 _

theorem two_triuSum (f : ℕ → ℕ → R) (hf : ∀ i j, f i j = f j i) (l : List ℕ) :
    2 * triuSum f l + (l.map (fun i => f i i)).sum = fullSum f l l := by
  induction l with
  | nil => simp [triuSum, fullSum]
  | cons a l ih =>
    have h1 : (l.map (fun i => f i a)).sum = (l.map (f a)).sum := by
      congr 1; exact List.map_congr_left fun i _ => hf i a
    simp only [triuSum, fullSum, List.map_cons, List.sum_cons, List.sum_map_add] at ih ⊢
    rw [h1, ← ih]; ring

theorem triuSum_map (f : ℕ → ℕ → R) (e : ℕ → ℕ) (l : List ℕ) :
    triuSum f (l.map e) = triuSum (fun i j => f (e i) (e j)) l := by
  induction l with
  | nil => rfl
  | cons a l ih => simp only [List.map_cons, triuSum, ih, List.map_map, Function.comp_def]

theorem triuSum_append (f : ℕ → ℕ → R) (l1 l2 : List ℕ) :
    triuSum f (l1 ++ l2) = triuSum f l1 + triuSum f l2 + fullSum f l1 l2 := by
  induction l1 with
  | nil => simp [triuSum, fullSum]
  | cons a l ih =>
    simp only [List.cons_append, triuSum, List.map_append, List.sum_append, ih, fullSum, List.map_cons, List.sum_cons]
    ring

theorem triuSum_congr {f g : ℕ → ℕ → R} {l : List ℕ} (h : ∀ i ∈ l, ∀ j ∈ l, f i j = g i j) : triuSum f l = triuSum g l := by
  induction l with
  | nil => rfl
  | cons a l ih =>
    simp only [triuSum]
    rw [ih fun i hi j hj => h i (List.mem_cons_of_mem _ hi) j (List.mem_cons_of_mem _ hj)]
    congr 2
    exact List.map_congr_left fun j hj => h a List.mem_cons_self j (List.mem_cons_of_mem _ hj)

theorem guardIdx_ok {n : ℕ} {l : List ℕ} (h : ∀ i ∈ l, i < n) : guardIdx n l = .ok () := by
  rw [guardIdx, if_pos (by simpa using h)]

theorem guardIdx_err {n : ℕ} {l : List ℕ} (h : ∃ i ∈ l, n ≤ i) : guardIdx n l = .error .indexError := by
  rw [guardIdx, if_neg (by simpa using h)]

end Fanpy.Lemmas
