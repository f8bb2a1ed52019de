import Mathlib.Data.List.Sort
import Verif.Lemmas.CCOps
import Verif.Lemmas.Perms
import Verif.Props.UnorderedPartition
import Verif.Props.IntPartition

/-! The enumeration in `generate_possible_exops`. -/

namespace Fanpy.CC
open Fanpy.Spec Fanpy.Slater Fanpy.Graphs Fanpy.It Fanpy.Props

theorem mapM_okE {α β γ ε : Type*} (f : α → Except ε β) (g : γ → α) (h : γ → β) (L : List γ)
    (hf : ∀ c ∈ L, f (g c) = .ok (h c)) : (L.map g).mapM f = .ok (L.map h) := by
  induction L with
  | nil => rfl
  | cons c L ih =>
    rw [List.map_cons, List.mapM_cons, hf c (by simp), ih fun c hc => hf c (by simp [hc])]; rfl

theorem mapM_okE' {α β ε : Type*} (f : α → Except ε β) (h : α → β) (L : List α)
    (hf : ∀ c ∈ L, f c = .ok (h c)) : L.mapM f = .ok (L.map h) := by
  have := mapM_okE f id h L hf
  rwa [List.map_id] at this

/-! ### products of lists -/

theorem mem_productLists {α : Type} {ls : List (List α)} {x : List α} :
    x ∈ productLists ls ↔ List.Forall₂ (· ∈ ·) x ls := by
  induction ls generalizing x with
  | nil => simp [productLists]
  | cons l ls ih =>
    simp only [productLists, List.mem_flatMap, List.mem_map]
    constructor
    · rintro ⟨y, hy, z, hz, rfl⟩
      exact List.Forall₂.cons hy (ih.1 hz)
    · intro h
      cases h with
      | cons h1 h2 => exact ⟨_, h1, _, ih.2 h2, rfl⟩

theorem productLists_nodup {α : Type} {ls : List (List α)} (h : ∀ l ∈ ls, l.Nodup) : (productLists ls).Nodup := by
  induction ls with
  | nil => simp [productLists]
  | cons l ls ih =>
    rw [productLists, List.nodup_flatMap]
    refine ⟨fun x _ => (ih fun l hl => h l (by simp [hl])).map (List.cons_injective), ?_⟩
    refine (h l (by simp)).imp ?_
    intro x y hxy
    rw [Function.onFun, List.disjoint_left]
    intro z hz hz'
    rw [List.mem_map] at hz hz'
    obtain ⟨u, -, rfl⟩ := hz
    obtain ⟨v, -, e⟩ := hz'
    rw [List.cons.injEq] at e
    exact hxy e.1.symm

/-! ### the specification of a partition -/

theorem binSizeNum_sizes (p : List ℕ) : ((binSizeNum p).map Prod.fst).Pairwise (· < ·) := by
  have e : (binSizeNum p).map Prod.fst = p.dedup.mergeSort (fun a b => decide (a ≤ b)) := by
    simp [binSizeNum, Function.comp_def]
  rw [e]
  have h1 : (p.dedup.mergeSort (fun a b => decide (a ≤ b))).Pairwise (fun a b => decide (a ≤ b) = true) :=
    List.pairwise_mergeSort (fun a b c h1 h2 => by simp at *; omega) (fun a b => by simp; omega) _
  have h2 : (p.dedup.mergeSort (fun a b => decide (a ≤ b))).Nodup :=
    (List.mergeSort_perm _ _).nodup_iff.2 p.nodup_dedup
  refine (h1.and h2).imp ?_
  intro a b h
  have := h.1
  simp at this
  have := h.2
  omega

theorem mem_binSizeNum {p : List ℕ} {sn : ℕ × ℕ} : sn ∈ binSizeNum p ↔ sn.1 ∈ p ∧ sn.2 = p.count sn.1 := by
  simp only [binSizeNum, List.mem_map, List.mem_mergeSort, List.mem_dedup]
  constructor
  · rintro ⟨s, hs, rfl⟩; exact ⟨hs, rfl⟩
  · rintro ⟨h1, h2⟩; exact ⟨sn.1, h1, by rw [← h2]⟩

theorem total_binSizeNum (p : List ℕ) : total (binSizeNum p) = p.sum := by
  unfold total binSizeNum
  rw [List.map_map]
  rw [((List.mergeSort_perm p.dedup (fun a b => decide (a ≤ b))).map _).sum_eq]
  rw [Finset.sum_list_count p]
  rw [← List.sum_toFinset _ p.nodup_dedup]
  have : p.dedup.toFinset = p.toFinset := by ext; simp
  rw [this]
  apply Finset.sum_congr rfl
  intro s _
  simp [mul_comm]

theorem binSizeNum_perm {p q : List ℕ} (h : p.Perm q) : binSizeNum p = binSizeNum q := by
  unfold binSizeNum
  have e : p.dedup.mergeSort (fun a b => decide (a ≤ b)) = q.dedup.mergeSort (fun a b => decide (a ≤ b)) := by
    have hp : (p.dedup.mergeSort (fun a b => decide (a ≤ b))).Perm (q.dedup.mergeSort (fun a b => decide (a ≤ b))) :=
      (List.mergeSort_perm _ _).trans ((h.dedup).trans (List.mergeSort_perm _ _).symm)
    have srt : ∀ p : List ℕ, (p.dedup.mergeSort (fun a b => decide (a ≤ b))).Pairwise (fun a b => decide (a ≤ b) = true) :=
      fun p => List.pairwise_mergeSort (fun a b c h1 h2 => by simp at *; omega) (fun a b => by simp; omega) _
    exact hp.eq_of_pairwise (fun a b _ _ h1 h2 => by simp at h1 h2; omega) (srt p) (srt q)
  rw [e]
  exact List.map_congr_left fun s _ => by rw [h.count_eq]

/-! ### full groups -/

/-- a full canonical list of groups -/
abbrev Full (spec : List (ℕ × ℕ)) (Q : List (List (List ℕ))) : Prop :=
  List.Forall₂ (fun g (sn : ℕ × ℕ) => CanonG sn.1 sn.2 g ∧ ∀ b ∈ g, b.length = sn.1) Q spec

/-- groups of the sizes of the specification -/
abbrev Sized (spec : List (ℕ × ℕ)) (Q : List (List (List ℕ))) : Prop :=
  List.Forall₂ (fun (g : List (List ℕ)) (sn : ℕ × ℕ) => g.length = sn.2 ∧ ∀ b ∈ g, b.length = sn.1) Q spec

theorem Full.sized {spec : List (ℕ × ℕ)} {Q : List (List (List ℕ))} (h : Full spec Q) : Sized spec Q :=
  h.imp fun _ _ h => ⟨h.1.len, h.2⟩

theorem sized_filter {spec : List (ℕ × ℕ)} {Q : List (List (List ℕ))} (h : Sized spec Q) (hs : (spec.map Prod.fst).Nodup) :
    List.Forall₂ (fun (g : List (List ℕ)) (sn : ℕ × ℕ) => (Q.flatten.filter fun b => b.length = sn.1) = g) Q spec := by
  induction h with
  | nil => exact List.Forall₂.nil
  | cons h1 h2 ih =>
    rename_i g sn Q spec
    rw [List.map_cons, List.nodup_cons] at hs
    have hne : ∀ b ∈ Q.flatten, b.length ≠ sn.1 := by
      intro b hb e
      obtain ⟨g', hg', hb'⟩ := List.mem_flatten.1 hb
      obtain ⟨i, hi, rfl⟩ := List.mem_iff_getElem.1 hg'
      have hi' : i < spec.length := by rw [← h2.length_eq]; exact hi
      have := (List.forall₂_iff_get.1 h2).2 i hi hi'
      simp only [List.get_eq_getElem] at this
      apply hs.1
      rw [← e, this.2 b hb']
      exact List.mem_map_of_mem (List.getElem_mem _)
    refine List.Forall₂.cons ?_ ?_
    · rw [List.flatten_cons, List.filter_append, List.filter_eq_self.2 (by intro b hb; simpa using h1.2 b hb),
        List.filter_eq_nil_iff.2 (by intro b hb; simpa using hne b hb), List.append_nil]
    · have ih := ih hs.2
      have hsz : ∀ sn' ∈ spec, sn'.1 ≠ sn.1 := fun sn' h e => hs.1 (e ▸ List.mem_map_of_mem h)
      clear hs hne
      have key : ∀ (Q' : List (List (List ℕ))) (spec' : List (ℕ × ℕ)), (∀ sn' ∈ spec', sn'.1 ≠ sn.1) →
          List.Forall₂ (fun (g : List (List ℕ)) (sn : ℕ × ℕ) => (Q.flatten.filter fun b => b.length = sn.1) = g) Q' spec' →
          List.Forall₂ (fun (g' : List (List ℕ)) (sn : ℕ × ℕ) => ((g :: Q).flatten.filter fun b => b.length = sn.1) = g') Q' spec' := by
        intro Q' spec' hsz h
        induction h with
        | nil => exact List.Forall₂.nil
        | cons k1 k2 ih' =>
          rename_i g'' sn'' Q'' spec''
          refine List.Forall₂.cons ?_ (ih' fun s hs => hsz s (by simp [hs]))
          rw [List.flatten_cons, List.filter_append, k1, List.filter_eq_nil_iff.2 (by
            intro b hb
            have := h1.2 b hb
            have := hsz sn'' (by simp)
            simp; omega), List.nil_append]
      exact key Q spec hsz ih

/-- the products of operators for groups of annihilators and groups of creators -/
def prods (Q P : List (List (List ℕ))) : List (List (List ℕ × List ℕ)) :=
  (productLists (List.zipWith (fun a c => (perms c).map fun p => (a, p)) Q P)).map fun excs => excs.flatMap fun e => List.zip e.1 e.2

theorem pairings_ok {spec : List (ℕ × ℕ)} {Q P : List (List (List ℕ))} (hQ : Sized spec Q) (hP : Sized spec P)
    (hs : (spec.map Prod.fst).Nodup) (hn : ∀ sn ∈ spec, 1 ≤ sn.2) : pairings spec Q.flatten P.flatten = .ok (prods Q P) := by
  have hQ' := sized_filter hQ hs
  have hP' := sized_filter hP hs
  have key : ∀ (spec' : List (ℕ × ℕ)) (Q' P' : List (List (List ℕ))), (∀ sn ∈ spec', 1 ≤ sn.2) → Sized spec' Q' → Sized spec' P' →
      List.Forall₂ (fun (g : List (List ℕ)) (sn : ℕ × ℕ) => (Q.flatten.filter fun b => b.length = sn.1) = g) Q' spec' →
      List.Forall₂ (fun (g : List (List ℕ)) (sn : ℕ × ℕ) => (P.flatten.filter fun b => b.length = sn.1) = g) P' spec' →
      (spec'.mapM fun sn => do
        let a ← groupOf Q.flatten sn.1
        let c ← groupOf P.flatten sn.1
        return (perms c).map fun p => (a, p)) = (.ok (List.zipWith (fun a c => (perms c).map fun p => (a, p)) Q' P') : Except PyErr _) := by
    intro spec'
    induction spec' with
    | nil => intro Q' P' _ h1 h2 _ _; cases h1; cases h2; rfl
    | cons sn spec' ih =>
      intro Q' P' hn h1 h2 h3 h4
      cases h1 with
      | cons q1 q2 =>
        cases h2 with
        | cons p1 p2 =>
          cases h3 with
          | cons f1 f2 =>
            cases h4 with
            | cons e1 e2 =>
              have hpos := hn sn (by simp)
              have ne : ∀ {g : List (List ℕ)}, g.length = sn.2 → g ≠ [] := by
                rintro g h rfl; simp at h; omega
              rw [List.mapM_cons, ih _ _ (fun sn h => hn sn (by simp [h])) q2 p2 f2 e2]
              simp only [groupOf, f1, e1, if_neg (ne q1.1), if_neg (ne p1.1), bind, Except.bind, pure, Except.pure, List.zipWith_cons_cons]
  unfold pairings
  rw [key spec Q P hn hQ hP hQ' hP']
  rfl

end Fanpy.CC
