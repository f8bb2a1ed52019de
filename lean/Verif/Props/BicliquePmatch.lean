import Verif.Lemmas.Perms
import Verif.Lemmas.Matching
import Mathlib.Data.Finset.SymmDiff

/-! # Property C16: `generate_biclique_pmatch` -/

namespace Fanpy.Props
open Fanpy.Graphs Fanpy.Spec Fanpy.Slater Fanpy.It

theorem permsAux_map {α β : Type*} (f : α → β) (n : ℕ) (l : List α) :
    permsAux n (l.map f) = (permsAux n l).map (List.map f) := by
  induction n generalizing l with
  | zero => simp [permsAux]
  | succ n ih =>
    rw [permsAux_succ, permsAux_succ, List.map_flatMap, List.length_map]
    apply List.flatMap_congr
    intro i hi
    have hi : i < l.length := by simpa using hi
    rw [List.getElem?_eq_getElem hi, List.getElem?_eq_getElem (by simpa using hi)]
    simp only [List.getElem_map, List.map_map]
    rw [List.eraseIdx_map, ih, List.map_map]
    rfl

/-- relabelling does not change relative parities -/
theorem listSign_map_rel {f : ℕ → ℕ} {p l : List ℕ} (h : p.Perm l) (hn : p.Nodup)
    (hf : ∀ x ∈ p, ∀ y ∈ p, f x = f y → x = y) :
    listSign (p.map f) * listSign (l.map f) = listSign p * listSign l := by
  induction h with
  | nil => rfl
  | cons x h ih =>
    rw [List.map_cons, List.map_cons, listSign_cons_rel _ (h.map f), listSign_cons_rel _ h]
    exact ih (List.nodup_cons.1 hn).2 (fun a ha b hb => hf a (by simp [ha]) b (by simp [hb]))
  | swap x y l =>
    have hxy : y ≠ x := by simp at hn; tauto
    have hfxy : f y ≠ f x := fun h => hxy (hf y (by simp) x (by simp) h)
    have e1 := listSign_swap_adjacent [] (l.map f) (f y) (f x) hfxy
    have e2 := listSign_swap_adjacent [] l y x hxy
    simp only [List.nil_append] at e1 e2
    simp only [List.map_cons]
    rw [e1, e2]
    linear_combination (-1 : ℤ) * listSign_sq (f x :: f y :: l.map f) + listSign_sq (x :: y :: l)
  | trans h1 h2 ih1 ih2 =>
    rename_i l₁ l₂ l₃
    have a1 := ih1 hn hf
    have a2 := ih2 (h1.nodup_iff.1 hn) (fun a ha b hb => hf a (h1.mem_iff.2 ha) b (h1.mem_iff.2 hb))
    have s1 := listSign_sq (l₂.map f)
    have s2 := listSign_sq l₂
    calc listSign (l₁.map f) * listSign (l₃.map f)
        = (listSign (l₁.map f) * listSign (l₂.map f)) * (listSign (l₂.map f) * listSign (l₃.map f)) := by
          linear_combination (-(listSign (l₁.map f) * listSign (l₃.map f))) * s1
      _ = (listSign l₁ * listSign l₂) * (listSign l₂ * listSign l₃) := by rw [a1, a2]
      _ = listSign l₁ * listSign l₃ := by linear_combination (listSign l₁ * listSign l₃) * s2

theorem prod_lt_flip {y : ℕ} {a : List ℕ} (h : y ∉ a) :
    (a.map (fun b => if y < b then (-1 : ℤ) else 1)).prod =
      (-1) ^ a.length * (a.map (fun b => if b < y then (-1 : ℤ) else 1)).prod := by
  induction a with
  | nil => simp
  | cons b l ih =>
    simp only [List.mem_cons, not_or] at h
    simp only [List.map_cons, List.prod_cons, ih h.2, List.length_cons, pow_succ]
    rcases lt_or_gt_of_ne h.1 with h | h
    · rw [if_pos h, if_neg h.not_gt]; ring
    · rw [if_neg h.not_gt, if_pos h]; ring

theorem flatPairs_zip_perm {a b : List ℕ} (h : a.length = b.length) : (flatPairs (a.zip b)).Perm (a ++ b) := by
  induction a generalizing b with
  | nil => cases b <;> simp_all [flatPairs]
  | cons x a ih =>
    cases b with
    | nil => simp at h
    | cons y b =>
      rw [List.zip_cons_cons, flatPairs_cons, List.cons_append]
      apply List.Perm.cons
      exact ((ih (by simpa using h)).cons y).trans (List.perm_middle.symm)

/-- parity of the interleaved list: exchanging the second components changes it like the second list itself -/
theorem listSign_flat {a b : List ℕ} (h : a.length = b.length) (hd : ∀ x ∈ b, x ∉ a) :
    ∃ e : ℕ, e = a.length * (a.length - 1) / 2 ∧
      listSign (flatPairs (a.zip b)) = (-1) ^ e * (listSign a * listSign b * crossSign a b) := by
  refine ⟨_, rfl, ?_⟩
  induction a generalizing b with
  | nil => cases b <;> simp_all [flatPairs, listSign, crossSign]
  | cons x a ih =>
    cases b with
    | nil => simp at h
    | cons y b =>
      have h' : a.length = b.length := by simpa using h
      have hd' : ∀ z ∈ b, z ∉ a := fun z hz hza => hd z (by simp [hz]) (by simp [hza])
      have hy : y ∉ a := fun hya => hd y (by simp) (by simp [hya])
      have hperm := flatPairs_zip_perm h'
      have e : (x :: a).length * ((x :: a).length - 1) / 2 = a.length * (a.length - 1) / 2 + a.length := by
        simp only [List.length_cons, Nat.add_sub_cancel]
        rcases Nat.eq_zero_or_pos a.length with h0 | h0
        · simp [h0]
        · obtain ⟨k, hk⟩ : ∃ k, a.length = k + 1 := ⟨a.length - 1, by omega⟩
          rw [hk, Nat.add_sub_cancel, show (k + 1 + 1) * (k + 1) = (k + 1) * k + (k + 1) * 2 by ring,
            Nat.add_mul_div_right _ _ (by norm_num)]
      rw [e, List.zip_cons_cons, flatPairs_cons]
      simp only [listSign, List.map_cons, List.prod_cons, crossSign, ih h' hd', (hperm.map _).prod_eq,
        List.map_append, List.prod_append, List.prod_map_mul, prod_lt_flip hy]
      have hsq : ((-1 : ℤ) ^ a.length) * (-1) ^ a.length = 1 := by rw [← mul_pow]; simp
      rw [pow_add]
      generalize (-1 : ℤ) ^ a.length = u at hsq
      generalize (-1 : ℤ) ^ (a.length * (a.length - 1) / 2) = w
      generalize (a.map fun b => if b < x then (-1 : ℤ) else 1).prod = A
      generalize (b.map fun b => if b < x then (-1 : ℤ) else 1).prod = B
      generalize (a.map fun b => if b < y then (-1 : ℤ) else 1).prod = C
      generalize (b.map fun b => if b < y then (-1 : ℤ) else 1).prod = D
      generalize (a.map fun i => (b.map fun b => if b < i then (-1 : ℤ) else 1).prod).prod = E
      generalize (if y < x then (-1 : ℤ) else 1) = F
      linear_combination (-(w * A * B * C * D * E * F * listSign a * listSign b)) * hsq

theorem listSign_flat_rel {a b b' : List ℕ} (h : a.length = b.length) (hp : b.Perm b') (hd : ∀ x ∈ b, x ∉ a) :
    listSign (flatPairs (a.zip b)) * listSign (flatPairs (a.zip b')) = listSign b * listSign b' := by
  obtain ⟨e, he, h1⟩ := listSign_flat h hd
  obtain ⟨e', he', h2⟩ := listSign_flat (a := a) (b := b') (by rw [h, hp.length_eq])
    (fun x hx => hd x (hp.mem_iff.2 hx))
  have hee : e = e' := by rw [he, he']
  have hc : crossSign a b' = crossSign a b := crossSign_perm_right a hp.symm
  rw [h1, h2, hc, ← hee]
  have s1 : ((-1 : ℤ) ^ e) * (-1) ^ e = 1 := by rw [← mul_pow]; simp
  have s2 := listSign_sq a
  have s3 : crossSign a b * crossSign a b = 1 := by
    have h := listSign_sq (a ++ b)
    rw [listSign_append] at h
    have h2 := listSign_sq b
    linear_combination h - (crossSign a b * crossSign a b * (listSign b * listSign b)) * s2 -
      (crossSign a b * crossSign a b) * h2
  generalize (-1 : ℤ) ^ e = w at *
  linear_combination (listSign a * listSign a * listSign b * listSign b' * (crossSign a b * crossSign a b)) * s1 +
    (listSign b * listSign b' * (crossSign a b * crossSign a b)) * s2 + (listSign b * listSign b') * s3

/-- C16. For two lists of distinct indices of the same positive length with nothing in common,
`generate_biclique_pmatch` terminates and yields the pairings `zip(indices_one, p)` for every arrangement `p` of
`indices_two`, each exactly once (and in the order of `itertools.permutations`), with the sign that `sign_perm` gives
to the flattened pairs. -/
theorem C16_biclique_pmatch (one two : List ℕ) (dec : Bool) (h1 : one.Nodup) (h2 : two.Nodup)
    (hd : ∀ x ∈ two, x ∉ one) (hlen : one.length = two.length) (hpos : 0 < two.length) :
    ∃ out : List (Scheme × ℤ), bicliquePmatch one two none dec = .ok (some out) ∧
      out.map Prod.fst = (perms two).map (fun p => one.zip p) ∧
      (perms two).Nodup ∧ (∀ p, p ∈ perms two ↔ p.Perm two) ∧
      ∀ o ∈ out, signPerm (o.1.flatMap fun ab => [ab.1, ab.2]) none dec = .ok o.2 := by
  have hflat : ∀ p : List ℕ, p.Perm two → (flatPairs (one.zip p)).Nodup ∧
      (flatPairs (one.zip p)).length = 2 * two.length := by
    intro p hp
    have hperm := flatPairs_zip_perm (a := one) (b := p) (by rw [hlen, hp.length_eq])
    rw [hperm.nodup_iff, hperm.length_eq]
    constructor
    · rw [List.nodup_append]
      exact ⟨h1, hp.nodup_iff.2 h2, fun a ha b hb hab => hd b (hp.mem_iff.1 hb) (hab ▸ ha)⟩
    · rw [List.length_append, hp.length_eq, hlen]; omega
  -- `sign_perm` of an arrangement relative to the initial one
  have hsign : ∀ p : List ℕ, p.Perm two → signPerm (flatPairs (one.zip p)) none dec = .ok
      ((if dec then (-1) ^ (2 * two.length * (2 * two.length - 1) / 2) else 1) * listSign (flatPairs (one.zip p))) := by
    intro p hp
    obtain ⟨f1, f2⟩ := hflat p hp
    cases dec with
    | false => rw [signPerm_false _ f1]; simp
    | true => rw [signPerm_true _ f1, listSign_reverse f1, f2]; simp
  obtain ⟨L, hL, hLm⟩ := enum_block two.length two.length (List.range two.length) [] [] 1 (by simp) rfl (by simp)
    List.nodup_range
  simp only [List.nil_append, List.length_nil, forLoop] at hL hLm
  have hlenL : L.length = two.length.factorial := by
    have := congrArg List.length hLm
    simpa [length_permsAux] using this
  obtain ⟨L', rfl, hw⟩ := hL.whileLoop rfl two.length.factorial (le_of_eq hlenL)
  set c : ℤ := if dec then (-1) ^ (2 * two.length * (2 * two.length - 1) / 2) else 1 with hc
  set out : PermState → Scheme × ℤ := fun st => (one.zip (st.indices.map fun i => two.getD i 0),
    st.sign * (c * listSign (flatPairs (one.zip two)))) with hout
  have hrun : bicliquePmatch one two none dec =
      .ok (some ((⟨List.range two.length, desc two.length, 1⟩ :: L').map out)) := by
    have c3 : ¬ (symmDiff one.toFinset two.toFinset).card < (one ++ two).length := by
      have : Disjoint one.toFinset two.toFinset := by
        rw [Finset.disjoint_left]; intro x hx hx'
        exact hd x (List.mem_toFinset.1 hx') (List.mem_toFinset.1 hx)
      rw [this.symmDiff_eq_sup, Finset.sup_eq_union, Finset.card_union_of_disjoint this,
        List.toFinset_card_of_nodup h1, List.toFinset_card_of_nodup h2, List.length_append]
      omega
    simp only [bicliquePmatch, hsign two (List.Perm.refl _), bind, Except.bind, pure, Except.pure]
    rw [if_neg (by omega), if_neg (by omega), if_neg c3]
    simp only [desc] at hw
    rw [hw]
    simp [hout, desc, hc]
  refine ⟨_, hrun, ?_, ?_, ?_, ?_⟩
  · have e : ((⟨List.range two.length, desc two.length, 1⟩ :: L' : List PermState).map out).map Prod.fst =
        ((⟨List.range two.length, desc two.length, 1⟩ :: L' : List PermState).map
          (fun st => (st.indices, st.sign))).map (fun q => one.zip (q.1.map fun i => two.getD i 0)) := by
      rw [List.map_map, List.map_map]; rfl
    rw [e, hLm, List.map_map]
    have htwo : (List.range two.length).map (fun i => two.getD i 0) = two := by
      apply List.ext_getElem
      · simp
      · intro i h1 h2
        rw [List.getElem_map, List.getElem_range, List.getD_eq_getElem _ _ h2]
    have hp : perms two = (permsAux two.length (List.range two.length)).map (List.map fun i => two.getD i 0) := by
      rw [← permsAux_map, htwo]; rfl
    rw [hp, List.map_map]
    rfl
  · exact permsAux_nodup rfl h2
  · exact fun p => mem_permsAux rfl
  · intro o ho
    obtain ⟨st, hst, rfl⟩ := List.mem_map.1 ho
    have hmem : (st.indices, st.sign) ∈ (permsAux two.length (List.range two.length)).map
        (fun p => (p, 1 * (listSign (List.range two.length) * listSign p))) := by
      rw [← hLm]; exact List.mem_map_of_mem hst
    obtain ⟨q, hq, he⟩ := List.mem_map.1 hmem
    rw [mem_permsAux (by simp)] at hq
    injection he with he1 he2
    rw [listSign_sorted List.pairwise_lt_range, one_mul, one_mul] at he2
    have htwo : (List.range two.length).map (fun i => two.getD i 0) = two := by
      apply List.ext_getElem
      · simp
      · intro i h1 h2
        rw [List.getElem_map, List.getElem_range, List.getD_eq_getElem _ _ h2]
    have hp : (q.map fun i => two.getD i 0).Perm two := by
      have := hq.map (fun i => two.getD i 0)
      rwa [htwo] at this
    have hinj : ∀ x ∈ q, ∀ y ∈ q, two.getD x 0 = two.getD y 0 → x = y := by
      intro x hx y hy hxy
      have hx' : x < two.length := by simpa using hq.mem_iff.1 hx
      have hy' : y < two.length := by simpa using hq.mem_iff.1 hy
      rw [List.getD_eq_getElem _ _ hx', List.getD_eq_getElem _ _ hy'] at hxy
      exact (List.Nodup.getElem_inj_iff h2).1 hxy
    have r1 := listSign_map_rel hq (hq.nodup_iff.2 List.nodup_range) hinj
    rw [htwo, listSign_sorted List.pairwise_lt_range, mul_one] at r1
    have r2 := listSign_flat_rel (a := one) (b := q.map fun i => two.getD i 0) (b' := two)
      (by rw [hlen, hp.length_eq]) hp (fun x hx => hd x (hp.mem_iff.1 hx))
    simp only [hout, ← he1, ← he2]
    have : signPerm (flatPairs (one.zip (q.map fun i => two.getD i 0))) none dec = _ := hsign _ hp
    refine this.trans ?_
    congr 1
    have s := listSign_sq (flatPairs (one.zip two))
    rw [← r1, ← r2]
    linear_combination (-(c * listSign (flatPairs (one.zip (q.map fun i => two.getD i 0))))) * s

/-- C16. Empty lists, lists of different lengths, and lists with a repeated or a common index give a single empty
pairing with sign `+1`. -/
theorem C16_degenerate (one two : List ℕ) (dec : Bool)
    (h : one.length = 0 ∨ two.length = 0 ∨ one.length ≠ two.length ∨ ¬ (one ++ two).Nodup) :
    bicliquePmatch one two none dec = .ok (some [([], 1)]) := by
  obtain ⟨s, hs⟩ : ∃ s, signPerm (flatPairs (one.zip two)) none dec = .ok s := ⟨_, rfl⟩
  simp only [bicliquePmatch, hs, bind, Except.bind, pure, Except.pure]
  split_ifs with c1 c2 c3
  · rfl
  · rfl
  · rfl
  · exfalso
    have hnd : ¬ (one ++ two).Nodup := by tauto
    apply hnd
    have hle : (symmDiff one.toFinset two.toFinset) ⊆ (one ++ two).toFinset := by
      intro x hx
      rw [Finset.mem_symmDiff] at hx
      simp only [List.mem_toFinset, List.mem_append] at hx ⊢
      tauto
    have h1 := Finset.card_le_card hle
    have h2 := List.toFinset_card_le (one ++ two)
    have h3 : (one ++ two).toFinset.card = (one ++ two).length := by omega
    exact (Multiset.toFinset_card_eq_card_iff_nodup (m := ((one ++ two : List ℕ) : Multiset ℕ))).1 (by
      simpa using h3)

/-- C16. An `ordered_set` that is not strictly increasing is rejected. -/
theorem C16_rejects (one two o : List ℕ) (dec : Bool) (h : ¬ o.Pairwise (· < ·)) :
    bicliquePmatch one two (some o) dec = .error .valueError := by
  have : strictlyIncreasing o = false := by
    rw [Bool.eq_false_iff, ne_eq, strictlyIncreasing_iff]; exact h
  simp [bicliquePmatch, signPerm, this, bind, Except.bind]

-- 0-3 and 1-2 cross nothing, 0-2 and 1-3 do
example : ∃ out, bicliquePmatch [0, 1] [2, 3] none false = .ok (some out) ∧
    out.map Prod.fst = [[(0, 2), (1, 3)], [(0, 3), (1, 2)]] ∧ out.length = 2 := by
  obtain ⟨out, h, h', -⟩ := C16_biclique_pmatch [0, 1] [2, 3] false (by decide) (by decide) (by decide) rfl (by decide)
  exact ⟨out, h, h'.trans (by decide), by
    have := congrArg List.length h'
    rw [List.length_map] at this
    rw [this]; decide⟩

end Fanpy.Props
