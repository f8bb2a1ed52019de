import Verif.Props.UnorderedPartition

/-! The first partition that `generate_unordered_partition` yields keeps the order of the collection. -/

namespace Fanpy.Graphs

/-- full bins, then one bin that is not full, then empty bins. -/
def Packed (s n : ℕ) (g : List (List ℕ)) : Prop :=
  g.length = n ∧ ∃ l r, g = l ++ r ∧ (∀ b ∈ l, b.length = s) ∧
    (r = [] ∨ ∃ b r', r = b :: r' ∧ b.length < s ∧ ∀ b' ∈ r', b' = [])

theorem ins_head {x s : ℕ} (hs : 1 ≤ s) {b : List ℕ} {r : List (List ℕ)} (hb : b.length < s) (hx : ∀ y ∈ b, y < x) :
    ∀ {l : List (List ℕ)}, (∀ b ∈ l, b.length = s) →
    (ins x s (l ++ b :: r)).head? = some (l ++ (b ++ [x]) :: r)
  | [], _ => by
    rw [List.nil_append, ins]
    by_cases h : b = []
    · rw [if_pos h, h]; simp
    · have hlast : b.getLastD 0 < x := by
        have : b.getLastD 0 ∈ b := by
          rw [List.getLastD_eq_getLast?, List.getLast?_eq_some_getLast h]
          exact List.getLast_mem h
        exact hx _ this
      rw [if_neg h, if_pos (And.intro hlast hb)]
      rfl
  | a :: l, hl => by
    have ha : a.length = s := hl a (by simp)
    have h : a ≠ [] := by rintro rfl; simp at ha; omega
    rw [List.cons_append, ins, if_neg h, if_neg (by omega), List.nil_append, List.head?_map,
      ins_head hs hb hx fun b hb => hl b (by simp [hb])]
    rfl

theorem firstPartition (s n : ℕ) (hs : 1 ≤ s) (hn : 1 ≤ n) : ∀ (c : List ℕ), c.Pairwise (· > ·) → c.length ≤ s * n →
    ∃ g L, unorderedPartitionRev [(s, n)] c = some (g :: L) ∧ Packed s n g ∧ g.flatten = c.reverse := by
  intro c
  induction c with
  | nil =>
    intro _ _
    refine ⟨List.replicate n [], [], by simp [unorderedPartitionRev], ⟨by simp, [], List.replicate n [], by simp,
      by simp, ?_⟩, by simp⟩
    right
    refine ⟨[], List.replicate (n - 1) [], ?_, by simp; omega, fun b hb => List.eq_of_mem_replicate hb⟩
    rw [← List.replicate_succ, Nat.sub_add_cancel hn]
  | cons x c ih =>
    intro hc hl
    rw [List.pairwise_cons] at hc
    obtain ⟨g, L, h1, ⟨hlen, l, r, rfl, hfull, hr⟩, hflat⟩ := ih hc.2 (by simp at hl; omega)
    rcases hr with rfl | ⟨b, r', rfl, hb, hr'⟩
    · exfalso
      have e : (l ++ []).flatten.length = s * n := by
        have : ∀ l : List (List ℕ), (∀ b ∈ l, b.length = s) → l.flatten.length = s * l.length := by
          intro l
          induction l with
          | nil => simp
          | cons a l ih =>
            intro h
            rw [List.flatten_cons, List.length_append, ih fun b hb => h b (by simp [hb]), h a (by simp), List.length_cons]
            ring
        simp only [List.append_nil] at hlen ⊢
        rw [this l hfull, hlen]
      rw [hflat, List.length_reverse] at e
      simp at hl
      omega
    have hxb : ∀ y ∈ b, y < x := by
      intro y hy
      refine hc.1 y ?_
      rw [← List.mem_reverse, ← hflat]
      exact List.mem_flatten.2 ⟨b, by simp, hy⟩
    obtain ⟨ks, k1, k2⟩ := fillLoop_spec x [(s, n)] [l ++ b :: r'] (by simp; omega)
      (List.Forall₂.cons hlen List.Forall₂.nil)
    simp only [List.flatten_cons, List.flatten_nil, List.append_nil] at k1 k2
    have hhead : (ks.map (putLast (l ++ b :: r') x)).head? = some (l ++ (b ++ [x]) :: r') := by
      rw [k2, List.head?_map]
      have : insG x [(s, n)] [l ++ b :: r'] = (ins x s (l ++ b :: r')).map (fun q => [q]) := by
        simp [insG]
      rw [this, List.head?_map, ins_head hs hb hxb hfull]
      simp
    obtain ⟨M, hM, -, -⟩ := Fanpy.Props.rev_spec [(s, n)] (by simpa using hs) (by simpa using hn) (x :: c)
      (List.pairwise_cons.2 hc)
    have hM' := hM
    rw [unorderedPartitionRev, h1] at hM
    change Option.bind (List.mapM _ ((l ++ b :: r') :: L)) (fun parts => some parts.flatten) = _ at hM
    obtain ⟨parts, p1, p2⟩ := Option.bind_eq_some_iff.1 hM
    rw [List.mapM_cons, k1] at p1
    change Option.bind (List.mapM _ L) (fun ps => some (ks.map (putLast (l ++ b :: r') x) :: ps)) = _ at p1
    obtain ⟨ps, q1, q2⟩ := Option.bind_eq_some_iff.1 p1
    injection q2 with q2
    injection p2 with p2
    rcases hk : ks.map (putLast (l ++ b :: r') x) with - | ⟨g', gs⟩
    · rw [hk] at hhead; cases hhead
    · rw [hk] at hhead q2
      injection hhead with hhead
      subst hhead
      subst q2
      refine ⟨l ++ (b ++ [x]) :: r', gs ++ ps.flatten, ?_, ⟨?_, ?_⟩, ?_⟩
      · rw [hM', ← p2]; rfl
      · simpa using hlen
      · by_cases hb' : (b ++ [x]).length = s
        · refine ⟨l ++ [b ++ [x]], r', by simp, ?_, ?_⟩
          · intro a ha
            rcases List.mem_append.1 ha with h | h
            · exact hfull a h
            · rw [List.mem_singleton.1 h]; exact hb'
          · rcases r' with - | ⟨a, r''⟩
            · exact Or.inl rfl
            · refine Or.inr ⟨a, r'', rfl, ?_, fun b' hb' => hr' b' (by simp [hb'])⟩
              rw [hr' a (by simp)]; simp; omega
        · refine ⟨l, (b ++ [x]) :: r', rfl, hfull, Or.inr ⟨b ++ [x], r', rfl, ?_, hr'⟩⟩
          simp at hb' ⊢
          omega
      · have hr0 : r'.flatten = [] := List.flatten_eq_nil_iff.2 hr'
        rw [List.flatten_append, List.flatten_cons, hr0] at hflat ⊢
        rw [List.reverse_cons, ← hflat]
        simp

end Fanpy.Graphs
