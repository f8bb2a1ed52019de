import Verif.Model.Graphs
import Mathlib.Tactic.Common
import Mathlib.Tactic.Ring
import Mathlib.Data.List.Sort

/-! Helper lemmas for `generate_unordered_partition`: the `while` loop visits the bins group by group. -/

namespace Fanpy.Graphs

/-- all ways of adding `x` to one group of equal bins of size `s` -/
def ins (x s : ℕ) : List (List ℕ) → List (List (List ℕ))
  | [] => []
  | b :: g =>
    if b = [] then [[x] :: g]
    else (if b.getLastD 0 < x ∧ b.length < s then [(b ++ [x]) :: g] else []) ++ (ins x s g).map (b :: ·)

/-- all ways of adding `x` to a list of groups -/
def insG (x : ℕ) : List (ℕ × ℕ) → List (List (List ℕ)) → List (List (List (List ℕ)))
  | sn :: spec, g :: gs => (ins x sn.1 g).map (· :: gs) ++ (insG x spec gs).map (g :: ·)
  | _, _ => []

theorem putLast_mid (l r : List (List ℕ)) (b : List ℕ) (x : ℕ) :
    putLast (l ++ b :: r) x l.length = l ++ (b ++ [x]) :: r := by
  simp [putLast]

theorem fillLoop_next (spec : List (ℕ × ℕ)) (part : List (List ℕ)) (last fuel : ℕ) (iB : ℤ) (k s n : ℕ)
    (h : spec[k]? = some (s, n)) (h' : ∀ sn, spec[k + 1]? = some sn → sn.2 ≠ 0) :
    fillLoop spec part last (fuel + 1) iB k ((n : ℤ) - 1) = fillLoop spec part last (fuel + 1) iB (k + 1) (-1) := by
  rw [fillLoop, fillLoop, h]
  rcases h1 : spec[k + 1]? with - | ⟨s', n'⟩
  · simp [h1]
  · have := h' _ h1
    simp only at this
    have e : ¬ ((0 : ℤ) = (n' : ℤ)) := by omega
    simp [h1, e]

/-- the loop at the start of a group: the bins `l` were visited, the groups `post` remain -/
def StateA (x fuel : ℕ) : Prop := ∀ (spre spost : List (ℕ × ℕ)) (l : List (List ℕ)) (post : List (List (List ℕ))),
    (∀ sn ∈ spost, sn.2 ≠ 0) → List.Forall₂ (fun (g : List (List ℕ)) (sn : ℕ × ℕ) => g.length = sn.2) post spost →
    post.flatten.length + 1 ≤ fuel →
    ∃ ks, fillLoop (spre ++ spost) (l ++ post.flatten) x fuel ((l.length : ℤ) - 1) spre.length (-1) = some ks ∧
      ks.map (putLast (l ++ post.flatten) x) = (insG x spost post).map (fun q => l ++ q.flatten)

/-- the loop inside a group: `d` bins of it were visited, the bins `rest` remain -/
def StateB (x fuel : ℕ) : Prop := ∀ (spre : List (ℕ × ℕ)) (s n : ℕ) (spost : List (ℕ × ℕ)) (l : List (List ℕ)) (d : ℕ)
    (rest : List (List ℕ)) (post : List (List (List ℕ))),
    (∀ sn ∈ spost, sn.2 ≠ 0) → d + rest.length = n →
    List.Forall₂ (fun (g : List (List ℕ)) (sn : ℕ × ℕ) => g.length = sn.2) post spost →
    rest.length + post.flatten.length + 1 ≤ fuel →
    ∃ ks, fillLoop (spre ++ (s, n) :: spost) (l ++ rest ++ post.flatten) x fuel ((l.length : ℤ) - 1) spre.length
        ((d : ℤ) - 1) = some ks ∧
      ks.map (putLast (l ++ rest ++ post.flatten) x) =
        (ins x s rest).map (fun r => l ++ r ++ post.flatten) ++
          (insG x spost post).map (fun q => l ++ rest ++ q.flatten)

theorem stateB_ne (x fuel : ℕ) (hA : StateA x fuel) (hB : StateB x fuel) (spre : List (ℕ × ℕ)) (s n : ℕ)
    (spost : List (ℕ × ℕ)) (l : List (List ℕ)) (d : ℕ) (b : List ℕ) (rest : List (List ℕ)) (post : List (List (List ℕ)))
    (hz : ∀ sn ∈ spost, sn.2 ≠ 0) (hd : d + (b :: rest).length = n)
    (hpost : List.Forall₂ (fun (g : List (List ℕ)) (sn : ℕ × ℕ) => g.length = sn.2) post spost)
    (hfuel : (b :: rest).length + post.flatten.length + 1 ≤ fuel + 1) :
    ∃ ks, fillLoop (spre ++ (s, n) :: spost) (l ++ b :: rest ++ post.flatten) x (fuel + 1) ((l.length : ℤ) - 1)
        spre.length ((d : ℤ) - 1) = some ks ∧
      ks.map (putLast (l ++ b :: rest ++ post.flatten) x) =
        (ins x s (b :: rest)).map (fun r => l ++ r ++ post.flatten) ++
          (insG x spost post).map (fun q => l ++ b :: rest ++ q.flatten) := by
  have hspec : (spre ++ (s, n) :: spost)[spre.length]? = some (s, n) := by simp
  simp only [List.length_cons] at hd hfuel
  have hput : putLast (l ++ b :: rest ++ post.flatten) x l.length = l ++ (b ++ [x]) :: rest ++ post.flatten := by
    rw [List.append_assoc, List.cons_append, putLast_mid]; simp
  have hpart : (l ++ b :: rest ++ post.flatten)[((l.length : ℤ) - 1 + 1).toNat]? = some b := by
    simp
  rw [fillLoop, hspec]
  have e1 : (d : ℤ) - 1 + 1 = d := by omega
  have e2 : ¬ ((d : ℤ) = (n : ℤ)) := by omega
  simp only [e1, e2, decide_false, Bool.false_eq_true, if_false, hspec, hpart]
  rcases hb : b.getLast? with - | top
  · have hbn : b = [] := by simpa using hb
    subst hbn
    simp only
    by_cases hn : n > 1
    · rw [if_pos hn]
      obtain ⟨ks, h1, h2⟩ := hA (spre ++ [(s, n)]) spost (l ++ [] :: rest) post hz hpost (by omega)
      have e3 : ((l ++ [] :: rest).length : ℤ) - 1 = (l.length : ℤ) - 1 + 1 + ((n : ℤ) - d - 1) := by
        simp; omega
      have e4 : (spre ++ [(s, n)]).length = spre.length + 1 := by simp
      rw [e3, e4, List.append_assoc, List.singleton_append] at h1
      rw [h1]
      refine ⟨_, rfl, ?_⟩
      simp only [List.map_cons, h2, ins, if_true]
      have : ((l.length : ℤ) - 1 + 1).toNat = l.length := by omega
      rw [this, hput]; rfl
    · rw [if_neg hn]
      have hr : rest = [] := by
        have : rest.length = 0 := by omega
        simpa using this
      subst hr
      obtain ⟨ks, h1, h2⟩ := hB spre s n spost (l ++ [[]]) (d + 1) [] post hz (by simp at hd ⊢; omega) hpost
        (by simp at hfuel ⊢; omega)
      have e3 : ((l ++ [[]]).length : ℤ) - 1 = (l.length : ℤ) - 1 + 1 := by simp
      have e4 : ((d + 1 : ℕ) : ℤ) - 1 = d := by omega
      rw [e3, e4, List.append_nil] at h1
      rw [h1]
      refine ⟨_, rfl, ?_⟩
      rw [List.append_nil] at h2
      simp only [List.map_cons, h2, ins, if_true]
      have : ((l.length : ℤ) - 1 + 1).toNat = l.length := by omega
      rw [this, hput]; simp
  · have hbn : b ≠ [] := by rintro rfl; simp at hb
    have htop : b.getLastD 0 = top := by
      rw [List.getLast?_eq_some_getLast hbn, Option.some.injEq] at hb
      rw [List.getLastD_eq_getLast?, List.getLast?_eq_some_getLast hbn, hb]; rfl
    obtain ⟨ks, h1, h2⟩ := hB spre s n spost (l ++ [b]) (d + 1) rest post hz (by omega) hpost (by omega)
    have e3 : ((l ++ [b]).length : ℤ) - 1 = (l.length : ℤ) - 1 + 1 := by simp
    have e4 : ((d + 1 : ℕ) : ℤ) - 1 = d := by omega
    have e5 : l ++ [b] ++ rest = l ++ b :: rest := by simp
    rw [e3, e4, e5] at h1
    rw [e5] at h2
    have this : ((l.length : ℤ) - 1 + 1).toNat = l.length := by omega
    simp only [h1]
    by_cases hc : top < x ∧ b.length < s
    · rw [if_neg (by simpa using hc.1), if_neg (by simpa using hc.2)]
      refine ⟨_, rfl, ?_⟩
      rw [List.map_cons, h2, this, hput, ins, if_neg hbn, htop, if_pos hc]
      simp [List.map_map, Function.comp_def]
    · have : (if ¬ top < x then some ks else if ¬ b.length < s then some ks
          else Option.map (fun x => ((l.length : ℤ) - 1 + 1).toNat :: x) (some ks)) = some ks := by
        by_cases h1 : top < x
        · have h2 : ¬ b.length < s := fun h => hc ⟨h1, h⟩
          rw [if_neg (by simpa using h1), if_pos h2]
        · rw [if_pos h1]
      rw [this]
      refine ⟨_, rfl, ?_⟩
      rw [h2, ins, if_neg hbn, htop, if_neg hc]
      simp [List.map_map, Function.comp_def]

theorem states (x fuel : ℕ) : StateA x fuel ∧ StateB x fuel := by
  induction fuel with
  | zero =>
    refine ⟨?_, ?_⟩
    · intro _ _ _ _ _ _ h; omega
    · intro _ _ _ _ _ _ _ _ _ _ _ h; omega
  | succ fuel ih =>
    have hA : StateA x (fuel + 1) := by
      intro spre spost l post hz hpost hfuel
      cases hpost with
      | nil =>
        refine ⟨[], ?_, by simp [insG]⟩
        rw [fillLoop]
        have : (spre ++ [])[spre.length]? = none := by simp
        rw [this]
      | cons h hrest =>
        rename_i g sn post' spost'
        obtain ⟨s, n⟩ := sn
        simp only at h
        have hn : n ≠ 0 := hz (s, n) (by simp)
        rcases g with - | ⟨b, rest⟩
        · exact absurd h.symm hn
        · have := stateB_ne x fuel ih.1 ih.2 spre s n spost' l 0 b rest post' (fun sn hsn => hz sn (by simp [hsn]))
            (by rw [Nat.zero_add]; exact h) hrest (by simp at hfuel ⊢; omega)
          obtain ⟨ks, h1, h2⟩ := this
          refine ⟨ks, ?_, ?_⟩
          · simpa using h1
          · simp only [List.flatten_cons, ← List.append_assoc]
            rw [h2]
            simp [insG, List.map_map, Function.comp_def]
    refine ⟨hA, ?_⟩
    intro spre s n spost l d rest post hz hd hpost hfuel
    rcases rest with - | ⟨b, rest⟩
    · simp only [List.length_nil, Nat.add_zero] at hd
      subst hd
      rw [fillLoop_next _ _ _ _ _ _ s d (by simp)]
      · obtain ⟨ks, h1, h2⟩ := hA (spre ++ [(s, d)]) spost l post hz hpost (by simpa using hfuel)
        refine ⟨ks, ?_, ?_⟩
        · simpa using h1
        · simpa [ins] using h2
      · intro sn hsn
        apply hz
        have : (spre ++ (s, d) :: spost)[spre.length + 1]? = spost[0]? := by
          rw [List.getElem?_append_right (by omega)]; simp
        rw [this] at hsn
        exact List.mem_of_getElem? hsn
    · exact stateB_ne x fuel ih.1 ih.2 spre s n spost l d b rest post hz hd hpost hfuel

theorem fillLoop_spec (x : ℕ) (spec : List (ℕ × ℕ)) (gs : List (List (List ℕ))) (hz : ∀ sn ∈ spec, sn.2 ≠ 0)
    (h : List.Forall₂ (fun (g : List (List ℕ)) (sn : ℕ × ℕ) => g.length = sn.2) gs spec) :
    ∃ ks, fillLoop spec gs.flatten x ((spec.map Prod.snd).sum + spec.length + 1) (-1) 0 (-1) = some ks ∧
      ks.map (putLast gs.flatten x) = (insG x spec gs).map List.flatten := by
  have hl : gs.flatten.length = (spec.map Prod.snd).sum := by
    clear hz
    induction h with
    | nil => rfl
    | cons h1 h2 ih => simp at ih ⊢; rw [h1, ih]
  obtain ⟨ks, h1, h2⟩ := (states x ((spec.map Prod.snd).sum + spec.length + 1)).1 [] spec [] gs hz h (by omega)
  exact ⟨ks, by simpa using h1, by simpa using h2⟩

/-! ## canonical partial partitions -/

/-- empty bins come last, the first elements of the other bins increase -/
def Before (a b : List ℕ) : Prop := b = [] ∨ ∃ h k, a.head? = some h ∧ b.head? = some k ∧ h < k

/-- one group of `n` bins of size at most `s` in canonical form -/
structure CanonG (s n : ℕ) (g : List (List ℕ)) : Prop where
  len : g.length = n
  size : ∀ b ∈ g, b.length ≤ s
  sorted : ∀ b ∈ g, b.Pairwise (· < ·)
  order : g.Pairwise Before

theorem mem_ins {x s : ℕ} {g q : List (List ℕ)} : q ∈ ins x s g ↔ ∃ l b r, g = l ++ b :: r ∧ q = l ++ (b ++ [x]) :: r ∧
    (∀ a ∈ l, a ≠ []) ∧ (b ≠ [] → b.getLastD 0 < x ∧ b.length < s) := by
  induction g generalizing q with
  | nil => simp [ins]
  | cons b g ih =>
    rw [ins]
    by_cases hb : b = []
    · subst hb
      rw [if_pos rfl, List.mem_singleton]
      constructor
      · rintro rfl; exact ⟨[], [], g, rfl, rfl, by simp, by simp⟩
      · rintro ⟨l, b, r, h1, rfl, h3, h4⟩
        rcases l with - | ⟨a, l⟩
        · simp only [List.nil_append, List.cons.injEq] at h1
          obtain ⟨rfl, rfl⟩ := h1; rfl
        · simp only [List.cons_append, List.cons.injEq] at h1
          exact absurd h1.1.symm (h3 a (by simp))
    · rw [if_neg hb, List.mem_append, List.mem_map]
      constructor
      · rintro (h | ⟨q', h, rfl⟩)
        · split_ifs at h with hc
          · rw [List.mem_singleton] at h
            exact ⟨[], b, g, rfl, h, by simp, fun _ => hc⟩
          · simp at h
        · obtain ⟨l, b', r, rfl, rfl, h3, h4⟩ := ih.1 h
          exact ⟨b :: l, b', r, rfl, rfl, by simpa [hb] using h3, h4⟩
      · rintro ⟨l, b', r, h1, rfl, h3, h4⟩
        rcases l with - | ⟨a, l⟩
        · simp only [List.nil_append, List.cons.injEq] at h1
          obtain ⟨rfl, rfl⟩ := h1
          left; rw [if_pos (h4 hb)]; simp
        · simp only [List.cons_append, List.cons.injEq] at h1
          obtain ⟨rfl, rfl⟩ := h1
          right
          exact ⟨_, ih.2 ⟨l, b', r, rfl, rfl, fun c hc => h3 c (by simp [hc]), h4⟩, rfl⟩

theorem Before.append_right {a b : List ℕ} {x : ℕ} (hb : b ≠ []) (h : Before a b) : Before a (b ++ [x]) := by
  rcases h with h | ⟨u, v, h1, h2, h3⟩
  · exact absurd h hb
  · exact Or.inr ⟨u, v, h1, by simp [h2], h3⟩

theorem Before.append_left {a b : List ℕ} {x : ℕ} (h : Before a b) : Before (a ++ [x]) b := by
  rcases h with h | ⟨u, v, h1, h2, h3⟩
  · exact Or.inl h
  · exact Or.inr ⟨u, v, by simp [h1], h2, h3⟩

theorem getLastD_mem {b : List ℕ} (h : b ≠ []) : b.getLastD 0 ∈ b := by
  rw [List.getLastD_eq_getLast?, List.getLast?_eq_some_getLast h]
  exact List.getLast_mem h

theorem canonG_ins {x s n : ℕ} {g q : List (List ℕ)} (hs : 1 ≤ s) (hc : CanonG s n g) (hx : ∀ b ∈ g, ∀ y ∈ b, y < x)
    (h : q ∈ ins x s g) : CanonG s n q := by
  obtain ⟨l, b, r, rfl, rfl, h3, h4⟩ := mem_ins.1 h
  obtain ⟨c1, c2, c3, c4⟩ := hc
  rw [List.pairwise_append, List.pairwise_cons] at c4
  refine ⟨by simpa using c1, ?_, ?_, ?_⟩
  · intro a ha
    rw [List.mem_append, List.mem_cons] at ha
    rcases ha with ha | rfl | ha
    · exact c2 a (by simp [ha])
    · by_cases hb : b = []
      · subst hb; simpa using hs
      · have := (h4 hb).2; simp; omega
    · exact c2 a (by simp [ha])
  · intro a ha
    rw [List.mem_append, List.mem_cons] at ha
    rcases ha with ha | rfl | ha
    · exact c3 a (by simp [ha])
    · rw [List.pairwise_append]
      refine ⟨c3 b (by simp), by simp, ?_⟩
      intro u hu v hv
      rw [List.mem_singleton] at hv
      subst hv
      exact hx b (by simp) u hu
    · exact c3 a (by simp [ha])
  · rw [List.pairwise_append, List.pairwise_cons]
    refine ⟨c4.1, ⟨?_, c4.2.1.2⟩, ?_⟩
    · intro a ha
      exact (c4.2.1.1 a ha).append_left
    · intro a ha a' ha'
      rw [List.mem_cons] at ha'
      rcases ha' with rfl | ha'
      · by_cases hb : b = []
        · subst hb
          obtain ⟨u, hu⟩ := List.exists_mem_of_ne_nil _ (h3 a ha)
          obtain ⟨v, t, rfl⟩ := List.exists_cons_of_ne_nil (h3 a ha)
          exact Or.inr ⟨v, x, rfl, rfl, hx (v :: t) (by simp [ha]) v (by simp)⟩
        · exact (c4.2.2 a ha b (by simp)).append_right hb
      · exact c4.2.2 a ha a' (by simp [ha'])

theorem ins_flatten {x s : ℕ} {g q : List (List ℕ)} (h : q ∈ ins x s g) : q.flatten.Perm (x :: g.flatten) := by
  obtain ⟨l, b, r, rfl, rfl, -, -⟩ := mem_ins.1 h
  simp only [List.flatten_append, List.flatten_cons, List.append_assoc]
  rw [← List.append_assoc, List.singleton_append, ← List.append_assoc l.flatten]
  exact List.perm_middle

theorem erase_map_of_not_mem {x : ℕ} {l : List (List ℕ)} (h : ∀ b ∈ l, x ∉ b) : l.map (·.erase x) = l := by
  conv_rhs => rw [← List.map_id l]
  apply List.map_congr_left
  intro b hb
  rw [List.erase_of_not_mem (h b hb)]; rfl

theorem ins_erase {x s : ℕ} {g q : List (List ℕ)} (hx : ∀ b ∈ g, x ∉ b) (h : q ∈ ins x s g) :
    q.map (·.erase x) = g := by
  obtain ⟨l, b, r, rfl, rfl, -, -⟩ := mem_ins.1 h
  rw [List.map_append, List.map_cons, erase_map_of_not_mem fun b hb => hx b (by simp [hb]),
    erase_map_of_not_mem fun b hb => hx b (by simp [hb]), List.erase_append_right _ (hx b (by simp))]
  simp

theorem ins_nodup {x s : ℕ} {g : List (List ℕ)} (hx : ∀ b ∈ g, x ∉ b) : (ins x s g).Nodup := by
  induction g with
  | nil => simp [ins]
  | cons b g ih =>
    rw [ins]
    by_cases hb : b = []
    · rw [if_pos hb]; simp
    · rw [if_neg hb, List.nodup_append]
      refine ⟨by split_ifs <;> simp, ?_, ?_⟩
      · exact (ih fun b hb => hx b (by simp [hb])).map (fun u v h => by simpa using h)
      · intro u hu v hv huv
        subst huv
        split_ifs at hu
        · rw [List.mem_singleton] at hu
          rw [List.mem_map] at hv
          obtain ⟨w, -, rfl⟩ := hv
          simp at hu
        · simp at hu

/-- every canonical group containing `x` arises from the group without `x` -/
theorem ins_complete {x s n : ℕ} {q : List (List ℕ)} (hc : CanonG s n q) (hx : ∀ b ∈ q, ∀ y ∈ b, y ≤ x)
    (hn : q.flatten.Nodup) (hm : x ∈ q.flatten) :
    CanonG s n (q.map (·.erase x)) ∧ q ∈ ins x s (q.map (·.erase x)) := by
  obtain ⟨c1, c2, c3, c4⟩ := hc
  rw [List.mem_flatten] at hm
  obtain ⟨b, hb, hxb⟩ := hm
  obtain ⟨l, r, rfl⟩ := List.append_of_mem hb
  rw [List.flatten_append, List.flatten_cons, List.nodup_append, List.nodup_append] at hn
  have hl : ∀ a ∈ l, x ∉ a := fun a ha hxa =>
    hn.2.2 x (List.mem_flatten.2 ⟨a, ha, hxa⟩) x (by simp [hxb]) rfl
  have hr : ∀ a ∈ r, x ∉ a := fun a ha hxa =>
    hn.2.1.2.2 x hxb x (List.mem_flatten.2 ⟨a, ha, hxa⟩) rfl
  -- x is the last element of its bin
  obtain ⟨b', rfl⟩ : ∃ b', b = b' ++ [x] := by
    have hbne : b ≠ [] := by rintro rfl; simp at hxb
    refine ⟨b.dropLast, ?_⟩
    have h1 := c3 b (by simp)
    have h2 := List.dropLast_append_getLast hbne
    rw [← h2, List.pairwise_append] at h1
    have h3 : b.getLast hbne ≤ x := hx b (by simp) _ (List.getLast_mem _)
    have h4 : b.getLast hbne = x := by
      rw [← h2, List.mem_append] at hxb
      rcases hxb with h | h
      · have := h1.2.2 x h (b.getLast hbne) (by simp); omega
      · simpa using (List.mem_singleton.1 h).symm
    rw [← h4]; exact h2.symm
  have hb3 := c3 (b' ++ [x]) (by simp)
  rw [List.pairwise_append] at hb3
  have hxb' : x ∉ b' := fun h => by have := hb3.2.2 x h x (by simp); omega
  have hlt : ∀ y ∈ b', y < x := fun y hy => hb3.2.2 y hy x (by simp)
  rw [List.map_append, List.map_cons, erase_map_of_not_mem hl, erase_map_of_not_mem hr,
    List.erase_append_right _ hxb']
  have e0 : [x].erase x = [] := by simp
  rw [e0, List.append_nil]
  rw [List.pairwise_append, List.pairwise_cons] at c4
  -- bins before are not empty
  have hlne : ∀ a ∈ l, a ≠ [] := by
    intro a ha
    rcases c4.2.2 a ha (b' ++ [x]) (by simp) with h | ⟨u, v, h1, -, -⟩
    · simp at h
    · rintro rfl; simp at h1
  -- if the bin held only x, the bins after are empty
  have hrne : b' = [] → ∀ a ∈ r, a = [] := by
    rintro rfl a ha
    rcases c4.2.1.1 a ha with h | ⟨u, v, h1, h2, h3⟩
    · exact h
    · simp at h1
      subst h1
      have : v ∈ a := List.mem_of_mem_head? h2
      have := hx a (by simp [ha]) v this
      omega
  refine ⟨⟨by simpa using c1, ?_, ?_, ?_⟩, ?_⟩
  · intro a ha
    rw [List.mem_append, List.mem_cons] at ha
    rcases ha with ha | rfl | ha
    · exact c2 a (by simp [ha])
    · have := c2 (a ++ [x]) (by simp); simp at this; omega
    · exact c2 a (by simp [ha])
  · intro a ha
    rw [List.mem_append, List.mem_cons] at ha
    rcases ha with ha | rfl | ha
    · exact c3 a (by simp [ha])
    · exact hb3.1
    · exact c3 a (by simp [ha])
  · rw [List.pairwise_append, List.pairwise_cons]
    refine ⟨c4.1, ⟨?_, c4.2.1.2⟩, ?_⟩
    · intro a ha
      by_cases hb' : b' = []
      · exact Or.inl (hrne hb' a ha)
      · rcases c4.2.1.1 a ha with h | ⟨u, v, h1, h2, h3⟩
        · exact Or.inl h
        · refine Or.inr ⟨u, v, ?_, h2, h3⟩
          obtain ⟨y, t, rfl⟩ := List.exists_cons_of_ne_nil hb'
          simpa using h1
    · intro a ha a' ha'
      rw [List.mem_cons] at ha'
      rcases ha' with rfl | ha'
      · by_cases hb' : a' = []
        · exact Or.inl hb'
        · rcases c4.2.2 a ha (a' ++ [x]) (by simp) with h | ⟨u, v, h1, h2, h3⟩
          · simp at h
          · refine Or.inr ⟨u, v, h1, ?_, h3⟩
            obtain ⟨y, t, rfl⟩ := List.exists_cons_of_ne_nil hb'
            simpa using h2
      · exact c4.2.2 a ha a' (by simp [ha'])
  · rw [mem_ins]
    refine ⟨l, b', r, rfl, rfl, hlne, fun hb' => ⟨hlt _ (getLastD_mem hb'), ?_⟩⟩
    have := c2 (b' ++ [x]) (by simp)
    simp at this; omega

/-! ## several groups -/

def Canon (spec : List (ℕ × ℕ)) (gs : List (List (List ℕ))) : Prop :=
  List.Forall₂ (fun g (sn : ℕ × ℕ) => CanonG sn.1 sn.2 g) gs spec

def eraseAll (x : ℕ) (gs : List (List (List ℕ))) : List (List (List ℕ)) := gs.map fun g => g.map (·.erase x)

theorem eraseAll_of_not_mem {x : ℕ} {gs : List (List (List ℕ))} (h : x ∉ gs.flatten.flatten) : eraseAll x gs = gs := by
  unfold eraseAll
  conv_rhs => rw [← List.map_id gs]
  apply List.map_congr_left
  intro g hg
  apply erase_map_of_not_mem
  intro b hb hxb
  exact h (List.mem_flatten.2 ⟨b, List.mem_flatten.2 ⟨g, hg, hb⟩, hxb⟩)

theorem insG_sound {x : ℕ} {spec : List (ℕ × ℕ)} (hs : ∀ sn ∈ spec, 1 ≤ sn.1) {gs Q : List (List (List ℕ))}
    (hc : Canon spec gs) (hx : ∀ y ∈ gs.flatten.flatten, y < x) (h : Q ∈ insG x spec gs) :
    Canon spec Q ∧ Q.flatten.flatten.Perm (x :: gs.flatten.flatten) ∧ eraseAll x Q = gs := by
  induction hc generalizing Q with
  | nil => simp [insG] at h
  | cons h1 h2 ih =>
    rename_i g sn gs spec
    rw [insG, List.mem_append, List.mem_map, List.mem_map] at h
    simp only [List.flatten_cons, List.flatten_append, List.mem_append] at hx
    have hxg : ∀ b ∈ g, ∀ y ∈ b, y < x := fun b hb y hy => hx y (Or.inl (List.mem_flatten.2 ⟨b, hb, hy⟩))
    have hxg' : ∀ b ∈ g, x ∉ b := fun b hb hxb => absurd (hxg b hb x hxb) (lt_irrefl _)
    have hxgs : x ∉ gs.flatten.flatten := fun hh => absurd (hx x (Or.inr hh)) (lt_irrefl _)
    rcases h with ⟨q, hq, rfl⟩ | ⟨Q', hQ', rfl⟩
    · refine ⟨List.Forall₂.cons (canonG_ins (hs sn (by simp)) h1 hxg hq) h2, ?_, ?_⟩
      · simp only [List.flatten_cons, List.flatten_append]
        exact (ins_flatten hq).append_right _
      · show (q.map _) :: eraseAll x gs = _
        rw [ins_erase hxg' hq, eraseAll_of_not_mem hxgs]
    · obtain ⟨i1, i2, i3⟩ := ih (fun sn hsn => hs sn (by simp [hsn])) (fun y hy => hx y (Or.inr hy)) hQ'
      refine ⟨List.Forall₂.cons h1 i1, ?_, ?_⟩
      · simp only [List.flatten_cons, List.flatten_append]
        exact (i2.append_left _).trans List.perm_middle
      · show (g.map _) :: eraseAll x Q' = _
        rw [i3, erase_map_of_not_mem hxg']

theorem insG_nodup {x : ℕ} {spec : List (ℕ × ℕ)} {gs : List (List (List ℕ))} (hx : x ∉ gs.flatten.flatten) :
    (insG x spec gs).Nodup := by
  induction gs generalizing spec with
  | nil => cases spec <;> simp [insG]
  | cons g gs ih =>
    rcases spec with - | ⟨sn, spec⟩
    · simp [insG]
    simp only [List.flatten_cons, List.flatten_append, List.mem_append, not_or] at hx
    rw [insG, List.nodup_append]
    refine ⟨?_, ?_, ?_⟩
    · refine (ins_nodup fun b hb hxb => hx.1 (List.mem_flatten.2 ⟨b, hb, hxb⟩)).map (fun u v h => by simpa using h)
    · exact (ih hx.2).map (fun u v h => by simpa using h)
    · intro u hu v hv huv
      subst huv
      rw [List.mem_map] at hu hv
      obtain ⟨q, hq, rfl⟩ := hu
      obtain ⟨w, hw, hwe⟩ := hv
      simp only [List.cons.injEq] at hwe
      have := (ins_flatten hq).mem_iff.2 (List.mem_cons_self)
      rw [← hwe.1] at this
      exact hx.1 this

theorem insG_complete {x : ℕ} {spec : List (ℕ × ℕ)} {Q : List (List (List ℕ))}
    (hc : Canon spec Q) (hx : ∀ y ∈ Q.flatten.flatten, y ≤ x) (hn : Q.flatten.flatten.Nodup)
    (hm : x ∈ Q.flatten.flatten) : Canon spec (eraseAll x Q) ∧ Q ∈ insG x spec (eraseAll x Q) := by
  induction hc with
  | nil => simp at hm
  | cons h1 h2 ih =>
    rename_i g sn gs spec
    simp only [List.flatten_cons, List.flatten_append, List.mem_append] at hx hm hn
    rw [List.nodup_append] at hn
    by_cases hg : x ∈ g.flatten
    · have hgs : x ∉ gs.flatten.flatten := fun h => hn.2.2 x hg x h rfl
      obtain ⟨i1, i2⟩ := ins_complete h1 (fun b hb y hy => hx y (Or.inl (List.mem_flatten.2 ⟨b, hb, hy⟩))) hn.1 hg
      have e : eraseAll x (g :: gs) = g.map (·.erase x) :: gs := by
        show g.map _ :: eraseAll x gs = _
        rw [eraseAll_of_not_mem hgs]
      rw [e, insG]
      refine ⟨List.Forall₂.cons i1 h2, ?_⟩
      rw [List.mem_append]; left
      exact List.mem_map.2 ⟨g, i2, rfl⟩
    · obtain ⟨i1, i2⟩ := ih (fun y hy => hx y (Or.inr hy)) hn.2.1 (hm.resolve_left hg)
      have e : eraseAll x (g :: gs) = g :: eraseAll x gs := by
        show g.map _ :: eraseAll x gs = _
        rw [erase_map_of_not_mem]
        intro b hb hxb; exact hg (List.mem_flatten.2 ⟨b, hb, hxb⟩)
      rw [e, insG]
      refine ⟨List.Forall₂.cons h1 i1, ?_⟩
      rw [List.mem_append]; right
      exact List.mem_map.2 ⟨gs, i2, rfl⟩

end Fanpy.Graphs
