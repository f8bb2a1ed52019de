import Verif.Model.Graphs
import Verif.Spec.Matching
import Verif.Lemmas.Sign

/-! Helper lemmas on perfect matchings. -/

namespace Fanpy.Graphs
open Fanpy.Spec Fanpy.Slater

theorem flatPairs_cons (p : ℕ × ℕ) (S : Scheme) : flatPairs (p :: S) = p.1 :: p.2 :: flatPairs S := rfl
theorem flatPairs_append (S T : Scheme) : flatPairs (S ++ T) = flatPairs S ++ flatPairs T := by
  simp [flatPairs]

theorem edges_cons (p : ℕ × ℕ) (S : Scheme) : edges (p :: S) = insert s(p.1, p.2) (edges S) := by
  simp [edges]
theorem edges_append (S T : Scheme) : edges (S ++ T) = edges S ∪ edges T := by simp [edges]

theorem mem_flatPairs_of_edge {S : Scheme} {e : Sym2 ℕ} (he : e ∈ edges S) {x : ℕ} (hx : x ∈ e) :
    x ∈ flatPairs S := by
  simp only [edges, List.mem_toFinset, List.mem_map] at he
  obtain ⟨p, hp, rfl⟩ := he
  simp only [flatPairs, List.mem_flatMap]
  refine ⟨p, hp, ?_⟩
  simpa using hx

/-- A scheme that lists every element once is a perfect matching. -/
theorem isPM_edges {S : Scheme} {s : Finset ℕ} (hn : (flatPairs S).Nodup) (hs : (flatPairs S).toFinset = s) :
    IsPM s (edges S) := by
  induction S generalizing s with
  | nil => subst hs; simp [IsPM, edges, flatPairs]
  | cons p S ih =>
    obtain ⟨x, y⟩ := p
    rw [flatPairs_cons] at hn hs
    simp only [List.nodup_cons, List.mem_cons, not_or] at hn
    obtain ⟨⟨hxy, hx⟩, hy, hn⟩ := hn
    obtain ⟨i1, i2⟩ := ih hn rfl
    subst hs
    rw [edges_cons]
    refine ⟨?_, ?_⟩
    · intro e he
      rw [Finset.mem_insert] at he
      rcases he with rfl | he
      · exact ⟨by simpa using hxy, by intro z hz; simp at hz ⊢; tauto⟩
      · refine ⟨(i1 e he).1, fun z hz => ?_⟩
        have := (i1 e he).2 z hz
        simp at this ⊢; tauto
    · have hout : ∀ z, z ∉ flatPairs S → ∀ e ∈ edges S, z ∉ e := fun z hz e he hze =>
        hz (mem_flatPairs_of_edge he hze)
      intro z hz
      simp only [List.toFinset_cons, Finset.mem_insert, List.mem_toFinset] at hz
      rcases hz with rfl | rfl | hz
      · refine ⟨s(z, y), ⟨by simp, by simp⟩, ?_⟩
        rintro e ⟨he, hze⟩
        rw [Finset.mem_insert] at he
        rcases he with rfl | he
        · rfl
        · exact absurd hze (hout _ hx e he)
      · refine ⟨s(x, z), ⟨by simp, by simp⟩, ?_⟩
        rintro e ⟨he, hze⟩
        rw [Finset.mem_insert] at he
        rcases he with rfl | he
        · rfl
        · exact absurd hze (hout _ hy e he)
      · obtain ⟨e, ⟨he, hze⟩, hu⟩ := i2 z (by simpa using hz)
        refine ⟨e, ⟨Finset.mem_insert_of_mem he, hze⟩, ?_⟩
        rintro e' ⟨he', hze'⟩
        rw [Finset.mem_insert] at he'
        rcases he' with rfl | he'
        · simp at hze'
          rcases hze' with rfl | rfl
          · exact absurd hz hx
          · exact absurd hz hy
        · exact hu e' ⟨he', hze'⟩

/-- the matching obtained from `E` by giving the partner of `x` to `b` and joining `x` to `a` -/
def attach (E : Finset (Sym2 ℕ)) (a b x : ℕ) : Finset (Sym2 ℕ) :=
  insert s(x, a) (E.image (Sym2.map fun z => if z = x then b else z))

theorem attach_inj {s : Finset ℕ} {E E' : Finset (Sym2 ℕ)} {a b x x' : ℕ} (ha : a ∉ s) (hb : b ∉ s) (hab : a ≠ b)
    (hE : ∀ e ∈ E, ∀ z ∈ e, z ∈ s) (hE' : ∀ e ∈ E', ∀ z ∈ e, z ∈ s) (hx : x ∈ s ∨ x = b) (hx' : x' ∈ s ∨ x' = b)
    (h : attach E a b x = attach E' a b x') : x = x' ∧ E = E' := by
  have nota : ∀ (E : Finset (Sym2 ℕ)) (x : ℕ), (∀ e ∈ E, ∀ z ∈ e, z ∈ s) → (x ∈ s ∨ x = b) →
      ∀ e ∈ E.image (Sym2.map fun z => if z = x then b else z), a ∉ e := by
    intro E x hE hx e he hae
    rw [Finset.mem_image] at he
    obtain ⟨e', he', rfl⟩ := he
    rw [Sym2.mem_map] at hae
    obtain ⟨z, hz, hza⟩ := hae
    split_ifs at hza with hzx
    · exact hab hza.symm
    · subst hza; exact ha (hE e' he' _ hz)
  have hxx : x = x' := by
    have h1 : s(x, a) ∈ attach E' a b x' := by rw [← h]; simp [attach]
    rw [attach, Finset.mem_insert] at h1
    rcases h1 with h1 | h1
    · rw [Sym2.eq_iff] at h1
      rcases h1 with h1 | h1
      · exact h1.1
      · exact h1.1.trans h1.2
    · exact absurd (by simp) (nota E' x' hE' hx' _ h1)
  subst hxx
  refine ⟨rfl, ?_⟩
  have himg : E.image (Sym2.map fun z => if z = x then b else z) =
      E'.image (Sym2.map fun z => if z = x then b else z) := by
    have e1 : (attach E a b x).erase s(x, a) = E.image (Sym2.map fun z => if z = x then b else z) := by
      rw [attach, Finset.erase_insert]
      intro hm; exact nota E x hE hx _ hm (by simp)
    have e2 : (attach E' a b x).erase s(x, a) = E'.image (Sym2.map fun z => if z = x then b else z) := by
      rw [attach, Finset.erase_insert]
      intro hm; exact nota E' x hE' hx _ hm (by simp)
    rw [← e1, ← e2, h]
  have back : ∀ (E : Finset (Sym2 ℕ)), (∀ e ∈ E, ∀ z ∈ e, z ∈ s) →
      (E.image (Sym2.map fun z => if z = x then b else z)).image (Sym2.map fun z => if z = b then x else z) = E := by
    intro E hE
    rw [Finset.image_image]
    conv_rhs => rw [← Finset.image_id (s := E)]
    apply Finset.image_congr
    intro e he
    simp only [Function.comp, Sym2.map_map, id]
    refine (Sym2.map_congr (g := id) ?_).trans (by rw [Sym2.map_id]; rfl)
    intro z hz
    have hzs := hE e he z hz
    have hzb : z ≠ b := fun e => hb (e ▸ hzs)
    by_cases hzx : z = x
    · simp [hzx]
    · simp [hzx, hzb]
  rw [← back E hE, ← back E' hE', himg]

theorem attach_exists {s : Finset ℕ} {M : Finset (Sym2 ℕ)} {a b : ℕ} (ha : a ∉ s) (hb : b ∉ s) (hab : a ≠ b)
    (hM : IsPM (insert a (insert b s)) M) :
    ∃ x E, (x ∈ s ∨ x = b) ∧ IsPM s E ∧ M = attach E a b x := by
  obtain ⟨h1, h2⟩ := hM
  obtain ⟨e0, ⟨he0, hae0⟩, hu0⟩ := h2 a (by simp)
  obtain ⟨x, rfl⟩ := Sym2.mem_iff_exists.1 hae0
  have hxa : a ≠ x := by simpa using (h1 _ he0).1
  have hxs : x ∈ s ∨ x = b := by
    have := (h1 _ he0).2 x (by simp)
    simp only [Finset.mem_insert] at this
    rcases this with h | h | h
    · exact absurd h.symm hxa
    · exact Or.inr h
    · exact Or.inl h
  -- other edges avoid `a` and `x`
  have hxu : ∀ e ∈ M, x ∈ e → e = s(a, x) := by
    intro e he hxe
    obtain ⟨e1, -, hu1⟩ := h2 x (by simp; tauto)
    rw [hu1 e ⟨he, hxe⟩, hu1 s(a, x) ⟨he0, by simp⟩]
  have hau : ∀ e ∈ M, a ∈ e → e = s(a, x) := fun e he hae => hu0 e ⟨he, hae⟩
  set f : ℕ → ℕ := fun z => if z = b then x else z with hf
  have hE : ∀ e, e ∈ M.erase s(a, x) → e ∈ M ∧ a ∉ e ∧ x ∉ e := by
    intro e he
    rw [Finset.mem_erase] at he
    exact ⟨he.2, fun h => he.1 (hau e he.2 h), fun h => he.1 (hxu e he.2 h)⟩
  refine ⟨x, (M.erase s(a, x)).image (Sym2.map f), hxs, ⟨?_, ?_⟩, ?_⟩
  · intro e he
    rw [Finset.mem_image] at he
    obtain ⟨e', he', rfl⟩ := he
    obtain ⟨m1, m2, m3⟩ := hE e' he'
    refine ⟨?_, ?_⟩
    · induction e' with
      | h u v =>
        have huv : u ≠ v := by simpa using (h1 _ m1).1
        simp only [Sym2.mem_iff, not_or] at m3
        simp only [Sym2.map_mk, Sym2.mk_isDiag_iff, hf]
        intro hh
        split_ifs at hh with p q q
        · exact huv (p.trans q.symm)
        · exact m3.2 hh
        · exact m3.1 hh.symm
        · exact huv hh
    · intro z hz
      rw [Sym2.mem_map] at hz
      obtain ⟨w, hw, rfl⟩ := hz
      simp only [hf]
      split_ifs with hwb
      · rcases hxs with h | h
        · exact h
        · exact absurd (h ▸ hwb ▸ hw) m3
      · have := (h1 _ m1).2 w hw
        simp only [Finset.mem_insert, hwb, false_or] at this
        rcases this with h | h
        · exact absurd (h ▸ hw) m2
        · exact h
  · intro z hz
    have hza : z ≠ a := fun h => ha (h ▸ hz)
    have hzb : z ≠ b := fun h => hb (h ▸ hz)
    by_cases hzx : z = x
    · subst hzx
      obtain ⟨e', ⟨he', hbe'⟩, hu'⟩ := h2 b (by simp)
      refine ⟨Sym2.map f e', ⟨Finset.mem_image_of_mem _ ?_, ?_⟩, ?_⟩
      · rw [Finset.mem_erase]
        refine ⟨?_, he'⟩
        rintro rfl
        simp at hbe'
        rcases hbe' with h | h
        · exact hab h.symm
        · exact hzb h.symm
      · rw [Sym2.mem_map]; exact ⟨b, hbe', by simp [hf]⟩
      · rintro e ⟨he, hze⟩
        rw [Finset.mem_image] at he
        obtain ⟨e'', he'', rfl⟩ := he
        rw [Sym2.mem_map] at hze
        obtain ⟨w, hw, hwz⟩ := hze
        obtain ⟨m1, m2, m3⟩ := hE e'' he''
        simp only [hf] at hwz
        split_ifs at hwz with hwb
        · rw [hu' e'' ⟨m1, hwb ▸ hw⟩]
        · exact absurd (hwz ▸ hw) m3
    · obtain ⟨e', ⟨he', hze'⟩, hu'⟩ := h2 z (by simp [hz])
      refine ⟨Sym2.map f e', ⟨Finset.mem_image_of_mem _ ?_, ?_⟩, ?_⟩
      · rw [Finset.mem_erase]
        refine ⟨?_, he'⟩
        rintro rfl
        simp at hze'
        tauto
      · rw [Sym2.mem_map]; exact ⟨z, hze', by simp [hf, hzb]⟩
      · rintro e ⟨he, hze⟩
        rw [Finset.mem_image] at he
        obtain ⟨e'', he'', rfl⟩ := he
        rw [Sym2.mem_map] at hze
        obtain ⟨w, hw, hwz⟩ := hze
        obtain ⟨m1, m2, m3⟩ := hE e'' he''
        simp only [hf] at hwz
        split_ifs at hwz with hwb
        · exact absurd hwz.symm hzx
        · rw [hu' e'' ⟨m1, hwz ▸ hw⟩]
  · rw [attach, Finset.image_image]
    have : (M.erase s(a, x)).image ((Sym2.map fun z => if z = x then b else z) ∘ Sym2.map f) = M.erase s(a, x) := by
      conv_rhs => rw [← Finset.image_id (s := M.erase s(a, x))]
      apply Finset.image_congr
      intro e he
      obtain ⟨m1, m2, m3⟩ := hE e he
      simp only [Function.comp, Sym2.map_map]
      refine (Sym2.map_congr (g := id) ?_).trans (by rw [Sym2.map_id])
      intro z hz
      simp only [hf, id]
      by_cases hzb : z = b
      · simp [hzb]
      · have : z ≠ x := fun h => m3 (h ▸ hz)
        simp [hzb, this]
    rw [this, Sym2.eq_swap, Finset.insert_erase he0]

end Fanpy.Graphs
