import Verif.Props.Embedding
import Verif.Model.EmbedBulk

/-! # C100: overlaps of embedded wavefunctions with several determinants -/

namespace Fanpy.Props
open Fanpy.Composite Fanpy.Slater Fanpy.Spec

variable {R : Type} [Field R]

/-- when a loop succeeds -/
theorem mapM_ok_iff {α β : Type} {f : α → Except PyErr β} : ∀ {l : List α} {r : List β},
    l.mapM f = .ok r ↔ r.length = l.length ∧ ∀ i (h : i < l.length) (h' : i < r.length), f l[i] = .ok r[i] := by
  intro l
  induction l with
  | nil =>
    intro r
    simp only [List.mapM_nil, pure, Except.pure, Except.ok.injEq, List.length_nil, List.length_eq_zero_iff]
    exact ⟨fun h => ⟨h.symm, fun i h => absurd h (Nat.not_lt_zero i)⟩, fun h => h.1.symm⟩
  | cons a l ih =>
    intro r
    rw [List.mapM_cons]
    constructor
    · intro h
      simp only [bind, Except.bind] at h
      rcases ha : f a with e | b
      · rw [ha] at h; cases h
      rw [ha] at h
      simp only at h
      rcases hl : l.mapM f with e | bs
      · rw [hl] at h; cases h
      rw [hl] at h
      simp only [pure, Except.pure, Except.ok.injEq] at h
      subst h
      obtain ⟨h1, h2⟩ := ih.1 hl
      refine ⟨by simp [h1], fun i h h' => ?_⟩
      rcases i with - | i
      · exact ha
      · exact h2 i (by simpa using h) (by simpa using h')
    · rintro ⟨h1, h2⟩
      rcases r with - | ⟨b, bs⟩
      · simp at h1
      have ha := h2 0 (by simp) (by simp)
      have hl : l.mapM f = .ok bs := ih.2 ⟨by simpa using h1, fun i h h' => h2 (i + 1) (by simpa using h) (by simpa using h')⟩
      simp only [List.getElem_cons_zero] at ha
      simp only [bind, Except.bind, ha, hl, pure, Except.pure]

theorem bulkColumns_length (c : List (List R)) (n : ℕ) : (columns c n).length = n := by simp [columns]

/-- the rows succeed if and only if the contributions of every determinant do, and their columns are these contributions -/
theorem contribRows_iff {wfns : List (Comp R)} {ls : List (List (Option ℕ))} (hl : ∀ l ∈ ls, l.length = wfns.length)
    (r : List (List R)) :
    ls.mapM (contribs wfns) = .ok r ↔ ∃ c, contribRows wfns ls = .ok c ∧ columns c ls.length = r := by
  have hcon : ∀ (d : ℕ) (h : d < ls.length) (v : List R), contribs wfns ls[d] = .ok v ↔
      v.length = wfns.length ∧ ∀ s (h1 : s < wfns.length) (h2 : s < v.length), overlapOpt wfns[s] (ls[d].getD s none) = .ok v[s] := by
    intro d h v
    have hd := hl _ (List.getElem_mem h)
    rw [contribs, mapM_ok_iff]
    refine and_congr (by rw [List.length_zip, hd, min_self]) ?_
    constructor
    · intro H s h1 h2
      have := H s (by simp [hd, h1]) h2
      rw [List.getElem_zip] at this
      rw [List.getD_eq_getElem _ _ (by omega)]
      exact this
    · intro H s h1 h2
      have h3 : s < wfns.length := by simpa [hd] using h1
      have := H s h3 h2
      rw [List.getD_eq_getElem _ _ (by omega)] at this
      rw [List.getElem_zip]
      exact this
  have hrow : ∀ c, contribRows wfns ls = .ok c ↔ c.length = wfns.length ∧ ∀ s (h1 : s < wfns.length) (h2 : s < c.length),
      c[s].length = ls.length ∧ ∀ d (h : d < ls.length) (h' : d < c[s].length), overlapOpt wfns[s] (ls[d].getD s none) = .ok c[s][d] := by
    intro c
    rw [contribRows, mapM_ok_iff]
    refine and_congr (by rw [List.length_zipIdx]) ?_
    constructor
    · intro H s h1 h2
      have := H s (by simpa using h1) h2
      rw [List.getElem_zipIdx, mapM_ok_iff] at this
      simpa using this
    · intro H s h1 h2
      have := H s (by simpa using h1) h2
      rw [List.getElem_zipIdx, mapM_ok_iff]
      simpa using this
  rw [mapM_ok_iff]
  constructor
  · rintro ⟨h1, h2⟩
    refine ⟨(List.range wfns.length).map fun s => (List.range ls.length).map fun d => (r.getD d []).getD s 0, ?_, ?_⟩
    · rw [hrow]
      refine ⟨by simp, fun s hs hs' => ⟨by simp, fun d hd hd' => ?_⟩⟩
      simp only [List.getElem_map, List.getElem_range]
      have hd2 : d < r.length := by omega
      obtain ⟨h3, h4⟩ := (hcon d hd _).1 (h2 d hd hd2)
      have hs2 : s < r[d].length := by omega
      have := h4 s hs hs2
      rw [this, List.getD_eq_getElem _ _ hd2, List.getD_eq_getElem _ _ hs2]
    · apply List.ext_getElem
      · simp [columns, h1]
      · intro d h3 h4
        have hd : d < ls.length := by omega
        obtain ⟨h5, -⟩ := (hcon d hd _).1 (h2 d hd h4)
        simp only [columns, List.getElem_map, List.getElem_range, List.map_map]
        apply List.ext_getElem
        · simp [h5]
        · intro s h6 h7
          simp only [List.getElem_map, List.getElem_range, Function.comp]
          rw [List.getD_eq_getElem _ _ (by simpa using hd), List.getElem_map, List.getElem_range, List.getD_eq_getElem _ _ h4,
            List.getD_eq_getElem _ _ h7]
  · rintro ⟨c, hc, rfl⟩
    obtain ⟨h1, h2⟩ := (hrow c).1 hc
    refine ⟨bulkColumns_length _ _, fun d hd hd' => ?_⟩
    rw [hcon]
    simp only [columns, List.getElem_map, List.getElem_range, List.length_map]
    refine ⟨h1, fun s hs hs' => ?_⟩
    obtain ⟨h3, h4⟩ := h2 s hs hs'
    have hd2 : d < c[s].length := by omega
    rw [h4 d hd hd2, List.getD_eq_getElem _ _ hd2]

theorem putElectron_length (ps : List (ℕ × ℕ)) (l : List (Option ℕ)) : (ps.foldl putElectron l).length = l.length := by
  induction ps generalizing l with
  | nil => rfl
  | cons p ps ih => rw [List.foldl_cons, ih, putElectron, List.length_set]

theorem split_length {w : Embed R} {sd : ℕ} {l : List (Option ℕ)} (h : w.split sd = .ok l) : l.length = w.wfns.length := by
  have key : ∀ (is : List ℕ) (l l' : List (Option ℕ)), is.foldlM w.splitStep l = .ok l' → l'.length = l.length := by
    intro is
    induction is with
    | nil =>
      intro l l' h
      simp only [List.foldlM_nil, pure, Except.pure, Except.ok.injEq] at h
      rw [h]
    | cons i is ih =>
      intro l l' h
      rw [List.foldlM_cons] at h
      simp only [bind, Except.bind, Embed.splitStep] at h
      rcases hd : w.dict i with - | ps
      · rw [hd] at h; cases h
      · rw [hd] at h
        rw [ih _ _ h, putElectron_length]
  have := key _ _ _ h
  simpa using this

theorem splitFixed_length {w : Embed R} {nelecs : List ℕ} {sd : ℕ} {l : List (Option ℕ)} (h : w.splitFixed nelecs sd = .ok l) :
    l.length = w.wfns.length := by
  rw [Embed.splitFixed] at h
  simp only [bind, Except.bind] at h
  rcases hs : w.split sd with e | l'
  · rw [hs] at h; cases h
  rw [hs] at h
  simp only at h
  split_ifs at h with hn
  simp only [pure, Except.pure, Except.ok.injEq] at h
  rw [← h, List.length_zipWith, split_length hs]
  omega

/-- a loop over determinants in two steps -/
theorem mapM_two {α β γ : Type} {f : α → Except PyErr β} {g : β → Except PyErr γ} {l : List α} {r : List γ} :
    (l.mapM fun a => f a >>= g) = .ok r ↔ ∃ m, l.mapM f = .ok m ∧ m.mapM g = .ok r := by
  rw [mapM_ok_iff]
  constructor
  · rintro ⟨h1, h2⟩
    have h3 : ∀ i (h : i < l.length), ∃ b, f l[i] = .ok b ∧ g b = .ok (r[i]'(by omega)) := by
      intro i h
      have := h2 i h (by omega)
      simp only [bind, Except.bind] at this
      rcases hf : f l[i] with e | b
      · rw [hf] at this; cases this
      · rw [hf] at this; exact ⟨b, rfl, this⟩
    choose b hb1 hb2 using h3
    refine ⟨List.ofFn fun i : Fin l.length => b i i.2, ?_, ?_⟩
    · rw [mapM_ok_iff]
      exact ⟨by simp, fun i h h' => by rw [List.getElem_ofFn]; exact hb1 i h⟩
    · rw [mapM_ok_iff]
      exact ⟨by simp [h1], fun i h h' => by rw [List.getElem_ofFn]; exact hb2 i (by simpa using h)⟩
  · rintro ⟨m, h1, h2⟩
    obtain ⟨h3, h4⟩ := mapM_ok_iff.1 h1
    obtain ⟨h5, h6⟩ := mapM_ok_iff.1 h2
    refine ⟨by omega, fun i h h' => ?_⟩
    rw [h4 i h (by omega)]
    exact h6 i (by omega) h'

theorem mapM_pure {β γ : Type} {g : β → γ} {m : List β} {r : List γ} :
    (m.mapM fun b => (.ok (g b) : Except PyErr γ)) = .ok r ↔ m.map g = r := by
  rw [mapM_eq_ok (g := g) m fun _ _ => rfl, Except.ok.injEq]

/-- the loop over the determinants of the subsystems, for a function of the contributions -/
theorem contribs_then {γ : Type} {wfns : List (Comp R)} {ls : List (List (Option ℕ))} (hl : ∀ l ∈ ls, l.length = wfns.length)
    (g : List (Option ℕ) → List R → Except PyErr γ) (r : List γ) :
    (ls.mapM fun l => contribs wfns l >>= g l) = .ok r ↔ ∃ c, contribRows wfns ls = .ok c ∧ r.length = ls.length ∧
      ∀ d (h : d < ls.length) (h' : d < r.length), g ls[d] ((columns c ls.length)[d]'(by rw [bulkColumns_length]; exact h)) = .ok r[d] := by
  rw [mapM_ok_iff]
  constructor
  · rintro ⟨h1, h2⟩
    have h3 : ∀ i (h : i < ls.length), ∃ b, contribs wfns ls[i] = .ok b ∧ g ls[i] b = .ok (r[i]'(by omega)) := by
      intro i h
      have := h2 i h (by omega)
      simp only [bind, Except.bind] at this
      rcases hf : contribs wfns ls[i] with e | b
      · rw [hf] at this; cases this
      · rw [hf] at this; exact ⟨b, rfl, this⟩
    choose b hb1 hb2 using h3
    obtain ⟨c, hc, hcol⟩ := (contribRows_iff hl (List.ofFn fun i : Fin ls.length => b i i.2)).1 (by
      rw [mapM_ok_iff]
      exact ⟨by simp, fun i h h' => by rw [List.getElem_ofFn]; exact hb1 i h⟩)
    refine ⟨c, hc, h1, fun d h h' => ?_⟩
    have : (columns c ls.length)[d]'(by rw [bulkColumns_length]; exact h) = b d h := by
      simp only [hcol, List.getElem_ofFn]
    rw [this]
    exact hb2 d h
  · rintro ⟨c, hc, h1, h2⟩
    refine ⟨h1, fun d h h' => ?_⟩
    obtain ⟨-, h3⟩ := mapM_ok_iff.1 ((contribRows_iff hl _).2 ⟨c, hc, rfl⟩)
    rw [h3 d h (by rw [bulkColumns_length]; exact h)]
    exact h2 d h h'

theorem splits_length {w : Embed R} {sds : List ℕ} {ls : List (List (Option ℕ))} (h : sds.mapM w.split = .ok ls) :
    ls.length = sds.length ∧ ∀ l ∈ ls, l.length = w.wfns.length := by
  obtain ⟨h2, h3⟩ := mapM_ok_iff.1 h
  refine ⟨h2, fun l hl => ?_⟩
  obtain ⟨i, hi, rfl⟩ := List.mem_iff_getElem.1 hl
  exact split_length (h3 i (by omega) hi)

theorem splitsFixed_length {w : Embed R} {nelecs : List ℕ} {sds : List ℕ} {ls : List (List (Option ℕ))}
    (h : sds.mapM (w.splitFixed nelecs) = .ok ls) : ls.length = sds.length ∧ ∀ l ∈ ls, l.length = w.wfns.length := by
  obtain ⟨h2, h3⟩ := mapM_ok_iff.1 h
  refine ⟨h2, fun l hl => ?_⟩
  obtain ⟨i, hi, rfl⟩ := List.mem_iff_getElem.1 hl
  exact splitFixed_length (h3 i (by omega) hi)

/-- the products of the columns -/
theorem contribs_prod {wfns : List (Comp R)} {ls : List (List (Option ℕ))} (hl : ∀ l ∈ ls, l.length = wfns.length) (r : List R) :
    (ls.mapM fun l => contribs wfns l >>= fun c => .ok c.prod) = .ok r ↔
      ∃ c, contribRows wfns ls = .ok c ∧ (columns c ls.length).map List.prod = r := by
  rw [contribs_then hl fun _ c => .ok c.prod]
  refine exists_congr fun c => and_congr_right fun hc => ?_
  constructor
  · rintro ⟨h1, h2⟩
    apply List.ext_getElem
    · simp [bulkColumns_length, h1]
    · intro d h3 h4
      rw [List.getElem_map]
      exact Except.ok.inj (h2 d (by omega) h4)
  · rintro rfl
    exact ⟨by simp [bulkColumns_length], fun d h h' => by rw [List.getElem_map]⟩

/-- C100. The overlaps with several determinants are the overlaps with each of them. -/
theorem C100_overlaps_partial (w : Embed R) (sds : List ℕ) (r : List R) :
    w.overlaps sds = .ok (.inr r) ↔ (sds ≠ [] ∧ w.wfns ≠ []) ∧ sds.mapM w.overlap = .ok r := by
  have h1 : sds.mapM w.overlap = .ok r ↔ ∃ ls, sds.mapM w.split = .ok ls ∧ ∃ c, contribRows w.wfns ls = .ok c ∧
      (columns c ls.length).map List.prod = r := by
    have e : w.overlap = fun sd => w.split sd >>= fun l => contribs w.wfns l >>= fun c => .ok c.prod := by
      funext sd; rfl
    rw [e, mapM_two]
    exact exists_congr fun ls => and_congr_right fun hls => contribs_prod (splits_length hls).2 r
  rw [h1, Embed.overlaps]
  simp only [bind, Except.bind]
  rcases hs : sds.mapM w.split with e | ls
  · simp
  simp only [Except.ok.injEq, exists_eq_left']
  by_cases h0 : sds = [] ∨ w.wfns = []
  · rw [if_pos h0]
    constructor
    · intro h; cases h
    · rintro ⟨h, -⟩; rcases h0 with h0 | h0
      · exact absurd h0 h.1
      · exact absurd h0 h.2
  · rw [if_neg h0]
    rw [not_or] at h0
    rcases contribRows w.wfns ls with e | c
    · simp
    · simp [h0, pure, Except.pure]

/-- C100. Without determinants: the number one instead of an empty array; the derivatives and the wavefunctions of fixed numbers
of electrons raise `IndexError`. -/
theorem C100_empty (w : Embed R) (nelecs : List ℕ) (deriv : ℕ × List ℕ) :
    w.overlaps [] = .ok (.inl 1) ∧ w.overlapsFixed nelecs [] = .error .indexError ∧
    w.overlapsFixedDeriv nelecs [] deriv = .error .indexError ∧
    (deriv.1 ∈ w.wfns.map Comp.id → w.overlapsDeriv [] deriv = .error .indexError) := by
  refine ⟨rfl, rfl, rfl, fun h => ?_⟩
  have hk : indexOf w.wfns deriv.1 < w.wfns.length := by
    have := List.idxOf_lt_length_iff.2 h
    simpa [indexOf] using this
  have hc : contribRows w.wfns [] = .ok (w.wfns.zipIdx.map fun _ => []) := by
    rw [contribRows]
    exact mapM_eq_ok _ fun _ _ => rfl
  rw [Embed.overlapsDeriv]
  simp only [List.mapM_nil, pure, Except.pure, bind, Except.bind, hc, List.getElem?_eq_getElem hk, if_true]

/-- **C100 (errors).**  Whenever the overlaps exist, the derivative with respect to a wavefunction that is not a component is a
`ValueError`. -/
theorem C100_unknown (w : Embed R) (sds : List ℕ) (deriv : ℕ × List ℕ) (r : R ⊕ List R) (h : w.overlaps sds = .ok r)
    (hd : deriv.1 ∉ w.wfns.map Comp.id) : w.overlapsDeriv sds deriv = .error .valueError := by
  have hk : w.wfns[indexOf w.wfns deriv.1]? = none := by
    rw [List.getElem?_eq_none_iff]
    have : (w.wfns.map Comp.id).idxOf deriv.1 = (w.wfns.map Comp.id).length := List.idxOf_eq_length_iff.2 hd
    rw [List.length_map] at this
    exact this.ge
  have hc0 : ∀ wfns : List (Comp R), contribRows wfns [] = .ok (wfns.zipIdx.map fun _ => []) := by
    intro wfns
    rw [contribRows]
    exact mapM_eq_ok _ fun _ _ => rfl
  rw [Embed.overlaps] at h
  rw [Embed.overlapsDeriv]
  simp only [bind, Except.bind] at h ⊢
  rcases hls : sds.mapM w.split with e | ls
  · rw [hls] at h; cases h
  · rw [hls] at h
    dsimp only at h ⊢
    have hc : ∃ c, contribRows w.wfns ls = .ok c := by
      by_cases h0 : sds = []
      · subst h0
        have : ls = [] := by
          rw [List.mapM_nil] at hls
          exact (Except.ok.inj hls).symm
        subst this
        exact ⟨_, hc0 _⟩
      · by_cases h1 : w.wfns = []
        · rw [h1]
          exact ⟨_, rfl⟩
        · rw [if_neg (by simp [h0, h1])] at h
          rcases hc : contribRows w.wfns ls with e | c
          · rw [hc] at h; cases h
          · exact ⟨c, rfl⟩
    obtain ⟨c, hc⟩ := hc
    rw [hc]
    dsimp only
    rw [hk]

/-- the derivative of one determinant, for a component -/
theorem derivAt_eq {wfns : List (Comp R)} {l : List (Option ℕ)} (hl : l.length = wfns.length) (c : List R) (deriv : ℕ × List ℕ)
    {wfn : Comp R} (hw : wfns[indexOf wfns deriv.1]? = some wfn) :
    derivAt wfns l c deriv = (match l.getD (indexOf wfns deriv.1) none with
      | some sd => wfn.deriv sd deriv.2
      | none => .error .typeError) >>= fun x => .ok (productRule c (indexOf wfns deriv.1) x) := by
  obtain ⟨hk, hw'⟩ := List.getElem?_eq_some_iff.1 hw
  have hk' : indexOf wfns deriv.1 < l.length := by omega
  rw [derivAt, hw, List.getElem?_eq_getElem hk', List.getD_eq_getElem _ _ hk']
  rcases l[indexOf wfns deriv.1] with - | sd
  · rfl
  · rfl

/-- the derivatives of the rows -/
theorem contribs_deriv {wfns : List (Comp R)} {ls : List (List (Option ℕ))} (hl : ∀ l ∈ ls, l.length = wfns.length)
    (deriv : ℕ × List ℕ) {wfn : Comp R} (hw : wfns[indexOf wfns deriv.1]? = some wfn) (r : List (List R)) :
    (ls.mapM fun l => contribs wfns l >>= fun c => derivAt wfns l c deriv) = .ok r ↔
      ∃ c, contribRows wfns ls = .ok c ∧ ∃ x, derivRows wfn (indexOf wfns deriv.1) deriv.2 ls = .ok x ∧
        List.zipWith (fun col x => productRule col (indexOf wfns deriv.1) x) (columns c ls.length) x = r := by
  rw [contribs_then hl fun l c => derivAt wfns l c deriv]
  refine exists_congr fun c => and_congr_right fun hc => ?_
  constructor
  · rintro ⟨h1, h2⟩
    have h3 : ∀ d (h : d < ls.length), ∃ x, (match ls[d].getD (indexOf wfns deriv.1) none with
        | some sd => wfn.deriv sd deriv.2
        | none => .error .typeError) = .ok x ∧
        productRule ((columns c ls.length)[d]'(by rw [bulkColumns_length]; exact h)) (indexOf wfns deriv.1) x = r[d]'(by omega) := by
      intro d h
      have := h2 d h (by omega)
      rw [derivAt_eq (hl _ (List.getElem_mem h)) _ deriv hw] at this
      revert this
      generalize (match ls[d].getD (indexOf wfns deriv.1) none with
        | some sd => wfn.deriv sd deriv.2
        | none => .error .typeError) = y
      intro this
      rcases y with e | x
      · cases this
      · exact ⟨x, rfl, Except.ok.inj this⟩
    choose x hx1 hx2 using h3
    refine ⟨List.ofFn fun i : Fin ls.length => x i i.2, ?_, ?_⟩
    · rw [derivRows, mapM_ok_iff]
      exact ⟨by simp, fun i h h' => by rw [List.getElem_ofFn]; exact hx1 i h⟩
    · apply List.ext_getElem
      · simp [bulkColumns_length, h1]
      · intro d h4 h5
        rw [List.getElem_zipWith, List.getElem_ofFn]
        exact hx2 d (by omega)
  · rintro ⟨x, hx, rfl⟩
    rw [derivRows, mapM_ok_iff] at hx
    obtain ⟨h1, h2⟩ := hx
    refine ⟨by simp [bulkColumns_length, h1], fun d h h' => ?_⟩
    have h3 := h2 d h (by omega)
    rw [derivAt_eq (hl _ (List.getElem_mem h)) _ deriv hw, List.getElem_zipWith]
    rcases hg : ls[d].getD (indexOf wfns deriv.1) none with - | sd
    · rw [hg] at h3; cases h3
    · rw [hg] at h3
      simp only at h3 ⊢
      rw [h3]
      rfl

/-- C100. The derivatives with several determinants are the derivatives with each of them. -/
theorem C100_derivs_partial (w : Embed R) (sds : List ℕ) (deriv : ℕ × List ℕ) (r : List (List R)) :
    w.overlapsDeriv sds deriv = .ok r ↔
      sds ≠ [] ∧ sds.mapM (fun sd => w.overlapDeriv sd deriv) = .ok r := by
  have e : (fun sd => w.overlapDeriv sd deriv) = fun sd => w.split sd >>= fun l => contribs w.wfns l >>= fun c =>
      derivAt w.wfns l c deriv := by
    funext sd; rfl
  rw [e, mapM_two, Embed.overlapsDeriv]
  simp only [bind, Except.bind]
  rcases hs : sds.mapM w.split with e | ls
  · simp
  simp only [Except.ok.injEq, exists_eq_left']
  obtain ⟨hlen, hl⟩ := splits_length hs
  rcases hw : w.wfns[indexOf w.wfns deriv.1]? with - | wfn
  · constructor
    · intro h
      exfalso
      revert h
      rcases contribRows w.wfns ls with e | c
      · intro h; cases h
      · intro h; cases h
    · rintro ⟨h0, h⟩
      exfalso
      rw [mapM_ok_iff] at h
      have hp : 0 < ls.length := by rw [hlen]; exact List.length_pos_iff.2 h0
      have := h.2 0 hp (by omega)
      revert this
      rcases contribs w.wfns ls[0] with e | c
      · intro h; cases h
      · intro h
        simp only [derivAt, hw] at h
        cases h
  · have key := contribs_deriv hl deriv hw r
    simp only [bind, Except.bind] at key
    rw [key]
    by_cases h0 : sds = []
    · constructor
      · intro h
        revert h
        rcases contribRows w.wfns ls with e | c
        · intro h; cases h
        · intro h; simp only [if_pos h0] at h; cases h
      · intro h; exact absurd h0 h.1
    · rcases contribRows w.wfns ls with e | c
      · simp
      · simp only [if_neg h0, ne_eq, h0, not_false_eq_true, true_and, Except.ok.injEq, exists_eq_left']
        rcases derivRows wfn (indexOf w.wfns deriv.1) deriv.2 ls with e | x
        · simp
        · simp [pure, Except.pure]

/-- filling in the zeros: the loop over the determinants kept, and the loop over all of them -/
theorem spread_iff {α : Type} (zero : α) (f : List (Option ℕ) → Except PyErr α) : ∀ (ls : List (List (Option ℕ))) (r : List α),
    (ls.mapM fun l => if some 0 ∈ l then .ok zero else f l) = .ok r ↔
      ∃ vs, (ls.filter fun l => decide (some 0 ∉ l)).mapM f = .ok vs ∧ spread zero ls vs = r := by
  intro ls
  induction ls with
  | nil =>
    intro r
    simp [spread, pure, Except.pure]
  | cons l ls ih =>
    intro r
    rw [List.mapM_cons]
    by_cases h : some 0 ∈ l
    · rw [List.filter_cons_of_neg (by simpa using h)]
      simp only [if_pos h, spread, bind, Except.bind]
      constructor
      · intro H
        rcases hm : (ls.mapM fun l => if some 0 ∈ l then .ok zero else f l) with e | r'
        · rw [hm] at H; cases H
        · rw [hm] at H
          obtain ⟨vs, h1, h2⟩ := (ih r').1 hm
          exact ⟨vs, h1, by rw [h2]; exact Except.ok.inj H⟩
      · rintro ⟨vs, h1, h2⟩
        rw [(ih _).2 ⟨vs, h1, rfl⟩]
        exact congrArg Except.ok h2
    · rw [List.filter_cons_of_pos (by simpa using h), List.mapM_cons]
      simp only [if_neg h, bind, Except.bind]
      rcases f l with e | v
      · simp
      simp only
      constructor
      · intro H
        rcases hm : (ls.mapM fun l => if some 0 ∈ l then .ok zero else f l) with e | r'
        · rw [hm] at H; cases H
        · rw [hm] at H
          obtain ⟨vs, h1, h2⟩ := (ih r').1 hm
          refine ⟨v :: vs, by rw [h1]; rfl, ?_⟩
          rw [spread, if_neg h, h2]
          exact Except.ok.inj H
      · rintro ⟨vs, h1, h2⟩
        rcases hm : (ls.filter fun l => decide (some 0 ∉ l)).mapM f with e | vs'
        · rw [hm] at h1; cases h1
        · rw [hm] at h1
          have h1 := Except.ok.inj h1
          subst h1
          rw [(ih _).2 ⟨vs', hm, rfl⟩]
          rw [spread, if_neg h] at h2
          exact congrArg Except.ok h2

/-- C100. For fixed numbers of electrons the overlaps with several determinants are the overlaps with each of them. -/
theorem C100_fixed (w : Embed R) (nelecs : List ℕ) (sds : List ℕ) (r : List R) :
    w.overlapsFixed nelecs sds = .ok r ↔ sds ≠ [] ∧ sds.mapM (w.overlapFixed nelecs) = .ok r := by
  have e : w.overlapFixed nelecs = fun sd => w.splitFixed nelecs sd >>= fun l =>
      if some 0 ∈ l then .ok 0 else contribs w.wfns l >>= fun c => .ok c.prod := by
    funext sd; rfl
  rw [e, mapM_two, Embed.overlapsFixed]
  simp only [bind, Except.bind]
  rcases hs : sds.mapM (w.splitFixed nelecs) with e | ls
  · simp
  simp only [Except.ok.injEq, exists_eq_left']
  obtain ⟨-, hl⟩ := splitsFixed_length hs
  have key := spread_iff (0 : R) (fun l => contribs w.wfns l >>= fun c => .ok c.prod) ls r
  simp only [bind, Except.bind] at key
  rw [key]
  by_cases h0 : sds = []
  · rw [if_pos h0]
    constructor
    · intro h; cases h
    · intro h; exact absurd h0 h.1
  · rw [if_neg h0]
    have hl' : ∀ l ∈ ls.filter (fun l => decide (some 0 ∉ l)), l.length = w.wfns.length :=
      fun l h => hl l (List.mem_filter.1 h).1
    have key2 := fun vs => contribs_prod hl' vs
    simp only [bind, Except.bind] at key2
    simp only [key2, ne_eq, h0, not_false_eq_true, true_and]
    rcases contribRows w.wfns (ls.filter fun l => decide (some 0 ∉ l)) with e | c
    · simp
    · simp [pure, Except.pure]

/-- C100. For fixed numbers of electrons: if the derivatives with each of the determinants exist, and one of the determinants has
the given numbers of electrons (or there are no indices), then the derivatives with several determinants are these. -/
theorem C100_fixed_derivs (w : Embed R) (nelecs : List ℕ) (sds : List ℕ) (deriv : ℕ × List ℕ) (r : List (List R))
    (hkept : (∃ sd ∈ sds, ∃ l, w.splitFixed nelecs sd = .ok l ∧ some 0 ∉ l) ∨ (sds ≠ [] ∧ deriv.2 = []))
    (hr : sds.mapM (fun sd => w.overlapFixedDeriv nelecs sd deriv) = .ok r) :
    w.overlapsFixedDeriv nelecs sds deriv = .ok r := by
  have h0 : sds ≠ [] := by
    rcases hkept with ⟨sd, h, -⟩ | h
    · exact List.ne_nil_of_mem h
    · exact h.1
  have e : (fun sd => w.overlapFixedDeriv nelecs sd deriv) = fun sd => w.splitFixed nelecs sd >>= fun l =>
      contribs w.wfns l >>= fun c => if indexOf w.wfns deriv.1 = w.wfns.length then .error .valueError
        else if some 0 ∈ l then .ok (List.replicate deriv.2.length 0) else derivAt w.wfns l c deriv := by
    funext sd; rfl
  rw [e, mapM_two] at hr
  obtain ⟨ls, hs, hr⟩ := hr
  obtain ⟨hlen, hl⟩ := splitsFixed_length hs
  have hp : 0 < ls.length := by rw [hlen]; exact List.length_pos_iff.2 h0
  -- the loop over all determinants, without the contributions of those that are not kept
  have hr' : (ls.mapM fun l => if some 0 ∈ l then .ok (List.replicate deriv.2.length 0) else
      contribs w.wfns l >>= fun c => derivAt w.wfns l c deriv) = .ok r := by
    rw [mapM_ok_iff] at hr ⊢
    refine ⟨hr.1, fun i h h' => ?_⟩
    have := hr.2 i h h'
    simp only [bind, Except.bind] at this ⊢
    rcases hcc : contribs w.wfns ls[i] with e | c
    · rw [hcc] at this; cases this
    · rw [hcc] at this
      by_cases hk : indexOf w.wfns deriv.1 = w.wfns.length
      · simp only [if_pos hk] at this; cases this
      · simpa only [if_neg hk] using this
  have hw : ∃ wfn, w.wfns[indexOf w.wfns deriv.1]? = some wfn := by
    have := (mapM_ok_iff.1 hr).2 0 hp (by rw [(mapM_ok_iff.1 hr).1]; exact hp)
    have hk : indexOf w.wfns deriv.1 ≠ w.wfns.length := by
      intro hk
      simp only [bind, Except.bind] at this
      rcases hcc : contribs w.wfns ls[0] with e | c
      · rw [hcc] at this; cases this
      · simp [hcc, hk] at this
    have h2 : indexOf w.wfns deriv.1 ≤ w.wfns.length := by
      have := List.idxOf_le_length (a := deriv.1) (l := w.wfns.map Comp.id)
      simpa [indexOf] using this
    exact ⟨_, List.getElem?_eq_getElem (by omega)⟩
  obtain ⟨wfn, hw⟩ := hw
  obtain ⟨vs, h1, h2⟩ := (spread_iff _ (fun l => contribs w.wfns l >>= fun c => derivAt w.wfns l c deriv) ls r).1 hr'
  have hl' : ∀ l ∈ ls.filter (fun l => decide (some 0 ∉ l)), l.length = w.wfns.length := fun l h => hl l (List.mem_filter.1 h).1
  have hvs := (mapM_ok_iff.1 h1).1
  obtain ⟨c, hc, x, hx, h3⟩ := (contribs_deriv hl' deriv hw vs).1 h1
  rw [Embed.overlapsFixedDeriv]
  simp only [bind, Except.bind, hs, if_neg h0, hc, hw, hx, h3, Embed.fixedRows, h2]
  rw [if_neg]
  rintro ⟨h4, h5⟩
  rcases hkept with ⟨sd, hsd, l, hl1, hl2⟩ | h
  · obtain ⟨i, hi, rfl⟩ := List.mem_iff_getElem.1 hsd
    have := (mapM_ok_iff.1 hs).2 i hi (by omega)
    rw [this] at hl1
    have hmem : l ∈ ls.filter fun l => decide (some 0 ∉ l) :=
      List.mem_filter.2 ⟨by rw [← Except.ok.inj hl1]; exact List.getElem_mem _, by simpa using hl2⟩
    have := List.length_pos_of_mem hmem
    rw [h4] at hvs
    simp only [List.length_nil] at hvs
    omega
  · rw [h.2] at h5; exact h5 rfl

/-- C100. If no determinant has the given numbers of electrons, the derivatives raise `ValueError` instead of being zero. -/
theorem C100_fixed_derivs_none (w : Embed R) (nelecs : List ℕ) (sds : List ℕ) (deriv : ℕ × List ℕ) (h0 : sds ≠ [])
    (hd : deriv.2 ≠ []) {ls : List (List (Option ℕ))} (hs : sds.mapM (w.splitFixed nelecs) = .ok ls)
    (hnone : ∀ l ∈ ls, some 0 ∈ l) : w.overlapsFixedDeriv nelecs sds deriv = .error .valueError := by
  have hk : ls.filter (fun l => decide (some 0 ∉ l)) = [] := by
    rw [List.filter_eq_nil_iff]
    intro l hl
    simpa using hnone l hl
  have hc : contribRows w.wfns [] = .ok (w.wfns.zipIdx.map fun _ => []) := by
    rw [contribRows]
    exact mapM_eq_ok _ fun _ _ => rfl
  rw [Embed.overlapsFixedDeriv]
  simp only [bind, Except.bind, hs, if_neg h0, hk, hc]
  rcases w.wfns[indexOf w.wfns deriv.1]? with - | wfn
  · rfl
  · simp [derivRows, columns, Embed.fixedRows, pure, Except.pure, hd]

/-- two subsystems: one determinant with two electrons in each of them, and one with one and three -/
example : ∃ w : Embed ℚ, Embed.init 4 8 [[4, 0, 1, 5], [2, 3, 7, 6]]
      [⟨0, 2, 4, fun sd => .ok (sd : ℚ), fun _ (l : List ℕ) => .ok (l.map fun i => (i : ℚ) + 2)⟩,
      ⟨1, 2, 4, fun sd => .ok ((sd : ℚ) + 1), fun _ _ => .ok []⟩] true = .ok w ∧
    w.overlaps [0b10010110, 0b10001101] = .ok (.inr [60, 12]) ∧
    w.overlapsFixed [2, 2] [0b10010110, 0b10001101] = .ok [60, 0] ∧
    w.overlapsDeriv [0b10010110, 0b10001101] (0, [0, 1]) = .ok [[20, 30], [24, 36]] ∧
    w.overlapsFixedDeriv [2, 2] [0b10010110, 0b10001101] (0, [0, 1]) = .ok [[20, 30], [0, 0]] ∧
    w.overlapFixedDeriv [2, 2] 0b10001101 (0, [0, 1]) = .ok [0, 0] ∧
    w.overlapsFixedDeriv [2, 2] [0b10001101] (0, [0, 1]) = .error .valueError :=
  ⟨⟨4, 8, [[4, 0, 1, 5], [2, 3, 7, 6]], [⟨0, 2, 4, fun sd => .ok (sd : ℚ), fun _ (l : List ℕ) => .ok (l.map fun i => (i : ℚ) + 2)⟩,
      ⟨1, 2, 4, fun sd => .ok ((sd : ℚ) + 1), fun _ _ => .ok []⟩], dictSystemSub [[4, 0, 1, 5], [2, 3, 7, 6]]⟩,
    by rfl, by decide +kernel, by decide +kernel, by decide +kernel, by decide +kernel, by decide +kernel, by decide +kernel⟩

end Fanpy.Props
