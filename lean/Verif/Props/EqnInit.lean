import Verif.Model.EqnInit
import Verif.Props.EqnParams
import Verif.Props.SdList

/-! # Property C92: constructors of the equations -/

namespace Fanpy.Props
open Fanpy.Spec Fanpy.Slater Fanpy.Eqn Fanpy.Lemmas Fanpy.Lemmas.Eqn

/-- a determinant of the wavefunction -/
def InSpace (s : Space) (m : ℕ) : Prop := (occSet m).card = s.nelec ∧ m < 2 ^ s.nspin

/-- the error for an entry of a space -/
noncomputable def ItemError (s : Space) : Item → Option PyErr
  | .sd m => by classical exact if InSpace s m then none else some .valueError
  | _ => some .typeError

theorem checkItem_sd (s : Space) (m : ℕ) :
    (InSpace s m → checkItem s (.sd m) = .ok m) ∧ (¬ InSpace s m → checkItem s (.sd m) = .error .valueError) := by
  have h1 : (occIndices (some m)).length = (occSet m).card := length_occIndices m
  have h2 : ((occIndices (some m)).any fun i => decide (i ≥ s.nspin)) = false ↔ m < 2 ^ s.nspin := by
    rw [lt_two_pow_iff, List.any_eq_false]
    constructor
    · intro h i hi
      have := h i (by rw [mem_occIndices]; exact mem_occSet.1 hi)
      simpa using this
    · intro h i hi
      have := h i (mem_occSet.2 (by rw [mem_occIndices] at hi; exact hi))
      simpa using this
  simp only [checkItem]
  constructor
  · rintro ⟨a, b⟩
    rw [if_neg (by rw [h1]; exact not_not.2 a), if_neg (by rw [h2.2 b]; simp)]
  · intro h
    by_cases a : (occSet m).card = s.nelec
    · rw [if_neg (by rw [h1]; exact not_not.2 a), if_pos]
      by_contra hb
      rw [Bool.not_eq_true] at hb
      exact h ⟨a, h2.1 hb⟩
    · rw [if_pos (by rw [h1]; exact a)]

theorem checkItem_error (s : Space) (x : Item) (e : PyErr) : checkItem s x = .error e ↔ ItemError s x = some e := by
  cases x with
  | sd m =>
    by_cases h : InSpace s m
    · simp [(checkItem_sd s m).1 h, ItemError, h]
    · simp [(checkItem_sd s m).2 h, ItemError, h]
  | ci w => simp [checkItem, ItemError]
  | other => simp [checkItem, ItemError]

theorem checkItem_ok (s : Space) (x : Item) (m : ℕ) : checkItem s x = .ok m ↔ x = .sd m ∧ InSpace s m := by
  cases x with
  | sd m' =>
    by_cases h : InSpace s m'
    · rw [(checkItem_sd s m').1 h]
      simp only [Except.ok.injEq, Item.sd.injEq]
      exact ⟨fun e => ⟨e, e ▸ h⟩, fun e => e.1⟩
    · rw [(checkItem_sd s m').2 h]
      simp only [Item.sd.injEq, reduceCtorEq, false_iff]
      rintro ⟨rfl, h'⟩
      exact h h'
  | ci w => simp [checkItem]
  | other => simp [checkItem]

/-- a list is accepted if it has determinants of the wavefunction only; else the first other entry gives the error -/
theorem checkItems (s : Space) (l : List Item) :
    (∀ r, l.mapM (checkItem s) = .ok r ↔ l = r.map Item.sd ∧ ∀ m ∈ r, InSpace s m) ∧
    ∀ e, l.mapM (checkItem s) = .error e ↔ ∃ (pre : List ℕ) (x : Item) (post : List Item), l = pre.map Item.sd ++ x :: post ∧ (∀ m ∈ pre, InSpace s m) ∧ ItemError s x = some e := by
  induction l with
  | nil =>
    constructor
    · intro r
      simp only [List.mapM_nil, pure, Except.pure, Except.ok.injEq]
      constructor
      · rintro rfl; simp
      · rintro ⟨h, -⟩
        exact (List.map_eq_nil_iff.1 h.symm).symm
    · intro e
      simp [pure, Except.pure]
  | cons x l ih =>
    obtain ⟨i1, i2⟩ := ih
    rw [List.mapM_cons]
    rcases hx : checkItem s x with e' | m
    · have hx' := (checkItem_error s x e').1 hx
      constructor
      · intro r
        simp only [bind, Except.bind, reduceCtorEq, false_iff]
        rintro ⟨h, hr⟩
        cases r with
        | nil => simp at h
        | cons m r =>
          rw [List.map_cons, List.cons.injEq] at h
          rw [(checkItem_ok s x m).2 ⟨h.1, hr m (by simp)⟩] at hx
          simp at hx
      · intro e
        simp only [bind, Except.bind, Except.error.injEq]
        constructor
        · rintro rfl
          exact ⟨[], x, l, rfl, by simp, hx'⟩
        · rintro ⟨pre, y, post, h, hp, he⟩
          cases pre with
          | nil =>
            rw [List.map_nil, List.nil_append, List.cons.injEq] at h
            rw [← h.1, hx'] at he
            exact Option.some.inj he
          | cons m pre =>
            rw [List.map_cons, List.cons_append, List.cons.injEq] at h
            rw [(checkItem_ok s x m).2 ⟨h.1, hp m (by simp)⟩] at hx
            simp at hx
    · obtain ⟨rfl, hm⟩ := (checkItem_ok s x m).1 hx
      rcases hl : l.mapM (checkItem s) with e' | r'
      · constructor
        · intro r
          simp only [bind, Except.bind, reduceCtorEq, false_iff]
          rintro ⟨h, hr⟩
          cases r with
          | nil => simp at h
          | cons m' r =>
            rw [List.map_cons, List.cons.injEq] at h
            have := (i1 r).2 ⟨h.2, fun m hm => hr m (by simp [hm])⟩
            rw [hl] at this; simp at this
        · intro e
          simp only [bind, Except.bind, Except.error.injEq]
          constructor
          · rintro rfl
            obtain ⟨pre, y, post, h, hp, he⟩ := (i2 e').1 hl
            exact ⟨m :: pre, y, post, by rw [h]; rfl, by simpa using ⟨hm, hp⟩, he⟩
          · rintro ⟨pre, y, post, h, hp, he⟩
            cases pre with
            | nil =>
              rw [List.map_nil, List.nil_append, List.cons.injEq] at h
              rw [← h.1, (checkItem_error s _ e).symm, hx] at he
              simp at he
            | cons m' pre =>
              rw [List.map_cons, List.cons_append, List.cons.injEq] at h
              have := (i2 e).2 ⟨pre, y, post, h.2, fun m hm => hp m (by simp [hm]), he⟩
              rw [hl] at this
              exact Except.error.inj this
      · constructor
        · intro r
          simp only [bind, Except.bind, pure, Except.pure, Except.ok.injEq]
          obtain ⟨h1, h2⟩ := (i1 r').1 hl
          constructor
          · rintro rfl
            exact ⟨by rw [h1]; rfl, by simpa using ⟨hm, h2⟩⟩
          · rintro ⟨h, hr⟩
            cases r with
            | nil => simp at h
            | cons m' r =>
              rw [List.map_cons, List.cons.injEq, Item.sd.injEq] at h
              have := (i1 r).2 ⟨h.2, fun m hm => hr m (by simp [hm])⟩
              rw [hl, Except.ok.injEq] at this
              rw [h.1, this]
        · intro e
          simp only [bind, Except.bind, pure, Except.pure, reduceCtorEq, false_iff]
          rintro ⟨pre, y, post, h, hp, he⟩
          cases pre with
          | nil =>
            rw [List.map_nil, List.nil_append, List.cons.injEq] at h
            rw [← h.1, (checkItem_error s _ e).symm, hx] at he
            simp at he
          | cons m' pre =>
            rw [List.map_cons, List.cons_append, List.cons.injEq] at h
            have := (i2 e).2 ⟨pre, y, post, h.2, fun m hm => hp m (by simp [hm]), he⟩
            rw [hl] at this; simp at this

/-- the default space -/
theorem default_space {s : Space} {orders : Option (List ℕ)} {l : List ℕ} (hord : ∀ o ∈ orders, o.Nodup ∧ 0 ∉ o)
    (h : SdList.sdList s.nelec s.nspin none orders s.twoSpin s.seniority false = .ok l) : ∀ m ∈ l, InSpace s m := by
  obtain ⟨g, -, -, h2, -⟩ := C14_sd_list s.nelec s.nspin orders s.twoSpin s.seniority false l h hord
  intro m hm
  have := (h2 m).1 hm
  exact ⟨this.2.1, this.1⟩

/-- what is stored as reference is about the space of the wavefunction -/
def RefOk (s : Space) : RefVal → Prop
  | .sds l => ∀ m ∈ l, InSpace s m
  | .ci _ nelec nspin => nelec = s.nelec ∧ nspin = s.nspin

/-- C92: the reference of the one-sided energy (also of `LocalEnergy`, `NormConstraint` and `EnergyConstraint`) has determinants with the
right number of electrons in the orbitals only, and a CI wavefunction of the right kind.  A list is kept as it is, or the first entry that is
not such a determinant gives the error: a `ValueError` for determinants, a `TypeError` for others. -/
theorem C92_one_sided (s : Space) (arg : SpaceArg) :
    (∀ r, oneRefwfn s arg = .ok r → RefOk s r) ∧
    (∀ l r, arg = .list l → (oneRefwfn s arg = .ok r ↔ ∃ d, l = d.map Item.sd ∧ r = .sds d ∧ ∀ m ∈ d, InSpace s m)) ∧
    (∀ m, arg = .sd m → oneRefwfn s arg = oneRefwfn s (.list [.sd m])) ∧
    ∀ l e, arg = .list l → (oneRefwfn s arg = .error e ↔
      ∃ (pre : List ℕ) (x : Item) (post : List Item), l = pre.map Item.sd ++ x :: post ∧ (∀ m ∈ pre, InSpace s m) ∧ ItemError s x = some e) := by
  have hlist : ∀ l r, oneRefwfn s (.list l) = .ok r ↔ ∃ d, l = d.map Item.sd ∧ r = .sds d ∧ ∀ m ∈ d, InSpace s m := by
    intro l r
    obtain ⟨h1, -⟩ := checkItems s l
    simp only [oneRefwfn]
    rcases hl : l.mapM (checkItem s) with e | d
    · simp only [bind, Except.bind, reduceCtorEq, false_iff]
      rintro ⟨d, hd, -, hd'⟩
      rw [(h1 d).2 ⟨hd, hd'⟩] at hl; simp at hl
    · simp only [bind, Except.bind, pure, Except.pure, Except.ok.injEq]
      obtain ⟨h2, h3⟩ := (h1 d).1 hl
      constructor
      · rintro rfl; exact ⟨d, h2, rfl, h3⟩
      · rintro ⟨d', hd, rfl, hd'⟩
        have := (h1 d').2 ⟨hd, hd'⟩
        rw [hl, Except.ok.injEq] at this
        rw [this]
  refine ⟨?_, ?_, ?_, ?_⟩
  · intro r h
    cases arg with
    | none =>
      simp only [oneRefwfn] at h
      rcases hl : SdList.sdList s.nelec s.nspin none none s.twoSpin s.seniority false with e | l
      · rw [hl] at h; simp [bind, Except.bind] at h
      · rw [hl] at h
        simp only [bind, Except.bind, pure, Except.pure, Except.ok.injEq] at h
        subst h
        exact default_space (by simp) hl
    | sd m =>
      obtain ⟨d, -, rfl, h'⟩ := (hlist [.sd m] r).1 h
      exact h'
    | list l =>
      obtain ⟨d, -, rfl, h'⟩ := (hlist l r).1 h
      exact h'
    | ci w n k =>
      simp only [oneRefwfn] at h
      by_cases h1 : n ≠ s.nelec
      · rw [if_pos h1] at h; simp at h
      · rw [if_neg h1] at h
        by_cases h2 : k ≠ s.nspin
        · rw [if_pos h2] at h; simp at h
        · rw [if_neg h2, Except.ok.injEq] at h
          subst h
          exact ⟨not_not.1 h1, not_not.1 h2⟩
    | other => simp [oneRefwfn] at h
  · rintro l r rfl; exact hlist l r
  · rintro m rfl; rfl
  · rintro l e rfl
    rw [← (checkItems s l).2 e]
    simp only [oneRefwfn]
    rcases l.mapM (checkItem s) with e' | d <;> simp [bind, Except.bind, pure, Except.pure]

theorem twoSpace_ok (s : Space) (arg : SpaceArg) (r : Option (List ℕ)) : twoSpace s arg = .ok r ↔
    (arg = .none ∧ r = none) ∨ ∃ d : List ℕ, arg = .list (d.map Item.sd) ∧ r = some d ∧ ∀ m ∈ d, InSpace s m := by
  cases arg with
  | none => simp [twoSpace, eq_comm]
  | list l =>
    obtain ⟨h1, -⟩ := checkItems s l
    simp only [twoSpace]
    rcases hl : l.mapM (checkItem s) with e | d
    · simp only [bind, Except.bind, reduceCtorEq, SpaceArg.list.injEq, false_and, false_or, false_iff]
      rintro ⟨d, hd, -, hd'⟩
      rw [(h1 d).2 ⟨hd, hd'⟩] at hl; simp at hl
    · simp only [bind, Except.bind, pure, Except.pure, Except.ok.injEq, reduceCtorEq, SpaceArg.list.injEq, false_and, false_or]
      obtain ⟨h2, h3⟩ := (h1 d).1 hl
      constructor
      · rintro rfl; exact ⟨d, h2, rfl, h3⟩
      · rintro ⟨d', hd, rfl, hd'⟩
        have := (h1 d').2 ⟨hd, hd'⟩
        rw [hl, Except.ok.injEq] at this
        rw [this]
  | sd m => simp [twoSpace]
  | ci a b c => simp [twoSpace]
  | other => simp [twoSpace]

/-- C92: the spaces of the two-sided energy have determinants of the wavefunction only; a list is kept as it is; without a left space it has
all determinants with the spin and the seniority of the wavefunction.  In the variational energy the three spaces are the same. -/
theorem C92_two_sided (s : Space) (l r n : SpaceArg) (L : List ℕ) (Rr N : Option (List ℕ)) :
    (twoPspaces s l r n = .ok (L, Rr, N) ↔
      ((l = .none ∧ SdList.sdList s.nelec s.nspin none none s.twoSpin s.seniority false = .ok L) ∨
        (l = .list (L.map Item.sd) ∧ ∀ m ∈ L, InSpace s m)) ∧
      ((r = .none ∧ Rr = none) ∨ ∃ d : List ℕ, r = .list (d.map Item.sd) ∧ Rr = some d ∧ ∀ m ∈ d, InSpace s m) ∧
      ((n = .none ∧ N = none) ∨ ∃ d : List ℕ, n = .list (d.map Item.sd) ∧ N = some d ∧ ∀ m ∈ d, InSpace s m)) ∧
    (varPspace s l = .ok (L, Rr, N) → Rr = some L ∧ N = some L ∧ ∀ m ∈ L, InSpace s m) := by
  have key : ∀ l r n, (∃ l', l = SpaceArg.list l') → ∀ L Rr N, (twoPspaces s l r n = .ok (L, Rr, N) ↔
      (l = .list (L.map Item.sd) ∧ ∀ m ∈ L, InSpace s m) ∧
      ((r = .none ∧ Rr = none) ∨ ∃ d : List ℕ, r = .list (d.map Item.sd) ∧ Rr = some d ∧ ∀ m ∈ d, InSpace s m) ∧
      ((n = .none ∧ N = none) ∨ ∃ d : List ℕ, n = .list (d.map Item.sd) ∧ N = some d ∧ ∀ m ∈ d, InSpace s m)) := by
    rintro l r n ⟨l', rfl⟩ L Rr N
    rw [← twoSpace_ok, ← twoSpace_ok]
    have hl : (SpaceArg.list l' = .list (L.map Item.sd) ∧ ∀ m ∈ L, InSpace s m) ↔ twoSpace s (.list l') = .ok (some L) := by
      rw [twoSpace_ok]
      simp
    rw [hl]
    simp only [twoPspaces, defaultSpace, bind, Except.bind]
    rcases h1 : twoSpace s (.list l') with e | a
    · simp
    · rcases h2 : twoSpace s r with e | b
      · simp
      · rcases h3 : twoSpace s n with e | c
        · simp
        · simp only [pure, Except.pure, Except.ok.injEq, Prod.mk.injEq]
          rw [twoSpace_ok] at h1
          rcases h1 with ⟨h1, -⟩ | ⟨d, -, rfl, -⟩
          · simp at h1
          · simp
  have hnone : ∀ r n, SdList.sdList s.nelec s.nspin none none s.twoSpin s.seniority false = .ok L →
      twoPspaces s .none r n = twoPspaces s (.list (L.map Item.sd)) r n := by
    intro r n hL
    simp only [twoPspaces, defaultSpace, hL, bind, Except.bind, pure, Except.pure]
  constructor
  · cases l with
    | none =>
      rcases hL : SdList.sdList s.nelec s.nspin none none s.twoSpin s.seniority false with e | L'
      · simp [twoPspaces, defaultSpace, hL, bind, Except.bind]
      · have e : twoPspaces s .none r n = twoPspaces s (.list (L'.map Item.sd)) r n := by
          simp only [twoPspaces, defaultSpace, hL, bind, Except.bind, pure, Except.pure]
        rw [e, key _ r n ⟨_, rfl⟩]
        have hinj : Function.Injective Item.sd := fun a b h => Item.sd.inj h
        simp only [SpaceArg.list.injEq, (List.map_injective_iff.2 hinj).eq_iff, true_and, Except.ok.injEq, reduceCtorEq, false_and, or_false]
        constructor
        · rintro ⟨⟨h1, -⟩, h2⟩; exact ⟨h1, h2⟩
        · rintro ⟨rfl, h2⟩; exact ⟨⟨rfl, default_space (by simp) hL⟩, h2⟩
    | list l' => rw [key _ r n ⟨_, rfl⟩]; simp
    | sd m => simp [twoPspaces, defaultSpace, twoSpace, bind, Except.bind]
    | ci a b c => simp [twoPspaces, defaultSpace, twoSpace, bind, Except.bind]
    | other => simp [twoPspaces, defaultSpace, twoSpace, bind, Except.bind]
  · intro h
    have hs : ∀ l', varPspace s (.list l') = .ok (L, Rr, N) → Rr = some L ∧ N = some L ∧ ∀ m ∈ L, InSpace s m := by
      intro l' h
      simp only [varPspace, defaultSpace, bind, Except.bind] at h
      obtain ⟨⟨h1, h1'⟩, h2, h3⟩ := (key _ _ _ ⟨_, rfl⟩ _ _ _).1 h
      have hinj : Function.Injective Item.sd := fun a b h => Item.sd.inj h
      refine ⟨?_, ?_, h1'⟩
      · rcases h2 with ⟨h2, -⟩ | ⟨d, h2, rfl, -⟩
        · simp at h2
        · rw [h1, SpaceArg.list.injEq] at h2
          rw [List.map_injective_iff.2 hinj h2]
      · rcases h3 with ⟨h2, -⟩ | ⟨d, h2, rfl, -⟩
        · simp at h2
        · rw [h1, SpaceArg.list.injEq] at h2
          rw [List.map_injective_iff.2 hinj h2]
    cases l with
    | none =>
      rcases hL : SdList.sdList s.nelec s.nspin none none s.twoSpin s.seniority false with e | L'
      · simp [varPspace, defaultSpace, hL, bind, Except.bind] at h
      · refine hs (L'.map Item.sd) ?_
        rw [← h]
        simp only [varPspace, defaultSpace, hL, bind, Except.bind, pure, Except.pure]
    | list l' => exact hs l' h
    | sd m => simp [varPspace, twoPspaces, defaultSpace, twoSpace, bind, Except.bind] at h
    | ci a b c => simp [varPspace, twoPspaces, defaultSpace, twoSpace, bind, Except.bind] at h
    | other => simp [varPspace, twoPspaces, defaultSpace, twoSpace, bind, Except.bind] at h

/-- C92: the projection space of `LocalEnergy` has determinants of the wavefunction only; a list with something else than determinants is a
`TypeError` also if a determinant before it does not fit. -/
theorem C92_local (s : Space) (p : SpaceArg) :
    (∀ r, localPspace s p = .ok r → ∃ l, r = .sds l ∧ ∀ m ∈ l, InSpace s m) ∧
    ∀ l, p = .list l → (∃ x ∈ l, ∀ m, x ≠ .sd m) → localPspace s p = .error .typeError := by
  constructor
  · intro r h
    cases p with
    | none =>
      simp only [localPspace] at h
      have h1 := (C92_one_sided s .none).1 r h
      simp only [oneRefwfn] at h
      rcases hl : SdList.sdList s.nelec s.nspin none none s.twoSpin s.seniority false with e | l
      · rw [hl] at h; simp [bind, Except.bind] at h
      · rw [hl] at h
        simp only [bind, Except.bind, pure, Except.pure, Except.ok.injEq] at h
        subst h
        exact ⟨l, rfl, h1⟩
    | list l =>
      simp only [localPspace] at h
      by_cases hl : l.all isSd = true
      · rw [if_pos hl] at h
        obtain ⟨d, -, hd, hd'⟩ := ((C92_one_sided s (.list l)).2.1 l r rfl).1 h
        exact ⟨d, hd, hd'⟩
      · rw [if_neg hl] at h; simp at h
    | sd m => simp [localPspace] at h
    | ci a b c => simp [localPspace] at h
    | other => simp [localPspace] at h
  · rintro l rfl ⟨x, hx, hne⟩
    simp only [localPspace]
    rw [if_neg]
    rw [List.all_eq_true]
    intro hall
    have := hall x hx
    cases x with
    | sd m => exact hne m rfl
    | ci w => simp [isSd] at this
    | other => simp [isSd] at this

/-! ## The projected equations -/

/-- the keys of every selection are different and older than the next object -/
def HeapOk (h : Heap) : Prop := ∀ s ∈ h.dicts, (s.map Prod.fst).Nodup ∧ ∀ c ∈ s.map Prod.fst, c < h.nextComp

/-- the arguments are objects made before -/
def ArgsOk (E : Env) (sel : SelArg) (h : Heap) : Prop :=
  E.wfn < h.nextComp ∧ E.ham < h.nextComp ∧ (∀ l, sel = .items l → ∀ p ∈ l, p.1 < h.nextComp) ∧ ∀ d, sel = .dict d → d < h.dicts.length

theorem setItem_shape {sel sel' : Selection} {c n : ℕ} {idx : Indices} (h : setItem sel c n idx = .ok sel') : ∃ v, sel' = odSet sel c v := by
  cases idx with
  | bools l =>
    simp only [setItem] at h
    by_cases h1 : l.length ≠ n
    · rw [if_pos h1] at h; simp at h
    · rw [if_neg h1, Except.ok.injEq] at h
      exact ⟨_, h.symm⟩
  | ints l =>
    simp only [setItem] at h
    by_cases h1 : l.dedup.length ≠ l.length
    · rw [if_pos h1] at h; simp at h
    · rw [if_neg h1] at h
      by_cases h2 : (l.any (fun i => decide (i < 0)) || l.any (fun i => decide (i ≥ n))) = true
      · rw [if_pos h2] at h; simp at h
      · rw [if_neg h2, Except.ok.injEq] at h
        exact ⟨_, h.symm⟩

/-- a selection of the heap -/
def SelOk (n : ℕ) (s : Selection) : Prop := (s.map Prod.fst).Nodup ∧ ∀ c ∈ s.map Prod.fst, c < n

theorem selOk_odSet {n c : ℕ} {s : Selection} (h : SelOk n s) (hc : c < n) (v : List ℕ) : SelOk n (odSet s c v) := by
  refine ⟨nodup_odSet h.1 c v, ?_⟩
  intro c' h'
  rw [odSet_keys] at h'
  split_ifs at h'
  · exact h.2 c' h'
  · rcases List.mem_append.1 h' with h' | h'
    · exact h.2 c' h'
    · rw [List.mem_singleton] at h'; rw [h']; exact hc

theorem selOk_fold {n : ℕ} {np : ℕ → ℕ} (l : List (ℕ × Indices)) {s s' : Selection} (h : SelOk n s) (hl : ∀ p ∈ l, p.1 < n)
    (hs : l.foldlM (fun acc p => setItem acc p.1 (np p.1) p.2) s = .ok s') : SelOk n s' := by
  induction l generalizing s with
  | nil => obtain rfl := Except.ok.inj hs; exact h
  | cons p r ih =>
    rw [List.foldlM_cons] at hs
    cases e : setItem s p.1 (np p.1) p.2 with
    | error e' => rw [e] at hs; cases hs
    | ok s1 =>
      rw [e] at hs
      obtain ⟨v, rfl⟩ := setItem_shape e
      exact ih (selOk_odSet h (hl p (by simp)) v) (fun q hq => hl q (by simp [hq])) hs

theorem selOk_init {n : ℕ} {np : ℕ → ℕ} {wfn ham ws hs : ℕ} {sel : Option (List (ℕ × Indices))} {opt : Bool} {s : Selection}
    (hw : wfn < n) (hh : ham < n) (hl : ∀ l, sel = some l → ∀ p ∈ l, p.1 < n)
    (h : initSelection np wfn ham ws hs sel opt = .ok s) : SelOk n s := by
  rw [initSelection] at h
  by_cases h1 : ws ≠ hs
  · rw [if_pos h1] at h; simp at h
  · rw [if_neg h1] at h
    rcases hf : (chosen np wfn sel).foldlM (fun acc p => setItem acc p.1 (np p.1) p.2) [] with e | s1
    · rw [hf] at h; cases h
    · have hs1 : SelOk n s1 := by
        refine selOk_fold _ (s := []) ⟨by simp, by simp⟩ ?_ hf
        cases sel with
        | none => simpa [chosen] using hw
        | some l => exact hl l rfl
      rw [hf] at h
      simp only [bind, Except.bind, pure, Except.pure] at h
      by_cases h2 : (opt && decide ((getItem s1 ham).length = 0)) = true
      · rw [if_pos h2] at h
        obtain ⟨v, rfl⟩ := setItem_shape h
        exact selOk_odSet hs1 hh v
      · rw [if_neg h2, Except.ok.injEq] at h
        exact h ▸ hs1

theorem heapOk_set {h : Heap} (hh : HeapOk h) {d : ℕ} {s : Selection} (hs : SelOk h.nextComp s) :
    HeapOk { h with dicts := h.dicts.set d s } := by
  intro s' h'
  rcases List.mem_or_eq_of_mem_set h' with h' | h'
  · exact hh s' h'
  · exact h' ▸ hs

theorem selOk_getD {h : Heap} (hh : HeapOk h) (d : ℕ) : SelOk h.nextComp (h.dicts.getD d []) := by
  by_cases hd : d < h.dicts.length
  · rw [List.getD_eq_getElem _ _ hd]
    exact hh _ (List.getElem_mem hd)
  · rw [List.getD_eq_default _ _ (by omega)]
    exact ⟨by simp, by simp⟩

/-- what the constructor of the base class does to the heap -/
theorem baseInit_facts (E : Env) (sel : SelArg) (opt : Bool) (h : Heap) (hh : HeapOk h) (ha : ArgsOk E sel h) :
    HeapOk (baseInit E sel opt h).1 ∧ (baseInit E sel opt h).1.nextComp = h.nextComp ∧
    (∀ i < h.dicts.length, sel ≠ .dict i → (baseInit E sel opt h).1.dicts[i]? = h.dicts[i]?) ∧
    (∀ d, (baseInit E sel opt h).2 = .ok d → d < (baseInit E sel opt h).1.dicts.length ∧ ∀ i < h.dicts.length, sel ≠ .dict i → d ≠ i) ∧
    h.dicts.length ≤ (baseInit E sel opt h).1.dicts.length := by
  obtain ⟨hw, hm, hi, hd⟩ := ha
  have new : ∀ s : Option (List (ℕ × Indices)), (∀ l, s = some l → ∀ p ∈ l, p.1 < h.nextComp) →
      let r : Heap × Except PyErr ℕ := match initSelection E.nparams E.wfn E.ham E.space.nspin E.hamSpin s opt with
        | .error e => (h, .error e)
        | .ok sel => ({ h with dicts := h.dicts ++ [sel] }, .ok h.dicts.length)
      HeapOk r.1 ∧ r.1.nextComp = h.nextComp ∧ (∀ i < h.dicts.length, r.1.dicts[i]? = h.dicts[i]?) ∧
      (∀ d, r.2 = .ok d → d < r.1.dicts.length ∧ ∀ i < h.dicts.length, d ≠ i) ∧ h.dicts.length ≤ r.1.dicts.length := by
    intro s hs
    rcases hr : initSelection E.nparams E.wfn E.ham E.space.nspin E.hamSpin s opt with e | s1
    · exact ⟨hh, rfl, fun _ _ => rfl, by simp, le_rfl⟩
    · refine ⟨?_, rfl, ?_, ?_, by simp⟩
      · intro s' h'
        rcases List.mem_append.1 h' with h' | h'
        · exact hh s' h'
        · rw [List.mem_singleton] at h'
          rw [h']
          exact selOk_init hw hm hs hr
      · intro i hi'
        exact List.getElem?_append_left hi'
      · intro d hd'
        simp only [Except.ok.injEq] at hd'
        subst hd'
        exact ⟨by simp, fun i hi' => by omega⟩
  cases sel with
  | none =>
    obtain ⟨a, b, c, d, e⟩ := new none (by simp)
    exact ⟨a, b, fun i hi' _ => c i hi', fun x hx => ⟨(d x hx).1, fun i hi' _ => (d x hx).2 i hi'⟩, e⟩
  | items l =>
    obtain ⟨a, b, c, d, e⟩ := new (some l) (fun l' hl' => by rw [← Option.some.inj hl']; exact hi l rfl)
    exact ⟨a, b, fun i hi' _ => c i hi', fun x hx => ⟨(d x hx).1, fun i hi' _ => (d x hx).2 i hi'⟩, e⟩
  | dict d =>
    have hd' := hd d rfl
    simp only [baseInit]
    by_cases h1 : E.space.nspin ≠ E.hamSpin
    · rw [if_pos h1]
      exact ⟨hh, rfl, fun _ _ _ => rfl, by simp, le_rfl⟩
    · rw [if_neg h1]
      by_cases h2 : (opt && decide ((getItem (h.dicts.getD d []) E.ham).length = 0)) = true
      · rw [if_pos h2]
        rcases hr : setItem (h.dicts.getD d []) E.ham (E.nparams E.ham) (.ints ((List.range (E.nparams E.ham)).map fun i => Int.ofNat i)) with e | s1
        · exact ⟨hh, rfl, fun _ _ _ => rfl, by simp, le_rfl⟩
        · obtain ⟨v, rfl⟩ := setItem_shape hr
          refine ⟨heapOk_set hh (selOk_odSet (selOk_getD hh d) hm v), rfl, ?_, ?_, by simp⟩
          · intro i _ hne
            have : d ≠ i := fun e => hne (by rw [e])
            simp [List.getElem?_set_ne this]
          · intro d' hd''
            simp only [Except.ok.injEq] at hd''
            subst hd''
            exact ⟨by simpa using hd', fun i _ hne e => hne (by rw [e])⟩
      · rw [if_neg h2]
        refine ⟨hh, rfl, fun _ _ _ => rfl, ?_, le_rfl⟩
        intro d' hd''
        simp only [Except.ok.injEq] at hd''
        subst hd''
        exact ⟨hd', fun i _ hne e => hne (by rw [e])⟩

/-- the heap after the constructor -/
theorem projInit_heap (E : Env) (sel : SelArg) (opt : Bool) (ps : SpaceArg) (ex : Option (List ℕ)) (rf : SpaceArg) (k : EnergyKind) (num : Bool)
    (cons : ConsArg) (h : Heap) :
    (projInit E sel opt ps ex rf k num cons h).1 = (baseInit E sel opt h).1 ∨
    ∃ d, (baseInit E sel opt h).2 = .ok d ∧ (projInit E sel opt ps ex rf k num cons h).1 =
      energyItem k d (baseInit E sel opt h).1.nextComp { (baseInit E sel opt h).1 with nextComp := (baseInit E sel opt h).1.nextComp + 1 } := by
  rw [projInit]
  rcases baseInit E sel opt h with ⟨h1, e | d⟩
  · exact .inl rfl
  · simp only
    rcases projPspace E.space ex ps with e | p
    · exact .inl rfl
    · rcases projRefwfn E.space rf with e | r
      · exact .inl rfl
      · simp only
        split_ifs
        · exact .inl rfl
        · exact .inl rfl
        · refine .inr ⟨d, rfl, ?_⟩
          rcases assignConstraints E.space (energyItem k d h1.nextComp { h1 with nextComp := h1.nextComp + 1 }) d r cons with e | c <;> rfl

/-- when the constructor succeeds -/
theorem projInit_ok (E : Env) (sel : SelArg) (opt : Bool) (ps : SpaceArg) (ex : Option (List ℕ)) (rf : SpaceArg) (k : EnergyKind) (num : Bool)
    (cons : ConsArg) (h h' : Heap) (o : ProjObj) :
    projInit E sel opt ps ex rf k num cons h = (h', .ok o) ↔
      ∃ h1, baseInit E sel opt h = (h1, .ok o.dict) ∧ projPspace E.space ex ps = .ok o.pspace ∧ projRefwfn E.space rf = .ok o.ref ∧
        num = true ∧ k ≠ .other ∧ o.energy = h1.nextComp ∧ h' = energyItem k o.dict h1.nextComp { h1 with nextComp := h1.nextComp + 1 } ∧
        assignConstraints E.space h' o.dict o.ref cons = .ok o.cons := by
  rw [projInit]
  rcases baseInit E sel opt h with ⟨h1, e | d⟩
  · simp
  · simp only
    rcases projPspace E.space ex ps with e | p
    · simp
    · rcases projRefwfn E.space rf with e | r
      · simp
      · simp only
        cases num with
        | false => simp
        | true =>
          by_cases hk : k = .other
          · simp [hk]
          · rw [if_neg (by simp), if_neg hk]
            obtain ⟨od, op, orf, oe, oc⟩ := o
            rcases ha : assignConstraints E.space (energyItem k d h1.nextComp { h1 with nextComp := h1.nextComp + 1 }) d r cons with e | c
            · simp only [Prod.mk.injEq, reduceCtorEq, and_false, Except.ok.injEq, false_iff]
              rintro ⟨h2, ⟨rfl, rfl⟩, rfl, rfl, -, -, -, rfl, h3⟩
              rw [ha] at h3; simp at h3
            · simp only [Prod.mk.injEq, Except.ok.injEq, ProjObj.mk.injEq]
              constructor
              · rintro ⟨rfl, rfl, rfl, rfl, rfl, rfl⟩
                exact ⟨h1, ⟨rfl, rfl⟩, rfl, rfl, trivial, hk, rfl, rfl, ha⟩
              · rintro ⟨h2, ⟨rfl, rfl⟩, rfl, rfl, -, -, rfl, rfl, h3⟩
                rw [ha] at h3
                exact ⟨rfl, rfl, rfl, rfl, rfl, Except.ok.inj h3⟩

theorem energyItem_facts {h : Heap} (hh : HeapOk h) (k : EnergyKind) (d : ℕ) :
    HeapOk (energyItem k d h.nextComp { h with nextComp := h.nextComp + 1 }) ∧
    (∀ i, i ≠ d → (energyItem k d h.nextComp { h with nextComp := h.nextComp + 1 }).dicts[i]? = h.dicts[i]?) ∧
    (energyItem k d h.nextComp { h with nextComp := h.nextComp + 1 }).dicts.length = h.dicts.length := by
  have h2 : HeapOk { h with nextComp := h.nextComp + 1 } := fun s hs => ⟨(hh s hs).1, fun c hc => Nat.lt_succ_of_lt ((hh s hs).2 c hc)⟩
  rw [energyItem]
  by_cases hk : k = .fixed ∨ k = .variable
  · rw [if_pos hk]
    refine ⟨heapOk_set h2 (selOk_odSet (selOk_getD h2 d) (Nat.lt_succ_self _) _), ?_, by simp⟩
    intro i hi
    simp [List.getElem?_set_ne (Ne.symm hi)]
  · rw [if_neg hk]
    exact ⟨h2, fun _ _ => rfl, rfl⟩

/-- C92 (`ProjectedSchrodinger.__init__`): with the parameters given by a list (or left out) no selection made before changes, whether or not
the constructor raises an exception; with a `ComponentParameterIndices` given, no other one changes.  Keys stay different. -/
theorem C92_frame (E : Env) (sel : SelArg) (opt : Bool) (ps : SpaceArg) (ex : Option (List ℕ)) (rf : SpaceArg) (k : EnergyKind) (num : Bool)
    (cons : ConsArg) (h : Heap) (hh : HeapOk h) (ha : ArgsOk E sel h) :
    HeapOk (projInit E sel opt ps ex rf k num cons h).1 ∧
    ∀ i < h.dicts.length, sel ≠ .dict i → (projInit E sel opt ps ex rf k num cons h).1.dicts[i]? = h.dicts[i]? := by
  obtain ⟨b1, b2, b3, b4, b5⟩ := baseInit_facts E sel opt h hh ha
  rcases projInit_heap E sel opt ps ex rf k num cons h with e | ⟨d, hd, e⟩
  · rw [e]; exact ⟨b1, b3⟩
  · rw [e]
    obtain ⟨e1, e2, -⟩ := energyItem_facts b1 k d
    refine ⟨e1, ?_⟩
    intro i hi hne
    rw [e2 i (Ne.symm ((b4 d hd).2 i hi hne)), b3 i hi hne]

theorem mem_sel_iff {s : Selection} (hs : (s.map Prod.fst).Nodup) (p : ℕ × List ℕ) : p ∈ s ↔ p.1 ∈ s.map Prod.fst ∧ getItem s p.1 = p.2 := by
  constructor
  · intro hp
    exact ⟨List.mem_map.2 ⟨p, hp, rfl⟩, getItem_mem hs hp⟩
  · rintro ⟨h1, h2⟩
    obtain ⟨q, hq, e⟩ := List.mem_map.1 h1
    have := getItem_mem hs hq
    rw [e, h2] at this
    have : q = p := Prod.ext e this.symm
    exact this ▸ hq

/-- two selections are equal if they have the same items in any order -/
theorem C92_equal {a b : Selection} (ha : (a.map Prod.fst).Nodup) (hb : (b.map Prod.fst).Nodup) : eqSel a b = true ↔ a.Perm b := by
  rw [List.perm_ext_iff_of_nodup (List.Nodup.of_map _ ha) (List.Nodup.of_map _ hb)]
  rw [eqSel, Bool.and_eq_true, Bool.and_eq_true, List.all_eq_true, List.all_eq_true, List.all_eq_true]
  simp only [List.contains_iff_mem, beq_iff_eq]
  constructor
  · rintro ⟨⟨h1, h2⟩, h3⟩ p
    rw [mem_sel_iff ha, mem_sel_iff hb]
    have key : p.1 ∈ a.map Prod.fst ↔ p.1 ∈ b.map Prod.fst := by
      constructor
      · intro h
        obtain ⟨q, hq, e⟩ := List.mem_map.1 h
        rw [← e]; exact h1 q hq
      · intro h
        obtain ⟨q, hq, e⟩ := List.mem_map.1 h
        rw [← e]; exact h2 q hq
    constructor
    · rintro ⟨k1, k2⟩
      obtain ⟨q, hq, e⟩ := List.mem_map.1 k1
      have := h3 q hq
      rw [e] at this
      exact ⟨key.1 k1, this ▸ k2⟩
    · rintro ⟨k1, k2⟩
      obtain ⟨q, hq, e⟩ := List.mem_map.1 (key.2 k1)
      have := h3 q hq
      rw [e] at this
      exact ⟨key.2 k1, this.trans k2⟩
  · intro h
    refine ⟨⟨?_, ?_⟩, ?_⟩
    · intro p hp
      exact List.mem_map.2 ⟨p, (h p).1 hp, rfl⟩
    · intro p hp
      exact List.mem_map.2 ⟨p, (h p).2 hp, rfl⟩
    · intro p hp
      rw [getItem_mem ha hp, getItem_mem hb ((h p).1 hp)]

theorem assignConstraints_ok {s : Space} {h : Heap} {d : ℕ} {ref : RefVal} {arg : ConsArg} {cs : List Con}
    (hok : assignConstraints s h d ref arg = .ok cs) :
    (∀ c ∈ cs, eqSel (h.dicts.getD c.dict []) (h.dicts.getD d []) = true) ∧
    (arg = .none → cs = [⟨d, 1⟩] ∧ ∃ r, normRefwfn s ref = .ok r) ∧ (∀ c, arg = .one c → cs = [c]) ∧
    ∀ l, arg = .list l → l = cs.map some := by
  rw [assignConstraints] at hok
  rcases hc : consList s d ref arg with e | l
  · rw [hc] at hok; simp [bind, Except.bind] at hok
  · rw [hc] at hok
    simp only [bind, Except.bind] at hok
    by_cases h1 : l.any Option.isNone = true
    · rw [if_pos h1] at hok; simp at hok
    · rw [if_neg h1] at hok
      by_cases h2 : (!((l.filterMap id).all fun c => eqSel (h.dicts.getD c.dict []) (h.dicts.getD d []))) = true
      · rw [if_pos h2] at hok; simp at hok
      · rw [if_neg h2] at hok
        simp only [pure, Except.pure, Except.ok.injEq] at hok
        have h2' : ((l.filterMap id).all fun c => eqSel (h.dicts.getD c.dict []) (h.dicts.getD d [])) = true := by
          simpa using h2
        rw [List.all_eq_true, hok] at h2'
        refine ⟨h2', ?_, ?_, ?_⟩
        · rintro rfl
          simp only [consList] at hc
          rcases hn : normRefwfn s ref with e | r
          · rw [hn] at hc; simp [bind, Except.bind] at hc
          · rw [hn] at hc
            simp only [bind, Except.bind, pure, Except.pure, Except.ok.injEq] at hc
            subst hc
            exact ⟨hok ▸ rfl, r, rfl⟩
        · rintro c rfl
          simp only [consList, Except.ok.injEq] at hc
          subst hc
          exact hok ▸ rfl
        · rintro l' rfl
          simp only [consList, Except.ok.injEq] at hc
          subst hc
          rw [← hok]
          clear hok h2 h2'
          induction l' with
          | nil => rfl
          | cons x r ih =>
            cases x with
            | none => simp at h1
            | some c =>
              have := ih (by simpa using h1)
              exact congrArg (some c :: ·) this

/-- C92: the equations made: the energy (a new object) is a parameter if it is variable, is selected without parameters if it is fixed, and
not selected if it is computed; the constraints are those given (one norm constraint with the same selection if none are given), and each of
them has the same components with the same active parameters, so as many active parameters.  Partial: the components can be in another order
(`C92_order`), so the same vector of parameters can mean something else to a constraint. -/
theorem C92_projected_partial (E : Env) (sel : SelArg) (opt : Bool) (ps : SpaceArg) (ex : Option (List ℕ)) (rf : SpaceArg) (k : EnergyKind)
    (num : Bool) (cons : ConsArg) (h h' : Heap) (o : ProjObj) (hh : HeapOk h) (ha : ArgsOk E sel h)
    (hok : projInit E sel opt ps ex rf k num cons h = (h', .ok o)) :
    o.dict < h'.dicts.length ∧ o.energy = h.nextComp ∧ h'.nextComp = h.nextComp + 1 ∧
    (k = .variable → getItem (h'.dicts.getD o.dict []) o.energy = [0]) ∧
    (k = .fixed → getItem (h'.dicts.getD o.dict []) o.energy = []) ∧
    (o.energy ∈ (h'.dicts.getD o.dict []).map Prod.fst ↔ k ≠ .compute) ∧
    (cons = .none → o.cons = [⟨o.dict, 1⟩] ∧ RefOk E.space o.ref) ∧ (∀ c, cons = .one c → o.cons = [c]) ∧
    (∀ l, cons = .list l → l = o.cons.map some) ∧
    ∀ c ∈ o.cons, (h'.dicts.getD c.dict []).Perm (h'.dicts.getD o.dict []) ∧
      (∀ x, getItem (h'.dicts.getD c.dict []) x = getItem (h'.dicts.getD o.dict []) x) ∧
      activeNparams (h'.dicts.getD c.dict []) = activeNparams (h'.dicts.getD o.dict []) := by
  obtain ⟨h1, e1, -, -, -, hk, he, rfl, e2⟩ := (projInit_ok _ _ _ _ _ _ _ _ _ _ _ _).1 hok
  obtain ⟨b1, b2, b3, b4, b5⟩ := baseInit_facts E sel opt h hh ha
  rw [e1] at b1 b2 b4
  simp only at b1 b2 b4
  obtain ⟨f1, -, f3⟩ := energyItem_facts b1 k o.dict
  obtain ⟨c1, c2, c3, c4⟩ := assignConstraints_ok e2
  have hd : o.dict < h1.dicts.length := (b4 _ rfl).1
  have hsel : k = .fixed ∨ k = .variable →
      (energyItem k o.dict h1.nextComp { h1 with nextComp := h1.nextComp + 1 }).dicts.getD o.dict [] =
        odSet (h1.dicts.getD o.dict []) h1.nextComp ((List.range 1).filter fun _ => decide (k = .variable)) := by
    intro hk'
    rw [energyItem, if_pos hk']
    rw [List.getD_eq_getElem _ _ (by simpa using hd)]
    simp
  refine ⟨by rw [f3]; exact hd, by rw [he, b2], ?_, ?_, ?_, ?_, ?_, c3, c4, ?_⟩
  · rw [energyItem]; split_ifs <;> simp [b2]
  · rintro rfl
    rw [hsel (.inr rfl), he, getItem_odSet, if_pos rfl]
    decide
  · rintro rfl
    rw [hsel (.inl rfl), he, getItem_odSet, if_pos rfl]
    decide
  · by_cases hk' : k = .fixed ∨ k = .variable
    · rw [hsel hk', he, odSet_keys]
      have : k ≠ .compute := by rcases hk' with rfl | rfl <;> simp
      simp only [this, ne_eq, not_false_eq_true, iff_true]
      split_ifs with hm
      · exact hm
      · simp
    · have hc : k = .compute := by cases k <;> simp_all
      subst hc
      rw [energyItem, if_neg hk', he]
      simp only [ne_eq, not_true_eq_false, iff_false]
      intro hm
      exact absurd ((selOk_getD b1 o.dict).2 _ hm) (lt_irrefl _)
  · intro hc
    obtain ⟨k1, r, hr⟩ := c2 hc
    refine ⟨k1, ?_⟩
    cases hro : o.ref with
    | sds l =>
      rw [hro] at hr
      simp only [normRefwfn] at hr
      obtain ⟨d, hd1, -, hd2⟩ := ((C92_one_sided E.space (.list (l.map Item.sd))).2.1 _ r rfl).1 hr
      have hinj : Function.Injective Item.sd := fun a b h => Item.sd.inj h
      rw [List.map_injective_iff.2 hinj hd1]
      exact hd2
    | ci w n m =>
      rw [hro] at hr
      simp only [normRefwfn] at hr
      have := (C92_one_sided E.space (.ci w n m)).1 r hr
      simp only [oneRefwfn] at hr
      by_cases h1 : n ≠ E.space.nelec
      · rw [if_pos h1] at hr; simp at hr
      · rw [if_neg h1] at hr
        by_cases h2 : m ≠ E.space.nspin
        · rw [if_pos h2] at hr; simp at hr
        · exact ⟨not_not.1 h1, not_not.1 h2⟩
  · intro c hc
    have s1 := selOk_getD f1 c.dict
    have s2 := selOk_getD f1 o.dict
    have hp := (C92_equal s1.1 s2.1).1 (c1 c hc)
    refine ⟨hp, ?_, ?_⟩
    · intro x
      by_cases hx : x ∈ ((energyItem k o.dict h1.nextComp { h1 with nextComp := h1.nextComp + 1 }).dicts.getD c.dict []).map Prod.fst
      · obtain ⟨q, hq, rfl⟩ := List.mem_map.1 hx
        rw [getItem_mem s1.1 hq, getItem_mem s2.1 (hp.mem_iff.1 hq)]
      · rw [getItem_notMem hx, getItem_notMem]
        intro h
        exact hx ((hp.map Prod.fst).mem_iff.2 h)
    · exact (hp.map fun p => p.2.length).sum_eq

/-- C92 (disagreement): with an energy that is fixed or variable, a constraint made before with another selection is never accepted: the new
energy is not among its components. -/
theorem C92_energy_constraint (E : Env) (sel : SelArg) (opt : Bool) (ps : SpaceArg) (ex : Option (List ℕ)) (rf : SpaceArg) (k : EnergyKind)
    (num : Bool) (cons : ConsArg) (h : Heap) (hh : HeapOk h) (ha : ArgsOk E sel h) (c : Con) (hk : k = .fixed ∨ k = .variable)
    (hc : cons = .one c ∨ ∃ l, cons = .list l ∧ some c ∈ l) (hd : c.dict < h.dicts.length) (hs : sel ≠ .dict c.dict) :
    ∃ e, (projInit E sel opt ps ex rf k num cons h).2 = .error e := by
  rcases hr : projInit E sel opt ps ex rf k num cons h with ⟨h', e | o⟩
  · exact ⟨e, rfl⟩
  · exfalso
    obtain ⟨p1, p2, p3, p4, p5, p6, p7, p8, p9, p10⟩ := C92_projected_partial E sel opt ps ex rf k num cons h h' o hh ha hr
    have hmem : c ∈ o.cons := by
      rcases hc with hc | ⟨l, hc, hl⟩
      · rw [p8 c hc]; simp
      · have := p9 l hc
        rw [this] at hl
        obtain ⟨c', hc', e⟩ := List.mem_map.1 hl
        exact Option.some.inj e ▸ hc'
    have hkey : o.energy ∈ (h'.dicts.getD o.dict []).map Prod.fst := p6.2 (by rcases hk with rfl | rfl <;> simp)
    have h1 := ((p10 c hmem).1.map Prod.fst).mem_iff.2 hkey
    have h2 := (C92_frame E sel opt ps ex rf k num cons h hh ha).2 c.dict hd hs
    rw [hr] at h2
    rw [List.getD_eq_getElem?_getD, h2, ← List.getD_eq_getElem?_getD, p2] at h1
    exact absurd ((selOk_getD hh c.dict).2 _ h1) (lt_irrefl _)

theorem activeNparams_odSet {s : Selection} {c : ℕ} (h : c ∉ s.map Prod.fst) (v : List ℕ) :
    activeNparams (odSet s c v) = activeNparams s + v.length := by
  induction s with
  | nil => simp [odSet, activeNparams]
  | cons q r ih =>
    obtain ⟨c0, l⟩ := q
    simp only [List.map_cons, List.mem_cons, not_or] at h
    rw [odSet, if_neg (fun e => h.1 e.symm)]
    have := ih h.2
    simp only [activeNparams, List.map_cons, List.sum_cons] at this ⊢
    omega

/-- C92 (disagreement): a `ComponentParameterIndices` given to the constructor is not copied.  With a variable energy it has one more
parameter afterwards (also if the constructor raises an exception because of the constraints), so another equation with this selection refuses
the vectors of parameters it took before, and keeps the parameters as they were. -/
theorem C92_shared {R : Type} [Zero R] (E : Env) (d : ℕ) (ps : SpaceArg) (ex : Option (List ℕ)) (rf : SpaceArg) (cons : ConsArg) (h : Heap)
    (p : List Item) (r : RefVal) (hh : HeapOk h) (hd : d < h.dicts.length) (hsp : E.space.nspin = E.hamSpin)
    (hp : projPspace E.space ex ps = .ok p) (hr : projRefwfn E.space rf = .ok r) (accept : ℕ → List R → Option PyErr) (st : Store R)
    (x : List R) (hx : x.length = activeNparams (h.dicts.getD d [])) :
    let h' := (projInit E (.dict d) false ps ex rf .variable true cons h).1
    activeNparams (h'.dicts.getD d []) = activeNparams (h.dicts.getD d []) + 1 ∧
    assignParams accept (h'.dicts.getD d []) st x = (st, some .valueError) := by
  intro h'
  have e : h' = energyItem .variable d h.nextComp { h with nextComp := h.nextComp + 1 } := by
    have hb : baseInit E (.dict d) false h = (h, .ok d) := by simp [baseInit, hsp]
    simp only [h', projInit, hb, hp, hr]
    rw [if_neg (by simp), if_neg (by simp)]
    rcases assignConstraints E.space (energyItem .variable d h.nextComp { h with nextComp := h.nextComp + 1 }) d r cons with e | c <;> rfl
  have hn : activeNparams (h'.dicts.getD d []) = activeNparams (h.dicts.getD d []) + 1 := by
    rw [e, energyItem, if_pos (.inr rfl), List.getD_eq_getElem _ _ (by simpa using hd)]
    simp only [List.getElem_set_self]
    rw [activeNparams_odSet]
    · rfl
    · intro hm
      exact absurd ((selOk_getD hh d).2 _ hm) (lt_irrefl _)
  exact ⟨hn, C47_wrong_length accept _ st x (by omega)⟩

/-- C92 (disagreement): the reference is checked by the default constraint only.  With constraints given, any determinant is accepted as
reference, also one with other electrons or orbitals than the wavefunction. -/
theorem C92_reference_unchecked (E : Env) (d : ℕ) (ps : SpaceArg) (ex : Option (List ℕ)) (h : Heap) (p : List Item) (m : ℕ)
    (hsp : E.space.nspin = E.hamSpin) (hp : projPspace E.space ex ps = .ok p) :
    (∃ h' o, projInit E (.dict d) false ps ex (.sd m) .compute true (.list []) h = (h', .ok o) ∧ o.ref = .sds [m]) ∧
    (¬ InSpace E.space m → (projInit E (.dict d) false ps ex (.sd m) .compute true .none h).2 = .error .valueError) := by
  have hb : baseInit E (.dict d) false h = (h, .ok d) := by simp [baseInit, hsp]
  constructor
  · refine ⟨_, ⟨d, p, .sds [m], h.nextComp, []⟩, (projInit_ok _ _ _ _ _ _ _ _ _ _ _ _).2 ⟨h, hb, hp, rfl, rfl, by simp, rfl, rfl, rfl⟩, rfl⟩
  · intro hm
    simp only [projInit, hb, hp, projRefwfn]
    rw [if_neg (by simp), if_neg (by simp)]
    simp only [assignConstraints, consList, normRefwfn, oneRefwfn, List.map_cons, List.map_nil, List.mapM_cons, (checkItem_sd E.space m).2 hm,
      bind, Except.bind]

/-! ## Examples -/

/-- two electrons in four spin orbitals; object 0 is the wavefunction, object 1 the Hamiltonian, one parameter each -/
def exEnv : Env := ⟨fun _ => 1, 0, 1, 4, ⟨2, 4, none, none⟩⟩

/-- a selection in another order -/
def exHeap : Heap := ⟨[[(1, [0]), (0, [0])]], 2⟩

theorem exHeap_ok : HeapOk exHeap ∧ ArgsOk exEnv (.items [(0, .ints [0]), (1, .ints [0])]) exHeap := by
  constructor
  · intro s hs
    simp only [exHeap, List.mem_singleton] at hs
    subst hs
    simp [exHeap]
  · refine ⟨by decide, by decide, ?_, by simp⟩
    intro l hl p hp
    simp only [SelArg.items.injEq] at hl
    subst hl
    simp at hp
    rcases hp with rfl | rfl <;> simp [exHeap]

/-- C92 (disagreement): the test for the same selection does not see the order.  Here a constraint with the components in another order is
accepted, and the vector `[3, 4]` gives 3 to the wavefunction in the equations, and 4 in the constraint. -/
theorem C92_order :
    let r := projInit exEnv (.items [(0, .ints [0]), (1, .ints [0])]) false (.list [.sd 3, .sd 5]) none (.sd 3) .compute true (.one ⟨0, 1⟩) exHeap
    (∃ o, r.2 = .ok o ∧ o.cons = [⟨0, 1⟩] ∧
      (assignParams (fun _ _ => none) (r.1.dicts.getD o.dict []) (fun _ => [(0 : ℚ)]) [3, 4]).1 0 = [3] ∧
      (assignParams (fun _ _ => none) (r.1.dicts.getD 0 []) (fun _ => [(0 : ℚ)]) [3, 4]).1 0 = [4]) := by
  refine ⟨⟨1, [.sd 3, .sd 5], .sds [3], 2, [⟨0, 1⟩]⟩, ?_, rfl, ?_, ?_⟩ <;> decide +kernel

/-- a one-sided energy with two determinants, and the errors -/
theorem one_sided_witness :
    oneRefwfn ⟨2, 4, none, none⟩ (.list [.sd 3, .sd 5]) = .ok (.sds [3, 5]) ∧
    oneRefwfn ⟨2, 4, none, none⟩ (.list [.sd 3, .sd 7]) = .error .valueError ∧
    oneRefwfn ⟨2, 4, none, none⟩ (.list [.sd 3, .sd 17]) = .error .valueError ∧
    oneRefwfn ⟨2, 4, none, none⟩ (.list [.sd 3, .other]) = .error .typeError ∧
    twoPspaces ⟨2, 4, none, none⟩ (.list [.sd 3, .sd 5]) .none (.list [.sd 3]) = .ok ([3, 5], none, some [3]) ∧
    varPspace ⟨2, 4, none, none⟩ (.list [.sd 3, .sd 5]) = .ok ([3, 5], some [3, 5], some [3, 5]) := by decide +kernel

end Fanpy.Props
