import Verif.Model.CCMemo
import Verif.Props.CCDeriv

/-! # Property C63: the memo of the coupled cluster wavefunctions -/

namespace Fanpy.Props
open Fanpy.Spec Fanpy.Slater Fanpy.Graphs Fanpy.It Fanpy.CC Fanpy.Lemmas

variable {R : Type} [CommRing R]

/-- a call without a memo: the wavefunction and the value -/
def plain (nelec : ℕ) (w : Wfn R) : Call R → Wfn R × Except PyErr R
  | .overlap sd => (w, overlap w sd)
  | .derivative sd j => (w, dOverlap w sd j)
  | .second sd a b => (w, ddOverlap w sd a b)
  | .assignParams p => ({ w with params := p }, .ok 0)
  | .assignRefwfn ref => if (occSet ref).card = nelec then ({ w with refwfn := ref }, .ok 0) else (w, .error .valueError)
  | .assignExops exops => ({ w with exops }, .ok 0)

/-- the values of a sequence of calls without a memo -/
def plains (nelec : ℕ) (w : Wfn R) : List (Call R) → List (Except PyErr R)
  | [] => []
  | c :: cs => (plain nelec w c).2 :: plains nelec (plain nelec w c).1 cs

/-- what is stored is what would be generated -/
def DictOk (dec : List ℕ → List ℕ × List ℕ) (s : Memo R) : Prop :=
  ∀ e ∈ s.dict, possibleExops s.w.ranks s.w.exops (dec e.1).1 (dec e.1).2 = .ok e.2

omit [CommRing R] in
theorem dict_lookup {l : List (List ℕ × List (List ℕ × ℤ))} {k : List ℕ} {v : List (List ℕ × ℤ)} (h : l.lookup k = some v) : (k, v) ∈ l := by
  induction l with
  | nil => cases h
  | cons a r ih =>
    obtain ⟨a, b⟩ := a
    rw [List.lookup_cons] at h
    by_cases hk : k = a
    · subst hk
      simp at h
      simp [h]
    · have : (k == a) = false := by simpa using hk
      rw [this] at h
      exact List.mem_cons_of_mem _ (ih h)

omit [CommRing R] in
theorem lookupPaths_ok (dec : List ℕ → List ℕ × List ℕ) (s : Memo R) (hs : DictOk dec s) (a c : List ℕ) (hd : dec (a ++ c) = (a, c)) :
    (lookupPaths s a c).2 = (if !s.w.memo then .error .attributeError else possibleExops s.w.ranks s.w.exops a c) ∧
      (lookupPaths s a c).1.w = s.w ∧ DictOk dec (lookupPaths s a c).1 := by
  unfold lookupPaths
  by_cases hm : (!s.w.memo) = true
  · rw [if_pos hm, if_pos hm]; exact ⟨rfl, rfl, hs⟩
  · rw [if_neg hm, if_neg hm]
    cases hl : s.dict.lookup (a ++ c) with
    | some paths =>
      have := hs _ (dict_lookup hl)
      simp only [hd] at this
      exact ⟨this.symm, rfl, hs⟩
    | none =>
      have hsub : ∀ e ∈ (if s.refresh ≠ 0 ∧ (s.dict.length : ℤ) > s.refresh then [] else s.dict), e ∈ s.dict := by
        intro e he
        split_ifs at he
        · simp at he
        · exact he
      simp only
      cases hp : possibleExops s.w.ranks s.w.exops a c with
      | error e => exact ⟨rfl, rfl, fun e he => hs e (hsub e he)⟩
      | ok paths =>
        refine ⟨rfl, rfl, ?_⟩
        intro e he
        rcases List.mem_cons.1 he with rfl | he
        · simp only [hd]; exact hp
        · exact hs e (hsub e he)

theorem evaluate_ok (dec : List ℕ → List ℕ × List ℕ) (s : Memo R) (hs : DictOk dec s) (sd : ℕ)
    (hd : dec ((diffOrbs sd s.w.refwfn).2 ++ (diffOrbs sd s.w.refwfn).1) = ((diffOrbs sd s.w.refwfn).2, (diffOrbs sd s.w.refwfn).1)) (x : R)
    (f : List (List ℕ × ℤ) → R) :
    (evaluate s sd x f).2 = (if sd = s.w.refwfn then .ok x else do
      let e ← expansion s.w sd
      return (e.1 : R) * f e.2) ∧ (evaluate s sd x f).1.w = s.w ∧ DictOk dec (evaluate s sd x f).1 := by
  unfold evaluate
  split_ifs with h
  · exact ⟨rfl, rfl, hs⟩
  · cases hg : signExcite (some s.w.refwfn) (diffOrbs sd s.w.refwfn).2 (diffOrbs sd s.w.refwfn).1 with
    | error e => exact ⟨by simp [expansion, hg, bind, Except.bind], rfl, hs⟩
    | ok sign =>
      obtain ⟨h1, h2, h3⟩ := lookupPaths_ok dec s hs _ _ hd
      simp only
      rcases hl : lookupPaths s (diffOrbs sd s.w.refwfn).2 (diffOrbs sd s.w.refwfn).1 with ⟨s', r⟩
      rw [hl] at h1 h2 h3
      simp only at h1 h2 h3
      cases r with
      | error e =>
        refine ⟨?_, h2, h3⟩
        cases hm : s.w.memo with
        | false =>
          rw [hm] at h1
          simp only [Bool.not_false, if_true, Except.error.injEq] at h1
          simp [expansion, hg, hm, h1, bind, Except.bind]
        | true =>
          rw [hm] at h1
          simp only [Bool.not_true, Bool.false_eq_true, if_false] at h1
          simp [expansion, hg, hm, ← h1, bind, Except.bind]
      | ok paths =>
        refine ⟨?_, h2, h3⟩
        cases hm : s.w.memo with
        | false =>
          rw [hm] at h1
          simp at h1
        | true =>
          rw [hm] at h1
          simp only [Bool.not_true, Bool.false_eq_true, if_false] at h1
          simp [expansion, hg, hm, ← h1, bind, Except.bind, pure, Except.pure]

/-- the determinant that a call is about -/
def Call.det : Call R → Option ℕ
  | .overlap sd => some sd
  | .derivative sd _ => some sd
  | .second sd _ _ => some sd
  | _ => none

theorem call_plain (nelec : ℕ) (dec : List ℕ → List ℕ × List ℕ) (s : Memo R) (hs : DictOk dec s) (c : Call R)
    (hd : ∀ sd, Call.det c = some sd → dec ((diffOrbs sd s.w.refwfn).2 ++ (diffOrbs sd s.w.refwfn).1) =
      ((diffOrbs sd s.w.refwfn).2, (diffOrbs sd s.w.refwfn).1)) (hc : ∀ e, c ≠ .assignExops e) :
    (call nelec s c).2 = (plain nelec s.w c).2 ∧ (call nelec s c).1.w = (plain nelec s.w c).1 ∧ DictOk dec (call nelec s c).1 := by
  cases c with
  | overlap sd =>
    obtain ⟨h1, h2, h3⟩ := evaluate_ok dec s hs sd (hd sd rfl) 1 (amplitudes s.w.params)
    exact ⟨h1, h2, h3⟩
  | derivative sd j =>
    obtain ⟨h1, h2, h3⟩ := evaluate_ok dec s hs sd (hd sd rfl) 0 (fun paths => dAmplitudes s.w.params paths j)
    exact ⟨h1, h2, h3⟩
  | second sd a b =>
    obtain ⟨h1, h2, h3⟩ := evaluate_ok dec s hs sd (hd sd rfl) 0 (fun paths => ddAmplitudes s.w.params paths a b)
    exact ⟨h1, h2, h3⟩
  | assignParams p => exact ⟨rfl, rfl, hs⟩
  | assignRefwfn ref =>
    simp only [call, plain, totalOcc_eq]
    by_cases h : (occSet ref).card = nelec
    · rw [if_neg (fun hn => hn h), if_pos h]
      exact ⟨rfl, rfl, hs⟩
    · rw [if_pos h, if_neg h]
      exact ⟨rfl, rfl, hs⟩
  | assignExops e => exact absurd rfl (hc e)

theorem halves (a c : List ℕ) (h : a.length = c.length) :
    ((a ++ c).take ((a ++ c).length / 2), (a ++ c).drop ((a ++ c).length / 2)) = (a, c) := by
  have : (a ++ c).length / 2 = a.length := by rw [List.length_append]; omega
  rw [this, List.take_left, List.drop_left]

/-- C63: whatever was computed before, overlaps and derivatives for determinants with the right number of electrons are those without a memo.
The parameters and the reference may change in between, and the memo may be emptied at any size. -/
theorem C63_memo (nelec : ℕ) (w : Wfn R) (hw : (occSet w.refwfn).card = nelec) (refresh : ℤ) (cs : List (Call R))
    (hd : ∀ c ∈ cs, ∀ sd, Call.det c = some sd → (occSet sd).card = nelec) (hc : ∀ c ∈ cs, ∀ e, c ≠ .assignExops e) :
    (calls nelec ⟨w, [], refresh⟩ cs).2 = plains nelec w cs := by
  suffices H : ∀ (cs : List (Call R)) (s : Memo R), (occSet s.w.refwfn).card = nelec →
      DictOk (fun k => (k.take (k.length / 2), k.drop (k.length / 2))) s → (∀ c ∈ cs, ∀ sd, Call.det c = some sd → (occSet sd).card = nelec) →
      (∀ c ∈ cs, ∀ e, c ≠ .assignExops e) → (calls nelec s cs).2 = plains nelec s.w cs from
    H cs ⟨w, [], refresh⟩ hw (by intro e he; simp at he) hd hc
  intro cs
  induction cs with
  | nil => intros; rfl
  | cons c cs ih =>
    intro s hw hs hd hc
    obtain ⟨h1, h2, h3⟩ := call_plain nelec _ s hs c
      (fun sd e => halves _ _ (diff_lengths ((hd c (by simp) sd e).trans hw.symm))) (hc c (by simp))
    rw [calls, plains, h1, ← h2, ih _ ?_ h3 (fun c hc => hd c (List.mem_cons_of_mem _ hc)) fun c' h => hc c' (List.mem_cons_of_mem _ h)]
    rw [h2]
    cases c with
    | assignRefwfn ref =>
      simp only [plain]
      split_ifs with h
      · exact h
      · exact hw
    | _ => exact hw

/-- C63 for a fixed reference: then the number of electrons of the determinants does not matter -/
theorem C63_fixed_reference (nelec : ℕ) (w : Wfn R) (refresh : ℤ) (cs : List (Call R)) (hc : ∀ c ∈ cs, ∀ e, c ≠ .assignExops e)
    (hr : ∀ c ∈ cs, ∀ r, c ≠ .assignRefwfn r) : (calls nelec ⟨w, [], refresh⟩ cs).2 = plains nelec w cs := by
  suffices H : ∀ (cs : List (Call R)) (s : Memo R), s.w.refwfn = w.refwfn →
      DictOk (fun k => (k.filter (· ∈ occSet w.refwfn), k.filter (· ∉ occSet w.refwfn))) s →
      (∀ c ∈ cs, ∀ e, c ≠ .assignExops e) → (∀ c ∈ cs, ∀ r, c ≠ .assignRefwfn r) → (calls nelec s cs).2 = plains nelec s.w cs from
    H cs ⟨w, [], refresh⟩ rfl (by intro e he; simp at he) hc hr
  intro cs
  induction cs with
  | nil => intros; rfl
  | cons c cs ih =>
    intro s hw hs hc hr
    obtain ⟨h1, h2, h3⟩ := call_plain nelec _ s hs c (fun sd e => by
      rw [hw]
      have ha : ∀ i ∈ (diffOrbs sd w.refwfn).2, i ∈ occSet w.refwfn := fun i hi => by
        rw [← List.mem_toFinset, diffOrbs_snd_toFinset, Finset.mem_sdiff] at hi; exact hi.1
      have hb : ∀ i ∈ (diffOrbs sd w.refwfn).1, i ∉ occSet w.refwfn := fun i hi => by
        rw [← List.mem_toFinset, diffOrbs_fst_toFinset, Finset.mem_sdiff] at hi; exact hi.2
      rw [List.filter_append, List.filter_append, List.filter_eq_self.2 (fun i hi => by simpa using ha i hi),
        List.filter_eq_nil_iff.2 (fun i hi => by simpa using hb i hi), List.filter_eq_nil_iff.2 (fun i hi => by simpa using ha i hi),
        List.filter_eq_self.2 (fun i hi => by simpa using hb i hi), List.append_nil, List.nil_append]) (hc c (by simp))
    rw [calls, plains, h1, ← h2, ih _ ?_ h3 (fun c' h => hc c' (List.mem_cons_of_mem _ h)) fun c' h => hr c' (List.mem_cons_of_mem _ h)]
    rw [h2]
    cases c with
    | assignRefwfn ref => exact absurd rfl (hr _ (by simp) ref)
    | _ => exact hw

/-- the hypotheses of `C63_memo` can be met: overlaps before and after a change of the parameters and of the reference -/
example (w : Wfn ℚ) (hw : w.refwfn = 0b0101) (t : ℕ → ℚ) :
    (calls 2 ⟨w, [], 1⟩ [.overlap 0b1010, .assignParams t, .overlap 0b1010, .assignRefwfn 0b0011, .derivative 0b1010 0]).2 =
      plains 2 w [.overlap 0b1010, .assignParams t, .overlap 0b1010, .assignRefwfn 0b0011, .derivative 0b1010 0] := by
  have e : (occSet 0b1010).card = 2 := by decide +kernel
  refine C63_memo 2 w (by rw [hw]; decide +kernel) 1 _ ?_ ?_
  · intro c hc sd hsd
    simp only [List.mem_cons, List.not_mem_nil, or_false] at hc
    rcases hc with rfl | rfl | rfl | rfl | rfl <;> simp only [Call.det, reduceCtorEq, Option.some.injEq] at hsd <;> subst hsd <;> exact e
  · intro c hc e
    simp only [List.mem_cons, List.not_mem_nil, or_false] at hc
    rcases hc with rfl | rfl | rfl | rfl | rfl <;> simp

/-- C63 fails if the operators are replaced: the memo still has the products of the old ones.  With the operator `2 → 3` in place of
`0 → 1` the determinant with orbitals 1 and 2 has no overlap with the wavefunction, but the parameter of `2 → 3` is returned. -/
theorem C63_stale_operators (t : ℕ → ℚ) :
    (calls 2 ⟨⟨[1], 0b0101, [[0, 1]], t, true⟩, [], 0⟩ [.overlap 0b0110, .assignExops [[2, 3]], .overlap 0b0110]).2 =
      [.ok (t 0), .ok 0, .ok (t 0)] ∧
    plains 2 ⟨[1], 0b0101, [[0, 1]], t, true⟩ [.overlap 0b0110, .assignExops [[2, 3]], .overlap 0b0110] = [.ok (t 0), .ok 0, .ok 0] := by
  have hd : diffOrbs 0b0110 0b0101 = ([1], [0]) := by decide +kernel
  have hs : signExcite (some 0b0101) [0] [1] = .ok 1 := by decide +kernel
  have h : binSizeNum [1] = [(1, 1)] := by decide +kernel
  have h1 : possibleExops [1] [[0, 1]] [0] [1] = .ok [([0], 1)] := by
    simp only [possibleExops, List.length_cons, List.length_nil, zero_add, part_one_one, ofOption, bind, Except.bind, List.reverse_cons,
      List.reverse_nil, List.nil_append, List.mapM_cons, List.mapM_nil, h, pure, Except.pure]
    decide +kernel
  have h2 : possibleExops [1] [[2, 3]] [0] [1] = .ok [] := by
    simp only [possibleExops, List.length_cons, List.length_nil, zero_add, part_one_one, ofOption, bind, Except.bind, List.reverse_cons,
      List.reverse_nil, List.nil_append, List.mapM_cons, List.mapM_nil, h, pure, Except.pure]
    decide +kernel
  constructor
  · simp [calls, call, evaluate, lookupPaths, hd, hs, h1, amplitudes]
  · simp [plains, plain, overlap, expansion, hd, hs, h1, h2, amplitudes, bind, Except.bind, pure, Except.pure]

/-- C63 fails if the reference changes and determinants have other numbers of electrons: the key `(0, 1, 2)` stands for `0 → 1, 2` and for
`0, 1 → 2` -/
theorem C63_key_collision (t : ℕ → ℚ) :
    (calls 2 ⟨⟨[1], 0b1001, [[0, 2]], t, true⟩, [], 0⟩ [.overlap 0b1110, .assignRefwfn 0b0011, .overlap 0b0100]).2 = [.ok 0, .ok 0, .ok 0] ∧
    plains 2 ⟨[1], 0b1001, [[0, 2]], t, true⟩ [.overlap 0b1110, .assignRefwfn 0b0011, .overlap 0b0100] = [.ok 0, .ok 0, .ok (t 0)] := by
  have hd : diffOrbs 0b1110 0b1001 = ([1, 2], [0]) := by decide +kernel
  have hs : signExcite (some 0b1001) [0] [1, 2] = .ok (-1) := by decide +kernel
  have hd' : diffOrbs 0b0100 0b0011 = ([2], [0, 1]) := by decide +kernel
  have hs' : signExcite (some 0b0011) [0, 1] [2] = .ok 1 := by decide +kernel
  have h : binSizeNum [1] = [(1, 1)] := by decide +kernel
  have h' : binSizeNum [1, 1] = [(1, 2)] := by decide +kernel
  have h1 : possibleExops [1] [[0, 2]] [0] [1, 2] = .ok [] := by
    simp only [possibleExops, List.length_cons, List.length_nil, zero_add, part_one_one, ofOption, bind, Except.bind, List.reverse_cons,
      List.reverse_nil, List.nil_append, List.mapM_cons, List.mapM_nil, h, pure, Except.pure]
    decide +kernel
  have h2 : possibleExops [1] [[0, 2]] [0, 1] [2] = .ok [([0], 1)] := by
    simp only [possibleExops, List.length_cons, List.length_nil, zero_add, Nat.reduceAdd, part_one_two, ofOption, bind, Except.bind,
      List.reverse_cons, List.reverse_nil, List.nil_append, List.mapM_cons, List.mapM_nil, h', pure, Except.pure]
    decide +kernel
  have ht : totalOcc (some 3) = 2 := by decide +kernel
  have hc : (occSet 3).card = 2 := by decide +kernel
  constructor
  · simp [calls, call, evaluate, lookupPaths, hd, hs, h1, hd', hs', ht, amplitudes]
  · simp [plains, plain, overlap, expansion, hd, hs, h1, hd', hs', h2, hc, amplitudes, bind, Except.bind, pure, Except.pure]

end Fanpy.Props
