import Verif.Model.Script
import Mathlib.Tactic.FinCases
import Mathlib.Tactic.Tauto

/-!
# C96, C97: checks of the inputs, and the generated scripts
-/

set_option linter.unusedSimpArgs false
set_option linter.unusedSectionVars false

namespace Fanpy.Props
open Fanpy.Script

/-! ## C96: `check_inputs` -/

theorem need_eq_ok (b : Bool) (e : PyErr) : need b e = .ok () ↔ b = true := by
  cases b <;> simp [need]

theorem need_bind {α : Type} (b : Bool) (e : PyErr) (f : Unit → Except PyErr α) (x : α) :
    (need b e >>= f) = .ok x ↔ b = true ∧ f () = .ok x := by
  cases b <;> simp [need, bind, Except.bind]

theorem unit_bind {α : Type} (m : Except PyErr Unit) (f : Unit → Except PyErr α) (x : α) : (m >>= f) = .ok x ↔ m = .ok () ∧ f () = .ok x := by
  rcases m with e | u
  · simp [bind, Except.bind]
  · simp [bind, Except.bind]

/-- a text without newline and semicolon -/
def CleanText (a : Arg) : Prop := ∃ s : String, a = .str s ∧ '\n' ∉ s.toList ∧ ';' ∉ s.toList

/-- an optional text without newline and semicolon -/
def CleanText? (a : Arg) : Prop := a = .none ∨ CleanText a

theorem checkText_ok (a : Arg) : checkText a = .ok () ↔ CleanText a := by
  cases a <;> simp [checkText, CleanText, need_eq_ok, hasBreak]

theorem checkText?_ok (a : Arg) : checkText? a = .ok () ↔ CleanText? a := by
  cases a <;> simp [checkText?, CleanText?, checkText_ok, CleanText]

/-- a whole number (python's `True` and `False` are whole numbers) -/
def IsWhole (a : Arg) (n : ℤ) : Prop := a = .int n ∨ (a = .bool true ∧ n = 1) ∨ (a = .bool false ∧ n = 0)

/-- a number -/
def IsNumber (a : Arg) : Prop := (∃ n, IsWhole a n) ∨ ∃ z, a = .float z

theorem isInt_iff (a : Arg) : a.isInt = true ↔ IsWhole a a.toInt := by
  cases a <;> simp [Arg.isInt, IsWhole, Arg.toInt]

theorem isWhole_toInt {a : Arg} {n : ℤ} (h : IsWhole a n) : a.isInt = true ∧ n = a.toInt := by
  rcases h with rfl | ⟨rfl, rfl⟩ | ⟨rfl, rfl⟩ <;> simp [Arg.isInt, Arg.toInt]

theorem isNumber_iff (a : Arg) : a.isNumber = true ↔ IsNumber a := by
  cases a with
  | bool b => cases b <;> simp [Arg.isNumber, IsNumber, IsWhole]
  | _ => simp [Arg.isNumber, IsNumber, IsWhole]

theorem getWfnInfo_ok (a : Arg) (t : String) : getWfnInfo a = .ok t ↔ a = .str t ∧ t ∈ wfnTypes := by
  cases a with
  | str s =>
    simp only [getWfnInfo]
    by_cases h : s ∈ wfnTypes
    · rw [if_pos h]
      constructor
      · intro e; cases e; exact ⟨rfl, h⟩
      · rintro ⟨e, _⟩; cases e; rfl
    · rw [if_neg h]
      constructor
      · intro e; cases e
      · rintro ⟨e, ht⟩; cases e; exact absurd ht h
  | _ => simp [getWfnInfo]

theorem checkPspace_ok (n : ℤ) (a : Arg) :
    checkPspace n a = .ok () ↔ ∃ l : List ℤ, (a = .list (l.map some) ∨ a = .tuple (l.map some)) ∧ ∀ i ∈ l, 0 < i ∧ i ≤ n := by
  have key : ∀ l : List (Option ℤ), ((if ¬ l.all Option.isSome then (.error .typeError : Except PyErr Unit)
      else if l.any (fun i => i.getD 0 ≤ 0 ∨ i.getD 0 > n) then .error .valueError else .ok ()) = .ok () ↔
      ∃ l' : List ℤ, l = l'.map some ∧ ∀ i ∈ l', 0 < i ∧ i ≤ n) := by
    intro l
    by_cases h : l.all Option.isSome
    · rw [if_neg (not_not.2 h)]
      have hl : l = (l.map fun i => i.getD 0).map some := by
        rw [List.map_map]
        refine (List.map_id l).symm.trans (List.map_congr_left fun i hi => ?_)
        have := List.all_eq_true.1 h i hi
        obtain ⟨x, rfl⟩ := Option.isSome_iff_exists.1 this
        rfl
      constructor
      · intro h2
        refine ⟨_, hl, ?_⟩
        split_ifs at h2 with h3
        simp only [List.any_eq_true, decide_eq_true_eq, not_exists, not_and, not_or, not_le, not_lt] at h3
        intro i hi
        obtain ⟨o, ho, rfl⟩ := List.mem_map.1 hi
        exact ⟨(h3 o ho).1, by have := (h3 o ho).2; omega⟩
      · rintro ⟨l', rfl, h3⟩
        rw [if_neg]
        simp only [List.any_map, List.any_eq_true, decide_eq_true_eq, Function.comp, Option.getD_some, not_exists, not_and]
        intro i hi
        have := h3 i hi
        omega
    · rw [if_pos h]
      constructor
      · intro h2; cases h2
      · rintro ⟨l', rfl, _⟩
        exact absurd (by simp) h
  cases a with
  | list l => rw [checkPspace]; simp only [Arg.seq?]; rw [key]; simp
  | tuple l => rw [checkPspace]; simp only [Arg.seq?]; rw [key]; simp
  | _ => simp [checkPspace, Arg.seq?]

/-- `mb` or `gb` at the end, in any case -/
def CleanMemory (a : Arg) : Prop := a = .none ∨ ∃ (s : String) (c d : Char) (r : List Char), a = .str s ∧ s.toList = r ++ [c, d] ∧
  (c.toLower = 'm' ∨ c.toLower = 'g') ∧ d.toLower = 'b'

theorem checkMemory_ok (a : Arg) : checkMemory a = .ok () ↔ CleanMemory a := by
  cases a with
  | str s =>
    simp only [checkMemory, CleanMemory, need_eq_ok, decide_eq_true_eq]
    have : s.toList.reverse.reverse = s.toList := List.reverse_reverse _
    generalize s.toList.reverse = w at this
    constructor
    · intro h
      right
      rcases w with _ | ⟨d, _ | ⟨c, r⟩⟩
      · simp at h
      · simp at h
      · refine ⟨s, c, d, r.reverse, rfl, ?_, ?_⟩
        · rw [← this]; simp
        · simpa [or_and_right] using h
    · rintro (h | ⟨t, c, d, r, h1, h2, h3⟩)
      · cases h
      · cases h1
        have hw : w = d :: c :: r.reverse := by
          rw [← List.reverse_reverse w, this, h2]; simp
        subst hw
        simpa [or_and_right] using h3
  | _ => simp [checkMemory, CleanMemory]

/-- C96: `check_inputs` accepts the inputs if and only if
* the number of electrons is a whole number, the repulsion and (if given) the noises are numbers, and `optimize_orbs` is a boolean,
* the type of the wavefunction is one of the table (in lower case), the orders of excitation are a list or tuple of whole numbers from 1 to
  the number of electrons,
* the objective and the solver are known, `cma` and `minimize` have an objective of one equation, `least_squares`, `root` and `fanpt` have a
  projected objective, and `diag` has a CI wavefunction of a fixed set of types without orbital optimization,
* the texts have no newline and no semicolon, and the memory ends with `mb` or `gb`. -/
theorem C96_accepts (a : Inputs) :
    checkInputs a = .ok () ↔
      (∃ n, IsWhole a.nelec n ∧
        ∃ l : List ℤ, (a.pspaceExc = .list (l.map some) ∨ a.pspaceExc = .tuple (l.map some)) ∧ ∀ i ∈ l, 0 < i ∧ i ≤ n) ∧
      IsNumber a.nucNuc ∧ (IsNumber a.hamNoise ∨ a.hamNoise = .none) ∧ (IsNumber a.wfnNoise ∨ a.wfnNoise = .none) ∧
      (∃ b, a.optimizeOrbs = .bool b) ∧ (∃ t ∈ wfnTypes, a.wfnType = .str t) ∧
      (a.objective = .none ∨ ∃ s ∈ ["projected", "projected_stochastic", "least_squares", "variational", "one_energy", "energy"], a.objective = .str s) ∧
      (a.solver = .none ∨ ∃ s ∈ ["diag", "cma", "minimize", "least_squares", "root", "trustregion", "fanpt"], a.solver = .str s) ∧
      (a.solver = .str "cma" ∨ a.solver = .str "minimize" → ∃ s ∈ ["least_squares", "variational", "one_energy", "energy"], a.objective = .str s) ∧
      (a.solver = .str "least_squares" ∨ a.solver = .str "root" ∨ a.solver = .str "fanpt" →
        a.objective = .str "projected" ∨ a.objective = .str "projected_stochastic") ∧
      (a.solver = .str "diag" → (∃ t ∈ ["ci_pairs", "cisd", "fci", "doci"], a.wfnType = .str t) ∧ a.optimizeOrbs = .bool false) ∧
      CleanText a.oneInt ∧ CleanText a.twoInt ∧ CleanText? a.loadOrbs ∧ CleanText? a.loadHam ∧ CleanText? a.loadHamUm ∧ CleanText? a.loadWfn ∧
      CleanText? a.saveChk ∧ CleanText? a.filename ∧ CleanMemory a.memory ∧ CleanText? a.solverKwargs ∧ CleanText? a.wfnKwargs := by
  have hw : (∃ n, IsWhole a.nelec n ∧
        ∃ l : List ℤ, (a.pspaceExc = .list (l.map some) ∨ a.pspaceExc = .tuple (l.map some)) ∧ ∀ i ∈ l, 0 < i ∧ i ≤ n) ↔
      a.nelec.isInt = true ∧ checkPspace a.nelec.toInt a.pspaceExc = .ok () := by
    rw [checkPspace_ok]
    constructor
    · rintro ⟨n, h1, h2⟩
      obtain ⟨h3, rfl⟩ := isWhole_toInt h1
      exact ⟨h3, h2⟩
    · rintro ⟨h1, h2⟩
      exact ⟨_, (isInt_iff _).1 h1, h2⟩
  have hb : (∃ b, a.optimizeOrbs = .bool b) ↔ a.optimizeOrbs.isBool = true := by
    cases a.optimizeOrbs <;> simp [Arg.isBool]
  have hd : ∀ b, a.optimizeOrbs = .bool b → (a.optimizeOrbs = .bool false ↔ ¬ a.optimizeOrbs = .bool true) := by
    intro b h; rw [h]; cases b <;> simp
  have hg : ∀ (f : String → Except PyErr Unit), (∀ t t', f t = f t') → ((getWfnInfo a.wfnType >>= f) = .ok () ↔
      (∃ t ∈ wfnTypes, a.wfnType = .str t) ∧ f "" = .ok ()) := by
    intro f hf
    constructor
    · intro h
      rcases hi : getWfnInfo a.wfnType with e | t
      · rw [hi] at h; cases h
      · rw [hi] at h
        exact ⟨⟨t, ((getWfnInfo_ok _ _).1 hi).2, ((getWfnInfo_ok _ _).1 hi).1⟩, (hf "" t).trans h⟩
    · rintro ⟨⟨t, ht, e⟩, h⟩
      rw [(getWfnInfo_ok _ t).2 ⟨e, ht⟩]
      exact (hf t "").trans h
  rw [hw, checkInputs]
  simp only [unit_bind, need_eq_ok]
  rw [hg _ (fun _ _ => rfl)]
  simp only [unit_bind, need_eq_ok, checkText_ok, checkText?_ok, checkMemory_ok, isNumber_iff, ← hb, Bool.or_eq_true, decide_eq_true_eq,
    objectives, objectiveList, solvers, List.mem_cons, List.mem_append, List.not_mem_nil, or_false, List.cons_append, List.nil_append]
  constructor
  · rintro ⟨a1, a2, a3, a4, a5, a6, a7, a8, a9, a10, a11, a12, a13, a14, a15, a16⟩
    obtain ⟨b, hbb⟩ := a5
    refine ⟨⟨a1, a9⟩, a2, a3, a4, ⟨b, hbb⟩, a8, ?_, ?_, ?_, ?_, ?_, a6, a7, a16⟩
    · rcases a10 with h | h | h | h | h | h | h <;> simp [h]
    · rcases a11 with h | h | h | h | h | h | h | h <;> simp [h]
    · intro h
      have := not_not.1 fun hn => a12 ⟨h, hn⟩
      rcases this with h | h | h | h <;> simp [h]
    · intro h
      exact not_not.1 fun hn => a13 ⟨h, hn⟩
    · intro h
      refine ⟨?_, (hd b hbb).2 fun hn => a15 ⟨h, hn⟩⟩
      have := not_not.1 fun hn => a14 ⟨h, hn⟩
      rcases this with h | h | h | h <;> simp [h]
  · rintro ⟨⟨a1, a9⟩, a2, a3, a4, ⟨b, hbb⟩, a8, a10, a11, a12, a13, a14, a6, a7, a16⟩
    refine ⟨a1, a2, a3, a4, ⟨b, hbb⟩, a6, a7, a8, a9, ?_, ?_, ?_, ?_, ?_, ?_, a16⟩
    · rcases a10 with h | ⟨s, hs, h⟩
      · exact .inl h
      · rw [h]; rcases hs with rfl | rfl | rfl | rfl | rfl | rfl <;> simp
    · rcases a11 with h | ⟨s, hs, h⟩
      · exact .inl h
      · rw [h]; rcases hs with rfl | rfl | rfl | rfl | rfl | rfl | rfl <;> simp
    · rintro ⟨h, hn⟩
      obtain ⟨s, hs, h⟩ := a12 h
      apply hn
      rw [h]; rcases hs with rfl | rfl | rfl | rfl <;> simp
    · rintro ⟨h, hn⟩
      exact hn (a13 h)
    · rintro ⟨h, hn⟩
      obtain ⟨⟨s, hs, h⟩, _⟩ := a14 h
      apply hn
      rw [h]; rcases hs with rfl | rfl | rfl | rfl <;> simp
    · rintro ⟨h, hn⟩
      exact (hd b hbb).1 (a14 h).2 hn

theorem need_err {b : Bool} {e e' : PyErr} (h : need b e = .error e') : e' = e := by
  cases b
  · simp [need] at h; exact h.symm
  · simp [need] at h

theorem checkText_err {a : Arg} {e : PyErr} (h : checkText a = .error e) : e = .typeError ∨ e = .valueError := by
  cases a with
  | str s => exact .inr (need_err h)
  | _ => simp [checkText] at h; exact .inl h.symm

theorem checkText?_err {a : Arg} {e : PyErr} (h : checkText? a = .error e) : e = .typeError ∨ e = .valueError := by
  cases a with
  | none => simp [checkText?] at h
  | _ => rw [checkText?] at h; exact checkText_err h; simp

theorem err_bind {α β : Type} {m : Except PyErr α} {f : α → Except PyErr β} {P : PyErr → Prop} (hm : ∀ e, m = .error e → P e)
    (hf : ∀ x e, f x = .error e → P e) : ∀ e, (m >>= f) = .error e → P e := by
  intro e h
  rcases m with e' | x
  · exact hm e (by simpa [bind, Except.bind] using h)
  · exact hf x e h

/-- C96: what is not accepted raises `TypeError` or `ValueError`. -/
theorem C96_errors (a : Inputs) : ∀ e, checkInputs a = .error e → e = .typeError ∨ e = .valueError := by
  have n1 : ∀ (b : Bool) (e : PyErr), need b .typeError = .error e → e = .typeError ∨ e = .valueError := fun b e h => .inl (need_err h)
  have n2 : ∀ (b : Bool) (e : PyErr), need b .valueError = .error e → e = .typeError ∨ e = .valueError := fun b e h => .inr (need_err h)
  have n3 : ∀ (x : Arg) (e : PyErr), getWfnInfo x = .error e → e = .typeError ∨ e = .valueError := by
    intro x e h
    cases x with
    | str s =>
      simp only [getWfnInfo] at h
      split_ifs at h
      cases h; exact .inr rfl
    | _ => simp [getWfnInfo] at h; simp [← h]
  have n4 : ∀ (n : ℤ) (x : Arg) (e : PyErr), checkPspace n x = .error e → e = .typeError ∨ e = .valueError := by
    intro n x e h
    rw [checkPspace] at h
    split at h
    · cases h; exact .inl rfl
    · split_ifs at h <;> cases h <;> simp
  have n5 : ∀ (x : Arg) (e : PyErr), checkMemory x = .error e → e = .typeError ∨ e = .valueError := by
    intro x e h
    cases x with
    | str s => exact .inr (need_err h)
    | _ => simp [checkMemory] at h <;> simp [← h]
  have n6 : ∀ (x : Arg) (e : PyErr), checkText x = .error e → e = .typeError ∨ e = .valueError := fun _ _ h => checkText_err h
  have n7 : ∀ (x : Arg) (e : PyErr), checkText? x = .error e → e = .typeError ∨ e = .valueError := fun _ _ h => checkText?_err h
  unfold checkInputs
  repeat
    first
    | exact n7 _
    | refine err_bind (n1 _) fun _ => ?_
    | refine err_bind (n2 _) fun _ => ?_
    | refine err_bind (n3 _) fun _ => ?_
    | refine err_bind (n4 _ _) fun _ => ?_
    | refine err_bind (n5 _) fun _ => ?_
    | refine err_bind (n6 _) fun _ => ?_
    | refine err_bind (n7 _) fun _ => ?_

/-- the inputs of a calculation -/
def ap1rogInputs : Inputs :=
  { nelec := .int 4, oneInt := .str "oneint.npy", twoInt := .str "twoint.npy", wfnType := .str "ap1rog", pspaceExc := .tuple [some 1, some 2],
    objective := .str "projected", solver := .str "least_squares", nucNuc := .float false, memory := .str "6GB" }

-- accepted
example : checkInputs ap1rogInputs = .ok () := by decide +kernel
-- not accepted: upper case, one equation for a system solver, orders above the number of electrons
example : checkInputs { ap1rogInputs with wfnType := .str "AP1roG" } = .error .valueError := by decide +kernel
example : checkInputs { ap1rogInputs with solver := .str "cma" } = .error .valueError := by decide +kernel
example : checkInputs { ap1rogInputs with pspaceExc := .list [some 5] } = .error .valueError := by decide +kernel
example : checkInputs { ap1rogInputs with oneInt := .none } = .error .typeError := by decide +kernel

/-- C96 (disagreement): refusing newlines and semicolons does not prevent code injection: for any text `e` without these characters there is
a name of a file that is accepted and makes `e` an expression of the script. -/
theorem C96_injection (var e : String) (h1 : '\n' ∉ e.toList) (h2 : ';' ∉ e.toList) :
    checkText (.str ("' + " ++ e ++ " + '")) = .ok () ∧
    fileLine var ("' + " ++ e ++ " + '") = var ++ " = '' + " ++ e ++ " + ''\n" := by
  constructor
  · rw [checkText_ok]
    refine ⟨_, rfl, ?_, ?_⟩ <;> simp [h1, h2]
  · rw [fileLine]
    apply String.toList_inj.1
    simp

/-! ## C97: the generated scripts -/

/-- names that python knows -/
def builtinNames : List String := ["print", "len", "bool", "RuntimeError"]

/-- every statement uses only names that are known or bound by an earlier statement -/
def Closed (env : List String) : List Stmt → Prop
  | [] => True
  | s :: r => (∀ n ∈ s.uses, n ∈ env) ∧ Closed (env ++ s.defs) r

/-- the names bound by a script -/
def defsOf (l : List Stmt) : List String := l.flatMap Stmt.defs

theorem closed_append (env : List String) (a b : List Stmt) : Closed env (a ++ b) ↔ Closed env a ∧ Closed (env ++ defsOf a) b := by
  induction a generalizing env with
  | nil => simp [Closed, defsOf]
  | cons s r ih => simp only [List.cons_append, Closed, ih, defsOf, List.flatMap_cons, List.append_assoc, and_assoc]

theorem Closed.mono {env env' : List String} {l : List Stmt} (h : Closed env l) (hs : ∀ n ∈ env, n ∈ env') : Closed env' l := by
  induction l generalizing env env' with
  | nil => trivial
  | cons s r ih =>
    refine ⟨fun n hn => hs n (h.1 n hn), ih h.2 fun n hn => ?_⟩
    rcases List.mem_append.1 hn with hn | hn
    · exact List.mem_append_left _ (hs n hn)
    · exact List.mem_append_right _ hn

theorem objectiveStmts_ok (o : Options) :
    (∃ l, objectiveStmts o = .ok l) ↔ ∃ s ∈ ["projected", "least_squares", "variational", "one_energy"], o.objective = some s := by
  simp only [objectiveStmts]
  constructor
  · rintro ⟨l, h⟩
    split at h <;> first | (rename_i e; exact ⟨_, by simp, e⟩) | skip
    simp [bind, Except.bind] at h
  · rintro ⟨s, hs, e⟩
    simp only [List.mem_cons, List.not_mem_nil, or_false] at hs
    rcases hs with rfl | rfl | rfl | rfl <;> rw [e]
    · by_cases ht : o.solver = some "trustregion"
      · simp only [ht, if_true]; exact ⟨_, rfl⟩
      · simp only [ht, if_false]; exact ⟨_, rfl⟩
    · exact ⟨_, rfl⟩
    · exact ⟨_, rfl⟩
    · exact ⟨_, rfl⟩

theorem solveStmts_ok (pyscf : Bool) (o : Options) :
    (∃ l, solveStmts pyscf o = .ok l) ↔ ∃ s ∈ ["cma", "diag", "minimize", "least_squares", "root", "trustregion"], o.solver = some s := by
  simp only [solveStmts]
  constructor
  · rintro ⟨l, h⟩
    split at h
    · cases h
    · rename_i e
      rw [solverInfo.eq_def] at e
      split at e <;> first | (rename_i e'; exact ⟨_, by simp, e'⟩) | skip
      cases e
  · rintro ⟨s, hs, e⟩
    simp only [List.mem_cons, List.not_mem_nil, or_false] at hs
    rcases hs with rfl | rfl | rfl | rfl | rfl | rfl <;> rw [e] <;> exact ⟨_, rfl⟩

theorem makeScript_ok {pyscf : Bool} {o : Options} {l : List Stmt} : makeScript pyscf o = .ok l ↔ o.wfnType ∈ wfnTypes ∧
    ∃ a b, objectiveStmts o = .ok a ∧ solveStmts pyscf o = .ok b ∧
      l = importStmts pyscf o ++ systemStmts pyscf ++ wfnStmts pyscf o ++ hamStmts pyscf o ++ chkStmts o ++ pspaceStmts pyscf o ++
        weightStmts o ++ a ++ energyStmts o ++ b := by
  rw [makeScript]
  by_cases hw : o.wfnType ∈ wfnTypes
  · rw [if_neg (not_not.2 hw)]
    rcases e1 : objectiveStmts o with e | l1
    · simp [bind, Except.bind]
    · rcases e2 : solveStmts pyscf o with e | l2
      · simp [bind, Except.bind]
      · simp [bind, Except.bind, pure, Except.pure, hw, eq_comm]
  · rw [if_pos hw]
    simp [hw]

/-- C97: `make_script` makes a script if and only if the type of the wavefunction is known, the objective is one of four and the solver one
of six. -/
theorem C97_made (pyscf : Bool) (o : Options) :
    (∃ l, makeScript pyscf o = .ok l) ↔ o.wfnType ∈ wfnTypes ∧ (∃ s ∈ ["projected", "least_squares", "variational", "one_energy"], o.objective = some s) ∧
      ∃ s ∈ ["cma", "diag", "minimize", "least_squares", "root", "trustregion"], o.solver = some s := by
  rw [← objectiveStmts_ok, ← solveStmts_ok pyscf]
  simp only [makeScript_ok]
  constructor
  · rintro ⟨l, hw, a, b, ha, hb, _⟩; exact ⟨hw, ⟨a, ha⟩, ⟨b, hb⟩⟩
  · rintro ⟨hw, ⟨a, ha⟩, ⟨b, hb⟩⟩; exact ⟨_, hw, a, b, ha, hb, rfl⟩

theorem defsOf_append (a b : List Stmt) : defsOf (a ++ b) = defsOf a ++ defsOf b := by
  simp [defsOf]

/-- names that every script binds before the wavefunction is made -/
def commonNames (pyscf : Bool) : List String := ["np", "os", "sys"] ++ sizeNames pyscf ++ intNames pyscf

/-- the names used by the keyword arguments of the wavefunction -/
theorem wfn_uses (o : Options) (hw : o.wfnType ∈ wfnTypes) :
    o.wfn.2.uses = match o.wfnKw with
      | some k => k.uses
      | none => if o.wfnType = "rbm" then ["nspin"] else [] := by
  rw [Options.wfn]
  by_cases hc : o.wfnType = "custom"
  · rw [if_pos hc, hc]
    cases o.wfnKw <;> simp
  · rw [if_neg hc]
    cases hk : o.wfnKw with
    | some k =>
      simp only
      unfold wfnInfo
      split <;> rfl
    | none =>
      have : ∀ t ∈ wfnTypes, (wfnInfo t none).2.2.uses = if t = "rbm" then ["nspin"] else [] := by decide +kernel
      exact this _ hw

theorem closed_system (pyscf : Bool) (env : List String)
    (h : ∀ n ∈ builtinNames ++ ["np", "os"] ++ (if pyscf then ["gto", "scf", "PYSCF"] else []), n ∈ env) : Closed env (systemStmts pyscf) := by
  cases pyscf <;> simp [builtinNames] at h <;> simp [systemStmts, Closed, h]

theorem closed_wfn (pyscf : Bool) (o : Options) (env : List String)
    (h : ∀ n ∈ builtinNames ++ ["np", "os", o.wfn.1] ++ sizeNames pyscf ++ o.wfn.2.uses, n ∈ env) : Closed env (wfnStmts pyscf o) := by
  simp only [List.mem_append] at h
  have hb : ∀ n ∈ builtinNames, n ∈ env := fun n hn => h n (by simp [hn])
  have h1 : "np" ∈ env := h _ (by simp)
  have h2 : "os" ∈ env := h _ (by simp)
  have h3 : o.wfn.1 ∈ env := h _ (by simp)
  have h4 : ∀ n ∈ sizeNames pyscf, n ∈ env := fun n hn => h n (by simp [hn])
  have h5 : ∀ n ∈ o.wfn.2.uses, n ∈ env := fun n hn => h n (by simp [hn])
  have h6 : "print" ∈ env := hb _ (by simp [builtinNames])
  rw [wfnStmts]
  cases o.loadWfn <;> cases o.wfnNoise <;> simp [Closed, h1, h2, h3, h6] <;> grind

theorem closed_ham (pyscf : Bool) (o : Options) (env : List String)
    (h : ∀ n ∈ builtinNames ++ ["np", "os", o.hamName] ++ intNames pyscf, n ∈ env) : Closed env (hamStmts pyscf o) := by
  have h1 : "np" ∈ env := h _ (by simp)
  have h2 : "os" ∈ env := h _ (by simp)
  have h3 : o.hamName ∈ env := h _ (by simp)
  have h4 : ∀ n ∈ intNames pyscf, n ∈ env := fun n hn => h n (by simp [hn])
  have h6 : "print" ∈ env := h _ (by simp [builtinNames])
  rw [hamStmts]
  cases o.loadHam <;> cases o.loadHamUm <;> cases o.hamNoise <;> simp [Closed, h1, h2, h3, h6] <;> exact h4

theorem closed_chk (o : Options) (env : List String) (h : ∀ n ∈ ["np", "wfn", "ham"], n ∈ env) : Closed env (chkStmts o) := by
  simp at h
  rw [chkStmts]
  split_ifs <;> simp [Closed, h]

theorem closed_pspace (pyscf : Bool) (o : Options) (env : List String)
    (h : ∀ n ∈ builtinNames ++ ["np", "sd_list", "wfn", "ham"] ++ sizeNames pyscf, n ∈ env) : Closed env (pspaceStmts pyscf o) := by
  have h4 : ∀ n ∈ sizeNames pyscf, n ∈ env := fun n hn => h n (by simp [hn])
  have h1 : ∀ n ∈ builtinNames ++ ["np", "sd_list", "wfn", "ham"], n ∈ env := fun n hn => h n (List.mem_append_left _ hn)
  simp [builtinNames] at h1
  rw [pspaceStmts]
  cases o.optimizeOrbs <;> simp [Closed, h1] <;> exact h4

theorem closed_weight (o : Options) (env : List String) (hc : ∀ c, o.constraint = some c → c = "" ∨ c = "norm" ∨ c = "energy")
    (h : ∀ n ∈ builtinNames ++ ["np", "wfn", "ham", "pspace", "param_selection"] ++ constraintClass o.constraint, n ∈ env) :
    Closed env (weightStmts o) := by
  rw [weightStmts]
  split_ifs
  · rcases hk : o.constraint with _ | c
    · simp [builtinNames] at h
      simp [Closed, h]
    · rw [hk] at h
      rcases hc c hk with rfl | rfl | rfl <;> simp [builtinNames, constraintClass] at h <;> simp [Closed, h]
  · trivial

theorem weight_defs (o : Options) (ho : o.objective = some "projected" ∨ o.objective = some "least_squares") :
    "weights" ∈ defsOf (weightStmts o) ∧ ∀ c, o.constraint = some c → c = "norm" ∨ c = "energy" → c ∈ defsOf (weightStmts o) := by
  rw [weightStmts, if_pos ho]
  constructor
  · split <;> simp [defsOf]
  · rintro c e (rfl | rfl) <;> rw [e] <;> simp [defsOf]

theorem closed_objective (o : Options) (env : List String) (l : List Stmt) (hl : objectiveStmts o = .ok l)
    (hc : ∀ c, o.constraint = some c → c = "" ∨ c = "norm" ∨ c = "energy")
    (h : ∀ n ∈ builtinNames ++ ["np", "wfn", "ham", "pspace", "param_selection"] ++ objectiveClass o.objective ++ defsOf (weightStmts o), n ∈ env) :
    Closed env l ∧ "objective" ∈ defsOf l := by
  obtain ⟨s, hs, e⟩ := (objectiveStmts_ok o).1 ⟨l, hl⟩
  have h1 : ∀ n ∈ builtinNames ++ ["np", "wfn", "ham", "pspace", "param_selection"], n ∈ env := fun n hn =>
    h n (List.mem_append_left _ (List.mem_append_left _ hn))
  have h2 : ∀ n ∈ objectiveClass o.objective, n ∈ env := fun n hn => h n (List.mem_append_left _ (List.mem_append_right _ hn))
  have h3 : ∀ n ∈ defsOf (weightStmts o), n ∈ env := fun n hn => h n (List.mem_append_right _ hn)
  clear h
  have hcons : (o.objective = some "projected" ∨ o.objective = some "least_squares") → ∀ n ∈ (match o.constraint with
      | none => []
      | some c => if c = "" then [] else [c]), n ∈ env := by
    intro ho n hn
    rcases hk : o.constraint with _ | c
    · simp [hk] at hn
    · rw [hk] at hn
      simp only at hn
      rcases hc c hk with rfl | hh
      · simp at hn
      · have := h3 _ ((weight_defs o ho).2 c hk hh)
        split_ifs at hn
        · simp at hn
        · simp at hn; exact hn ▸ this
  have hwt : (o.objective = some "projected" ∨ o.objective = some "least_squares") → "weights" ∈ env := fun ho => h3 _ (weight_defs o ho).1
  simp [builtinNames] at h1
  simp only [objectiveStmts, e] at hl
  simp only [List.mem_cons, List.not_mem_nil, or_false] at hs
  rcases hs with rfl | rfl | rfl | rfl
  · have hcons := hcons (.inl e)
    have hwt := hwt (.inl e)
    rw [e] at h2; simp [objectiveClass] at h2
    by_cases ht : o.solver = some "trustregion"
    · simp only [ht, if_true] at hl
      cases hl
      simp [Closed, defsOf, h1, h2, hwt]
    · simp only [ht, if_false] at hl
      cases hl
      refine ⟨⟨?_, ?_, trivial⟩, by simp [defsOf]⟩
      · intro n hn
        rcases List.mem_append.1 hn with hn | hn
        · rcases List.mem_append.1 hn with hn | hn
          · clear * - hn h1 h2 hwt; revert n; simp [h1, h2, hwt]
          · split_ifs at hn <;> simp at hn; rw [hn]; exact h1.2.2.2.2.2.2.2.1
        · exact hcons n hn
      · simp
  · have hcons := hcons (.inr e)
    have hwt := hwt (.inr e)
    rw [e] at h2; simp [objectiveClass] at h2
    cases hl
    refine ⟨⟨?_, ?_, ?_⟩, by simp [defsOf]⟩
    · intro n hn
      rcases List.mem_append.1 hn with hn | hn
      · rcases List.mem_append.1 hn with hn | hn
        · clear * - hn h1 h2 hwt; revert n; simp [h1, h2, hwt]
        · split_ifs at hn <;> simp at hn; rw [hn]; exact h1.2.2.2.2.2.2.2.1
      · exact hcons n hn
    · simp
    · split_ifs <;> simp [Closed, h1]
  · rw [e] at h2; simp [objectiveClass] at h2
    cases hl
    refine ⟨⟨by simp [h1, h2], by simp, ?_⟩, by simp [defsOf]⟩
    split_ifs <;> simp [Closed, h1]
  · rw [e] at h2; simp [objectiveClass] at h2
    cases hl
    refine ⟨⟨by simp [h1, h2], by simp, ?_⟩, by simp [defsOf]⟩
    split_ifs <;> simp [Closed, h1]

theorem closed_energy (o : Options) (env : List String) (h : ∀ n ∈ builtinNames ++ ["np", "wfn", "pspace", "objective"] ++ defsOf (weightStmts o), n ∈ env) :
    Closed env (energyStmts o) := by
  have h1 : ∀ n ∈ builtinNames ++ ["np", "wfn", "pspace", "objective"], n ∈ env := fun n hn => h n (List.mem_append_left _ hn)
  have h3 : ∀ n ∈ defsOf (weightStmts o), n ∈ env := fun n hn => h n (List.mem_append_right _ hn)
  simp [builtinNames] at h1
  rw [energyStmts, closed_append]
  constructor
  · split_ifs <;> simp [Closed, h1]
  · by_cases hp : (o.objective = some "projected" ∨ o.objective = some "least_squares") ∧ o.solver ≠ some "trustregion"
    · rw [if_pos hp]
      by_cases hk : o.constraint = some "energy"
      · have := h3 _ ((weight_defs o hp.1).2 _ hk (.inr rfl))
        simp [hk, Closed, h1, this]
      · simp [hk, Closed, h1]
    · rw [if_neg hp]; trivial

/-- the name of the imported solver -/
def solverName (o : Options) : List String :=
  match solverInfo o.solver with
  | some s => [s.1]
  | none => []

theorem closed_solve (pyscf : Bool) (o : Options) (env : List String) (l : List Stmt) (hl : solveStmts pyscf o = .ok l)
    (h : ∀ n ∈ builtinNames ++ ["np", "wfn", "ham", "objective"] ++ (if pyscf then ["interface"] else ["nuc_nuc"]) ++ solverName o, n ∈ env)
    (hk : ∀ k, o.solverKw = some k → ∀ n ∈ k.uses, n ∈ env) : Closed env l := by
  obtain ⟨s, hs, e⟩ := (solveStmts_ok pyscf o).1 ⟨l, hl⟩
  rw [solveStmts.eq_def] at hl
  rw [solverName] at h
  rw [e] at hl h
  simp only [List.mem_cons, List.not_mem_nil, or_false] at hs
  have hp : ∀ n ∈ (if pyscf then ["interface"] else ["nuc_nuc"]), n ∈ env := fun n hn => h n (by simp [hn])
  have h1 : ∀ n ∈ builtinNames ++ ["np", "wfn", "ham", "objective"], n ∈ env := fun n hn => h n (List.mem_append_left _ (List.mem_append_left _ hn))
  simp [builtinNames] at h1
  rcases hs with rfl | rfl | rfl | rfl | rfl | rfl
  all_goals
    have h2 := fun n hn => h n (List.mem_append_right _ hn)
    simp [solverInfo] at hl h2
    subst hl
    cases pyscf <;> simp at hp <;> (try rcases hkk : o.solverKw with _ | k) <;> simp [Closed, h1, h2, hp]
    all_goals exact hk _ hkk

/-- C97: every name that a script uses is bound by an earlier statement: for every known type of wavefunction, the constraints `norm` and
`energy`, and keyword arguments that use only the module `numpy` and the numbers and integrals of the system.  The default arguments of `rbm`
are excluded for pyscf. -/
theorem C97_closed_partial (pyscf : Bool) (o : Options) (l : List Stmt) (hl : makeScript pyscf o = .ok l)
    (hc : ∀ c, o.constraint = some c → c = "" ∨ c = "norm" ∨ c = "energy")
    (hw : ∀ k, o.wfnKw = some k → ∀ n ∈ k.uses, n ∈ commonNames pyscf)
    (hs : ∀ k, o.solverKw = some k → ∀ n ∈ k.uses, n ∈ commonNames pyscf ++ ["wfn", "ham", "pspace", "objective"])
    (hr : ¬ (pyscf = true ∧ o.wfnType = "rbm" ∧ o.wfnKw = none)) : Closed builtinNames l := by
  obtain ⟨ht, a, b, ha, hb, rfl⟩ := makeScript_ok.1 hl
  have hu : ∀ n ∈ o.wfn.2.uses, n ∈ commonNames pyscf := by
    rw [wfn_uses o ht]
    rcases hk : o.wfnKw with _ | k
    · simp only
      split_ifs with hrb
      · have : pyscf = false := by
          rcases pyscf with _ | _
          · rfl
          · exact absurd ⟨rfl, hrb, hk⟩ hr
        subst this
        simp [commonNames, sizeNames]
      · simp
    · exact hw k hk
  have i1 : ∀ n ∈ ["np", "os", "sys", o.wfn.1, o.hamName, "sd_list"] ++ objectiveClass o.objective ++ constraintClass o.constraint ++ solverName o ++
      (if pyscf then ["gto", "scf", "PYSCF"] else []), n ∈ defsOf (importStmts pyscf o) := by
    intro n hn
    cases pyscf <;> simp [importStmts, defsOf, solverName] at hn ⊢ <;> tauto
  have i2 : ∀ n ∈ sizeNames pyscf ++ intNames pyscf ++ (if pyscf then ["interface"] else ["nuc_nuc"]), n ∈ defsOf (systemStmts pyscf) := by
    cases pyscf <;> simp [sizeNames, intNames, systemStmts, defsOf]
  have i3 : "wfn" ∈ defsOf (wfnStmts pyscf o) := by simp [wfnStmts, defsOf]
  have i4 : "ham" ∈ defsOf (hamStmts pyscf o) := by simp [hamStmts, defsOf]
  have i5 : ∀ n ∈ ["pspace", "param_selection"], n ∈ defsOf (pspaceStmts pyscf o) := by simp [pspaceStmts, defsOf]
  have j1 : ∀ n ∈ ["np", "os", "sys", o.wfn.1, o.hamName, "sd_list"], n ∈ defsOf (importStmts pyscf o) := fun n hn =>
    i1 n (List.mem_append_left _ (List.mem_append_left _ (List.mem_append_left _ (List.mem_append_left _ hn))))
  have c1 : ∀ n ∈ commonNames pyscf, n ∈ defsOf (importStmts pyscf o) ∨ n ∈ defsOf (systemStmts pyscf) := by
    intro n hn
    rw [commonNames, List.append_assoc, List.mem_append] at hn
    rcases hn with hn | hn
    · exact .inl (j1 n (by clear * - hn; simp at hn ⊢; tauto))
    · exact .inr (i2 n (List.mem_append_left _ hn))
  obtain ⟨-, i6⟩ := closed_objective o _ a ha hc fun n hn => hn
  simp only [List.mem_append] at i1 i2
  simp only [closed_append, defsOf_append]
  refine ⟨⟨⟨⟨⟨⟨⟨⟨⟨?_, ?_⟩, ?_⟩, ?_⟩, ?_⟩, ?_⟩, ?_⟩, ?_⟩, ?_⟩, ?_⟩
  · cases pyscf <;> simp [importStmts, Closed]
  · refine closed_system _ _ fun n hn => ?_
    simp only [List.mem_append] at hn ⊢
    rcases hn with (hn | hn) | hn
    · exact .inl hn
    · exact .inr (j1 n (by clear * - hn; simp at hn ⊢; tauto))
    · exact .inr (i1 n (.inr hn))
  · refine closed_wfn _ _ _ fun n hn => ?_
    simp only [List.mem_append] at hn ⊢
    rcases hn with ((hn | hn) | hn) | hn
    · exact .inl hn
    · exact .inr (.inl (j1 n (by clear * - hn; simp at hn ⊢; tauto)))
    · exact .inr (.inr (i2 n (.inl (.inl hn))))
    · exact .inr (c1 n (hu n hn))
  · refine closed_ham _ _ _ fun n hn => ?_
    simp only [List.mem_append] at hn ⊢
    rcases hn with (hn | hn) | hn
    · exact .inl hn
    · have := j1 n (by clear * - hn; simp at hn ⊢; tauto)
      simp only [this, true_or, or_true]
    · have := i2 n (.inl (.inr hn))
      simp only [this, true_or, or_true]
  · refine closed_chk _ _ fun n hn => ?_
    simp only [List.mem_append]
    simp at hn
    rcases hn with rfl | rfl | rfl
    · have := j1 "np" (by simp)
      simp only [this, true_or, or_true]
    · first | simp only [i3, i4, i6, true_or, or_true] | simp only [hn, true_or, or_true]
    · first | simp only [i3, i4, i6, true_or, or_true] | simp only [hn, true_or, or_true]
  · refine closed_pspace _ _ _ fun n hn => ?_
    simp only [List.mem_append] at hn ⊢
    rcases hn with (hn | hn) | hn
    · exact .inl hn
    · simp at hn
      rcases hn with rfl | rfl | rfl | rfl
      · have := j1 "np" (by simp)
        simp only [this, true_or, or_true]
      · have := j1 "sd_list" (by simp)
        simp only [this, true_or, or_true]
      · first | simp only [i3, i4, i6, true_or, or_true] | simp only [hn, true_or, or_true]
      · first | simp only [i3, i4, i6, true_or, or_true] | simp only [hn, true_or, or_true]
    · have := i2 n (.inl (.inl hn))
      simp only [this, true_or, or_true]
  · refine closed_weight _ _ hc fun n hn => ?_
    simp only [List.mem_append] at hn ⊢
    rcases hn with (hn | hn) | hn
    · exact .inl hn
    · simp at hn
      rcases hn with rfl | rfl | rfl | rfl | rfl
      · have := j1 "np" (by simp)
        simp only [this, true_or, or_true]
      · first | simp only [i3, i4, i6, true_or, or_true] | simp only [hn, true_or, or_true]
      · first | simp only [i3, i4, i6, true_or, or_true] | simp only [hn, true_or, or_true]
      · have := i5 "pspace" (by simp)
        simp only [this, true_or, or_true]
      · have := i5 "param_selection" (by simp)
        simp only [this, true_or, or_true]
    · have := i1 n (.inl (.inl (.inr hn)))
      simp only [this, true_or, or_true]
  · refine (closed_objective o _ a ha hc fun n hn => ?_).1
    simp only [List.mem_append] at hn ⊢
    rcases hn with ((hn | hn) | hn) | hn
    · exact .inl hn
    · simp at hn
      rcases hn with rfl | rfl | rfl | rfl | rfl
      · have := j1 "np" (by simp)
        simp only [this, true_or, or_true]
      · first | simp only [i3, i4, i6, true_or, or_true] | simp only [hn, true_or, or_true]
      · first | simp only [i3, i4, i6, true_or, or_true] | simp only [hn, true_or, or_true]
      · have := i5 "pspace" (by simp)
        simp only [this, true_or, or_true]
      · have := i5 "param_selection" (by simp)
        simp only [this, true_or, or_true]
    · have := i1 n (.inl (.inl (.inl (.inr hn))))
      simp only [this, true_or, or_true]
    · first | simp only [i3, i4, i6, true_or, or_true] | simp only [hn, true_or, or_true]
  · refine closed_energy _ _ fun n hn => ?_
    simp only [List.mem_append] at hn ⊢
    rcases hn with (hn | hn) | hn
    · exact .inl hn
    · simp at hn
      rcases hn with rfl | rfl | rfl | rfl
      · have := j1 "np" (by simp)
        simp only [this, true_or, or_true]
      · first | simp only [i3, i4, i6, true_or, or_true] | simp only [hn, true_or, or_true]
      · have := i5 "pspace" (by simp)
        simp only [this, true_or, or_true]
      · first | simp only [i3, i4, i6, true_or, or_true] | simp only [hn, true_or, or_true]
    · first | simp only [i3, i4, i6, true_or, or_true] | simp only [hn, true_or, or_true]
  · refine closed_solve pyscf o _ b hb (fun n hn => ?_) fun k hk n hn => ?_
    · simp only [List.mem_append] at hn ⊢
      rcases hn with ((hn | hn) | hn) | hn
      · exact .inl hn
      · simp at hn
        rcases hn with rfl | rfl | rfl | rfl
        · have := j1 "np" (by simp)
          simp only [this, true_or, or_true]
        · first | simp only [i3, i4, i6, true_or, or_true] | simp only [hn, true_or, or_true]
        · first | simp only [i3, i4, i6, true_or, or_true] | simp only [hn, true_or, or_true]
        · first | simp only [i3, i4, i6, true_or, or_true] | simp only [hn, true_or, or_true]
      · have := i2 n (.inr hn)
        simp only [this, true_or, or_true]
      · have := i1 n (.inl (.inr hn))
        simp only [this, true_or, or_true]
    · have := hs k hk n hn
      simp only [List.mem_append] at this ⊢
      rcases this with h | h
      · have := c1 n h
        rcases this with this | this <;> simp only [this, true_or, or_true]
      · simp at h
        rcases h with rfl | rfl | rfl | rfl
        · first | simp only [i3, i4, i6, true_or, or_true] | simp only [hn, true_or, or_true]
        · first | simp only [i3, i4, i6, true_or, or_true] | simp only [hn, true_or, or_true]
        · have := i5 "pspace" (by simp)
          simp only [this, true_or, or_true]
        · first | simp only [i3, i4, i6, true_or, or_true] | simp only [hn, true_or, or_true]


-- the script of a calculation with orbital optimization and a constraint
example : ∃ l, makeScript true { wfnType := "ccsd", optimizeOrbs := true, constraint := some "norm", loadChk := true } = .ok l ∧ Closed builtinNames l := by
  obtain ⟨l, hl⟩ := (C97_made true { wfnType := "ccsd", optimizeOrbs := true, constraint := some "norm", loadChk := true }).2
    ⟨by decide +kernel, ⟨_, by simp, rfl⟩, ⟨_, by simp, rfl⟩⟩
  exact ⟨l, hl, C97_closed_partial _ _ _ hl (by simp) (by simp) (by simp) (by simp)⟩

/-- C97 (disagreement): `check_inputs` accepts objectives and solvers for which `make_script` stops with a variable that has no value:
no objective, `energy` and `projected_stochastic`, and no solver and `fanpt`. -/
theorem C97_unmade (pyscf : Bool) (o : Options) (hw : o.wfnType ∈ wfnTypes) :
    (o.objective = none ∨ o.objective = some "energy" ∨ o.objective = some "projected_stochastic" → makeScript pyscf o = .error (.unbound "objective1")) ∧
    ((∃ l, objectiveStmts o = .ok l) → o.solver = none ∨ o.solver = some "fanpt" → makeScript pyscf o = .error (.unbound "solver_name")) := by
  constructor
  · intro h
    rw [makeScript, if_neg (not_not.2 hw)]
    have : objectiveStmts o = .error (.unbound "objective1") := by
      rcases h with h | h | h <;> simp only [objectiveStmts, h] <;> rfl
    rw [this]; rfl
  · rintro ⟨l, hl⟩ h
    rw [makeScript, if_neg (not_not.2 hw), hl]
    have : solveStmts pyscf o = .error (.unbound "solver_name") := by
      rcases h with h | h <;> simp only [solveStmts, h] <;> rfl
    rw [this]; rfl

-- both are accepted by `check_inputs`
example : checkInputs { ap1rogInputs with objective := .str "energy", solver := .str "cma" } = .ok () ∧
    checkInputs { ap1rogInputs with solver := .str "fanpt" } = .ok () ∧ checkInputs { ap1rogInputs with objective := .none, solver := .none } = .ok () := by
  decide +kernel

/-- python accepts a call: not too many positional arguments, no keyword twice, only keywords of other parameters, all required parameters -/
def Accepted (c : Call) : Prop :=
  match sigOf c.callee with
  | none => False
  | some s => c.npos ≤ s.params.length ∧ c.kws.Nodup ∧ (∀ k ∈ c.kws, k ∈ s.params.drop c.npos ∨ s.varkw = true ∧ k ∉ s.params) ∧
      ∀ k ∈ (s.params.take s.required).drop c.npos, k ∈ c.kws

instance : DecidablePred Accepted := fun c => by
  unfold Accepted
  split <;> infer_instance

/-- C97: with the default keyword arguments every call in the script is accepted by the constructor or function that it calls, for all types
of wavefunctions except `hci`, and all objectives, solvers and constraints. -/
theorem C97_calls (pyscf : Bool) (o : Options) (l : List Stmt) (hl : makeScript pyscf o = .ok l) (hw : o.wfnKw = none) (hs : o.solverKw = none)
    (h1 : o.wfnType ≠ "hci") (h2 : o.wfnType ≠ "custom") : ∀ s ∈ l, ∀ c ∈ s.calls, Accepted c := by
  obtain ⟨ht, a, b, ha, hb, rfl⟩ := makeScript_ok.1 hl
  have hwfn : Accepted ⟨o.wfn.1, 2, ["params", "memory"] ++ o.wfn.2.keys⟩ := by
    rw [Options.wfn, if_neg h2, hw]
    have : ∀ t ∈ wfnTypes, t ≠ "hci" → t ≠ "custom" →
        Accepted ⟨(wfnInfo t none).2.1, 2, ["params", "memory"] ++ (wfnInfo t none).2.2.keys⟩ := by decide +kernel
    exact this _ ht h1 h2
  have hham : Accepted ⟨o.hamName, 2, if o.solver = some "cma" then [] else ["update_prev_params"]⟩ := by
    rw [Options.hamName]
    split_ifs <;> decide +kernel
  have hobj : ∀ s ∈ a, ∀ c ∈ s.calls, Accepted c := by
    obtain ⟨s, hs, e⟩ := (objectiveStmts_ok o).1 ⟨a, ha⟩
    simp only [objectiveStmts, e] at ha
    simp only [List.mem_cons, List.not_mem_nil, or_false] at hs
    rcases hs with rfl | rfl | rfl | rfl
    · by_cases ht : o.solver = some "trustregion"
      · simp only [ht, if_true] at ha
        cases ha
        simp; decide +kernel
      · simp only [ht, if_false] at ha
        cases ha
        simp; decide +kernel
    all_goals
      cases ha
      by_cases ht : o.solver = some "trustregion" <;> simp [ht] <;> decide +kernel
  have hsol : ∀ s ∈ b, ∀ c ∈ s.calls, Accepted c := by
    obtain ⟨s, hs', e⟩ := (solveStmts_ok pyscf o).1 ⟨b, hb⟩
    rw [solveStmts.eq_def, e, hs] at hb
    simp only [List.mem_cons, List.not_mem_nil, or_false] at hs'
    rcases hs' with rfl | rfl | rfl | rfl | rfl | rfl <;> cases hb <;> cases pyscf <;> decide +kernel
  have himp : ∀ s ∈ importStmts pyscf o, ∀ c ∈ s.calls, Accepted c := by
    cases pyscf <;> simp [importStmts]
  have hsys : ∀ s ∈ systemStmts pyscf, ∀ c ∈ s.calls, Accepted c := by
    cases pyscf <;> decide +kernel
  have hwf : ∀ s ∈ wfnStmts pyscf o, ∀ c ∈ s.calls, Accepted c := by
    rw [wfnStmts]
    cases o.loadWfn <;> cases o.wfnNoise <;> simp <;> exact hwfn
  have hha : ∀ s ∈ hamStmts pyscf o, ∀ c ∈ s.calls, Accepted c := by
    rw [hamStmts]
    cases o.loadHam <;> cases o.loadHamUm <;> cases o.hamNoise <;> simp <;> exact hham
  have hchk : ∀ s ∈ chkStmts o, ∀ c ∈ s.calls, Accepted c := by
    rw [chkStmts]
    split_ifs <;> simp
  have hps : ∀ s ∈ pspaceStmts pyscf o, ∀ c ∈ s.calls, Accepted c := by
    simp [pspaceStmts]; decide +kernel
  have hwt : ∀ s ∈ weightStmts o, ∀ c ∈ s.calls, Accepted c := by
    rw [weightStmts]
    split_ifs
    · split
      · decide +kernel
      · decide +kernel
      · simp
    · simp
  have hen : ∀ s ∈ energyStmts o, ∀ c ∈ s.calls, Accepted c := by
    rw [energyStmts]
    split_ifs <;> simp
  intro s hm
  simp only [List.mem_append] at hm
  rcases hm with ((((((((hm | hm) | hm) | hm) | hm) | hm) | hm) | hm) | hm) | hm
  exacts [himp s hm, hsys s hm, hwf s hm, hha s hm, hchk s hm, hps s hm, hwt s hm, hobj s hm, hen s hm, hsol s hm]

/-- C97 (disagreement): no script of `hci` can run: for all keyword arguments the constructor is called with `params`, which it does not
have.  The default keyword arguments `alpha1` and `alpha2` do not exist either. -/
theorem C97_hci (pyscf : Bool) (o : Options) (l : List Stmt) (hl : makeScript pyscf o = .ok l) (ht : o.wfnType = "hci") :
    ∃ s ∈ l, ∃ c ∈ s.calls, ¬ Accepted c := by
  obtain ⟨_, a, b, ha, hb, rfl⟩ := makeScript_ok.1 hl
  have hn : o.wfn.1 = "hCI" := by
    rw [Options.wfn, if_neg (by rw [ht]; decide), ht]; rfl
  refine ⟨⟨[o.wfn.1] ++ sizeNames pyscf ++ (if o.loadWfn then ["wfn_params"] else []) ++ o.wfn.2.uses, ["wfn"],
    [⟨o.wfn.1, 2, ["params", "memory"] ++ o.wfn.2.keys⟩]⟩, ?_, _, List.mem_singleton.2 rfl, ?_⟩
  · simp only [List.mem_append]
    exact .inl (.inl (.inl (.inl (.inl (.inl (.inl (.inr (by simp [wfnStmts]))))))))
  · rw [hn]
    intro h
    have := h.2.2.1 "params" (by simp)
    simp at this

example : "alpha1" ∈ ((wfnInfo "hci" none).2.2.keys) ∧ ∀ s, sigOf "hCI" = some s → "alpha1" ∉ s.params ∧ "alpha2" ∉ s.params := by decide +kernel

/-- C97 (disagreement): the default arguments of `trustregion` are no keyword arguments: `minimize` is called with a second positional argument,
which is `use_gradient`, and gets no options. -/
theorem C97_trust (pyscf : Bool) (o : Options) (l : List Stmt) (hl : makeScript pyscf o = .ok l) (ht : o.solver = some "trustregion")
    (hs : o.solverKw = none) : ∃ s ∈ l, (⟨"minimize", 2, []⟩ : Call) ∈ s.calls := by
  obtain ⟨_, a, b, ha, hb, rfl⟩ := makeScript_ok.1 hl
  rw [solveStmts.eq_def, ht, hs] at hb
  cases hb
  exact ⟨_, List.mem_append_right _ (List.mem_append_left _ (List.mem_cons_of_mem _ (List.mem_cons_self ..))), by simp⟩

theorem not_closed_of_uses {env : List String} {l : List Stmt} {n : String} (h1 : n ∉ env) (h2 : n ∉ defsOf l) (h3 : ∃ s ∈ l, n ∈ s.uses) :
    ¬ Closed env l := by
  induction l generalizing env with
  | nil => simp at h3
  | cons s r ih =>
    rintro ⟨a, b⟩
    simp only [defsOf, List.flatMap_cons, List.mem_append, not_or] at h2
    obtain ⟨t, ht, hn⟩ := h3
    rcases List.mem_cons.1 ht with rfl | ht
    · exact h1 (a n hn)
    · exact ih (by simp [h1, h2.1]) h2.2 ⟨t, ht, hn⟩ b

/-- C97 (disagreement): `constraint` is not checked: with any other name than `norm` and `energy` that the script does not bind, a script with
the objective `projected` or `least_squares` uses a name that has no value. -/
theorem C97_constraint (pyscf : Bool) (o : Options) (l : List Stmt) (hl : makeScript pyscf o = .ok l) (c : String) (hc : o.constraint = some c)
    (h0 : c ≠ "") (hb : c ∉ builtinNames) (hd : c ∉ defsOf l) (ho : o.objective = some "projected" ∧ o.solver ≠ some "trustregion" ∨ o.objective = some "least_squares") :
    ¬ Closed builtinNames l := by
  refine not_closed_of_uses hb hd ?_
  obtain ⟨_, a, b, ha, hb, rfl⟩ := makeScript_ok.1 hl
  suffices h : ∃ s ∈ a, c ∈ s.uses by
    obtain ⟨s, hs, h⟩ := h
    exact ⟨s, List.mem_append_left _ (List.mem_append_left _ (List.mem_append_right _ hs)), h⟩
  rcases ho with ⟨ho, ht⟩ | ho
  · simp only [objectiveStmts, ho, ht, hc, h0, if_false] at ha
    cases ha
    simp
  · simp only [objectiveStmts, ho, hc, h0, if_false] at ha
    cases ha
    simp

example : ∃ l, makeScript false { wfnType := "fci", constraint := some "sz" } = .ok l ∧ "sz" ∉ defsOf l := by
  refine ⟨_, rfl, by decide +kernel⟩

/-- C97 (disagreement): the default keyword arguments of `rbm` use `nspin`, which scripts for pyscf do not bind. -/
theorem C97_rbm : ∃ l, makeScript true { wfnType := "rbm" } = .ok l ∧ ¬ Closed builtinNames l := by
  refine ⟨_, rfl, not_closed_of_uses (n := "nspin") (by decide +kernel) (by decide +kernel) (by decide +kernel)⟩

/-- C97: the script for pyscf lists the given atoms in order if there are two or more; a single atom is listed twice (disagreement), and an
empty geometry raises `IndexError`. -/
theorem C97_geometry {α : Type} (geom : List α) :
    (2 ≤ geom.length → geometry geom = .ok geom) ∧ (∀ a : α, geometry [a] = .ok [a, a]) ∧ geometry ([] : List α) = .error .indexError := by
  refine ⟨fun h => ?_, fun a => rfl, rfl⟩
  obtain ⟨a, r, rfl⟩ : ∃ a r, geom = a :: r := by
    cases geom with
    | nil => simp at h
    | cons a r => exact ⟨a, r, rfl⟩
  have hr : r ≠ [] := by rintro rfl; simp at h
  have : (a :: r).getLast? = some (r.getLast hr) := by
    rw [List.getLast?_eq_some_getLast (by simp), List.getLast_cons hr]
  rw [geometry, this]
  simp [List.dropLast_append_getLast hr]

example : geometry ["H", "O", "H"] = .ok ["H", "O", "H"] := (C97_geometry _).1 (by simp)

/-- C96. The types of wavefunctions that are known; `network`, which the comments of `check_inputs` list, is not one. -/
theorem C96_types (a : Arg) (t : String) : getWfnInfo a = .ok t ↔ a = .str t ∧
    t ∈ ["ci_pairs", "cisd", "fci", "hci", "doci", "mps", "determinant-ratio", "ap1rog", "apr2g", "apig", "apsetg", "apg", "rbm",
      "basecc", "standardcc", "generalizedcc", "senioritycc", "pccd", "ap1rogsd", "ap1rogsd_spin", "apsetgd", "apsetgsd", "apg1rod",
      "apg1rosd", "ccsdsen0", "ccsdqsen0", "ccsdtqsen0", "ccsdtsen2qsen0", "ccsd", "ccsdt", "ccsdtq", "ccs", "custom"] := by
  rw [getWfnInfo_ok]
  refine and_congr_right fun _ => ?_
  simp only [wfnTypes, List.mem_cons, List.not_mem_nil, or_false]
  constructor
  · intro h
    rcases h with rfl | rfl | rfl | rfl | rfl | rfl | rfl | rfl | rfl | rfl | rfl | rfl | rfl | rfl | rfl | rfl | rfl | rfl | rfl | rfl |
      rfl | rfl | rfl | rfl | rfl | rfl | rfl | rfl | rfl | rfl | rfl | rfl | rfl <;> simp
  · intro h
    rcases h with rfl | rfl | rfl | rfl | rfl | rfl | rfl | rfl | rfl | rfl | rfl | rfl | rfl | rfl | rfl | rfl | rfl | rfl | rfl | rfl |
      rfl | rfl | rfl | rfl | rfl | rfl | rfl | rfl | rfl | rfl | rfl | rfl | rfl <;> simp

example : getWfnInfo (.str "pccd") = .ok "pccd" ∧ getWfnInfo (.str "network") = .error .valueError := by decide +kernel

end Fanpy.Props
