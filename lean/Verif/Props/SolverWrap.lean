import Verif.Model.SolverWrap
import Mathlib.Data.List.Forall2
import Mathlib.Data.Rat.Lemmas
import Mathlib.Algebra.Order.Ring.Rat
import Mathlib.Algebra.Order.Group.Abs
import Mathlib.Tactic.Linarith
import Mathlib.Tactic.NormNum

/-! # C138: wrapped optimizers -/

namespace Fanpy.Props
open Fanpy.SolverWrap

variable {S V A : Type}

/-- an execution of an optimizer: the points at which the objective is evaluated, the states between them, and the end -/
inductive Execution (O : Objective S V) : Prog V A → S → List (List ℚ) → S → Except PyErr A → Prop
  | done (a : A) (s : S) : Execution O (.done a) s [] s (.ok a)
  | raise (e : PyErr) (s : S) : Execution O (.raise e) s [] s (.error e)
  | fail (x : List ℚ) (next : V → Prog V A) (s s' : S) (e : PyErr) : O.objective x s = (s', .error e) →
      Execution O (.eval x next) s [x] s' (.error e)
  | step (x : List ℚ) (next : V → Prog V A) (s s' t : S) (v : V) (l : List (List ℚ)) (r : Except PyErr A) : O.objective x s = (s', .ok v) →
      Execution O (next v) s' l t r → Execution O (.eval x next) s (x :: l) t r

/-- every point at which the program evaluates the objective, and every point that it returns, satisfies `P`, whatever the values -/
inductive Stays (P : List ℚ → Prop) : Prog V Result → Prop
  | done (r : Result) : P r.x → Stays P (.done r)
  | raise (e : PyErr) : Stays P (.raise e)
  | eval (x : List ℚ) (next : V → Prog V Result) : P x → (∀ v, Stays P (next v)) → Stays P (.eval x next)

theorem run_execution (O : Objective S V) (p : Prog V A) (s : S) : ∃ l, Execution O p s l (run O p s).1 (run O p s).2 := by
  induction p generalizing s with
  | done a => exact ⟨[], .done a s⟩
  | raise e => exact ⟨[], .raise e s⟩
  | eval x next ih =>
    rw [run]
    rcases h : O.objective x s with ⟨s', e | v⟩
    · exact ⟨[x], .fail x next s s' e h⟩
    · obtain ⟨l, hl⟩ := ih v s'
      exact ⟨x :: l, .step x next s s' _ v l _ h hl⟩

theorem execution_last {O : Objective S V} (ho : ∀ x s, O.active (O.objective x s).1 = x) {p : Prog V A} {s t : S} {l : List (List ℚ)}
    {r : Except PyErr A} (h : Execution O p s l t r) : O.active t = l.getLast?.getD (O.active s) := by
  induction h with
  | done a s => rfl
  | raise e s => rfl
  | fail x next s s' e hx =>
    have := ho x s
    rw [hx] at this
    exact this
  | step x next s s' t v l r hx _ ih =>
    have := ho x s
    rw [hx] at this
    rw [ih, List.getLast?_cons]
    simp only at this
    rw [this]
    cases l.getLast? <;> rfl

theorem execution_stays {O : Objective S V} {P : List ℚ → Prop} {p : Prog V Result} (hp : Stays P p) {s t : S} {l : List (List ℚ)}
    {r : Except PyErr Result} (h : Execution O p s l t r) : (∀ x ∈ l, P x) ∧ ∀ a, r = .ok a → P a.x := by
  induction h with
  | done a s => cases hp with | done _ h => exact ⟨by simp, fun b hb => by injection hb with hb; exact hb ▸ h⟩
  | raise e s => exact ⟨by simp, fun b hb => by cases hb⟩
  | fail x next s s' e hx => cases hp with | eval _ _ h _ => exact ⟨by simpa using h, fun b hb => by cases hb⟩
  | step x next s s' t v l r hx _ ih =>
    cases hp with
    | eval _ _ h h' =>
      obtain ⟨h1, h2⟩ := ih (h' v)
      exact ⟨fun y hy => (List.mem_cons.1 hy).elim (fun e => e ▸ h) (h1 y), h2⟩

/-- **C138, scipy.**  The optimizer begins with the active parameters and all keyword arguments.  If it ends with a result that has `success` and
`message`, these and its point are returned; an exception of the optimizer or of the objective is passed on.  The objective is left at the last
point that was evaluated, or as it was if there is none. -/
theorem C138_scipy (O : Objective S V) (ho : ∀ x s, O.active (O.objective x s).1 = x) (func : List ℚ → Kw → Prog V Result) (kw : Kw) (s : S) :
    ∃ l r, Execution O (func (O.active s) kw) s l (wrapScipy O func kw s).1 r ∧
      O.active (wrapScipy O func kw s).1 = l.getLast?.getD (O.active s) ∧
      (∀ e, r = .error e → (wrapScipy O func kw s).2 = .error e) ∧
      (∀ a b m, r = .ok a → a.success = some b → a.message = some m →
        ∃ out, (wrapScipy O func kw s).2 = .ok out ∧ out.success = b ∧ out.params = a.x ∧ out.message = m ∧ out.internal = a) ∧
      (∀ a, r = .ok a → a.success = none ∨ a.message = none → (wrapScipy O func kw s).2 = .error .attributeError) := by
  obtain ⟨l, hl⟩ := run_execution O (func (O.active s) kw) s
  have hs : (wrapScipy O func kw s).1 = (run O (func (O.active s) kw) s).1 := by
    unfold wrapScipy
    split
    · rename_i h; rw [h]
    · rename_i h
      rw [h]
      split <;> rfl
  refine ⟨l, (run O (func (O.active s) kw) s).2, hs ▸ hl, hs ▸ execution_last ho hl, ?_, ?_, ?_⟩
  · intro e he
    unfold wrapScipy
    rcases h : run O (func (O.active s) kw) s with ⟨t, e' | a⟩ <;> rw [h] at he
    · simp only at he ⊢; injection he with he; rw [he]
    · cases he
  · intro a b m ha hb hm
    unfold wrapScipy
    rcases h : run O (func (O.active s) kw) s with ⟨t, e' | a'⟩ <;> rw [h] at ha
    · cases ha
    · simp only at ha
      injection ha with ha
      subst ha
      exact ⟨⟨b, a'.x, m, a'⟩, by simp only [hb, hm], rfl, rfl, rfl, rfl⟩
  · intro a ha hn
    unfold wrapScipy
    rcases h : run O (func (O.active s) kw) s with ⟨t, e' | a'⟩ <;> rw [h] at ha
    · cases ha
    · simp only at ha
      injection ha with ha
      subst ha
      rcases hn with hn | hn
      · simp [hn]
      · rcases hb : a'.success <;> simp [hn]

/-- each number is within one half of that of the other list, of the same length -/
def WithinHalf (a x : List ℚ) : Prop := List.Forall₂ (fun a x => |x - a| ≤ 1 / 2) a x

/-- the points of a box -/
def InBox (d : List (ℚ × ℚ)) (x : List ℚ) : Prop := List.Forall₂ (fun d x => d.1 ≤ x ∧ x ≤ d.2) d x

/-- **C138, scikit-optimize.**  Dimensions that are given, and all other arguments, are passed on as they are.  Without them every optimizer that stays
within its dimensions evaluates and returns only points whose entries differ by at most one half from the active parameters.  The objective is left at
the last point that was evaluated; exceptions are passed on. -/
theorem C138_skopt (O : Objective S V) (ho : ∀ x s, O.active (O.objective x s).1 = x) (func : Kw → Prog V Result) (kw : Kw) (s : S) :
    ∃ kw' l r, Execution O (func kw') s l (wrapSkopt O func kw s).1 r ∧
      O.active (wrapSkopt O func kw s).1 = l.getLast?.getD (O.active s) ∧
      (∀ e, r = .error e → (wrapSkopt O func kw s).2 = .error e) ∧
      (∀ a, r = .ok a → ∃ out, (wrapSkopt O func kw s).2 = .ok out ∧ out.params = a.x ∧ out.internal = a) ∧
      (∀ v, ("dimensions", v) ∈ kw → kw' = kw) ∧ (∀ p, p.1 ≠ "dimensions" → (p ∈ kw' ↔ p ∈ kw)) ∧
      ((∀ v, ("dimensions", v) ∉ kw) → (∀ k d, ("dimensions", .dims d) ∈ k → Stays (InBox d) (func k)) →
        (∀ x ∈ l, WithinHalf (O.active s) x) ∧ ∀ a, r = .ok a → WithinHalf (O.active s) a.x) := by
  obtain ⟨l, hl⟩ := run_execution O (func (withDimensions kw (O.active s))) s
  have hs : (wrapSkopt O func kw s).1 = (run O (func (withDimensions kw (O.active s))) s).1 := by
    unfold wrapSkopt
    split <;> (rename_i h; rw [h])
  refine ⟨withDimensions kw (O.active s), l, (run O (func (withDimensions kw (O.active s))) s).2, hs ▸ hl, hs ▸ execution_last ho hl, ?_, ?_, ?_, ?_, ?_⟩
  · intro e he
    unfold wrapSkopt
    rcases h : run O (func (withDimensions kw (O.active s))) s with ⟨t, e' | a⟩ <;> rw [h] at he
    · simp only at he ⊢; injection he with he; rw [he]
    · cases he
  · intro a ha
    unfold wrapSkopt
    rcases h : run O (func (withDimensions kw (O.active s))) s with ⟨t, e' | a'⟩ <;> rw [h] at ha
    · cases ha
    · simp only at ha
      injection ha with ha
      subst ha
      exact ⟨_, rfl, rfl, rfl⟩
  · intro v hv
    rw [withDimensions, if_pos]
    rw [List.any_eq_true]
    exact ⟨_, hv, by simp⟩
  · intro p hp
    rw [withDimensions]
    split
    · rfl
    · simp only [List.mem_append, List.mem_singleton, or_iff_left_iff_imp]
      rintro rfl
      exact absurd rfl hp
  · intro hno hbox
    have hk : withDimensions kw (O.active s) = kw ++ [("dimensions", .dims ((O.active s).map fun i => (i - 1 / 2, i + 1 / 2)))] := by
      rw [withDimensions, if_neg]
      rw [List.any_eq_true]
      rintro ⟨⟨n, v⟩, hp, hn⟩
      simp only [decide_eq_true_eq] at hn
      exact hno v (hn ▸ hp)
    have hst := hbox (withDimensions kw (O.active s)) ((O.active s).map fun i => (i - 1 / 2, i + 1 / 2)) (by rw [hk]; simp)
    have hw : ∀ x, InBox ((O.active s).map fun i => (i - 1 / 2, i + 1 / 2)) x → WithinHalf (O.active s) x := by
      intro x hx
      unfold InBox at hx
      rw [List.forall₂_map_left_iff] at hx
      exact hx.imp fun a b hab => abs_le.2 ⟨by linarith [hab.1], by linarith [hab.2]⟩
    obtain ⟨h1, h2⟩ := execution_stays hst hl
    exact ⟨fun x hx => hw x (h1 x hx), fun a ha => hw _ (h2 a ha)⟩

/-- an objective that keeps its parameters and has the square of the first as value, and an optimizer that evaluates `[1]` and `[2]` and returns the
better one: the parameters that are returned are not those of the objective afterwards -/
example :
    let O : Objective (List ℚ) ℚ := ⟨id, fun x _ => (x, .ok (x.headD 0 * x.headD 0))⟩
    let func : List ℚ → Kw → Prog ℚ Result := fun _ _ =>
      .eval [1] fun a => .eval [2] fun b => .done ⟨if a ≤ b then [1] else [2], some true, some "ok"⟩
    (wrapScipy O func [] [0]).2 = .ok ⟨true, [1], "ok", ⟨[1], some true, some "ok"⟩⟩ ∧ (wrapScipy O func [] [0]).1 = [2] := by
  intro O func
  constructor <;> decide +kernel

end Fanpy.Props
