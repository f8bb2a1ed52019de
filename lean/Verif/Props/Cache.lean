import Mathlib.Tactic.Common
import Mathlib.Data.List.Basic
import Verif.Model.Cache

/-! # C54: cached overlaps and the current parameters -/

namespace Fanpy.Props
open Fanpy.Cache

variable {P K V D W : Type} [DecidableEq K]

/-- all that is stored is right -/
def LayersOk (f : K → Except PyErr V) (ls : List (Layer K V)) : Prop :=
  ∀ l ∈ ls, ∀ e ∈ l.entries, f e.1 = .ok e.2

/-- at most `maxsize` values are stored, each under another key -/
def LayersFit (ls : List (Layer K V)) : Prop :=
  ∀ l ∈ ls, (l.entries.map Prod.fst).Nodup ∧ ∀ n, l.maxsize = some n → l.entries.length ≤ n

theorem lookup_mem {l : List (K × V)} {k : K} {v : V} (h : l.lookup k = some v) : (k, v) ∈ l := by
  induction l with
  | nil => cases h
  | cons a r ih =>
    obtain ⟨a, b⟩ := a
    rw [List.lookup_cons] at h
    by_cases hk : k = a
    · subst hk
      simp at h
      simp [h]
    · have : (k == a) = false := by simpa using hk
      rw [this] at h
      exact List.mem_cons_of_mem _ (ih h)

theorem lookup_none {l : List (K × V)} {k : K} (h : l.lookup k = none) : k ∉ l.map Prod.fst := by
  induction l with
  | nil => simp
  | cons a r ih =>
    obtain ⟨a, b⟩ := a
    rw [List.lookup_cons] at h
    by_cases hk : k = a
    · subst hk; simp at h
    · have : (k == a) = false := by simpa using hk
      rw [this] at h
      simp only [List.map_cons, List.mem_cons, not_or]
      exact ⟨hk, ih h⟩

omit [DecidableEq K] in
theorem mem_trim {m : Option ℕ} {l : List (K × V)} {e : K × V} (h : e ∈ trim m l) : e ∈ l := by
  cases m with
  | none => exact h
  | some n => exact List.mem_of_mem_take h

/-- a call through layers that hold right values gives the value of the function, and leaves right values -/
theorem call_ok (f : K → Except PyErr V) (k : K) (ls : List (Layer K V)) (h : LayersOk f ls) :
    (call f k ls).2 = f k ∧ LayersOk f (call f k ls).1 := by
  induction ls with
  | nil => exact ⟨rfl, h⟩
  | cons l ls ih =>
    obtain ⟨h1, h2⟩ := ih fun x hx => h x (List.mem_cons_of_mem _ hx)
    have hl := h l (List.mem_cons_self ..)
    have cons : ∀ (l' : Layer K V) (ls' : List (Layer K V)), (∀ e ∈ l'.entries, f e.1 = .ok e.2) → LayersOk f ls' →
        LayersOk f (l' :: ls') := by
      intro l' ls' a b x hx
      rcases List.mem_cons.1 hx with rfl | hx
      · exact a
      · exact b x hx
    rw [call]
    split_ifs with hm
    · exact ⟨h1, cons _ _ hl h2⟩
    · cases hk : l.entries.lookup k with
      | some v =>
        have hv := hl _ (lookup_mem hk)
        refine ⟨hv.symm, cons _ _ ?_ fun x hx => h x (List.mem_cons_of_mem _ hx)⟩
        intro e he
        rcases List.mem_cons.1 he with rfl | he
        · exact hv
        · exact hl _ (List.mem_filter.1 he).1
      | none =>
        rcases hc : call f k ls with ⟨ls', r⟩
        rw [hc] at h1 h2
        simp only at h1 h2
        cases r with
        | error e => exact ⟨h1, cons _ _ hl h2⟩
        | ok v =>
          refine ⟨h1, cons _ _ ?_ h2⟩
          intro e he
          rcases List.mem_cons.1 (mem_trim he) with rfl | he
          · exact h1.symm
          · exact hl _ he

omit [DecidableEq K] in
theorem trim_fit (m : Option ℕ) (l : List (K × V)) (h : (l.map Prod.fst).Nodup) :
    ((trim m l).map Prod.fst).Nodup ∧ ∀ n, m = some n → (trim m l).length ≤ n := by
  cases m with
  | none => exact ⟨h, fun n hn => by cases hn⟩
  | some n =>
    refine ⟨h.sublist ((List.take_sublist n l).map _), fun n' hn => ?_⟩
    cases hn
    exact List.length_take_le n l

/-- a call keeps the sizes -/
theorem call_fit (f : K → Except PyErr V) (k : K) (ls : List (Layer K V)) (h : LayersFit ls) : LayersFit (call f k ls).1 := by
  induction ls with
  | nil => exact h
  | cons l ls ih =>
    have h2 := ih fun x hx => h x (List.mem_cons_of_mem _ hx)
    have hl := h l (List.mem_cons_self ..)
    have cons : ∀ (l' : Layer K V) (ls' : List (Layer K V)), ((l'.entries.map Prod.fst).Nodup ∧ ∀ n, l'.maxsize = some n → l'.entries.length ≤ n) →
        LayersFit ls' → LayersFit (l' :: ls') := by
      intro l' ls' a b x hx
      rcases List.mem_cons.1 hx with rfl | hx
      · exact a
      · exact b x hx
    rw [call]
    split_ifs with hm
    · exact cons _ _ hl h2
    · cases hk : l.entries.lookup k with
      | some v =>
        refine cons _ _ ⟨?_, ?_⟩ fun x hx => h x (List.mem_cons_of_mem _ hx)
        · simp only [List.map_cons, List.nodup_cons]
          refine ⟨?_, hl.1.sublist ((List.filter_sublist).map _)⟩
          intro hc
          obtain ⟨e, he, rfl⟩ := List.mem_map.1 hc
          simpa using (List.mem_filter.1 he).2
        · intro n hn
          refine le_trans ?_ (hl.2 n hn)
          have : (l.entries.filter fun e => e.1 ≠ k).length < l.entries.length := by
            refine List.length_filter_lt_length_iff_exists.2 ⟨_, lookup_mem hk, by simp⟩
          rw [List.length_cons]
          exact this
      | none =>
        rcases hc : call f k ls with ⟨ls', r⟩
        rw [hc] at h2
        cases r with
        | error e => exact cons _ _ hl h2
        | ok v =>
          refine cons _ _ ?_ h2
          refine trim_fit _ _ ?_
          simp only [List.map_cons, List.nodup_cons]
          exact ⟨lookup_none hk, hl.1⟩

/-- the number of layers does not change -/
theorem call_length (f : K → Except PyErr V) (k : K) (ls : List (Layer K V)) : (call f k ls).1.length = ls.length := by
  induction ls with
  | nil => rfl
  | cons l ls ih =>
    rw [call]
    split_ifs with hm
    · simp [ih]
    · cases hk : l.entries.lookup k with
      | some v => rfl
      | none =>
        rcases hc : call f k ls with ⟨ls', r⟩
        rw [hc] at ih
        cases r <;> simpa using ih

/-- whether an operation puts a cache around the functions -/
def enables : Op P K D → Bool
  | .enable _ _ => true
  | _ => false

/-- whether an operation is the `load_cache` of `BaseCC` -/
def loads : Op P K D → Bool
  | .load _ => true
  | _ => false

/-- whether an operation changes the parameters without clearing the cache -/
def silent : Op P K D → Bool
  | .assignBase _ => true
  | _ => false

/-- the parameters after some operations: those of the last assignment -/
def lastParams (p : P) : List (Op P K D) → P
  | [] => p
  | .assign q :: r => lastParams q r
  | .assignBase q :: r => lastParams q r
  | _ :: r => lastParams p r

/-- what is kept by the operations: stored values are right, and every layer is reached by `clear_cache` -/
structure CacheOk (f : P → K → Except PyErr V) (g : P → D → Except PyErr W) (w : Wfn P K V D W) : Prop where
  olp : LayersOk (f w.params) w.olp
  der : LayersOk (g w.params) w.der
  olpOne : w.olp.length ≤ 1
  derOne : w.der.length ≤ 1
  none : w.fns = none → w.olp = [] ∧ w.der = []
  some : w.fns = some false → w.der = []

omit [DecidableEq K] in
theorem clearOuter_ok (f : K → Except PyErr V) (ls : List (Layer K V)) (h : ls.length ≤ 1) : LayersOk f (clearOuter ls) := by
  match ls, h with
  | [], _ => intro l hl; cases hl
  | [l], _ =>
    intro x hx e he
    rw [clearOuter, List.mem_singleton] at hx
    subst hx
    cases he

omit [DecidableEq K] in
theorem clearOuter_length (ls : List (Layer K V)) : (clearOuter ls).length = ls.length := by cases ls <;> rfl

omit [DecidableEq K] in
theorem nil_ok (f : K → Except PyErr V) : LayersOk f [] := fun l hl => by cases hl

omit [DecidableEq K] in
theorem empty_ok (f : K → Except PyErr V) (m : Option ℕ) : LayersOk f [{ maxsize := m, entries := [] }] := by
  intro l hl e he
  rw [List.mem_singleton] at hl
  subst hl
  cases he

omit [DecidableEq K] in
/-- clearing everything repairs the cache for other parameters -/
theorem assign_cacheOk (f : P → K → Except PyErr V) (g : P → D → Except PyErr W) (w : Wfn P K V D W) (h : CacheOk f g w) (p : P) :
    CacheOk f g (assign w p) := by
  obtain ⟨params, olp, der, fns⟩ := w
  cases fns with
  | none =>
    obtain ⟨rfl, rfl⟩ := h.none rfl
    exact ⟨nil_ok _, nil_ok _, h.olpOne, h.derOne, fun _ => ⟨rfl, rfl⟩, fun _ => rfl⟩
  | some d =>
    cases d with
    | true =>
      refine ⟨clearOuter_ok _ _ h.olpOne, clearOuter_ok _ _ h.derOne, ?_, ?_, fun e => (by cases e), fun e => (by cases e)⟩
      · exact (clearOuter_length olp).le.trans h.olpOne
      · exact (clearOuter_length der).le.trans h.derOne
    | false =>
      obtain rfl := h.some rfl
      refine ⟨clearOuter_ok _ _ h.olpOne, nil_ok _, ?_, h.derOne, fun e => (by cases e), fun _ => rfl⟩
      exact (clearOuter_length olp).le.trans h.olpOne

omit [DecidableEq K] in
theorem clear_cacheOk (f : P → K → Except PyErr V) (g : P → D → Except PyErr W) (w : Wfn P K V D W) (h : CacheOk f g w) (key : Option Key) :
    CacheOk f g (clear w key).1 := by
  obtain ⟨params, olp, der, fns⟩ := w
  have h1 : (clearOuter olp).length ≤ 1 := (clearOuter_length olp).le.trans h.olpOne
  have h2 : (clearOuter der).length ≤ 1 := (clearOuter_length der).le.trans h.derOne
  match fns, key with
  | none, _ => exact h
  | some d, none => exact assign_cacheOk f g _ h params
  | some true, some .overlap => exact ⟨clearOuter_ok _ _ h.olpOne, h.der, h1, h.derOne, fun e => (by cases e), h.some⟩
  | some false, some .overlap => exact ⟨clearOuter_ok _ _ h.olpOne, h.der, h1, h.derOne, fun e => (by cases e), h.some⟩
  | some true, some .derivative =>
    exact ⟨h.olp, clearOuter_ok _ _ h.derOne, h.olpOne, h2, fun e => (by cases e), fun e => (by cases e)⟩
  | some false, some .derivative => exact h
  | some true, some .other => exact h
  | some false, some .other => exact h

theorem overlap_cacheOk (f : P → K → Except PyErr V) (g : P → D → Except PyErr W) (w : Wfn P K V D W) (h : CacheOk f g w) (k : K) :
    CacheOk f g (overlap f w k).1 := by
  refine ⟨(call_ok _ k _ h.olp).2, h.der, (call_length _ k _).le.trans h.olpOne, h.derOne, fun e => ⟨?_, (h.none e).2⟩, h.some⟩
  have := call_length (f w.params) k w.olp
  rw [(h.none e).1] at this
  rw [overlap, ← List.length_eq_zero_iff]
  simp only
  rw [(h.none e).1]
  exact this

omit [DecidableEq K] in
theorem derivative_cacheOk [DecidableEq D] (f : P → K → Except PyErr V) (g : P → D → Except PyErr W) (w : Wfn P K V D W) (h : CacheOk f g w)
    (k : D) : CacheOk f g (derivative g w k).1 := by
  have hz : w.der = [] → (call (g w.params) k w.der).1 = [] := by
    intro e
    rw [e]
    rfl
  exact ⟨h.olp, (call_ok _ k _ h.der).2, h.olpOne, (call_length _ k _).le.trans h.derOne, fun e => ⟨(h.none e).1, hz (h.none e).2⟩,
    fun e => hz (h.some e)⟩

variable [DecidableEq D]

theorem run_params (f : P → K → Except PyErr V) (g : P → D → Except PyErr W) (ops : List (Op P K D)) (w : Wfn P K V D W) :
    (run f g w ops).params = lastParams w.params ops := by
  induction ops generalizing w with
  | nil => rfl
  | cons o r ih =>
    show (run f g (step f g w o) r).params = _
    rw [ih]
    have hc : ∀ (w : Wfn P K V D W) key, (clear w key).1.params = w.params := by
      intro w key
      rw [clear.eq_def]
      split <;> rfl
    cases o with
    | assign p => simp only [step, assign, hc]; rfl
    | assignBase p => rfl
    | clear key => simp only [step, hc]; rfl
    | enable i m => rfl
    | load m => rfl
    | overlap k => rfl
    | derivative k => rfl

/-- operations without `enable_cache`, keep the cache right -/
theorem run_cacheOk (f : P → K → Except PyErr V) (g : P → D → Except PyErr W) (ops : List (Op P K D)) (w : Wfn P K V D W)
    (h : CacheOk f g w) (hs : ∀ o ∈ ops, silent o = false) (he : ∀ o ∈ ops, enables o = false) : CacheOk f g (run f g w ops) := by
  induction ops generalizing w with
  | nil => exact h
  | cons o r ih =>
    refine ih (step f g w o) ?_ (fun x hx => hs x (List.mem_cons_of_mem _ hx)) (fun x hx => he x (List.mem_cons_of_mem _ hx))
    have h1 := hs o (List.mem_cons_self ..)
    have h2 := he o (List.mem_cons_self ..)
    cases o with
    | assign p => exact assign_cacheOk f g w h p
    | assignBase p => cases h1
    | clear key => exact clear_cacheOk f g w h key
    | enable i m => cases h2
    | load m => exact ⟨empty_ok _ _, empty_ok _ _, le_refl _, le_refl _, fun e => (by cases e), fun e => (by cases e)⟩
    | overlap k => exact overlap_cacheOk f g w h k
    | derivative k => exact derivative_cacheOk f g w h k

omit [DecidableEq K] [DecidableEq D] in
theorem fresh_cacheOk (f : P → K → Except PyErr V) (g : P → D → Except PyErr W) (p : P) : CacheOk f g (fresh p) :=
  ⟨nil_ok _, nil_ok _, by simp [fresh], by simp [fresh], fun _ => ⟨rfl, rfl⟩, fun _ => rfl⟩

/-- without a cache so far, the cache may be enabled once -/
theorem run_once (f : P → K → Except PyErr V) (g : P → D → Except PyErr W) (ops : List (Op P K D)) (w : Wfn P K V D W)
    (h : CacheOk f g w) (hf : w.fns = none) (hs : ∀ o ∈ ops, silent o = false) (hl : ∀ o ∈ ops, loads o = false)
    (he : ops.countP enables ≤ 1) : CacheOk f g (run f g w ops) := by
  induction ops generalizing w with
  | nil => exact h
  | cons o r ih =>
    have hs' := fun x hx => hs x (List.mem_cons_of_mem o hx)
    have hl' := fun x hx => hl x (List.mem_cons_of_mem o hx)
    have h1 := hs o (List.mem_cons_self ..)
    have h2 := hl o (List.mem_cons_self ..)
    rw [List.countP_cons] at he
    obtain ⟨hz1, hz2⟩ := h.none hf
    have hcl : ∀ key (w : Wfn P K V D W), w.fns = none → (clear w key).1.fns = none := by
      intro key w e
      rw [clear.eq_def, e]
      exact e
    cases o with
    | assign p => exact ih _ (assign_cacheOk f g w h p) (hcl none (assignBase w p) hf) hs' hl' (by simpa [enables] using he)
    | assignBase p => cases h1
    | clear key => exact ih _ (clear_cacheOk f g w h key) (hcl key w hf) hs' hl' (by simpa [enables] using he)
    | enable i m =>
      refine run_cacheOk f g r (enable w i m) ?_ hs' ?_
      · rw [enable, hz1, hz2]
        cases i with
        | true => exact ⟨empty_ok _ _, empty_ok _ _, le_refl _, le_refl _, fun e => (by cases e), fun e => (by cases e)⟩
        | false => exact ⟨empty_ok _ _, nil_ok _, le_refl _, by simp, fun e => (by cases e), fun e => rfl⟩
      · simp only [enables, if_true] at he
        have h0 : r.countP enables = 0 := by omega
        intro x hx
        have := List.countP_eq_zero.1 h0 x hx
        simpa using this
    | load m => cases h2
    | overlap k => exact ih _ (overlap_cacheOk f g w h k) hf hs' hl' (by simpa [enables] using he)
    | derivative k => exact ih _ (derivative_cacheOk f g w h k) hf hs' hl' (by simpa [enables] using he)

/-- For every history of assignments that clear the cache, clears with any key, queries, and at most one `enable_cache` (of any size, with or
without derivatives) on a wavefunction without caches: overlaps and derivatives are those without a cache at the parameters of the last
assignment, exceptions included. -/
theorem C54_coherent (f : P → K → Except PyErr V) (g : P → D → Except PyErr W) (p : P) (ops : List (Op P K D))
    (hs : ∀ o ∈ ops, silent o = false) (hl : ∀ o ∈ ops, loads o = false) (he : ops.countP enables ≤ 1) :
    (∀ k, (overlap f (run f g (fresh p) ops) k).2 = f (lastParams p ops) k) ∧
    (∀ k, (derivative g (run f g (fresh p) ops) k).2 = g (lastParams p ops) k) := by
  have h := run_once f g ops (fresh p) (fresh_cacheOk f g p) rfl hs hl he
  have e := run_params f g ops (fresh p)
  constructor
  · intro k
    rw [overlap, (call_ok _ k _ h.olp).1, e]; rfl
  · intro k
    rw [derivative, (call_ok _ k _ h.der).1, e]; rfl

/-- The same for coupled cluster wavefunctions, whose `load_cache` can be called any number of times. -/
theorem C54_coherent_cc (f : P → K → Except PyErr V) (g : P → D → Except PyErr W) (p : P) (m : Option ℕ) (ops : List (Op P K D))
    (hs : ∀ o ∈ ops, silent o = false) (he : ∀ o ∈ ops, enables o = false) :
    (∀ k, (overlap f (run f g (load (fresh p) m) ops) k).2 = f (lastParams p ops) k) ∧
    (∀ k, (derivative g (run f g (load (fresh p) m) ops) k).2 = g (lastParams p ops) k) := by
  have h := run_cacheOk f g (.load m :: ops) (fresh p) (fresh_cacheOk f g p)
    (fun x hx => by rcases List.mem_cons.1 hx with rfl | hx; exacts [rfl, hs x hx])
    (fun x hx => by rcases List.mem_cons.1 hx with rfl | hx; exacts [rfl, he x hx])
  have e := run_params f g (.load m :: ops) (fresh p)
  change CacheOk f g (run f g (load (fresh p) m) ops) at h
  change (run f g (load (fresh p) m) ops).params = lastParams p ops at e
  constructor
  · intro k
    rw [overlap, (call_ok _ k _ h.olp).1, e]
  · intro k
    rw [derivative, (call_ok _ k _ h.der).1, e]

/-- For every history at all, no cache exceeds its size or stores a key twice. -/
theorem C54_size (f : P → K → Except PyErr V) (g : P → D → Except PyErr W) (p : P) (ops : List (Op P K D)) :
    LayersFit (run f g (fresh p) ops).olp ∧ LayersFit (run f g (fresh p) ops).der := by
  have one : ∀ {A B : Type} (m : Option ℕ) (ls : List (Layer A B)), LayersFit ls → LayersFit ({ maxsize := m, entries := [] } :: ls) := by
    intro A B m ls h x hx
    rcases List.mem_cons.1 hx with rfl | hx
    · exact ⟨List.nodup_nil, fun n _ => Nat.zero_le n⟩
    · exact h x hx
  have nil : ∀ {A B : Type}, LayersFit ([] : List (Layer A B)) := fun l hl => by cases hl
  have out : ∀ {A B : Type} (ls : List (Layer A B)), LayersFit ls → LayersFit (clearOuter ls) := by
    intro A B ls h
    cases ls with
    | nil => exact h
    | cons l r => exact one l.maxsize r fun x hx => h x (List.mem_cons_of_mem _ hx)
  have clr : ∀ (w : Wfn P K V D W) key, LayersFit w.olp ∧ LayersFit w.der → LayersFit (clear w key).1.olp ∧ LayersFit (clear w key).1.der := by
    intro w key h
    rw [clear.eq_def]
    split
    · exact h
    · refine ⟨out _ h.1, ?_⟩
      simp only
      split_ifs
      exacts [out _ h.2, h.2]
    · exact ⟨out _ h.1, h.2⟩
    · exact ⟨h.1, out _ h.2⟩
    · exact h
    · exact h
  have all : ∀ (ops : List (Op P K D)) (w : Wfn P K V D W), LayersFit w.olp ∧ LayersFit w.der →
      LayersFit (run f g w ops).olp ∧ LayersFit (run f g w ops).der := by
    intro ops
    induction ops with
    | nil => intro w h; exact h
    | cons o r ih =>
      intro w h
      refine ih (step f g w o) ?_
      cases o with
      | assign p => exact clr _ _ h
      | assignBase p => exact h
      | clear key => exact clr _ _ h
      | enable i m =>
        refine ⟨one _ _ h.1, ?_⟩
        simp only [step, enable]
        split_ifs
        exacts [one _ _ h.2, h.2]
      | load m => exact ⟨one _ _ nil, one _ _ nil⟩
      | overlap k => exact ⟨call_fit _ _ _ h.1, h.2⟩
      | derivative k => exact ⟨h.1, call_fit _ _ _ h.2⟩
  exact all ops _ ⟨nil, nil⟩

/-- `clear_cache()` without a key never raises, at any point of any history; nor does any key before the first `enable_cache`. -/
theorem C54_clear (f : P → K → Except PyErr V) (g : P → D → Except PyErr W) (p : P) (ops : List (Op P K D)) :
    (clear (run f g (fresh p) ops) none).2 = .ok () ∧
    ((∀ o ∈ ops, enables o = false ∧ loads o = false) → ∀ key, (clear (run f g (fresh p) ops) key).2 = .ok ()) := by
  constructor
  · rw [clear.eq_def]
    cases (run f g (fresh p) ops).fns <;> rfl
  · intro h key
    have all : ∀ (ops : List (Op P K D)) (w : Wfn P K V D W), (∀ o ∈ ops, enables o = false ∧ loads o = false) → w.fns = none →
        (run f g w ops).fns = none := by
      intro ops
      induction ops with
      | nil => intro w _ e; exact e
      | cons o r ih =>
        intro w h e
        refine ih (step f g w o) (fun x hx => h x (List.mem_cons_of_mem _ hx)) ?_
        have ho := h o (List.mem_cons_self ..)
        have hcl : ∀ key (w : Wfn P K V D W), w.fns = none → (clear w key).1.fns = none := by
          intro key w e
          rw [clear.eq_def, e]
          exact e
        cases o with
        | assign p => exact hcl none (assignBase w p) e
        | assignBase p => exact e
        | clear key => exact hcl key w e
        | enable i m => cases ho.1
        | load m => cases ho.2
        | overlap k => exact e
        | derivative k => exact e
    rw [clear.eq_def, all ops (fresh p) h rfl]

/-! ## Histories with stale values -/

/-- the overlap is the parameter times the determinant, the derivative is the determinant plus the parameter -/
def exOlp (p : ℕ) (k : ℕ) : Except PyErr ℕ := .ok (p * k)
def exDer (p : ℕ) (k : ℕ) : Except PyErr ℕ := .ok (p + k)

/-- The hypotheses are met: a history with evictions from a cache of size two. -/
example : (overlap exOlp (run exOlp exDer (fresh 2)
      [.overlap 3, .enable true 2, .overlap 3, .overlap 5, .overlap 7, .derivative 3, .assign 4, .overlap 5, .clear (some .derivative)]) 5).2 = .ok 20 :=
  (C54_coherent exOlp exDer 2 [.overlap 3, .enable true 2, .overlap 3, .overlap 5, .overlap 7, .derivative 3, .assign 4, .overlap 5,
    .clear (some .derivative)] (by simp [silent]) (by simp [loads]) (by simp [List.countP_cons, enables])).1 5

/-- With the assignment of the base class a cached overlap is stale: it is `2 · 3`, not `5 · 3`. -/
theorem C54_base_stale :
    (overlap exOlp (run exOlp exDer (fresh 2) [.enable true 4, .overlap 3, .assignBase 5]) 3).2 = .ok 6 ∧ exOlp 5 3 = .ok 15 := by
  decide +kernel

/-- If `enable_cache` is called on a wavefunction that has a cache already (the default of the constructors of matrix product states,
geminals and quasiparticles), `assign_params` clears only the outer cache: the overlap is `2 · 3`, not `5 · 3`. -/
theorem C54_twice_stale :
    (overlap exOlp (run exOlp exDer (fresh 2) [.enable true 4, .enable true 4, .overlap 3, .assign 5]) 3).2 = .ok 6 ∧ exOlp 5 3 = .ok 15 := by
  decide +kernel

/-- If the second `enable_cache` is without derivatives, the cached derivatives are never cleared again, and `clear_cache("overlap derivative")`
is a `KeyError`. -/
theorem C54_derivative_stale :
    (derivative exDer (run exOlp exDer (fresh 2) [.enable true 4, .enable false 4, .derivative 3, .assign 5]) 3).2 = .ok 5 ∧ exDer 5 3 = .ok 8 ∧
    (clear (run exOlp exDer (fresh 2) [.enable true 4, .enable false 4]) (some .derivative)).2 = .error .keyError := by
  decide +kernel

end Fanpy.Props
