import Verif.Model.TableWrap

/-! C124: the tables of parameters as stand-ins for pandas tables. -/

namespace Fanpy.Props
open Fanpy.Wrap

variable {H O A : Type}

/-- the name that a step looks up. -/
def stepName : Step O A → Option String
  | .get n => some n
  | .call n _ => some n
  | .item _ => none

/-- the name is not one of the table: neither of its class nor of the object. -/
def Foreign (t : Table O) (n : String) : Prop :=
  n ∉ functions t.cls ∧ n ≠ "dataframe" ∧ n ≠ "index_view" ∧ t.dict n = none

/-- the object of pandas in a value. -/
def inside : Out O → Option O
  | .table t => t.frame
  | .plain x => some x

theorem getAttr_frame (p : Pandas H O A) (h : H) (t : Table O) {f : O} (ht : t.frame = some f) (n : ℕ) :
    getAttr p h t (n + 1) "dataframe" = .ok (.plain f) := by
  have h1 : isProperty t.cls "dataframe" = false := by
    unfold isProperty
    rw [show ("dataframe" == "index_view") = false from by decide, Bool.and_false]
  rw [getAttr]
  simp [h1, Table.instAttr, ht]

/-- what an attribute of pandas becomes. -/
theorem getAttr_foreign (p : Pandas H O A) (h : H) (t : Table O) {f : O} (ht : t.frame = some f) {name : String}
    (hn : Foreign t name) (n : ℕ) :
    getAttr p h t (n + 2) name =
      match p.attr h f name with
      | none => .error .attributeError
      | some x =>
        if name = "loc" ∨ name = "iloc" then .ok (.plain x)
        else if p.callable x then .ok (.wrapper x) else .ok (.plain x) := by
  obtain ⟨h1, h2, h3, h4⟩ := hn
  have hp : isProperty t.cls name = false := by simp [isProperty, h3]
  have hd : t.instAttr name = none := by simp [Table.instAttr, h2, h4]
  rw [getAttr]
  simp only [hp, hd, h1, if_false, Bool.false_eq_true]
  rw [getAttr.delegate, getAttr_frame p h t ht]
  rfl

theorem base_functions (c : Cls) {n : String} (hn : n ∉ functions c) : n ∉ functions .base := by
  intro hb
  cases c
  · exact hn hb
  · exact hn (List.mem_append_left _ hb)
  · exact hn (List.mem_append_left _ hb)
  · exact hn (List.mem_append_left _ hb)

theorem foreign_existing {t : Table O} {n : String} (hn : Foreign t n) (x : O) : Foreign (fromExisting x) n :=
  ⟨base_functions t.cls hn.1, hn.2.1, hn.2.2.1, rfl⟩

/-- one step: the same state and error as with the table of pandas, and the same object inside; a table of fanpy that comes
out is a new one of the base class. -/
theorem step_table (p : Pandas H O A) (own : Own H O A) (n : ℕ) (h : H) (t : Table O) {f : O} (ht : t.frame = some f)
    (s : Step O A) (hs : ∀ name, stepName s = some name → Foreign t name) :
    (∃ h' e, stepPandas p h f s = (h', .error e) ∧ stepTable p own (n + 2) h t s = (h', .error e)) ∨
    (∃ h' x y, stepPandas p h f s = (h', .ok x) ∧ stepTable p own (n + 2) h t s = (h', .ok y) ∧
      (y = .plain x ∨ (p.isFrame x = true ∧ y = .table (fromExisting x)))) := by
  have hw : ∀ x : O, wrapResult p x = .plain x ∨ (p.isFrame x = true ∧ wrapResult p x = .table (fromExisting x)) := by
    intro x
    unfold wrapResult
    by_cases hx : p.isFrame x = true
    · exact Or.inr ⟨hx, if_pos hx⟩
    · exact Or.inl (if_neg hx)
  cases s with
  | get name =>
    have hg := getAttr_foreign p h t ht (hs name rfl) n
    rcases ha : p.attr h f name with _ | x
    · rw [ha] at hg
      exact Or.inl ⟨h, .attributeError, by simp [stepPandas, ha], by simp [stepTable, hg]⟩
    · rw [ha] at hg
      refine Or.inr ⟨h, x, .plain x, by simp [stepPandas, ha], ?_, Or.inl rfl⟩
      simp only [stepTable, hg]
      split_ifs <;> rfl
  | call name args =>
    have hg := getAttr_foreign p h t ht (hs name rfl) n
    rcases ha : p.attr h f name with _ | x
    · rw [ha] at hg
      exact Or.inl ⟨h, .attributeError, by simp [stepPandas, ha], by simp [stepTable, hg]⟩
    · rw [ha] at hg
      simp only [stepPandas, ha, stepTable, hg]
      by_cases hl : name = "loc" ∨ name = "iloc"
      · simp only [if_pos hl]
        by_cases hc : p.callable x = true
        · simp only [if_pos hc]
          rcases hcall : p.call h x args with ⟨h', e | y⟩
          · exact Or.inl ⟨h', e, rfl, rfl⟩
          · exact Or.inr ⟨h', y, _, rfl, rfl, Or.inl rfl⟩
        · simp only [if_neg hc]
          exact Or.inl ⟨h, .typeError, rfl, rfl⟩
      · simp only [if_neg hl]
        by_cases hc : p.callable x = true
        · simp only [if_pos hc]
          rcases hcall : p.call h x args with ⟨h', e | y⟩
          · exact Or.inl ⟨h', e, rfl, rfl⟩
          · exact Or.inr ⟨h', y, _, rfl, rfl, hw y⟩
        · simp only [if_neg hc]
          exact Or.inl ⟨h, .typeError, rfl, rfl⟩
  | item key =>
    have hg := getAttr_frame p h t ht (n + 1)
    simp only [stepPandas, stepTable, hg]
    rcases hcall : p.item h f key with ⟨h', e | y⟩
    · exact Or.inl ⟨h', e, rfl, rfl⟩
    · exact Or.inr ⟨h', y, _, rfl, rfl, hw y⟩

theorem run_plain (p : Pandas H O A) (own : Own H O A) (fuel : ℕ) (steps : List (Step O A)) :
    ∀ (h : H) (x : O), run p own fuel h (.plain x) steps =
      ((runPandas p h x steps).1, (runPandas p h x steps).2.map Out.plain) := by
  induction steps with
  | nil => intro h x; rfl
  | cons s ss ih =>
    intro h x
    rcases hs : stepPandas p h x s with ⟨h', e | y⟩
    · simp [run, step, runPandas, hs, Except.map]
    · simp [run, step, runPandas, hs, ih h' y]

/-- **C124 (steps).**  Attribute access, calls of functions and indexing, one after the other, of a table of fanpy do with
pandas exactly what they do with the pandas table inside: the same state, the same error, and the same object, whatever
pandas is, as long as the names are neither of the class nor of the object. -/
theorem C124_steps (p : Pandas H O A) (own : Own H O A) (n : ℕ) (h : H) (t : Table O) (f : O) (ht : t.frame = some f)
    (steps : List (Step O A)) (hs : ∀ s ∈ steps, ∀ name, stepName s = some name → Foreign t name) :
    (run p own (n + 2) h (.table t) steps).1 = (runPandas p h f steps).1 ∧
    (run p own (n + 2) h (.table t) steps).2.map inside = (runPandas p h f steps).2.map some := by
  induction steps generalizing h t f with
  | nil => exact ⟨rfl, by simp [run, runPandas, Except.map, inside, ht]⟩
  | cons s ss ih =>
    rcases step_table p own n h t ht s (hs s (List.mem_cons_self ..)) with ⟨h', e, h1, h2⟩ | ⟨h', x, y, h1, h2, h3⟩
    · simp [run, step, runPandas, h1, h2, Except.map]
    · rcases h3 with rfl | ⟨_, rfl⟩
      · simp only [run, step, runPandas, h1, h2, run_plain]
        refine ⟨trivial, ?_⟩
        cases (runPandas p h' x ss).2 <;> rfl
      · simp only [run, step, runPandas, h1, h2]
        exact ih h' (fromExisting x) x rfl
          (fun s' hs' name hn => foreign_existing (hs s' (List.mem_cons_of_mem _ hs') name hn) x)

/-- **C124 (lost).**  A table that comes out of such steps, be it only `t.copy()` or `t[[…]]`, is of the base class and has
no attribute but its pandas table: its class, the view of its index and its metadata are lost, and every name the base class
does not have is looked up in pandas. -/
theorem C124_lost (p : Pandas H O A) (own : Own H O A) (n : ℕ) (h : H) (t : Table O) (f : O) (ht : t.frame = some f)
    (steps : List (Step O A)) (hne : steps ≠ [])
    (hs : ∀ s ∈ steps, ∀ name, stepName s = some name → Foreign t name) (h' : H) (w : Table O)
    (hw : run p own (n + 2) h (.table t) steps = (h', .ok (.table w))) :
    w.cls = .base ∧ (∀ name, w.dict name = none) ∧
    ∃ x, w.frame = some x ∧ p.isFrame x = true ∧
      (∀ k h'' name, name ∉ functions .base → name ≠ "dataframe" → p.attr h'' x name = none →
        getAttr p h'' w (k + 2) name = .error .attributeError) ∧
      (∀ k h'' name v, name ∉ functions .base → name ≠ "dataframe" → p.attr h'' x name = some v → p.callable v = false →
        getAttr p h'' w (k + 2) name = .ok (.plain v)) := by
  have key : ∃ x, w = fromExisting x ∧ p.isFrame x = true := by
    induction steps generalizing h t f with
    | nil => exact absurd rfl hne
    | cons s ss ih =>
      rcases step_table p own n h t ht s (hs s (List.mem_cons_self ..)) with ⟨h1', e, h1, h2⟩ | ⟨h1', x, y, h1, h2, h3⟩
      · simp [run, step, h2] at hw
      · rcases h3 with rfl | ⟨hx, rfl⟩
        · simp only [run, step, h2, run_plain] at hw
          exfalso
          rcases hr : (runPandas p h1' x ss).2 with e | z
          · simp [hr, Except.map] at hw
          · simp [hr, Except.map] at hw
        · simp only [run, step, h2] at hw
          by_cases hss : ss = []
          · subst hss
            simp only [run, Prod.mk.injEq, Except.ok.injEq, Out.table.injEq] at hw
            exact ⟨x, hw.2.symm, hx⟩
          · exact ih h1' (fromExisting x) x rfl hss
              (fun s' hs' name hn => foreign_existing (hs s' (List.mem_cons_of_mem _ hs') name hn) x) hw
  obtain ⟨x, rfl, hx⟩ := key
  have hg : ∀ k h'' name, name ∉ functions .base → name ≠ "dataframe" →
      getAttr p h'' (fromExisting x) (k + 2) name =
        match p.attr h'' x name with
        | none => .error .attributeError
        | some x =>
          if name = "loc" ∨ name = "iloc" then .ok (.plain x)
          else if p.callable x then .ok (.wrapper x) else .ok (.plain x) := by
    intro k h'' name h1 h2
    have hp : isProperty (fromExisting x).cls name = false := rfl
    have hd : (fromExisting x).instAttr name = none := by simp [Table.instAttr, h2, fromExisting]
    have hf : name ∉ functions (fromExisting x).cls := h1
    rw [getAttr]
    simp only [hp, hd, hf, if_false, Bool.false_eq_true]
    rw [getAttr.delegate, getAttr_frame p h'' (fromExisting x) rfl]
    rfl
  refine ⟨rfl, fun _ => rfl, x, rfl, hx, ?_, ?_⟩
  · intro k h'' name h1 h2 h3
    rw [hg k h'' name h1 h2, h3]
  · intro k h'' name v h1 h2 h3 h4
    rw [hg k h'' name h1 h2, h3]
    simp [h4]

/-- **C124 (own names).**  A function of the class counts before anything of pandas, an attribute of the object before both,
and the view of the index is the attribute `_index_view`. -/
theorem C124_own (p : Pandas H O A) (h : H) (t : Table O) (n : ℕ) :
    (∀ name, name ∈ functions t.cls → name ≠ "dataframe" → t.dict name = none →
      getAttr p h t (n + 1) name = .ok (.own name)) ∧
    (∀ name x, name ≠ "dataframe" → name ≠ "index_view" → t.dict name = some x →
      getAttr p h t (n + 1) name = .ok (.plain x)) ∧
    (∀ x, t.cls ≠ .base → t.dict "_index_view" = some x → getAttr p h t (n + 2) "index_view" = .ok (.plain x)) := by
  have hfun : ∀ c, "index_view" ∉ functions c := by intro c; cases c <;> decide
  have hin : ∀ m name x, name ≠ "dataframe" → name ≠ "index_view" → t.dict name = some x →
      getAttr p h t (m + 1) name = .ok (.plain x) := by
    intro m name x h1 h2 h3
    have hp : isProperty t.cls name = false := by simp [isProperty, h2]
    rw [getAttr]
    simp [hp, Table.instAttr, h1, h3]
  refine ⟨?_, hin n, ?_⟩
  · intro name h1 h2 h3
    have h4 : name ≠ "index_view" := fun h5 => hfun t.cls (h5 ▸ h1)
    have hp : isProperty t.cls name = false := by simp [isProperty, h4]
    rw [getAttr]
    simp [hp, Table.instAttr, h2, h3, h1]
  · intro x h1 h2
    have hp : isProperty t.cls "index_view" = true := by simp [isProperty, h1]
    rw [getAttr]
    simp only [hp, if_true]
    rw [hin n "_index_view" x (by decide) (by decide) h2]

/-- **C124 (names).**  The functions that count before those of pandas, by name: five in every class and the changes of the
index in the three others; of these a table of the base class has none, nor has it the view of the index.  The usual names
of pandas are not among them. -/
theorem C124_names (p : Pandas H O A) (h : H) (t : Table O) (f : O) (ht : t.frame = some f) (hd : ∀ name, t.dict name = none)
    (n : ℕ) :
    (∀ name ∈ ["from_existing", "update_dataframe", "to_csv", "read_csv", "add_wfn_to_dataframe"],
      getAttr p h t (n + 2) name = .ok (.own name)) ∧
    (∀ name ∈ ["set_sds_as_index", "set_formatted_sds_as_index"], t.cls ≠ .base →
      getAttr p h t (n + 2) name = .ok (.own name)) ∧
    (t.cls = .cc → getAttr p h t (n + 2) "set_operators_as_index" = .ok (.own "set_operators_as_index")) ∧
    (t.cls = .geminal → getAttr p h t (n + 2) "set_geminals_as_index" = .ok (.own "set_geminals_as_index")) ∧
    (∀ name ∈ ["set_sds_as_index", "set_formatted_sds_as_index", "set_operators_as_index", "set_geminals_as_index",
        "index_view", "_index_view", "wfn_nspatial", "wfn_nspin", "wfn_reference", "wfn_ref_sd", "_metadata"],
      t.cls = .base → p.attr h f name = none → getAttr p h t (n + 2) name = .error .attributeError) ∧
    (∀ name ∈ ["columns", "index", "copy", "reindex", "loc", "iloc", "T", "head", "drop", "rename", "sort_values"],
      Foreign t name) := by
  have hp : ∀ c name, name ≠ "index_view" → isProperty c name = false := by
    intro c name hne
    simp [isProperty, hne]
  have hown : ∀ name, name ≠ "index_view" → name ≠ "dataframe" → name ∈ functions t.cls →
      getAttr p h t (n + 2) name = .ok (.own name) := by
    intro name h1 h2 h3
    rw [getAttr]
    simp [hp t.cls name h1, Table.instAttr, h2, hd, h3]
  have hdel : ∀ name, isProperty t.cls name = false → name ≠ "dataframe" → name ∉ functions t.cls → p.attr h f name = none →
      getAttr p h t (n + 2) name = .error .attributeError := by
    intro name h1 h2 h3 h4
    rw [getAttr]
    simp only [h1, Table.instAttr, h2, hd, h3, if_false, Bool.false_eq_true]
    rw [getAttr.delegate, getAttr_frame p h t ht]
    simp [h4]
  refine ⟨?_, ?_, ?_, ?_, ?_, ?_⟩
  · intro name hn
    have : ∀ c, ∀ name ∈ ["from_existing", "update_dataframe", "to_csv", "read_csv", "add_wfn_to_dataframe"],
        name ≠ "index_view" ∧ name ≠ "dataframe" ∧ name ∈ functions c := by intro c; cases c <;> decide
    obtain ⟨h1, h2, h3⟩ := this t.cls name hn
    exact hown name h1 h2 h3
  · intro name hn hc
    have : ∀ c, c ≠ Cls.base → ∀ name ∈ ["set_sds_as_index", "set_formatted_sds_as_index"],
        name ≠ "index_view" ∧ name ≠ "dataframe" ∧ name ∈ functions c := by intro c; cases c <;> decide
    obtain ⟨h1, h2, h3⟩ := this t.cls hc name hn
    exact hown name h1 h2 h3
  · intro hc
    exact hown _ (by decide) (by decide) (by rw [hc]; decide)
  · intro hc
    exact hown _ (by decide) (by decide) (by rw [hc]; decide)
  · intro name hn hc ha
    have : ∀ name ∈ ["set_sds_as_index", "set_formatted_sds_as_index", "set_operators_as_index", "set_geminals_as_index",
        "index_view", "_index_view", "wfn_nspatial", "wfn_nspin", "wfn_reference", "wfn_ref_sd", "_metadata"],
        name ≠ "dataframe" ∧ name ∉ functions .base := by decide
    obtain ⟨h1, h2⟩ := this name hn
    exact hdel name (by rw [hc]; rfl) h1 (by rw [hc]; exact h2) ha
  · intro name hn
    have : ∀ c, ∀ name ∈ ["columns", "index", "copy", "reindex", "loc", "iloc", "T", "head", "drop", "rename", "sort_values"],
        name ≠ "index_view" ∧ name ≠ "dataframe" ∧ name ∉ functions c := by intro c; cases c <;> decide
    obtain ⟨h1, h2, h3⟩ := this t.cls name hn
    exact ⟨h3, h2, h1, hd name⟩

/-- **C124 (update).**  `t.update_dataframe(t.name(args))` with a function of pandas that gives a table keeps the class and
the attributes of `t` and puts that table in the place of the old one; if the function gives something else without an
attribute `dataframe`, `AttributeError` is raised. -/
theorem C124_update (p : Pandas H O A) (own : Own H O A) (n : ℕ) (h : H) (t : Table O) (f : O) (ht : t.frame = some f)
    (s : Step O A) (hs : ∀ name, stepName s = some name → Foreign t name) (h' : H) (x : O)
    (hx : stepPandas p h f s = (h', .ok x)) :
    ∃ y, stepTable p own (n + 2) h t s = (h', .ok y) ∧
      (p.isFrame x = true → updateDataframe p (n + 1) h' t y = .ok ⟨t.cls, some x, t.dict⟩) ∧
      (p.isFrame x = false → p.attr h' x "dataframe" = none → updateDataframe p (n + 1) h' t y = .error .attributeError) := by
  have hd : ∀ z : O, setAttr t "dataframe" z = .ok ⟨t.cls, some z, t.dict⟩ := by
    intro z
    have h1 : isProperty t.cls "dataframe" = false := by
      unfold isProperty
      rw [show ("dataframe" == "index_view") = false from by decide, Bool.and_false]
    simp [setAttr, h1]
  rcases step_table p own n h t ht s hs with ⟨h1', e, h1, h2⟩ | ⟨h1', x', y, h1, h2, h3⟩
  · rw [h1] at hx; simp at hx
  · rw [h1] at hx
    simp only [Prod.mk.injEq, Except.ok.injEq] at hx
    obtain ⟨rfl, rfl⟩ := hx
    refine ⟨y, h2, ?_, ?_⟩
    · intro hf
      rcases h3 with rfl | ⟨_, rfl⟩
      · simp [updateDataframe, hf, hd]
      · simp only [updateDataframe, getAttr_frame p h1' (fromExisting x') rfl n, hd]
    · intro hf ha
      rcases h3 with rfl | ⟨hf', _⟩
      · simp [updateDataframe, hf, ha]
      · rw [hf] at hf'; exact absurd hf' (by decide)

/-- **C124 (assignment disagrees).**  `t.name = v` does not reach pandas, although reading `t.name` does: after it `t.name`
is `v`, while the attribute of the pandas table inside — what is shown, calculated with and saved — is what it was. -/
theorem C124_assign_disagrees (p : Pandas H O A) (h : H) (t : Table O) (f : O) (ht : t.frame = some f) (name : String)
    (hn : Foreign t name) (old v : O) (hold : p.attr h f name = some old) (hv : old ≠ v) (hc : p.callable old = false)
    (n : ℕ) :
    getAttr p h t (n + 2) name = .ok (.plain old) ∧
    ∃ t', setAttr t name v = .ok t' ∧ getAttr p h t' (n + 2) name = .ok (.plain v) ∧ t'.frame = some f ∧
      p.attr h f name ≠ some v := by
  obtain ⟨h1, h2, h3, h4⟩ := hn
  have hp : isProperty t.cls name = false := by simp [isProperty, h3]
  refine ⟨?_, { t with dict := fun m => if m = name then some v else t.dict m }, by simp [setAttr, hp, h2], ?_, ht, ?_⟩
  · rw [getAttr_foreign p h t ht ⟨h1, h2, h3, h4⟩ n, hold]
    simp [hc]
  · rw [getAttr]
    simp [hp, Table.instAttr, h2]
  · rw [hold]
    intro hh
    exact hv (Option.some.inj hh)

/-- **C124 (items).**  `t[key] = v` is that of the pandas table, and the view of the index cannot be assigned. -/
theorem C124_assign_item (p : Pandas H O A) (h : H) (t : Table O) (f : O) (ht : t.frame = some f) (n : ℕ) :
    (∀ key v, setItemTable p (n + 1) h t key v = p.setItem h f key v) ∧
    (t.cls ≠ .base → ∀ v, setAttr t "index_view" v = .error .attributeError) := by
  refine ⟨fun key v => ?_, fun hc v => ?_⟩
  · simp only [setItemTable, getAttr_frame p h t ht n]
  · have hp : isProperty t.cls "index_view" = true := by simp [isProperty, hc]
    simp [setAttr, hp]

/-- **C124 (iteration disagrees).**  `for x in t` asks for the columns 0, 1, …: if there is no column 0 `KeyError` is raised
at once, whatever the columns are. -/
theorem C124_iterate_disagrees (p : Pandas H O A) (own : Own H O A) (h h' : H) (t : Table O) (f : O) (ht : t.frame = some f)
    (h0 : p.item h f (p.int 0) = (h', .error .keyError)) (n m : ℕ) :
    iterate p own (n + 1) h t (m + 1) 0 = (h', .error .keyError) := by
  have : stepTable p own (n + 1) h t (.item (p.int (0 : ℕ))) = (h', .error .keyError) := by
    simp only [stepTable, getAttr_frame p h t ht n, Nat.cast_zero, h0]
  rw [iterate, this]

/-- **C124 (copying disagrees).**  An object of these classes without its pandas table cannot look up any name it does not
have: the lookup asks for `dataframe`, which asks for `dataframe`, … however deep calls may go.  So `copy.copy` of a table
raises for every table. -/
theorem C124_copy_disagrees (p : Pandas H O A) (h : H) (t : Table O) (fuel : ℕ) :
    (t.frame = none → ∀ name, name ≠ "index_view" → name ∉ functions t.cls → t.dict name = none →
      getAttr p h t fuel name = .error .runtimeError) ∧
    copyCopy p fuel h t = .error .runtimeError := by
  have hdf : ∀ c, "dataframe" ∉ functions c := by intro c; cases c <;> decide
  have hss : ∀ c, "__setstate__" ∉ functions c := by intro c; cases c <;> decide
  have key : ∀ (u : Table O), u.frame = none → ∀ k name, name ≠ "index_view" → name ∉ functions u.cls →
      u.dict name = none → getAttr p h u k name = .error .runtimeError := by
    intro u hu
    have hd : ∀ k, getAttr p h u k "dataframe" = .error .runtimeError := by
      intro k
      induction k with
      | zero => rw [getAttr]
      | succ k ih =>
        have hp : isProperty u.cls "dataframe" = false := by
          unfold isProperty
          rw [show ("dataframe" == "index_view") = false from by decide, Bool.and_false]
        rw [getAttr]
        simp only [hp, Bool.false_eq_true, if_false, Table.instAttr, if_true, hu, hdf u.cls]
        rw [getAttr.delegate, ih]
    intro k name h1 h2 h3
    cases k with
    | zero => rw [getAttr]
    | succ k =>
      have hp : isProperty u.cls name = false := by simp [isProperty, h1]
      have hin : u.instAttr name = none := by
        unfold Table.instAttr
        split_ifs
        · exact hu
        · exact h3
      rw [getAttr]
      simp only [hp, hin, h2, Bool.false_eq_true, if_false]
      rw [getAttr.delegate, hd k]
  refine ⟨fun ht name h1 h2 h3 => key t ht fuel name h1 h2 h3, ?_⟩
  unfold copyCopy
  rw [key ⟨t.cls, none, fun _ => none⟩ rfl fuel "__setstate__" (by decide) (hss t.cls) rfl]

/-! A small pandas: tables are numbers (of columns), with `copy`, `columns`, `_metadata` and `T`. -/

/-- the objects of the small pandas. -/
inductive MiniObj
  | frame (k : ℕ)
  | column
  | int (z : ℤ)
  | fn (k : ℕ)
  | names (k : ℕ)
  | empty
  deriving DecidableEq

/-- the small pandas. -/
def mini : Pandas Unit MiniObj Unit where
  attr _ x name :=
    match x, name with
    | .frame k, "copy" => some (.fn k)
    | .frame k, "columns" => some (.names k)
    | .frame _, "_metadata" => some .empty
    | .frame k, "T" => some (.frame k)
    | _, _ => none
  callable x := match x with | .fn _ => true | _ => false
  call h x _ := match x with | .fn k => (h, .ok (.frame k)) | _ => (h, .error .typeError)
  item h x key :=
    match x, key with
    | .frame k, .names j => if j ≤ k then (h, .ok (.frame j)) else (h, .error .keyError)
    | .frame _, .column => (h, .ok .column)
    | _, _ => (h, .error .keyError)
  setItem h _ _ _ := (h, .ok ())
  isFrame x := match x with | .frame _ => true | _ => false
  int z := .int z

/-- a table of coefficients in the view of determinants. -/
def miniTable : Table MiniObj := ⟨.ci, some (.frame 2), fun n => if n = "_index_view" then some .column else none⟩

example (own : Own Unit MiniObj Unit) : miniTable.frame = some (.frame 2) ∧
    (∀ s ∈ [Step.call "copy" (), Step.item (MiniObj.names 1)], ∀ name, stepName s = some name →
      Foreign miniTable name) ∧
    (∃ w, run mini own 5 () (.table miniTable) [.call "copy" (), .item (.names 1)] = ((), .ok (.table w)) ∧
      w.cls = .base ∧ w.frame = some (.frame 1)) := by
  refine ⟨rfl, ?_, fromExisting (.frame 1), by simp [run, step, stepTable, getAttr, getAttr.delegate, isProperty, Table.instAttr,
    miniTable, mini, functions, baseFunctions, wrapResult, fromExisting], rfl, rfl⟩
  intro s hs name hn
  simp only [List.mem_cons, List.not_mem_nil, or_false] at hs
  rcases hs with rfl | rfl
  · simp only [stepName, Option.some.injEq] at hn
    subst hn
    exact ⟨by decide, by decide, by decide, rfl⟩
  · simp [stepName] at hn

/-- the view is there before the copy and not after it; the metadata of the copy is that of pandas; `T` is not wrapped. -/
example (own : Own Unit MiniObj Unit) :
    getAttr mini () miniTable 5 "index_view" = .ok (.plain .column) ∧
    getAttr mini () (fromExisting (.frame 2)) 5 "index_view" = .error .attributeError ∧
    getAttr mini () (fromExisting (.frame 2)) 5 "_metadata" = .ok (.plain .empty) ∧
    run mini own 5 () (.table miniTable) [.get "T"] = ((), .ok (.plain (.frame 2))) ∧
    mini.attr () (.frame 2) "columns" = some (.names 2) ∧ MiniObj.names 2 ≠ .names 3 ∧
    mini.item () (.frame 2) (mini.int 0) = ((), .error .keyError) :=
  ⟨by simp [getAttr, isProperty, Table.instAttr, miniTable],
    by simp [getAttr, getAttr.delegate, isProperty, Table.instAttr, mini, functions, baseFunctions, fromExisting],
    by simp [getAttr, getAttr.delegate, isProperty, Table.instAttr, mini, functions, baseFunctions, fromExisting],
    by simp [run, step, stepTable, getAttr, getAttr.delegate, isProperty, Table.instAttr,
    miniTable, mini, functions, baseFunctions], rfl, by decide, rfl⟩

end Fanpy.Props
