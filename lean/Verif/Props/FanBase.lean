import Verif.Model.FanBase
import Verif.Props.FanCIOptimize

/-! C107: bookkeeping of the base class of the FanCI problem. -/

namespace Fanpy.Props
open Fanpy.FanBase Fanpy.FanCI

variable {R : Type} {C : Type}

/-- index of Python: `k` is meant by `i` in a list of `n` entries -/
def Means (n : ℕ) (i : ℤ) (k : ℕ) : Prop := k < n ∧ (i = k ∨ i = (k : ℤ) - n)

instance (n : ℕ) (i : ℤ) (k : ℕ) : Decidable (Means n i k) := by unfold Means; infer_instance

theorem pySet_ok {mask : List Bool} {i : ℤ} {b : Bool} (h : -(mask.length : ℤ) ≤ i ∧ i < mask.length) :
    ∃ k, Means mask.length i k ∧ pySet mask i b = .ok (mask.set k b) := by
  by_cases h0 : 0 ≤ i
  · exact ⟨i.toNat, ⟨by omega, .inl (by omega)⟩, by rw [pySet, if_pos ⟨h0, h.2⟩]⟩
  · exact ⟨(mask.length + i).toNat, ⟨by omega, .inr (by omega)⟩, by
      rw [pySet, if_neg (by omega), if_pos ⟨by omega, h.1⟩]⟩

theorem pySet_error {mask : List Bool} {i : ℤ} {b : Bool} (h : ¬ (-(mask.length : ℤ) ≤ i ∧ i < mask.length)) :
    pySet mask i b = .error .indexError := by
  rw [pySet, if_neg (by omega), if_neg (by omega)]

theorem pySets_ok (b : Bool) : ∀ (l : List ℤ) (mask : List Bool),
    (∀ i ∈ l, -(mask.length : ℤ) ≤ i ∧ i < mask.length) →
    ∃ m, l.foldlM (fun m i => pySet m i b) mask = .ok m ∧ m.length = mask.length ∧
      ∀ k, m[k]? = if k < mask.length ∧ ∃ i ∈ l, Means mask.length i k then some b else mask[k]? := by
  intro l
  induction l with
  | nil => intro mask _; exact ⟨mask, rfl, rfl, by simp⟩
  | cons i l ih =>
    intro mask h
    obtain ⟨k, hk, e⟩ := pySet_ok (b := b) (h i (by simp))
    obtain ⟨m, h1, h2, h3⟩ := ih (mask.set k b) (by intro j hj; simpa using h j (by simp [hj]))
    refine ⟨m, by rw [List.foldlM_cons, e]; exact h1, by simpa using h2, ?_⟩
    intro k'
    rw [h3]
    simp only [List.length_set, List.mem_cons, exists_eq_or_imp]
    by_cases hl : k' < mask.length
    · by_cases h5 : ∃ j ∈ l, Means mask.length j k'
      · rw [if_pos ⟨hl, h5⟩, if_pos ⟨hl, .inr h5⟩]
      · rw [if_neg (fun c => h5 c.2)]
        by_cases h4 : Means mask.length i k'
        · rw [if_pos ⟨hl, .inl h4⟩]
          have : k' = k := by
            rcases hk with ⟨a1, a2⟩; rcases h4 with ⟨b1, b2⟩; omega
          subst this
          simp [hl]
        · rw [if_neg (by rintro ⟨_, c | c⟩ <;> contradiction)]
          have : k ≠ k' := by rintro rfl; exact h4 hk
          rw [List.getElem?_set_ne this]
    · rw [if_neg (fun c => hl c.1), if_neg (fun c => hl c.1)]
      rw [List.getElem?_eq_none (by simpa using hl), List.getElem?_eq_none (by omega)]

theorem pySets_error (b : Bool) : ∀ (l : List ℤ) (mask : List Bool),
    (∃ i ∈ l, ¬ (-(mask.length : ℤ) ≤ i ∧ i < mask.length)) →
    l.foldlM (fun m i => pySet m i b) mask = .error .indexError := by
  intro l
  induction l with
  | nil => intro mask h; simp at h
  | cons i l ih =>
    intro mask h
    rw [List.foldlM_cons]
    by_cases hi : -(mask.length : ℤ) ≤ i ∧ i < mask.length
    · obtain ⟨k, hk, e⟩ := pySet_ok (b := b) hi
      rw [e]
      apply ih
      obtain ⟨j, hj, hj2⟩ := h
      rcases List.mem_cons.1 hj with rfl | hj
      · exact absurd hi hj2
      · exact ⟨j, hj, by simpa using hj2⟩
    · rw [pySet_error hi]; rfl

/-- **C107.**  The mask of the constructor: all parameters are active by default; booleans are taken as they are; integers
(also negative ones, from the end) name the frozen parameters.  A wrong number of booleans is a `ValueError`, an index out of
range an `IndexError`.  (The code disagrees for the empty list, which freezes nothing: it is an `IndexError`.) -/
theorem C107_mask (nparam : ℕ) :
    makeMask nparam .none = .ok (List.replicate nparam true) ∧
    (∀ l, l.length = nparam → makeMask nparam (.bools l) = .ok l) ∧
    (∀ l, l.length ≠ nparam → makeMask nparam (.bools l) = .error .valueError) ∧
    (∀ l : List ℤ, l ≠ [] → (∀ i ∈ l, -(nparam : ℤ) ≤ i ∧ i < nparam) → ∃ m, makeMask nparam (.ints l) = .ok m ∧
      m.length = nparam ∧ ∀ k < nparam, m[k]? = some (decide (¬ ((k : ℤ) ∈ l ∨ (k : ℤ) - nparam ∈ l)))) ∧
    (∀ l : List ℤ, (∃ i ∈ l, ¬ (-(nparam : ℤ) ≤ i ∧ i < nparam)) → makeMask nparam (.ints l) = .error .indexError) ∧
    makeMask nparam (.ints []) = .error .indexError := by
  refine ⟨rfl, ?_, ?_, ?_, ?_, rfl⟩
  · intro l h; rw [makeMask, if_neg (by simpa using h)]
  · intro l h; rw [makeMask, if_pos h]
  · intro l hl h
    obtain ⟨m, h1, h2, h3⟩ := pySets_ok false l (List.replicate nparam true) (by simpa using h)
    refine ⟨m, by rw [makeMask, if_neg hl, h1], by simpa using h2, ?_⟩
    intro k hk
    rw [h3]
    simp only [List.length_replicate]
    by_cases hc : (k : ℤ) ∈ l ∨ (k : ℤ) - nparam ∈ l
    · rw [if_pos]
      · simp [hc]
      · rcases hc with hc | hc
        · exact ⟨hk, _, hc, hk, .inl rfl⟩
        · exact ⟨hk, _, hc, hk, .inr rfl⟩
    · rw [if_neg]
      · simp [hk, hc]
      · rintro ⟨_, i, hi, _, rfl | rfl⟩
        · exact hc (.inl hi)
        · exact hc (.inr hi)
  · intro l h
    rw [makeMask, if_neg (by rintro rfl; simp at h)]
    exact pySets_error false l _ (by simpa using h)

/-- the value of a name in a dictionary -/
def lookupName (d : List (Name × C)) (n : Name) : Option C := (d.find? (fun e => e.1 = n)).map Prod.snd

theorem lookup_insert (d : List (Name × C)) (n n' : Name) (c : C) :
    lookupName (FanBase.insert d n c) n' = if n' = n then some c else lookupName d n' := by
  unfold FanBase.insert lookupName
  by_cases hn : n ∈ d.map Prod.fst
  · rw [if_pos hn]
    induction d with
    | nil => simp at hn
    | cons e d ih =>
      rw [List.map_cons, List.find?_cons, List.find?_cons]
      by_cases he : e.1 = n
      · subst he
        by_cases hn' : n' = e.1
        · subst hn'; simp
        · have : ¬ e.1 = n' := fun h => hn' h.symm
          simp only [if_true, this, decide_false, hn', if_false]
          by_cases hd : e.1 ∈ d.map Prod.fst
          · have := ih hd
            rw [if_neg hn'] at this
            simpa using this
          · have hid : d.map (fun x => if x.1 = e.1 then (e.1, c) else x) = d := by
              conv_rhs => rw [← List.map_id d]
              apply List.map_congr_left
              intro x hx
              rw [if_neg, id]
              intro hxe
              exact hd (List.mem_map.2 ⟨x, hx, hxe⟩)
            rw [hid]
      · have hn2 : n ∈ d.map Prod.fst := by
          rw [List.map_cons, List.mem_cons] at hn
          rcases hn with hn | hn
          · exact absurd hn.symm he
          · exact hn
        rw [if_neg he]
        by_cases hen : e.1 = n'
        · subst hen; simp [he]
        · simp only [hen, decide_false]
          exact ih hn2
  · rw [if_neg hn, List.find?_append]
    by_cases hn' : n' = n
    · subst hn'
      rw [if_pos rfl]
      have : d.find? (fun e => e.1 = n') = none := by
        rw [List.find?_eq_none]
        intro x hx
        simp only [decide_eq_true_eq]
        intro h
        exact hn (List.mem_map.2 ⟨x, hx, h⟩)
      rw [this]; simp
    · rw [if_neg hn']
      have : ¬ n = n' := fun h => hn' h.symm
      cases hf : d.find? (fun e => e.1 = n') with
      | none => simp [this]
      | some x => simp

theorem nodup_insert (d : List (Name × C)) (n : Name) (c : C) (h : (d.map Prod.fst).Nodup) :
    ((FanBase.insert d n c).map Prod.fst).Nodup := by
  unfold FanBase.insert
  split_ifs with hn
  · have : (d.map (fun e => if e.1 = n then (n, c) else e)).map Prod.fst = d.map Prod.fst := by
      rw [List.map_map]
      apply List.map_congr_left
      intro e _
      simp only [Function.comp]
      split_ifs with he
      · exact he.symm
      · rfl
    rw [this]; exact h
  · rw [List.map_append, List.nodup_append]
    refine ⟨h, by simp, ?_⟩
    rintro a ha b hb rfl
    simp only [List.map_cons, List.map_nil, List.mem_singleton] at hb
    exact hn (hb ▸ ha)

theorem foldl_insert {β : Type} (name : β → Name) (val : β → C) : ∀ (l : List β) (d : List (Name × C)),
    (d.map Prod.fst).Nodup →
    ((l.foldl (fun d p => FanBase.insert d (name p) (val p)) d).map Prod.fst).Nodup ∧
    ∀ n, lookupName (l.foldl (fun d p => FanBase.insert d (name p) (val p)) d) n =
      match l.reverse.find? (fun p => name p = n) with
      | some p => some (val p)
      | none => lookupName d n := by
  intro l
  induction l with
  | nil => intro d h; exact ⟨h, fun n => rfl⟩
  | cons p l ih =>
    intro d h
    obtain ⟨h1, h2⟩ := ih (FanBase.insert d (name p) (val p)) (nodup_insert _ _ _ h)
    refine ⟨h1, ?_⟩
    intro n
    rw [List.foldl_cons, h2, List.reverse_cons, List.find?_append]
    cases hf : l.reverse.find? (fun p => name p = n) with
    | some q => simp
    | none =>
      simp only [Option.none_or, List.find?_cons, List.find?_nil]
      rw [lookup_insert]
      by_cases hn : name p = n
      · subst hn; simp
      · have : ¬ n = name p := fun h => hn h.symm
        simp [hn, this]

/-- **C107.**  A new object: one equation for each determinant of the projection space and each constraint, as many active
parameters as the mask says.  The constraints are those of the dictionary (kept), one for each parameter in `norm_param` and
one for each determinant in `norm_det`; of several values for the same index the last one counts. -/
theorem C107_init (param det : ℕ → R → C) (nproj nparam : ℕ) (normParam normDet : List (ℕ × R)) (d : List (Name × C))
    (hd : (d.map Prod.fst).Nodup) (hu : ∀ e ∈ d, ∃ s, e.1 = .user s) (mask : MaskArg) (m : List Bool)
    (hm : makeMask nparam mask = .ok m) :
    ∃ o, FanBase.init param det nproj nparam normParam normDet (some d) mask = .ok o ∧ o.nproj = nproj ∧ o.nparam = nparam ∧
      o.mask = m ∧ o.nactive = m.count true ∧ o.nequation = nproj + o.constraints.length ∧
      (o.constraints.map Prod.fst).Nodup ∧
      (∀ s, lookupName o.constraints (.user s) = lookupName d (.user s)) ∧
      (∀ i, lookupName o.constraints (.param i) = (normParam.reverse.find? (fun p => p.1 = i)).map (fun p => param i p.2)) ∧
      (∀ i, lookupName o.constraints (.det i) = (normDet.reverse.find? (fun p => p.1 = i)).map (fun p => det i p.2)) := by
  obtain ⟨a1, a2⟩ := foldl_insert (fun p : ℕ × R => Name.param p.1) (fun p => param p.1 p.2) normParam d hd
  set d1 := normParam.foldl (fun d p => FanBase.insert d (.param p.1) (param p.1 p.2)) d with hd1
  obtain ⟨b1, b2⟩ := foldl_insert (fun p : ℕ × R => Name.det p.1) (fun p => det p.1 p.2) normDet d1 a1
  have none_param : ∀ i, lookupName d (.param i) = none := by
    intro i
    rw [lookupName, List.find?_eq_none.2]; · rfl
    intro e he
    obtain ⟨s, hs⟩ := hu e he
    simp [hs]
  have none_det : ∀ i, lookupName d (.det i) = none := by
    intro i
    rw [lookupName, List.find?_eq_none.2]; · rfl
    intro e he
    obtain ⟨s, hs⟩ := hu e he
    simp [hs]
  refine ⟨⟨nproj, nparam, nproj + (makeConstraints param det d normParam normDet).length, m.count true,
    makeConstraints param det d normParam normDet, m⟩, ?_, rfl, rfl, rfl, rfl, rfl, b1, ?_, ?_, ?_⟩
  · rw [FanBase.init, hm]; rfl
  · intro s
    change lookupName (normDet.foldl _ d1) _ = _
    rw [b2, List.find?_eq_none.2 (by simp)]
    simp only
    rw [a2, List.find?_eq_none.2 (by simp)]
  · intro i
    change lookupName (normDet.foldl _ d1) _ = _
    rw [b2, List.find?_eq_none.2 (by simp)]
    simp only
    rw [a2]
    simp only [Name.param.injEq]
    cases hf : normParam.reverse.find? (fun p => p.1 = i) with
    | none => simpa using none_param i
    | some p =>
      have : p.1 = i := by simpa using List.find?_some hf
      simp [this]
  · intro i
    change lookupName (normDet.foldl _ d1) _ = _
    rw [b2]
    simp only [Name.det.injEq]
    cases hf : normDet.reverse.find? (fun p => p.1 = i) with
    | none =>
      simp only [Option.map_none]
      rw [a2, List.find?_eq_none.2 (by simp)]
      exact none_det i
    | some p =>
      have : p.1 = i := by simpa using List.find?_some hf
      simp [this]

/-- **C107.**  `freeze_parameter` and `unfreeze_parameter` change exactly the named parameters, and the number of active
parameters stays that of the mask; an index out of range is an `IndexError`. -/
theorem C107_freeze (b : Bool) (o : Fan C) (params : List ℤ) :
    ((∀ i ∈ params, -(o.mask.length : ℤ) ≤ i ∧ i < o.mask.length) → ∃ o', setParams b o params = .ok o' ∧
      o'.nactive = o'.mask.count true ∧ o'.mask.length = o.mask.length ∧ o'.nequation = o.nequation ∧
      o'.constraints = o.constraints ∧ o'.nparam = o.nparam ∧ o'.nproj = o.nproj ∧
      ∀ k < o.mask.length, o'.mask[k]? = if (k : ℤ) ∈ params ∨ (k : ℤ) - o.mask.length ∈ params then some b
        else o.mask[k]?) ∧
    ((∃ i ∈ params, ¬ (-(o.mask.length : ℤ) ≤ i ∧ i < o.mask.length)) → setParams b o params = .error .indexError) := by
  constructor
  · intro h
    obtain ⟨m, h1, h2, h3⟩ := pySets_ok b params o.mask h
    refine ⟨{ o with mask := m, nactive := m.count true }, by rw [setParams, h1]; rfl, rfl, h2, rfl, rfl, rfl, rfl, ?_⟩
    intro k hk
    simp only
    rw [h3]
    by_cases hc : (k : ℤ) ∈ params ∨ (k : ℤ) - o.mask.length ∈ params
    · rw [if_pos hc, if_pos]
      rcases hc with hc | hc
      · exact ⟨hk, _, hc, hk, .inl rfl⟩
      · exact ⟨hk, _, hc, hk, .inr rfl⟩
    · rw [if_neg hc, if_neg]
      rintro ⟨_, i, hi, _, rfl | rfl⟩
      · exact hc (.inl hi)
      · exact hc (.inr hi)
  · intro h
    rw [setParams, pySets_error b params o.mask h]; rfl

/-- **C107 (disagreement).**  Constraints cannot be added or removed after construction: the two methods change the tuple of
the names that the property `constraints` gives, which is a `TypeError`. -/
theorem C107_constraints_disagree (o : Fan C) (n : Name) (c : C) :
    addConstraint o n c = .error .typeError ∧ removeConstraint o n = .error .typeError := ⟨rfl, rfl⟩

/-- **C107.**  The constraint on a parameter and its gradient: zero for a frozen parameter, otherwise the difference to the
value, with a one in the column of the parameter among the active ones. -/
theorem C107_param_constraint [Field R] (o : Fan C) (hn : o.nactive = o.mask.count true) (i : ℕ) (v : R) (x : List R) :
    (o.mask[i]? = some true → paramFun o i v x = x.getD i 0 - v ∧
      ∀ k, (paramGrad o i : List R)[k]? = if k < o.nactive then
        some (if k = (o.mask.take i).count true then 1 else 0) else none) ∧
    (o.mask[i]? ≠ some true → paramFun o i v x = 0 ∧ (paramGrad o i : List R) = List.replicate o.nactive 0) := by
  constructor
  · intro h
    have hg : o.mask.getD i false = true := by simp [List.getD_eq_getElem?_getD, h]
    have hlt : (o.mask.take i).count true < o.nactive := by
      obtain ⟨hi, hv⟩ := List.getElem?_eq_some_iff.1 h
      rw [hn]
      conv_rhs => rw [← List.take_append_drop i o.mask]
      rw [List.count_append, List.drop_eq_getElem_cons hi, hv]
      simp
    refine ⟨by rw [paramFun, if_pos hg], ?_⟩
    intro k
    rw [paramGrad, if_pos hg]
    by_cases hk : k = (o.mask.take i).count true
    · subst hk; simp [hlt]
    · rw [List.getElem?_set_ne (Ne.symm hk), if_neg hk]
      by_cases hk2 : k < o.nactive
      · simp [hk2]
      · simp [hk2]
  · intro h
    have hg : o.mask.getD i false = false := by
      rw [List.getD_eq_getElem?_getD]
      cases hv : o.mask[i]? with
      | none => rfl
      | some b => cases b
                  · rfl
                  · exact absurd hv h
    exact ⟨by rw [paramFun, hg]; rfl, by rw [paramGrad, hg]; rfl⟩

/-- **C107.**  What `optimize` gives to the optimizer: functions of the active parameters, whose values are those of the
objective and the Jacobian at the guess with the active entries replaced in order. -/
theorem C107_optimize {V J : Type} [Field R] (o : Fan C) (hn : o.nactive = o.mask.count true) (hl : o.mask.length = o.nparam)
    (f : List R → V) (j : List R → J) (x0 : List R) (hx : x0.length = o.nparam) (he : o.nactive ≤ o.nequation)
    (mode : FanBase.Mode) (hmode : mode = .lstsq ∨ (mode = .root ∧ o.nequation = o.nactive)) :
    ∃ f' j' z0, FanBase.optimizeArgs o f j x0 mode = .ok (f', j', z0) ∧ z0.length = o.nactive ∧ f' z0 = f x0 ∧ j' z0 = j x0 ∧
      ∀ z, z.length = o.nactive → ∃ y, y.length = o.nparam ∧ f' z = f y ∧ j' z = j y ∧
        (∀ i, o.mask.getD i false = true → y[i]? = z[(o.mask.take i).count true]?) ∧
        ∀ i, o.mask.getD i false = false → y[i]? = x0[i]? := by
  have hml : o.mask.length = x0.length := by rw [hl, hx]
  have harg : FanBase.optimizeArgs o f j x0 mode = .ok (if o.nactive < o.nparam
      then (fun z => f (scatter o.mask x0 z), fun z => j (scatter o.mask x0 z), gather o.mask x0) else (f, j, x0)) := by
    rw [FanBase.optimizeArgs, if_neg (by omega), if_neg (by simpa using hx)]
    rcases hmode with rfl | ⟨rfl, h⟩
    · rfl
    · simp only [h, ne_eq, not_true_eq_false, if_false]
  rw [harg]
  by_cases h : o.nactive < o.nparam
  · rw [if_pos h]
    refine ⟨_, _, _, rfl, by rw [gather_length _ _ hml, hn], by simp only [scatter_gather], by simp only [scatter_gather], ?_⟩
    intro z hz
    exact ⟨scatter o.mask x0 z, by rw [scatter_length, hx], rfl, rfl,
      fun i hi => scatter_active _ _ _ i hml (by rw [hz, hn]) hi, fun i hi => scatter_frozen _ _ _ i hi⟩
  · rw [if_neg h]
    have hc : o.mask.count true = o.mask.length := by
      have := List.count_le_length (a := true) (l := o.mask)
      omega
    refine ⟨_, _, _, rfl, by omega, rfl, rfl, ?_⟩
    intro z hz
    have hs := scatter_full o.mask x0 z hml hc (by omega)
    refine ⟨z, by omega, rfl, rfl, fun i hi => ?_, fun i hi => ?_⟩
    · conv_lhs => rw [← hs]
      exact scatter_active _ _ _ i hml (by omega) hi
    · conv_lhs => rw [← hs]
      exact scatter_frozen _ _ _ i hi

/-- The errors of `optimize`. -/
theorem C107_optimize_errors {V J : Type} (o : Fan C) (f : List R → V) (j : List R → J) (x0 : List R)
    (mode : FanBase.Mode) (e : PyErr) :
    FanBase.optimizeArgs o f j x0 mode = .error e ↔
      (e = .valueError ∧ (o.nequation < o.nactive ∨ x0.length ≠ o.nparam ∨ mode = .other ∨
        (mode = .root ∧ o.nequation ≠ o.nactive))) ∨
      (e = .notImplemented ∧ mode = .cma ∧ o.nactive ≤ o.nequation ∧ x0.length = o.nparam) := by
  rw [FanBase.optimizeArgs]
  by_cases h1 : o.nequation < o.nactive
  · simp [h1, eq_comm]
  · by_cases hx : x0.length = o.nparam
    · rw [if_neg h1, if_neg (by simpa using hx)]
      cases mode with
      | lstsq => simp [hx, h1]
      | root =>
        by_cases h : o.nequation = o.nactive
        · simp [hx, h]
        · simp [hx, h, h1, eq_comm]
      | cma => simp [hx, h1, eq_comm]; omega
      | other => simp [hx, eq_comm]
    · simp [hx, h1, eq_comm]

/-- **C107 (disagreement).**  `optimize_stochastic` with more than one sample always raises `AttributeError` after the first
optimization; with one sample (or fewer) it gives the solution and the overlaps computed from the entries of the solution
but the last.  If parameters are frozen the solution has only the active ones, so there are too few of them. -/
theorem C107_stochastic_disagrees {O : Type} (solve : List R → Except PyErr (List R)) (overlap : List R → O) (x0 x : List R)
    (hs : solve x0 = .ok x) (nsamp : ℤ) :
    (1 < nsamp → optimizeStochastic solve overlap nsamp x0 = .error .attributeError) ∧
    (nsamp ≤ 1 → ∃ a, optimizeStochastic solve overlap nsamp x0 = .ok [(overlap a, x)] ∧ a.length = x.length - 1) := by
  constructor
  · intro h
    rw [optimizeStochastic, hs]
    change (if nsamp ≤ 1 then _ else _) = _
    rw [if_neg (by omega)]
  · intro h
    refine ⟨x.dropLast, ?_, by simp⟩
    rw [optimizeStochastic, hs]
    change (if nsamp ≤ 1 then _ else _) = _
    rw [if_pos h]; rfl

/-- A concrete case: the last parameter (the energy) and the first one frozen. -/
example : makeMask 3 (.ints [0, -1]) = .ok [false, true, false] ∧ makeMask 3 (.ints [3]) = .error .indexError := by
  decide +kernel

end Fanpy.Props
