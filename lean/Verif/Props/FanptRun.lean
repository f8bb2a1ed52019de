import Verif.Lemmas.FanptRun

/-! # Property C114: the problems that `FANPT.optimize` solves -/

namespace Fanpy.Props
open Fanpy.FanCI Fanpy.FanBase Fanpy.PyciIface Fanpy.FANPT Fanpy.FanptRun

section
variable {R I : Type} [Field R] [LinearOrder R] [AddCommGroup I] [Module R I]

/-- the mask of the wavefunction parameters, and what the constructor of `FANPT` makes of the mask of the energy (`C114_init`) -/
def FanptReady (c : Cfg R I) (s : Iface R I) (wmask : List Bool) : Prop :=
  ∃ a, s.obj.mask = wmask ++ [a] ∧ (c.energyActive = true → a = true)

theorem run_spec {X : Ext R I} (hX : Sized X) {c : Cfg R I} {s : Iface R I} {M : List Bool} (hM : FanptReady c s M) (guess : List R)
    (energy li lf : R) (steps : ℕ) :
    (run X c s guess energy li lf steps).solves = [] ∧ (∃ e, (run X c s guess energy li lf steps).result = .error e) ∨
    ∃ o : FanObj R I, ∃ tl, (run X c s guess energy li lf steps).solves = (o, guess ++ [energy]) :: tl ∧ o.ham = c.ham0 ∧ o.opHam = c.ham0 ∧
      o.mask = M ++ [true] ∧ o.nparam = M.length + 1 ∧ guess.length = M.length ∧
      (((∃ e, X.solve o (guess ++ [energy]) = .error e ∧ (run X c s guess energy li lf steps).result = .error e) ∧ tl = []) ∨
        (steps = 0 ∧ (run X c s guess energy li lf steps).result = .error .runtimeError ∧ tl = []) ∨
        (steps ≠ 0 ∧ ∃ s' x, s'.obj.mask = M ++ [c.energyActive] ∧ s'.obj.ham = c.ham0 ∧ s'.obj.opHam = c.ham0 ∧
          X.solve o (guess ++ [energy]) = .ok x ∧
          tl = (loop X c (schedule li lf steps) s' (scatter o.mask (guess ++ [energy]) x) x).solves ∧
          (run X c s guess energy li lf steps).result =
            (loop X c (schedule li lf steps) s' (scatter o.mask (guess ++ [energy]) x) x).result ∧
          (run X c s guess energy li lf steps).state =
            (loop X c (schedule li lf steps) s' (scatter o.mask (guess ++ [energy]) x) x).state)) := by
  obtain ⟨a, ha, hact⟩ := hM
  rw [run]
  split
  · exact .inl ⟨rfl, _, rfl⟩
  · rename_i s1 hu
    obtain ⟨u1, u2, u3, u4⟩ := updateObjective_obj hu
    have hm : (forSolve c.energyActive s1).obj.mask = M ++ [true] := forSolve_mask (u3.trans ha) hact
    obtain ⟨f1, f2, f3, f4⟩ := forSolve_obj c.energyActive s1
    have hn : s1.obj.nparam = M.length + 1 := by rw [u4, ha]; simp
    split
    · rename_i s2 t e he
      obtain ⟨_, h | h⟩ := solveStep_error he
      · exact .inl ⟨h.1, _, rfl⟩
      · refine .inr ⟨_, [], h.1, f1.trans u1, f2.trans u2, hm, f3.trans hn, ?_, .inl ⟨⟨e, h.2.2, rfl⟩, rfl⟩⟩
        have := h.2.1
        rw [hn] at this
        simpa using this
    · rename_i s2 t x p he
      obtain ⟨b1, b2, b3, b4, b5⟩ := solveStep_ok he
      have hgl : guess.length = M.length := by
        rw [hn] at b1
        simpa using b1
      split_ifs with h0
      · exact .inr ⟨_, [], b4, f1.trans u1, f2.trans u2, hm, f3.trans hn, hgl, .inr (.inl ⟨h0, rfl, rfl⟩)⟩
      · obtain ⟨g1, g2⟩ := afterSolve_obj c.energyActive (forSolve c.energyActive s1)
        refine .inr ⟨_, _, by rw [b4]; rfl, f1.trans u1, f2.trans u2, hm, f3.trans hn, hgl, .inr (.inr ⟨h0, s2, x, ?_, ?_, ?_, b2, ?_⟩)⟩
        · rw [b3]; exact afterSolve_mask hm
        · rw [b3, g1, f1, u1]
        · rw [b3, g2, f2, u2]
        · rw [b5]
          exact ⟨rfl, rfl, rfl⟩

/-- **C114.**  The problems that are solved: that of the ideal Hamiltonian and then, for equal steps from `lambda_i` to `lambda_f`, those of the
combinations at the end of every step; as many as there are before something is raised.  In each of them the CI operator is the one of the
Hamiltonian, the energy is an active parameter (also when it is not one of the perturbation theory), and the active parameters of the
wavefunction are those of the interface. -/
theorem C114_problems {X : Ext R I} (hX : Sized X) {c : Cfg R I} {s : Iface R I} {M : List Bool} (hM : FanptReady c s M) (guess : List R)
    (energy li lf : R) (steps : ℕ) :
    (run X c s guess energy li lf steps).solves.map (fun t => t.1.ham) <+:
      c.ham0 :: (List.range steps).map (fun i : ℕ => linearComb c.ham1 c.ham0 (li + (i + 1) * ((lf - li) / steps))
        (1 - (li + (i + 1) * ((lf - li) / steps)))) ∧
    (∀ r, (run X c s guess energy li lf steps).result = .ok r →
      (run X c s guess energy li lf steps).solves.length = steps + 1 ∧ 0 < steps) ∧
    ∀ t ∈ (run X c s guess energy li lf steps).solves, t.1.opHam = t.1.ham ∧ t.1.mask = M ++ [true] ∧ t.1.nparam = M.length + 1 ∧
      t.2.length = M.length + 1 := by
  have hsch : (schedule li lf steps).map (fun q => linearComb c.ham1 c.ham0 q.2 (1 - q.2)) =
      (List.range steps).map (fun i : ℕ => linearComb c.ham1 c.ham0 (li + (i + 1) * ((lf - li) / steps))
        (1 - (li + (i + 1) * ((lf - li) / steps)))) := by
    rw [schedule, List.map_map]
    refine List.map_congr_left fun i _ => ?_
    have e1 : li + (i : R) * ((lf - li) / steps) + (lf - li) / steps = li + (i + 1) * ((lf - li) / steps) := by ring
    simp only [Function.comp, e1]
  rcases run_spec hX hM guess energy li lf steps with ⟨h1, e, h2⟩ | ⟨o, tl, h1, h2, h3, h4, h5, h6, h⟩
  · rw [h1, h2]
    exact ⟨List.nil_prefix, fun r h => by simp at h, by simp⟩
  · have head : ∀ t, t = (o, guess ++ [energy]) → t.1.opHam = t.1.ham ∧ t.1.mask = M ++ [true] ∧ t.1.nparam = M.length + 1 ∧
        t.2.length = M.length + 1 := by
      rintro t rfl
      exact ⟨h3.trans h2.symm, h4, h5, by simp [h6]⟩
    rw [h1]
    rcases h with ⟨⟨e, _, hr⟩, rfl⟩ | ⟨_, hr, rfl⟩ | ⟨h0, s', x, k1, k2, k3, k4, rfl, k6, k7⟩
    · rw [hr]
      refine ⟨by simp [h2], fun r h => by simp at h, fun t ht => head t (by simpa using ht)⟩
    · rw [hr]
      refine ⟨by simp [h2], fun r h => by simp at h, fun t ht => head t (by simpa using ht)⟩
    · obtain ⟨⟨k, q1, q2, q3⟩, q4, _⟩ := loop_spec hX c M (schedule li lf steps) s' _ x (o, guess ++ [energy]) k1 h4 (by simp [h6]) k4 rfl
        (k3.trans h3.symm) (k2.trans h3.symm)
      refine ⟨?_, ?_, ?_⟩
      · rw [List.map_cons, q2, ← hsch, h2, List.prefix_cons_inj, List.map_take]
        exact List.take_prefix _ _
      · intro r hr
        rw [k6] at hr
        have hk := q3 r hr
        have := congrArg List.length q2
        simp only [List.length_map, List.length_take] at this
        rw [List.length_cons, this, hk]
        simp only [schedule, List.length_map, List.length_range, min_self, true_and]
        omega
      · intro t ht
        rcases List.mem_cons.1 ht with h | h
        · exact head t h
        · exact q4 t h

/-- **C114.**  The guesses: the first is the argument; every other one is the solution of the problem before with the corrections of perturbation
theory from the value of lambda at which the problem before was solved (the first step starts from `lambda_i`), and the energy of perturbation
theory. -/
theorem C114_guesses {X : Ext R I} (hX : Sized X) {c : Cfg R I} {s : Iface R I} {M : List Bool} (hM : FanptReady c s M) (guess : List R)
    (energy li lf : R) (steps : ℕ) :
    (∀ t, (run X c s guess energy li lf steps).solves[0]? = some t → t.2 = guess ++ [energy]) ∧
    ∀ (k : ℕ) t t', (run X c s guess energy li lf steps).solves[k]? = some t →
      (run X c s guess energy li lf steps).solves[k + 1]? = some t' →
      Follows X c.energyActive M (fun l => linearComb c.ham1 c.ham0 l (1 - l)) (li + k * ((lf - li) / steps))
        (li + (k + 1) * ((lf - li) / steps)) t t' := by
  rcases run_spec hX hM guess energy li lf steps with ⟨h1, e, h2⟩ | ⟨o, tl, h1, h2, h3, h4, h5, h6, h⟩
  · rw [h1]
    simp
  · rw [h1]
    refine ⟨by simp, ?_⟩
    rcases h with ⟨⟨e, _, hr⟩, rfl⟩ | ⟨_, hr, rfl⟩ | ⟨h0, s', x, k1, k2, k3, k4, rfl, k6, k7⟩
    · intro k t t' _ h; simp at h
    · intro k t t' _ h; simp at h
    · obtain ⟨_, _, q5, _⟩ := loop_spec hX c M (schedule li lf steps) s' _ x (o, guess ++ [energy]) k1 h4 (by simp [h6]) k4 rfl
        (k3.trans h3.symm) (k2.trans h3.symm)
      intro k t t' ha hb
      rw [List.getElem?_cons_succ] at hb
      obtain ⟨q, hq, hf⟩ := q5 k t t' ha hb
      rw [schedule, List.getElem?_map] at hq
      obtain ⟨i, hi, hq⟩ := Option.map_eq_some_iff.1 hq
      obtain ⟨hlt, hi⟩ := List.getElem?_eq_some_iff.1 hi
      rw [List.getElem_range] at hi
      subst hi
      rw [← hq] at hf
      have e1 : li + (k : R) * ((lf - li) / steps) + (lf - li) / steps = li + (k + 1) * ((lf - li) / steps) := by ring
      simp only [e1] at hf
      exact hf

/-- **C114.**  A frozen parameter of the wavefunction has the value of the argument in every problem. -/
theorem C114_frozen {X : Ext R I} (hX : Sized X) {c : Cfg R I} {s : Iface R I} {M : List Bool} (hM : FanptReady c s M) (guess : List R)
    (energy li lf : R) (steps : ℕ) (i : ℕ) (hi : i < M.length) (hf : M.getD i false = false) :
    ∀ t ∈ (run X c s guess energy li lf steps).solves, t.2[i]? = guess[i]? := by
  obtain ⟨g1, g2⟩ := C114_guesses hX hM guess energy li lf steps
  have key : ∀ (k : ℕ) t, (run X c s guess energy li lf steps).solves[k]? = some t → t.2[i]? = guess[i]? := by
    intro k
    induction k with
    | zero =>
      intro t ht
      have hl := ((C114_problems hX hM guess energy li lf steps).2.2 t (List.mem_of_getElem? ht)).2.2.2
      rw [g1 t ht] at hl ⊢
      have : guess.length = M.length := by simpa using hl
      rw [List.getElem?_append_left (by omega)]
    | succ k ih =>
      intro t ht
      obtain ⟨hlt, _⟩ := List.getElem?_eq_some_iff.1 ht
      have hk : (run X c s guess energy li lf steps).solves[k]? = some (run X c s guess energy li lf steps).solves[k] :=
        List.getElem?_eq_getElem (by omega)
      obtain ⟨x, y, o, ds, e, _, _, _, _, _, _, _, _, h9, _⟩ := g2 k _ t hk ht
      rw [h9 i hi hf]
      exact ih _ hk
  intro t ht
  obtain ⟨k, hk⟩ := List.getElem?_of_mem ht
  exact key k t hk

/-- **C114.**  What is returned: the solution of the last problem and its last number, the energy.  The interface has the Hamiltonian of the last
problem and the energy is again active or not as it is in the perturbation theory. -/
theorem C114_result_partial {X : Ext R I} (hX : Sized X) {c : Cfg R I} {s : Iface R I} {M : List Bool} (hM : FanptReady c s M) (guess : List R)
    (energy li lf : R) (steps : ℕ) (x : List R) (e : R) (h : (run X c s guess energy li lf steps).result = .ok (x, e)) :
    (∃ t, (run X c s guess energy li lf steps).solves.getLast? = some t ∧ X.solve t.1 t.2 = .ok x ∧ x.getLast? = some e ∧
      (run X c s guess energy li lf steps).state.obj.ham = t.1.ham ∧
      (run X c s guess energy li lf steps).state.obj.opHam = t.1.ham) ∧
    (run X c s guess energy li lf steps).state.obj.mask = M ++ [c.energyActive] ∧
    ∀ k < steps, li + k * ((lf - li) / steps) < li + (k + 1) * ((lf - li) / steps) ∧ li + (k + 1) * ((lf - li) / steps) ≤ 1 := by
  have hp := (C114_problems hX hM guess energy li lf steps).2.2
  rcases run_spec hX hM guess energy li lf steps with ⟨h1, e, h2⟩ | ⟨o, tl, h1, h2, h3, h4, h5, h6, h'⟩
  · rw [h2] at h; simp at h
  · rcases h' with ⟨⟨e, _, hr⟩, rfl⟩ | ⟨_, hr, rfl⟩ | ⟨h0, s', x', k1, k2, k3, k4, rfl, k6, k7⟩
    · rw [hr] at h; simp at h
    · rw [hr] at h; simp at h
    · obtain ⟨_, _, _, q⟩ := loop_spec hX c M (schedule li lf steps) s' _ x' (o, guess ++ [energy]) k1 h4 (by simp [h6]) k4 rfl
        (k3.trans h3.symm) (k2.trans h3.symm)
      rw [k6] at h
      obtain ⟨j1, ⟨t, j2, j3, j4, j5, j6⟩, j7⟩ := q x e h
      rw [← h1] at j2
      have ht := (hp t (List.mem_of_getLast? j2)).1
      rw [k7]
      refine ⟨⟨t, j2, j3, j4, j5.trans ht, j6.trans ht⟩, j1, ?_⟩
      intro k hk
      have := j7 (li + k * ((lf - li) / steps), li + k * ((lf - li) / steps) + (lf - li) / steps)
        (List.mem_map.2 ⟨k, List.mem_range.2 hk, rfl⟩)
      have e1 : li + (k : R) * ((lf - li) / steps) + (lf - li) / steps = li + (k + 1) * ((lf - li) / steps) := by ring
      simp only [e1] at this
      exact this

/-- **C114.**  A call leaves nothing behind that another call could see, also if it raised an exception: the next call solves the same problems
with the same result. -/
theorem C114_again (X : Ext R I) (c : Cfg R I) (s : Iface R I) (guess guess' : List R) (energy energy' li lf li' lf' : R)
    (steps steps' : ℕ) :
    (run X c (run X c s guess' energy' li' lf' steps').state guess energy li lf steps).solves =
      (run X c s guess energy li lf steps).solves ∧
    (run X c (run X c s guess' energy' li' lf' steps').state guess energy li lf steps).result =
      (run X c s guess energy li lf steps).result :=
  have h := run_congr X c (run_alike X c s guess' energy' li' lf' steps') guess energy li lf steps
  ⟨h.1, h.2.1⟩

/-- **C114.**  Errors before anything is solved: the objective cannot be updated (`C110_update_ok`), or the number of parameters of the argument
is not that of the objective. -/
theorem C114_errors (X : Ext R I) (c : Cfg R I) (s : Iface R I) (guess : List R) (energy li lf : R) (steps : ℕ) :
    (∀ e, updateObjective s (.inl c.ham0) = .error e → run X c s guess energy li lf steps = ⟨s, [], .error e⟩) ∧
    ((∃ s', updateObjective s (.inl c.ham0) = .ok s') → guess.length + 1 ≠ s.obj.mask.length →
      (run X c s guess energy li lf steps).solves = [] ∧
      (run X c s guess energy li lf steps).result = .error .valueError) := by
  constructor
  · intro e h
    rw [run, h]
  · rintro ⟨s', h⟩ hl
    obtain ⟨u1, u2, u3, u4⟩ := updateObjective_obj h
    rw [run, h]
    have : solveStep X c.energyActive s' (guess ++ [energy]) = (forSolve c.energyActive s', [], .error .valueError) := by
      rw [solveStep, if_pos]
      rw [(forSolve_obj _ _).2.2.1, u4]
      simpa using hl
    simp only [this]
    trivial

/-- **C114.**  A call returns if the optimizer and the response equations raise nothing, the objective of Fanpy has one equation of constraints, the
guess has the right size, there is a step, every step goes up and ends at most at 1, and the order is not negative. -/
theorem C114_succeeds {X : Ext R I} (hX : Sized X) (hs : ∀ o g, ∃ x, X.solve o g = .ok x) (hp : ∀ o p l l', ∃ r, X.pt o p l l' = .ok r)
    {c : Cfg R I} {s : Iface R I} {M : List Bool} (hM : FanptReady c s M) (hi : c.inorm = false) (ho : 0 ≤ c.finalOrder)
    (hc : s.opts.constraints = none) (hw : s.eqn.weights = s.eqn.pspace.length + 1) (guess : List R) (hg : guess.length = M.length)
    (energy li lf : R) (steps : ℕ) (h0 : 0 < steps)
    (hl : ∀ k < steps, li + k * ((lf - li) / steps) < li + (k + 1) * ((lf - li) / steps) ∧ li + (k + 1) * ((lf - li) / steps) ≤ 1) :
    ∃ r, (run X c s guess energy li lf steps).result = .ok r := by
  obtain ⟨a, ha, hact⟩ := hM
  have h2 : updateObjective s (.inl c.ham0) = .ok (rebuilt s c.ham0 s.obj.mask) := by
    rw [updateObjective_eq, if_neg (by simpa using hc), if_neg (by simpa using hw)]
  generalize rebuilt s c.ham0 s.obj.mask = s1 at h2
  obtain ⟨u1, u2, u3, u4⟩ := updateObjective_obj h2
  have a2 := updateObjective_alike (active := c.energyActive) h2
  obtain ⟨s3, t, x, h3, h4, h5⟩ := solveStep_total hs c.energyActive s1 (guess ++ [energy]) (by rw [u4, ha]; simp [hg])
  have a3 := solveStep_alike X c.energyActive s1 (guess ++ [energy])
  rw [h3] at a3
  have a4 := a2.trans a3
  have hm : (forSolve c.energyActive s1).obj.mask = M ++ [true] := forSolve_mask (u3.trans ha) hact
  rw [run, h2]
  simp only [h3, if_neg (show ¬ steps = 0 by omega)]
  refine loop_total hX hs hp c M hi ho _ s3 _ x ?_ ?_ ?_ ?_ ?_
  · intro q hq
    obtain ⟨k, hk, rfl⟩ := List.mem_map.1 hq
    have := hl k (List.mem_range.1 hk)
    have e1 : li + (k : R) * ((lf - li) / steps) + (lf - li) / steps = li + (k + 1) * ((lf - li) / steps) := by ring
    simp only [e1]
    exact this
  · rw [h5]; exact afterSolve_mask hm
  · rw [scatter_length]; simp [hg]
  · exact a4.2.1.2.2.1.trans hc
  · rw [show s3.eqn.weights = s.eqn.weights from a4.1.2.2.2.2.2.2, show s3.eqn.pspace = s.eqn.pspace from a4.1.2.2.2.2.2.1, hw]

/-- **C114.**  What the first step refuses after the problem of the ideal Hamiltonian was solved: a normalization that the objective does not have is a
`KeyError`; a step that goes down, ends above 1, or a negative order (without resummation) is a `ValueError`. -/
theorem C114_refused {X : Ext R I} (hs : ∀ o g, ∃ x, X.solve o g = .ok x)
    {c : Cfg R I} {s : Iface R I} {M : List Bool} (hM : FanptReady c s M)
    (hc : s.opts.constraints = none) (hn : s.opts.normDet = none) (hw : s.eqn.weights = s.eqn.pspace.length + 1) (guess : List R)
    (hg : guess.length = M.length) (energy li lf : R) (steps : ℕ) (h0 : 0 < steps) :
    (c.inorm = true → (run X c s guess energy li lf steps).result = .error .keyError ∧
      (run X c s guess energy li lf steps).solves.length = 1) ∧
    (c.inorm = false → (¬ (li < li + (lf - li) / steps ∧ li + (lf - li) / steps ≤ 1) ∨ (c.resum = false ∧ c.finalOrder < 0)) →
      (run X c s guess energy li lf steps).result = .error .valueError ∧ (run X c s guess energy li lf steps).solves.length = 1) := by
  obtain ⟨a, ha, hact⟩ := hM
  have h2 : updateObjective s (.inl c.ham0) = .ok (rebuilt s c.ham0 s.obj.mask) := by
    rw [updateObjective_eq, if_neg (by simpa using hc), if_neg (by simpa using hw)]
  have hcons : ∀ n, (rebuilt s c.ham0 s.obj.mask).obj.constraints = n → Name.det c.refSd ∉ n := by
    intro n hn'
    rw [← hn']
    obtain ⟨h1, h2', hcn⟩ := PyciIface.updateObjective_some h2
    rw [C110_constraints _ _ _ _ _ hcn]
    simp [hc, hn, normName]
  have hcons' := hcons _ rfl
  generalize rebuilt s c.ham0 s.obj.mask = s1 at h2 hcons'
  obtain ⟨u1, u2, u3, u4⟩ := updateObjective_obj h2
  obtain ⟨s3, t, x, h3, h4, h5⟩ := solveStep_total hs c.energyActive s1 (guess ++ [energy]) (by rw [u4, ha]; simp [hg])
  have ht : t.length = 1 := by rw [(solveStep_ok h3).2.2.2.1]; rfl
  have hm : (forSolve c.energyActive s1).obj.mask = M ++ [true] := forSolve_mask (u3.trans ha) hact
  have hm3 : s3.obj.mask = M ++ [c.energyActive] := by rw [h5]; exact afterSolve_mask hm
  have hc3 : s3.obj.constraints = s1.obj.constraints := by
    rw [h5]; cases c.energyActive <;> rfl
  have hact3 : (!c.energyActive && s3.obj.mask.getLastD false) = false := by rw [hm3]; cases c.energyActive <;> simp
  obtain ⟨n, rfl⟩ : ∃ n, steps = n + 1 := ⟨steps - 1, by omega⟩
  have hsch : schedule li lf (n + 1) = (li, li + (lf - li) / (n + 1 : ℕ)) :: (schedule li lf (n + 1)).tail := by
    rw [schedule, List.range_succ_eq_map]
    simp
  have hloop : ∀ p e, (ptStep X c s3 p li (li + (lf - li) / (n + 1 : ℕ))).2 = .error e →
      (loop X c (schedule li lf (n + 1)) s3 p x).result = .error e ∧ (loop X c (schedule li lf (n + 1)) s3 p x).solves = [] := by
    intro p e he
    rw [hsch, loop]
    generalize ptStep X c s3 p li (li + (lf - li) / (n + 1 : ℕ)) = z at he
    obtain ⟨z1, z2⟩ := z
    simp only at he
    subst he
    exact ⟨rfl, rfl⟩
  have hrun : ∀ e, (ptStep X c s3 (scatter (forSolve c.energyActive s1).obj.mask (guess ++ [energy]) x) li
      (li + (lf - li) / (n + 1 : ℕ))).2 = .error e →
      (run X c s guess energy li lf (n + 1)).result = .error e ∧ (run X c s guess energy li lf (n + 1)).solves.length = 1 := by
    intro e he
    obtain ⟨e1, e2⟩ := hloop _ e he
    rw [run, h2]
    simp only [h3, if_neg (Nat.succ_ne_zero n), e1, e2, List.append_nil, ht, and_self]
  constructor
  · intro hi
    apply hrun
    rw [ptStep, if_neg (by rw [hact3]; simp)]
    simp only [setPyciHam]
    rw [if_pos]
    simp [hi, hc3, hcons']
  · intro hi h
    apply hrun
    rw [ptStep, if_neg (by rw [hact3]; simp)]
    simp only [setPyciHam]
    rw [if_neg (by simp [hi])]
    have : checkUpdater li (li + (lf - li) / (n + 1 : ℕ)) (usedOrder c { s3.obj with
        ham := linearComb c.ham1 c.ham0 li (1 - li) }) = .error .valueError := by
      rw [checkUpdater]
      rcases h with h | ⟨h, h'⟩
      · rw [if_pos h]
      · by_cases h6 : ¬ (li < li + (lf - li) / (n + 1 : ℕ) ∧ li + (lf - li) / (n + 1 : ℕ) ≤ 1)
        · rw [if_pos h6]
        · rw [if_neg h6, if_pos]
          rw [usedOrder, assignResum, h]
          simpa using h'
    simp only [this]

/-- **C114.**  The arguments: `None` takes the stored value. -/
theorem C114_arguments (X : Ext R I) (c : Cfg R I) (s : Iface R I) (guess : List R) (energy : R) :
    optimize X c s guess energy none none none = run X c s guess energy c.lambdaI c.lambdaF c.steps ∧
    ∀ li lf steps, li ≠ 0 → lf ≠ 0 → steps ≠ 0 →
      optimize X c s guess energy (some li) (some lf) (some steps) = run X c s guess energy li lf steps := by
  refine ⟨rfl, fun li lf steps h1 h2 h3 => ?_⟩
  simp [optimize, FANPT.orElse, h1, h2, h3]

/-- **C114.**  The object that the constructor of `FANPT` makes is ready. -/
theorem C114_init (e : Proj I) (en : R) (legacy resum : Bool) (refSd steps : ℕ) (quasi : ℤ) (f : Fanpt R I) (c : Cfg R I)
    (h : fanptInit e en legacy c.energyActive resum refSd steps quasi = .ok f) :
    FanptReady c f.iface (e.sel.flatMap fun p => (List.range (e.nparams p.1)).map fun i => decide (i ∈ p.2)) := by
  cases hs : construct e en (fanptOpts legacy) .none with
  | error x =>
    rw [fanptInit, hs] at h
    cases h
  | ok s =>
    have h1 := (C110_default_mask e en _ s hs).1
    have h2 := C110_fanpt e en legacy c.energyActive resum refSd steps quasi s hs
    simp only at h2
    rw [h2] at h
    split_ifs at h with h3 <;> · rw [← Except.ok.inj h]; exact ⟨c.energyActive, by rw [h1]; simp, id⟩

/-- **C114, disagreement.**  If the objective of Fanpy has other than one equation of constraints, the object is made but `optimize` always raises a
`ValueError`. -/
theorem C114_constraints_disagrees (e : Proj I) (en : R) (legacy resum : Bool) (refSd steps : ℕ) (quasi : ℤ) (f : Fanpt R I) (c : Cfg R I)
    (h : fanptInit e en legacy c.energyActive resum refSd steps quasi = .ok f) (hw : e.weights = e.pspace.length + e.consEqns.sum)
    (hc : e.consEqns.sum ≠ 1) (X : Ext R I) (guess : List R) (energy li lf : R) (n : ℕ) :
    (run X c f.iface guess energy li lf n).result = .error .valueError ∧ (run X c f.iface guess energy li lf n).solves = [] := by
  have key : f.iface.opts.constraints = none ∧ f.iface.eqn = e := by
    cases hs : construct e en (fanptOpts legacy) .none with
    | error x =>
      rw [fanptInit, hs] at h
      cases h
    | ok s =>
      have h2 := C110_fanpt e en legacy c.energyActive resum refSd steps quasi s hs
      obtain ⟨_, _, _, _, _, _, e'⟩ := PyciIface.construct_some hs
      simp only at h2
      rw [h2] at h
      split_ifs at h with h3 <;> · rw [← Except.ok.inj h, e']; exact ⟨rfl, rfl⟩
  have := (C110_update_disagrees f.iface (.inl c.ham0)).2 key.1 (by rw [key.2]; exact hw) (by rw [key.2]; exact hc)
  rw [(C114_errors X c f.iface guess energy li lf n).1 _ this]
  exact ⟨rfl, rfl⟩

end

/-- **C114.**  With real numbers: a call that returns has `lambda_i < lambda_f ≤ 1`, and with `lambda_f = 1` the last problem is that of the given
Hamiltonian. -/
theorem C114_interval {I : Type} [AddCommGroup I] [Module ℝ I] {X : Ext ℝ I} (hX : Sized X) {c : Cfg ℝ I} {s : Iface ℝ I} {M : List Bool}
    (hM : FanptReady c s M) (guess : List ℝ) (energy li lf : ℝ) (steps : ℕ) (r : List ℝ × ℝ)
    (h : (run X c s guess energy li lf steps).result = .ok r) :
    li < lf ∧ lf ≤ 1 ∧ (run X c s guess energy li lf steps).state.obj.ham = linearComb c.ham1 c.ham0 lf (1 - lf) ∧
      (lf = 1 → (run X c s guess energy li lf steps).state.obj.ham = c.ham1) := by
  obtain ⟨p1, p2, p3⟩ := C114_problems hX hM guess energy li lf steps
  obtain ⟨hl, h0⟩ := p2 r h
  obtain ⟨⟨t, t1, _, _, t4, _⟩, _, q⟩ := C114_result_partial hX hM guess energy li lf steps r.1 r.2 h
  have hs : (0 : ℝ) < steps := by exact_mod_cast h0
  have q0 := q (steps - 1) (by omega)
  have e1 : li + (((steps - 1 : ℕ) : ℝ) + 1) * ((lf - li) / steps) = lf := by
    rw [Nat.cast_sub h0, Nat.cast_one]
    field_simp
    ring
  rw [e1] at q0
  have hlt : li < lf := by
    have := (q 0 h0).1
    rw [Nat.cast_zero, zero_mul, add_zero, zero_add, one_mul] at this
    by_contra hc
    have : (lf - li) / steps ≤ 0 := div_nonpos_of_nonpos_of_nonneg (by linarith) hs.le
    linarith
  have heq := p1.eq_of_length (by simp [hl])
  have hlast : t.1.ham = linearComb c.ham1 c.ham0 lf (1 - lf) := by
    have h1 : ((run X c s guess energy li lf steps).solves.map (fun t => t.1.ham)).getLast? = some t.1.ham := by
      rw [List.getLast?_map, t1]; rfl
    rw [heq] at h1
    obtain ⟨n, rfl⟩ : ∃ n, steps = n + 1 := ⟨steps - 1, by omega⟩
    rw [List.range_succ, List.map_append, List.getLast?_eq_some_getLast (by simp)] at h1
    simp only [Nat.add_sub_cancel] at e1
    simp only [List.map_cons, List.map_nil, ← List.cons_append, List.getLast_append_singleton, e1, Option.some.injEq] at h1
    exact h1.symm
  refine ⟨hlt, q0.2, t4.trans hlast, ?_⟩
  rintro rfl
  rw [t4, hlast, linearComb]
  simp

/-! ## A case -/

/-- two electrons in four spin orbitals, as in `pyciCase`, with integrals that are rational numbers -/
def fanptCase : Proj ℚ := ⟨2, 4, none, ⟨1, 2⟩, fun _ => 2, [(0, [1])], [5, 3, 6, 9, 12], none, [1], 6⟩

/-- an optimizer that finds 1 for every active parameter, and corrections of one half -/
def fanptExt : Ext ℚ ℚ where
  solve o _ := .ok (List.replicate (o.mask.count true) 1)
  pt o _ _ _ := .ok (List.replicate (o.mask.dropLast.count true) (1 / 2), 7)

theorem fanptExt_sized : Sized fanptExt where
  solve o g x h := by rw [← Except.ok.inj h]; simp
  pt o p l l' ds e h := by
    have := Except.ok.inj h
    simp only [Prod.mk.injEq] at this
    rw [← this.1]; simp

/-- settings with an energy that is not active -/
def fanptCfg : Cfg ℚ ℚ := ⟨⟨3, 1, 0⟩, ⟨3, 1, 2⟩, false, false, false, 0, 1, 0, 1, 2⟩

example : ∃ f, fanptInit fanptCase (3 : ℚ) true false false 0 2 2 = .ok f ∧
    (run fanptExt fanptCfg f.iface [5, 6] 8 0 1 2).result = .ok ([1, 1], 1) ∧
    (run fanptExt fanptCfg f.iface [5, 6] 8 0 1 2).solves.map (fun t => (t.1.ham, t.1.mask, t.2)) =
      [(⟨3, 1, 0⟩, [false, true, true], [5, 6, 8]), (⟨3, 1, 1⟩, [false, true, true], [5, 3 / 2, 7]),
        (⟨3, 1, 2⟩, [false, true, true], [5, 3 / 2, 7])] :=
  ⟨_, rfl, by decide +kernel, by decide +kernel⟩

/-- the hypotheses of `C114_succeeds` and `C114_refused` hold here; a normalization that is missing, a step down, a negative order -/
example : ∃ f, fanptInit fanptCase (3 : ℚ) true false false 0 2 2 = .ok f ∧ FanptReady fanptCfg f.iface [false, true] ∧
    f.iface.opts.constraints = none ∧ f.iface.opts.normDet = none ∧ f.iface.eqn.weights = f.iface.eqn.pspace.length + 1 ∧
    (run fanptExt { fanptCfg with inorm := true } f.iface [5, 6] 8 0 1 2).result = .error .keyError ∧
    (run fanptExt fanptCfg f.iface [5, 6] 8 1 0 2).result = .error .valueError ∧
    (run fanptExt { fanptCfg with finalOrder := -1 } f.iface [5, 6] 8 0 1 2).result = .error .valueError :=
  ⟨_, rfl, ⟨false, by decide +kernel, nofun⟩, rfl, rfl, rfl, by decide +kernel, by decide +kernel, by decide +kernel⟩

end Fanpy.Props
