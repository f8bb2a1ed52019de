import Verif.Lemmas.ParamHeap

/-!
# C115: who owns the parameters of a wavefunction
-/

namespace Fanpy.Props

open Fanpy Fanpy.ParamHeap Fanpy.Spec.ParamValues

variable {R : Type}

/-! ### Programs that do not use an array after they gave it away -/

/-- **C115.** Take any program, of any length, that makes arrays of floats, writes into them, constructs
wavefunctions from them or from the default parameters or from the parameters of other wavefunctions, assigns
parameters with and without noise, assigns the parameters of objectives and evaluates overlaps, and that does not
use an array any more after it was given to a wavefunction. Everything it observes (overlaps and exceptions) is
what it would observe if `assign_params` copied its argument and nothing was cached; in the end every wavefunction
has its own parameters and the arrays that were not given away contain what the caller wrote. The wavefunctions are
those whose class clears the cache when parameters are assigned, or which do not cache. -/
theorem C115_refines_partial [Add R] (cls : Nat → Cls R) (hc : ∀ w, (cls w).cached = true → (cls w).clears = true)
    (trunc : R → R) (s : St R) (hf : ∀ k, (s.mem.cells (Sum.inl k)).ints = false) (es : List (Ev R))
    (hes : AllAllowed cls ⟨fun k => (s.mem.cells (Sum.inl k)).vals, fun _ => none, []⟩ es) :
    (run trunc cls s es).2 = (vrun cls ⟨fun k => (s.mem.cells (Sum.inl k)).vals, fun _ => none, []⟩ es).2 ∧
    (∀ k, k ∉ (vrun cls ⟨fun k => (s.mem.cells (Sum.inl k)).vals, fun _ => none, []⟩ es).1.lent →
      ((run trunc cls s es).1.mem.cells (Sum.inl k)).vals =
        (vrun cls ⟨fun k => (s.mem.cells (Sum.inl k)).vals, fun _ => none, []⟩ es).1.arr k) ∧
    (∀ w p, (vrun cls ⟨fun k => (s.mem.cells (Sum.inl k)).vals, fun _ => none, []⟩ es).1.par w = some p →
      ((run trunc cls s es).1.mem.cells ((run trunc cls s es).1.wfn w).addr).vals = p) := by
  have h0 : Inv cls s ⟨fun k => (s.mem.cells (Sum.inl k)).vals, fun _ => none, []⟩ := by
    refine ⟨hf, fun _ _ => rfl, ?_, ?_, ?_, ?_, ?_, ?_, ?_⟩ <;> simp
  obtain ⟨h1, h2⟩ := h0.run hc trunc es hes
  exact ⟨h2, h1.arrays, h1.vals⟩

/-- A class for the examples: the overlap with determinant `sd` is the parameter with that index; overlaps are
cached and the cache is cleared by `assign_params`; any number of parameters. -/
def pick : Cls Int := ⟨fun p sd => p[sd]?.getD 0, true, true, none⟩

/-- No arrays and no wavefunctions. -/
def blank : St Int := ⟨⟨fun _ => ⟨false, true, []⟩, 0⟩, fun _ => ⟨Sum.inl 0, []⟩⟩

/-- Two wavefunctions from two arrays, one of them not contiguous; an objective over both; a copy. -/
def tame : List (Ev Int) :=
  [.new 0 ⟨false, true, [1, 2]⟩, .new 1 ⟨false, false, [3, 4]⟩, .assign 0 (Sum.inl 0), .assign 1 (Sum.inl 1),
   .overlap 0 1, .copy 2 0, .new 2 ⟨false, true, [7, 8, 9]⟩, .solve (Sum.inl 2) [(0, [1]), (1, [0, 1])],
   .write (Sum.inl 2) 0 5, .overlap 0 1, .overlap 1 0, .overlap 2 1]

example : AllAllowed (fun _ => pick) ⟨fun k => (blank.mem.cells (Sum.inl k)).vals, fun _ => none, []⟩ tame := by
  simp [tame, AllAllowed, Allowed, vstep, become, fits, pick, distribute, put]

example : (run id (fun _ => pick) blank tame).2 =
    [.inl none, .inl none, .inl none, .inl none, .inr 2, .inl none, .inl none, .inl none, .inl none, .inr 7, .inr 8,
      .inr 2] := by
  decide +kernel

/-! ### `BaseSchrodinger.assign_params`, in any state -/

/-- **C115.** If the active wavefunctions have different arrays of floats and none of them is the argument, then after
`objective.assign_params(x)` the active parameters of the objective are `x`. -/
theorem C115_assigned [Inhabited R] (cls : Nat → Cls R) (trunc : R → R) (s : St R) (x : Addr)
    (comps : List (Nat × List Nat)) (hx : Used s x) (hu : ∀ c ∈ comps, Used s (s.wfn c.1).addr)
    (hne : ∀ c ∈ comps, (s.wfn c.1).addr ≠ x)
    (had : (comps.map (fun c => (s.wfn c.1).addr)).Nodup)
    (hin : ∀ c ∈ comps, c.2.Nodup ∧ ∀ i ∈ c.2, i < (s.mem.cells (s.wfn c.1).addr).vals.length)
    (hfit : ∀ c ∈ comps, fits (cls c.1) (s.mem.cells (s.wfn c.1).addr).vals = true)
    (hlen : (comps.map (fun c => c.2.length)).sum = (s.mem.cells x).vals.length)
    (hfl : ∀ c ∈ comps, (s.mem.cells (s.wfn c.1).addr).ints = false) :
    (solve trunc cls s x comps).2 = none ∧
    activeParams (solve trunc cls s x comps).1 comps = (s.mem.cells x).vals := by
  have hk : (comps.map Prod.fst).Nodup := by
    have : comps.map (fun c => (s.wfn c.1).addr) = (comps.map Prod.fst).map (fun w => (s.wfn w).addr) := by
      rw [List.map_map]
      rfl
    rw [this] at had
    exact had.of_map _
  unfold solve
  rw [if_pos hlen]
  obtain ⟨h1, h2⟩ := solveLoop_read trunc cls x comps s 0 hx hu hne had hk hin hfit (by rw [Nat.zero_add]; exact hlen)
  refine ⟨h1, ?_⟩
  rw [h2 id (by
    intro c hc v
    rw [hfl c hc]
    rfl)]
  simp

/-- **C115.** If the arrays of the active wavefunctions are arrays of integers, the active parameters afterwards are `x`
without the fractional parts. -/
theorem C115_assigned_ints [Inhabited R] (cls : Nat → Cls R) (trunc : R → R) (s : St R) (x : Addr)
    (comps : List (Nat × List Nat)) (hx : Used s x) (hu : ∀ c ∈ comps, Used s (s.wfn c.1).addr)
    (hne : ∀ c ∈ comps, (s.wfn c.1).addr ≠ x)
    (had : (comps.map (fun c => (s.wfn c.1).addr)).Nodup)
    (hin : ∀ c ∈ comps, c.2.Nodup ∧ ∀ i ∈ c.2, i < (s.mem.cells (s.wfn c.1).addr).vals.length)
    (hfit : ∀ c ∈ comps, fits (cls c.1) (s.mem.cells (s.wfn c.1).addr).vals = true)
    (hlen : (comps.map (fun c => c.2.length)).sum = (s.mem.cells x).vals.length)
    (hint : ∀ c ∈ comps, (s.mem.cells (s.wfn c.1).addr).ints = true) :
    (solve trunc cls s x comps).2 = none ∧
    activeParams (solve trunc cls s x comps).1 comps = (s.mem.cells x).vals.map trunc := by
  have hk : (comps.map Prod.fst).Nodup := by
    have : comps.map (fun c => (s.wfn c.1).addr) = (comps.map Prod.fst).map (fun w => (s.wfn w).addr) := by
      rw [List.map_map]
      rfl
    rw [this] at had
    exact had.of_map _
  unfold solve
  rw [if_pos hlen]
  obtain ⟨h1, h2⟩ := solveLoop_read trunc cls x comps s 0 hx hu hne had hk hin hfit (by rw [Nat.zero_add]; exact hlen)
  refine ⟨h1, ?_⟩
  rw [h2 trunc (by
    intro c hc v
    rw [hint c hc]
    rfl)]
  simp

/-- **C115.** `objective.assign_params(x)` changes no array but those of its components; in particular it does not change
`x`, and it does not change wavefunctions that are no components except through a shared array. This also holds if it
raises. -/
theorem C115_frame (cls : Nat → Cls R) (trunc : R → R) (s : St R) (x : Addr) (comps : List (Nat × List Nat)) :
    (∀ b, Used s b → (∀ c ∈ comps, (s.wfn c.1).addr ≠ b) →
      (solve trunc cls s x comps).1.mem.cells b = s.mem.cells b) ∧
    (∀ w, (∀ c ∈ comps, c.1 ≠ w) → (solve trunc cls s x comps).1.wfn w = s.wfn w) := by
  unfold solve
  split_ifs
  · exact ⟨fun b hb hne => solveLoop_frame trunc cls x comps s 0 b hb hne,
      fun w hw => solveLoop_wfn trunc cls x comps s 0 w hw⟩
  · exact ⟨fun _ _ _ => rfl, fun _ _ => rfl⟩

/-- **C115.** The number of entries of `x` has to be the number of active parameters; otherwise nothing happens. -/
theorem C115_refused (cls : Nat → Cls R) (trunc : R → R) (s : St R) (x : Addr) (comps : List (Nat × List Nat))
    (h : (comps.map (fun c => c.2.length)).sum ≠ (s.mem.cells x).vals.length) :
    solve trunc cls s x comps = (s, some PyErr.valueError) := by
  unfold solve
  rw [if_neg h]

/-- **C115.** What sharing means: if a wavefunction that is no component holds the same contiguous array as a component,
then after any `objective.assign_params(x)` both still hold the same array (so the parameters of the first follow
those of the second), and the cache of the first is not cleared. -/
theorem C115_shared (cls : Nat → Cls R) (trunc : R → R) (s : St R) (x : Addr) (comps : List (Nat × List Nat))
    (w : Nat) (hw : ∀ c ∈ comps, c.1 ≠ w) (c : Nat × List Nat) (hsh : (s.wfn w).addr = (s.wfn c.1).addr)
    (hcg : (s.mem.cells (s.wfn w).addr).contig = true) (hu : Used s (s.wfn w).addr) :
    ((solve trunc cls s x comps).1.wfn w).addr = ((solve trunc cls s x comps).1.wfn c.1).addr ∧
    ((solve trunc cls s x comps).1.wfn w).cache = (s.wfn w).cache := by
  unfold solve
  split_ifs
  · refine ⟨?_, by rw [solveLoop_wfn trunc cls x comps s 0 w hw]⟩
    rw [solveLoop_addr trunc cls x comps s 0 w hcg hu,
      solveLoop_addr trunc cls x comps s 0 c.1 (by rw [← hsh]; exact hcg) (by rw [← hsh]; exact hu), hsh]
  · exact ⟨hsh, rfl⟩

/-- An array of integers, an array of floats, and two wavefunctions with the first and the second. -/
def mixed : St Int :=
  ⟨⟨fun a => if a = Sum.inl 0 then ⟨true, true, [10, 0]⟩ else ⟨false, true, [10, 0]⟩, 0⟩,
    fun w => ⟨Sum.inl w, []⟩⟩

example : Used mixed (Sum.inl 2) ∧ (∀ c ∈ [(1, [0, 1])], Used mixed (mixed.wfn c.1).addr) ∧
    (∀ c ∈ [(1, [0, 1])], (mixed.wfn c.1).addr ≠ Sum.inl 2) ∧
    ([(1, [0, 1])].map (fun c => (mixed.wfn c.1).addr)).Nodup ∧
    (∀ c ∈ [(1, [0, 1])], (mixed.mem.cells (mixed.wfn c.1).addr).ints = false) := by
  simp [Used, mixed]

/-! ### Noise and parameters of another wavefunction -/

/-- **C115.** `assign_params(params, add_noise=True)` adds the noise to the array of the caller. -/
theorem C115_noise_writes [Add R] (cls : Nat → Cls R) (s : St R) (w : Nat) (a : Addr) (noise : List R)
    (hfit : fits (cls w) (s.mem.cells a).vals = true) (hfl : (s.mem.cells a).ints = false) :
    (assignNoise cls s w a noise).2 = none ∧
    ((assignNoise cls s w a noise).1.mem.cells a).vals = List.zipWith (· + ·) (s.mem.cells a).vals noise ∧
    ((assignNoise cls s w a noise).1.wfn w).addr = a := by
  unfold assignNoise
  rw [assign_none _ _ _ _ hfit]
  simp [hfl, setVals, setWfn]

/-- **C115.** For an array of integers the addition of the noise raises a `TypeError`; the wavefunction then already
has the new parameters and still has the overlaps of the old ones in its cache. -/
theorem C115_noise_ints [Add R] (cls : Nat → Cls R) (s : St R) (w : Nat) (a : Addr) (noise : List R)
    (hfit : fits (cls w) (s.mem.cells a).vals = true) (hint : (s.mem.cells a).ints = true) :
    assignNoise cls s w a noise = (setWfn s w ⟨a, (s.wfn w).cache⟩, some PyErr.typeError) := by
  unfold assignNoise
  rw [assign_none _ _ _ _ hfit]
  simp [hint]

/-- **C115.** A matrix product state or determinant ratio that is assigned the parameters of another one holds the array of
the other one from then on. -/
theorem C115_take [Add R] (cls : Nat → Cls R) (trunc : R → R) (s : St R) (w w' : Nat)
    (hfit : fits (cls w) (s.mem.cells (s.wfn w').addr).vals = true) :
    ((step trunc cls s (.take w w')).1.wfn w).addr = (s.wfn w').addr ∧
    ((step trunc cls s (.take w w')).1.wfn w').addr = (s.wfn w').addr := by
  unfold step
  simp only []
  rw [assign_none _ _ _ _ hfit]
  by_cases h : w' = w
  · subst h
    simp [setWfn]
  · simp [setWfn, h]

/-! ### Where the code disagrees -/

/-- **C115.** Two wavefunctions that were constructed from the same array: the assignment of the parameters of an
objective of the first changes the parameters of the second, whose cached overlaps are then wrong. -/
theorem C115_shared_disagrees :
    (run id (fun _ => pick) blank
      [.new 0 ⟨false, true, [1, 2]⟩, .assign 0 (Sum.inl 0), .assign 1 (Sum.inl 0), .overlap 1 0,
       .new 1 ⟨false, true, [5, 6]⟩, .solve (Sum.inl 1) [(0, [0, 1])], .overlap 1 0, .overlap 1 1]).2 =
    [.inl none, .inl none, .inl none, .inr 1, .inl none, .inl none, .inr 1, .inr 6] := by
  decide +kernel

/-- **C115.** Two active wavefunctions that were constructed from the same array: the active parameters of the objective
are not those that were assigned. -/
theorem C115_components_disagree :
    activeParams (run id (fun _ => pick) blank
      [.new 0 ⟨false, true, [1]⟩, .assign 0 (Sum.inl 0), .assign 1 (Sum.inl 0),
       .new 1 ⟨false, true, [5, 6]⟩, .solve (Sum.inl 1) [(0, [0]), (1, [0])]]).1 [(0, [0]), (1, [0])] = [6, 6] := by
  decide +kernel

/-- **C115.** A matrix product state that was given the parameters of another one: the assignment of its parameters
changes the other one. -/
theorem C115_take_disagrees :
    (run id (fun _ => pick) blank
      [.default 0 [1, 2], .take 1 0, .new 1 ⟨false, true, [5, 6]⟩, .solve (Sum.inl 1) [(1, [0, 1])],
       .overlap 0 0]).2 =
    [.inl none, .inl none, .inl none, .inl none, .inr 5] ∧
    (run id (fun _ => pick) blank
      [.default 0 [1, 2], .copy 1 0, .new 1 ⟨false, true, [5, 6]⟩, .solve (Sum.inl 1) [(1, [0, 1])],
       .overlap 0 0]).2 =
    [.inl none, .inl none, .inl none, .inl none, .inr 1] := by
  decide +kernel

/-- **C115.** A wavefunction that was constructed from an array of integers: the parameters of an objective lose their
fractional parts (numbers in tenths: 0.7 and 1.5 become 0 and 1). -/
theorem C115_ints_disagree :
    activeParams (run (fun v => v.tdiv 10 * 10) (fun _ => pick) blank
      [.new 0 ⟨true, true, [10, 0]⟩, .assign 0 (Sum.inl 0), .new 1 ⟨false, true, [7, 15]⟩,
       .solve (Sum.inl 1) [(0, [0, 1])]]).1 [(0, [0, 1])] = [0, 10] := by
  decide +kernel

/-- **C115.** The noise is also visible in the array of the caller and in other wavefunctions that were constructed
from it. -/
theorem C115_noise_disagrees :
    (run id (fun _ => pick) blank
      [.new 0 ⟨false, true, [1, 2]⟩, .assign 0 (Sum.inl 0), .noise 1 (Sum.inl 0) [3, 4], .overlap 0 0]).2 =
    [.inl none, .inl none, .inl none, .inr 4] := by
  decide +kernel

end Fanpy.Props
