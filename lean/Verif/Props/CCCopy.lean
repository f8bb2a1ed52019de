import Verif.Model.CCCopy
import Mathlib.Data.List.Nodup
import Mathlib.Data.List.Range

/-! # C139: parameters of a coupled cluster wavefunction that are given to another -/

namespace Fanpy.Props
open Fanpy.CCCopy

variable {R : Type}

/-- the dictionary numbers its operators from zero, and there is one parameter for each -/
def Numbered (w : Wfn R) : Prop :=
  (w.exops.map Prod.fst).Nodup ∧ w.exops.map Prod.snd = List.range w.exops.length ∧ w.params.length = w.exops.length

/-- the wavefunction has the amplitude `x` for the operator -/
def HasAmplitude (w : Wfn R) (exop : List ℕ) (x : R) : Prop := ∃ i, (exop, i) ∈ w.exops ∧ w.params[i]? = some x

theorem numbered_lt {w : Wfn R} (h : w.exops.map Prod.snd = List.range w.exops.length) {op : List ℕ} {i : ℕ} (hp : (op, i) ∈ w.exops) :
    i < w.exops.length := by
  have : i ∈ w.exops.map Prod.snd := List.mem_map_of_mem (f := Prod.snd) hp
  rw [h] at this
  exact List.mem_range.1 this

theorem numbered_snd {w : Wfn R} (h : w.exops.map Prod.snd = List.range w.exops.length) {op op' : List ℕ} {i : ℕ} (hp : (op, i) ∈ w.exops)
    (hp' : (op', i) ∈ w.exops) : op = op' := by
  have hn : (w.exops.map Prod.snd).Nodup := by rw [h]; exact List.nodup_range
  have := List.inj_on_of_nodup_map hn hp hp' rfl
  exact congrArg Prod.fst this

theorem keys_snd {l : List (List ℕ × ℕ)} (h : (l.map Prod.fst).Nodup) {op : List ℕ} {i j : ℕ} (hp : (op, i) ∈ l) (hp' : (op, j) ∈ l) : i = j :=
  congrArg Prod.snd (List.inj_on_of_nodup_map h hp hp' rfl)

theorem getInd_ok {w : Wfn R} (h : (w.exops.map Prod.fst).Nodup) (op : List ℕ) (i : ℕ) : getInd w op = .ok i ↔ (op, i) ∈ w.exops := by
  rw [getInd]
  split
  · rename_i p hf
    obtain ⟨op', j⟩ := p
    have h1 := List.find?_some hf
    have h2 := List.mem_of_find?_eq_some hf
    simp only [decide_eq_true_eq] at h1
    subst h1
    simp only [Except.ok.injEq]
    constructor
    · rintro rfl; exact h2
    · intro hm; exact keys_snd h h2 hm
  · rename_i hf
    rw [List.find?_eq_none] at hf
    constructor
    · intro h; cases h
    · intro hm; exact absurd (by simp) (hf _ hm)

theorem getInd_error {w : Wfn R} (h : (w.exops.map Prod.fst).Nodup) (op : List ℕ) :
    (∃ e, getInd w op = .error e) ↔ op ∉ w.exops.map Prod.fst := by
  constructor
  · rintro ⟨e, he⟩ hm
    obtain ⟨⟨op', i⟩, hi, rfl⟩ := List.mem_map.1 hm
    rw [(getInd_ok h op' i).2 hi] at he
    cases he
  · intro hm
    rcases hg : getInd w op with e | i
    · exact ⟨e, rfl⟩
    · exact absurd (List.mem_map_of_mem (f := Prod.fst) ((getInd_ok h op i).1 hg)) hm

theorem copyLoop_spec {w : Wfn R} (hw : (w.exops.map Prod.fst).Nodup) (hn : w.exops.map Prod.snd = List.range w.exops.length) (other : List R)
    (l : List (List ℕ × ℕ)) (hl : (l.map Prod.fst).Nodup) (ho : ∀ p ∈ l, p.2 < other.length) (params : List R)
    (hp : params.length = w.exops.length) (printed : List (List ℕ)) :
    ∃ params', copyLoop w other l params printed = .ok (params', printed ++ (l.map Prod.fst).filter fun op => decide (op ∉ w.exops.map Prod.fst)) ∧
      params'.length = w.exops.length ∧
      ∀ op i, (op, i) ∈ w.exops → (∀ ind, (op, ind) ∈ l → params'[i]? = other[ind]?) ∧ (op ∉ l.map Prod.fst → params'[i]? = params[i]?) := by
  induction l generalizing params printed with
  | nil => exact ⟨params, by simp [copyLoop], hp, fun op i _ => ⟨fun ind h => by simp at h, fun _ => rfl⟩⟩
  | cons p l ih =>
    obtain ⟨o, k⟩ := p
    rw [List.map_cons, List.nodup_cons] at hl
    have hk : k < other.length := ho (o, k) (by simp)
    have ho' : ∀ p ∈ l, p.2 < other.length := fun p hp => ho p (by simp [hp])
    rw [copyLoop, List.getElem?_eq_getElem hk]
    simp only
    rcases hg : getInd w o with e | j
    · have hnot : o ∉ w.exops.map Prod.fst := (getInd_error hw o).1 ⟨e, hg⟩
      obtain ⟨params', h1, h2, h3⟩ := ih hl.2 ho' params hp (printed ++ [o])
      refine ⟨params', ?_, h2, ?_⟩
      · simp only
        rw [h1, List.map_cons, List.filter_cons, if_pos (decide_eq_true hnot), List.append_assoc]
        rfl
      · intro op i hi
        have hne : op ≠ o := fun e => hnot (e ▸ List.mem_map_of_mem (f := Prod.fst) hi)
        refine ⟨fun ind hind => ?_, fun hni => ?_⟩
        · rcases List.mem_cons.1 hind with h | h
          · exact absurd (congrArg Prod.fst h) hne
          · exact (h3 op i hi).1 ind h
        · exact (h3 op i hi).2 fun h => hni (List.mem_cons_of_mem _ h)
    · have hj := (getInd_ok hw o j).1 hg
      have hjl : j < params.length := hp ▸ numbered_lt hn hj
      obtain ⟨params', h1, h2, h3⟩ := ih hl.2 ho' (params.set j other[k]) (by simpa using hp) printed
      refine ⟨params', ?_, h2, ?_⟩
      · simp only
        rw [if_pos hjl, h1, List.map_cons, List.filter_cons, if_neg]
        simpa using ⟨j, hj⟩
      · intro op i hi
        refine ⟨fun ind hind => ?_, fun hni => ?_⟩
        · rcases List.mem_cons.1 hind with h | h
          · injection h with e1 e2
            subst e1 e2
            obtain rfl : i = j := keys_snd hw hi hj
            rw [(h3 op i hi).2 hl.1, List.getElem?_set_self hjl, List.getElem?_eq_getElem hk]
          · exact (h3 op i hi).1 ind h
        · have hne : op ≠ o := fun e => hni (by rw [e]; simp)
          have hij : j ≠ i := fun e => hne (numbered_snd hn hi (e ▸ hj))
          rw [(h3 op i hi).2 fun h => hni (List.mem_cons_of_mem _ h), List.getElem?_set_ne hij]

/-- **C139, copy.**  For wavefunctions with the same numbers of electrons and spin orbitals `w.assign_params(other)` gives each operator of `w` the
amplitude that it has in `other`, or zero if it is not there, whatever the two orders are; there is one message for each operator of `other` that `w`
does not have, and nothing else of `w` changes. -/
theorem C139_copy [Zero R] (w other : Wfn R) (hw : (w.exops.map Prod.fst).Nodup ∧ w.exops.map Prod.snd = List.range w.exops.length)
    (ho : Numbered other) (he : w.nelec = other.nelec) (hs : w.nspin = other.nspin) :
    ∃ w' printed, assignFrom w other = .ok (w', printed) ∧ Numbered w' ∧ w'.nelec = w.nelec ∧ w'.nspin = w.nspin ∧ w'.exops = w.exops ∧
      (∀ op ∈ w.exops.map Prod.fst, ∀ x, HasAmplitude other op x → HasAmplitude w' op x) ∧
      (∀ op ∈ w.exops.map Prod.fst, op ∉ other.exops.map Prod.fst → HasAmplitude w' op 0) ∧
      printed = (other.exops.map Prod.fst).filter fun op => decide (op ∉ w.exops.map Prod.fst) := by
  obtain ⟨o1, o2, o3⟩ := ho
  obtain ⟨params', h1, h2, h3⟩ := copyLoop_spec hw.1 hw.2 other.params other.exops o1 (fun p hp => o3 ▸ numbered_lt o2 hp)
    (List.replicate w.exops.length 0) (by simp) []
  refine ⟨{ w with params := params' }, _, ?_, ⟨hw.1, hw.2, h2⟩, rfl, rfl, rfl, ?_, ?_, rfl⟩
  · rw [assignFrom, if_neg (by simpa using he), if_neg (by simpa using hs), h1]
    rfl
  · intro op hop x hx
    obtain ⟨⟨op', i⟩, hi, rfl⟩ := List.mem_map.1 hop
    obtain ⟨ind, hind, hx⟩ := hx
    exact ⟨i, hi, by rw [(h3 op' i hi).1 ind hind, hx]⟩
  · intro op hop hno
    obtain ⟨⟨op', i⟩, hi, rfl⟩ := List.mem_map.1 hop
    refine ⟨i, hi, ?_⟩
    rw [(h3 op' i hi).2 hno, List.getElem?_replicate, if_pos (numbered_lt hw.2 hi)]

/-- amplitudes determine the parameters -/
theorem amplitudes_ext {v w : Wfn R} (hv : Numbered v) (hw : Numbered w) (he : v.exops = w.exops)
    (h : ∀ op x, HasAmplitude v op x → HasAmplitude w op x) : v.params = w.params := by
  apply List.ext_getElem (by rw [hv.2.2, hw.2.2, he])
  intro i h1 h2
  have hi : i ∈ v.exops.map Prod.snd := by rw [hv.2.1, List.mem_range, ← hv.2.2]; exact h1
  obtain ⟨⟨op, j⟩, hm, rfl⟩ := List.mem_map.1 hi
  obtain ⟨k, hk, hx⟩ := h op _ ⟨j, hm, List.getElem?_eq_getElem h1⟩
  rw [← he] at hk
  obtain rfl := keys_snd hv.1 hk hm
  rw [List.getElem?_eq_getElem h2] at hx
  exact (Option.some.inj hx).symm

/-- **C139, there and back.**  If `w` has all operators of `other`, there is no message, and copying back from `w` gives `other` its parameters again
(for example from CCSD to CCSDT and back). -/
theorem C139_back [Zero R] (w other v : Wfn R) (hw : (w.exops.map Prod.fst).Nodup ∧ w.exops.map Prod.snd = List.range w.exops.length)
    (ho : Numbered other) (hsub : ∀ op ∈ other.exops.map Prod.fst, op ∈ w.exops.map Prod.fst) (he : w.nelec = other.nelec)
    (hs : w.nspin = other.nspin) (hv : v.exops = other.exops ∧ v.nelec = other.nelec ∧ v.nspin = other.nspin) :
    ∃ w' v' printed, assignFrom w other = .ok (w', []) ∧ assignFrom v w' = .ok (v', printed) ∧ v'.params = other.params := by
  obtain ⟨w', p, a1, a2, a3, a4, a5, a6, -, a8⟩ := C139_copy w other hw ho he hs
  have hvn : (v.exops.map Prod.fst).Nodup ∧ v.exops.map Prod.snd = List.range v.exops.length := by rw [hv.1]; exact ⟨ho.1, ho.2.1⟩
  obtain ⟨v', q, b1, b2, -, -, b5, b6, -, -⟩ := C139_copy v w' hvn a2 (by rw [hv.2.1, a3, he]) (by rw [hv.2.2, a4, hs])
  refine ⟨w', v', q, ?_, b1, ?_⟩
  · rw [a1, a8]
    congr 2
    rw [List.filter_eq_nil_iff]
    intro op hop
    simpa using hsub op hop
  · refine (amplitudes_ext ho b2 (by rw [b5, hv.1]) ?_).symm
    intro op x hx
    have hop : op ∈ other.exops.map Prod.fst := by
      obtain ⟨i, hi, -⟩ := hx
      exact List.mem_map_of_mem (f := Prod.fst) hi
    exact b6 op (by rw [hv.1]; exact hop) x (a6 op (hsub op hop) x hx)

/-- **C139, indices.**  `get_ind` and `get_exop` are inverse to each other; an operator or number that is not used is a `ValueError`. -/
theorem C139_indices (w : Wfn R) (hw : (w.exops.map Prod.fst).Nodup ∧ w.exops.map Prod.snd = List.range w.exops.length) :
    (∀ op i, getInd w op = .ok i ↔ getExop w i = .ok op) ∧ (∀ i, i < w.exops.length ↔ ∃ op, getExop w i = .ok op) ∧
    (∀ op, op ∉ w.exops.map Prod.fst → getInd w op = .error .valueError) ∧
    (∀ i, w.exops.length ≤ i → getExop w i = .error .valueError) := by
  have hex : ∀ op i, getExop w i = .ok op ↔ (op, i) ∈ w.exops := by
    intro op i
    rw [getExop]
    split
    · rename_i p hf
      obtain ⟨op', j⟩ := p
      have h1 := List.find?_some hf
      have h2 := List.mem_of_find?_eq_some hf
      simp only [decide_eq_true_eq] at h1
      subst h1
      simp only [Except.ok.injEq]
      constructor
      · rintro rfl; exact h2
      · intro hm; exact numbered_snd hw.2 h2 hm
    · rename_i hf
      rw [List.find?_eq_none] at hf
      constructor
      · intro h; cases h
      · intro hm; exact absurd (by simp) (hf _ hm)
  have hlt : ∀ i, i < w.exops.length ↔ ∃ op, getExop w i = .ok op := by
    intro i
    constructor
    · intro hi
      have : i ∈ w.exops.map Prod.snd := by rw [hw.2]; exact List.mem_range.2 hi
      obtain ⟨⟨op, j⟩, hm, rfl⟩ := List.mem_map.1 this
      exact ⟨op, (hex op j).2 hm⟩
    · rintro ⟨op, h⟩
      exact numbered_lt hw.2 ((hex op i).1 h)
  refine ⟨fun op i => (getInd_ok hw.1 op i).trans (hex op i).symm, hlt, ?_, ?_⟩
  · intro op hop
    obtain ⟨e, he⟩ := (getInd_error hw.1 op).2 hop
    rw [he]
    rw [getInd] at he
    split at he
    · cases he
    · injection he with he; rw [he]
  · intro i hi
    rcases hg : getExop w i with e | op
    · rw [getExop] at hg
      split at hg
      · cases hg
      · injection hg with hg; rw [hg]
    · exact absurd ((hlt i).2 ⟨op, hg⟩) (not_lt.2 hi)

/-- **C139, errors and arrays.**  Other numbers of electrons or spin orbitals are a `ValueError`, as are arrays of another shape than one parameter for
each operator; without an argument all amplitudes are zero. -/
theorem C139_errors [Zero R] (w other : Wfn R) :
    (w.nelec ≠ other.nelec ∨ w.nspin ≠ other.nspin → assignFrom w other = .error .valueError) ∧
    (∀ shape data, assignArray w (some (shape, data)) = if shape = [w.exops.length] then .ok { w with params := data } else .error .valueError) ∧
    ∃ w', assignArray w none = .ok w' ∧ w'.exops = w.exops ∧ w'.params.length = w.exops.length ∧ ∀ x ∈ w'.params, x = 0 := by
  refine ⟨?_, ?_, ?_⟩
  · intro h
    rw [assignFrom]
    by_cases h1 : w.nelec ≠ other.nelec
    · rw [if_pos h1]
    · rw [if_neg h1, if_pos (h.resolve_left h1)]
  · intro shape data
    by_cases h : shape = [w.exops.length] <;> simp [assignArray, h]
  · exact ⟨_, rfl, rfl, by simp, fun x hx => List.eq_of_mem_replicate hx⟩

/-- two wavefunctions with their operators in another order; one operator of the second is not in the first, and one of the first is not in the second -/
example :
    let w : Wfn ℤ := ⟨2, 4, [([0, 2], 0), ([0, 3], 1), ([1, 2], 2)], [0, 0, 0]⟩
    let other : Wfn ℤ := ⟨2, 4, [([1, 2], 0), ([0, 2], 1), ([0, 1, 2, 3], 2)], [5, 6, 7]⟩
    Numbered other ∧ ((assignFrom w other).toOption.map fun r => (r.1.params, r.2)) = some ([6, 0, 5], [[0, 1, 2, 3]]) := by
  refine ⟨⟨by decide, by decide, rfl⟩, by decide +kernel⟩

end Fanpy.Props
