import Verif.Model.FillWfn
import Mathlib.Data.Finset.Powerset
import Mathlib.Data.List.Pairwise
import Mathlib.Data.List.Infix
import Mathlib.Data.Finset.Prod
import Mathlib.Order.Interval.Finset.Nat
import Mathlib.Tactic.Ring

/-! C106: the projection space of a FanCI calculation. -/

namespace Fanpy.Props
open Fanpy.FillWfn

/-- The determinants of a wavefunction of pyci: `nocc_up` orbitals with spin up and `nocc_dn` orbitals with spin down out
of `nbasis`; for `doci_wfn` the same orbitals. -/
def detSpace (z : Sizes) : Finset Det :=
  match z.kind with
  | .doci => (Finset.powersetCard z.noccUp (Finset.range z.nbasis)).image (fun s => (s, s))
  | _ => Finset.powersetCard z.noccUp (Finset.range z.nbasis) ×ˢ Finset.powersetCard z.noccDn (Finset.range z.nbasis)

/-- What is assumed of pyci: it finds every determinant with a property once. -/
def ListsAll (z : Sizes) (order : (Det → Bool) → List Det) : Prop :=
  ∀ p, (order p).Nodup ∧ ∀ d, d ∈ order p ↔ d ∈ detSpace z ∧ p d = true

/-- the order of filling: order of excitation, or seniority -/
def fillKey (z : Sizes) : Fill → Det → ℕ
  | .excitation => z.distance z.hf
  | _ => seniority

/-- the values that are used -/
def fillLevels (z : Sizes) : Fill → List ℕ
  | .excitation => List.range (z.eMax + 1)
  | .seniority => z.seniorities
  | _ => []

variable {z : Sizes} {order : (Det → Bool) → List Det}

theorem add_nodup (h : ListsAll z order) (p : Det → Bool) {w : List Det} (hw : w.Nodup) : (add order p w).Nodup := by
  rw [add, List.nodup_append]
  refine ⟨hw, (h p).1.filter _, ?_⟩
  rintro a ha _ hb rfl
  simp only [List.mem_filter, decide_eq_true_eq] at hb
  exact hb.2 ha

theorem mem_add (h : ListsAll z order) (p : Det → Bool) (w : List Det) (d : Det) :
    d ∈ add order p w ↔ d ∈ w ∨ (d ∈ detSpace z ∧ p d = true) := by
  rw [add, List.mem_append, List.mem_filter, (h p).2]
  by_cases hd : d ∈ w <;> simp [hd]

theorem fillLoop_stop {nproj : ℕ} {step : ℕ → List Det → List Det} (ls : List ℕ) {w : List Det}
    (h : nproj ≤ w.length) : fillLoop nproj step ls w = w := by
  cases ls with
  | nil => rfl
  | cons l ls => rw [fillLoop, if_pos h]

theorem fillLoop_spec (h : ListsAll z order) (key : Det → ℕ) (nproj : ℕ) : ∀ (ls : List ℕ), ls.Pairwise (· < ·) →
    ∀ (w : List Det), w.Nodup →
    let r := fillLoop nproj (fun n => add order (fun d => decide (key d = n))) ls w
    w <+: r ∧ r.Nodup ∧ (∀ d ∈ r, d ∉ w → d ∈ detSpace z ∧ key d ∈ ls) ∧
    (∀ d ∈ r.take nproj, d ∉ w → ∀ d' ∈ detSpace z, key d' ∈ ls → key d' < key d → d' ∈ r.take nproj) ∧
    ((∀ d ∈ detSpace z, key d ∈ ls → d ∈ r) ∨ nproj ≤ r.length) := by
  intro ls
  induction ls with
  | nil =>
    intro _ w hw
    refine ⟨List.prefix_rfl, hw, fun d h1 h2 => absurd h1 h2, ?_, .inl (by simp)⟩
    intro d hd h2
    exact absurd (List.mem_of_mem_take hd) h2
  | cons l ls ih =>
    intro hls w hw
    rw [List.pairwise_cons] at hls
    by_cases hn : nproj ≤ w.length
    · rw [fillLoop_stop _ hn]
      refine ⟨List.prefix_rfl, hw, fun d h1 h2 => absurd h1 h2, ?_, .inr hn⟩
      intro d hd h2
      exact absurd (List.mem_of_mem_take hd) h2
    · simp only [fillLoop, if_neg hn]
      set w' := add order (fun d => decide (key d = l)) w with hw'
      have hmem : ∀ d, d ∈ w' ↔ d ∈ w ∨ (d ∈ detSpace z ∧ key d = l) := by
        intro d; rw [hw', mem_add h]; simp
      obtain ⟨p1, p2, p3, p4, p5⟩ := ih hls.2 w' (add_nodup h _ hw)
      set r := fillLoop nproj (fun n => add order (fun d => decide (key d = n))) ls w' with hr
      refine ⟨(List.prefix_append w _).trans p1, p2, ?_, ?_, ?_⟩
      · intro d hd hdw
        by_cases hd' : d ∈ w'
        · rcases (hmem d).1 hd' with h1 | h1
          · exact absurd h1 hdw
          · exact ⟨h1.1, by simp [h1.2]⟩
        · exact ⟨(p3 d hd hd').1, by simp [(p3 d hd hd').2]⟩
      · intro d hd hdw d' hd's hk hlt
        by_cases hd' : d ∈ w'
        · rcases (hmem d).1 hd' with h1 | h1
          · exact absurd h1 hdw
          · rcases List.mem_cons.1 hk with h2 | h2
            · omega
            · have := hls.1 _ h2; omega
        · rcases List.mem_cons.1 hk with h2 | h2
          · have hlen : w'.length < nproj := by
              by_contra hc
              rw [hr, fillLoop_stop _ (by omega)] at hd
              exact hd' (List.mem_of_mem_take hd)
            have : w' <+: r.take nproj := by
              rw [List.prefix_take_iff]
              exact ⟨p1, hlen.le⟩
            exact this.subset ((hmem d').2 (.inr ⟨hd's, h2⟩))
          · exact p4 d hd hd' d' hd's h2 hlt
      · rcases p5 with p5 | p5
        · left
          intro d hd hk
          rcases List.mem_cons.1 hk with h2 | h2
          · exact p1.subset ((hmem d).2 (.inr ⟨hd, h2⟩))
          · exact p5 d hd h2
        · exact .inr p5

theorem seniority_doci (hz : z.kind = .doci) {d : Det} (hd : d ∈ detSpace z) : seniority d = 0 := by
  simp only [detSpace, hz, Finset.mem_image] at hd
  obtain ⟨s, _, rfl⟩ := hd
  simp [seniority]

/-- the determinants before they are counted -/
theorem filled_spec (h : ListsAll z order) (nproj : ℕ) (fill : Fill) (hf : fill ≠ .other) {w : List Det}
    (hw : w.Nodup) : ∃ r, filled z order w nproj fill = .ok r ∧
    w <+: r ∧ r.Nodup ∧ (∀ d ∈ r, d ∉ w → d ∈ detSpace z ∧ fillKey z fill d ∈ fillLevels z fill) ∧
    (∀ d ∈ r.take nproj, d ∉ w → ∀ d' ∈ detSpace z, fillKey z fill d' ∈ fillLevels z fill →
      fillKey z fill d' < fillKey z fill d → d' ∈ r.take nproj) ∧
    ((∀ d ∈ detSpace z, fillKey z fill d ∈ fillLevels z fill → d ∈ r) ∨ nproj ≤ r.length) := by
  cases fill with
  | excitation => exact ⟨_, rfl, fillLoop_spec h _ nproj _ List.pairwise_lt_range w hw⟩
  | seniority =>
    by_cases hk : z.kind = .doci ∧ w.length < nproj
    · refine ⟨add order (fun _ => true) w, by rw [filled, if_pos hk], List.prefix_append _ _, add_nodup h _ hw, ?_, ?_, ?_⟩
      · intro d hd hdw
        rcases (mem_add h _ _ _).1 hd with h1 | h1
        · exact absurd h1 hdw
        · exact ⟨h1.1, by simp [fillKey, fillLevels, Sizes.seniorities, hk.1, seniority_doci hk.1 h1.1]⟩
      · intro d hd hdw d' hd' _ hlt
        rcases (mem_add h _ _ _).1 (List.mem_of_mem_take hd) with h1 | h1
        · exact absurd h1 hdw
        · simp [fillKey, seniority_doci hk.1 h1.1] at hlt
      · exact .inl fun d hd _ => (mem_add h _ _ _).2 (.inr ⟨hd, rfl⟩)
    · refine ⟨_, by rw [filled, if_neg hk]; rfl, fillLoop_spec h _ nproj _ ?_ w hw⟩
      change z.seniorities.Pairwise (· < ·)
      unfold Sizes.seniorities
      split
      · simp
      · simp only
        rw [List.pairwise_map]
        exact List.pairwise_lt_range.imp (fun hab => by omega)
  | none =>
    refine ⟨w, rfl, List.prefix_rfl, hw, fun d h1 h2 => absurd h1 h2, ?_, .inl (by simp [fillLevels])⟩
    intro d hd h2
    exact absurd (List.mem_of_mem_take hd) h2
  | other => exact absurd rfl hf

/-- the connected determinants -/
theorem foldl_add_spec (h : ListsAll z order) (q : Det → Det → Bool) : ∀ (refs : List Det) (w : List Det), w.Nodup →
    let r := refs.foldl (fun acc ref => add order (q ref) acc) w
    w <+: r ∧ r.Nodup ∧ ∀ d, d ∈ r ↔ d ∈ w ∨ (d ∈ detSpace z ∧ ∃ ref ∈ refs, q ref d = true) := by
  intro refs
  induction refs with
  | nil => intro w hw; exact ⟨List.prefix_rfl, hw, by simp⟩
  | cons ref refs ih =>
    intro w hw
    obtain ⟨h1, h2, h3⟩ := ih (add order (q ref) w) (add_nodup h _ hw)
    refine ⟨(List.prefix_append _ _).trans h1, h2, ?_⟩
    intro d
    rw [List.foldl_cons, h3, mem_add h]
    simp only [List.mem_cons, exists_eq_or_imp]
    tauto

/-- **C106.**  The wavefunction that `fill_wavefunction` returns: first `nproj` determinants (the projection space), which
are those that were there at the start and then determinants of the lowest orders of excitation (or seniorities), and
then every determinant that is connected to them by a single or double excitation (a pair excitation for DOCI); nothing
twice. -/
theorem C106_filled (h : ListsAll z order) (hz : z.kind ≠ .other) (w : List Det) (hw : w.Nodup) (nproj : ℕ) (fill : Fill)
    (r : List Det) (hr : fillWavefunction z order w nproj fill = .ok r) :
    r.Nodup ∧ nproj ≤ r.length ∧ w.take nproj <+: r.take nproj ∧
    (∀ d ∈ r.take nproj, d ∉ w → d ∈ detSpace z ∧ fillKey z fill d ∈ fillLevels z fill ∧
      ∀ d' ∈ detSpace z, fillKey z fill d' ∈ fillLevels z fill → fillKey z fill d' < fillKey z fill d →
        d' ∈ r.take nproj) ∧
    (∀ d, d ∈ r ↔ d ∈ r.take nproj ∨ (d ∈ detSpace z ∧ ∃ ref ∈ r.take nproj,
      z.distance ref d = 1 ∨ (z.kind = .full ∧ z.distance ref d = 2))) := by
  have hf : fill ≠ .other := by
    rintro rfl
    rw [fillWavefunction, if_neg hz] at hr
    cases hr
  obtain ⟨w1, e1, p1, p2, p3, p4, p5⟩ := filled_spec h nproj fill hf hw
  rw [fillWavefunction, if_neg hz, e1] at hr
  change (if w1.length < nproj then _ else _) = _ at hr
  by_cases hl : w1.length < nproj
  · rw [if_pos hl] at hr; cases hr
  · rw [if_neg hl] at hr
    have hw2 : (if nproj < w1.length then w1.take nproj else w1) = w1.take nproj := by
      split_ifs with hc
      · rfl
      · rw [List.take_of_length_le (by omega)]
    rw [hw2, List.take_take, min_self] at hr
    set P := w1.take nproj with hP
    have hPl : P.length = nproj := by rw [hP, List.length_take]; omega
    obtain ⟨q1, q2, q3⟩ := foldl_add_spec h (fun ref d => decide (z.distance ref d ∈ z.connections)) P P
      (p2.sublist (List.take_sublist _ _))
    have hr' : P.foldl (fun acc ref => add order (fun d => decide (z.distance ref d ∈ z.connections)) acc) P = r := by
      simpa [pure, Except.pure] using hr
    rw [hr'] at q1 q2 q3
    have hPr : r.take nproj = P := by
      obtain ⟨t, rfl⟩ := q1
      rw [← hPl, List.take_left]
    rw [hPr]
    refine ⟨q2, by rw [← hPl]; exact q1.length_le, ?_, ?_, ?_⟩
    · rw [hP]; exact p1.take nproj
    · intro d hd hdw
      have := p3 d (List.mem_of_mem_take hd) hdw
      exact ⟨this.1, this.2, p4 d hd hdw⟩
    · intro d
      rw [q3]
      refine or_congr_right (and_congr_right fun _ => exists_congr fun ref => and_congr_right fun _ => ?_)
      unfold Sizes.connections
      rcases hk : z.kind with _ | _ | _
      · simp
      · simp
      · exact absurd hk hz

/-- **C106.**  `fill_wavefunction` raises `ValueError` exactly if there are fewer than `nproj` determinants that were there at
the start or have one of the orders (seniorities) that are used. -/
theorem C106_too_few (h : ListsAll z order) (hz : z.kind ≠ .other) (w : List Det) (hw : w.Nodup) (nproj : ℕ) (fill : Fill)
    (hf : fill ≠ .other) :
    (fillWavefunction z order w nproj fill = .error .valueError ↔
      (w.toFinset ∪ (detSpace z).filter (fun d => fillKey z fill d ∈ fillLevels z fill)).card < nproj) ∧
    ((∃ r, fillWavefunction z order w nproj fill = .ok r) ↔
      nproj ≤ (w.toFinset ∪ (detSpace z).filter (fun d => fillKey z fill d ∈ fillLevels z fill)).card) := by
  obtain ⟨w1, e1, p1, p2, p3, p4, p5⟩ := filled_spec h nproj fill hf hw
  set A := w.toFinset ∪ (detSpace z).filter (fun d => fillKey z fill d ∈ fillLevels z fill) with hA
  have hsub : w1.toFinset ⊆ A := by
    intro d hd
    rw [List.mem_toFinset] at hd
    rw [hA, Finset.mem_union, List.mem_toFinset, Finset.mem_filter]
    by_cases hdw : d ∈ w
    · exact .inl hdw
    · exact .inr (p3 d hd hdw)
  have hcard : w1.toFinset.card = w1.length := List.toFinset_card_of_nodup p2
  have hle : w1.length ≤ A.card := by rw [← hcard]; exact Finset.card_le_card hsub
  have hkey : w1.length < nproj ↔ A.card < nproj := by
    constructor
    · intro hl
      rcases p5 with p5 | p5
      · have : A ⊆ w1.toFinset := by
          intro d hd
          rw [hA, Finset.mem_union, List.mem_toFinset, Finset.mem_filter] at hd
          rw [List.mem_toFinset]
          rcases hd with hd | hd
          · exact p1.subset hd
          · exact p5 d hd.1 hd.2
        have := Finset.card_le_card this
        omega
      · omega
    · omega
  have hval : fillWavefunction z order w nproj fill = if w1.length < nproj then .error .valueError else
      .ok (((if nproj < w1.length then w1.take nproj else w1).take nproj).foldl
        (fun acc ref => add order (fun d => decide (z.distance ref d ∈ z.connections)) acc)
        (if nproj < w1.length then w1.take nproj else w1)) := by
    rw [fillWavefunction, if_neg hz, e1]; rfl
  rw [hval]
  by_cases hl : w1.length < nproj
  · simp only [if_pos hl, true_iff]
    refine ⟨hkey.1 hl, ⟨?_, ?_⟩⟩
    · rintro ⟨r, hr⟩; cases hr
    · intro h2; have := hkey.1 hl; omega
  · simp only [if_neg hl]
    have := mt hkey.2 hl
    refine ⟨⟨?_, ?_⟩, ⟨fun _ => by omega, fun _ => ⟨_, rfl⟩⟩⟩
    · intro h2; cases h2
    · intro h2; omega

theorem mem_powerset_sdiff_card {n k : ℕ} (hk : k ≤ n) {s : Finset ℕ}
    (hs : s ∈ Finset.powersetCard k (Finset.range n)) : (Finset.range k \ s).card ≤ min k (n - k) := by
  rw [Finset.mem_powersetCard] at hs
  rw [le_min_iff]
  constructor
  · exact (Finset.card_le_card Finset.sdiff_subset).trans (by simp)
  · have h1 := Finset.card_sdiff_add_card_inter (Finset.range k) s
    have h2 := Finset.card_sdiff_add_card_inter s (Finset.range k)
    rw [Finset.inter_comm] at h2
    have h3 : (s \ Finset.range k).card ≤ n - k := by
      have : s \ Finset.range k ⊆ Finset.Ico k n := by
        intro x hx
        rw [Finset.mem_sdiff, Finset.mem_range] at hx
        have := Finset.mem_range.1 (hs.1 hx.1)
        rw [Finset.mem_Ico]; omega
      simpa using Finset.card_le_card this
    rw [Finset.card_range] at h1
    rw [hs.2] at h2
    omega

/-- **C106.**  Filling by order of excitation can reach every determinant: there is a `ValueError` exactly if `nproj` exceeds
the number of all determinants. -/
theorem C106_excitation_complete (h : ListsAll z order) (hz : z.kind ≠ .other) (hu : z.noccUp ≤ z.nbasis)
    (hd : z.noccDn ≤ z.nbasis) (w : List Det) (hw : w.Nodup) (hws : ∀ d ∈ w, d ∈ detSpace z) (nproj : ℕ) :
    fillWavefunction z order w nproj .excitation = .error .valueError ↔ (detSpace z).card < nproj := by
  rw [(C106_too_few h hz w hw nproj .excitation (by decide)).1]
  have hall : ∀ d ∈ detSpace z, fillKey z .excitation d ∈ fillLevels z .excitation := by
    intro d hds
    simp only [fillKey, fillLevels, List.mem_range, Nat.lt_succ_iff]
    unfold Sizes.distance Sizes.eMax Sizes.hf
    unfold detSpace at hds
    rcases hk : z.kind with _ | _ | _
    · simp only [hk, Finset.mem_image] at hds ⊢
      obtain ⟨s, hs, rfl⟩ := hds
      exact mem_powerset_sdiff_card hu hs
    · simp only [hk, Finset.mem_product] at hds ⊢
      have h1 := mem_powerset_sdiff_card hu hds.1
      have h2 := mem_powerset_sdiff_card hd hds.2
      simp only [Sizes.nocc, Sizes.nvir]
      omega
    · exact absurd hk hz
  have : w.toFinset ∪ (detSpace z).filter (fun d => fillKey z .excitation d ∈ fillLevels z .excitation) = detSpace z := by
    ext d
    rw [Finset.mem_union, List.mem_toFinset, Finset.mem_filter]
    constructor
    · rintro (h1 | h1)
      · exact hws d h1
      · exact h1.1
    · intro h1; exact .inr ⟨h1, hall d h1⟩
  rw [this]

/-- **C106.**  The seniorities that are used: of the determinants of the space, those with at most `min(nocc_up, nvir_up)` open shells. -/
theorem C106_levels (hz : z.kind = .full) (hup : z.noccDn ≤ z.noccUp) (d : Det) (hd : d ∈ detSpace z) :
    fillKey z .seniority d ∈ fillLevels z .seniority ↔ (symmDiff d.1 d.2).card ≤ min z.noccUp (z.nbasis - z.noccUp) := by
  have hmem : d.1.card = z.noccUp ∧ d.2.card = z.noccDn := by
    simp only [detSpace, hz, Finset.mem_product, Finset.mem_powersetCard] at hd
    exact ⟨hd.1.2, hd.2.2⟩
  have hc : (symmDiff d.1 d.2).card = (d.1 \ d.2).card + (d.2 \ d.1).card := by
    rw [symmDiff_def, Finset.sup_eq_union, Finset.card_union_of_disjoint]
    exact Finset.disjoint_left.2 fun x hx hy => (Finset.mem_sdiff.1 hy).2 (Finset.mem_sdiff.1 hx).1
  have h1 := Finset.card_sdiff_add_card_inter d.1 d.2
  have h2 := Finset.card_sdiff_add_card_inter d.2 d.1
  rw [Finset.inter_comm] at h2
  change (symmDiff d.1 d.2).card ∈ z.seniorities ↔ _
  simp only [Sizes.seniorities, hz, List.mem_map, List.mem_range, Sizes.nvirUp]
  constructor
  · rintro ⟨i, hi, he⟩
    omega
  · intro h
    exact ⟨(d.2 \ d.1).card, by omega, by omega⟩

example : (({0, 1}, {0, 2}) : Det) ∈ detSpace ⟨.full, 4, 2, 2⟩ ∧ fillKey ⟨.full, 4, 2, 2⟩ .seniority ({0, 1}, {0, 2}) = 2 := by
  decide

/-- **C106 (disagreement).**  Filling by seniority never adds a determinant of a seniority above `min(nocc_up, nvir_up)`, though
there are such determinants: with as many electrons of either spin and enough orbitals, the number of open shells can be as
large as the number of electrons.  So with two electrons in two orbitals the four determinants cannot be had. -/
theorem C106_seniority_disagrees :
    (∀ (z : Sizes) (order : (Det → Bool) → List Det), ListsAll z order → z.kind = .full → ∀ (w : List Det), w.Nodup →
      ∀ (nproj : ℕ) (r : List Det), fillWavefunction z order w nproj .seniority = .ok r →
      ∀ d ∈ r.take nproj, d ∉ w → seniority d ≤ min z.noccUp (z.nbasis - z.noccUp)) ∧
    (∀ n, 0 < n → ∀ (order : (Det → Bool) → List Det), ListsAll ⟨.full, 2 * n, n, n⟩ order →
      fillWavefunction ⟨.full, 2 * n, n, n⟩ order [] (detSpace ⟨.full, 2 * n, n, n⟩).card .seniority =
        .error .valueError) := by
  have hlev : ∀ z : Sizes, z.kind = .full → ∀ s ∈ z.seniorities,
      s ≤ min z.noccUp (z.nbasis - z.noccUp) := by
    intro z hk s hs
    simp only [Sizes.seniorities, hk, List.mem_map, List.mem_range, Sizes.nvirUp] at hs
    obtain ⟨i, hi, rfl⟩ := hs
    omega
  constructor
  · intro z order h hk w hw nproj r hr d hd hdw
    have := ((C106_filled h (by rw [hk]; decide) w hw nproj .seniority r hr).2.2.2.1 d hd hdw).2.1
    exact hlev z hk _ this
  · intro n hn order h
    rw [(C106_too_few h (by simp) [] List.nodup_nil _ .seniority (by decide)).1]
    apply Finset.card_lt_card
    rw [Finset.ssubset_iff_of_subset]
    · refine ⟨(Finset.range n, Finset.Ico n (2 * n)), ?_, ?_⟩
      · simp only [detSpace, Finset.mem_product, Finset.mem_powersetCard, Finset.card_range, Nat.card_Ico]
        refine ⟨⟨?_, trivial⟩, ?_, by omega⟩
        · intro x hx; rw [Finset.mem_range] at *; omega
        · intro x hx; rw [Finset.mem_range]; rw [Finset.mem_Ico] at hx; omega
      · intro hc
        simp only [List.toFinset_nil, Finset.empty_union, Finset.mem_filter] at hc
        have hle := hlev ⟨.full, 2 * n, n, n⟩ rfl _ hc.2
        have hs : seniority (Finset.range n, Finset.Ico n (2 * n)) = 2 * n := by
          have hdis : Disjoint (Finset.range n) (Finset.Ico n (2 * n)) := by
            rw [Finset.disjoint_left]; intro x hx hy
            rw [Finset.mem_range] at hx; rw [Finset.mem_Ico] at hy; omega
          rw [seniority, hdis.symmDiff_eq_sup, Finset.sup_eq_union, Finset.card_union_of_disjoint hdis]
          simp; omega
        simp only [fillKey] at hle
        rw [hs] at hle
        omega
    · intro d hd
      simp only [List.toFinset_nil, Finset.empty_union, Finset.mem_filter] at hd
      exact hd.1

/-- Other classes are a `TypeError`, other values of `fill` a `ValueError`. -/
theorem C106_errors (w : List Det) (nproj : ℕ) :
    (∀ fill, z.kind = .other → fillWavefunction z order w nproj fill = .error .typeError) ∧
    (z.kind ≠ .other → fillWavefunction z order w nproj .other = .error .valueError) := by
  constructor
  · intro fill hk; rw [fillWavefunction, if_pos hk]
  · intro hk; rw [fillWavefunction, if_neg hk]; rfl

/-- a library that meets the assumption: list the determinants in any order -/
noncomputable def someOrder (z : Sizes) (p : Det → Bool) : List Det := ((detSpace z).filter (fun d => p d = true)).toList

/-- The assumption on pyci can be met for all sizes. -/
theorem someOrder_listsAll (z : Sizes) : ListsAll z (someOrder z) := by
  intro p
  exact ⟨Finset.nodup_toList _, by intro d; simp [someOrder]⟩

/-- A concrete case: three determinants for two electrons in two orbitals. -/
example : ∃ r, fillWavefunction ⟨.full, 2, 1, 1⟩ (someOrder ⟨.full, 2, 1, 1⟩) [] 3 .excitation = .ok r := by
  rw [(C106_too_few (someOrder_listsAll _) (by simp) [] List.nodup_nil _ _ (by decide)).2]
  decide +kernel

end Fanpy.Props
