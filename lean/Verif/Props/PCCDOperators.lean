import Verif.Lemmas.Excitations
import Verif.Props.PCCD

/-! # C122: excitation operators of the classes derived from `PCCD` -/

namespace Fanpy.Props
open Fanpy.Slater Fanpy.Spec Fanpy.CC Fanpy.PCCD Fanpy.It Fanpy.Graphs

/-! ## Lists that hold both spin orbitals of each pair -/

theorem half_of_closed {l : List ℕ} {n : ℕ} (hs : l.Pairwise (· < ·)) (hb : ∀ i ∈ l, i < 2 * n)
    (hc : ∀ i ∈ l, partner n i ∈ l) : l.take (l.length / 2) = l.filter (fun i => decide (i < n)) := by
  have e : l = l.filter (fun i => decide (i < n)) ++ (l.filter (fun i => decide (i < n))).map (· + n) := by
    have hf : (l.filter (fun i => decide (i < n))).Pairwise (· < ·) := hs.filter _
    refine List.Perm.eq_of_pairwise (le := (· < ·)) (fun a b _ _ h1 h2 => by omega) hs ?_ ?_
    · rw [List.pairwise_append, List.pairwise_map]
      refine ⟨hf, hf.imp fun h => by omega, ?_⟩
      intro a ha b hb
      obtain ⟨c, -, rfl⟩ := List.mem_map.1 hb
      have := (List.mem_filter.1 ha).2
      simp at this
      omega
    · rw [List.perm_ext_iff_of_nodup (hs.imp fun h => by omega)]
      · intro i
        simp only [List.mem_append, List.mem_filter, List.mem_map, decide_eq_true_eq]
        constructor
        · intro hi
          by_cases hn : i < n
          · exact Or.inl ⟨hi, hn⟩
          · have h1 := hc i hi
            have h2 := hb i hi
            rw [partner, if_neg hn] at h1
            exact Or.inr ⟨i - n, ⟨h1, by omega⟩, by omega⟩
        · rintro (h | ⟨c, ⟨h1, h2⟩, rfl⟩)
          · exact h.1
          · have := hc c h1
            rwa [partner, if_pos h2] at this
      · refine (List.nodup_append.2 ⟨hf.imp fun h => by omega, ?_, ?_⟩)
        · have hf' : (l.filter (fun i => decide (i < n))).Nodup := hf.imp fun h => by omega
          exact List.Nodup.map (fun a b h => by simpa using h) hf'
        · intro a ha b hb
          obtain ⟨c, -, rfl⟩ := List.mem_map.1 hb
          have := (List.mem_filter.1 ha).2
          simp at this
          omega
  generalize l.filter (fun i => decide (i < n)) = A at e ⊢
  rw [e, List.length_append, List.length_map, List.take_left' (by omega)]

theorem mem_drop_sorted {l : List ℕ} (hs : l.Pairwise (· < ·)) {v w : ℕ} (hv : v ∈ l) :
    w ∈ l.drop (l.idxOf v + 1) ↔ w ∈ l ∧ v < w := by
  have hlt := List.idxOf_lt_length_of_mem hv
  have hget : l[l.idxOf v] = v := List.getElem_idxOf hlt
  rw [List.mem_drop_iff_getElem, List.mem_iff_getElem]
  rw [List.pairwise_iff_getElem] at hs
  constructor
  · rintro ⟨i, hi, rfl⟩
    refine ⟨⟨_, hi, by congr 1; omega⟩, ?_⟩
    have := hs _ _ hlt hi (by omega)
    rw [hget] at this
    refine lt_of_lt_of_eq this ?_
    congr 1; omega
  · rintro ⟨⟨i, hi, rfl⟩, hvw⟩
    have : l.idxOf v < i := by
      by_contra hc
      rcases Nat.lt_or_eq_of_le (not_lt.1 hc) with h | h
      · have := hs _ _ hi hlt h
        rw [hget] at this; omega
      · subst h; rw [hget] at hvw; omega
    exact ⟨i - (l.idxOf v + 1), by omega, by congr 1; omega⟩

/-- the elements after `v` in the first half, found by the position of `v` in the whole list -/
theorem mem_half_drop {l : List ℕ} {n : ℕ} (hs : l.Pairwise (· < ·)) (hb : ∀ i ∈ l, i < 2 * n)
    (hc : ∀ i ∈ l, partner n i ∈ l) {v w : ℕ} (hv : v ∈ l) (hvn : v < n) :
    w ∈ (l.take (l.length / 2)).drop (l.idxOf v + 1) ↔ w ∈ l ∧ w < n ∧ v < w := by
  have hh := half_of_closed hs hb hc
  have hvh : v ∈ l.take (l.length / 2) := by
    rw [hh, List.mem_filter]; exact ⟨hv, by simpa using hvn⟩
  have hidx : l.idxOf v = (l.take (l.length / 2)).idxOf v := by
    conv_lhs => rw [← List.take_append_drop (l.length / 2) l]
    exact List.idxOf_append_of_mem hvh
  rw [hidx, mem_drop_sorted (hs.sublist (List.take_sublist _ _)) hvh, hh, List.mem_filter]
  simp only [decide_eq_true_eq]
  tauto

theorem nodup_loop {α : Type} {l : List α} {f : α → List (List ℕ)} (hl : l.Nodup) (hf : ∀ x ∈ l, (f x).Nodup)
    (hd : ∀ x y key, key ∈ f x → key ∈ f y → x = y) : (l.flatMap f).Nodup := by
  rw [List.nodup_flatMap]
  refine ⟨hf, hl.imp fun {a b} hab => ?_⟩
  intro key k1 k2
  exact hab (hd a b key k1 k2)

/-! ## Operators of higher ranks -/

/-- excitations of `r` electrons for a rank `r` in the list: annihilators and creators are in increasing order -/
def IsExcitation (ranks : List ℕ) (nspin ref : ℕ) (key : List ℕ) : Prop :=
  ∃ a c : List ℕ, a.length ∈ ranks ∧ c.length = a.length ∧ a.Pairwise (· < ·) ∧ c.Pairwise (· < ·) ∧
    (∀ i ∈ a, ref.testBit i = true) ∧ (∀ i ∈ c, i < nspin ∧ ref.testBit i = false) ∧ key = a ++ c

/-- excitations of one pair and one more electron to a pair and one more orbital -/
def IsPairTriple (nspin ref : ℕ) (key : List ℕ) : Prop :=
  ∃ o q v u, o < nspin / 2 ∧ ref.testBit o = true ∧ ref.testBit q = true ∧ q ≠ o ∧ q ≠ o + nspin / 2 ∧
    v < nspin / 2 ∧ ref.testBit v = false ∧ u < nspin ∧ ref.testBit u = false ∧ u ≠ v ∧ u ≠ v + nspin / 2 ∧
    key = [o, o + nspin / 2, q, v, v + nspin / 2, u]

/-- excitations of two pairs to two pairs -/
def IsPairQuadruple (nspin ref : ℕ) (key : List ℕ) : Prop :=
  ∃ o q v u, o < q ∧ q < nspin / 2 ∧ ref.testBit o = true ∧ ref.testBit q = true ∧ v < u ∧ u < nspin / 2 ∧
    ref.testBit v = false ∧ ref.testBit u = false ∧
    key = [o, o + nspin / 2, q, q + nspin / 2, v, v + nspin / 2, u, u + nspin / 2]

theorem exopsFrom_spec {ranks : List ℕ} {nspin ref : ℕ} (hr : ranks.Pairwise (· < ·)) :
    (exopsFrom ranks (occIndices (some ref)) (virt nspin ref)).Nodup ∧
    ∀ key, key ∈ exopsFrom ranks (occIndices (some ref)) (virt nspin ref) ↔ IsExcitation ranks nspin ref key := by
  have hvn : (virt nspin ref).Pairwise (· < ·) := List.pairwise_lt_range.filter _
  have hv : ∀ i, i ∈ virt nspin ref ↔ i < nspin ∧ ref.testBit i = false := by
    intro i; rw [virt, List.mem_filter, List.mem_range]; simp [mem_occIndices]
  constructor
  · rw [exopsFrom_eq]
    have h1 : (opsP ranks (occIndices (some ref)) (virt nspin ref)).Nodup :=
      (opsP_order hr (sorted_occIndices ref) hvn).imp fun {p q} h => by
        rintro rfl
        rcases h with h | ⟨-, h | ⟨-, h⟩⟩
        · omega
        · exact absurd h (lt_irrefl _)
        · exact absurd h (lt_irrefl _)
    refine h1.map_on ?_
    intro p hp q hq e
    have hp' := (mem_opsP.1 hp).2.1
    have hq' := (mem_opsP.1 hq).2.1
    have hl : p.1.length = q.1.length := by
      have := congrArg List.length e
      rw [List.length_append, List.length_append] at this; omega
    obtain ⟨e1, e2⟩ := List.append_inj e hl
    exact Prod.ext e1 e2
  · intro key
    rw [exopsFrom_eq, List.mem_map]
    constructor
    · rintro ⟨p, hp, rfl⟩
      obtain ⟨h1, h2, h3, h4⟩ := mem_opsP.1 hp
      exact ⟨p.1, p.2, h1, h2.symm, (sorted_occIndices ref).sublist h3, hvn.sublist h4,
        fun i hi => (mem_occIndices).1 (h3.subset hi), fun i hi => (hv i).1 (h4.subset hi), rfl⟩
    · rintro ⟨a, c, h1, h2, h3, h4, h5, h6, rfl⟩
      refine ⟨(a, c), mem_opsP.2 ⟨h1, h2.symm, ?_, ?_⟩, rfl⟩
      · exact (mem_comb.1 (Fanpy.Lemmas.mem_comb_sorted (sorted_occIndices ref) h3 fun i hi => mem_occIndices.2 (h5 i hi))).1
      · exact (mem_comb.1 (Fanpy.Lemmas.mem_comb_sorted hvn h4 fun i hi => (hv i).2 (h6 i hi))).1

/-- C122: the operators of `CCSDTQsen0`, `CCSDQsen0` and `CCSDTsen2Qsen0` for any reference: no operator twice, all
excitations of the low ranks, the triples that move one pair and one electron, and the quadruples that move two pairs. -/
theorem C122_higher {R : Type} (k : Kind) (hk : hasTriples k = true) (nelec nspin : ℕ) (refwfn : Option ℕ) (params : ℕ → R)
    (b : Bool) (w : PCCD.Wfn R) (hw : PCCD.init k nelec nspin false none refwfn params b = .ok w)
    (hlt : w.base.refwfn < 2 ^ nspin) :
    w.base.exops.Nodup ∧ ∀ key, key ∈ w.base.exops ↔
      match k with
      | .sdtqSen0 => IsExcitation [1, 2, 3] nspin w.base.refwfn key ∨ IsPairQuadruple nspin w.base.refwfn key
      | .sdqSen0 => IsExcitation [1, 2] nspin w.base.refwfn key ∨ IsPairQuadruple nspin w.base.refwfn key
      | .sdtSen2qSen0 => IsExcitation [1, 2] nspin w.base.refwfn key ∨ IsPairTriple nspin w.base.refwfn key ∨
          IsPairQuadruple nspin w.base.refwfn key
      | _ => False := by
  obtain ⟨-, e1, e2, e3, e4, e5, e6, e7, e8, g, hg, e9, e10, e11, e12⟩ := pccd_init_ok hw
  obtain ⟨hcard, hcl⟩ := pccd_reference hw hlt
  have hs : k.isSen0 = true := by cases k <;> simp_all [PCCD.Kind.isSen0, hasTriples]
  have hE := (e12 hs).1
  rw [PCCD.assignExops] at hE
  injection hE with hE
  rw [← hE]
  generalize w.base.refwfn = ref at *
  have hon := sorted_occIndices ref
  have hvn : (virt nspin ref).Pairwise (· < ·) := List.pairwise_lt_range.filter _
  have hv : ∀ i, i ∈ virt nspin ref ↔ i < nspin ∧ ref.testBit i = false := by
    intro i; rw [virt, List.mem_filter, List.mem_range]; simp [mem_occIndices]
  have hob : ∀ i ∈ occIndices (some ref), i < 2 * (nspin / 2) := by
    intro i hi
    rw [mem_occIndices] at hi
    by_contra hc
    rw [Nat.testBit_lt_two_pow (lt_of_lt_of_le hlt (Nat.pow_le_pow_right (by norm_num) (by omega)))] at hi
    cases hi
  have hvb : ∀ i ∈ virt nspin ref, i < 2 * (nspin / 2) := by
    intro i hi
    have := ((hv i).1 hi).1
    omega
  have hvc : ∀ i ∈ virt nspin ref, partner (nspin / 2) i ∈ virt nspin ref := by
    intro i hi
    have h1 := hvb i hi
    rw [hv] at hi ⊢
    refine ⟨by unfold partner; split_ifs <;> omega, ?_⟩
    by_contra hc
    have hc : ref.testBit (partner (nspin / 2) i) = true := by simpa using hc
    have := hcl _ (mem_occIndices.2 hc)
    rw [show partner (nspin / 2) (partner (nspin / 2) i) = i by unfold partner; split_ifs <;> omega, mem_occIndices, hi.2] at this
    cases this
  have hO : ∀ i, i ∈ occHalf ref ↔ i < nspin / 2 ∧ ref.testBit i = true := by
    intro i
    rw [occHalf, half_of_closed hon hob hcl, List.mem_filter, mem_occIndices]
    simp only [decide_eq_true_eq]; tauto
  have hH : ∀ i, i ∈ virtHalf nspin ref ↔ i < nspin / 2 ∧ ref.testBit i = false := by
    intro i
    rw [virtHalf, half_of_closed hvn hvb hvc, List.mem_filter, hv]
    simp only [decide_eq_true_eq]
    constructor
    · rintro ⟨⟨-, h1⟩, h2⟩; exact ⟨h2, h1⟩
    · rintro ⟨h1, h2⟩; exact ⟨⟨by omega, h2⟩, h1⟩
  have hOn : (occHalf ref).Nodup := (hon.imp fun h => by omega : (occIndices (some ref)).Nodup).sublist (List.take_sublist _ _)
  have hHn : (virtHalf nspin ref).Nodup := (hvn.imp fun h => by omega : (virt nspin ref).Nodup).sublist (List.take_sublist _ _)
  have quadN : (quadruples nspin ref).Nodup := by
    rw [quadruples]
    refine nodup_loop hOn (fun x _ => nodup_loop (hOn.sublist (List.drop_sublist _ _)) (fun y _ => nodup_loop hHn
      (fun z _ => (hHn.sublist (List.drop_sublist _ _)).map fun a b h => by simpa using h) ?_) ?_) ?_
    · intro a b key ha hb
      obtain ⟨_, -, rfl⟩ := List.mem_map.1 ha
      obtain ⟨_, -, hb⟩ := List.mem_map.1 hb
      simp only [List.cons.injEq] at hb; omega
    · intro a b key ha hb
      simp only [List.mem_flatMap, List.mem_map] at ha hb
      obtain ⟨_, _, _, _, rfl⟩ := ha
      obtain ⟨_, _, _, _, hb⟩ := hb
      simp only [List.cons.injEq] at hb; omega
    · intro a b key ha hb
      simp only [List.mem_flatMap, List.mem_map] at ha hb
      obtain ⟨_, _, _, _, _, _, rfl⟩ := ha
      obtain ⟨_, _, _, _, _, _, hb⟩ := hb
      simp only [List.cons.injEq] at hb; omega
  have quadM : ∀ key, key ∈ quadruples nspin ref ↔ IsPairQuadruple nspin ref key := by
    intro key
    simp only [quadruples, List.mem_flatMap, List.mem_map, IsPairQuadruple]
    constructor
    · rintro ⟨o, ho, q, hq, v, hv', u, hu, rfl⟩
      rw [hO] at ho
      rw [hH] at hv'
      rw [occHalf, mem_half_drop hon hob hcl (mem_occIndices.2 ho.2) ho.1, mem_occIndices] at hq
      rw [virtHalf, mem_half_drop hvn hvb hvc ((hv v).2 ⟨by omega, hv'.2⟩) hv'.1, hv] at hu
      exact ⟨o, q, v, u, hq.2.2, hq.2.1, ho.2, hq.1, hu.2.2, hu.2.1, hv'.2, hu.1.2, rfl⟩
    · rintro ⟨o, q, v, u, h1, h2, h3, h4, h5, h6, h7, h8, rfl⟩
      refine ⟨o, (hO o).2 ⟨by omega, h3⟩, q, ?_, v, (hH v).2 ⟨by omega, h7⟩, u, ?_, rfl⟩
      · rw [occHalf, mem_half_drop hon hob hcl (mem_occIndices.2 h3) (by omega), mem_occIndices]
        exact ⟨h4, h2, h1⟩
      · rw [virtHalf, mem_half_drop hvn hvb hvc ((hv v).2 ⟨by omega, h7⟩) (by omega), hv]
        exact ⟨⟨by omega, h8⟩, h6, h5⟩
  have triN : (triples nspin ref).Nodup := by
    rw [triples]
    have hVn : (virt nspin ref).Nodup := hvn.imp fun h => by omega
    refine nodup_loop hOn (fun x _ => nodup_loop ((nodup_occIndices ref).filter _)
      (fun y _ => nodup_loop hHn (fun z _ => List.Nodup.map (fun a b h => by simpa using h) (hVn.filter _)) ?_) ?_) ?_
    · intro a b key ha hb
      obtain ⟨_, -, rfl⟩ := List.mem_map.1 ha
      obtain ⟨_, -, hb⟩ := List.mem_map.1 hb
      simp only [List.cons.injEq] at hb; omega
    · intro a b key ha hb
      simp only [List.mem_flatMap, List.mem_map] at ha hb
      obtain ⟨_, _, _, _, rfl⟩ := ha
      obtain ⟨_, _, _, _, hb⟩ := hb
      simp only [List.cons.injEq] at hb; omega
    · intro a b key ha hb
      simp only [List.mem_flatMap, List.mem_map] at ha hb
      obtain ⟨_, _, _, _, _, _, rfl⟩ := ha
      obtain ⟨_, _, _, _, _, _, hb⟩ := hb
      simp only [List.cons.injEq] at hb; omega
  have triM : ∀ key, key ∈ triples nspin ref ↔ IsPairTriple nspin ref key := by
    intro key
    simp only [triples, List.mem_flatMap, List.mem_map, List.mem_filter, mem_occIndices, hO, hH, hv, IsPairTriple,
      List.mem_cons, List.not_mem_nil, or_false, not_or, decide_eq_true_eq]
    constructor
    · rintro ⟨o, ⟨h1, h2⟩, q, ⟨h3, h4, h5⟩, v, ⟨h6, h7⟩, u, ⟨⟨h8, h9⟩, h10, h11⟩, rfl⟩
      exact ⟨o, q, v, u, h1, h2, h3, h4, h5, h6, h7, h8, h9, h10, h11, rfl⟩
    · rintro ⟨o, q, v, u, h1, h2, h3, h4, h5, h6, h7, h8, h9, h10, h11, rfl⟩
      exact ⟨o, ⟨h1, h2⟩, q, ⟨h3, h4, h5⟩, v, ⟨h6, h7⟩, u, ⟨⟨h8, h9⟩, h10, h11⟩, rfl⟩
  have lenE : ∀ {ranks : List ℕ} {key : List ℕ}, IsExcitation ranks nspin ref key → ∃ r ∈ ranks, key.length = 2 * r := by
    rintro ranks key ⟨a, c, h1, h2, -, -, -, -, rfl⟩
    exact ⟨_, h1, by rw [List.length_append, h2]; omega⟩
  have lenT : ∀ {key : List ℕ}, IsPairTriple nspin ref key → key.length = 6 := by
    rintro key ⟨o, q, v, u, -, -, -, -, -, -, -, -, -, -, -, rfl⟩; rfl
  have lenQ : ∀ {key : List ℕ}, IsPairQuadruple nspin ref key → key.length = 8 := by
    rintro key ⟨o, q, v, u, -, -, -, -, -, -, -, -, rfl⟩; rfl
  cases k with
  | sdtqSen0 =>
    simp only [PCCD.assignRanks] at e8
    split_ifs at e8
    injection e8 with e8
    obtain ⟨f1, f2⟩ := exopsFrom_spec (ranks := [1, 2, 3]) (nspin := nspin) (ref := ref) (by decide)
    rw [PCCD.defaultExops, ← e8]
    change (exopsFrom [1, 2, 3] _ _ ++ _).Nodup ∧ ∀ key, key ∈ exopsFrom [1, 2, 3] _ _ ++ _ ↔ _
    refine ⟨List.nodup_append.2 ⟨f1, quadN, ?_⟩, fun key => by rw [List.mem_append, f2, quadM]⟩
    rintro a ha b hb rfl
    obtain ⟨r, hr, hl⟩ := lenE ((f2 a).1 ha)
    have := lenQ ((quadM a).1 hb)
    simp at hr; omega
  | sdqSen0 =>
    simp only [PCCD.assignRanks] at e8
    split_ifs at e8
    injection e8 with e8
    obtain ⟨f1, f2⟩ := exopsFrom_spec (ranks := [1, 2]) (nspin := nspin) (ref := ref) (by decide)
    rw [PCCD.defaultExops, ← e8]
    change (exopsFrom [1, 2] _ _ ++ _).Nodup ∧ ∀ key, key ∈ exopsFrom [1, 2] _ _ ++ _ ↔ _
    refine ⟨List.nodup_append.2 ⟨f1, quadN, ?_⟩, fun key => by rw [List.mem_append, f2, quadM]⟩
    rintro a ha b hb rfl
    obtain ⟨r, hr, hl⟩ := lenE ((f2 a).1 ha)
    have := lenQ ((quadM a).1 hb)
    simp at hr; omega
  | sdtSen2qSen0 =>
    simp only [PCCD.assignRanks] at e8
    split_ifs at e8
    injection e8 with e8
    obtain ⟨f1, f2⟩ := exopsFrom_spec (ranks := [1, 2]) (nspin := nspin) (ref := ref) (by decide)
    rw [PCCD.defaultExops, ← e8]
    change (exopsFrom [1, 2] _ _ ++ _ ++ _).Nodup ∧ ∀ key, key ∈ exopsFrom [1, 2] _ _ ++ _ ++ _ ↔ _
    refine ⟨List.nodup_append.2 ⟨List.nodup_append.2 ⟨f1, triN, ?_⟩, quadN, ?_⟩, fun key => by
      rw [List.mem_append, List.mem_append, f2, triM, quadM, or_assoc]⟩
    · rintro a ha b hb rfl
      obtain ⟨r, hr, hl⟩ := lenE ((f2 a).1 ha)
      have := lenT ((triM a).1 hb)
      simp at hr; omega
    · rintro a ha b hb rfl
      have h8 := lenQ ((quadM a).1 hb)
      rcases List.mem_append.1 ha with ha | ha
      · obtain ⟨r, hr, hl⟩ := lenE ((f2 a).1 ha)
        simp at hr; omega
      · have := lenT ((triM a).1 ha)
        omega
  | _ => cases hk

/-! ## Operators to two sets of orbitals -/

/-- two sets that can be given to the `APset1roG` classes: no negative number, no orbital of the ground state, no common
orbital -/
def GoodSets (nelec nspin : ℕ) (x y : List ℤ) : Prop :=
  (∀ i ∈ x ++ y, (nelec / 2 : ℤ) ≤ i ∧ (i < (nspin / 2 : ℤ) ∨ (nspin / 2 + nelec / 2 : ℤ) ≤ i)) ∧ ∀ i ∈ x, i ∉ y

theorem sortSet_nodup (l : List ℕ) : (sortSet l).Nodup :=
  (List.mergeSort_perm _ _).nodup_iff.2 (List.nodup_dedup l)

theorem checkSets_eq {nelec nspin g : ℕ} (hg : ground nelec nspin = .ok g) (he : nelec % 2 = 0) (x y : List ℤ) :
    (GoodSets nelec nspin x y → checkSets g x y = .ok (sortSet (x.map Int.toNat), sortSet (y.map Int.toNat))) ∧
    (¬ GoodSets nelec nspin x y → checkSets g x y = .error .valueError) := by
  obtain ⟨h1, h2, h3, h4, h5, h6, h7⟩ := ground_even hg he
  have hocc : ∀ i : ℤ, 0 ≤ i → (i.toNat ∈ occIndices (some g) ↔
      ¬ ((nelec / 2 : ℤ) ≤ i ∧ (i < (nspin / 2 : ℤ) ∨ (nspin / 2 + nelec / 2 : ℤ) ≤ i))) := by
    intro i hi
    rw [h4, List.mem_append, List.mem_range, List.mem_map]
    simp only [List.mem_range]
    constructor
    · rintro (h | ⟨c, hc, h⟩) <;> omega
    · intro h
      by_cases hc : i.toNat < nelec / 2
      · exact Or.inl hc
      · exact Or.inr ⟨i.toNat - nspin / 2, by omega, by omega⟩
  have key : ∀ l : List ℤ, (∀ i ∈ l, (nelec / 2 : ℤ) ≤ i ∧ (i < (nspin / 2 : ℤ) ∨ (nspin / 2 + nelec / 2 : ℤ) ≤ i)) ↔
      (l.all (fun i => decide (i ≥ 0)) = true) ∧ ¬ ∃ i ∈ l.map Int.toNat, i ∈ occIndices (some g) := by
    intro l
    rw [List.all_eq_true]
    constructor
    · intro h
      refine ⟨fun i hi => ?_, ?_⟩
      · have := h i hi
        simp; omega
      · rintro ⟨i, hi, hi'⟩
        obtain ⟨j, hj, rfl⟩ := List.mem_map.1 hi
        have := h j hj
        exact (hocc j (by omega)).1 hi' this
    · rintro ⟨h, h'⟩ i hi
      have h0 : 0 ≤ i := by simpa using h i hi
      by_contra hc
      exact h' ⟨i.toNat, List.mem_map_of_mem hi, (hocc i h0).2 hc⟩
  have hgs : GoodSets nelec nspin x y ↔ ((x.all (fun i => decide (i ≥ 0)) = true) ∧
      ¬ ∃ i ∈ x.map Int.toNat, i ∈ occIndices (some g)) ∧ ((y.all (fun i => decide (i ≥ 0)) = true) ∧
      ¬ ∃ i ∈ y.map Int.toNat, i ∈ occIndices (some g)) ∧ ¬ ∃ i ∈ x, i ∈ y := by
    rw [← key x, ← key y, GoodSets]
    constructor
    · rintro ⟨a, b⟩
      exact ⟨fun i hi => a i (by simp [hi]), fun i hi => a i (by simp [hi]), fun ⟨i, hi, hi'⟩ => b i hi hi'⟩
    · rintro ⟨a, b, c⟩
      refine ⟨fun i hi => ?_, fun i hi hi' => c ⟨i, hi, hi'⟩⟩
      rcases List.mem_append.1 hi with h | h
      · exact a i h
      · exact b i h
  rw [hgs]
  unfold checkSets
  constructor
  · rintro ⟨⟨a, b⟩, ⟨c, d⟩, e⟩
    rw [if_neg (not_not.2 a), if_neg b, if_neg (not_not.2 c), if_neg d, if_neg e]
  · intro h
    split_ifs with a b c d e
    all_goals first
      | rfl
      | exact absurd ⟨⟨a, b⟩, ⟨c, d⟩, e⟩ h

/-- excitations of the pair `o` to one orbital of each set -/
def IsSetDouble (n p : ℕ) (x y : List ℤ) (key : List ℕ) : Prop :=
  ∃ o, ∃ i ∈ x, ∃ j ∈ y, o < p ∧ key = [o, o + n, i.toNat, j.toNat]

/-- excitations of an alpha electron to the first set and of a beta electron to the second set -/
def IsSetSingle (n p : ℕ) (x y : List ℤ) (key : List ℕ) : Prop :=
  ∃ o, o < p ∧ ((∃ i ∈ x, key = [o, i.toNat]) ∨ ∃ j ∈ y, key = [o + n, j.toNat])

theorem doublesSets_nodup {nspin g m : ℕ} (h5 : occHalf g = List.range m) {x y : List ℕ} (hx : x.Nodup) (hy : y.Nodup) :
    (doublesSets nspin g x y).Nodup := by
  rw [doublesSets, h5]
  refine nodup_loop List.nodup_range (fun _ _ => nodup_loop hx (fun _ _ => hy.map fun a b h => by simpa using h) ?_) ?_
  · intro a b key ha hb
    obtain ⟨_, -, rfl⟩ := List.mem_map.1 ha
    obtain ⟨_, -, hb⟩ := List.mem_map.1 hb
    simp only [List.cons.injEq] at hb; omega
  · intro x y key hx hy
    simp only [List.mem_flatMap, List.mem_map] at hx hy
    obtain ⟨_, _, _, _, rfl⟩ := hx
    obtain ⟨_, _, _, _, hb⟩ := hy
    simp only [List.cons.injEq] at hb; omega

theorem singlesSets_nodup {nspin g m : ℕ} (hm : m ≤ nspin / 2) (h5 : occHalf g = List.range m) {x y : List ℕ} (hx : x.Nodup)
    (hy : y.Nodup) : (singlesSets nspin g x y).Nodup := by
  rw [singlesSets, List.nodup_append, h5]
  refine ⟨nodup_loop List.nodup_range (fun _ _ => hx.map fun a b h => by simpa using h) ?_,
    nodup_loop List.nodup_range (fun _ _ => hy.map fun a b h => by simpa using h) ?_, ?_⟩
  · intro a b key ha hb
    obtain ⟨_, -, rfl⟩ := List.mem_map.1 ha
    obtain ⟨_, -, hb⟩ := List.mem_map.1 hb
    simp only [List.cons.injEq] at hb; omega
  · intro a b key ha hb
    obtain ⟨_, -, rfl⟩ := List.mem_map.1 ha
    obtain ⟨_, -, hb⟩ := List.mem_map.1 hb
    simp only [List.cons.injEq] at hb; omega
  · intro a ha b hb
    simp only [List.mem_flatMap, List.mem_map, List.mem_range] at ha hb
    obtain ⟨o, ho, _, _, rfl⟩ := ha
    obtain ⟨q, hq, _, _, rfl⟩ := hb
    simp; omega

/-- C122: the operators of `APset1roGD` for two sets of orbitals: every operator that excites a pair of the ground state to
one orbital of each set, once. -/
theorem C122_sets_d {R : Type} (nelec nspin : ℕ) (x y : List ℤ) (refwfn : Option ℕ) (params : ℕ → R) (b : Bool)
    (w : PCCD.Wfn R) (hw : PCCD.init .apset1roGD nelec nspin false (some (x, y)) refwfn params b = .ok w) :
    GoodSets nelec nspin x y ∧ w.base.exops.Nodup ∧
      ∀ key, key ∈ w.base.exops ↔ IsSetDouble (nspin / 2) (nelec / 2) x y key := by
  obtain ⟨-, e1, e2, e3, e4, e5, e6, e7, e8, g, hg, e9, e10, e11, e12⟩ := pccd_init_ok hw
  have hE := (e11 rfl).1
  obtain ⟨h1, h2, h3, h4, h5, h6, h7⟩ := ground_even hg e2
  by_cases hgood : GoodSets nelec nspin x y
  swap
  · simp only [PCCD.assignExops, (checkSets_eq hg e2 x y).2 hgood, bind, Except.bind] at hE
    cases hE
  simp only [PCCD.assignExops, (checkSets_eq hg e2 x y).1 hgood, bind, Except.bind, pure, Except.pure] at hE
  injection hE with hE
  rw [← hE]
  refine ⟨hgood, doublesSets_nodup h5 (sortSet_nodup _) (sortSet_nodup _), fun key => ?_⟩
  simp only [doublesSets, h5, List.mem_flatMap, List.mem_map, List.mem_range, mem_sortSet, IsSetDouble]
  constructor
  · rintro ⟨o, ho, _, ⟨i, hi, rfl⟩, _, ⟨j, hj, rfl⟩, rfl⟩
    exact ⟨o, i, hi, j, hj, ho, rfl⟩
  · rintro ⟨o, i, hi, j, hj, ho, rfl⟩
    exact ⟨o, ho, _, ⟨i, hi, rfl⟩, _, ⟨j, hj, rfl⟩, rfl⟩

/-- C122: the operators of `APset1roGSD` for two sets of orbitals: the single excitations use the sets, the double
excitations are those to one alpha and one beta orbital whatever the sets are. -/
theorem C122_sets_sd {R : Type} (nelec nspin : ℕ) (x y : List ℤ) (refwfn : Option ℕ) (params : ℕ → R) (b : Bool)
    (w : PCCD.Wfn R) (hw : PCCD.init .apset1roGSD nelec nspin false (some (x, y)) refwfn params b = .ok w) :
    GoodSets nelec nspin x y ∧ w.base.exops.Nodup ∧
      ∀ key, key ∈ w.base.exops ↔ IsSetSingle (nspin / 2) (nelec / 2) x y key ∨ IsSpinDouble (nspin / 2) (nelec / 2) key := by
  obtain ⟨-, e1, e2, e3, e4, e5, e6, e7, e8, g, hg, e9, e10, e11, e12⟩ := pccd_init_ok hw
  have hE := (e11 rfl).1
  obtain ⟨h1, h2, h3, h4, h5, h6, h7⟩ := ground_even hg e2
  by_cases hgood : GoodSets nelec nspin x y
  swap
  · simp only [PCCD.assignExops, (checkSets_eq hg e2 x y).2 hgood, bind, Except.bind] at hE
    cases hE
  simp only [PCCD.assignExops, (checkSets_eq hg e2 x y).1 hgood, bind, Except.bind, pure, Except.pure] at hE
  injection hE with hE
  rw [← hE]
  obtain ⟨d1, d2⟩ := C65_operators .apset1roGD rfl nelec nspin g hg e2 []
  have d2 : ∀ key, key ∈ doublesSets nspin g (virtAlphas nspin g) (virtBetas nspin g) ↔
      IsSpinDouble (nspin / 2) (nelec / 2) key := d2
  have d1 : (doublesSets nspin g (virtAlphas nspin g) (virtBetas nspin g)).Nodup := d1
  have s2 : ∀ key, key ∈ singlesSets nspin g (sortSet (x.map Int.toNat)) (sortSet (y.map Int.toNat)) ↔
      IsSetSingle (nspin / 2) (nelec / 2) x y key := by
    intro key
    simp only [singlesSets, h5, List.mem_append, List.mem_flatMap, List.mem_map, List.mem_range, mem_sortSet, IsSetSingle]
    constructor
    · rintro (⟨o, ho, _, ⟨i, hi, rfl⟩, rfl⟩ | ⟨o, ho, _, ⟨i, hi, rfl⟩, rfl⟩)
      · exact ⟨o, ho, Or.inl ⟨i, hi, rfl⟩⟩
      · exact ⟨o, ho, Or.inr ⟨i, hi, rfl⟩⟩
    · rintro ⟨o, ho, ⟨i, hi, rfl⟩ | ⟨i, hi, rfl⟩⟩
      · exact Or.inl ⟨o, ho, _, ⟨i, hi, rfl⟩, rfl⟩
      · exact Or.inr ⟨o, ho, _, ⟨i, hi, rfl⟩, rfl⟩
  refine ⟨hgood, List.nodup_append.2 ⟨singlesSets_nodup h2 h5 (sortSet_nodup _) (sortSet_nodup _), d1, ?_⟩, fun key => by
    rw [List.mem_append, s2, d2]⟩
  rintro a ha b hb rfl
  obtain ⟨o, -, ⟨i, -, e⟩ | ⟨i, -, e⟩⟩ := (s2 a).1 ha <;>
  · obtain ⟨o', v, u, -, -, -, -, -, e'⟩ := (d2 a).1 hb
    rw [e] at e'
    exact absurd (congrArg List.length e') (by simp)

/-- the constructor without a reference -/
theorem pccd_init_eq {R : Type} {k : Kind} {nelec nspin g : ℕ} {ranks : List ℕ} (h1 : nelec ≠ 0) (h2 : nelec % 2 = 0)
    (h3 : nspin ≠ 0) (h4 : nspin % 2 = 0) (hr : assignRanks k nelec = .ok ranks) (hg : ground nelec nspin = .ok g)
    (indices : Option (List ℤ × List ℤ)) (params : ℕ → R) (b : Bool) :
    PCCD.init k nelec nspin false indices none params b = (assignExops k nspin g ranks indices).map fun exops =>
      ⟨⟨ranks, g, exops, params, !b⟩, nspin / 2, if k.isSen0 then defaultExops k nspin g ranks else exops⟩ := by
  unfold PCCD.init
  have hn : ¬ (nspin = 0 ∨ nspin % 2 = 1) := by omega
  rw [CI.checkNelec, if_neg h1, CI.checkNspin, hr, hg]
  simp only [bind, Except.bind, h2, ne_eq, not_true_eq_false, if_false, hn]
  cases hk : k.isSen0 <;> rcases assignExops k nspin g ranks indices with e | l <;> rfl

/-- C122: sets of orbitals are a `TypeError` except for `APset1roGD` and `APset1roGSD`; there they are accepted exactly if
they are good, and are a `ValueError` otherwise. -/
theorem C122_sets_errors {R : Type} (k : Kind) (nelec nspin : ℕ) (params : ℕ → R) (b : Bool) (w₀ : PCCD.Wfn R)
    (h₀ : PCCD.init k nelec nspin false none none params b = .ok w₀) (x y : List ℤ) :
    ((k = .apset1roGD ∨ k = .apset1roGSD) → GoodSets nelec nspin x y →
      ∃ w, PCCD.init k nelec nspin false (some (x, y)) none params b = .ok w) ∧
    ((k = .apset1roGD ∨ k = .apset1roGSD) → ¬ GoodSets nelec nspin x y →
      PCCD.init k nelec nspin false (some (x, y)) none params b = .error .valueError) ∧
    (¬ (k = .apset1roGD ∨ k = .apset1roGSD) →
      PCCD.init k nelec nspin false (some (x, y)) none params b = .error .typeError) := by
  obtain ⟨-, e1, e2, e3, e4, e5, e6, e7, e8, g, hg, e9, e10, e11, e12⟩ := pccd_init_ok h₀
  rw [pccd_init_eq e1 e2 e3 e4 e8 hg]
  refine ⟨?_, ?_, ?_⟩
  · rintro (rfl | rfl) hgood <;>
    · simp only [PCCD.assignExops, (checkSets_eq hg e2 x y).1 hgood, bind, Except.bind]
      exact ⟨_, rfl⟩
  · rintro (rfl | rfl) hgood <;>
    · simp only [PCCD.assignExops, (checkSets_eq hg e2 x y).2 hgood, bind, Except.bind]
      rfl
  · intro hk
    cases k <;> first | rfl | exact absurd (Or.inl rfl) hk | exact absurd (Or.inr rfl) hk

/-- C122: orbitals that do not exist are accepted. -/
theorem C122_outside : ∃ w : PCCD.Wfn ℚ, PCCD.init .apset1roGD 2 4 false (some ([1], [7])) none (fun _ => 1) false = .ok w ∧
    w.base.exops = [[0, 2, 1, 7]] := by
  have hg : ground 2 4 = .ok 0b0101 := by decide +kernel
  have he : assignExops .apset1roGD 4 0b0101 [2] (some ([1], [7])) = .ok [[0, 2, 1, 7]] := by decide +kernel
  refine ⟨⟨⟨[2], 0b0101, [[0, 2, 1, 7]], fun _ => 1, true⟩, 2, [[0, 2, 1, 7]]⟩, ?_, rfl⟩
  rw [pccd_init_eq (by decide) (by decide) (by decide) (by decide) rfl hg, he]; rfl

/-- C122: `APset1roGSD` keeps the double excitations to orbitals that are in neither set. -/
theorem C122_sets_sd_disagrees : ∃ w : PCCD.Wfn ℚ,
    PCCD.init .apset1roGSD 2 6 false (some ([1], [4])) none (fun _ => 1) false = .ok w ∧
    [0, 3, 2, 5] ∈ w.base.exops ∧ [0, 2] ∉ w.base.exops := by
  have hg : ground 2 6 = .ok 0b001001 := by decide +kernel
  have he : assignExops .apset1roGSD 6 0b001001 [1, 2] (some ([1], [4])) =
      .ok [[0, 1], [3, 4], [0, 3, 1, 4], [0, 3, 1, 5], [0, 3, 2, 4], [0, 3, 2, 5]] := by decide +kernel
  refine ⟨⟨⟨[1, 2], 0b001001, [[0, 1], [3, 4], [0, 3, 1, 4], [0, 3, 1, 5], [0, 3, 2, 4], [0, 3, 2, 5]], fun _ => 1, true⟩, 3,
    [[0, 1], [3, 4], [0, 3, 1, 4], [0, 3, 1, 5], [0, 3, 2, 4], [0, 3, 2, 5]]⟩, ?_, by simp, by simp⟩
  rw [pccd_init_eq (by decide) (by decide) (by decide) (by decide) rfl hg, he]; rfl

/-- C122: the parameter of an operator of `APset1roGD` that excites to an orbital of the first set above that of the second
set has no effect. -/
theorem C122_unordered {R : Type} [CommRing R] [Nontrivial R] (nelec nspin : ℕ) (x y : List ℤ) (refwfn : Option ℕ)
    (params : ℕ → R) (w : PCCD.Wfn R)
    (hw : PCCD.init .apset1roGD nelec nspin false (some (x, y)) refwfn params false = .ok w) (sd : ℕ)
    (hsd : (occSet sd).card = nelec) (l o i j : ℕ) (hl : w.base.exops[l]? = some [o, o + nspin / 2, i, j]) (hij : j < i) (h : R) :
    PCCD.overlap (pccdShift w l h) sd = PCCD.overlap w sd ∧ PCCD.dOverlap w sd l = .ok 0 := by
  refine C66_unordered _ nelec nspin _ refwfn params w hw sd hsd l ?_ h
  intro a c hac hlen
  rw [hl, Option.some.injEq] at hac
  obtain ⟨rfl, rfl⟩ := List.append_inj (s₁ := [o, o + nspin / 2]) (t₁ := [i, j]) hac (by
    have := congrArg List.length hac
    rw [List.length_append] at this
    simp at this ⊢; omega)
  rintro ⟨-, hp⟩
  simp at hp
  omega

/-- the sets of `C122_unordered`: a beta orbital first -/
example : ∃ w : PCCD.Wfn ℚ, PCCD.init .apset1roGD 2 4 false (some ([3], [1])) none (fun _ => 5) false = .ok w ∧
    w.base.exops[0]? = some [0, 0 + 4 / 2, 3, 1] ∧ (occSet 0b1010).card = 2 := by
  have hg : ground 2 4 = .ok 0b0101 := by decide +kernel
  have he : assignExops .apset1roGD 4 0b0101 [2] (some ([3], [1])) = .ok [[0, 2, 3, 1]] := by decide +kernel
  refine ⟨⟨⟨[2], 0b0101, [[0, 2, 3, 1]], fun _ => 5, true⟩, 2, [[0, 2, 3, 1]]⟩, ?_, rfl, by rw [← totalOcc_eq]; decide +kernel⟩
  rw [pccd_init_eq (by decide) (by decide) (by decide) (by decide) rfl hg, he]; rfl

/-- a wavefunction of `C122_higher` with a quadruple excitation of two pairs and a triple excitation of one pair -/
example : ∃ w : PCCD.Wfn ℚ, PCCD.init .sdtSen2qSen0 4 8 false none none (fun _ => 5) false = .ok w ∧ w.base.refwfn < 2 ^ 8 ∧
    [0, 4, 1, 5, 2, 6, 3, 7] ∈ w.base.exops ∧ [0, 4, 1, 2, 6, 7] ∈ w.base.exops ∧ [0, 1, 4, 2, 6, 7] ∉ w.base.exops := by
  have hg : ground 4 8 = .ok 0b00110011 := by decide +kernel
  have hr : assignRanks .sdtSen2qSen0 4 = .ok [1, 2, 3, 4] := by decide +kernel
  have h : PCCD.init .sdtSen2qSen0 4 8 false none none (fun _ => (5 : ℚ)) false =
      .ok ⟨⟨[1, 2, 3, 4], 0b00110011, defaultExops .sdtSen2qSen0 8 0b00110011 [1, 2, 3, 4], fun _ => 5, true⟩, 4,
        defaultExops .sdtSen2qSen0 8 0b00110011 [1, 2, 3, 4]⟩ := by
    rw [pccd_init_eq (by decide) (by decide) (by decide) (by decide) hr hg]; rfl
  have hlt : (0b00110011 : ℕ) < 2 ^ 8 := by norm_num
  obtain ⟨-, h2⟩ := C122_higher .sdtSen2qSen0 rfl 4 8 none _ false _ h hlt
  refine ⟨_, h, hlt, (h2 _).2 (Or.inr (Or.inr ⟨0, 1, 2, 3, by decide⟩)), (h2 _).2 (Or.inr (Or.inl ⟨0, 1, 2, 7, by decide⟩)), ?_⟩
  intro hm
  rcases (h2 _).1 hm with ⟨a, c, ha, hc, -, -, -, -, e⟩ | ⟨o, q, v, u, -, -, -, -, -, -, -, -, -, -, -, e⟩ |
    ⟨o, q, v, u, -, -, -, -, -, -, -, -, e⟩
  · have := congrArg List.length e
    rw [List.length_append] at this
    simp at this ha
    omega
  · simp at e
  · simp at e

/-! ## The reference -/

/-- C122: except for `CCSDsen0` and the classes derived from it, the operators are made from the ground state whatever the
reference is. -/
theorem C122_reference {R : Type} (k : Kind) (hk : k.isSen0 = false) (nelec nspin : ℕ) (indices : Option (List ℤ × List ℤ))
    (m : ℕ) (params : ℕ → R) (b : Bool) (w w₀ : PCCD.Wfn R)
    (hw : PCCD.init k nelec nspin false indices (some m) params b = .ok w)
    (h₀ : PCCD.init k nelec nspin false indices none params b = .ok w₀) :
    w.base.refwfn = m ∧ w.base.exops = w₀.base.exops := by
  obtain ⟨-, e1, e2, e3, e4, e5, e6, e7, e8, g, hg, e9, e10, e11, e12⟩ := pccd_init_ok hw
  obtain ⟨-, d1, d2, d3, d4, d5, d6, d7, d8, g', hg', d9, d10, d11, d12⟩ := pccd_init_ok h₀
  refine ⟨e9, ?_⟩
  rw [hg] at hg'
  injection hg' with hg'
  subst hg'
  rw [e8] at d8
  injection d8 with d8
  have h1 := (e11 hk).1
  have h2 := (d11 hk).1
  rw [← d8, h1] at h2
  injection h2

/-- C122: with a reference that is not the ground state `PCCD` does not excite its electrons: the pair excitation to another
pair has overlap zero for all parameters. -/
theorem C122_reference_disagrees (t : ℕ → ℚ) : ∃ w : PCCD.Wfn ℚ, PCCD.init .pccd 2 4 false none (some 0b1010) t false = .ok w ∧
    w.base.refwfn = 0b1010 ∧ w.base.exops = [[0, 2, 1, 3]] ∧ PCCD.overlap w 0b1010 = .ok 1 ∧ PCCD.overlap w 0b0101 = .ok 0 ∧
    PCCD.dOverlap w 0b0101 0 = .ok 0 := by
  have hg : ground 2 4 = .ok 0b0101 := by decide +kernel
  have hd : diffOrbs 0b0101 0b1010 = ([0, 2], [1, 3]) := by decide +kernel
  have hs : signExcite (some 0b1010) [1, 3] [0, 2] = .ok (-1) := by decide +kernel
  have hp : possibleExops [2] [[0, 2, 1, 3]] [1, 3] [0, 2] = .ok [] := by
    have h : binSizeNum [2] = [(2, 1)] := by decide +kernel
    have h0 : intPartition [2] 1 2 = some [[2]] := by
      unfold intPartition; simp; unfold intPartition; simp
    simp only [possibleExops, List.length_cons, List.length_nil, zero_add, Nat.reduceAdd, h0, ofOption, bind, Except.bind, List.reverse_cons,
      List.reverse_nil, List.nil_append, List.mapM_cons, List.mapM_nil, h, pure, Except.pure]
    decide +kernel
  refine ⟨⟨⟨[2], 0b1010, [[0, 2, 1, 3]], t, true⟩, 2, [[0, 2, 1, 3]]⟩, ?_, rfl, rfl, ?_, ?_, ?_⟩
  · have he : PCCD.assignExops .pccd 4 0b0101 [2] none = .ok [[0, 2, 1, 3]] := by decide +kernel
    have hr : PCCD.assignRanks .pccd 2 = .ok [2] := by decide +kernel
    have ha : PCCD.assignRef 2 4 0b1010 = .ok 0b1010 := by decide +kernel
    simp only [PCCD.init, hg, hr, ha, he, bind, Except.bind]
    rfl
  · simp [PCCD.overlap]
  · simp [PCCD.overlap, expansion, hd, hs, hp, PCCD.selectRows, bind, Except.bind, pure, Except.pure, amplitudes]
  · simp [PCCD.dOverlap, expansion, hd, hs, hp, PCCD.selectRows, bind, Except.bind, pure, Except.pure, dAmplitudes]

end Fanpy.Props
