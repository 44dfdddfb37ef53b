import Verif.SpecLearn
import Verif.Properties.Poss
import Verif.Properties.PossOpen
import Verif.Properties.Turn
import Mathlib.Combinatorics.Enumerative.DoubleCounting

/-! # Lemmas for C89 -/

namespace Ms
open Spec Finset

variable {g g' : Board}

theorem mem_layouts {m : Nat} {A : Finset Pos} : A ∈ layouts g m ↔
    A ⊆ coveredSet g ∧ A.card = m ∧ ReachConsistent g fun q => decide (q ∈ A) := by
  classical
  unfold layouts
  rw [Finset.mem_filter, Finset.mem_powerset]

/-- the cells marked as mines since -/
def newMarks (g g' : Board) : Finset Pos := (grid g.row g.col).filter fun p => g.get p.1 p.2 = 10 ∧ g'.get p.1 p.2 = 11

theorem learned_marked (h : Learned g g') : (markedSet g').card = (markedSet g).card + (newMarks g g').card := by
  have hd : Disjoint (markedSet g) (newMarks g g') := by
    rw [Finset.disjoint_left]
    intro p hp hq
    have a := (Finset.mem_filter.mp hp).2
    have b := (Finset.mem_filter.mp hq).2.1
    omega
  rw [← Finset.card_union_of_disjoint hd]
  congr 1
  ext p
  unfold markedSet newMarks
  rw [Finset.mem_union, Finset.mem_filter, Finset.mem_filter, Finset.mem_filter, h.rows, h.cols]
  constructor
  · rintro ⟨a, b⟩
    rcases h.cells p a with e | ⟨e, _⟩
    · exact .inl ⟨a, by omega⟩
    · exact .inr ⟨a, e, b⟩
  · rintro (⟨a, b⟩ | ⟨a, b, c⟩)
    · rcases h.cells p a with e | ⟨e, _⟩
      · exact ⟨a, by omega⟩
      · omega
    · exact ⟨a, c⟩

theorem learned_covered (h : Learned g g') {p : Pos} (hp : IsCovered g' p) : IsCovered g p := by
  obtain ⟨a, b⟩ := hp
  rw [h.rows, h.cols] at a
  refine ⟨a, ?_⟩
  rcases h.cells p a with e | ⟨e, _⟩ <;> omega

theorem learned_number (h : Learned g g') {p : Pos} (hp : IsNumber g p) : IsNumber g' p ∧ g'.get p.1 p.2 = g.get p.1 p.2 := by
  obtain ⟨a, b, c⟩ := hp
  rcases h.cells p a with e | ⟨e, _⟩
  · exact ⟨⟨by rw [h.rows, h.cols]; exact a, by omega, by omega⟩, e⟩
  · omega

theorem learned_minesNear (h : Learned g g') {A : Finset Pos} (hA : A ⊆ coveredSet g') (p : Pos) :
    minesNear g (fun q => decide (q ∈ A ∪ newMarks g g')) p = minesNear g' (fun q => decide (q ∈ A)) p := by
  unfold minesNear
  congr 1
  rw [h.rows, h.cols]
  refine Finset.filter_congr fun q hq => and_congr_right fun _ => ?_
  simp only [decide_eq_true_eq, Finset.mem_union]
  have hA' : q ∈ A → g'.get q.1 q.2 = 10 := fun k => (mem_coveredSet.mp (hA k)).2
  have hN : q ∈ newMarks g g' ↔ g.get q.1 q.2 = 10 ∧ g'.get q.1 q.2 = 11 := by
    unfold newMarks
    rw [Finset.mem_filter]
    exact ⟨fun k => k.2, fun k => ⟨hq, k⟩⟩
  rw [hN]
  rcases h.cells q hq with e | ⟨e, f⟩
  · rw [e]
    constructor
    · rintro (a | ⟨a, b | b⟩)
      · exact .inl a
      · exact .inr ⟨a, b⟩
      · omega
    · rintro (a | ⟨a, b⟩)
      · exact .inl a
      · exact .inr ⟨a, .inl b⟩
  · constructor
    · rintro (a | ⟨a, b | b⟩)
      · omega
      · exact .inr ⟨hA' b, b⟩
      · exact .inl b.2
    · rintro (a | ⟨a, b⟩)
      · exact .inr ⟨e, .inr ⟨e, a⟩⟩
      · exact .inr ⟨e, .inl b⟩

/-- a number all of whose neighbours are known is right on a board that is right -/
theorem finished_right {s : Pos → Bool} (hs : Consistent g s) {p : Pos} (hp : IsNumber g p)
    (hq : ∀ q, Near p q → ¬ IsCovered g q) : g.get p.1 p.2 = minesNear g (fun _ => false) p := by
  rw [hs p hp]
  exact congrArg Nat.cast (Ms.Properties.minesNear_finished (fun ⟨q, a, b⟩ => hq q b a) _ _)

/-- on a board that is right and within reach, the layouts are the possible sets of mines -/
theorem layouts_explain {s : Pos → Bool} (hs : Consistent g s) (hr : ∀ p, IsNumber g p → InReach g p) (m : Nat)
    (A : Finset Pos) : A ∈ layouts g m ↔ Possible g m A :=
  Ms.Properties.layouts_all g hr (fun _ hp hq => finished_right hs hp hq) m A

/-- a possible set of mines of the board with more knowledge, with the new marks, is possible for the board before -/
theorem learned_layout (h : Learned g g') {s : Pos → Bool} (hs : Consistent g' s) (hr : ∀ p, IsNumber g' p → InReach g' p)
    {k : Nat} {A : Finset Pos} (hA : A ∈ layouts g' k) :
    A ∪ newMarks g g' ∈ layouts g (k + (newMarks g g').card) ∧ Disjoint A (newMarks g g') := by
  obtain ⟨h1, h2, h3⟩ := (layouts_explain hs hr k A).mp hA
  have hsub : A ⊆ coveredSet g' := fun q hq => mem_coveredSet.mpr (h1 q hq)
  have hd : Disjoint A (newMarks g g') := by
    rw [Finset.disjoint_left]
    intro p hp hq
    have a := (h1 p hp).2
    have b := (Finset.mem_filter.mp hq).2.2
    omega
  refine ⟨mem_layouts.mpr ⟨?_, ?_, ?_⟩, hd⟩
  · intro q hq
    rcases Finset.mem_union.mp hq with a | a
    · exact mem_coveredSet.mpr (learned_covered h (h1 q a))
    · obtain ⟨b, c, _⟩ := Finset.mem_filter.mp a
      exact mem_coveredSet.mpr ⟨b, c⟩
  · rw [Finset.card_union_of_disjoint hd, h2]
  · intro p hp _ _
    obtain ⟨a, b⟩ := learned_number h hp
    rw [learned_minesNear h hsub, ← b]
    exact h3 p a

theorem learned_consistent (h : Learned g g') {s : Pos → Bool} (hs : Consistent g' s) : ∃ t, Consistent g t := by
  refine ⟨fun q => decide (q ∈ ((coveredSet g').filter fun q => s q = true) ∪ newMarks g g'), fun p hp => ?_⟩
  obtain ⟨a, b⟩ := learned_number h hp
  rw [learned_minesNear h (Finset.filter_subset _ _), ← b, hs p a]
  refine congrArg Nat.cast ?_
  unfold minesNear
  congr 1
  refine Finset.filter_congr fun q hq => and_congr_right fun _ => or_congr_right (and_congr_right fun hc => ?_)
  simp only [decide_eq_true_eq, Finset.mem_filter, mem_coveredSet]
  exact ⟨fun k => ⟨⟨hq, hc⟩, k⟩, fun k => k.2⟩

/-! ### the table of probabilities -/

open Classical in
/-- the layouts with a mine in `q` -/
noncomputable def withMine (g : Board) (m : Nat) (q : Pos) : Finset (Finset Pos) :=
  (layouts g m).filter fun A => g.get q.1 q.2 = 11 ∨ q ∈ A

/-- the table as fractions of the layouts -/
def Fractions (g : Board) (m : Nat) (P : List (List (Option ℚ))) : Prop :=
  ∀ q ∈ grid g.row g.col, cellProb P q = some (((withMine g m q).card : ℚ) / ((layouts g m).card : ℚ))

theorem fractions_of {m : Nat} {P : List (List (Option ℚ))} (hl : (layouts g m).Nonempty)
    (hP : ∀ i j, i < g.row → j < g.col → (P.getD i []).getD j none =
          if g.get i j = 11 then some 1 else if g.get i j = 10 then chance g m (i, j) else some 0) : Fractions g m P := by
  classical
  intro q hq
  have hq' := mem_grid.mp hq
  unfold cellProb
  rw [hP q.1 q.2 hq'.1 hq'.2]
  have hc : ((layouts g m).card : ℚ) ≠ 0 := by
    have := hl.card_pos
    exact_mod_cast this.ne'
  unfold withMine
  by_cases h1 : g.get q.1 q.2 = 11
  · rw [if_pos h1, Finset.filter_true_of_mem fun A _ => .inl h1, div_self hc]
  · rw [if_neg h1]
    by_cases h2 : g.get q.1 q.2 = 10
    · rw [if_pos h2]
      unfold chance
      rw [if_neg (by exact_mod_cast hc)]
      refine congrArg some ?_
      congr 2
      congr 1
      refine Finset.filter_congr fun A _ => ?_
      simp [h1]
    · rw [if_neg h2, Finset.filter_false_of_mem, Finset.card_empty, Nat.cast_zero, zero_div]
      intro A hA k
      rcases k with k | k
      · exact h1 k
      · exact h2 (mem_coveredSet.mp ((mem_layouts.mp hA).1 k)).2

theorem fractions_zero {m : Nat} {P : List (List (Option ℚ))} (hl : (layouts g m).Nonempty) (h : Fractions g m P) {q : Pos}
    (hq : q ∈ grid g.row g.col) : cellProb P q = some 0 ↔ g.get q.1 q.2 ≠ 11 ∧ ∀ A ∈ layouts g m, q ∉ A := by
  classical
  have hc : ((layouts g m).card : ℚ) ≠ 0 := by
    have := hl.card_pos
    exact_mod_cast this.ne'
  rw [h q hq, Option.some_inj, div_eq_zero_iff, or_iff_left hc, Nat.cast_eq_zero, Finset.card_eq_zero]
  unfold withMine
  rw [Finset.filter_eq_empty_iff]
  constructor
  · intro k
    obtain ⟨A, hA⟩ := hl
    exact ⟨fun e => k hA (.inl e), fun A hA e => k hA (.inr e)⟩
  · rintro ⟨a, b⟩ A hA (k | k)
    · exact a k
    · exact b A hA k

theorem fractions_one {m : Nat} {P : List (List (Option ℚ))} (hl : (layouts g m).Nonempty) (h : Fractions g m P) {q : Pos}
    (hq : q ∈ grid g.row g.col) : cellProb P q = some 1 ↔ g.get q.1 q.2 = 11 ∨ ∀ A ∈ layouts g m, q ∈ A := by
  classical
  have hc : ((layouts g m).card : ℚ) ≠ 0 := by
    have := hl.card_pos
    exact_mod_cast this.ne'
  rw [h q hq, Option.some_inj, div_eq_one_iff_eq hc, Nat.cast_inj]
  unfold withMine
  rw [Finset.card_filter_eq_iff]
  constructor
  · intro k
    by_cases e : g.get q.1 q.2 = 11
    · exact .inl e
    · exact .inr fun A hA => (k A hA).resolve_left e
  · rintro (k | k) A hA
    · exact .inl k
    · exact .inr (k A hA)

/-- each layout has `m` mines, and the marked ones -/
theorem fractions_total {m : Nat} {P : List (List (Option ℚ))} (hl : (layouts g m).Nonempty) (h : Fractions g m P) :
    total P g.row g.col = ((m + (markedSet g).card : Nat) : ℚ) := by
  classical
  have hc : ((layouts g m).card : ℚ) ≠ 0 := by
    have := hl.card_pos
    exact_mod_cast this.ne'
  unfold total
  rw [Finset.sum_congr rfl fun q hq => by rw [h q hq]]
  simp only [Option.getD_some]
  rw [← Finset.sum_div, div_eq_iff hc, ← Nat.cast_sum, ← Nat.cast_mul, Nat.cast_inj]
  unfold withMine
  refine Eq.trans ?_ ((Finset.sum_card_bipartiteAbove_eq_sum_card_bipartiteBelow
    (r := fun (q : Pos) (A : Finset Pos) => g.get q.1 q.2 = 11 ∨ q ∈ A) (s := grid g.row g.col) (t := layouts g m)).trans ?_)
  · rfl
  rw [Finset.sum_const_nat (m := m + (markedSet g).card)]
  · ring
  · intro A hA
    obtain ⟨a, b, _⟩ := mem_layouts.mp hA
    rw [← b, add_comm, ← Finset.card_union_of_disjoint]
    · congr 1
      ext q
      unfold markedSet Finset.bipartiteBelow
      rw [Finset.mem_union, Finset.mem_filter, Finset.mem_filter]
      constructor
      · rintro ⟨k, e | e⟩
        · exact .inl ⟨k, e⟩
        · exact .inr e
      · rintro (⟨k, e⟩ | e)
        · exact ⟨k, .inl e⟩
        · exact ⟨(mem_coveredSet.mp (a e)).1, .inr e⟩
    · rw [Finset.disjoint_left]
      intro q hq hq'
      have e := (Finset.mem_filter.mp hq).2
      have f := (mem_coveredSet.mp (a hq')).2
      omega

/-! ### a click -/

variable {h : Board} {c : Pos}

theorem put_minesNear_free {v : Int} (hp : Put g h c v) (hc : IsCovered g c) (hv : v ≠ 10 ∧ v ≠ 11) {A : Finset Pos} (hA : c ∉ A)
    (p : Pos) : minesNear h (fun q => decide (q ∈ A)) p = minesNear g (fun q => decide (q ∈ A)) p := by
  unfold minesNear
  congr 1
  rw [hp.rows, hp.cols]
  refine Finset.filter_congr fun q hq => and_congr_right fun _ => ?_
  simp only [decide_eq_true_eq]
  by_cases e : q = c
  · subst e
    rw [hp.here, hc.2]
    simp [hA, hv.1, hv.2]
  · rw [hp.there q hq e]

theorem put_minesNear_mine (hp : Put g h c 11) (hc : IsCovered g c) (A : Finset Pos) (p : Pos) :
    minesNear h (fun q => decide (q ∈ A)) p = minesNear g (fun q => decide (q ∈ insert c A)) p := by
  unfold minesNear
  congr 1
  rw [hp.rows, hp.cols]
  refine Finset.filter_congr fun q hq => and_congr_right fun _ => ?_
  simp only [decide_eq_true_eq, Finset.mem_insert]
  by_cases e : q = c
  · subst e
    rw [hp.here, hc.2]
    simp
  · rw [hp.there q hq e]
    simp [e]

theorem put_free {k : Nat} (hp : Put g h c k) (hc : IsCovered g c) (hk : k < 9) {m : Nat} {A : Finset Pos} :
    Possible h m A ↔ Possible g m A ∧ c ∉ A ∧ minesNear g (fun q => decide (q ∈ A)) c = k := by
  have hh : h.get c.1 c.2 = k := hp.here
  have hcov : ∀ q, IsCovered h q ↔ IsCovered g q ∧ q ≠ c := by
    intro q
    unfold IsCovered
    rw [hp.rows, hp.cols]
    by_cases e : q = c
    · subst e
      simp only [ne_eq, not_true, and_false, iff_false, not_and, hh]
      omega
    · constructor
      · rintro ⟨a, b⟩; exact ⟨⟨a, by rw [← hp.there q a e]; exact b⟩, e⟩
      · rintro ⟨⟨a, b⟩, _⟩; exact ⟨a, by rw [hp.there q a e]; exact b⟩
  have hnum : ∀ q, q ≠ c → (IsNumber h q ↔ IsNumber g q) := by
    intro q e
    unfold IsNumber
    rw [hp.rows, hp.cols]
    refine and_congr_right fun a => ?_
    rw [hp.there q a e]
  have hnc : IsNumber h c := ⟨by rw [hp.rows, hp.cols]; exact hc.1, by omega, by omega⟩
  unfold Possible
  constructor
  · rintro ⟨a1, a2, a3⟩
    have hcA : c ∉ A := fun k => ((hcov c).mp (a1 c k)).2 rfl
    have hmn := fun p => put_minesNear_free hp hc (by omega) hcA p
    refine ⟨⟨fun q hq => ((hcov q).mp (a1 q hq)).1, a2, fun p hpn => ?_⟩, hcA, ?_⟩
    · have e : p ≠ c := by
        rintro rfl
        have a := hpn.2.2
        have b := hc.2
        omega
      rw [← hmn, ← a3 p ((hnum p e).mpr hpn), hp.there p hpn.1 e]
    · have := a3 c hnc
      rw [hmn, hh] at this
      exact_mod_cast this.symm
  · rintro ⟨⟨a1, a2, a3⟩, hcA, hnear⟩
    have hmn := fun p => put_minesNear_free hp hc (by omega) hcA p
    refine ⟨fun q hq => (hcov q).mpr ⟨a1 q hq, fun e => hcA (e ▸ hq)⟩, a2, fun p hpn => ?_⟩
    rw [hmn]
    by_cases e : p = c
    · subst e
      rw [hnear, hh]
    · have hg := (hnum p e).mp hpn
      rw [← a3 p hg, hp.there p hg.1 e]

theorem put_mine (hp : Put g h c 11) (hc : IsCovered g c) {m : Nat} {A : Finset Pos} :
    Possible h m A ↔ Possible g (m + 1) (insert c A) ∧ c ∉ A := by
  have hh : h.get c.1 c.2 = 11 := hp.here
  have hcov : ∀ q, IsCovered h q ↔ IsCovered g q ∧ q ≠ c := by
    intro q
    unfold IsCovered
    rw [hp.rows, hp.cols]
    by_cases e : q = c
    · subst e
      simp only [ne_eq, not_true, and_false, iff_false, not_and, hh]
      omega
    · constructor
      · rintro ⟨a, b⟩; exact ⟨⟨a, by rw [← hp.there q a e]; exact b⟩, e⟩
      · rintro ⟨⟨a, b⟩, _⟩; exact ⟨a, by rw [hp.there q a e]; exact b⟩
  have hnum : ∀ q, (IsNumber h q ↔ IsNumber g q) := by
    intro q
    unfold IsNumber
    rw [hp.rows, hp.cols]
    refine and_congr_right fun a => ?_
    by_cases e : q = c
    · subst e
      rw [hh, hc.2]
      omega
    · rw [hp.there q a e]
  have hne : ∀ {q}, IsNumber g q → q ≠ c := by
    rintro q hq rfl
    have a := hq.2.2
    have b := hc.2
    omega
  have hmn := fun p => put_minesNear_mine hp hc A p
  unfold Possible
  constructor
  · rintro ⟨a1, a2, a3⟩
    have hcA : c ∉ A := fun k => ((hcov c).mp (a1 c k)).2 rfl
    refine ⟨⟨fun q hq => ?_, by rw [Finset.card_insert_of_notMem hcA, a2], fun p hpn => ?_⟩, hcA⟩
    · rcases Finset.mem_insert.mp hq with rfl | hq
      · exact hc
      · exact ((hcov q).mp (a1 q hq)).1
    · rw [← hmn, ← a3 p ((hnum p).mpr hpn), hp.there p hpn.1 (hne hpn)]
  · rintro ⟨⟨a1, a2, a3⟩, hcA⟩
    rw [Finset.card_insert_of_notMem hcA] at a2
    refine ⟨fun q hq => (hcov q).mpr ⟨a1 q (Finset.mem_insert_of_mem hq), fun e => hcA (e ▸ hq)⟩, by omega, fun p hpn => ?_⟩
    have hg := (hnum p).mp hpn
    rw [hmn, ← a3 p hg, hp.there p hg.1 (hne hg)]

/-- a free cell has at most 8 mines around it -/
theorem minesNear_free_lt {A : Finset Pos} (hc : IsCovered g c) (hA : c ∉ A) : minesNear g (fun q => decide (q ∈ A)) c < 9 := by
  have h1 : ((grid g.row g.col).filter fun q =>
      Near c q ∧ (g.get q.1 q.2 = 11 ∨ (g.get q.1 q.2 = 10 ∧ decide (q ∈ A) = true))) ⊆
      ((block g.row g.col c.1 c.2).toFinset).erase c := by
    intro q hq
    obtain ⟨a, b, d⟩ := Finset.mem_filter.mp hq
    rw [Finset.mem_erase, List.mem_toFinset, mem_block_near]
    refine ⟨?_, a, b⟩
    rintro rfl
    have e := hc.2
    rcases d with d | d
    · omega
    · exact hA (of_decide_eq_true d.2)
  have h2 := Finset.card_le_card h1
  have hmem : c ∈ (block g.row g.col c.1 c.2).toFinset := by
    rw [List.mem_toFinset, mem_block_near]; exact ⟨hc.1, near_refl c⟩
  rw [Finset.card_erase_of_mem hmem] at h2
  have h3 := List.toFinset_card_le (block g.row g.col c.1 c.2)
  have h4 := length_block_le g.row g.col c.1 c.2
  refine lt_of_le_of_lt ?_ (show 8 < 9 by omega)
  refine le_trans h2 ?_
  omega

end Ms
