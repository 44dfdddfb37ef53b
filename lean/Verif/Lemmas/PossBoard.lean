import Verif.Lemmas.PossSpec
import Verif.Lemmas.Chain
import Verif.Properties.Matrix

/-! # `cal_possibility` on a board -/

namespace Ms
open Spec BigNumber

theorem block_unique {S : Sys} (hn : (sysCells S).Nodup) {B B' : Block} (hB : B ∈ S) (hB' : B' ∈ S) {a : Pos}
    (h1 : a ∈ B.x) (h2 : a ∈ B'.x) : B = B' := by
  by_contra hne
  unfold sysCells at hn
  rw [List.nodup_flatMap] at hn
  have : Std.Symm (Function.onFun List.Disjoint fun B : Block => B.x) := ⟨fun _ _ h => List.Disjoint.symm h⟩
  have hd := hn.2.forall hB hB' hne
  exact hd h1 h2

theorem block_cells_covered {g : Board} {S : Sys} (h : SysOf g (numberCells g) S) {B : Block} (hB : B ∈ S) {a : Pos}
    (ha : a ∈ B.x) : IsCovered g a := by
  obtain ⟨p, -, hp⟩ := (h.cells a).mp (mem_sysCells.mpr ⟨B, hB, ha⟩)
  exact (mem_unknownsOf.mp hp).1

/-- The cells linked to a cell of a block are exactly the cells of the block. -/
theorem shares_iff_block {g : Board} {S : Sys} (h : SysOf g (numberCells g) S) {B : Block} (hB : B ∈ S) {a b : Pos}
    (ha : a ∈ B.x) : SharesNumbers g a b ↔ b ∈ B.x := by
  constructor
  · intro hs
    induction hs with
    | refl => exact ha
    | tail h1 h2 ih =>
      rename_i c d
      obtain ⟨hd, n, hnum, hna, hnb⟩ := h2
      have hc := block_cells_covered h hB ih
      obtain ⟨B', hB', hall⟩ := h.linked n (mem_numberCells.mpr ⟨hnum, c, hc, hna⟩)
      have := block_unique h.nodup hB hB' ih (hall c (mem_unknownsOf.mpr ⟨hc, hna⟩))
      subst this
      exact hall d (mem_unknownsOf.mpr ⟨hd, hnb⟩)
  · intro hb
    exact h.conn B hB a ha b hb

theorem inReach_iff {g : Board} {S : Sys} (h : SysOf g (numberCells g) S) {B : Block} (hB : B ∈ S) {p q : Pos}
    (hq : q ∈ unknownsOf g p) (hp : IsNumber g p) (hqB : q ∈ B.x) : InReach g p ↔ B.x.length ≤ 55 := by
  have hq' := mem_unknownsOf.mp hq
  have hnd : B.x.Nodup := by
    have := h.nodup
    unfold sysCells at this
    rw [List.nodup_flatMap] at this
    exact this.1 B hB
  constructor
  · intro hr
    exact hr B.x hnd fun b hb => ⟨q, hq'.1, hq'.2, (shares_iff_block h hB hqB).mpr hb⟩
  · intro hl l hn hall
    refine le_trans ?_ hl
    refine (List.Nodup.subperm hn ?_).length_le
    intro b hb
    obtain ⟨a, ha, hpa, hs⟩ := hall b hb
    have haB : a ∈ B.x := by
      have : SharesNumbers g q a := Relation.ReflTransGen.single ⟨ha, p, hp, hq'.2, hpa⟩
      exact (shares_iff_block h hB hqB).mp this
    exact (shares_iff_block h hB haB).mp hs

/-- The blocks that are enumerated. -/
def smallBlocks (S : Sys) : Sys := S.filter fun B => ¬ ENUM_LIMIT < B.x.length

theorem mem_smallBlocks {S : Sys} {B : Block} : B ∈ smallBlocks S ↔ B ∈ S ∧ B.x.length ≤ 55 := by
  unfold smallBlocks ENUM_LIMIT
  rw [List.mem_filter, decide_eq_true_eq]
  constructor
  · rintro ⟨a, b⟩; exact ⟨a, by omega⟩
  · rintro ⟨a, b⟩; exact ⟨a, by omega⟩

theorem reach_solves {g : Board} {S : Sys} (h : SysOf g (numberCells g) S) {σ : Pos → Bool}
    (hσ : ReachConsistent g σ) : ∀ B ∈ smallBlocks S, SolvesB σ B := by
  intro B hB
  obtain ⟨hB, hl⟩ := mem_smallBlocks.mp hB
  rw [h.seg B hB]
  rintro p hp ⟨q, hq, hqB⟩
  have hnum := (mem_numberCells.mp hp).1
  exact hσ p hnum (mem_numberCells.mp hp).2 ((inReach_iff h hB hq hnum hqB).mpr hl)

theorem reach_iff_solves {g : Board} {S : Sys} (h : SysOf g (numberCells g) S)
    (σ : Pos → Bool) : ReachConsistent g σ ↔ ∀ B ∈ smallBlocks S, SolvesB σ B := by
  refine ⟨reach_solves h, fun hs p hp hq hr => ?_⟩
  have hpn := mem_numberCells.mpr ⟨hp, hq⟩
  obtain ⟨q, hq1, hq2⟩ := hq
  obtain ⟨B, hB, hall⟩ := h.linked p hpn
  have hqm := mem_unknownsOf.mpr ⟨hq1, hq2⟩
  have hBs : B ∈ smallBlocks S := mem_smallBlocks.mpr ⟨hB, (inReach_iff h hB hqm hp (hall q hqm)).mp hr⟩
  exact (h.seg B hB σ).mp (hs B hBs) p hpn ⟨q, hqm, hall q hqm⟩

theorem small_sub {S : Sys} (hn : (sysCells S).Nodup) : (sysCells (smallBlocks S)).Nodup :=
  hn.sublist (by unfold sysCells smallBlocks; exact List.filter_sublist.flatMap _)

theorem small_enumOK {g : Board} {S : Sys} (h : SysOf g (numberCells g) S) (hc : ∃ τ, ReachConsistent g τ) :
    ∀ B ∈ smallBlocks S, EnumOK B := by
  intro B hB
  obtain ⟨τ, hτ⟩ := hc
  have hs := reach_solves h hτ B hB
  have hB := (mem_smallBlocks.mp hB).1
  obtain ⟨g1, g2, g3, g4⟩ := h.good B hB
  refine ⟨g1, ?_, g2, g3, g4, h.weight B hB, fun r hr => ?_⟩
  · have := h.nodup
    unfold sysCells at this
    rw [List.nodup_flatMap] at this
    exact this.1 B hB
  · have h2 := lhs_nonneg τ r.1 B.x (g1 r hr).2
    rw [hs r hr] at h2
    exact h2

/-- The cells that are not enumerated. -/
def otherCells (g : Board) (S : Sys) : Finset Pos := coveredSet g \ (sysCells (smallBlocks S)).toFinset

theorem mem_coveredSet {g : Board} {p : Pos} : p ∈ coveredSet g ↔ IsCovered g p := by
  simp [coveredSet, IsCovered]

theorem small_covered {g : Board} {S : Sys} (h : SysOf g (numberCells g) S) :
    (sysCells (smallBlocks S)).toFinset ⊆ coveredSet g := by
  intro q hq
  rw [List.mem_toFinset] at hq
  obtain ⟨B, hB, hqB⟩ := mem_sysCells.mp hq
  exact mem_coveredSet.mpr (block_cells_covered h (mem_smallBlocks.mp hB).1 hqB)

theorem otherCells_card {g : Board} {S : Sys} (h : SysOf g (numberCells g) S)
    (hv : ∀ p ∈ grid g.row g.col, 0 ≤ g.get p.1 p.2) :
    (otherCells g S).card = inlandCount g +
      ((S.filter fun B => ENUM_LIMIT < B.x.length).map fun B => B.x.length).sum := by
  have e1 := (Properties.refresh_matrixs_counts g hv).1
  have hfr : ∀ q, q ∈ sysCells S ↔ Frontier g q := by
    intro q
    rw [h.cells]
    simp only [mem_numberCells, mem_unknownsOf, Frontier]
    constructor
    · rintro ⟨p, ⟨hp, _⟩, hq, hn⟩; exact ⟨hq, p, hp, hn⟩
    · rintro ⟨hq, p, hp, hn⟩; exact ⟨p, ⟨hp, q, hq, hn⟩, hq, hn⟩
  have hbig : (sysCells (S.filter fun B => ENUM_LIMIT < B.x.length)).length =
      ((S.filter fun B => ENUM_LIMIT < B.x.length).map fun B => B.x.length).sum := by
    unfold sysCells; rw [List.length_flatMap]
  have hperm : (sysCells S).Perm (sysCells (S.filter fun B => ENUM_LIMIT < B.x.length) ++ sysCells (smallBlocks S)) := by
    unfold sysCells smallBlocks
    rw [← List.flatMap_append]
    refine List.Perm.flatMap_right _ ?_
    have := List.filter_append_perm (fun B : Block => decide (ENUM_LIMIT < B.x.length)) S
    refine this.symm.trans ?_
    refine List.Perm.append_left _ ?_
    apply List.Perm.of_eq
    apply List.filter_congr
    intro B _
    rcases Nat.lt_or_ge ENUM_LIMIT B.x.length with h | h
    · simp [h, Nat.not_le.mpr h]
    · simp [h, Nat.not_lt.mpr h]
  have hnd := hperm.nodup_iff.mp h.nodup
  have hsplit : otherCells g S = (coveredSet g \ (sysCells S).toFinset) ∪
      (sysCells (S.filter fun B => ENUM_LIMIT < B.x.length)).toFinset := by
    ext q
    simp only [otherCells, Finset.mem_sdiff, Finset.mem_union, List.mem_toFinset]
    have hm := hperm.mem_iff (a := q)
    rw [List.mem_append] at hm
    constructor
    · rintro ⟨h1, h2⟩
      by_cases hb : q ∈ sysCells S
      · exact .inr ((hm.mp hb).resolve_right h2)
      · exact .inl ⟨h1, hb⟩
    · rintro (⟨h1, h2⟩ | h1)
      · exact ⟨h1, fun h3 => h2 (hm.mpr (.inr h3))⟩
      · refine ⟨mem_coveredSet.mpr ((hfr q).mp (hm.mpr (.inl h1))).1, fun h3 => ?_⟩
        exact (List.nodup_append.mp hnd).2.2 q h1 q h3 rfl
  rw [hsplit, Finset.card_union_of_disjoint, List.toFinset_card_of_nodup (List.nodup_append.mp hnd).1, hbig, e1]
  · congr 1
    rw [← Set.ncard_coe_finset]
    congr 1
    ext q
    simp [mem_coveredSet, hfr]
  · rw [Finset.disjoint_left]
    intro q h1 h2
    simp only [Finset.mem_sdiff, List.mem_toFinset] at h1 h2
    exact h1.2 (hperm.mem_iff.mpr (List.mem_append.mpr (.inl h2)))

/-- The blocks as sets of cells with their constraint. -/
def famOf (S : Sys) : List (Finset Pos × (Finset Pos → Prop)) :=
  S.map fun B => (B.x.toFinset, fun A => SolvesB (fun p => decide (p ∈ A)) B)

theorem famOf_union (S : Sys) : unionL ((famOf S).map fun x => x.1) = (sysCells S).toFinset := by
  ext q
  simp only [mem_unionL, famOf, List.map_map, List.mem_map, Function.comp_def, List.mem_toFinset, mem_sysCells]
  constructor
  · rintro ⟨G, ⟨B, hB, rfl⟩, hq⟩; exact ⟨B, hB, by simpa using hq⟩
  · rintro ⟨B, hB, hq⟩; exact ⟨_, ⟨B, hB, rfl⟩, by simpa using hq⟩

theorem famOf_disjoint {S : Sys} (hn : (sysCells S).Nodup) : ((famOf S).map fun x => x.1).Pairwise Disjoint := by
  unfold famOf
  rw [List.map_map, List.pairwise_map]
  unfold sysCells at hn
  rw [List.nodup_flatMap] at hn
  refine hn.2.imp fun {B B'} h => ?_
  simp only [Function.comp_def]
  rw [Finset.disjoint_left]
  intro a h1 h2
  rw [List.mem_toFinset] at h1 h2
  exact h h1 h2

theorem solvesB_inter (B : Block) (A : Finset Pos) :
    SolvesB (fun p => decide (p ∈ A ∩ B.x.toFinset)) B ↔ SolvesB (fun p => decide (p ∈ A)) B := by
  apply solvesB_congr
  intro p hp
  simp [hp]

theorem forall₂_set {β γ : Type} {R : β → γ → Prop} {l : List β} {l' : List γ} (h : List.Forall₂ R l l') (i : Nat)
    {a : β} {b : γ} (hab : R a b) : List.Forall₂ R (l.set i a) (l'.set i b) := by
  induction h generalizing i with
  | nil => simp
  | cons h1 h2 ih =>
    cases i with
    | zero => exact .cons hab h2
    | succ i => exact .cons h1 (ih i)

theorem represents_all {tabs : List (List EnumLine)} {S : Sys}
    (h : List.Forall₂ (fun t B => t ≠ [] ∧ LinesOK B t) tabs S) :
    List.Forall₂ (fun t (x : Finset Pos × (Finset Pos → Prop)) => Represents t x.1 x.2) (plainTabs tabs) (famOf S) := by
  induction h with
  | nil => exact .nil
  | cons h1 _ ih => exact .cons (plain_represents h1.2) ih

open Classical in
/-- The layouts, counted block by block. -/
theorem layouts_eq {g : Board} {S : Sys} (h : SysOf g (numberCells g) S) (m : Nat) :
    layouts g m = ((otherCells g S ∪ unionL ((famOf (smallBlocks S)).map fun x => x.1)).powerset.filter fun A =>
      A.card = m ∧ True ∧ ∀ x ∈ famOf (smallBlocks S), x.2 (A ∩ x.1)) := by
  unfold layouts
  have hU : otherCells g S ∪ unionL ((famOf (smallBlocks S)).map fun x => x.1) = coveredSet g := by
    rw [famOf_union, otherCells, Finset.sdiff_union_of_subset (small_covered h)]
  rw [hU]
  ext A
  simp only [Finset.mem_filter, true_and, reach_iff_solves h]
  refine and_congr_right fun _ => and_congr_right fun _ => ?_
  unfold famOf
  simp only [List.forall_mem_map, solvesB_inter]

open Classical in
theorem layouts_filter_eq {g : Board} {S : Sys} (h : SysOf g (numberCells g) S) (m : Nat)
    {i : Nat} {B : Block} (hi : (smallBlocks S)[i]? = some B) {q : Pos} (hq : q ∈ B.x) :
    (layouts g m).filter (fun A => q ∈ A) =
      ((otherCells g S ∪ unionL (((famOf (smallBlocks S)).set i
        (B.x.toFinset, fun A => SolvesB (fun p => decide (p ∈ A)) B ∧ q ∈ A)).map fun x => x.1)).powerset.filter fun A =>
      A.card = m ∧ True ∧ ∀ x ∈ (famOf (smallBlocks S)).set i
        (B.x.toFinset, fun A => SolvesB (fun p => decide (p ∈ A)) B ∧ q ∈ A), x.2 (A ∩ x.1)) := by
  rw [layouts_eq h]
  obtain ⟨hil, hib⟩ := List.getElem?_eq_some_iff.mp hi
  have hmap : (((famOf (smallBlocks S)).set i
      (B.x.toFinset, fun A => SolvesB (fun p => decide (p ∈ A)) B ∧ q ∈ A)).map fun x => x.1) =
      (famOf (smallBlocks S)).map fun x => x.1 := by
    rw [List.map_set]
    apply List.ext_getElem
    · simp
    · intro n h1 h2
      rw [List.getElem_set]
      split
      · rename_i h; subst h
        simp [famOf, hib]
      · rfl
  rw [hmap, Finset.filter_filter]
  ext A
  simp only [Finset.mem_filter, true_and]
  refine and_congr_right fun _ => ?_
  rw [and_assoc]
  refine and_congr_right fun _ => ?_
  constructor
  · rintro ⟨h1, h2⟩ x hx
    obtain ⟨n, hn, rfl⟩ := List.getElem_of_mem hx
    rw [List.getElem_set]
    split
    · have := h1 _ (List.getElem_mem (l := famOf (smallBlocks S)) (n := i) (by simpa [famOf] using hil))
      simp only [famOf, List.getElem_map, hib] at this
      exact ⟨this, by simp [h2, hq]⟩
    · exact h1 _ (List.getElem_mem _)
  · intro h1
    have hself := h1 _ (List.getElem_mem (l := (famOf (smallBlocks S)).set i
        (B.x.toFinset, fun A => SolvesB (fun p => decide (p ∈ A)) B ∧ q ∈ A)) (n := i) (by simpa [famOf] using hil))
    rw [List.getElem_set_self] at hself
    refine ⟨fun x hx => ?_, by simpa [hq] using hself.2⟩
    obtain ⟨n, hn, rfl⟩ := List.getElem_of_mem hx
    by_cases hni : i = n
    · subst hni
      simp only [famOf, List.getElem_map, hib]
      exact hself.1
    · have := h1 _ (List.getElem_mem (l := (famOf (smallBlocks S)).set i
        (B.x.toFinset, fun A => SolvesB (fun p => decide (p ∈ A)) B ∧ q ∈ A)) (n := n) (by simpa using hn))
      rw [List.getElem_set_ne hni] at this
      exact this

open Classical in
theorem layouts_filter_rest {g : Board} {S : Sys} (h : SysOf g (numberCells g) S)
    (m : Nat) {q : Pos} (hq : q ∈ otherCells g S) :
    (layouts g m).filter (fun A => q ∈ A) =
      ((otherCells g S ∪ unionL ((famOf (smallBlocks S)).map fun x => x.1)).powerset.filter fun A =>
      A.card = m ∧ q ∈ A ∩ otherCells g S ∧ ∀ x ∈ famOf (smallBlocks S), x.2 (A ∩ x.1)) := by
  rw [layouts_eq h, Finset.filter_filter]
  ext A
  simp only [Finset.mem_filter, true_and, Finset.mem_inter, hq, and_true]
  tauto

theorem other_disjoint (g : Board) (S : Sys) :
    Disjoint (otherCells g S) (unionL ((famOf (smallBlocks S)).map fun x => x.1)) := by
  rw [famOf_union, otherCells]
  exact Finset.sdiff_disjoint

end Ms
