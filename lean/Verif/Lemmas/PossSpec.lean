import Verif.Lemmas.PossCount
import Verif.Lemmas.EnumExact
import Verif.Lemmas.Matrix
import Verif.SpecPoss

/-! # `cal_possibility`: from the tables to the layouts -/

namespace Ms
open Spec BigNumber

/-- The tables with the counts of solutions. -/
def plainTabs (tabs : List (List EnumLine)) : List (List (Nat × Nat)) := tabs.map fun t => t.map fun l => (l.1, l.2.1)

/-- The same with the counts of one merged cell in block `i`. -/
def cellTabs (tabs : List (List EnumLine)) (i c : Nat) : List (List (Nat × Nat)) :=
  (plainTabs tabs).set i ((tabs.getD i []).map fun l => (l.1, l.2.2.getD c 0))

theorem plainTabs_pick (tabs : List (List EnumLine)) (s : List Nat) (j : Nat) :
    pickAt (plainTabs tabs) s j = ((lineAt tabs j (s.getD j 0)).1, (lineAt tabs j (s.getD j 0)).2.1) := by
  unfold pickAt plainTabs lineAt
  simp only [List.getD_eq_getElem?_getD, List.getElem?_map]
  cases tabs[j]? with
  | none => simp
  | some t =>
    simp only [Option.map_some, Option.getD_some, List.getElem?_map]
    cases t[s[j]?.getD 0]? <;> rfl

theorem cellTabs_pick (tabs : List (List EnumLine)) (i c : Nat) (hi : i < tabs.length) (s : List Nat) (j : Nat) :
    pickAt (cellTabs tabs i c) s j = ((lineAt tabs j (s.getD j 0)).1,
      if i = j then (lineAt tabs j (s.getD j 0)).2.2.getD c 0 else (lineAt tabs j (s.getD j 0)).2.1) := by
  by_cases h : i = j
  · subst h
    unfold pickAt cellTabs plainTabs lineAt
    simp only [List.getD_eq_getElem?_getD, List.getElem?_set, List.length_map, hi, if_true, Option.getD_some,
      List.getElem?_map]
    cases (tabs[i]?.getD [])[s[i]?.getD 0]? <;> simp
  · rw [if_neg h, ← plainTabs_pick]
    unfold pickAt cellTabs
    simp only [List.getD_eq_getElem?_getD, List.getElem?_set, h, if_false]

theorem choices_sum (tabs : List (List EnumLine)) (unk : List Nat) (m : Nat) (f : Nat → ℚ) :
    ((possChoices tabs unk m).map fun s => allProd tabs s * f (s.getD tabs.length 0)).sum =
      ((List.range unk.length).map fun u => if unk.getD u 0 ≤ m then
        (waysF (plainTabs tabs) (m - unk.getD u 0) : ℚ) * f u else 0).sum := by
  rw [← product_sum unk f (plainTabs tabs) m]
  unfold possChoices
  rw [sum_map_filter]
  have hl : (plainTabs tabs).length = tabs.length := by simp [plainTabs]
  have hm : (plainTabs tabs).map (fun t => List.range t.length) = tabs.map fun t => List.range t.length := by
    simp [plainTabs, Function.comp_def]
  simp only [plainTabs_pick, hl, hm]
  rfl

theorem choices_sum_cell (tabs : List (List EnumLine)) (unk : List Nat) (m : Nat) (f : Nat → ℚ) (i c : Nat)
    (hi : i < tabs.length) :
    ((possChoices tabs unk m).map fun s => othersProd tabs s i * ((lineAt tabs i (s.getD i 0)).2.2.getD c 0 : Nat) *
        f (s.getD tabs.length 0)).sum =
      ((List.range unk.length).map fun u => if unk.getD u 0 ≤ m then
        (waysF (cellTabs tabs i c) (m - unk.getD u 0) : ℚ) * f u else 0).sum := by
  rw [← product_sum unk f (cellTabs tabs i c) m]
  unfold possChoices
  rw [sum_map_filter]
  have hl : (cellTabs tabs i c).length = tabs.length := by simp [cellTabs, plainTabs]
  have hm : (cellTabs tabs i c).map (fun t => List.range t.length) = tabs.map fun t => List.range t.length := by
    unfold cellTabs plainTabs
    rw [List.map_set]
    apply List.ext_getElem
    · simp
    · intro n h1 h2
      simp only [List.length_map] at h2
      rw [List.getElem_set]
      by_cases h : i = n
      · subst h; simp [List.getD_eq_getElem?_getD, List.getElem?_eq_getElem h2]
      · simp [h]
  simp only [cellTabs_pick tabs i c hi, hl, hm]
  have hprod : ∀ s : List Nat, ((List.range tabs.length).map fun j =>
      (((if i = j then (lineAt tabs j (s.getD j 0)).2.2.getD c 0 else (lineAt tabs j (s.getD j 0)).2.1 : Nat)) : ℚ)).prod =
      othersProd tabs s i * ((lineAt tabs i (s.getD i 0)).2.2.getD c 0 : Nat) := by
    intro s
    unfold othersProd
    have key : ∀ (n : Nat) (F : Nat → ℚ) (x : ℚ), ((List.range n).map fun j => if i = j then x else F j).prod =
        ((List.range n).map fun j => if i ≠ j then F j else 1).prod * if i < n then x else 1 := by
      intro n F x
      induction n with
      | zero => simp
      | succ n ih =>
        rw [List.range_succ, List.map_append, List.prod_append, List.map_append, List.prod_append, ih]
        by_cases h : i = n
        · subst h; simp
        · have : (i < n + 1) ↔ i < n := by omega
          simp only [this, List.map_cons, List.map_nil, List.prod_cons, List.prod_nil, h, ne_eq, not_false_eq_true, if_true, if_false]
          ring
    have e : (fun j => (((if i = j then (lineAt tabs j (s.getD j 0)).2.2.getD c 0 else (lineAt tabs j (s.getD j 0)).2.1 : Nat)) : ℚ)) =
        fun j => if i = j then ((lineAt tabs i (s.getD i 0)).2.2.getD c 0 : ℚ) else ((lineAt tabs j (s.getD j 0)).2.1 : ℚ) := by
      funext j
      by_cases h : i = j
      · subst h; simp
      · simp [h]
    rw [e, key, if_pos hi]
  simp only [hprod]
  rfl

/-! ## choices are well-formed -/

theorem mem_product : ∀ (rs : List (List Nat)) (s : List Nat), s ∈ product rs ↔ List.Forall₂ (fun a r => a ∈ r) s rs := by
  intro rs
  induction rs with
  | nil => intro s; simp [product]
  | cons r rs ih =>
    intro s
    rw [product, List.mem_flatMap]
    constructor
    · rintro ⟨a, ha, hs⟩
      obtain ⟨l, hl, rfl⟩ := List.mem_map.mp hs
      exact .cons ha ((ih l).mp hl)
    · intro h
      cases h with
      | cons h1 h2 => exact ⟨_, h1, List.mem_map.mpr ⟨_, (ih _).mpr h2, rfl⟩⟩

theorem choices_ok (tabs : List (List EnumLine)) (a b m : Nat) : ∀ s ∈ possChoices tabs (rng a b) m,
    ChoiceOK tabs (rng a b) m s := by
  intro s hs
  unfold possChoices at hs
  rw [List.mem_filter, mem_product, decide_eq_true_eq] at hs
  obtain ⟨h1, h2⟩ := hs
  have hlen := h1.length_eq
  simp only [List.length_append, List.length_map, List.length_cons, List.length_nil] at hlen
  have hget : ∀ j, j < tabs.length + 1 → s.getD j 0 ∈
      ((tabs.map fun t => List.range t.length) ++ [List.range (rng a b).length]).getD j [] := by
    intro j hj
    have h3 := List.forall₂_iff_get.mp h1
    have hj2 : j < ((tabs.map fun t => List.range t.length) ++ [List.range (rng a b).length]).length := by simp; omega
    have := h3.2 j (by omega) hj2
    rw [List.getD_eq_getElem?_getD, List.getD_eq_getElem?_getD, List.getElem?_eq_getElem (l := s) (by omega),
      List.getElem?_eq_getElem hj2]
    exact this
  have hlast : s.getD tabs.length 0 < (rng a b).length := by
    have := hget tabs.length (by omega)
    rw [List.getD_eq_getElem?_getD, List.getD_eq_getElem?_getD, List.getElem?_append_right (by simp)] at this
    simpa [List.getD_eq_getElem?_getD] using this
  refine ⟨fun j hj => ?_, hlast, ?_⟩
  · have := hget j (by omega)
    rw [List.getD_eq_getElem?_getD, List.getD_eq_getElem?_getD, List.getElem?_append_left (by simpa using hj),
      List.getElem?_map, List.getElem?_eq_getElem hj] at this
    simpa [List.getD_eq_getElem?_getD, List.getElem?_eq_getElem hj] using this
  · unfold restIndex
    simp only
    generalize ((List.range tabs.length).map (minesIn tabs s)).sum = used at h2 ⊢
    generalize s.getD tabs.length 0 = k at h2 hlast ⊢
    have hr : ∀ i, (h : i < (rng a b).length) → (rng a b)[i] = a + i := by
      intro i h; simp [rng]
    rw [List.getD_eq_getElem?_getD, List.getElem?_eq_getElem hlast, Option.getD_some, hr] at h2
    rw [if_neg (by omega)]
    rw [List.findIdx?_eq_some_iff_getElem]
    refine ⟨hlast, by rw [hr]; simp; omega, fun j hj => ?_⟩
    rw [hr]; simp; omega

/-! ## the range of leftover mines is wide enough -/

theorem rest_sum (unknown m lo hi : Nat) (F : Nat → ℚ)
    (hF : ∀ u, u ≤ unknown → F u ≠ 0 → u ≤ m ∧ lo ≤ m - u ∧ m - u ≤ hi) :
    ((rng (m - min hi m) (min (m - lo) unknown + 1)).map F).sum = ((List.range (unknown + 1)).map F).sum := by
  have hn1 : (rng (m - min hi m) (min (m - lo) unknown + 1)).Nodup := List.nodup_range'
  rw [← List.sum_toFinset _ hn1, ← List.sum_toFinset _ List.nodup_range]
  apply Finset.sum_subset
  · intro u hu
    simp only [rng, List.mem_toFinset, List.mem_range'_1, List.mem_range] at hu ⊢
    omega
  · intro u hu hnot
    simp only [rng, List.mem_toFinset, List.mem_range'_1, List.mem_range] at hu hnot
    by_contra hc
    have := hF u (by omega) hc
    omega

/-- The sum over the leftover mines, as computed with `bigC`. -/
theorem ways_spec (unknown : Nat) : ∀ (unk : List Nat), (∀ k ∈ unk, k ≤ unknown) →
    ∃ ways, unk.mapM (fun k => bigC unknown k) = some ways ∧ ways.length = unk.length ∧
      ∀ u, u < unk.length → (ways.getD u ⟨0, 0⟩).value = unknown.choose (unk.getD u 0) := by
  intro unk
  induction unk with
  | nil => intro _; exact ⟨[], by simp, rfl, fun u hu => by simp at hu⟩
  | cons k unk ih =>
    intro h
    obtain ⟨ways, h1, h2, h3⟩ := ih fun k hk => h k (by simp [hk])
    obtain ⟨c, c1, c2, -⟩ := bigC_spec unknown k (h k (by simp))
    refine ⟨c :: ways, ?_, by simp [h2], fun u hu => ?_⟩
    · rw [List.mapM_cons, c1, h1]; rfl
    · cases u with
      | zero => simpa using c2
      | succ u => simpa using h3 u (by simpa using hu)

/-! ## the tables -/

open Classical in
theorem solutions_eq' (B : Block) (k : Nat) : solutions B k =
    B.x.toFinset.powerset.filter fun A => A.card = k ∧ SolvesB (fun p => decide (p ∈ A)) B := by
  unfold solutions
  congr!

theorem plain_represents {B : Block} {lines : List EnumLine} (h : LinesOK B lines) :
    Represents (lines.map fun l => (l.1, l.2.1)) B.x.toFinset (fun A => SolvesB (fun p => decide (p ∈ A)) B) := by
  refine ⟨?_, ?_, ?_⟩
  · rw [List.map_map]
    exact (h.sorted.imp fun h => Nat.ne_of_lt h)
  · intro l hl
    obtain ⟨l', hl', rfl⟩ := List.mem_map.mp hl
    simp only
    rw [h.count l' hl', solutions_eq']
  · intro A hA hs
    obtain ⟨l, h1, h2⟩ := h.all A.card ⟨A, by
      rw [solutions_eq']
      exact Finset.mem_filter.mpr ⟨Finset.mem_powerset.mpr hA, rfl, hs⟩⟩
    exact ⟨_, List.mem_map.mpr ⟨l, h1, rfl⟩, h2⟩

theorem cell_represents {B : Block} {lines : List EnumLine} (h : LinesOK B lines) {c : Nat} (hc : c < (reps B).length)
    {q : Pos} (hq : q ∈ grpSet B ((reps B).getD c 0)) :
    Represents (lines.map fun l => (l.1, l.2.2.getD c 0)) B.x.toFinset
      (fun A => SolvesB (fun p => decide (p ∈ A)) B ∧ q ∈ A) := by
  refine ⟨?_, ?_, ?_⟩
  · rw [List.map_map]
    exact (h.sorted.imp fun h => Nat.ne_of_lt h)
  · intro l hl
    obtain ⟨l', hl', rfl⟩ := List.mem_map.mp hl
    simp only
    rw [h.cell l' hl' c hc q hq, solutions_eq', Finset.filter_filter]
    congr 1
    ext A
    simp only [Finset.mem_filter]
    tauto
  · intro A hA hs
    obtain ⟨l, h1, h2⟩ := h.all A.card ⟨A, by
      rw [solutions_eq']
      exact Finset.mem_filter.mpr ⟨Finset.mem_powerset.mpr hA, rfl, hs.1⟩⟩
    exact ⟨_, List.mem_map.mpr ⟨l, h1, rfl⟩, h2⟩

theorem lines_min {B : Block} {lines : List EnumLine} (h : LinesOK B lines) (hne : lines ≠ []) :
    ∃ lo, (lines.map fun l => l.1).min? = some lo ∧ (∀ l ∈ lines.map (fun l => (l.1, l.2.1)), lo ≤ l.1) ∧
      ∃ l ∈ lines.map (fun l => (l.1, l.2.1)), l.1 = lo ∧ l.2 ≠ 0 := by
  cases lines with
  | nil => exact absurd rfl hne
  | cons l0 ls =>
    have hs := List.pairwise_cons.mp h.sorted
    have hle : ∀ l ∈ l0 :: ls, l0.1 ≤ l.1 := by
      intro l hl
      rcases List.mem_cons.mp hl with rfl | hl
      · exact le_rfl
      · exact Nat.le_of_lt (hs.1 _ (List.mem_map.mpr ⟨l, hl, rfl⟩))
    refine ⟨l0.1, ?_, ?_, ⟨_, List.mem_map.mpr ⟨l0, by simp, rfl⟩, rfl, h.ends.1 l0 rfl⟩⟩
    · rw [List.min?_eq_some_iff]
      refine ⟨by simp, fun b hb => ?_⟩
      obtain ⟨l, hl, rfl⟩ := List.mem_map.mp hb
      exact hle l hl
    · intro l hl
      obtain ⟨l', hl', rfl⟩ := List.mem_map.mp hl
      exact hle l' hl'

theorem lines_max {B : Block} {lines : List EnumLine} (h : LinesOK B lines) (hne : lines ≠ []) :
    ∃ hi, (lines.map fun l => l.1).max? = some hi ∧ (∀ l ∈ lines.map (fun l => (l.1, l.2.1)), l.1 ≤ hi) ∧
      ∃ l ∈ lines.map (fun l => (l.1, l.2.1)), l.1 = hi ∧ l.2 ≠ 0 := by
  have hl := List.getLast?_eq_getLast_of_ne_nil hne
  set z := lines.getLast hne with hz
  have hzm : z ∈ lines := List.getLast_mem hne
  have hsplit : lines = lines.dropLast ++ [z] := (List.dropLast_append_getLast hne).symm
  have hle : ∀ l ∈ lines, l.1 ≤ z.1 := by
    intro l hl
    have hs := h.sorted
    rw [hsplit, List.map_append, List.pairwise_append] at hs
    rw [hsplit] at hl
    rcases List.mem_append.mp hl with hl | hl
    · exact Nat.le_of_lt (hs.2.2 _ (List.mem_map.mpr ⟨l, hl, rfl⟩) z.1 (by simp))
    · rw [List.mem_singleton.mp hl]
  refine ⟨z.1, ?_, ?_, ⟨_, List.mem_map.mpr ⟨z, hzm, rfl⟩, rfl, h.ends.2 z hl⟩⟩
  · rw [List.max?_eq_some_iff]
    refine ⟨List.mem_map.mpr ⟨z, hzm, rfl⟩, fun b hb => ?_⟩
    obtain ⟨l, hl, rfl⟩ := List.mem_map.mp hb
    exact hle l hl
  · intro l hl
    obtain ⟨l', hl', rfl⟩ := List.mem_map.mp hl
    exact hle l' hl'

theorem possTables_spec : ∀ (S : Sys), (∀ B ∈ S, EnumOK B) → (∀ B ∈ S, B.x.length ≤ ENUM_LIMIT) →
    (∀ B ∈ S, ∃ σ, SolvesB σ B) →
    ∃ tabs los his, possTables S = some (.ok tabs) ∧ List.Forall₂ (fun t B => t ≠ [] ∧ LinesOK B t) tabs S ∧
      (tabs.mapM fun t => (t.map fun l => l.1).min?) = some los ∧
      (tabs.mapM fun t => (t.map fun l => l.1).max?) = some his ∧
      List.Forall₂ (fun t lo => ∀ l ∈ t, lo ≤ l.1) (plainTabs tabs) los ∧
      List.Forall₂ (fun t hi => ∀ l ∈ t, l.1 ≤ hi) (plainTabs tabs) his ∧
      List.Forall₂ (fun t lo => ∃ l ∈ t, l.1 = lo ∧ l.2 ≠ 0) (plainTabs tabs) los ∧
      List.Forall₂ (fun t lo => ∃ l ∈ t, l.1 = lo ∧ l.2 ≠ 0) (plainTabs tabs) his := by
  intro S
  induction S with
  | nil => intro _ _ _; exact ⟨[], [], [], rfl, .nil, rfl, rfl, .nil, .nil, .nil, .nil⟩
  | cons B S ih =>
    intro h1 h2 h3
    obtain ⟨tabs, los, his, i1, i2, i3, i4, i5, i6, i7, i8⟩ := ih (fun B hB => h1 B (by simp [hB]))
      (fun B hB => h2 B (by simp [hB])) (fun B hB => h3 B (by simp [hB]))
    have hB := h1 B (by simp)
    have hlim : (combine B).x.length ≤ ENUM_LIMIT := by
      rw [combine_eq hB.rect]
      simp only [List.length_map]
      have := h2 B (by simp)
      refine le_trans ?_ this
      have := List.length_filter_le (fun j => decide (∀ i, i < j → sameCol B i j = false)) (List.range B.x.length)
      unfold reps
      exact (List.length_filter_le _ _).trans (by simp)
    rcases enumTable_spec hB.rect hB.nodup hB.covered hB.hit hB.ne hB.weight hB.rhs hlim with ⟨e1, -⟩ | ⟨lines, l0, l1, l2⟩
    · exfalso
      obtain ⟨σ, hσ⟩ := h3 B (by simp)
      have := mem_solutions.mpr ⟨Finset.filter_subset _ _, rfl, solves_setOf hσ⟩
      rw [e1] at this
      simp at this
    · obtain ⟨lo, a1, a2, a3⟩ := lines_min l2 l0
      obtain ⟨hi, b1, b2, b3⟩ := lines_max l2 l0
      refine ⟨lines :: tabs, lo :: los, hi :: his, ?_, .cons ⟨l0, l2⟩ i2, ?_, ?_, .cons a2 i5, .cons b2 i6,
        .cons a3 i7, .cons b3 i8⟩
      · rw [possTables, l1]; simp only [i1]
      · rw [List.mapM_cons, a1, i3]; rfl
      · rw [List.mapM_cons, b1, i4]; rfl

end Ms
