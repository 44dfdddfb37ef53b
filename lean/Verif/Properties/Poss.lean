import Verif.Lemmas.PossMain
import Verif.Properties.Enum

/-! # C32: the probability engine

`layouts g m` (SpecPoss.lean) are the sets of exactly `m` covered cells that, taken as mines, give every shown number
the right number of mines around it; `chance g m q` is the fraction of them that contain `q`, `none` (NaN) when there
is no such layout.  Numbers whose linked covered cells exceed the enumeration limit (55) are ignored by the engine and
by `layouts` (`InReach`); `layouts_all` states that without such numbers `layouts` means what it should. -/

namespace Ms.Properties
open Ms Ms.Spec BigNumber

/-- How many unmarked mines `cal_possibility` takes the board to have: the given number (rounded down) less the marked
mines; or, if the number is below 1, that share of all cells (rounded down) less the marked mines, moved into the
range of mine numbers the board allows. -/
def MinesLeft (g : Board) (minenum : ℚ) (lo hi m : Nat) : Prop :=
  if 1 ≤ minenum then (m : ℤ) + (markedSet g).card = ⌊minenum⌋
  else (markedSet g).card ≤ ⌊((g.row * g.col : Nat) : ℚ) * minenum⌋.toNat ∧
    m = min (max (⌊((g.row * g.col : Nat) : ℚ) * minenum⌋.toNat - (markedSet g).card) lo) hi

theorem markedCount_card (g : Board) : markedCount g = (markedSet g).card := by
  unfold markedCount markedSet
  rw [← List.toFinset_card_of_nodup ((nodup_cells _ _).filter _)]
  congr 1
  ext q
  simp [mem_cells, grid]

theorem mem_small_fringe {g : Board} {S : Sys} (h : SysOf g (numberCells g) S) (q : Pos) :
    q ∈ sysCells (smallBlocks S) ↔ Fringe g q := by
  constructor
  · intro hq
    obtain ⟨B, hB, hqB⟩ := mem_sysCells.mp hq
    obtain ⟨hB, hl⟩ := mem_smallBlocks.mp hB
    obtain ⟨p, hp, hpq⟩ := (h.cells q).mp (mem_sysCells.mpr ⟨B, hB, hqB⟩)
    have hn := (mem_numberCells.mp hp).1
    obtain ⟨h1, h2⟩ := mem_unknownsOf.mp hpq
    exact ⟨h1, p, hn, (inReach_iff h hB hpq hn hqB).mpr hl, h2⟩
  · rintro ⟨h1, p, hp, hr, hn⟩
    have hq := mem_unknownsOf.mpr ⟨h1, hn⟩
    obtain ⟨B, hB, hall⟩ := h.linked p (mem_numberCells.mpr ⟨hp, q, h1, hn⟩)
    exact mem_sysCells.mpr ⟨B, mem_smallBlocks.mpr ⟨hB, (inReach_iff h hB hq hp (hall q hq)).mp hr⟩, hall q hq⟩

theorem mem_otherCells {g : Board} {S : Sys} (h : SysOf g (numberCells g) S) (q : Pos) :
    q ∈ otherCells g S ↔ IsCovered g q ∧ ¬ Fringe g q := by
  rw [otherCells, Finset.mem_sdiff, mem_coveredSet, List.mem_toFinset, mem_small_fringe h]

theorem foldr_max_ge {S : Sys} {B : Block} (h : B ∈ S) : B.x.length ≤ S.foldr (fun B n => max n B.x.length) 0 := by
  induction S with
  | nil => simp at h
  | cons A S ih =>
    rw [List.foldr_cons]
    rcases List.mem_cons.mp h with rfl | h
    · exact le_max_right _ _
    · exact (ih h).trans (le_max_left _ _)

theorem foldr_max_mem (S : Sys) : S.foldr (fun B n => max n B.x.length) 0 = 0 ∨
    ∃ B ∈ S, B.x.length = S.foldr (fun B n => max n B.x.length) 0 := by
  induction S with
  | nil => left; rfl
  | cons A S ih =>
    rw [List.foldr_cons]
    rcases Nat.le_total (S.foldr (fun B n => max n B.x.length) 0) A.x.length with h | h
    · rw [max_eq_right h]; right; exact ⟨A, by simp, rfl⟩
    · rw [max_eq_left h]
      rcases ih with ih | ⟨B, hB, e⟩
      · left; exact ih
      · right; exact ⟨B, by simp [hB], e⟩

theorem longest_spec {g : Board} {S : Sys} (h : SysOf g (numberCells g) S) :
    IsGreatest {n | ∃ l : List Pos, l.Nodup ∧ l.length = n ∧ (∀ a ∈ l, Frontier g a) ∧
      ∀ a ∈ l, ∀ b ∈ l, SharesNumbers g a b} (S.foldr (fun B n => max n B.x.length) 0) := by
  have hfr : ∀ q, q ∈ sysCells S ↔ Frontier g q := by
    intro q
    rw [h.cells]
    simp only [mem_numberCells, mem_unknownsOf, Frontier]
    constructor
    · rintro ⟨p, ⟨hp, _⟩, hq, hn⟩; exact ⟨hq, p, hp, hn⟩
    · rintro ⟨hq, p, hp, hn⟩; exact ⟨p, ⟨hp, q, hq, hn⟩, hq, hn⟩
  constructor
  · rcases foldr_max_mem S with e | ⟨B, hB, e⟩
    · rw [e]; exact ⟨[], by simp, rfl, by simp, by simp⟩
    · refine ⟨B.x, ?_, e, fun a ha => (hfr a).mp (mem_sysCells.mpr ⟨B, hB, ha⟩), h.conn B hB⟩
      have := h.nodup
      unfold sysCells at this
      rw [List.nodup_flatMap] at this
      exact this.1 B hB
  · rintro n ⟨l, hl, rfl, hf, hs⟩
    cases l with
    | nil => simp
    | cons a l =>
      obtain ⟨B, hB, haB⟩ := mem_sysCells.mp ((hfr a).mpr (hf a (by simp)))
      refine le_trans ?_ (foldr_max_ge hB)
      exact (hl.subperm fun b hb => (shares_iff_block h hB haB).mp (hs a (by simp) b hb)).length_le

/-- C32: the probability engine is exact (up to floating point rounding).  On every board that some layout explains
there are a least and a greatest number `lo`, `hi` of mines on its covered cells; if `minenum` leaves `m` mines, then

* with `m < lo` the engine returns `Err(3)`;
* otherwise it returns `Ok`: every covered cell next to a number (within reach) is listed exactly once, with exactly
  the fraction of all layouts of `m` mines that have a mine there; the single number for the other covered cells is that
  fraction for each of them (NaN if there is none); the three mine numbers are the least possible total, the total used,
  and an upper bound that is the greatest possible total whenever `m` mines fit next to the numbers; the last component
  is the size of the largest group of linked cells. -/
theorem cal_possibility_exact (g : Board) (hne : g ≠ []) (hv : ∀ p ∈ grid g.row g.col, 0 ≤ g.get p.1 p.2)
    (hc : ∃ τ, ReachConsistent g τ) (minenum : ℚ) :
    ∃ lo hi, IsLeast {k | (layouts g k).Nonempty} lo ∧ IsGreatest {k | (layouts g k).Nonempty} hi ∧
    ∀ m, MinesLeft g minenum lo hi m →
      (m < lo → calPossibility g minenum = some (.error 3)) ∧
      (lo ≤ m → ∃ r, calPossibility g minenum = some (.ok r) ∧
        (r.front.map fun e => e.1).Nodup ∧ (∀ q, q ∈ (r.front.map fun e => e.1) ↔ Fringe g q) ∧
        (∀ e ∈ r.front, e.2 = chance g m e.1) ∧
        (∀ q, IsCovered g q → ¬ Fringe g q → r.rest = chance g m q) ∧
        ((∀ q, IsCovered g q → Fringe g q) → r.rest = none) ∧
        r.range = (lo + (markedSet g).card, m + (markedSet g).card,
          min hi (m + Set.ncard {q | IsCovered g q ∧ ¬ Fringe g q}) + (markedSet g).card) ∧
        IsGreatest {n | ∃ l : List Pos, l.Nodup ∧ l.length = n ∧ (∀ a ∈ l, Frontier g a) ∧
          ∀ a ∈ l, ∀ b ∈ l, SharesNumbers g a b} r.longest) := by
  obtain ⟨S, s1, h⟩ := refreshMatrixs_spec g
  obtain ⟨tabs, los, his, t1, t2, t3, t4, t5, hlh, t6⟩ := poss_main h hc
  have hcard := otherCells_card h hv
  have hnc : Set.ncard {q | IsCovered g q ∧ ¬ Fringe g q} = (otherCells g S).card := by
    rw [← Set.ncard_coe_finset]
    congr 1
    ext q
    simp [mem_otherCells h]
  have hcf : ∀ (m : Nat), MinesLeft g minenum los.sum (his.sum + (otherCells g S).card) m →
      possTotal g minenum (markedCount g) los.sum his.sum (otherCells g S).card = some (.ok m) := by
    intro m hm
    unfold MinesLeft at hm
    unfold possTotal
    rw [markedCount_card]
    by_cases h1 : 1 ≤ minenum
    · rw [if_pos h1] at hm
      rw [if_neg (not_lt.mpr h1), if_neg (by omega)]
      congr 2
      omega
    · rw [if_neg h1] at hm
      rw [if_pos (not_le.mp h1)]
      simp only
      rw [if_neg (by omega), hm.2]
  refine ⟨los.sum, his.sum + (otherCells g S).card, t4, t5, fun m hm => ?_⟩
  have hpt := hcf m hm
  have hlim : (S.filter fun B => ¬ ENUM_LIMIT < B.x.length) = smallBlocks S := rfl
  constructor
  · intro hlt
    unfold calPossibility
    rw [if_neg hne]
    simp only [s1, hlim, t1, t2, t3, ← hcard, hpt, Option.pure_def, Option.bind_eq_bind, Option.bind_some]
    rw [if_pos (by omega)]
  · intro hle
    obtain ⟨ways, O, T, ps, u, w1, w2, w3, w4, w5, w6, w7, w8⟩ := t6 m hle
    refine ⟨{
        front := ps.flatten
        rest := if (otherCells g S).card = 0 then none else (u.divBig T).map fun p => p / (otherCells g S).card
        range := (los.sum + markedCount g, m + markedCount g, min his.sum m + markedCount g + (otherCells g S).card)
        longest := S.foldr (fun B n => max n B.x.length) 0 }, ?_, ?_, ?_, w7, ?_, ?_, ?_, longest_spec h⟩
    · unfold calPossibility
      rw [if_neg hne]
      simp only [s1, hlim, t1, t2, t3, ← hcard, hpt, Option.pure_def, Option.bind_eq_bind, Option.bind_some]
      rw [if_neg (by omega), w1]
      simp only [Option.bind_some]
      rw [w2]
      simp only [Option.bind_some]
      rw [w3]
      simp only [Option.bind_some]
      rw [w4]
      simp only [Option.bind_some]
      rw [w5]
      simp only [Option.bind_some]
    · exact w6.nodup_iff.mpr (small_sub h.nodup)
    · intro q
      rw [w6.mem_iff, mem_small_fringe h]
    · intro q h1 h2
      have hq := (mem_otherCells h q).mpr ⟨h1, h2⟩
      simp only
      rw [if_neg (Nat.pos_iff_ne_zero.mp (Finset.card_pos.mpr ⟨q, hq⟩)), w8 q hq]
    · intro hall
      have : otherCells g S = ∅ := by
        rw [Finset.eq_empty_iff_forall_notMem]
        intro q hq
        have := (mem_otherCells h q).mp hq
        exact this.2 (hall q this.1)
      simp [this]
    · rw [markedCount_card, hnc]
      simp only [Prod.mk.injEq, true_and]
      omega

/-- If no group of linked cells is over the enumeration limit and the numbers without covered neighbours are right,
`layouts g m` is what the name says: all sets of `m` covered cells that agree with every shown number. -/
theorem layouts_all (g : Board) (hr : ∀ p, IsNumber g p → InReach g p)
    (hf : ∀ p, IsNumber g p → (∀ q, Near p q → ¬ IsCovered g q) → g.get p.1 p.2 = minesNear g (fun _ => false) p)
    (m : Nat) (A : Finset Pos) :
    A ∈ layouts g m ↔ (∀ q ∈ A, IsCovered g q) ∧ A.card = m ∧ Consistent g fun q => decide (q ∈ A) := by
  classical
  unfold layouts
  rw [Finset.mem_filter, Finset.mem_powerset]
  constructor
  · rintro ⟨h1, h2, h3⟩
    refine ⟨fun q hq => mem_coveredSet.mp (h1 hq), h2, fun p hp => ?_⟩
    by_cases hq : ∃ q, IsCovered g q ∧ Near p q
    · exact h3 p hp hq (hr p hp)
    · rw [hf p hp fun q hn hcv => hq ⟨q, hcv, hn⟩, minesNear_finished hq]
  · rintro ⟨h1, h2, h3⟩
    exact ⟨fun q hq => mem_coveredSet.mpr (h1 q hq), h2, fun p hp _ _ => h3 p hp⟩

/-- Every number of a board with at most 55 covered cells is within reach. -/
theorem inReach_small (g : Board) (h : (coveredSet g).card ≤ 55) (p : Pos) : InReach g p := by
  intro l hl hq
  have : l.toFinset ⊆ coveredSet g := by
    intro q hq'
    rw [List.mem_toFinset] at hq'
    obtain ⟨a, ha, -, hs⟩ := hq q hq'
    rw [mem_coveredSet]
    cases hs with
    | refl => exact ha
    | tail _ h2 => exact h2.1
  have h2 := Finset.card_le_card this
  rw [List.toFinset_card_of_nodup hl] at h2
  omega

theorem glue (S : Sys) (hn : (sysCells S).Nodup) (h : ∀ B ∈ S, ∃ σ, SolvesB σ B) : ∃ τ, ∀ B ∈ S, SolvesB τ B := by
  induction S with
  | nil => exact ⟨fun _ => false, by simp⟩
  | cons B S ih =>
    have hd : ∀ a ∈ B.x, a ∉ sysCells S := by
      unfold sysCells at hn ⊢
      rw [List.flatMap_cons, List.nodup_append] at hn
      exact fun a ha hb => hn.2.2 a ha a hb rfl
    obtain ⟨τ, hτ⟩ := ih (by
      unfold sysCells at hn ⊢
      rw [List.flatMap_cons, List.nodup_append] at hn
      exact hn.2.1) fun B hB => h B (by simp [hB])
    obtain ⟨σ, hσ⟩ := h B (by simp)
    refine ⟨fun q => if q ∈ B.x then σ q else τ q, List.forall_mem_cons.mpr ⟨?_, fun A hA => ?_⟩⟩
    · exact (solvesB_congr fun p hp => by rw [if_pos hp]).mpr hσ
    · exact (solvesB_congr fun p hp => by
        rw [if_neg fun hb => hd p hb (mem_sysCells.mpr ⟨A, hA, hp⟩)]).mpr (hτ A hA)

theorem possTables_unsat : ∀ (S : Sys), (∀ B ∈ S, EnumOK B) → (∀ B ∈ S, B.x.length ≤ ENUM_LIMIT) →
    (∃ B ∈ S, ∀ σ, ¬ SolvesB σ B) → possTables S = some (.error 1) := by
  intro S
  induction S with
  | nil => rintro _ _ ⟨B, hB, _⟩; simp at hB
  | cons B S ih =>
    intro h1 h2 h3
    have hB := h1 B (by simp)
    have hlim : (combine B).x.length ≤ ENUM_LIMIT := by
      rw [combine_eq hB.rect]
      simp only [List.length_map]
      have := h2 B (by simp)
      refine le_trans ?_ this
      unfold reps
      exact (List.length_filter_le _ _).trans (by simp)
    by_cases hs : ∃ σ, SolvesB σ B
    · obtain ⟨lines, l1, -⟩ := enum_table_exact B hB hlim hs
      obtain ⟨A, hA, hAs⟩ := h3
      rcases List.mem_cons.mp hA with rfl | hA
      · exact absurd hs (by push Not; exact hAs)
      · rw [possTables, l1]
        simp only
        rw [ih (fun B hB => h1 B (by simp [hB])) (fun B hB => h2 B (by simp [hB])) ⟨A, hA, hAs⟩]
    · rw [possTables, enum_table_unsat B hB hlim (by push Not at hs; exact hs)]

/-- C32: contradictory boards are refused.  If no number next to a covered cell has more marked mines around it than it
shows, and no layout satisfies all the numbers (within reach) next to covered cells, the engine returns `Err(1)`,
whatever the number of mines. -/
theorem cal_possibility_contradiction (g : Board) (hne : g ≠ [])
    (hr : ∀ p, IsNumber g p → (∃ q, IsCovered g q ∧ Near p q) → (minesNear g (fun _ => false) p : ℤ) ≤ g.get p.1 p.2)
    (hc : ¬ ∃ τ, ReachConsistent g τ) (minenum : ℚ) :
    calPossibility g minenum = some (.error 1) := by
  obtain ⟨S, s1, h⟩ := refreshMatrixs_spec g
  have hok : ∀ B ∈ smallBlocks S, EnumOK B := by
    intro B hB
    have hB := (mem_smallBlocks.mp hB).1
    obtain ⟨g1, g2, g3, g4⟩ := h.good B hB
    refine ⟨g1, ?_, g2, g3, g4, h.weight B hB, fun r hr' => ?_⟩
    · have := h.nodup
      unfold sysCells at this
      rw [List.nodup_flatMap] at this
      exact this.1 B hB
    · obtain ⟨p, hp, ⟨q, hq, -⟩, e⟩ := h.rowOf B hB r hr'
      have h1 := mem_numberCells.mp hp
      have h2 := hr p h1.1 h1.2
      rw [e, rhsOf]
      rw [minesNear_eq] at h2
      have h3 : ((unknownsOf g p).filter fun _ => false) = [] := by simp
      push_cast at h2
      omega
  have hun : ∃ B ∈ smallBlocks S, ∀ σ, ¬ SolvesB σ B := by
    by_contra hcon
    push Not at hcon
    obtain ⟨τ, hτ⟩ := glue _ (small_sub h.nodup) hcon
    exact hc ⟨τ, (reach_iff_solves h τ).mpr hτ⟩
  have hlim : (S.filter fun B => ¬ ENUM_LIMIT < B.x.length) = smallBlocks S := rfl
  unfold calPossibility
  rw [if_neg hne]
  simp only [s1, hlim, possTables_unsat _ hok (fun B hB => (mem_smallBlocks.mp hB).2) hun, Option.pure_def,
    Option.bind_eq_bind, Option.bind_some]

/-- C32: more marked mines than mines is `Err(17)`. -/
theorem cal_possibility_too_few_mines (g : Board) (hne : g ≠ []) (hv : ∀ p ∈ grid g.row g.col, 0 ≤ g.get p.1 p.2)
    (hc : ∃ τ, ReachConsistent g τ) (minenum : ℚ) (h1 : 1 ≤ minenum) (h2 : ⌊minenum⌋ < (markedSet g).card) :
    calPossibility g minenum = some (.error 17) := by
  obtain ⟨S, s1, h⟩ := refreshMatrixs_spec g
  obtain ⟨tabs, los, his, t1, t2, t3, -⟩ := poss_main h hc
  have hcard := otherCells_card h hv
  have hlim : (S.filter fun B => ¬ ENUM_LIMIT < B.x.length) = smallBlocks S := rfl
  unfold calPossibility
  rw [if_neg hne]
  have hpt : possTotal g minenum (markedCount g) los.sum his.sum (otherCells g S).card = some (.error 17) := by
    unfold possTotal
    rw [markedCount_card, if_neg (not_lt.mpr h1), if_pos]
    have : 0 ≤ ⌊minenum⌋ := by rw [Int.floor_nonneg]; linarith
    omega
  simp only [s1, hlim, t1, t2, t3, ← hcard, hpt, Option.pure_def, Option.bind_eq_bind, Option.bind_some]

/-- C32 (finding): but with a density, marked mines in excess of the density make a checked build panic (the
subtraction of the marked mines underflows) instead of returning an error. -/
theorem cal_possibility_density_panics (g : Board) (hne : g ≠ []) (hv : ∀ p ∈ grid g.row g.col, 0 ≤ g.get p.1 p.2)
    (hc : ∃ τ, ReachConsistent g τ) (minenum : ℚ) (h1 : minenum < 1)
    (h2 : ⌊((g.row * g.col : Nat) : ℚ) * minenum⌋.toNat < (markedSet g).card) :
    calPossibility g minenum = none := by
  obtain ⟨S, s1, h⟩ := refreshMatrixs_spec g
  obtain ⟨tabs, los, his, t1, t2, t3, -⟩ := poss_main h hc
  have hcard := otherCells_card h hv
  have hlim : (S.filter fun B => ¬ ENUM_LIMIT < B.x.length) = smallBlocks S := rfl
  unfold calPossibility
  rw [if_neg hne]
  have hpt : possTotal g minenum (markedCount g) los.sum his.sum (otherCells g S).card = none := by
    unfold possTotal
    rw [markedCount_card, if_pos h1]
    simp only
    rw [if_pos h2]
  simp only [s1, hlim, t1, t2, t3, ← hcard, hpt, Option.pure_def, Option.bind_eq_bind, Option.bind_some, Option.bind_none]

end Ms.Properties
