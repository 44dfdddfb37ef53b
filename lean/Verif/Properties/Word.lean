import Verif.SpecWord
import Verif.Lemmas.Word
import Verif.Properties.Bindings

/-! # C75: counting layouts with machine words -/

namespace Ms.Properties
open Ms Ms.Spec

theorem linked_blocks {n : Nat} {g : Board} (hl : ∀ p, IsNumber g p → LinkedAtMost n g p) {S : Sys}
    (hS : refreshMatrixs g = some S) {B : Block} (hB : B ∈ S) : B.x.length ≤ n := by
  obtain ⟨S', h1, h⟩ := refreshMatrixs_spec g
  rw [hS] at h1
  cases h1
  have hnd : B.x.Nodup := by
    have := h.nodup
    unfold sysCells at this
    rw [List.nodup_flatMap] at this
    exact this.1 B hB
  cases hx : B.x with
  | nil => simp
  | cons a l =>
    have ha : a ∈ B.x := by rw [hx]; simp
    obtain ⟨p, hp, hpa⟩ := (h.cells a).mp (mem_sysCells.mpr ⟨B, hB, ha⟩)
    have hpa' := mem_unknownsOf.mp hpa
    have hnum := (mem_numberCells.mp hp).1
    have := hl p hnum B.x hnd fun b hb => ⟨a, hpa'.1, hpa'.2, (shares_iff_block h hB ha).mpr hb⟩
    rw [hx] at this
    exact this

theorem Marking.linked {r c n : Nat} {u h : Board} {bn bi en : List Pos} (M : Marking r c u h bn bi en) (hu : Rect u r c)
    (hr : 0 < r) {p : Pos} (hre : LinkedAtMost n u p) : LinkedAtMost n h p := by
  intro l hl hq
  apply hre l hl
  intro q hql
  obtain ⟨a, h1, h2, h3⟩ := hq q hql
  exact ⟨a, ((M.covered hu hr a).mp h1).1, h2, M.shares hu hr h3⟩

/-- **C75** On machines with 64-bit words no count of the enumeration engine ever wraps, on any board whatsoever and for any
mine number: `cal_possibility`, `cal_possibility_onboard` and `solve_enumerate` return what they would return with
unbounded numbers.  (So C29, C32, C68, which are about unbounded numbers, hold of the machine.) -/
theorem C75_native (g : Board) (minenum : ℚ) (S : Sys) :
    calPossibilityW word64 g minenum = calPossibility g minenum ∧
    calPossibilityOnboardW word64 g minenum = calPossibilityOnboard g minenum ∧
    solveEnumerateW word64 S = solveEnumerate S := by
  have hp : ∀ n, n ≤ ENUM_LIMIT → 8 * 2 ^ n < word64 ∧ 2 ^ n * n < word64 := by
    intro n hn
    have h1 : 2 ^ n ≤ 2 ^ 55 := Nat.pow_le_pow_right (by omega) hn
    have h2 : 2 ^ n * n ≤ 2 ^ 55 * 55 := Nat.mul_le_mul h1 hn
    unfold word64
    omega
  exact ⟨calPossibilityW_eq fun _ _ B _ hB => (hp _ hB).1, calPossibilityOnboardW_eq fun _ _ B _ hB => (hp _ hB).1,
    solveEnumerateW_eq fun B _ hB => hp _ hB⟩

/-- **C75** With the 32-bit words of the wasm target the same holds on boards on which no number is linked to more than 28
covered cells. -/
theorem C75_small_partial (g : Board) (hl : ∀ p, IsNumber g p → LinkedAtMost 28 g p) (minenum : ℚ) :
    calPossibilityW word32 g minenum = calPossibility g minenum ∧
    calPossibilityOnboardW word32 g minenum = calPossibilityOnboard g minenum := by
  have hp : ∀ S, refreshMatrixs g = some S → ∀ B ∈ S, B.x.length ≤ ENUM_LIMIT → 8 * 2 ^ B.x.length < word32 := by
    intro S hS B hB _
    have h1 : 2 ^ B.x.length ≤ 2 ^ 28 := Nat.pow_le_pow_right (by omega) (linked_blocks hl hS hB)
    unfold word32
    omega
  exact ⟨calPossibilityW_eq hp, calPossibilityOnboardW_eq hp⟩

/-- **C75** And `solve_enumerate` with 32-bit words answers as with unbounded numbers when no block has more than 27 cells. -/
theorem C75_enumerate_partial (S : Sys) (hl : ∀ B ∈ S, B.x.length ≤ 27) : solveEnumerateW word32 S = solveEnumerate S := by
  refine solveEnumerateW_eq fun B hB _ => ?_
  have h1 : 2 ^ B.x.length ≤ 2 ^ 27 := Nat.pow_le_pow_right (by omega) (hl B hB)
  have h2 : 2 ^ B.x.length * B.x.length ≤ 2 ^ 27 * 27 := Nat.mul_le_mul h1 (hl B hB)
  unfold word32
  omega

/-- **C75** The wasm function with its 32-bit words: on a board that some layout with the given number of mines explains and
on which no number is linked to more than 28 covered cells, every entry is exact: 1 on marked mines, the share of the layouts
that have a mine there on covered cells, 0 elsewhere. -/
theorem C75_wasm_partial (g : Board) (r c : Nat) (hrect : Rect g r c) (hr : 0 < r) (hv : Shown g)
    (hl : ∀ p, IsNumber g p → LinkedAtMost 28 g p) (hc : ∃ σ, Consistent g σ) (m n : Nat) (hn : 1 ≤ n)
    (hm : m + (markedSet g).card = n) (hne : (layouts g m).Nonempty) :
    ∃ P rng, wasmCalPossibilityOnboardW word32 g n = some (P, rng) ∧ P.length = r ∧ (∀ l ∈ P, l.length = c) ∧
      ∀ i j, i < r → j < c → (P.getD i []).getD j none =
        if g.get i j = 11 then some 1 else if g.get i j = 10 then chance g m (i, j) else some 0 := by
  have hre : ∀ p, IsNumber g p → InReach g p := fun p hp l h1 h2 => (hl p hp l h1 h2).trans (by omega)
  have heq : wasmCalPossibilityOnboardW word32 g n = wasmCalPossibilityOnboard g n := by
    obtain ⟨h, bn, bi, en, hmk, M⟩ := markBoard_marking hrect hr hc
    unfold wasmCalPossibilityOnboardW wasmCalPossibilityOnboard
    rw [hmk]
    simp only
    rw [(C75_small_partial h (fun p hp => Marking.linked M hrect hr (hl p ((M.number hrect hr p).mp hp))) _).2]
    rfl
  have h1 : (1 : ℚ) ≤ n := by exact_mod_cast hn
  obtain ⟨lo, hi, e1, e2, -, e4⟩ := C68_matrix_partial g r c hrect hr hv hre hc (n : ℚ)
  have hML : MinesLeft g (n : ℚ) lo hi m := by
    unfold MinesLeft
    rw [if_pos h1, Int.floor_natCast]
    exact_mod_cast hm
  obtain ⟨P, rng, -, p2, -, p4, p5, p6⟩ := e4 m hML (e1.2 hne) (fun h => absurd h (not_lt.mpr h1))
  refine ⟨P, rng, ?_, p4, p5, fun i j hi hj => (p6 i j hi hj).1 hne⟩
  rw [heq]
  exact p2 (n : Int) (by simp)

/-- Seven fours along the diagonal of a covered 15 × 15 board: neighbours share a corner, 50 cells are linked. -/
def diagSample : Board := (List.range 15).map fun i => (List.range 15).map fun j => if i % 2 = 1 ∧ i = j then 4 else 10

/-- A layout of 60 mines on it: the crosses around the fours, and 32 mines away from them. -/
def diagMines : Finset Pos :=
  ((List.range 15).flatMap fun i => ((List.range 15).filter fun j =>
    decide ((i % 2 + j % 2 = 1 ∧ (i = j + 1 ∨ j = i + 1)) ∨ (i ≤ 1 ∧ 3 ≤ j) ∨ (i = 14 ∧ j ≤ 7))).map fun j => (i, j)).toFinset

theorem reach_of_blocks {g : Board} (h : ((refreshMatrixs g).all fun S => S.all fun B => B.x.length ≤ 55) = true) (p : Pos)
    (hp : IsNumber g p) : InReach g p := by
  obtain ⟨S, h1, hs⟩ := refreshMatrixs_spec g
  rw [h1] at h
  by_cases hq : ∃ q, IsCovered g q ∧ Near p q
  · obtain ⟨q, hq1, hq2⟩ := hq
    have hqm := mem_unknownsOf.mpr ⟨hq1, hq2⟩
    obtain ⟨B, hB, hall⟩ := hs.linked p (mem_numberCells.mpr ⟨hp, q, hq1, hq2⟩)
    refine (inReach_iff hs hB hqm hp (hall q hqm)).mpr ?_
    have h2 : ∀ B ∈ S, B.x.length ≤ 55 := by simpa using h
    exact h2 B hB
  · intro l _ hall
    cases l with
    | nil => simp
    | cons b l =>
      obtain ⟨a, ha, hpa, -⟩ := hall b (by simp)
      exact absurd ⟨a, ha, hpa⟩ hq

set_option maxRecDepth 100000 in
theorem diag_explained : Rect diagSample 15 15 ∧ Shown diagSample ∧ (∀ p, IsNumber diagSample p → InReach diagSample p) ∧
    (∃ σ, Consistent diagSample σ) ∧ (layouts diagSample 60).Nonempty ∧ markedSet diagSample = ∅ := by
  have hcons : Consistent diagSample (fun q => decide (q ∈ diagMines)) := by
    intro p hp
    have hg : p ∈ grid 15 15 := hp.1
    have : ∀ p ∈ grid 15 15, Board.get diagSample p.1 p.2 < 10 →
        Board.get diagSample p.1 p.2 = minesNear diagSample (fun q => decide (q ∈ diagMines)) p := by decide +kernel
    exact this p hg hp.2.2
  have hre : ∀ p, IsNumber diagSample p → InReach diagSample p := reach_of_blocks (by decide +kernel)
  refine ⟨⟨by decide +kernel, by decide +kernel⟩, by unfold Shown; decide +kernel, hre, ⟨_, hcons⟩, ⟨diagMines, ?_⟩, by decide +kernel⟩
  refine (layouts_mem hre ⟨_, hcons⟩ 60 _).mpr ⟨?_, by decide +kernel, hcons⟩
  have : ∀ q ∈ diagMines, q ∈ grid 15 15 ∧ Board.get diagSample q.1 q.2 = 10 := by decide +kernel
  exact this

set_option maxRecDepth 100000 in
/-- **C75** Finding: the claim is false of the wasm package.  The board with seven fours along the diagonal and 60 mines is
explained by some layout, and the share of its layouts that have a mine at the corner two fours share is
1302764572/1721507551 = 0.757….  The counts pass `2^32`, and the wasm function reports the "probability"
49158335142102948/30329550791818129 = 1.62…. -/
theorem C75_refuted : (layouts diagSample 60).Nonempty ∧
    chance diagSample 60 (2, 2) = some (1302764572 / 1721507551) ∧
    ((wasmCalPossibilityOnboardW word32 diagSample 60).map fun r => (r.1.getD 2 []).getD 2 none) =
      some (some (49158335142102948 / 30329550791818129)) ∧ (1 : ℚ) < 49158335142102948 / 30329550791818129 := by
  obtain ⟨d1, d2, d3, d4, d5, d6⟩ := diag_explained
  refine ⟨d5, ?_, by decide +kernel, by norm_num⟩
  have hval : ((wasmCalPossibilityOnboard diagSample 60).map fun r => (r.1.getD 2 []).getD 2 none) =
      some (some (1302764572 / 1721507551)) := by decide +kernel
  obtain ⟨lo, hi, e1, e2, -, e4⟩ := C68_matrix_partial diagSample 15 15 d1 (by omega) d2 d3 d4 ((60 : Nat) : ℚ)
  have h1 : (1 : ℚ) ≤ (60 : Nat) := by norm_num
  have hML : MinesLeft diagSample ((60 : Nat) : ℚ) lo hi 60 := by
    unfold MinesLeft
    rw [if_pos h1, Int.floor_natCast, d6]
    simp
  obtain ⟨P, rng, -, p2, -, p4, p5, p6⟩ := e4 60 hML (e1.2 d5) (fun h => absurd h (not_lt.mpr h1))
  have h3 := (p6 2 2 (by omega) (by omega)).1 d5
  rw [if_neg (by decide +kernel), if_pos (by decide +kernel)] at h3
  rw [p2 60 (by simp), Option.map_some] at hval
  rw [← h3]
  exact Option.some.inj hval

/-- A board within the limits of `C75_wasm_partial`: the hypotheses of C68 (there for `markSample`) and few covered cells. -/
example : ∀ p, IsNumber markSample p → LinkedAtMost 28 markSample p := by
  intro p _ l hl hq
  have : l.toFinset ⊆ coveredSet markSample := by
    intro q hq'
    rw [List.mem_toFinset] at hq'
    obtain ⟨a, ha, -, hs⟩ := hq q hq'
    rw [mem_coveredSet]
    cases hs with
    | refl => exact ha
    | tail _ h => exact h.1
  have h2 := Finset.card_le_card this
  rw [List.toFinset_card_of_nodup hl] at h2
  exact h2.trans (by decide +kernel)

end Ms.Properties
