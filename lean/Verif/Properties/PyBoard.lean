import Verif.Properties.Bindings
import Verif.Properties.Hand

/-! # C70: the board classes of the Python and wasm packages -/

namespace Ms.Properties
open Ms Ms.Spec

open Classical in
/-- **C70** `get_game_board_2` of the Python board classes, in every state a game can reach (with correct numbers, at least
one mine, and the numbers shown within the reach of the enumeration), asked with the true mine number: it does not raise, and
returns two matrices of the size of the board.  In the first, a covered cell is -1, a flag -2, any other cell what is shown.
In the second, a cell that shows a number is 0 and any other cell has the exact probability of a mine: the share of the layouts
with that many mines that agree with the numbers shown and have a mine there, whatever the flags.  The game is not changed. -/
theorem C70_game_board_2 {s : MSB} (hs : Reach s) (h0 : 0 < s.row) (hm : 1 ≤ (mines s.board).card)
    (hre : ∀ p, IsNumber (unmark s.gameBoard) p → InReach (unmark s.gameBoard) p) :
    ∃ T1 T2, s.gameBoard2 ((mines s.board).card : ℚ) = some (T1, T2) ∧
      T1.length = s.row ∧ (∀ l ∈ T1, l.length = s.column) ∧ T2.length = s.row ∧ (∀ l ∈ T2, l.length = s.column) ∧
      ∀ i j, i < s.row → j < s.column →
        (T1.getD i []).getD j 0 = (if s.gameBoard.get i j = 10 then -1 else if s.gameBoard.get i j = 11 then -2
          else (s.gameBoard.get i j : ℚ)) ∧
        (T2.getD i []).getD j none = (if s.gameBoard.get i j < 10 then some 0
          else some ((((layouts (unmark s.gameBoard) (mines s.board).card).filter fun A => (i, j) ∈ A).card : ℚ) /
            ((layouts (unmark s.gameBoard) (mines s.board).card).card : ℚ))) := by
  have hcore := hs.inv.core
  have hv := hcore.num
  have hf := faithful_of_core hcore
  have h0' : 0 < s.board.row := by rw [hcore.hrow]; exact h0
  have hcons := faithful_consistent hv hf h0'
  obtain ⟨hu, hug⟩ := unmark_spec s.gameBoard s.row s.column hcore.rect
  have hd := rect_dims hu h0
  have hdg := rect_dims hcore.rect h0
  have hgrid : ∀ p, p ∈ vcells s.board ↔ p ∈ grid s.row s.column := fun p => by rw [hcore.vcells]
  have hl : (layouts (unmark s.gameBoard) (mines s.board).card).Nonempty := by
    refine ⟨mines s.board, (layouts_mem hre ⟨_, hcons⟩ _ _).mpr ⟨fun q hq => ?_, rfl, hcons⟩⟩
    unfold mines at hq
    rw [Finset.mem_filter] at hq
    have hq' := mem_grid.mp ((hgrid q).mp hq.1)
    refine ⟨by rw [hd.1, hd.2]; exact (hgrid q).mp hq.1, ?_⟩
    rw [hug q hq'.1 hq'.2]
    rcases hf.2 q hq.1 with h4 | h4
    · split <;> omega
    · exact absurd hq.2 h4.2
  have hle : ∀ p : Pos, p.1 < s.row → p.2 < s.column → 0 ≤ (unmark s.gameBoard).get p.1 p.2 ∧
      (unmark s.gameBoard).get p.1 p.2 ≤ 10 := by
    intro p h1 h2
    have hp : p ∈ vcells s.board := (hgrid p).mpr (mem_grid.mpr ⟨h1, h2⟩)
    rw [hug p h1 h2]
    rcases hf.2 p hp with h4 | h4
    · split <;> omega
    · have := numbered_range hv hp
      split <;> omega
  have hshown : Shown (unmark s.gameBoard) := by
    intro p hp
    rw [hd.1, hd.2] at hp
    have := mem_grid.mp hp
    exact (hle p this.1 this.2).1
  obtain ⟨h, bn, bi, en, hmk, M⟩ := markBoard_marking hu h0 ⟨_, hcons⟩
  obtain ⟨lo, hi, e1, e2, -, e4⟩ := marked_onboard M hu h0 hshown hre ⟨_, hcons⟩ ((mines s.board).card : ℚ)
  have hno : markedSet (unmark s.gameBoard) = ∅ := by
    unfold markedSet
    rw [Finset.filter_eq_empty_iff]
    intro p hp
    rw [hd.1, hd.2] at hp
    have := mem_grid.mp hp
    have := (hle p this.1 this.2).2
    omega
  have h1 : (1 : ℚ) ≤ ((mines s.board).card : ℚ) := by exact_mod_cast hm
  have hML : MinesLeft (unmark s.gameBoard) ((mines s.board).card : ℚ) lo hi (mines s.board).card := by
    unfold MinesLeft
    rw [if_pos h1, hno]
    simp
  obtain ⟨P, p1, p2, p3, p4⟩ := e4 _ hML (e1.2 hl) fun hlt => absurd hlt (not_lt.mpr h1)
  refine ⟨s.gameBoard.map fun row => row.map fun x => (((if x = 10 then -1 else if x = 11 then -2 else x) : Int) : ℚ), P,
    ?_, by simp [hcore.rect.len], fun l hl => ?_, p2, p3, fun i j hi' hj' => ⟨?_, ?_⟩⟩
  · simp only [MSB.gameBoard2, hmk, p1]
  · obtain ⟨l', hl', rfl⟩ := List.mem_map.mp hl
    simp [hcore.rect.rows l' hl']
  · have hlen := hcore.rect.len
    have hi2 : i < s.gameBoard.length := by omega
    have hrow := hcore.rect.rows (s.gameBoard[i]) (List.getElem_mem _)
    have hj2 : j < (s.gameBoard[i]).length := by omega
    have hget : s.gameBoard.get i j = (s.gameBoard[i])[j] := by
      simp [Board.get, List.getD_eq_getElem?_getD, List.getElem?_eq_getElem hi2, List.getElem?_eq_getElem hj2]
    rw [hget]
    simp only [List.getD_eq_getElem?_getD, List.getElem?_map, List.getElem?_eq_getElem hi2, Option.map_some,
      Option.getD_some, List.getElem?_eq_getElem hj2]
    split
    · simp
    · split <;> simp
  · have hgu := hug (i, j) hi' hj'
    simp only at hgu
    obtain ⟨-, a2, a3⟩ := p4 i j hi' hj'
    by_cases h10 : s.gameBoard.get i j < 10
    · rw [if_pos h10]
      rw [if_neg (by omega)] at hgu
      exact a2 (by omega) (by omega)
    · rw [if_neg h10]
      have hu10 : (unmark s.gameBoard).get i j = 10 := by rw [hgu]; split <;> omega
      have hch : (P.getD i []).getD j none = chance (unmark s.gameBoard) (mines s.board).card (i, j) := by
        rcases a3 hu10 with hq | ⟨hq, e⟩ | ⟨hq, e⟩
        · exact hq
        · rw [e, certain_chance hre ⟨_, hcons⟩ hl hq]; simp
        · rw [e, certain_chance hre ⟨_, hcons⟩ hl hq]; simp
      rw [hch]
      unfold chance
      rw [if_neg (Finset.card_ne_zero.mpr hl)]

/-- The hypotheses hold, e.g., after the sequence `handSample` (a `Reach` state by `C69`), and this is the answer there: the
flag at (1, 2) does not count. -/
example : ∃ s, (MSB.new gameSample.view).pyStepFlow handSample = some s ∧ Reach s ∧ 0 < s.row ∧
    1 ≤ (mines s.board).card ∧ (∀ p, IsNumber (unmark s.gameBoard) p → InReach (unmark s.gameBoard) p) ∧
    s.gameBoard2 2 = some ([[1, -1, -1, -1], [-1, -1, -2, -1], [-1, -1, -1, -1]],
      [[some 0, some (1/3), some (1/8), some (1/8)], [some (1/3), some (1/3), some (1/8), some (1/8)],
       [some (1/8), some (1/8), some (1/8), some (1/8)]]) := by
  have hm : HandMoves released handSample ⟨true, false⟩ :=
    .cons .lc <| .cons .mv <| .cons .lr <| .cons .rc <| .cons .lc <| .cons .rr <| .cons .lr <| .cons .lc <| .cons .lr <|
      .cons .rc <| .cons .lc <| .cons .lr <| .cons .rr <| .cons .lc .nil
  obtain ⟨s, e1, e2⟩ := careful_flow (.new gameSample_numbered) hm (by unfold Pointed; decide +kernel)
  have hx : ((MSB.new gameSample.view).pyStepFlow handSample).map (fun s => (s.gameBoard, s.row)) =
      some ([[1, 10, 10, 10], [10, 10, 11, 10], [10, 10, 10, 10]], 3) := by decide +kernel
  rw [e1] at hx
  simp only [Option.map_some, Option.some.injEq, Prod.mk.injEq] at hx
  have hmi : ((MSB.new gameSample.view).pyStepFlow handSample).map (fun s => decide (1 ≤ (mines s.board).card)) =
      some true := by decide +kernel
  rw [e1] at hmi
  simp only [Option.map_some, Option.some.injEq, decide_eq_true_eq] at hmi
  refine ⟨s, e1, e2.hand.reach, by omega, hmi, fun p _ => inReach_small _ ?_ p, ?_⟩
  · rw [hx.1]; decide +kernel
  · unfold MSB.gameBoard2
    rw [hx.1]
    decide +kernel

end Ms.Properties
