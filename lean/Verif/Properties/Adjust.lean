import Verif.Lemmas.Adjust
import Verif.Properties.Solvable

/-! # C47: `laymine_solvable_adjust` -/

namespace Ms.Properties
open Spec

/-- **C47 (partial)** `laymine_solvable_adjust` always returns, whatever the shuffles do (at least two rows and columns,
the start on the board, room for the mines): a board of the requested size with correct numbers, the start no mine, and
no mine around the start whenever that leaves room for the mines.  When it reports failure the number of mines is as
requested.  When it reports success there are *at least* as many.
Missing, because the code does not do it: the exact number of mines (`adjust_too_many_mines`) and that the board can be
solved without guessing (`adjust_needs_guess`) on success. -/
theorem laymine_solvable_adjust_board_partial (sh : Nat → List Int → List Int) (hsh : ∀ k l, (sh k l).Perm l)
    (row col minenum x0 y0 : Nat) (hr : 2 ≤ row) (hc : 2 ≤ col) (hx : x0 < row) (hy : y0 < col)
    (hm : minenum ≤ row * col - 1) :
    ∃ b flag, laymineSolvableAdjust sh row col minenum x0 y0 = some (b, flag) ∧ Rect b row col ∧ Numbered b.view ∧
      (x0, y0) ∉ mines b.view ∧
      (minenum ≤ row * col - (startBlock row col x0 y0).card → Disjoint (mines b.view) (startBlock row col x0 y0)) ∧
      minenum ≤ (mines b.view).card ∧ (flag = false → (mines b.view).card = minenum) := by
  have hs := startBlock_card row col x0 y0
  have ha := areaOp_eq hr hc hx hy
  have hself : (x0, y0) ∈ startBlock row col x0 y0 :=
    Finset.mem_filter.mpr ⟨mem_grid.mpr ⟨hx, hy⟩, near_refl _⟩
  have hle : (startBlock row col x0 y0).card ≤ row * col := by
    have := Finset.card_le_card (Finset.filter_subset (fun p => Near (x0, y0) p) (grid row col))
    rwa [card_grid] at this
  have hpos : 0 < row * col := Nat.mul_pos (by omega) (by omega)
  have hop : minenum ≤ row * col - (startBlock row col x0 y0).card → ∀ k, ∃ b, laymineOp (sh k) row col minenum x0 y0 = some b ∧
      Rect b row col ∧ Numbered b.view ∧ (x0, y0) ∉ mines b.view ∧
      (minenum ≤ row * col - (startBlock row col x0 y0).card → Disjoint (mines b.view) (startBlock row col x0 y0)) ∧
      minenum ≤ (mines b.view).card ∧ (mines b.view).card = minenum := by
    intro h k
    obtain ⟨b, h1, h2, h3, h4, h5, -⟩ := C02_laymine_op_partial (sh k) (hsh k) row col minenum x0 y0 hr hc hx hy h
    exact ⟨b, h1, h2, h5, fun h => Finset.disjoint_left.mp h4 h hself, fun _ => h4, h3.ge, h3⟩
  unfold laymineSolvableAdjust
  rw [ha, ← hs]
  simp only [Option.bind_eq_bind, Option.pure_def]
  rw [if_neg (by omega)]
  by_cases h1 : row * col - (startBlock row col x0 y0).card < minenum
  · obtain ⟨b, e1, e2, e3, e4, e5⟩ := C01_laymine (sh 0) (hsh 0) row col minenum x0 y0 hx hy hm
    rw [if_pos h1, e1]
    simp only [Option.bind_some]
    rw [if_neg (by omega)]
    exact ⟨b, _, rfl, e2, e5, e4, fun h => by omega, e3.ge, fun _ => e3⟩
  rw [if_neg h1]
  push Not at h1
  by_cases h2 : row * col = (startBlock row col x0 y0).card + minenum
  · obtain ⟨b, e1, e2, e3, e4, e5, e6, e7⟩ := hop h1 0
    rw [if_pos h2, e1]
    exact ⟨b, _, rfl, e2, e3, e4, e5, e6, fun _ => e7⟩
  rw [if_neg h2]
  -- the initial boards
  have hrepl : ∀ v : Int, Rect (List.replicate row (List.replicate col v)) row col := fun v =>
    ⟨by simp, fun l hl => by rw [List.eq_of_mem_replicate hl]; simp⟩
  have hget : ∀ (v : Int) (p : Pos), p ∈ grid row col → bval (List.replicate row (List.replicate col v)) p = v := by
    intro v p hp
    have := mem_grid.mp hp
    simp [bval, Board.get, this.1, this.2]
  have hnn10 : ∀ p, 0 ≤ bval (List.replicate row (List.replicate col (10 : Int))) p := by
    intro p
    simp only [bval, Board.get, List.getD_eq_getElem?_getD, List.getElem?_replicate]
    split
    · simp only [Option.getD_some, List.getElem?_replicate]
      split <;> simp
    · simp
  obtain ⟨z1, z2, z3⟩ := setZip_spec (block row col x0 y0) (List.replicate (block row col x0 y0).length 0)
    (List.replicate row (List.replicate col (-10))) (hrepl _) (by simp) (nodup_block _ _ _ _)
    (fun p hp => (mem_block_near.mp hp).1)
  have hfold : ((block row col x0 y0).zip (List.replicate (block row col x0 y0).length (0 : Int))).foldl
      (fun (b : Board) pv => b.set pv.1.1 pv.1.2 pv.2) (List.replicate row (List.replicate col (-10))) =
      (block row col x0 y0).foldl (fun (b : Board) p => b.set p.1 p.2 0) (List.replicate row (List.replicate col (-10))) := by
    generalize (List.replicate row (List.replicate col (-10)) : Board) = b
    generalize block row col x0 y0 = l
    induction l generalizing b with
    | nil => rfl
    | cons p l ih => simp only [List.length_cons, List.replicate_succ, List.zip_cons_cons, List.foldl_cons]; exact ih _
  rw [hfold] at z1 z2 z3
  generalize hb0 : (block row col x0 y0).foldl (fun (b : Board) p => b.set p.1 p.2 0)
    (List.replicate row (List.replicate col (-10))) = board0 at *
  have hin : ∀ p ∈ grid row col, bval board0 p = if p ∈ startBlock row col x0 y0 then 0 else -10 := by
    intro p hp
    have hmem : p ∈ block row col x0 y0 ↔ p ∈ startBlock row col x0 y0 := by
      rw [mem_block_near, startBlock, Finset.mem_filter]
    split
    · rename_i h
      have : bval board0 p ∈ (block row col x0 y0).map (bval board0) := List.mem_map.mpr ⟨p, hmem.mpr h, rfl⟩
      rw [z3] at this
      exact List.eq_of_mem_replicate this
    · rename_i h
      rw [z2 p fun h' => h (hmem.mp h'), hget _ p hp]
  have hpart : Partial row col minenum board0 minenum (row * col - (startBlock row col x0 y0).card - minenum) := by
    refine ⟨z1, fun p hp => ?_, ?_, ?_⟩
    · rw [hin p hp]; split <;> simp
    · have e : ((grid row col).filter fun p => bval board0 p = -10) = grid row col \ startBlock row col x0 y0 := by
        ext p
        rw [Finset.mem_filter, Finset.mem_sdiff]
        constructor
        · rintro ⟨h3, h4⟩
          refine ⟨h3, fun h5 => ?_⟩
          rw [hin p h3, if_pos h5] at h4
          exact absurd h4 (by decide)
        · rintro ⟨h3, h4⟩
          exact ⟨h3, by rw [hin p h3, if_neg h4]⟩
      unfold cellsWith
      rw [e, Finset.card_sdiff_of_subset (show startBlock row col x0 y0 ⊆ grid row col from Finset.filter_subset _ _), card_grid]
      omega
    · have e : ((grid row col).filter fun p => bval board0 p = -1) = ∅ := by
        rw [Finset.filter_eq_empty_iff]
        intro p hp
        rw [hin p hp]
        split <;> decide
      unfold cellsWith
      rw [e]; simp
  obtain ⟨⟨b, flag, k⟩, e1, e2⟩ := adjustStep_spec (R := row) (C := col) (M := minenum) hsh (by omega) (row * col) board0
    (Board.set (List.replicate row (List.replicate col 10)) x0 y0 0) ((block row col x0 y0).filter fun p => p ≠ (x0, y0))
    minenum (row * col - (startBlock row col x0 y0).card - minenum) 0 (by omega) hpart (rect_set (hrepl _) _ _ _)
    (fun p => by
      unfold bval
      rw [get_set (hrepl _) hx hy]
      split
      · exact le_refl _
      · exact hnn10 p)
    (fun p hp => (mem_block_near.mp (List.mem_filter.mp hp).1).1)
  rw [e1]
  simp only [Option.bind_some]
  by_cases hflag : flag = false ∨ b = []
  · obtain ⟨b', f1, f2, f3, f4, f5, f6, f7⟩ := hop h1 k
    rw [if_pos hflag, f1]
    exact ⟨b', _, rfl, f2, f3, f4, f5, f6, fun _ => f7⟩
  · rw [if_neg hflag]
    push Not at hflag
    have hfin := e2 (by simpa using hflag.1)
    simp only at hfin
    -- the cells that were never laid become mines
    have hlast : ∀ (l : List Pos) (b' : Board), Rect b' row col → (∀ p ∈ l, p ∈ grid row col) →
        (∀ p, bval b' p = bval b p ∨ bval b' p = -1 ∧ bval b p = -10) →
        let o := l.foldl (fun (b : Board) p => if b.get p.1 p.2 = -10 then b.set p.1 p.2 (-1) else b) b'
        Rect o row col ∧ (∀ p, bval o p = bval b p ∨ bval o p = -1 ∧ bval b p = -10) ∧
          ∀ p, (p ∈ l ∨ bval b' p ≠ -10) → bval o p ≠ -10 := by
      intro l
      induction l with
      | nil => intro b' g1 _ g3; exact ⟨g1, g3, fun p hp => hp.elim (by simp) id⟩
      | cons p l ih =>
        intro b' g1 g2 g3
        have hp := mem_grid.mp (g2 p (by simp))
        simp only [List.foldl_cons]
        by_cases hv : b'.get p.1 p.2 = -10
        · rw [if_pos hv]
          have hget' : ∀ q, bval (b'.set p.1 p.2 (-1)) q = if q = p then -1 else bval b' q := by
            intro q
            unfold bval
            rw [get_set g1 hp.1 hp.2]
            by_cases hq : q = p
            · rw [if_pos hq, if_pos (by rw [hq]; exact ⟨rfl, rfl⟩)]
            · rw [if_neg hq, if_neg (fun h => hq (Prod.ext h.1 h.2))]
          obtain ⟨i1, i2, i3⟩ := ih (b'.set p.1 p.2 (-1)) (rect_set g1 _ _ _) (fun q hq => g2 q (by simp [hq])) (by
            intro q
            rw [hget']
            split
            · rename_i hq
              rw [hq]
              right
              refine ⟨rfl, ?_⟩
              rcases g3 p with h | h
              · rw [← h]; exact hv
              · exact h.2
            · exact g3 q)
          refine ⟨i1, i2, fun q hq => i3 q ?_⟩
          rw [hget']
          by_cases hqp : q = p
          · right; rw [if_pos hqp]; decide
          · rw [if_neg hqp]
            rcases hq with hq | hq
            · rcases List.mem_cons.mp hq with h | h
              · exact absurd h hqp
              · exact .inl h
            · exact .inr hq
        · rw [if_neg hv]
          obtain ⟨i1, i2, i3⟩ := ih b' g1 (fun q hq => g2 q (by simp [hq])) g3
          refine ⟨i1, i2, fun q hq => i3 q ?_⟩
          rcases hq with hq | hq
          · rcases List.mem_cons.mp hq with h | h
            · right; rw [h]; exact hv
            · exact .inl h
          · exact .inr hq
    obtain ⟨o1, o2, o3⟩ := hlast (cells row col) b hfin.rect (fun p hp => mem_cells_grid.mp hp) (fun _ => .inl rfl)
    generalize ((cells row col).foldl (fun b p => if b.get p.1 p.2 = -10 then b.set p.1 p.2 (-1) else b) b) = bm at *
    have hdm := rect_dims o1 (by omega : 0 < row)
    have hvc : vcells bm.view = grid row col := by
      show grid bm.row bm.col = _
      rw [hdm.1, hdm.2]
    have hm01 : ∀ p ∈ grid row col, (bval bm p = 0 ∧ bval b p = 0) ∨ (bval bm p = -1 ∧ (bval b p = -1 ∨ bval b p = -10)) := by
      intro p hp
      have n10 := o3 p (.inl (mem_cells_grid.mpr hp))
      rcases o2 p with h | h
      · rw [h] at n10
        rcases hfin.vals p hp with h' | h' | h'
        · exact .inl ⟨h.trans h', h'⟩
        · exact .inr ⟨h.trans h', .inl h'⟩
        · exact absurd h' n10
      · exact .inr ⟨h.1, .inr h.2⟩
    obtain ⟨bn, c1, c2, c3, c4, -⟩ := C03_cal_board_numbers bm row col (by omega) o1 (by
      rw [hvc]
      intro p hp
      rcases hm01 p hp with h | h
      · exact .inl h.1
      · exact .inr h.1)
    unfold calBoardNumbers at c1
    rw [if_neg (by omega), hdm.1, hdm.2] at c1
    have c1 := Option.some.inj c1
    rw [c1]
    have hmines : mines bn.view = (grid row col).filter fun p => bval b p ≠ 0 := by
      rw [c3]
      unfold mines
      rw [hvc]
      apply Finset.filter_congr
      intro p hp
      show bval bm p = -1 ↔ _
      rcases hm01 p hp with ⟨h, h'⟩ | ⟨h, h'⟩
      · rw [h, h']; decide
      · rw [h]
        rcases h' with h' | h' <;> rw [h'] <;> decide
    have hdisj : Disjoint (mines bn.view) (startBlock row col x0 y0) := by
      rw [Finset.disjoint_left]
      intro p hp hps
      rw [hmines, Finset.mem_filter] at hp
      have := hin p hp.1
      rw [if_pos hps] at this
      exact hp.2 (by rw [hfin.grown p hp.1 (by rw [this]; decide), this])
    refine ⟨bn, true, rfl, c2, c4, fun h => Finset.disjoint_left.mp hdisj h hself, fun _ => hdisj, ?_, by simp⟩
    refine hfin.enough.trans ?_
    unfold cellsWith
    rw [hmines, ← Finset.card_union_of_disjoint]
    · refine Finset.card_le_card fun p hp => ?_
      rw [Finset.mem_union, Finset.mem_filter, Finset.mem_filter] at hp
      rw [Finset.mem_filter]
      rcases hp with hp | hp <;> exact ⟨hp.1, by rw [hp.2]; decide⟩
    · rw [Finset.disjoint_left]
      intro p hp hp'
      rw [Finset.mem_filter] at hp hp'
      rw [hp.2] at hp'
      exact absurd hp'.2 (by decide)

/-- The hypotheses are met: a 4x5 board with 4 mines. -/
example : (∀ k l, ((fun k (l : List Int) => l.rotate k) k l).Perm l) ∧ 2 ≤ 4 ∧ 2 ≤ 5 ∧ 4 ≤ 4 * 5 - 1 :=
  ⟨fun k l => List.rotate_perm l k, by decide, by decide, by decide⟩

/-- **C47 refuted** the board reported as a success may have more mines than requested: some cells are never laid, and
the end of the function turns them all into mines. -/
theorem adjust_too_many_mines : ∃ sh : Nat → List Int → List Int, (∀ k l, (sh k l).Perm l) ∧
    ∃ b, laymineSolvableAdjust sh 3 5 4 0 0 = some (b, true) ∧ (mines b.view).card = 5 :=
  ⟨fun _ l => l.rotate 1, fun _ l => List.rotate_perm l 1,
    [[0, 0, 0, 2, -1], [1, 1, 2, 4, -1], [1, -1, 2, -1, -1]], by decide +kernel, by decide +kernel⟩

/-- **C47 refuted** the board reported as a success may need a guess. -/
theorem adjust_needs_guess : ∃ sh : Nat → List Int → List Int, (∀ k l, (sh k l).Perm l) ∧
    ∃ b, laymineSolvableAdjust sh 3 3 2 0 0 = some (b, true) ∧ (mines b.view).card = 2 ∧ ¬ NoGuess 3 3 b (0, 0) := by
  refine ⟨fun _ l => l.rotate 2, fun _ l => List.rotate_perm l 2, [[0, 1, 1], [1, 2, -1], [-1, 2, 1]], by decide +kernel,
    by decide +kernel, fun h => ?_⟩
  have := (is_solvable_exact_small 3 3 [[0, 1, 1], [1, 2, -1], [-1, 2, 1]] (0, 0) ⟨rfl, by decide⟩
    (by unfold Numbered; decide +kernel) (by decide) (by decide) (by decide) (by decide) (by decide)).mpr h
  revert this
  decide +kernel

/-- The failure branch is reached, and reported as a failure: on a 2x4 board with 3 mines no try succeeds. -/
example : laymineSolvableAdjust (fun _ l => l.rotate 1) 2 4 3 0 0 =
    some ([[0, 2, -1, -1], [0, 2, -1, 3]], false) := by decide +kernel

end Ms.Properties
