import Verif.Lemmas.GameBbbv
import Verif.Model.GameEnd
import Verif.Model.Metrics
import Verif.Properties.Game

/-! # Properties C20-C22, C40 and the mid-game `set_board` (C13): levels, counters, the end of a game -/

namespace Ms.Properties
open Spec

/-! ## C20 the returned level -/

/-- **C20** What the level returned by `step` during play says about the game board: `Err` - nothing
changed; `Ok(0)` - nothing changed unless the game was lost; `Ok(1)` - exactly the cell of the event was
toggled between covered and flag; `Ok(2)` - the covered cell of the event now shows its number, the game
is not lost; `Ok(3)` - a covered neighbour was opened.  With `Ok(2)` and (unless lost) `Ok(3)` every cell
either stays as it is - in particular flags - or was covered and now shows its number.  There are no other
levels. -/
theorem C20_level (s s' : MSB) (e : Ev) (p : Pos) (r : Option Nat) (h : Reach s) (hst : s.state = .playing)
    (hs : s.step e p = some (s', r)) :
    (r = none → s'.gameBoard = s.gameBoard) ∧
    (r = some 0 → s'.gameBoard = s.gameBoard ∨ s'.state = .loss) ∧
    (r = some 1 → (shown s.gameBoard p = 10 ∧ shown s'.gameBoard p = 11 ∨
        shown s.gameBoard p = 11 ∧ shown s'.gameBoard p = 10) ∧
      ∀ q, q ≠ p → shown s'.gameBoard q = shown s.gameBoard q) ∧
    (r = some 2 → s'.state ≠ .loss ∧ shown s.gameBoard p = 10 ∧ shown s'.gameBoard p = val s.board p ∧
      ∀ q ∈ vcells s.board, shown s'.gameBoard q = shown s.gameBoard q ∨
        (shown s.gameBoard q = 10 ∧ shown s'.gameBoard q = val s.board q ∧ val s.board q ≠ -1)) ∧
    (r = some 3 → (∃ q ∈ vcells s.board, Adj p q ∧ shown s.gameBoard q = 10 ∧ shown s'.gameBoard q ≠ 10) ∧
      (s'.state ≠ .loss → ∀ q ∈ vcells s.board, shown s'.gameBoard q = shown s.gameBoard q ∨
        (shown s.gameBoard q = 10 ∧ shown s'.gameBoard q = val s.board q ∧ val s.board q ≠ -1))) ∧
    (∀ k, r = some k → k ≤ 3) := by
  have hl := (MSB.step_eff hs).level h.inv hst
  rw [h.inv.core.vcells]
  match r, hl with
  | none, hl => exact ⟨fun _ => hl, by simp, by simp, by simp, by simp, by simp⟩
  | some 0, hl => exact ⟨by simp, fun _ => hl, by simp, by simp, by simp, by simp⟩
  | some 1, hl => exact ⟨by simp, by simp, fun _ => hl, by simp, by simp, by simp⟩
  | some 2, hl => exact ⟨by simp, by simp, by simp, fun _ => ⟨hl.2.2.1, hl.1, hl.2.1, hl.2.2.2⟩, by simp, by simp⟩
  | some 3, hl => exact ⟨by simp, by simp, by simp, by simp, fun _ => hl, by simp⟩
  | some (k + 4), hl => exact hl.elim

/-- all levels occur in the sample game -/
example : ((MSB.new gameSample.view).stepFlow [(.lc, (0, 3)), (.lr, (0, 3))]).bind (fun x =>
    (x.1.step .rc (2, 2)).bind fun a => (a.1.stepFlow [(.rr, (2, 2)), (.lc, (1, 2)), (.rc, (1, 2))]).bind fun b =>
    (b.1.step .lr (1, 2)).bind fun c => (c.1.stepFlow [(.rr, (1, 2)), (.lc, (0, 0))]).bind fun d =>
    (d.1.step .lr (0, 0)).map fun f => [a.2, c.2, f.2]) = some [some 1, some 3, some 2] := by decide

/-! ## C21 effective clicks -/

/-- A run in which the game never returns to `Ready` with effective clicks already counted, and in which
during play the right button is pressed on the board only. -/
inductive CeRun : MSB → Prop
  | new {v : View} : Numbered v → CeRun (MSB.new v)
  | step {s s' : MSB} {e : Ev} {p : Pos} {r : Option Nat} : CeRun s → s.step e p = some (s', r) →
      (s.state = .playing → e = .rc → p ∈ vcells s.board) → (s'.state = .ready → s'.ce = 0) → CeRun s'
  | reset {s : MSB} : CeRun s → 0 < s.row → CeRun s.reset
  | load {s : MSB} {v : View} : CeRun s → (s.state = .ready ∨ s.state = .preFlaging) → Numbered v →
      v.row = s.row → v.col = s.column → CeRun { s with board := v }

theorem CeRun.reach {s : MSB} (h : CeRun s) : Reach s := by
  induction h with
  | new hv => exact .new hv
  | step _ hs _ _ ih => exact .step ih hs
  | reset _ h0 ih => exact .reset ih h0
  | load _ a b c d ih => exact .load ih a b c d

theorem CeRun.ceOk {s : MSB} (h : CeRun s) : s.CeOk := by
  induction h with
  | new _ => simp [MSB.CeOk, MSB.new, MSB.NF]
  | step hr hs hw hb ih =>
    refine (MSB.step_eff hs).ceOk hr.reach.inv ih ?_ hb (MSB.Reach.nfPlaying hr.reach)
    rw [← hr.reach.inv.core.vcells]; exact hw
  | reset _ _ _ => simp [MSB.CeOk, MSB.reset, MSB.NF]
  | load _ _ _ _ _ ih => exact ih

/-- **C21 (partial)** effective clicks never exceed the clicks, in the runs of `CeRun`.  Missing: runs that
set and remove a flag on a mine before the game begins, and right presses outside the board during play;
for those it is false (`C21_refuted`, `C17_refuted`). -/
theorem C21_ce_le_clicks_partial (s : MSB) (h : CeRun s) : s.ce ≤ s.left + s.right + s.double := by
  have := h.ceOk
  unfold MSB.CeOk at this
  omega

/-- **C21 (refuted)** flagging a mine and removing the flag before the game begins leaves one effective click
and no click at all -/
theorem C21_refuted : ∃ s, Reach s ∧ s.ce > s.left + s.right + s.double := by
  cases hs : (MSB.new gameSample.view).stepFlow [(.rc, (1, 0)), (.rr, (1, 0)), (.rc, (1, 0))] with
  | none =>
    have h : ((MSB.new gameSample.view).stepFlow [(.rc, (1, 0)), (.rr, (1, 0)), (.rc, (1, 0))]).isSome = true := by
      decide
    rw [hs] at h; simp at h
  | some x =>
    obtain ⟨s, r⟩ := x
    refine ⟨s, reach_stepFlow (.new gameSample_numbered) hs, ?_⟩
    have h : ((MSB.new gameSample.view).stepFlow [(.rc, (1, 0)), (.rr, (1, 0)), (.rc, (1, 0))]).map
      (fun x => decide (x.1.ce > x.1.left + x.1.right + x.1.double)) = some true := by decide
    rw [hs] at h
    simpa using h

/-- `s'` is reached from `s` by steps -/
inductive Steps : MSB → MSB → Prop
  | refl {s : MSB} : Steps s s
  | step {s t s' : MSB} {e : Ev} {p : Pos} {r : Option Nat} : Steps s t → t.step e p = some (s', r) → Steps s s'

theorem Steps.reach {s s' : MSB} (h : Steps s s') (hr : Reach s) : Reach s' := by
  induction h with
  | refl => exact hr
  | step _ hs ih => exact .step ih hs

theorem Steps.keeps {s s' : MSB} (h : Steps s s') (hr : Reach s) (hst : s.state ≠ .ready ∧ s.state ≠ .preFlaging) :
    (∀ q ∈ s.flagedList, q ∈ s'.flagedList) ∧ s'.state ≠ .ready ∧ s'.state ≠ .preFlaging := by
  induction h with
  | refl => exact ⟨fun _ h => h, hst⟩
  | step ht hs ih =>
    rename_i s2 s3 e p r
    obtain ⟨h1, h2, h3⟩ := ih
    by_cases hp : s2.state = .playing
    · obtain ⟨h4, h5⟩ := (MSB.step_eff hs).flaged (ht.reach hr).inv hp
      exact ⟨fun q hq => h4 q (h1 q hq), h5⟩
    · have hterm : s2.state = .win ∨ s2.state = .loss := by
        have := (ht.reach hr).inv.nd
        cases hc : s2.state <;> simp_all
      rw [C15_terminal_frozen s2 e p hterm] at hs
      simp only [Option.some.injEq, Prod.mk.injEq] at hs
      obtain ⟨rfl, -⟩ := hs
      exact ⟨h1, h2, h3⟩

/-- **C21** During play a flag click (`Ok(1)`) counts as effective at most once per cell, and only on a
mine: if it was counted at a cell, no later flag click on that cell in the same game is counted. -/
theorem C21_flag_counts_once (s s₁ s₂ s₃ : MSB) (e e' : Ev) (p : Pos) (h : Reach s) (hst : s.state = .playing)
    (h1 : s.step e p = some (s₁, some 1)) (hce : s₁.ce ≠ s.ce) (h2 : Steps s₁ s₂)
    (h3 : s₂.step e' p = some (s₃, some 1)) :
    val s.board p = -1 ∧ s₁.ce = s.ce + 1 ∧ s₃.ce = s₂.ce := by
  obtain ⟨a1, a2⟩ := (MSB.step_eff h1).level1 h.inv hst
  have hr1 : Reach s₁ := .step h h1
  by_cases hc : s.gb p = 10 ∧ s.bd p = -1 ∧ p ∉ s.flagedList
  · rw [if_pos hc] at a1
    refine ⟨hc.2.1, a1, ?_⟩
    have hm := a2 hc.1 hc.2.1
    obtain ⟨_, n1, n2⟩ := (MSB.step_eff h1).flaged h.inv hst
    obtain ⟨k1, k2, k3⟩ := h2.keeps hr1 ⟨n1, n2⟩
    have hm2 := k1 p hm
    have hr2 := h2.reach hr1
    by_cases hp2 : s₂.state = .playing
    · have := ((MSB.step_eff h3).level1 hr2.inv hp2).1
      rw [this, if_neg (by tauto)]; rfl
    · have hterm : s₂.state = .win ∨ s₂.state = .loss := by
        have := hr2.inv.nd
        cases hc : s₂.state <;> simp_all
      rw [C15_terminal_frozen s₂ e' p hterm] at h3
      simp at h3
  · rw [if_neg hc] at a1
    exact absurd a1 hce

/-! ## C22 the solved part of the 3BV -/

/-- **C22 (partial)** At a win `bbbv_solved` is at least the 3BV of the board.  Missing: equality, which is
false in general (`C22_refuted`). -/
theorem C22_win_ge_partial (s : MSB) (h : Reach s) (hw : s.state = .win) : calBbbv s.board ≤ s.bbbvSolved := by
  have h1 := h.solvedGe
  unfold MSB.SolvedGe at h1
  have hi := h.inv
  rw [MSB.open_all] at h1
  · rw [calBbbv_eq]; exact h1
  · intro p hp h0
    have hp' := hi.core.vcells ▸ hp
    have h2 := hi.win hw p hp' (by rw [MSB.bd_val]; omega)
    have h3 := hi.core.bd_range hp'
    rw [MSB.gb_bval, ← shown_eq] at h2
    rw [h2]; rw [MSB.bd_val] at h3 ⊢; omega

/-- **C22 (partial)** In every run in which no zero cell carries a flag while cells are being opened,
`bbbv_solved` never exceeds the 3BV and equals it at a win. -/
theorem C22_solved_partial (s : MSB) (h : CalmRun s) :
    s.bbbvSolved ≤ calBbbv s.board ∧ (s.state = .win → s.bbbvSolved = calBbbv s.board) := by
  have h1 := h.solvedEq.1
  have h2 := MSB.open_le s.board s.gameBoard
  have hle : s.bbbvSolved ≤ calBbbv s.board := by rw [calBbbv_eq]; omega
  exact ⟨hle, fun hw => le_antisymm hle (C22_win_ge_partial s h.reach hw)⟩

/-- the same in terms of what is shown: `bbbv_solved` is the number of isolated numbers shown plus the number
of openings shown; an opening is shown completely or not at all -/
theorem C22_solved_shown_partial (s : MSB) (h : CalmRun s) :
    s.bbbvSolved = ((isolated s.board).filter fun p => shown s.gameBoard p < 10).card +
      (openComps s.board s.gameBoard).card ∧
    ∀ p ∈ zeros s.board, ∀ q, Linked (zeros s.board) p q →
      (shown s.gameBoard p < 10 ↔ shown s.gameBoard q < 10) := by
  obtain ⟨h1, h2⟩ := h.solvedEq
  refine ⟨h1.symm, fun p hp q hl => ?_⟩
  have hC := mem_comps.mpr ⟨p, hp, rfl⟩
  have hq := mem_comp.mpr ⟨linked_zero hp hl, hl⟩
  have hp' := mem_comp.mpr ⟨hp, (.refl : Linked (zeros s.board) p p)⟩
  exact ⟨fun h => h2 _ hC ⟨p, hp', h⟩ q hq, fun h => h2 _ hC ⟨q, hq, h⟩ p hp'⟩

/-- a board with one opening -/
def lineSample : Board := [[0, 0, 0, 0, 0, 1, -1]]

/-- flag two zeros, open the middle, remove the flags, open the two zeros -/
def lineGame : List (Ev × Pos) :=
  [(.rc, (0, 0)), (.rr, (0, 0)), (.rc, (0, 4)), (.rr, (0, 4)), (.lc, (0, 2)), (.lr, (0, 2)),
   (.rc, (0, 0)), (.rr, (0, 0)), (.rc, (0, 4)), (.rr, (0, 4)),
   (.lc, (0, 0)), (.lr, (0, 0)), (.lc, (0, 4)), (.lr, (0, 4))]

theorem lineSample_numbered : Numbered lineSample.view := by unfold Numbered; decide

/-- **C22 (refuted)** `bbbv_solved` can exceed the 3BV of the board -/
theorem C22_refuted : ∃ s, Reach s ∧ s.state = .win ∧ s.bbbvSolved > calBbbv s.board := by
  cases hs : (MSB.new lineSample.view).stepFlow lineGame with
  | none =>
    have h : ((MSB.new lineSample.view).stepFlow lineGame).isSome = true := by decide
    rw [hs] at h; simp at h
  | some x =>
    obtain ⟨s, r⟩ := x
    refine ⟨s, reach_stepFlow (.new lineSample_numbered) hs, ?_⟩
    have h : ((MSB.new lineSample.view).stepFlow lineGame).map
      (fun x => decide (x.1.state = .win ∧ x.1.bbbvSolved > calBbbv x.1.board)) = some true := by decide
    rw [hs] at h
    simpa using h

/-- the sample game is calm: it flags no zero -/
example : ((MSB.new gameSample.view).stepFlow sampleGame).map (fun x => (x.1.bbbvSolved, calBbbv x.1.board)) =
    some (5, 5) := by decide

/-! ## C13 and `set_board` during play -/

/-- **C13 (refuted for `set_board` during play)** Replacing the board during play - which
`BaseVideo::set_board` accepts - by another board of the same size with correct numbers that agrees with
everything shown can lead to a `Win` while a safe cell is still covered: the scan pointer is stale. -/
theorem C13_set_board_refuted : ∃ (s : MSB) (v : View) (ops : List (Ev × Pos)) (s' : MSB),
    Reach s ∧ s.state = .playing ∧ Numbered v ∧ (s.setBoard v).2 = true ∧
    (∀ p ∈ vcells s.board, shown s.gameBoard p < 10 → val v p = shown s.gameBoard p) ∧
    (s.setBoard v).1.stepFlow ops = some (s', true) ∧ s'.state = .win ∧
    ∃ p ∈ vcells v, val v p ≠ -1 ∧ shown s'.gameBoard p = 10 := by
  have hn1 : Numbered (Board.view [[-1, 1, 1, -1, 1]]) := by unfold Numbered; decide
  have hn2 : Numbered (Board.view [[0, 1, -1, 1, 0]]) := by unfold Numbered; decide
  have key : (((MSB.new (Board.view [[-1, 1, 1, -1, 1]])).stepFlow [(.lc, (0, 1)), (.lr, (0, 1))]).bind fun x =>
    ((x.1.setBoard (Board.view [[0, 1, -1, 1, 0]])).1.stepFlow [(.lc, (0, 4)), (.lr, (0, 4))]).map fun y =>
      decide (x.1.state = .playing ∧ (x.1.setBoard (Board.view [[0, 1, -1, 1, 0]])).2 = true ∧
      (∀ p ∈ vcells x.1.board, shown x.1.gameBoard p < 10 →
        val (Board.view [[0, 1, -1, 1, 0]]) p = shown x.1.gameBoard p) ∧ y.2 = true ∧ y.1.state = .win ∧
      ∃ p ∈ vcells (Board.view [[0, 1, -1, 1, 0]]), val (Board.view [[0, 1, -1, 1, 0]]) p ≠ -1 ∧
        shown y.1.gameBoard p = 10)) = some true := by decide
  obtain ⟨x, hx, hy⟩ := Option.bind_eq_some_iff.mp key
  obtain ⟨y, hy1, hy2⟩ := Option.map_eq_some_iff.mp hy
  obtain ⟨k1, k2, k3, k4, k5, k6⟩ := of_decide_eq_true hy2
  obtain ⟨s, b⟩ := x
  obtain ⟨s', b'⟩ := y
  simp only at k4
  subst k4
  exact ⟨s, _, _, s', reach_stepFlow (.new hn1) hx, k1, hn2, k2, k3, hy1, k5, k6⟩

/-! ## C40 after the game -/

theorem bval_map {b : Board} {r c : Nat} (h : Rect b r c) (f : Int → Int) {p : Pos} (hp : p ∈ grid r c) :
    shown (b.map fun l => l.map f) p = f (shown b p) := by
  obtain ⟨h1, h2⟩ := mem_grid.mp hp
  unfold shown Board.get
  have h3 : p.1 < b.length := by rw [h.len]; exact h1
  have h4 : p.2 < (b[p.1]).length := by rw [h.rows _ (List.getElem_mem h3)]; exact h2
  simp [List.getD_eq_getElem?_getD, h3, h4]

theorem rect_map {b : Board} {r c : Nat} (h : Rect b r c) (f : Int → Int) :
    Rect (b.map fun l => l.map f) r c := by
  refine ⟨by simp [h.len], fun l hl => ?_⟩
  obtain ⟨l', hl', rfl⟩ := List.mem_map.mp hl
  simp [h.rows _ hl']

/-- **C40** after a win `win_then_flag_all_mine` leaves a board with a flag on every mine and the true number
everywhere else -/
theorem C40_win_then_flag (s : MSB) (h : Reach s) (hw : s.state = .win) :
    Rect s.winThenFlagAllMine.gameBoard s.board.row s.board.col ∧
    ∀ p ∈ vcells s.board, shown s.winThenFlagAllMine.gameBoard p =
      if val s.board p = -1 then 11 else val s.board p := by
  have hi := h.inv
  unfold MSB.winThenFlagAllMine
  rw [if_neg (by simp [hw])]
  refine ⟨by rw [hi.core.hrow, hi.core.hcol]; exact rect_map hi.core.rect _, fun p hp => ?_⟩
  have hp' := hi.core.vcells ▸ hp
  rw [bval_map hi.core.rect _ hp']
  have h1 := hi.core.marks p hp'
  have h2 := hi.core.bd_range hp'
  have h3 := hi.win hw p hp'
  simp only [hw, MSB.gb_bval, ← shown_eq, MSB.bd_val] at h1 h2 h3
  simp only [reduceCtorEq, false_and, or_false] at h1
  split
  · next h4 =>
    rw [if_pos (by
      by_contra hc
      have := h3 hc
      omega)]
  · next h4 =>
    split
    · next h5 => omega
    · next h5 => exact h3 h5

/-- **C40** `win_then_flag_all_mine` does nothing unless the game is won -/
theorem C40_win_then_flag_else (s : MSB) (hw : s.state ≠ .win) : s.winThenFlagAllMine = s := by
  unfold MSB.winThenFlagAllMine; rw [if_pos hw]

/-- **C40** after a loss `loss_then_open_all_mine` marks (16) exactly the covered mines and changes nothing
else; afterwards every mine is shown: as 16, as the mine that was hit (15) or as a flag (11). -/
theorem C40_loss_then_open (s : MSB) (h : Reach s) (hw : s.state = .loss) :
    (∀ p ∈ vcells s.board, shown s.lossThenOpenAllMine.gameBoard p =
      if val s.board p = -1 ∧ shown s.gameBoard p = 10 then 16 else shown s.gameBoard p) ∧
    (∀ p ∈ vcells s.board, val s.board p = -1 →
      shown s.lossThenOpenAllMine.gameBoard p = 16 ∨ shown s.lossThenOpenAllMine.gameBoard p = 15 ∨
      shown s.lossThenOpenAllMine.gameBoard p = 11) := by
  have hi := h.inv
  have key : ∀ (l : List Pos) (d : Board), Rect d s.row s.column → (∀ p ∈ l, p ∈ grid s.row s.column) →
      ∀ q, bval (l.foldl (fun g p =>
        if s.board.get p.1 p.2 = -1 ∧ g.get p.1 p.2 = 10 then g.set p.1 p.2 16 else g) d) q =
      if q ∈ l ∧ val s.board q = -1 ∧ bval d q = 10 then 16 else bval d q := by
    intro l
    induction l with
    | nil => intro d hd _; simp
    | cons p l ih =>
      intro d hd hl
      simp only [List.foldl_cons]
      have hp := hl p (by simp)
      by_cases hc : s.board.get p.1 p.2 = -1 ∧ d.get p.1 p.2 = 10
      · rw [if_pos hc]
        intro q
        rw [ih (d.set p.1 p.2 16) (rect_set hd _ _ _) (fun q hq => hl q (by simp [hq])), bval_set hd hp]
        by_cases hq : q = p
        · subst hq
          have hc' : val s.board q = -1 ∧ bval d q = 10 := hc
          simp [hc'.1, hc'.2]
        · simp [hq]
      · rw [if_neg hc]
        intro q
        rw [ih d hd (fun q hq => hl q (by simp [hq]))]
        by_cases hq : q = p
        · subst hq
          have hc' : ¬ (val s.board q = -1 ∧ bval d q = 10) := hc
          simp [hc']
        · simp [hq]
  have hfirst : ∀ p ∈ vcells s.board, shown s.lossThenOpenAllMine.gameBoard p =
      if val s.board p = -1 ∧ shown s.gameBoard p = 10 then 16 else shown s.gameBoard p := by
    intro p hp
    have hp' := hi.core.vcells ▸ hp
    unfold MSB.lossThenOpenAllMine
    rw [if_neg (by simp [hw])]
    have := key (cells s.row s.column) s.gameBoard hi.core.rect (fun p hp => mem_cells_grid.mp hp) p
    simp only [mem_cells_grid, hp', true_and] at this
    exact this
  refine ⟨hfirst, fun p hp hm => ?_⟩
  have hp' := hi.core.vcells ▸ hp
  rw [hfirst p hp]
  have h1 := hi.core.marks p hp'
  simp only [MSB.gb_bval, ← shown_eq, MSB.bd_val] at h1
  split
  · exact .inl rfl
  · omega

/-- **C40** `loss_then_open_all_mine` does nothing unless the game is lost -/
theorem C40_loss_then_open_else (s : MSB) (hw : s.state ≠ .loss) : s.lossThenOpenAllMine = s := by
  unfold MSB.lossThenOpenAllMine; rw [if_pos hw]

example : ((MSB.new gameSample.view).stepFlow sampleGame).map (fun x => x.1.winThenFlagAllMine.gameBoard) =
    some [[1, 1, 0, 0], [11, 2, 1, 1], [1, 2, 11, 1]] := by decide
example : ((MSB.new gameSample.view).stepFlow [(.rc, (0, 0)), (.rr, (0, 0)), (.lc, (2, 2)), (.lr, (2, 2))]).map
    (fun x => x.1.lossThenOpenAllMine.gameBoard) =
    some [[14, 10, 10, 10], [16, 10, 10, 10], [10, 10, 15, 10]] := by decide

end Ms.Properties
