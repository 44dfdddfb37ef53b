import Verif.Lemmas.GameReach

/-! # Properties C10, C12-C20: opening cells and the game state machine -/

namespace Ms.Properties
open Spec

/-- A 3 x 4 board with correct numbers, two mines. -/
def gameSample : Board :=
  [[1, 1, 0, 0],
   [-1, 2, 1, 1],
   [1, 2, -1, 1]]

theorem gameSample_numbered : Numbered gameSample.view := by unfold Numbered; decide

/-! ## C10 `refresh_board` -/

open Classical in
/-- **C10** On a board without values above 8, `refresh_board` terminates without panicking for every game
board of the same shape and every list of cells of the board; exactly the cells of the cascade `Opens` are
opened and show their number (15 on a mine); if a mine was opened the flags on safe cells become 14; no
other cell changes. -/
theorem C10_refresh_board (v : View) (g : Board) (clicked : List Pos)
    (hv : ∀ p ∈ vcells v, val v p ≤ 8) (hg : Rect g v.row v.col) (hc : ∀ p ∈ clicked, p ∈ vcells v) :
    ∃ g', refreshBoard v g clicked = some g' ∧ Rect g' v.row v.col ∧
      ∀ q ∈ vcells v,
        (Opens v g clicked q → shown g' q = if 0 ≤ val v q then val v q else 15) ∧
        (¬ Opens v g clicked q →
          shown g' q = if (∃ m ∈ vcells v, Opens v g clicked m ∧ val v m < 0) ∧ shown g q = 11 ∧
            val v q ≠ -1 then 14 else shown g q) := by
  obtain ⟨g', h1, h2, h3⟩ := refreshBoard_spec hv hg hc
  refine ⟨g', h1, h2, fun q hq => ⟨fun ho => ?_, fun ho => ?_⟩⟩
  · have := h3 q hq
    rw [if_pos ho] at this; exact this
  · have := h3 q hq
    rw [if_neg ho] at this
    by_cases hx : (∃ m ∈ vcells v, Opens v g clicked m ∧ val v m < 0) ∧ shown g q = 11 ∧ val v q ≠ -1
    · rw [if_pos hx]; rw [if_pos (by exact hx)] at this; exact this
    · rw [if_neg hx]; rw [if_neg (by exact hx)] at this; exact this

/-- **C10** a flagged cell is never opened by the cascade: only by clicking it -/
theorem C10_flags_block (v : View) (g : Board) (clicked : List Pos) (q : Pos) (hf : shown g q = 11)
    (ho : Opens v g clicked q) : q ∈ clicked := by
  cases ho with
  | click h => exact h
  | spread _ _ _ _ h => omega

/-- **C10** a click outside the board panics -/
theorem C10_out_of_range (v : View) (g : Board) (clicked : List Pos) (h : ∃ p ∈ clicked, p ∉ vcells v) :
    refreshBoard v g clicked = none := by
  obtain ⟨p, hp, hn⟩ := h
  unfold refreshBoard
  rw [if_neg]
  intro hall
  rw [List.all_eq_true] at hall
  have := hall p hp
  simp only [Bool.and_eq_true, decide_eq_true_eq] at this
  exact hn (mem_grid.mpr this)

example : refreshBoard gameSample.view (Board.build 3 4 fun i j => if i = 1 ∧ j = 1 then 11 else 10) [(0, 3)] =
    some [[10, 1, 0, 0], [10, 11, 1, 1], [10, 10, 10, 10]] := by decide
example : refreshBoard gameSample.view (Board.build 3 4 fun i j => if i = 1 ∧ j = 1 then 11 else 10) [(1, 0)] =
    some [[10, 10, 10, 10], [15, 14, 10, 10], [10, 10, 10, 10]] := by decide
example : ∀ p ∈ vcells gameSample.view, val gameSample.view p ≤ 8 := by decide

/-! ## the state machine -/

/-- a real game on the sample board: open the opening, flag a mine, chord, finish -/
def sampleGame : List (Ev × Pos) :=
  [(.lc, (0, 3)), (.lr, (0, 3)), (.rc, (2, 2)), (.rr, (2, 2)), (.lc, (1, 2)), (.rc, (1, 2)), (.lr, (1, 2)),
   (.rr, (1, 2)), (.mv, (0, 0)), (.lc, (0, 0)), (.lr, (0, 0)), (.lc, (2, 0)), (.lr, (2, 0))]

/-- summary of a state for the examples -/
def look (o : Option (MSB × Bool)) : Option (GState × Board × List Nat) :=
  o.map fun r => (r.1.state, r.1.gameBoard,
    [r.1.flag, r.1.left, r.1.right, r.1.double, r.1.ce, r.1.bbbvSolved])

example : look ((MSB.new gameSample.view).stepFlow sampleGame) =
    some (.win, [[1, 1, 0, 0], [10, 2, 1, 1], [1, 2, 11, 1]], [1, 3, 1, 1, 5, 5]) := by decide

/-- every prefix of a run is reachable -/
theorem reach_stepFlow {s s' : MSB} {ops : List (Ev × Pos)} {b : Bool} (h : Reach s)
    (hs : s.stepFlow ops = some (s', b)) : Reach s' := by
  induction ops generalizing s with
  | nil =>
    simp only [MSB.stepFlow, Option.some.injEq, Prod.mk.injEq] at hs
    exact hs.1 ▸ h
  | cons op ops ih =>
    unfold MSB.stepFlow at hs
    split at hs
    · simp at hs
    · next s1 e =>
      simp only [Option.some.injEq, Prod.mk.injEq] at hs
      exact hs.1 ▸ .step h e
    · next s1 r e => exact ih (.step h e) hs

/-- **C12** In every reachable state the game board has the shape of the board, a number shown is the true
number of that (safe) cell, and every other cell is covered (10), flagged (11) or, only after a loss, an
opened mine (15) or a flag on a safe cell (14). -/
theorem C12_game_board_never_lies (s : MSB) (h : Reach s) :
    Rect s.gameBoard s.board.row s.board.col ∧ ∀ p ∈ vcells s.board,
      (shown s.gameBoard p < 10 → shown s.gameBoard p = val s.board p ∧ 0 ≤ val s.board p) ∧
      (shown s.gameBoard p ≥ 10 → shown s.gameBoard p = 10 ∨ shown s.gameBoard p = 11 ∨
        (s.state = .loss ∧ shown s.gameBoard p = 15 ∧ val s.board p = -1) ∨
        (s.state = .loss ∧ shown s.gameBoard p = 14 ∧ val s.board p ≠ -1)) := by
  have hi := h.inv.core
  refine ⟨by rw [hi.hrow, hi.hcol]; exact hi.rect, fun p hp => ?_⟩
  rw [hi.vcells] at hp
  have hm := hi.marks p hp
  have hb := hi.bd_range hp
  rw [MSB.bd_val] at hm hb
  rw [MSB.gb_bval, ← shown_eq] at hm
  constructor
  · intro h1
    rcases hm with h | h | h | h
    · omega
    · omega
    · exact ⟨h.1, by omega⟩
    · omega
  · intro h1
    rcases hm with h | h | h | ⟨h, h' | h'⟩
    · exact .inl h
    · exact .inr (.inl h)
    · omega
    · exact .inr (.inr (.inl ⟨h, h'⟩))
    · exact .inr (.inr (.inr ⟨h, h'⟩))

/-- **C12** `step` never changes the board itself -/
theorem C12_board_fixed (s s' : MSB) (e : Ev) (p : Pos) (r : Option Nat) (h : Reach s)
    (hs : s.step e p = some (s', r)) : s'.board = s.board :=
  ((MSB.step_eff hs).frame h.inv).1

example : Reach (MSB.new gameSample.view) := .new gameSample_numbered

/-- **C13** On a board with at least one safe cell, in every reachable state: the state is `Win` exactly
when every safe cell is open. -/
theorem C13_win_iff (s : MSB) (h : Reach s) (hsafe : ∃ p ∈ vcells s.board, val s.board p ≠ -1) :
    s.state = .win ↔ ∀ p ∈ vcells s.board, val s.board p ≠ -1 → shown s.gameBoard p = val s.board p := by
  have hi := h.inv
  rw [hi.core.vcells] at *
  constructor
  · exact fun hw => hi.win hw
  · intro hall
    have hcov : s.state = .ready ∨ s.state = .preFlaging → False := by
      intro hst
      obtain ⟨p, hp, hpm⟩ := hsafe
      have h1 := (hi.pre hst).1 p hp
      have h2 := hall p hp hpm
      have h3 := hi.core.bd_range hp
      rw [MSB.gb_bval, ← shown_eq] at h1
      rw [MSB.bd_val] at h3
      omega
    cases hst : s.state with
    | ready => exact (hcov (.inl hst)).elim
    | preFlaging => exact (hcov (.inr hst)).elim
    | playing =>
      obtain ⟨p, hp, h1, h2⟩ := hi.playing hst
      exact absurd (hall p hp h1) h2
    | loss =>
      obtain ⟨p, hp, h1, h2⟩ := hi.lossOpen hst hsafe
      exact absurd (hall p hp h1) h2
    | win => rfl
    | display => exact absurd hst hi.nd

/-- **C13** while the game is being played a safe cell is still covered, and a won game shows no opened
mine -/
theorem C13_playing (s : MSB) (h : Reach s) :
    (s.state = .playing → ∃ p ∈ vcells s.board, val s.board p ≠ -1 ∧
      (shown s.gameBoard p = 10 ∨ shown s.gameBoard p = 11)) ∧
    (s.state = .win → ∀ p ∈ vcells s.board, shown s.gameBoard p ≠ 15) := by
  have hi := h.inv
  rw [hi.core.vcells]
  constructor
  · intro hst
    obtain ⟨p, hp, h1, h2⟩ := hi.playing hst
    refine ⟨p, hp, h1, ?_⟩
    have := hi.core.marks p hp
    simp only [hst] at this
    rw [shown_eq, ← MSB.gb_bval]
    rcases this with h | h | h | h
    · exact .inl h
    · exact .inr h
    · exact absurd h.1 h2
    · simp at h
  · intro hst p hp
    have := hi.core.marks p hp
    have := hi.core.bd_range hp
    simp only [hst] at *
    rw [shown_eq, ← MSB.gb_bval]
    rcases ‹s.gb p = 10 ∨ _› with h | h | h | h
    · omega
    · omega
    · omega
    · simp at h

/-- **C14** In every reachable state: the state is `Loss` exactly when an opened mine (15) is shown; since
the state is a single value this can not coincide with a `Win`. -/
theorem C14_loss_iff (s : MSB) (h : Reach s) :
    s.state = .loss ↔ ∃ p ∈ vcells s.board, shown s.gameBoard p = 15 := by
  have hi := h.inv
  rw [hi.core.vcells]
  constructor
  · exact fun hl => hi.loss hl
  · rintro ⟨p, hp, h15⟩
    have hm := hi.core.marks p hp
    have hb := hi.core.bd_range hp
    rw [shown_eq, ← MSB.gb_bval] at h15
    rcases hm with h | h | h | h
    · omega
    · omega
    · omega
    · exact h.1

/-- a wrong chord that opens every remaining safe cell and a mine at once is a loss -/
example : look ((MSB.new (Board.view [[-1, 1, 1, -1]])).stepFlow
    [(.lc, (0, 1)), (.lr, (0, 1)), (.rc, (0, 2)), (.rr, (0, 2)), (.lc, (0, 1)), (.rc, (0, 1)), (.lr, (0, 1))]) =
    some (.loss, [[15, 1, 14, 10]], [1, 1, 1, 1, 2, 1]) := by decide

/-- **C15** Once the game is won or lost, every further `step` returns `Ok(0)` and changes nothing. -/
theorem C15_terminal_frozen (s : MSB) (e : Ev) (p : Pos) (h : s.state = .win ∨ s.state = .loss) :
    s.step e p = some (s, some 0) := by
  unfold MSB.step
  rcases h with h | h <;> simp [h]

/-- **C15** also for a whole list of further events -/
theorem C15_terminal_frozen_flow (s : MSB) (ops : List (Ev × Pos)) (h : s.state = .win ∨ s.state = .loss) :
    s.stepFlow ops = some (s, true) := by
  induction ops with
  | nil => rfl
  | cons op ops ih =>
    unfold MSB.stepFlow
    rw [C15_terminal_frozen s op.1 op.2 h]
    exact ih

/-- **C16** In every reachable state `flag` is the number of cells showing 11 or 14, and 14 only occurs
after a loss. -/
theorem C16_flag_counter (s : MSB) (h : Reach s) :
    s.flag = ((vcells s.board).filter fun p => shown s.gameBoard p = 11 ∨ shown s.gameBoard p = 14).card ∧
    (s.state ≠ .loss →
      s.flag = ((vcells s.board).filter fun p => shown s.gameBoard p = 11).card) := by
  have hi := h.inv
  rw [hi.core.vcells]
  have h1 := hi.core.flag
  refine ⟨h1, fun hst => ?_⟩
  rw [h1]
  unfold MSB.flags
  congr 1
  apply Finset.filter_congr
  intro p hp
  have hm := hi.core.marks p hp
  have hb := hi.core.bd_range hp
  simp only [hst, false_and, or_false] at hm
  rw [shown_eq, ← MSB.gb_bval]
  omega

/-! ## C17 no panic -/

/-- A run in which every event is one of the mouse events and in which, while the game is being played,
the right button is pressed on the board only. -/
inductive CleanRun : MSB → Prop
  | new {v : View} : Numbered v → CleanRun (MSB.new v)
  | step {s s' : MSB} {e : Ev} {p : Pos} {r : Option Nat} : CleanRun s → s.step e p = some (s', r) →
      (s.state = .playing → e = .rc → p ∈ vcells s.board) → CleanRun s'
  | reset {s : MSB} : CleanRun s → 0 < s.row → CleanRun s.reset
  | load {s : MSB} {v : View} : CleanRun s → (s.state = .ready ∨ s.state = .preFlaging) → Numbered v →
      v.row = s.row → v.col = s.column → CleanRun { s with board := v }

theorem CleanRun.reach {s : MSB} (h : CleanRun s) : Reach s := by
  induction h with
  | new hv => exact .new hv
  | step _ hs _ ih => exact .step ih hs
  | reset _ h0 ih => exact .reset ih h0
  | load _ a b c d ih => exact .load ih a b c d

theorem CleanRun.rightOk {s : MSB} (h : CleanRun s) : s.RightOk := by
  induction h with
  | new _ => intro hn; simp [MSB.NF, MSB.new] at hn
  | step hr hs hw ih =>
    refine (MSB.step_eff hs).rightOk hr.reach.inv ih ?_
    rw [← hr.reach.inv.core.vcells]; exact hw
  | reset _ _ _ => intro hn; simp [MSB.NF, MSB.reset] at hn
  | load _ _ _ _ _ ih => exact ih

/-- **C17 (partial)** `step` never panics: for every clean run, every event at a cell of the board or at
the outside point `(row, column)`; the events `mr`, `m`, `r` must be on the board and `pf` before the game
must be on a covered cell.  Missing with respect to the full property: right presses outside the board
during play, for which the property is false (`C17_refuted`). -/
theorem C17_no_panic_partial (s : MSB) (h : CleanRun s) (e : Ev) (p : Pos)
    (hp : p ∈ vcells s.board ∨ p = (s.board.row, s.board.col))
    (hmid : e = .mr ∨ e = .m ∨ e = .r → p ∈ vcells s.board)
    (hpf : e = .pf → s.state = .ready ∨ s.state = .preFlaging → p ∈ vcells s.board ∧ shown s.gameBoard p = 10) :
    s.step e p ≠ none := by
  have hi := h.reach.inv
  rw [hi.core.vcells, hi.core.hrow, hi.core.hcol] at *
  exact MSB.step_some hi h.rightOk ⟨hp, hmid, hpf⟩

/-- **C17 (refuted)** with only `lc`, `lr`, `rc` events, at cells of the board or at the outside point,
`step` can panic (the counter `right` underflows): press right outside, press left, release left. -/
theorem C17_refuted : ∃ (v : View) (ops : List (Ev × Pos)), Numbered v ∧
    (∀ op ∈ ops, (op.1 = .lc ∨ op.1 = .lr ∨ op.1 = .rc) ∧ (op.2 ∈ vcells v ∨ op.2 = (v.row, v.col))) ∧
    (MSB.new v).stepFlow ops = none := by
  refine ⟨gameSample.view, [(.lc, (0, 0)), (.lr, (0, 0)), (.rc, (3, 4)), (.lc, (0, 0)), (.lr, (0, 0))],
    gameSample_numbered, by decide, ?_⟩
  have h : ((MSB.new gameSample.view).stepFlow
    [(.lc, (0, 0)), (.lr, (0, 0)), (.rc, (3, 4)), (.lc, (0, 0)), (.lr, (0, 0))]).isNone = true := by decide
  simpa using h

/-! ## C18 reset -/

/-- **C18 (partial)** after `reset()` the machine *is* a fresh machine on the all-zero board of the same size,
provided no flag was standing that had been set before the game began and the middle button was up. -/
theorem C18_reset_partial (s : MSB) (h0 : 0 < s.row) (h1 : s.preFlagNum = 0) (h2 : s.middleHold = false) :
    s.reset = MSB.new (Board.build s.row s.column fun _ _ => 0).view := by
  have hr : (Board.build s.row s.column fun _ _ => 0).view.row = s.row := (rect_build _ _ _).row_eq
  have hc : (Board.build s.row s.column fun _ _ => 0).view.col = s.column := (rect_build _ _ _).col_eq h0
  unfold MSB.reset MSB.new
  rw [hr, hc, h1, h2]

/-- **C18 (partial)** in every case `reset()` restores all fields but these two -/
theorem C18_reset_fields_partial (s : MSB) (h0 : 0 < s.row) :
    s.reset = { MSB.new (Board.build s.row s.column fun _ _ => 0).view with
      preFlagNum := s.preFlagNum, middleHold := s.middleHold } := by
  have hr : (Board.build s.row s.column fun _ _ => 0).view.row = s.row := (rect_build _ _ _).row_eq
  have hc : (Board.build s.row s.column fun _ _ => 0).view.col = s.column := (rect_build _ _ _).col_eq h0
  unfold MSB.reset MSB.new
  simp only [hr, hc]

/-- **C18 (refuted)** A machine reset after a pre-flag behaves differently from a fresh one: pressing the
left button and releasing it outside leaves it in `PreFlaging` instead of `Ready`. -/
theorem C18_refuted : ∃ (s : MSB) (ops : List (Ev × Pos)), Reach s ∧ 0 < s.row ∧
    (s.reset.stepFlow ops).map (fun r => r.1.state) ≠
    ((MSB.new (Board.build s.row s.column fun _ _ => 0).view).stepFlow ops).map (fun r => r.1.state) := by
  cases hs : (MSB.new gameSample.view).step .rc (0, 0) with
  | none =>
    have h : ((MSB.new gameSample.view).step .rc (0, 0)).isSome = true := by decide
    rw [hs] at h; simp at h
  | some x =>
    obtain ⟨s, r⟩ := x
    refine ⟨s, [(.lc, (0, 0)), (.lr, (3, 4))], .step (.new gameSample_numbered) hs, ?_, ?_⟩
    · have h : (((MSB.new gameSample.view).step .rc (0, 0)).map fun x => x.1.row) = some 3 := by decide
      rw [hs] at h
      simp only [Option.map_some, Option.some.injEq] at h
      omega
    · have h : (((MSB.new gameSample.view).step .rc (0, 0)).map fun x =>
        decide ((x.1.reset.stepFlow [(.lc, (0, 0)), (.lr, (3, 4))]).map (fun r => r.1.state) ≠
        ((MSB.new (Board.build x.1.row x.1.column fun _ _ => 0).view).stepFlow
          [(.lc, (0, 0)), (.lr, (3, 4))]).map (fun r => r.1.state))) = some true := by decide
      rw [hs] at h
      simpa using h

/-! ## C19 `step_flow` -/

/-- **C19** running `ops₁ ++ ops₂` is running `ops₁` and, if that ended with `Ok`, then `ops₂` -/
theorem C19_step_flow_append (s : MSB) (ops₁ ops₂ : List (Ev × Pos)) :
    s.stepFlow (ops₁ ++ ops₂) =
      (s.stepFlow ops₁).bind fun r => if r.2 then r.1.stepFlow ops₂ else some r := by
  induction ops₁ generalizing s with
  | nil => rfl
  | cons op ops ih =>
    simp only [List.cons_append, MSB.stepFlow]
    split
    · rfl
    · simp
    · exact ih _

/-- **C19** `step_flow` is the iteration of `step`: it is `Ok` exactly when there are intermediate states
joined by `Ok` steps. -/
theorem C19_step_flow_ok (s s' : MSB) (ops : List (Ev × Pos)) :
    s.stepFlow ops = some (s', true) ↔
      ∃ states : List MSB, states.length = ops.length + 1 ∧ states[0]? = some s ∧
        states[ops.length]? = some s' ∧ ∀ i (hi : i < ops.length), ∃ a b k, states[i]? = some a ∧
          states[i + 1]? = some b ∧ a.step ops[i].1 ops[i].2 = some (b, some k) := by
  induction ops generalizing s with
  | nil =>
    simp only [MSB.stepFlow, Option.some.injEq, Prod.mk.injEq, and_true]
    constructor
    · rintro rfl
      exact ⟨[s], rfl, rfl, rfl, by simp⟩
    · rintro ⟨st, _, h1, h2, _⟩
      simp only [List.length_nil] at h2
      rw [h1] at h2
      simpa using h2
  | cons op ops ih =>
    constructor
    · intro h
      unfold MSB.stepFlow at h
      split at h
      · simp at h
      · simp at h
      · next s1 k e =>
        obtain ⟨st, h1, h2, h3, h4⟩ := (ih s1).mp h
        refine ⟨s :: st, by simp [h1], rfl, by simpa using h3, ?_⟩
        intro i hi
        cases i with
        | zero => exact ⟨s, s1, k, rfl, by simpa using h2, e⟩
        | succ i =>
          obtain ⟨a, b, k, ha, hb, hk⟩ := h4 i (by simpa using hi)
          exact ⟨a, b, k, by simpa using ha, by simpa using hb, hk⟩
    · rintro ⟨st, h1, h2, h3, h4⟩
      cases st with
      | nil => simp at h1
      | cons a st =>
        simp only [List.getElem?_cons_zero, Option.some.injEq] at h2
        subst h2
        obtain ⟨a', b, k, ha, hb, hk⟩ := h4 0 (by simp)
        simp only [List.getElem?_cons_zero, Option.some.injEq] at ha
        subst ha
        simp only [List.getElem_cons_zero] at hk
        unfold MSB.stepFlow
        rw [hk]
        simp only
        apply (ih b).mpr
        refine ⟨st, by simpa using h1, by simpa using hb, by simpa using h3, ?_⟩
        intro i hi
        obtain ⟨a, b, k, ha, hb, hk⟩ := h4 (i + 1) (by simpa using hi)
        exact ⟨a, b, k, by simpa using ha, by simpa using hb, by simpa using hk⟩

/-- **C19** it stops at the first `Err`, keeping the state reached there -/
theorem C19_step_flow_err (s s' s'' : MSB) (ops₁ ops₂ : List (Ev × Pos)) (e : Ev) (p : Pos)
    (h1 : s.stepFlow ops₁ = some (s', true)) (h2 : s'.step e p = some (s'', none)) :
    s.stepFlow (ops₁ ++ (e, p) :: ops₂) = some (s'', false) := by
  rw [C19_step_flow_append, h1]
  simp [MSB.stepFlow, h2]

example : (MSB.new gameSample.view).step .rr (0, 0) = some (MSB.new gameSample.view, none) := rfl

end Ms.Properties
