import Verif.Model.Basic

/-!
# `refresh_board` (utils.rs 598-640) and `MinesweeperBoard` (videos/minesweeper_board.rs)

`Option` is a panic (`none`): index out of bounds, counter underflow, failed `assert!`.  Exhausted fuel is
also `none`; the lemmas show that the fuel provided always suffices.
-/

namespace Ms

/-! ## `refresh_board` -/

/-- State of the `while let Some(top) = clicked_poses.pop()` loop: the stack (top first), the game board and
`loss_flag`.  One iteration on the popped cell `(i,j)`, utils.rs 613-631.  The cells pushed, in pushing order,
end on top of the stack in reverse order. -/
def refreshVisit (v : View) (g : Board) (loss : Bool) (p : Pos) : Board × Bool × List Pos :=
  if v.get p.1 p.2 > 0 then (g.set p.1 p.2 (v.get p.1 p.2), loss, [])
  else if v.get p.1 p.2 = 0 then
    let g' := g.set p.1 p.2 0
    (g', loss, ((block v.row v.col p.1 p.2).filter fun q =>
      decide (¬ (p.1 = q.1 ∧ p.2 = q.2)) && (decide (g'.get q.1 q.2 = 10) || decide (g'.get q.1 q.2 = 12))).reverse)
  else (g.set p.1 p.2 15, true, [])

/-- The `while` loop, utils.rs 612-632. -/
def refreshLoop (v : View) : Nat → List Pos → Board → Bool → Option (Board × Bool)
  | _, [], g, loss => some (g, loss)
  | 0, _ :: _, _, _ => none
  | fuel + 1, p :: st, g, loss =>
    let r := refreshVisit v g loss p
    refreshLoop v fuel (r.2.2 ++ st) r.1 r.2.1

/-- Crossing out the wrong flags after a loss, utils.rs 634-642: a loop over all cells. -/
def crossWrong (v : View) (g : Board) : Board :=
  (cells v.row v.col).foldl (fun g p =>
    if g.get p.1 p.2 = 11 ∧ v.get p.1 p.2 ≠ -1 then g.set p.1 p.2 14 else g) g

/-- `refresh_board`, utils.rs 600-640.  `clicked` is the `Vec` in order; `pop` takes its last element.
Positions outside the board panic. -/
def refreshBoard (v : View) (g : Board) (clicked : List Pos) : Option Board :=
  if clicked.all (fun p => decide (p.1 < v.row) && decide (p.2 < v.col)) then
    (refreshLoop v (17 * (v.row * v.col) + clicked.length) clicked.reverse g false).map fun r =>
      if r.2 then crossWrong v r.1 else r.1
  else none

/-! ## The state machine -/

/-- `MouseState`, minesweeper_board.rs 856-872. -/
inductive Mouse
  | upUp | upDown | upDownNotFlag | downUp | chording | chordingNotFlag | downUpAfterChording | undefined
deriving DecidableEq

/-- `GameBoardState`, minesweeper_board.rs 874-884. -/
inductive GState
  | ready | preFlaging | playing | loss | win | display
deriving DecidableEq

/-- The event strings `step` distinguishes (minesweeper_board.rs 411-797); `other` is any other string. -/
inductive Ev
  | lc | lr | rc | rr | mc | mr | mv | cc | pf | l | r | m | crl | crr | other
deriving DecidableEq

/-- `MinesweeperBoard<T>`, minesweeper_board.rs 38-64, with the board behind its `View`. -/
structure MSB where
  board : View
  gameBoard : Board
  flagedList : List Pos
  left : Nat
  right : Nat
  double : Nat
  ce : Nat
  flag : Nat
  bbbvSolved : Nat
  row : Nat
  column : Nat
  mouse : Mouse
  state : GState
  pointerX : Nat
  pointerY : Nat
  preFlagNum : Nat
  middleHold : Bool

/-- `MinesweeperBoard::new`, minesweeper_board.rs 116-128, 150-162. -/
def MSB.new (v : View) : MSB :=
  { board := v, gameBoard := Board.build v.row v.col fun _ _ => 10, flagedList := [], left := 0, right := 0,
    double := 0, ce := 0, flag := 0, bbbvSolved := 0, row := v.row, column := v.col, mouse := .upUp,
    state := .ready, pointerX := 0, pointerY := 0, preFlagNum := 0, middleHold := false }

/-- `reset`, minesweeper_board.rs 130-146 (`pre_flag_num` and `middle_hold` are not reset). -/
def MSB.reset (s : MSB) : MSB :=
  { s with
    gameBoard := Board.build s.row s.column fun _ _ => 10
    board := (Board.build s.row s.column fun _ _ => 0).view
    left := 0, right := 0, double := 0, ce := 0, flag := 0, bbbvSolved := 0, flagedList := []
    mouse := .upUp, state := .ready, pointerX := 0, pointerY := 0 }

namespace MSB

/-- `game_board[x][y]` / `board[x][y]` do not panic. -/
def inRange (s : MSB) (p : Pos) : Bool := decide (p.1 < s.row) && decide (p.2 < s.column)

/-- `self.game_board[x][y]` -/
def gb (s : MSB) (p : Pos) : Int := s.gameBoard.get p.1 p.2

/-- `self.board[x][y]` -/
def bd (s : MSB) (p : Pos) : Int := s.board.get p.1 p.2

/-- `cell_is_bbbv`, minesweeper_board.rs 311-329. -/
def cellIsBbbv (s : MSB) (p : Pos) : Bool :=
  if s.bd p ≤ 0 then false
  else (block s.row s.column p.1 p.2).all fun q => decide (s.bd q ≠ 0)

/-- Loop of `cell_is_op_completed`, minesweeper_board.rs 360-383.  `marks` is the list of marked cells
(`game_board_mark`); the stack has its top first.  Result: `(answer, marks)`. -/
def opCompletedLoop (s : MSB) : Nat → List Pos → List Pos → Option (Bool × List Pos)
  | _, [], marks => some (true, marks)
  | 0, _ :: _, _ => none
  | fuel + 1, p :: st, marks =>
    if s.bd p > 0 then opCompletedLoop s fuel st marks
    else if s.bd p = 0 then
      if s.gb p = 11 then some (false, marks)
      else
        let marks' := p :: marks
        opCompletedLoop s fuel
          (((block s.row s.column p.1 p.2).filter fun q =>
            decide (¬ (p.1 = q.1 ∧ p.2 = q.2)) && decide (q ∉ marks')).reverse ++ st) marks'
    else opCompletedLoop s fuel st marks

/-- `cell_is_op_completed`, minesweeper_board.rs 354-384. -/
def cellIsOpCompleted (s : MSB) (p : Pos) (marks : List Pos) : Option (Bool × List Pos) :=
  opCompletedLoop s (128 * (s.row * s.column) + 128) [p] marks

/-- body of the loop of `op_num_around_cell`, minesweeper_board.rs 342-346 -/
def opNumStep (s : MSB) (st : Nat × List Pos) (q : Pos) : Option (Nat × List Pos) :=
  if s.gb q = 10 ∧ s.bd q = 0 ∧ q ∉ st.2 then
    (s.cellIsOpCompleted q st.2).map fun r => (if r.1 then st.1 + 1 else st.1, r.2)
  else some st

/-- `op_num_around_cell`, minesweeper_board.rs 333-350. -/
def opNumAroundCell (s : MSB) (p : Pos) : Option Nat :=
  ((block s.row s.column p.1 p.2).foldlM (m := Option) s.opNumStep (0, [])).map (·.1)

/-- The check made on one cell by `is_win`: `none` continue, `some moved`: return false, moving the
pointer here or not (minesweeper_board.rs 817-825, 829-838). -/
def winCheck (s : MSB) (p : Pos) : Option Bool :=
  if s.gb p < 10 ∧ s.gb p ≠ s.bd p then some false
  else if s.gb p ≥ 10 ∧ s.bd p ≠ -1 then some true
  else none

/-- The scan of `is_win` over a list of cells: `(answer, new pointer)`. -/
def winScan (s : MSB) : List Pos → Bool × Pos
  | [] => (true, (s.pointerX, s.pointerY))
  | p :: l =>
    match s.winCheck p with
    | none => winScan s l
    | some true => (false, p)
    | some false => (false, (s.pointerX, s.pointerY))

/-- The cells visited by `is_win`, in order: the rest of the pointer's row (minesweeper_board.rs 816), then
all later rows (827-828). -/
def winCells (s : MSB) : List Pos :=
  ((rng s.pointerY s.column).map fun j => (s.pointerX, j)) ++
  (rng (s.pointerX + 1) s.row).flatMap fun i => (rng 0 s.column).map fun j => (i, j)

/-- `if self.is_win() { self.game_board_state = Win }`, minesweeper_board.rs 811-842 and its callers
(184-186, 200-202, 302-304). -/
def checkWin (s : MSB) : MSB :=
  let r := s.winScan s.winCells
  let s' := { s with pointerX := r.2.1, pointerY := r.2.2 }
  if r.1 then { s' with state := .win } else s'

/-- `left_click`, minesweeper_board.rs 167-206. -/
def leftClick (s : MSB) (p : Pos) : Option (MSB × Option Nat) :=
  if ¬ s.inRange p then none
  else
    let s := { s with left := s.left + 1 }
    if s.gb p ≠ 10 then some (s, some 0)
    else if s.bd p = 0 then
      (s.cellIsOpCompleted p []).bind fun r =>
        let s := if r.1 then { s with bbbvSolved := s.bbbvSolved + 1 } else s
        let s := { s with ce := s.ce + 1 }
        (refreshBoard s.board s.gameBoard [p]).map fun g =>
          ({ s with gameBoard := g }.checkWin, some 2)
    else if s.bd p = -1 then
      (refreshBoard s.board s.gameBoard [p]).map fun g =>
        ({ s with gameBoard := g, state := .loss }, some 0)
    else
      (refreshBoard s.board s.gameBoard [p]).map fun g =>
        let s := { s with gameBoard := g }
        let s := if s.cellIsBbbv p then { s with bbbvSolved := s.bbbvSolved + 1 } else s
        ({ s with ce := s.ce + 1 }.checkWin, some 2)

/-- `right_click`, minesweeper_board.rs 208-249.  `flag -= 1` panics at zero. -/
def rightClick (s : MSB) (p : Pos) : Option (MSB × Option Nat) :=
  if ¬ s.inRange p then none
  else
    let s := { s with right := s.right + 1 }
    if s.gb p < 10 then some (s, some 0)
    else if s.gb p = 10 then
      let s' := { s with gameBoard := s.gameBoard.set p.1 p.2 11, flag := s.flag + 1 }
      if s.bd p ≠ -1 then some (s', some 1)
      else
        let s' := if p ∉ s'.flagedList then { s' with ce := s'.ce + 1 } else s'
        some ({ s' with flagedList := s'.flagedList ++ [p] }, some 1)
    else if s.gb p = 11 then
      if s.flag = 0 then none
      else some ({ s with gameBoard := s.gameBoard.set p.1 p.2 10, flag := s.flag - 1 }, some 1)
    else some (s, none)

/-- The neighbours of `p`, as `chording_click` visits them, minesweeper_board.rs 265-267. -/
def ring (s : MSB) (p : Pos) : List Pos :=
  (block s.row s.column p.1 p.2).filter fun q => decide (¬ (q.1 = p.1 ∧ q.2 = p.2))

/-- `chording_click`, minesweeper_board.rs 251-309. -/
def chordingClick (s : MSB) (p : Pos) : Option (MSB × Option Nat) :=
  if ¬ s.inRange p then none
  else
    let s := { s with double := s.double + 1 }
    if s.gb p = 0 ∨ s.gb p ≥ 8 then some (s, some 0)
    else
      let flagedNum := ((s.ring p).filter fun q => decide (s.gb q = 11)).length
      let chordingCells := (s.ring p).filter fun q => decide (s.gb q = 10)
      let surround := (chordingCells.filter fun q => decide (s.bd q > 0) && s.cellIsBbbv q).length
      if (flagedNum : Int) = s.gb p ∧ chordingCells ≠ [] then
        let s := { s with
          state := if chordingCells.any (fun q => decide (s.bd q = -1)) then .loss else s.state }
        let s := { s with ce := s.ce + 1, bbbvSolved := s.bbbvSolved + surround }
        (s.opNumAroundCell p).bind fun n =>
          let s := { s with bbbvSolved := s.bbbvSolved + n }
          (refreshBoard s.board s.gameBoard chordingCells).map fun g =>
            ({ s with gameBoard := g }.checkWin, some 3)
      else some (s, some 0)

/-- `clear_click_num`, minesweeper_board.rs 844-850. -/
def clearClickNum (s : MSB) : MSB :=
  { s with flag := 0, flagedList := [], double := 0, left := 0, right := 0 }

end MSB

/-- Outcome of the first `match` of `step`: a panic, an early `return`, or falling through. -/
inductive Flow
  | panic
  | ret (s : MSB) (r : Option Nat)
  | go (s : MSB)

/-- an early `return self.xxx_click(..)` -/
def Flow.ofClick : Option (MSB × Option Nat) → Flow
  | none => .panic
  | some (s, r) => .ret s r

namespace MSB

/-- `return Ok(0)` -/
abbrev ok0 (s : MSB) : Flow := .ret s (some 0)

/-- the `GameBoardState::Ready` arm of `step`, minesweeper_board.rs 411-490 -/
def stepReady (s : MSB) (e : Ev) (p : Pos) : Flow :=
  match e with
  | .mv => ok0 s
  | .lc =>
    match s.mouse with
    | .upUp =>
      let s := { s with mouse := .downUp }
      if s.inRange p then ok0 { s with state := .preFlaging } else ok0 s
    | .upDown => ok0 { s with mouse := .chording }
    | .upDownNotFlag => ok0 { s with mouse := .chordingNotFlag }
    | _ => .ret s none
  | .pf =>
    if s.inRange p then
      if s.gb p = 10 then
        .ofClick ({ s with preFlagNum := s.preFlagNum + 1, state := .preFlaging }.rightClick p)
      else .panic
    else .panic
  | .rc =>
    match s.mouse with
    | .upUp =>
      let s := { s with mouse := .upDown }
      if s.inRange p then .ofClick ({ s with preFlagNum := 1, state := .preFlaging }.rightClick p)
      else ok0 s
    | .downUpAfterChording => ok0 { s with mouse := .chording }
    | _ => .ret s none
  | .lr =>
    match s.mouse with
    | .chording | .chordingNotFlag => ok0 { s with mouse := .upDown }
    | .downUpAfterChording => ok0 { s with mouse := .upUp }
    | .downUp | .upUp => ok0 { s with mouse := .upUp }
    | _ => .ret s none
  | .rr =>
    match s.mouse with
    | .upDown => ok0 { s with mouse := .upUp }
    | .chording => ok0 { s with mouse := .downUpAfterChording }
    | _ => .ret s none
  | .cc =>
    match s.mouse with
    | .downUp => ok0 { s with mouse := .chording }
    | .downUpAfterChording => ok0 { s with mouse := .chording }
    | .upDown => ok0 { s with mouse := .chording }
    | .upDownNotFlag => ok0 { s with mouse := .chordingNotFlag }
    | _ => .ret s none
  | _ => .ret s none

/-- `pos.0 == self.row && pos.1 == self.column` -/
def atOutside (s : MSB) (p : Pos) : Bool := decide (p.1 = s.row) && decide (p.2 = s.column)

/-- the `GameBoardState::PreFlaging` arm of `step`, minesweeper_board.rs 491-581 -/
def stepPreFlaging (s : MSB) (e : Ev) (p : Pos) : Flow :=
  match e with
  | .lc | .rr | .mv => .go s
  | .lr =>
    match s.mouse with
    | .downUp =>
      if s.atOutside p then
        let s := { s with mouse := .upUp }
        if s.preFlagNum = 0 then ok0 { s with state := .ready }.clearClickNum else ok0 s
      else if s.inRange p then
        if s.gb p = 10 then .go { s with state := .playing } else .go { s with mouse := .upUp }
      else .panic
    | .chording | .downUpAfterChording | .chordingNotFlag | .upUp | .undefined => .go s
    | _ => .ret s none
  | .pf =>
    if s.inRange p then
      if s.gb p = 10 then .ofClick ({ s with preFlagNum := s.preFlagNum + 1 }.rightClick p) else .panic
    else .panic
  | .rc =>
    match s.mouse with
    | .upUp =>
      let s := { s with mouse := .upDown }
      if s.inRange p then
        if s.gb p = 10 then
          .ofClick ({ s with preFlagNum := s.preFlagNum + 1, state := .preFlaging }.rightClick p)
        else if s.preFlagNum = 0 then .panic
        else
          let s := { s with preFlagNum := s.preFlagNum - 1 }
          if s.preFlagNum = 0 then
            ok0 { s with state := .ready, flag := 0, flagedList := [], double := 0, left := 0, right := 0,
                         gameBoard := s.gameBoard.set p.1 p.2 10 }
          else .ofClick (s.rightClick p)
      else .go s
    | .downUp =>
      let s := { s with mouse := .chording }
      if s.inRange p ∧ s.preFlagNum = 0 then .go { s with state := .ready } else .go s
    | .downUpAfterChording => .go { s with mouse := .chording }
    | _ => .ret s none
  | .cc =>
    match s.mouse with
    | .downUp =>
      let s := if s.inRange p ∧ s.preFlagNum = 0 then { s with state := .ready } else s
      ok0 { s with mouse := .chording }
    | .downUpAfterChording => ok0 { s with mouse := .chording }
    | .upDown => ok0 { s with mouse := .chording }
    | .upDownNotFlag => ok0 { s with mouse := .chordingNotFlag }
    | _ => .ret s none
  | _ => .ret s none

/-- `self.right -= 1` with its underflow panic, then the outside test, then `chording_click`
(e.g. minesweeper_board.rs 616-623, 633-640) -/
def releaseNotFlag (s : MSB) (p : Pos) : Option (MSB × Option Nat) :=
  if s.right = 0 then none
  else
    let s := { s with right := s.right - 1 }
    if s.atOutside p then some (s, some 0) else s.chordingClick p

/-- outside test, then `chording_click` (e.g. minesweeper_board.rs 608-614) -/
def releaseChord (s : MSB) (p : Pos) : Option (MSB × Option Nat) :=
  if s.atOutside p then some (s, some 0) else s.chordingClick p

/-- outside test, then `left_click` (e.g. minesweeper_board.rs 600-607) -/
def releaseLeft (s : MSB) (p : Pos) : Option (MSB × Option Nat) :=
  if s.atOutside p then some (s, some 0) else s.leftClick p

/-- the second `match` of `step` ("playing"), minesweeper_board.rs 586-798 -/
def stepPlaying (s : MSB) (e : Ev) (p : Pos) : Option (MSB × Option Nat) :=
  match e with
  | .lc =>
    match s.mouse with
    | .upUp => some ({ s with mouse := .downUp }, some 0)
    | .upDown => some ({ s with mouse := .chording }, some 0)
    | .upDownNotFlag => some ({ s with mouse := .chordingNotFlag }, some 0)
    | .downUp | .downUpAfterChording | .chording | .chordingNotFlag => some (s, some 0)
    | .undefined => some ({ s with mouse := .downUp }, some 0)
  | .lr =>
    match s.mouse with
    | .downUp => { s with mouse := .upUp }.releaseLeft p
    | .chording => { s with mouse := .upDown }.releaseChord p
    | .downUpAfterChording => some ({ s with mouse := .upUp }, some 0)
    | .chordingNotFlag => { s with mouse := .upDown }.releaseNotFlag p
    | .upDown | .upDownNotFlag => some (s, some 0)
    | .upUp | .undefined => some ({ s with mouse := .upUp }, some 0)
  | .l =>
    match s.mouse with
    | .downUp => { s with mouse := .upUp }.releaseLeft p
    | .chording => { s with mouse := .upDown }.releaseChord p
    | .downUpAfterChording => some ({ s with mouse := .upUp }, some 0)
    | .chordingNotFlag => { s with mouse := .upDown }.releaseNotFlag p
    | .upUp => some ({ s with mouse := .downUp }, some 0)
    | .upDown => some ({ s with mouse := .chording }, some 0)
    | .upDownNotFlag => some ({ s with mouse := .chordingNotFlag }, some 0)
    | .undefined => some ({ s with mouse := .upUp }, some 0)
  | .rc =>
    match s.mouse with
    | .upUp =>
      if s.inRange p then
        if s.gb p < 10 then { s with mouse := .upDownNotFlag }.rightClick p
        else { s with mouse := .upDown }.rightClick p
      else some ({ s with mouse := .upDownNotFlag }, some 0)
    | .downUp => some ({ s with mouse := .chording }, some 0)
    | .downUpAfterChording => some ({ s with mouse := .chording }, some 0)
    | .upDown | .upDownNotFlag | .chording | .chordingNotFlag => some (s, some 0)
    | .undefined => some ({ s with mouse := .upDown }, some 0)
  | .rr =>
    match s.mouse with
    | .upDown => some ({ s with mouse := .upUp }, some 0)
    | .upDownNotFlag => some ({ s with mouse := .upUp }, some 0)
    | .chording => { s with mouse := .downUpAfterChording }.releaseChord p
    | .chordingNotFlag => { s with mouse := .downUpAfterChording }.releaseNotFlag p
    | .downUp | .downUpAfterChording => some (s, some 0)
    | .upUp | .undefined => some ({ s with mouse := .upUp }, some 0)
  | .r =>
    match s.mouse with
    | .upDown => some ({ s with mouse := .upUp }, some 0)
    | .upDownNotFlag => some ({ s with mouse := .upUp }, some 0)
    | .chording => { s with mouse := .downUpAfterChording }.releaseChord p
    | .chordingNotFlag => { s with mouse := .downUpAfterChording }.releaseNotFlag p
    | .upUp =>
      if s.inRange p then
        if s.gb p < 10 then { s with mouse := .upDownNotFlag }.rightClick p
        else { s with mouse := .upDown }.rightClick p
      else none
    | .downUp => some ({ s with mouse := .chording }, some 0)
    | .downUpAfterChording => some ({ s with mouse := .chording }, some 0)
    | .undefined => some ({ s with mouse := .upUp }, some 0)
  | .mv => some (s, some 0)
  | .mc => some ({ s with middleHold := true }, some 0)
  | .mr => { s with middleHold := false }.chordingClick p
  | .m =>
    let s := { s with middleHold := !s.middleHold }
    if !s.middleHold then s.chordingClick p else some (s, some 0)
  | .cc =>
    match s.mouse with
    | .downUp => some ({ s with mouse := .chording }, some 0)
    | .downUpAfterChording => some ({ s with mouse := .chording }, some 0)
    | .upDown => some ({ s with mouse := .chording }, some 0)
    | .upDownNotFlag => some ({ s with mouse := .chordingNotFlag }, some 0)
    | _ => some (s, none)
  | .crl =>
    match s.mouse with
    | .chording => { s with mouse := .upDown }.releaseChord p
    | .chordingNotFlag => { s with mouse := .upDown }.releaseNotFlag p
    | _ => some (s, none)
  | .crr =>
    match s.mouse with
    | .chording => { s with mouse := .downUpAfterChording }.releaseChord p
    | .chordingNotFlag => { s with mouse := .downUpAfterChording }.releaseNotFlag p
    | _ => some (s, none)
  | .pf | .other => some (s, none)

/-- `step`, minesweeper_board.rs 392-800: `none` = panic, `some (s, some k)` = `Ok(k)`,
`some (s, none)` = `Err(())`. -/
def step (s : MSB) (e : Ev) (p : Pos) : Option (MSB × Option Nat) :=
  let first : Flow := match s.state with
    | .ready => s.stepReady e p
    | .preFlaging => s.stepPreFlaging e p
    | .playing => .go s
    | _ => .ret s (some 0)
  match first with
  | .panic => none
  | .ret s r => some (s, r)
  | .go s => s.stepPlaying e p

/-- `step_flow`, minesweeper_board.rs 801-810: `none` = panic; `some (s, true)` = `Ok(())`,
`some (s, false)` = `Err(())` with the state at that moment. -/
def stepFlow (s : MSB) : List (Ev × Pos) → Option (MSB × Bool)
  | [] => some (s, true)
  | op :: ops =>
    match s.step op.1 op.2 with
    | none => none
    | some (s', none) => some (s', false)
    | some (s', some _) => stepFlow s' ops

end MSB
end Ms
