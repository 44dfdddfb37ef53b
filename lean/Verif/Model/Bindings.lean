import Verif.Model.Mark
import Verif.Model.Poss
import Verif.Model.Game

/-!
# The probability functions of the Python package and of the wasm package

Both packages call `mark_board` on a copy of the caller's board before the probability engine.  `none` is a panic (PyO3
turns it into a `PanicException`; wasm traps).  The conversion of the arguments by PyO3 is not modelled: the
functions take the board itself (JSON texts: `Model/Json`).
-/

namespace Ms

/-- The three messages of the `RuntimeError` the Python functions raise: `标记阶段无解的局面` (no solution, found while
marking), `枚举阶段无解的局面` (no solution, found while enumerating), `未知的错误` (unknown error). -/
inductive PyError | marking | enumeration | unknown
deriving DecidableEq

/-- The call of `mark_board` on the copy, python_package/src/lib.rs 250-254 and 270-274: an error is raised as `marking`,
otherwise `k` continues with the marked copy. -/
def pyMarked {α : Type} (g : Board) (k : Board → Option (Except PyError α)) : Option (Except PyError α) :=
  match markBoard g with
  | none => none
  | some (.error _, _) => some (.error .marking)
  | some (.ok _, h) => k h

/-- `cal_possibility` of the Python package, python_package/src/lib.rs 242-260: only code 1 is reported as a board without
solution. -/
def pyCalPossibility (g : Board) (minenum : ℚ) : Option (Except PyError Poss) :=
  pyMarked g fun h =>
    match calPossibility h minenum with
    | none => none
    | some (.ok t) => some (.ok t)
    | some (.error e) => if e = 1 then some (.error .enumeration) else some (.error .unknown)

/-- `cal_possibility_onboard` of the Python package, python_package/src/lib.rs 262-279: every code is reported as a board
without solution. -/
def pyCalPossibilityOnboard (g : Board) (minenum : ℚ) :
    Option (Except PyError (List (List (Option ℚ)) × Nat × Nat × Nat)) :=
  pyMarked g fun h =>
    match calPossibilityOnboard h minenum with
    | none => none
    | some (.ok t) => some (.ok t)
    | some (.error _) => some (.error .enumeration)

/-- `cal_possibility_onboard` of the wasm package, wasm/src/lib.rs 91-113: the value whose JSON text is returned.  The
result of `mark_board` is ignored; an error of the engine gives an empty matrix and three zeros.  `mine_num` is an `i32`.
(`serde_json` writes a NaN as `null`.) -/
def wasmCalPossibilityOnboard (g : Board) (minenum : Int) : Option (List (List (Option ℚ)) × Nat × Nat × Nat) :=
  match markBoard g with
  | none => none
  | some (_, h) =>
    match calPossibilityOnboard h (minenum : ℚ) with
    | none => none
    | some (.ok t) => some t
    | some (.error _) => some ([], 0, 0, 0)

/-- `get_game_board_2` of the two Python board classes, python_package/src/board.rs 48-80 and 172-204: the shown board with
covered cells as -1 and flags as -2, and the probabilities.  The result of `mark_board` is ignored. -/
def MSB.gameBoard2 (s : MSB) (minenum : ℚ) : Option (List (List ℚ) × List (List (Option ℚ))) :=
  let t1 := s.gameBoard.map fun row => row.map fun x => (((if x = 10 then -1 else if x = 11 then -2 else x) : Int) : ℚ)
  match markBoard (unmark s.gameBoard) with
  | none => none
  | some (_, h) =>
    match calPossibilityOnboard h minenum with
    | some (.ok (t2, _)) => some (t1, t2)
    | _ => none

/-- `step` of the Python and wasm board classes, python_package/src/board.rs 22-24, wasm/src/board.rs 28-30: a refused
event is an `unwrap` of an `Err`, that is a panic. -/
def MSB.pyStep (s : MSB) (e : Ev) (p : Pos) : Option MSB :=
  match s.step e p with
  | some (s', some _) => some s'
  | _ => none

/-- `step_flow` of the Python and wasm board classes, python_package/src/board.rs 28-30, wasm/src/board.rs 31-38. -/
def MSB.pyStepFlow (s : MSB) (ops : List (Ev × Pos)) : Option MSB :=
  match s.stepFlow ops with
  | some (s', true) => some s'
  | _ => none

end Ms
