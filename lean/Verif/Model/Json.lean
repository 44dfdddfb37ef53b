import Verif.Model.Bindings
import Verif.Model.Gen
import Verif.Model.Metrics
import Verif.Model.Whole

/-!
# Boards and operations as JSON texts: the wasm package

The functions of the wasm package take boards and operations as JSON texts.  `serde_json::from_str` is a parameter
`parse : List Char → Option JVal` (`none`: not JSON; the `unwrap` of the result panics): `serde_json` is not part of this
code base.  What is assumed of it is written down in `SpecJson.lean`.  `none` as a result is a panic throughout.
-/

namespace Ms

/-- `serde_json::Value`.  An integer is held as a `u64`, or as an `i64` when it is negative; every other number is an `f64`
(`float`; its value plays no role here), among them `-0`, `1.0` and the integers that fit neither type.  The contents of an
object play no role. -/
inductive JVal
  | null
  | bool (b : Bool)
  | int (n : Int)
  | float
  | str (s : List Char)
  | arr (l : List JVal)
  | obj

/-- `Value::as_array` -/
def JVal.asArray : JVal → Option (List JVal)
  | .arr l => some l
  | _ => none

/-- `Value::as_i64` -/
def JVal.asI64 : JVal → Option Int
  | .int n => if -2 ^ 63 ≤ n ∧ n < 2 ^ 63 then some n else none
  | _ => none

/-- `Value::as_u64` -/
def JVal.asU64 : JVal → Option Nat
  | .int n => if 0 ≤ n ∧ n < 2 ^ 64 then some n.toNat else none
  | _ => none

/-- `Value::as_str` -/
def JVal.asStr : JVal → Option (List Char)
  | .str s => some s
  | _ => none

/-- `Value::get` with a number: an element of an array -/
def JVal.get (v : JVal) (i : Nat) : Option JVal := v.asArray.bind (·[i]?)

/-- `n as i32` for an `i64` -/
def wrapI32 (n : Int) : Int := Int.bmod n (2 ^ 32)

/-- The closure of wasm/src/transfor.rs 17, `x.as_i64().unwrap() as i32`. -/
def jsonCell (v : JVal) : Option Int := v.asI64.map wrapI32

/-- The body of the loop of `json2vec`, wasm/src/transfor.rs 12-19. -/
def jsonRow (v : JVal) : Option (List Int) := v.asArray.bind fun l => l.mapM jsonCell

/-- `json2vec`, wasm/src/transfor.rs 6-22; the same lines are written out in `cal_bbbv`, `cal_op` and
`cal_possibility_onboard`, wasm/src/lib.rs 53-66, 73-86, 93-106. -/
def json2vec (parse : List Char → Option JVal) (text : List Char) : Option Board :=
  (parse text).bind fun v => v.asArray.bind fun l => l.mapM jsonRow

/-- An integer as `serde_json` writes it: decimal digits, a minus sign before them if it is negative. -/
def intText (n : Int) : List Char :=
  if n < 0 then '-' :: Nat.toDigits 10 n.natAbs else Nat.toDigits 10 n.natAbs

/-- A list as `serde_json` writes it: brackets, and commas between the elements. -/
def listText (l : List (List Char)) : List Char := '[' :: (List.intercalate [','] l ++ [']'])

/-- `vec2json` for a board, wasm/src/transfor.rs 25-27; `serde_json::to_string` of a board in wasm/src/lib.rs 116-157. -/
def vec2json (b : Board) : List Char := listText (b.map fun r => listText (r.map intText))

/-- The body of the loop of `trans_opt`, wasm/src/transfor.rs 35-41; `usz` is the number of values of a `usize` (2^32 on
wasm32). -/
def jsonOp (usz : Nat) (v : JVal) : Option (List Char × Pos) := do
  let e ← (← v.get 0).asStr
  let x ← (← v.get 1).asU64
  let y ← (← v.get 2).asU64
  return (e, (x % usz, y % usz))

/-- `trans_opt`, wasm/src/transfor.rs 29-44. -/
def transOpt (parse : List Char → Option JVal) (usz : Nat) (text : List Char) : Option (List (List Char × Pos)) :=
  (parse text).bind fun v => v.asArray.bind fun l => l.mapM (jsonOp usz)

/-- `cal_bbbv`, wasm/src/lib.rs 51-68: `as i32` of a count.  On a board without rows `ms::cal_bbbv` panics
(`board[0]`, safe_board.rs 234-236). -/
def wasmCalBbbv (parse : List Char → Option JVal) (text : List Char) : Option Int :=
  (json2vec parse text).bind fun b => if b.row = 0 then none else some (wrapI32 (calBbbv b.view))

/-- `cal_op`, wasm/src/lib.rs 71-88. -/
def wasmCalOp (parse : List Char → Option JVal) (text : List Char) : Option Int :=
  (json2vec parse text).bind fun b => if b.row = 0 then none else some (wrapI32 (calOp b.view))

/-- `cal_possibility_onboard`, wasm/src/lib.rs 91-113, up to writing the result as a text. -/
def wasmCalPossibilityText (parse : List Char → Option JVal) (text : List Char) (minenum : Int) :
    Option (List (List (Option ℚ)) × Nat × Nat × Nat) :=
  (json2vec parse text).bind fun b => wasmCalPossibilityOnboard b minenum

/-- An `i32` `as usize` on a machine with `usz` values of a `usize`: a negative number wraps. -/
def wordArg (usz : Nat) (n : Int) : Nat := (n % (usz : Int)).toNat

/-- `laymine_number`, wasm/src/lib.rs 116-125.  (The product `row * column` is not reduced to a machine word.) -/
def wasmLaymineNumber (usz : Nat) (shuffle : List Int → List Int) (row col minenum x0 y0 : Int) : Option (List Char) :=
  (laymine shuffle (wordArg usz row) (wordArg usz col) (wordArg usz minenum) (wordArg usz x0) (wordArg usz y0)).map vec2json

/-- `laymine_op_number`, wasm/src/lib.rs 128-137. -/
def wasmLaymineOpNumber (usz : Nat) (shuffle : List Int → List Int) (row col minenum x0 y0 : Int) : Option (List Char) :=
  (laymineOp shuffle (wordArg usz row) (wordArg usz col) (wordArg usz minenum) (wordArg usz x0) (wordArg usz y0)).map vec2json

/-- `laymine_solvable`, wasm/src/lib.rs 140-157: a pair is written as a list of two elements. -/
def wasmLaymineSolvable (usz : Nat) (sh : Nat → List Int → List Int) (row col minenum x0 y0 maxTimes : Int) :
    Option (List Char) :=
  (laymineSolvable sh (wordArg usz row) (wordArg usz col) (wordArg usz minenum) (wordArg usz x0) (wordArg usz y0)
    (wordArg usz maxTimes)).map fun r =>
    listText [vec2json r.1, if r.2 then ['t', 'r', 'u', 'e'] else ['f', 'a', 'l', 's', 'e']]

namespace MSB

/-- `MinesweeperBoard::new` of the wasm package, wasm/src/board.rs 23-28. -/
def newText (parse : List Char → Option JVal) (text : List Char) : Option MSB :=
  (json2vec parse text).bind fun b => if b.row = 0 then none else some (MSB.new b.view)

/-- `step_flow` of the wasm package, wasm/src/board.rs 32-39. -/
def stepFlowText (parse : List Char → Option JVal) (usz : Nat) (s : MSB) (text : List Char) : Option MSB :=
  (transOpt parse usz text).bind fun ops => s.pyStepFlow (ops.map fun o => (evOf (String.ofList o.1), o.2))

/-- `set_board`, wasm/src/board.rs 42-44. -/
def setBoardText (parse : List Char → Option JVal) (s : MSB) (text : List Char) : Option MSB :=
  (json2vec parse text).map fun b => { s with board := b.view }

/-- `set_game_board`, wasm/src/board.rs 47-49. -/
def setGameBoardText (parse : List Char → Option JVal) (s : MSB) (text : List Char) : Option MSB :=
  (json2vec parse text).map fun b => { s with gameBoard := b }

/-- `get_game_board`, wasm/src/board.rs 55-57. -/
def gameBoardText (s : MSB) : List Char := vec2json s.gameBoard

/-- `get_game_board_state` of the Python and wasm board classes, python_package/src/board.rs 114-123 and 238-247,
wasm/src/board.rs 91-100. -/
def stateCode (s : MSB) : Nat :=
  match s.state with
  | .ready => 1 | .playing => 2 | .win => 3 | .loss => 4 | .preFlaging => 5 | .display => 6

/-- `get_mouse_state` of the Python and wasm board classes, python_package/src/board.rs 125-136 and 249-260,
wasm/src/board.rs 102-113. -/
def mouseCode (s : MSB) : Nat :=
  match s.mouse with
  | .upUp => 1 | .upDown => 2 | .upDownNotFlag => 3 | .downUp => 4 | .chording => 5 | .chordingNotFlag => 6
  | .downUpAfterChording => 7 | .undefined => 8

end MSB
end Ms
