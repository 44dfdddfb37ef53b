import Verif.Model.Bindings
import Verif.Model.Obr

/-!
# The solvers of the Python package that take a board

`none` is a panic.  The functions work on a copy of the caller's board (PyO3 converts the argument).
-/

namespace Ms

/-- `solve_enumerate` of the Python package, python_package/src/lib.rs 175-183: safe cells and mines. -/
def pySolveEnumerate (g : Board) : Option (List Pos × List Pos) := do
  let S ← refreshMatrixs g
  solveEnumerate S

/-- `get_all_not_and_is_mine_on_board` of the Python package, python_package/src/lib.rs 121-129: the board with the marks,
safe cells and mines. -/
def pyGetAllOnBoard (g : Board) : Option (Board × List Pos × List Pos) := do
  let S ← refreshMatrixs g
  let (n, i, h) ← getAllOnBoard S g
  return (h, n, i)

/-- `mark_board` of the Python package, python_package/src/lib.rs 302-307: the result of `mark_board` is dropped. -/
def pyMarkBoard (g : Board) : Option Board := (markBoard g).map fun r => r.2

/-- `OBR_board` of the Python package, python_package/src/lib.rs 291-300: an error becomes the board `[[200]]`. -/
def pyObrBoard (cell : List ℚ → Int) (data : List Nat) (height width : Nat) : Option Board :=
  match obrBoard cell data height width with
  | none => none
  | some (.ok b) => some b
  | some (.error _) => some [[200]]

end Ms
