import Verif.Model.Enum

/-!
# Users of the solvers: `mark_board`, `get_all_not_and_is_mine_on_board`, `is_able_to_solve`
-/

namespace Ms

/-- The test of algorithms.rs 1279-1285 and 1287-1293: some equation asks for more mines than it has cells, or
for a negative number of mines. -/
def overfull (S : Sys) : Bool := S.any fun B => B.rows.any fun q => decide (q.1.sum < q.2) || decide (q.2 < 0)

/-- `mark_board`, algorithms.rs 1276-1295: the returned `Result` and the board left behind.  `none`: panic. -/
def markBoard (g : Board) : Option (Except Nat Unit × Board) := do
  let S ← refreshMatrixs g
  let o ← solveDirect S g
  match o.res with
  | .error e => return (.error e, o.board)
  | .ok _ =>
    if overfull o.sys then return (.error 7, o.board)
    let o2 ← solveMinus o.sys o.board
    if overfull o2.sys then return (.error 8, o2.board)
    return (.ok (), o2.board)

/-- `get_all_not_and_is_mine_on_board`, algorithms.rs 1299-1318: safe cells, mines, and the board left behind. -/
def getAllOnBoard (S : Sys) (g : Board) : Option (List Pos × List Pos × Board) := do
  let o ← solveDirect S g
  match o.res with
  | .error _ => none
  | .ok (n1, i1) =>
    let o2 ← solveMinus o.sys o.board
    match o2.res with
    | .error _ => none
    | .ok (n2, i2) =>
      let (n3, i3) ← solveEnumerate o2.sys
      return (n1 ++ n2 ++ n3, i1 ++ i2 ++ i3, o2.board)

/-- algorithms.rs 1327-1333 and 1393-1399: marks (everything above 10) are taken off. -/
def unmark (g : Board) : Board := g.map fun row => row.map fun x => if x > 10 then 10 else x

/-- `is_able_to_solve`, algorithms.rs 1393-1416: the answer and the board left behind.  `none`: panic (the position is
not on the board, or the solvers panic). -/
def isAbleToSolve (g : Board) (p : Pos) : Option (Bool × Board) := do
  let g := unmark g
  let S ← refreshMatrixs g
  let o ← solveDirect S g
  if ¬ (p.1 < g.row ∧ p.2 < g.col) then none
  if o.board.get p.1 p.2 = 11 ∨ o.board.get p.1 p.2 = 12 then return (true, o.board)
  let o2 ← solveMinus o.sys o.board
  if o2.board.get p.1 p.2 = 11 ∨ o2.board.get p.1 p.2 = 12 then return (true, o2.board)
  let (n, i) ← solveEnumerate o2.sys
  return (i.contains p || n.contains p, o2.board)

end Ms
