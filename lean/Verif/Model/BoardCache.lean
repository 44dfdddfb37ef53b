import Verif.Model.Metrics

/-! # `struct Board` with cached metrics (board.rs 160-305) -/

namespace Ms

/-- `struct Board`, board.rs 161-179.  The nine `cellN` fields are one list. -/
structure BoardCache where
  board : Board
  bbbv : Nat
  hasBbbv : Bool
  openings : Nat
  hasOpenings : Bool
  islands : Nat
  hasIslands : Bool
  cellNums : List Nat
  hasCells : Bool
deriving DecidableEq, Repr

/-- `Board::new`, board.rs 182-202. -/
def BoardCache.new (b : Board) : BoardCache :=
  ⟨b, 0, false, 0, false, 0, false, List.replicate 9 0, false⟩

/-- The getters a caller can invoke. -/
inductive Getter
  | bbbv | op | isl
  | cell (k : Fin 9)
deriving DecidableEq, Repr

/-- `get_bbbv`, board.rs 203-214 (as written: the result is returned but never stored in `self.bbbv`). -/
def BoardCache.getBbbv (s : BoardCache) : BoardCache × Nat :=
  if s.hasBbbv then (s, s.bbbv)
  else
    let a := cal3BVonIsland s.board.view
    let s := if !s.hasOpenings then { s with openings := calOp s.board.view, hasOpenings := true } else s
    let s := { s with hasBbbv := true }
    (s, a + s.openings)

/-- `get_op`, board.rs 215-221 (as written: the count is not stored in `self.openings`). -/
def BoardCache.getOp (s : BoardCache) : BoardCache × Nat :=
  if s.hasOpenings then (s, s.openings)
  else ({ s with hasOpenings := true }, calOp s.board.view)

/-- `get_isl`, board.rs 222-228 (as written: the count is not stored in `self.islands`). -/
def BoardCache.getIsl (s : BoardCache) : BoardCache × Nat :=
  if s.hasIslands then (s, s.islands)
  else ({ s with hasIslands := true }, calIsl s.board.view)

/-- `cal_cell_nums`, board.rs 229-241; `none` is the panic of utils.rs 104. -/
def BoardCache.calCells (s : BoardCache) : Option BoardCache :=
  (calCellNums s.board.view).map fun ans => { s with cellNums := ans, hasCells := true }

/-- `get_cell0` .. `get_cell8`, board.rs 242-304. -/
def BoardCache.getCell (s : BoardCache) (k : Fin 9) : Option (BoardCache × Nat) :=
  if s.hasCells then some (s, s.cellNums.getD k 0)
  else s.calCells.map fun s => (s, s.cellNums.getD k 0)

/-- One getter call; `none` is a panic. -/
def BoardCache.call (s : BoardCache) : Getter → Option (BoardCache × Nat)
  | .bbbv => some s.getBbbv
  | .op => some s.getOp
  | .isl => some s.getIsl
  | .cell k => s.getCell k

/-- The values returned by a sequence of getter calls; `none` if one of them panics. -/
def BoardCache.calls (s : BoardCache) : List Getter → Option (BoardCache × List Nat)
  | [] => some (s, [])
  | g :: gs => do
    let (s, a) ← s.call g
    let (s, as) ← s.calls gs
    pure (s, a :: as)

end Ms
