import Verif.Model.Basic

/-! # `legalize_board`, `is_good_chording`, `cal_bbbv_exp` (utils.rs) -/

namespace Ms

/-- Loop body of `legalize_board` at one cell, utils.rs 1521-1535. -/
def legalizeStep (row col : Nat) (b : Board) (p : Pos) : Board :=
  let v := b.get p.1 p.2
  if v ≤ -1 ∨ v ≥ 13 ∨ v = 9 then b.set p.1 p.2 10
  else if 1 ≤ v ∧ v ≤ 8 then
    let limit := (block row col p.1 p.2).foldl (fun (n : Int) q =>
      if b.get q.1 q.2 = 10 ∨ b.get q.1 q.2 = 11 then n + 1 else n) 0
    b.set p.1 p.2 (min v limit)
  else b

/-- `legalize_board`, utils.rs 1516-1538 (`&mut` argument returned). -/
def legalizeBoard (b : Board) : Board :=
  (cells b.row b.col).foldl (legalizeStep b.row b.col) b

/-- `board_of_game[i][j]` with the out-of-bounds panic explicit. -/
def Board.get? (b : Board) (i j : Nat) : Option Int := (b[i]?).bind fun l => l[j]?

/-- `surround_cell_num`, utils.rs 1746-1768.  `none`: panic.  (The reads inside the loop are in bounds on
a rectangular board.) -/
def surroundCellNum (b : Board) (p : Pos) : Option Int :=
  (b.get? p.1 p.2).map fun v =>
    if v > 8 ∨ v < 1 then -1
    else
      let r := (block b.row b.col p.1 p.2).foldl (fun (s : Int × Int) q =>
        if b.get q.1 q.2 = 10 then (s.1 + 1, s.2)
        else if b.get q.1 q.2 = 11 then (s.1, s.2 + 1) else s) (0, 0)
      if v = r.2 then r.1 else -1

/-- one directional probe of `is_good_chording`: `if cond { if mid < surround(q) { return false } }`,
utils.rs 1721-1740.  Outer `none`: panic; `some false`: the function returns `false`. -/
def probe (b : Board) (mid : Int) (cond : Bool) (q : Pos) : Option Bool :=
  if cond then (surroundCellNum b q).map fun n => !decide (mid < n) else some true

/-- `is_good_chording`, utils.rs 1717-1742.  Note the last guard, `pos.1 < column + 1`. -/
def isGoodChording (b : Board) (p : Pos) : Option Bool := do
  let row := b.row
  let column := b.col
  let mid ← surroundCellNum b p
  let c1 ← probe b mid (decide (p.1 > 0)) (p.1 - 1, p.2)
  if !c1 then return false
  let c2 ← probe b mid (decide (p.2 > 0)) (p.1, p.2 - 1)
  if !c2 then return false
  let c3 ← probe b mid (decide (p.1 + 1 < row)) (p.1 + 1, p.2)
  if !c3 then return false
  let c4 ← probe b mid (decide (p.2 < column + 1)) (p.1, p.2 + 1)
  if !c4 then return false
  return decide (mid > 0)

/-! ## `cal_bbbv_exp` -/

/-- The mutable variables of `cal_bbbv_exp`, utils.rs 1424-1427: the working copy, `op_id`, `op_list` and
`bv`.  `bv` (a `usize` decremented by the code) is an integer here; that it never goes below zero is part
of what is proved. -/
structure ExpState where
  board : Board
  opId : Nat
  opList : List Bool
  bv : Int

/-- Local variables of the treatment of one zero cell: the state, `min_op_id`, `flag_op`. -/
structure ExpLocal where
  st : ExpState
  minId : Int
  flagOp : Bool

/-- One neighbour examined in the first pass, utils.rs 1438-1452 (and 1455-1468 for the left
neighbour): `raw` is the unmodified board. -/
def expLook (raw : Board) (l : ExpLocal) (q : Pos) : ExpLocal :=
  let t := l.st.board.get q.1 q.2
  if t > 999999 then
    { l with st := { l.st with board := l.st.board.set q.1 q.2 1, bv := l.st.bv - 1 } }
  else if raw.get q.1 q.2 = 0 then
    if t < l.minId then
      if l.flagOp then
        { l with st := { l.st with opList := l.st.opList.set l.minId.toNat false }, minId := t }
      else { l with flagOp := true, minId := t }
    else l
  else l

/-- The already visited neighbours of a cell in the order the first pass looks at them, utils.rs
1436-1437 and 1454: the row above, then the left neighbour. -/
def expBefore (p : Pos) : List Pos :=
  (if p.1 ≥ 1 then (rng (max 1 p.2 - 1) (min 30 (p.2 + 2))).map fun j => (p.1 - 1, j) else []) ++
  (if p.2 ≥ 1 then [(p.1, p.2 - 1)] else [])

/-- First pass at one cell, utils.rs 1430-1475.  The write `op_list[op_id]` panics beyond 199; the model
ignores such a write, and `op_id ≤ 199` is part of what is proved. -/
def expFirst (raw : Board) (st : ExpState) (p : Pos) : ExpState :=
  let v := st.board.get p.1 p.2
  if v > 0 then { st with board := st.board.set p.1 p.2 1000000, bv := st.bv + 1 }
  else if v = 0 then
    let l := (expBefore p).foldl (expLook raw) ⟨st, 1000, false⟩
    if !l.flagOp then
      { l.st with opId := l.st.opId + 1, opList := l.st.opList.set (l.st.opId + 1) true }
    else l.st
  else st

/-- One neighbour examined in the second pass, utils.rs 1481-1489 and 1493-1501. -/
def expLook2 (raw : Board) (p : Pos) (st : ExpState) (q : Pos) : ExpState :=
  let t := st.board.get q.1 q.2
  if t > 999999 then { st with board := st.board.set q.1 q.2 1, bv := st.bv - 1 }
  else if raw.get q.1 q.2 = 0 then
    if t < st.board.get p.1 p.2 then
      { st with opList := st.opList.set (st.board.get p.1 p.2).toNat false,
                board := st.board.set p.1 p.2 t }
    else st
  else st

/-- The neighbours looked at in the second pass, utils.rs 1479-1480, 1492. -/
def expAfter (p : Pos) : List Pos :=
  (if p.1 ≤ 14 then (rng (max 1 p.2 - 1) (min 30 (p.2 + 2))).map fun j => (p.1 + 1, j) else []) ++
  (if p.2 ≤ 28 then [(p.1, p.2 + 1)] else [])

/-- Second pass at one cell, utils.rs 1478-1503. -/
def expSecond (raw : Board) (st : ExpState) (p : Pos) : ExpState :=
  if st.board.get p.1 p.2 = 0 then (expAfter p).foldl (expLook2 raw p) st else st

/-- the two passes of `cal_bbbv_exp` -/
def expRun (raw : Board) : ExpState :=
  let s1 := (cells 16 30).foldl (expFirst raw) ⟨raw, 0, List.replicate 200 false, 0⟩
  (cells 16 30).reverse.foldl (expSecond raw) s1

/-- `cal_bbbv_exp`, utils.rs 1423-1511. -/
def calBbbvExp (raw : Board) : Int :=
  let s := expRun raw
  (List.range (s.opId + 1)).foldl (fun bv i => if s.opList.getD i false then bv + 1 else bv) s.bv

end Ms
