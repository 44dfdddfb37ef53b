import Verif.Model.Basic

/-! # Board metrics (utils.rs 19-108, 560-596) -/

namespace Ms

/-- `infect_board`, utils.rs 46-57: fill the opening of `(x,y)` with ones.  The Rust recursion has no
bound; the model carries fuel and answers `none` when it runs out (shown never to happen with the
fuel `calOp?` supplies, `Properties/Metrics.lean`). -/
def infectBoard (row col : Nat) : Nat → Board → Nat → Nat → Option Board
  | 0, _, _, _ => none
  | fuel + 1, b, x, y =>
    (block row col x y).foldlM
      (fun b p => if b.get p.1 p.2 = 0 then infectBoard row col fuel b p.1 p.2 else some b)
      (b.set x y 1)

/-- `cal_op`, utils.rs 20-43.  `none` stands for running out of fuel. -/
def calOp? (v : View) : Option Nat :=
  ((cells v.row v.col).foldlM (m := Option)
    (fun (st : Board × Nat) p =>
      if st.1.get p.1 p.2 = 0 then
        (infectBoard v.row v.col (v.row * v.col) st.1 p.1 p.2).map fun b => (b, st.2 + 1)
      else some st)
    (Board.build v.row v.col v.get, 0)).map (·.2)

/-- `cal_op` as a number (`calOp?` is total, see `calOp?_total`). -/
def calOp (v : View) : Nat := (calOp? v).getD 0

/-- `cal_isl`, utils.rs 60-88.  The early `break 'outer` only shortens the search for a zero, so the
flag is "no zero in the 3x3 block". -/
def calIsl (v : View) : Nat :=
  let marked := (cells v.row v.col).foldl
    (fun (b : Board) p =>
      if v.get p.1 p.2 ≤ 0 then b
      else if (block v.row v.col p.1 p.2).any (fun q => v.get q.1 q.2 = 0) then b
      else b.set p.1 p.2 0)
    (Board.build v.row v.col fun _ _ => 1)
  calOp marked.view

/-- `cal_cell_nums`, utils.rs 91-108: `none` is the index-out-of-bounds panic on a value above 8. -/
def calCellNums (v : View) : Option (List Nat) :=
  (cells v.row v.col).foldlM (m := Option)
    (fun (ans : List Nat) p =>
      if v.get p.1 p.2 < 0 then some ans
      else if (v.get p.1 p.2).toNat < 9 then
        some (ans.modify (v.get p.1 p.2).toNat (· + 1))
      else none)
    (List.replicate 9 0)

/-- `cal3BVonIsland`, utils.rs 560-587. -/
def cal3BVonIsland (v : View) : Nat :=
  (cells v.row v.col).foldl
    (fun n p =>
      if v.get p.1 p.2 > 0 then
        let flag := (block v.row v.col p.1 p.2).foldl
          (fun flag q => if v.get q.1 q.2 = 0 then false else flag) true
        if flag then n + 1 else n
      else n) 0

/-- `cal_bbbv`, utils.rs 590-596. -/
def calBbbv (v : View) : Nat := cal3BVonIsland v + calOp v

end Ms
