import Verif.Model.Mark
import Verif.Model.Poss

/-!
# `GameBoard`: a position with cached analyses (board.rs 6-142)

`none` is a panic: a failed `unwrap` of a solver, or of the probability engine.
-/

namespace Ms

/-- `GameBoard`, board.rs 9-21.  `poss`: a NaN is `none`. -/
structure GameBoard where
  board : Board
  marked : Board
  poss : List (List (Option ℚ))
  mineNum : Nat
  isMarked : Bool
  hasPoss : Bool
  basicNot : List Pos
  basicIs : List Pos
  enumNot : List Pos
  enumIs : List Pos

namespace GameBoard

/-- `new`, board.rs 41-54. -/
def new (mineNum : Nat) : GameBoard := ⟨[], [], [], mineNum, false, false, [], [], [], []⟩

/-- `set_game_board`, board.rs 55-66: the marks are taken off a copy; the flags `is_marked`, `has_poss` and the lists are
kept.  (Boards are rectangular.) -/
def setBoard (G : GameBoard) (g : Board) : GameBoard := { G with board := g, marked := unmark g }

/-- `mark`, board.rs 67-103. -/
def mark (G : GameBoard) : Option GameBoard :=
  if G.isMarked then some G
  else do
    let S ← refreshMatrixs G.marked
    let o ← solveDirect S G.marked
    match o.res with
    | .error _ => none
    | .ok (n1, _) =>
      let o2 ← solveMinus o.sys o.board
      match o2.res with
      | .error _ => none
      | .ok (n2, _) =>
        let bn := G.basicNot ++ n1 ++ n2
        let h := bn.foldl (fun b p => b.set p.1 p.2 12) o2.board
        let bi := G.basicIs ++ (cells h.row h.col).filter fun p => decide (h.get p.1 p.2 = 11)
        let (n3, _) ← solveEnumerate o2.sys
        let ei := G.enumIs ++ (cells h.row h.col).filter fun p => decide (h.get p.1 p.2 = 11) && !bi.contains p
        return { G with marked := h, isMarked := true, basicNot := bn, basicIs := bi, enumNot := n3, enumIs := ei }

/-- `get_poss`, board.rs 104-114. -/
def getPoss (G : GameBoard) : Option (GameBoard × List (List (Option ℚ))) :=
  if G.hasPoss then some (G, G.poss)
  else do
    let G ← G.mark
    match ← calPossibilityOnboard G.marked (G.mineNum : ℚ) with
    | .error _ => none
    | .ok (P, _) => return ({ G with poss := P, hasPoss := true }, P)

/-- `get_basic_not_mine`, board.rs 115-121. -/
def getBasicNot (G : GameBoard) : Option (GameBoard × List Pos) := G.mark.map fun G => (G, G.basicNot)

/-- `get_basic_is_mine`, board.rs 122-128. -/
def getBasicIs (G : GameBoard) : Option (GameBoard × List Pos) := G.mark.map fun G => (G, G.basicIs)

/-- `get_enum_not_mine`, board.rs 129-135. -/
def getEnumNot (G : GameBoard) : Option (GameBoard × List Pos) := G.mark.map fun G => (G, G.enumNot)

/-- `get_enum_is_mine`, board.rs 136-142. -/
def getEnumIs (G : GameBoard) : Option (GameBoard × List Pos) := G.mark.map fun G => (G, G.enumIs)

end GameBoard

end Ms
