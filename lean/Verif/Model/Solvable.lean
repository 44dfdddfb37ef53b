import Verif.Model.Game
import Verif.Model.Enum

/-!
# The no-guess check: `unsolvable_structure` and `is_solvable`
-/

namespace Ms

/-! ## unsolvable_structure -/

/-- The work copy of the board, utils.rs 1205-1212: `-1` on mines, `0` elsewhere. -/
def mineMap (b : Board) (p : Pos) : Int := if b.get p.1 p.2 = -1 then -1 else 0

/-- One of the conjunctions of utils.rs 1216-1416: the cells `ms` are mines (`Board[..] == -1`) and for each pair of
`ones` the sum of the two entries is `-1`. -/
def tmpl (m : Pos → Int) (ms : List Pos) (ones : List (Pos × Pos)) : Bool :=
  ms.all (fun p => m p == -1) && ones.all (fun q => m q.1 + m q.2 == -1)

/-- One of the conjunctions of utils.rs 1216-1416: the cells `ms` are mines and `z` is not. -/
def hole (m : Pos → Int) (ms : List Pos) (z : Pos) : Bool := ms.all (fun p => m p == -1) && m z == 0

/-- utils.rs 1213-1268: the left and right edges, row index `i`. -/
def edgeLR (m : Pos → Int) (row column i : Nat) : Bool :=
  (decide (i < row - 3) &&
    (tmpl m [(i, 0), (i, 1), (i + 3, 0), (i + 3, 1)] [((i + 1, 0), (i + 2, 0))] ||
     tmpl m [(i, column - 1), (i, column - 2), (i + 3, column - 1), (i + 3, column - 2)]
      [((i + 1, column - 1), (i + 2, column - 1))])) ||
  (tmpl m [(i, 2), (i + 1, 2), (i + 2, 2)] [((i + 1, 0), (i + 1, 1))] ||
   tmpl m [(i, column - 3), (i + 1, column - 3), (i + 2, column - 3)] [((i + 1, column - 1), (i + 1, column - 2))] ||
   hole m [(i, 0), (i, 1), (i + 1, 1), (i + 2, 1), (i + 2, 0)] (i + 1, 0) ||
   hole m [(i, column - 1), (i, column - 2), (i + 1, column - 2), (i + 2, column - 2), (i + 2, column - 1)]
    (i + 1, column - 1)) ||
  (decide (i < row - 3) &&
    (tmpl m [(i, 2), (i + 3, 2)]
      [((i + 1, 0), (i + 1, 1)), ((i + 1, 1), (i + 2, 1)), ((i + 2, 1), (i + 2, 0))] ||
     tmpl m [(i, column - 3), (i + 3, column - 3)]
      [((i + 1, column - 1), (i + 1, column - 2)), ((i + 1, column - 2), (i + 2, column - 2)),
       ((i + 2, column - 2), (i + 2, column - 1))]))

/-- utils.rs 1269-1323: the top and bottom edges, column index `j`. -/
def edgeTB (m : Pos → Int) (row column j : Nat) : Bool :=
  (decide (j < column - 3) &&
    (tmpl m [(0, j), (1, j), (0, j + 3), (1, j + 3)] [((0, j + 1), (0, j + 2))] ||
     tmpl m [(row - 1, j), (row - 2, j), (row - 1, j + 3), (row - 2, j + 3)]
      [((row - 1, j + 1), (row - 1, j + 2))])) ||
  (tmpl m [(2, j), (2, j + 1), (2, j + 2)] [((0, j + 1), (1, j + 1))] ||
   tmpl m [(row - 3, j), (row - 3, j + 1), (row - 3, j + 2)] [((row - 1, j + 1), (row - 2, j + 1))] ||
   hole m [(0, j), (1, j), (1, j + 1), (1, j + 2), (0, j + 2)] (0, j + 1) ||
   hole m [(row - 1, j), (row - 2, j), (row - 2, j + 1), (row - 2, j + 2), (row - 1, j + 2)] (row - 1, j + 1)) ||
  (decide (j < column - 3) &&
    (tmpl m [(2, j), (2, j + 3)]
      [((0, j + 1), (1, j + 1)), ((1, j + 1), (1, j + 2)), ((1, j + 2), (0, j + 2))] ||
     tmpl m [(row - 3, j), (row - 3, j + 3)]
      [((row - 1, j + 1), (row - 2, j + 1)), ((row - 2, j + 1), (row - 2, j + 2)),
       ((row - 2, j + 2), (row - 1, j + 2))]))

/-- utils.rs 1324-1365: the four corners.  (The four tests `a + b + c == -3` on entries `0`/`-1` are written as "all
three are mines".) -/
def corners (m : Pos → Int) (row column : Nat) : Bool :=
  tmpl m [(0, 2), (1, 2)] [((0, 0), (0, 1))] ||
  tmpl m [(2, 0), (2, 1)] [((0, 0), (1, 0))] ||
  tmpl m [(0, column - 3), (1, column - 3)] [((0, column - 1), (0, column - 2))] ||
  tmpl m [(2, column - 1), (2, column - 2)] [((0, column - 1), (1, column - 1))] ||
  tmpl m [(row - 1, 2), (row - 2, 2)] [((row - 1, 0), (row - 1, 1))] ||
  tmpl m [(row - 3, 0), (row - 3, 1)] [((row - 1, 0), (row - 2, 0))] ||
  tmpl m [(row - 1, column - 3), (row - 2, column - 3)] [((row - 1, column - 1), (row - 1, column - 2))] ||
  tmpl m [(row - 3, column - 1), (row - 3, column - 2)] [((row - 1, column - 1), (row - 2, column - 1))] ||
  hole m [(0, 1), (1, 1), (1, 0)] (0, 0) ||
  hole m [(0, column - 2), (1, column - 2), (1, column - 1)] (0, column - 1) ||
  hole m [(row - 1, column - 2), (row - 2, column - 2), (row - 2, column - 1)] (row - 1, column - 1) ||
  hole m [(row - 1, 1), (row - 2, 1), (row - 2, 0)] (row - 1, 0) ||
  tmpl m [(2, 2)] [((0, 1), (1, 1)), ((1, 0), (1, 1))] ||
  tmpl m [(row - 3, 2)] [((row - 1, 1), (row - 2, 1)), ((row - 2, 0), (row - 2, 1))] ||
  tmpl m [(row - 3, column - 3)]
    [((row - 1, column - 2), (row - 2, column - 2)), ((row - 2, column - 1), (row - 2, column - 2))] ||
  tmpl m [(2, column - 3)] [((0, column - 2), (1, column - 2)), ((1, column - 1), (1, column - 2))]

/-- utils.rs 1366-1418: the inside, upper left corner `(i, j)`. -/
def inner (m : Pos → Int) (row column i j : Nat) : Bool :=
  (decide (j < column - 3) &&
    tmpl m [(i, j), (i + 1, j), (i + 2, j), (i, j + 3), (i + 1, j + 3), (i + 2, j + 3)]
      [((i + 1, j + 1), (i + 1, j + 2))]) ||
  (decide (i < row - 3) &&
    tmpl m [(i, j), (i, j + 1), (i, j + 2), (i + 3, j), (i + 3, j + 1), (i + 3, j + 2)]
      [((i + 1, j + 1), (i + 2, j + 1))]) ||
  hole m [(i, j), (i + 1, j), (i + 2, j), (i, j + 1), (i + 2, j + 1), (i, j + 2), (i + 1, j + 2), (i + 2, j + 2)]
    (i + 1, j + 1) ||
  (decide (j < column - 3 ∧ i < row - 3) &&
    tmpl m [(i, j), (i + 3, j), (i, j + 3), (i + 3, j + 3)]
      [((i + 1, j + 1), (i + 2, j + 1)), ((i + 1, j + 1), (i + 1, j + 2)), ((i + 2, j + 1), (i + 2, j + 2))])

/-- `unsolvable_structure`, utils.rs 1202-1420.  `none`: the board has fewer than three rows or columns; the code
then underflows or indexes out of range (on two rows or columns it may find a template first; that corner is
not modelled).  On boards with at least three rows and columns no access is out of range, so the early returns are
plain disjunctions. -/
def unsolvableStructure (b : Board) : Option Bool :=
  let m := mineMap b
  if b.row < 3 ∨ b.col < 3 then none
  else some (((List.range (b.row - 2)).any fun i => edgeLR m b.row b.col i) ||
    ((List.range (b.col - 2)).any fun j => edgeTB m b.row b.col j) ||
    corners m b.row b.col ||
    ((List.range (b.row - 2)).any fun i => (List.range (b.col - 2)).any fun j => inner m b.row b.col i j))

/-! ## is_solvable -/

/-- `isVictory`, algorithms.rs 623-634. -/
def isVictory (g b : Board) : Bool :=
  (cells g.row g.col).all fun p => !(decide (g.get p.1 p.2 = 10) && decide (b.get p.1 p.2 ≠ -1))

/-- The body of the loop of `is_solvable` up to `refresh_board`, algorithms.rs 654-677.  Outer `none`: panic;
`some none`: `return false`; otherwise the cells to open and the game board. -/
def solvablePick (g : Board) : Option (Option (List Pos × Board)) := do
  let S ← refreshMatrixs g
  let o ← solveDirect S g
  match o.res with
  | .error _ => none
  | .ok (n, i) =>
    if n = [] ∧ i = [] then do
      let o2 ← solveMinus o.sys o.board
      match o2.res with
      | .error _ => none
      | .ok (n2, i2) =>
        if n2 = [] ∧ i2 = [] then do
          let (n3, i3) ← solveEnumerate o2.sys
          if n3 = [] ∧ i3 = [] then some none
          else some (some (n3, i3.foldl (fun g p => g.set p.1 p.2 11) o2.board))
        else some (some (n2, o2.board))
    else some (some (n, o.board))

/-- The loop of `is_solvable`, algorithms.rs 653-682.  `none`: panic, or the fuel is used up (shown not to happen). -/
def solvableLoop (b : Board) : Nat → Board → Option Bool
  | 0, _ => none
  | fuel + 1, g =>
    match solvablePick g with
    | none => none
    | some none => some false
    | some (some (notMine, g')) =>
      match refreshBoard b.view g' notMine with
      | none => none
      | some g'' => if isVictory g'' b then some true else solvableLoop b fuel g''

/-- `is_solvable`, algorithms.rs 639-683. -/
def isSolvable (b : Board) (x0 y0 : Nat) : Option Bool := do
  if ← unsolvableStructure b then return false
  let g ← refreshBoard b.view (List.replicate b.row (List.replicate b.col 10)) [(x0, y0)]
  if isVictory g b then return true
  solvableLoop b (b.row * b.col + 1) g

end Ms
