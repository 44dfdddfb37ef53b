import Verif.Model.Basic

/-!
# Equation systems and the deterministic solvers

`refresh_matrixs` (utils.rs 170-300), `chunk_matrix(es)` (utils.rs 1542-1657), `solve_direct`
(algorithms.rs 143-207), `solve_minus` (algorithms.rs 49-136).

The Rust code keeps three parallel vectors per block: `As[b]` (rows of coefficients), `xs[b]` (the cell of
each column) and `bs[b]` (right-hand sides), and every mutation removes/changes the same index in `As[b]`
and `bs[b]`.  The model pairs each row with its right-hand side and groups the three vectors into a `Block`.
Indices are in range for rectangular blocks (`Block.WF` in the lemmas); a read outside gives a default value
here.  The panics that well-formed input can provoke (`chunk_matrix` on a row without columns) are explicit.
-/

namespace Ms

/-- One block: `As[b]` zipped with `bs[b]`, and `xs[b]`. -/
structure Block where
  rows : List (List Int × Int)
  x : List Pos
deriving DecidableEq, Repr

/-- `(As, xs, bs)` zipped. -/
abbrev Sys := List Block

/-! ## refresh_matrixs -/

/-- Is some cell of the 3x3 block around `p` equal to 10?  (utils.rs 196-203; the Rust loop breaks at the
first hit.) -/
def touchesUnknown (g : Board) (p : Pos) : Bool :=
  (block g.row g.col p.1 p.2).any fun q => g.get q.1 q.2 = 10

/-- utils.rs 193-226: the shown numbers with a covered neighbour, in row-major order (`all_cell`). -/
def numberCells (g : Board) : List Pos :=
  (cells g.row g.col).filter fun p => (0 ≤ g.get p.1 p.2 ∧ g.get p.1 p.2 < 10) && touchesUnknown g p

/-- utils.rs 205-218: how many covered cells have no neighbour below 10 (`unknow_block`). -/
def inlandCount (g : Board) : Nat :=
  ((cells g.row g.col).filter fun p =>
    g.get p.1 p.2 = 10 && (block g.row g.col p.1 p.2).all fun q => ¬ g.get q.1 q.2 < 10).length

/-- utils.rs 219-221: how many cells are marked 11 (`is_minenum`). -/
def markedCount (g : Board) : Nat :=
  ((cells g.row g.col).filter fun p => g.get p.1 p.2 = 11).length

/-- `board_of_game[x][y] - flag_num`, utils.rs 233-246 and 277-290. -/
def rhsOf (g : Board) (p : Pos) : Int :=
  g.get p.1 p.2 - (((block g.row g.col p.1 p.2).filter fun q => g.get q.1 q.2 = 11).length : Nat)

/-- The covered cells around `p`, in loop order. -/
def unknownsOf (g : Board) (p : Pos) : List Pos :=
  (block g.row g.col p.1 p.2).filter fun q => g.get q.1 q.2 = 10

/-- utils.rs 256-270: two numbers are neighbours when they are less than 3 apart in each direction and the
intersection of their 3x3 blocks contains a covered cell. -/
def shareUnknown (g : Board) (t e : Pos) : Bool :=
  if t.1 ≥ e.1 + 3 ∨ e.1 ≥ t.1 + 3 ∨ t.2 ≥ e.2 + 3 ∨ e.2 ≥ t.2 + 3 then false
  else
    (rng (max 1 (max t.1 e.1) - 1) (min g.row (min (t.1 + 2) (e.1 + 2)))).any fun m =>
      (rng (max 1 (max t.2 e.2) - 1) (min g.col (min (t.2 + 2) (e.2 + 2)))).any fun n =>
        g.get m n = 10

/-- The state of the collection of one segment: `matrix_xs[p]`, `matrix_bs[p]`, `num_cells`, `temp_cells`. -/
structure SegSt where
  x : List Pos
  b : List Int
  nums : List Pos
  temp : List Pos

/-- utils.rs 276-293: add the number `t` to the segment. -/
def SegSt.add (g : Board) (s : SegSt) (t : Pos) : SegSt where
  x := (unknownsOf g t).foldl (fun x q => if q ∈ x then x else x ++ [q]) s.x
  b := s.b ++ [rhsOf g t]
  nums := s.nums ++ [t]
  temp := s.temp ++ [t]

/-- utils.rs 252-296: one sweep over `all_cell[1..]` from the back for the number `e`; neighbours of `e` move
to the segment. -/
def segSweep (g : Board) (e : Pos) (rest : List Pos) (s : SegSt) : List Pos × SegSt :=
  rest.foldr (fun t acc => if shareUnknown g t e then (acc.1, acc.2.add g t) else (t :: acc.1, acc.2)) ([], s)

/-- utils.rs 249-297: `while !temp_cells.is_empty()`.  `none`: out of fuel. -/
def segLoop (g : Board) : Nat → List Pos → SegSt → Option (List Pos × SegSt)
  | 0, _, _ => none
  | fuel + 1, rest, s =>
    match s.temp with
    | [] => some (rest, s)
    | e :: temp =>
      let r := segSweep g e rest { s with temp := temp }
      segLoop g fuel r.1 r.2

/-- utils.rs 298-308: a coefficient is 1 where the column's cell lies in the 3x3 block of the number. -/
def coeff (num cell : Pos) : Int :=
  if num.1 ≤ cell.1 + 1 ∧ cell.1 ≤ num.1 + 1 ∧ num.2 ≤ cell.2 + 1 ∧ cell.2 ≤ num.2 + 1 then 1 else 0

/-- The finished segment (`matrix_as[p]`, `matrix_xs[p]`, `matrix_bs[p]`). -/
def segBlock (s : SegSt) : Block :=
  ⟨(s.nums.zip s.b).map fun (num, b) => (s.x.map (coeff num), b), s.x⟩

/-- utils.rs 229-311: `while !all_cell.is_empty()`.  `none`: out of fuel. -/
def segments (g : Board) : Nat → List Pos → Option Sys
  | _, [] => some []
  | 0, _ :: _ => none
  | fuel + 1, p :: rest => do
    let (rest', s) ← segLoop g (rest.length + 2) rest ⟨unknownsOf g p, [rhsOf g p], [p], [p]⟩
    let tl ← segments g fuel rest'
    pure (segBlock s :: tl)

/-- `refresh_matrixs`, utils.rs 170-313, without the two counters (`inlandCount`, `markedCount`).  `none`
stands for running out of fuel only (`refreshMatrixs_total`); the Rust code panics on a board without rows,
which the theorems exclude. -/
def refreshMatrixs (g : Board) : Option Sys := segments g (numberCells g).length (numberCells g)

/-! ## refresh_matrix -/

/-- State of `refresh_matrix` while one number is processed: `rows` are the finished rows of `MatrixA`/`Matrixb`,
`cur` the row being built (its last row), `x` is `Matrixx`. -/
structure RmSt where
  rows : List (List Int × Int)
  x : List Pos
  cur : List Int × Int

/-- utils.rs 140-163: one cell of the 3x3 block of the current number. -/
def rmCell (g : Board) (s : RmSt) (q : Pos) : RmSt :=
  if g.get q.1 q.2 = 11 then { s with cur := (s.cur.1, s.cur.2 - 1) }
  else if g.get q.1 q.2 = 10 then
    if q ∈ s.x then
      { s with cur := ((List.range s.x.length).foldl (fun r k => if s.x.getD k (0, 0) = q then r.set k 1 else r) s.cur.1, s.cur.2) }
    else
      { rows := s.rows.map fun r => (r.1 ++ [0], r.2), x := s.x ++ [q], cur := (s.cur.1 ++ [1], s.cur.2) }
  else s

/-- utils.rs 125-166: one number; only numbers greater than 0 are used (unlike `refresh_matrixs`). -/
def rmNumber (g : Board) (B : Block) (p : Pos) : Block :=
  if (0 < g.get p.1 p.2 ∧ g.get p.1 p.2 < 10) ∧ touchesUnknown g p = true then
    let s := (block g.row g.col p.1 p.2).foldl (rmCell g)
      ⟨B.rows, B.x, (List.replicate B.x.length 0, g.get p.1 p.2)⟩
    ⟨s.rows ++ [s.cur], s.x⟩
  else B

/-- `refresh_matrix`, utils.rs 112-169. -/
def refreshMatrix (g : Board) : Block := (cells g.row g.col).foldl (rmNumber g) ⟨[], []⟩

/-! ## chunk_matrix -/

/-- `matrix_a[r][c] >= 1`. -/
def Block.hit (B : Block) (r c : Nat) : Bool := ((B.rows.getD r ([], 0)).1.getD c 0) ≥ 1

/-- utils.rs 1586-1593: rows that hit a buffered column and are not yet marked; returns `row_buffer` and
`current_rows_bool`. -/
def chunkRows (B : Block) (colBuf : List Nat) (rb : List Bool) : List Nat × List Bool :=
  (colBuf.flatMap fun c => (List.range B.rows.length).map fun r => (c, r)).foldl
    (fun st cr =>
      if B.hit cr.2 cr.1 && ! st.2.getD cr.2 false then (st.1 ++ [cr.2], st.2.set cr.2 true) else st)
    ([], rb)

/-- utils.rs 1598-1605: columns of the buffered rows that are not yet marked. -/
def chunkCols (B : Block) (rowBuf : List Nat) (cb : List Bool) : List Nat × List Bool :=
  (rowBuf.flatMap fun r => (List.range (B.rows.getD r ([], 0)).1.length).map fun c => (r, c)).foldl
    (fun st rc =>
      if B.hit rc.1 rc.2 && ! st.2.getD rc.2 false then (st.1 ++ [rc.2], st.2.set rc.2 true) else st)
    ([], cb)

/-- utils.rs 1581-1606: the inner `loop`.  `none`: out of fuel. -/
def chunkBfs (B : Block) : Nat → List Nat → List Bool → List Bool → Option (List Bool × List Bool)
  | 0, _, _, _ => none
  | fuel + 1, colBuf, rb, cb =>
    if colBuf = [] then some (rb, cb)
    else
      let r := chunkRows B colBuf rb
      if r.1 = [] then some (r.2, cb)
      else
        let c := chunkCols B r.1 cb
        chunkBfs B fuel c.1 r.2 c.2

/-- The indices whose flag is set, in descending order (utils.rs 1607-1622). -/
def trueDesc (l : List Bool) : List Nat := ((List.range l.length).filter fun i => l.getD i false).reverse

/-- utils.rs 1623-1637: the new block, rows and columns in descending index order. -/
def pickBlock (B : Block) (rs cs : List Nat) : Block :=
  ⟨rs.map fun r => let row := B.rows.getD r ([], 0); (cs.map fun c => row.1.getD c 0, row.2),
   cs.map fun c => B.x.getD c (0, 0)⟩

/-- utils.rs 1638-1648: remove those rows and columns (indices descending, so earlier removals do not shift
later ones). -/
def dropBlock (B : Block) (rs cs : List Nat) : Block :=
  let rows := rs.foldl (fun l r => l.eraseIdx r) B.rows
  ⟨rows.map fun row => (cs.foldl (fun l c => l.eraseIdx c) row.1, row.2), cs.foldl (fun l c => l.eraseIdx c) B.x⟩

/-- The outer `loop` of `chunk_matrix`, utils.rs 1576-1654.  `none`: the panic of `matrix_a[0]` on no rows or
`current_columns_bool[0]` on no columns, or no fuel. -/
def chunkLoop : Nat → Block → Option Sys
  | 0, _ => none
  | fuel + 1, B =>
    match B.rows with
    | [] => none
    | row :: _ =>
      if row.1.length = 0 then none
      else do
        let rb := List.replicate B.rows.length false
        let cb := (List.replicate row.1.length false).set 0 true
        let (rb, cb) ← chunkBfs B (B.rows.length + 2) [0] rb cb
        let rs := trueDesc rb
        let cs := trueDesc cb
        let B' := dropBlock B rs cs
        if B'.rows = [] then pure [pickBlock B rs cs]
        else do
          let tl ← chunkLoop fuel B'
          pure (pickBlock B rs cs :: tl)

/-- `chunk_matrix`, utils.rs 1567-1657. -/
def chunkMatrix (B : Block) : Option Sys := chunkLoop (B.x.length + 1) B

/-- `chunk_matrixes`, utils.rs 1542-1564: blocks are popped from the end. -/
def chunkMatrixes (S : Sys) : Option Sys := (S.reverse.mapM chunkMatrix).map List.flatten

/-! ## solve_direct -/

/-- Remove column `k`, the cell being a mine (`b[t] -= A[t][k]`, algorithms.rs 164-168) or not (190-193). -/
def Block.delCol (B : Block) (k : Nat) (mine : Bool) : Block :=
  ⟨B.rows.map fun r => (r.1.eraseIdx k, if mine then r.2 - r.1.getD k 0 else r.2), B.x.eraseIdx k⟩

/-- What the solvers accumulate: `not_mine`, `is_mine`, `board_of_game`. -/
structure Marks where
  notMine : List Pos
  isMine : List Pos
  board : Board

/-- algorithms.rs 161-163 / 187-189: report and mark a cell. -/
def Marks.push (m : Marks) (p : Pos) (mine : Bool) : Marks :=
  if mine then { m with isMine := m.isMine ++ [p], board := m.board.set p.1 p.2 11 }
  else { m with notMine := m.notMine ++ [p], board := m.board.set p.1 p.2 12 }

/-- Body of the column loops, algorithms.rs 159-171 (mine) and 185-196 (not mine): row `i`, column `k`. -/
def directCol (mine : Bool) (i : Nat) (st : Block × Marks) (k : Nat) : Block × Marks :=
  if st.1.hit i k then (st.1.delCol k mine, st.2.push (st.1.x.getD k (0, 0)) mine) else st

/-- Body of the row loops, algorithms.rs 157-176 (`mine`: sum equals right-hand side) and 183-201 (right-hand
side zero). -/
def directRow (mine : Bool) (st : Block × Marks) (i : Nat) : Block × Marks :=
  let row := st.1.rows.getD i ([], 0)
  if (if mine then row.1.sum = row.2 else row.2 = 0) then
    let st' := (List.range st.1.x.length).reverse.foldl (directCol mine i) st
    ({ st'.1 with rows := st'.1.rows.eraseIdx i }, st'.2)
  else st

/-- algorithms.rs 154-201: both passes over one block. -/
def directBlock (B : Block) (m : Marks) : Block × Marks :=
  let st := (List.range B.rows.length).reverse.foldl (directRow true) (B, m)
  (List.range st.1.rows.length).reverse.foldl (directRow false) st

/-- algorithms.rs 152-207: blocks from the last to the first; a block without rows is dropped. -/
def directSweep (S : Sys) (m : Marks) : Sys × Marks :=
  S.foldr (fun B acc =>
    let r := directBlock B acc.2
    (if r.1.rows = [] then acc.1 else r.1 :: acc.1, r.2)) ([], m)

/-- What a solver leaves behind: the system, the game board, and the returned `Result`. -/
structure SolveOut where
  sys : Sys
  board : Board
  res : Except Nat (List Pos × List Pos)

/-- `solve_direct`, algorithms.rs 143-218.  `none`: panic in `chunk_matrix`. -/
def solveDirect (S : Sys) (g : Board) : Option SolveOut :=
  let r := directSweep S ⟨[], [], g⟩
  if r.1.any fun B => B.rows.any fun row => row.2 < 0 then some ⟨r.1, r.2.board, .error 6⟩
  else (chunkMatrixes r.1).map fun S' => ⟨S', r.2.board, .ok (r.2.notMine, r.2.isMine)⟩

/-! ## solve_minus -/

/-- algorithms.rs 69-93: compare rows `i` and `j`; columns found to be mines / not mines. -/
def minusPair (B : Block) (i j : Nat) : List Nat × List Nat :=
  let ri := B.rows.getD i ([], 0)
  let rj := B.rows.getD j ([], 0)
  let ks := List.range B.x.length
  let both := fun k => ri.1.getD k 0 ≥ 1 ∧ rj.1.getD k 0 ≥ 1
  let pos := ks.filter fun k => ¬ both k ∧ ri.1.getD k 0 - rj.1.getD k 0 = 1
  let neg := ks.filter fun k => ¬ both k ∧ ri.1.getD k 0 - rj.1.getD k 0 = -1
  if ks.any (fun k => both k) then
    if (pos.length : Int) = ri.2 - rj.2 then (pos, neg)
    else if (neg.length : Int) = -(ri.2 - rj.2) then (neg, pos)
    else ([], [])
  else ([], [])

/-- algorithms.rs 67-95: all pairs `j < i`, results concatenated. -/
def minusPairs (B : Block) : List Nat × List Nat :=
  ((rng 1 B.rows.length).flatMap fun i => (List.range i).map fun j => (i, j)).foldl
    (fun acc ij => let r := minusPair B ij.1 ij.2; (acc.1 ++ r.1, acc.2 ++ r.2)) ([], [])

/-- `sort(); dedup()` of a vector of column indices below `n`. -/
def sortDedup (n : Nat) (l : List Nat) : List Nat := (List.range n).filter fun k => k ∈ l

/-- algorithms.rs 96-121: mark the cells, subtract the mines, remove the columns in descending order. -/
def minusApply (B : Block) (m : Marks) (mines safes : List Nat) : Block × Marks :=
  let m := safes.foldl (fun m k => m.push (B.x.getD k (0, 0)) false) m
  let m := mines.foldl (fun m k => m.push (B.x.getD k (0, 0)) true) m
  let rows := mines.foldl (fun rows k => rows.map fun r => (r.1, r.2 - r.1.getD k 0)) B.rows
  let del := ((List.range B.x.length).filter fun k => k ∈ safes ∨ k ∈ mines).reverse
  (⟨rows.map fun r => (del.foldl (fun l k => l.eraseIdx k) r.1, r.2), del.foldl (fun l k => l.eraseIdx k) B.x⟩, m)

/-- algorithms.rs 60-125: one block. -/
def minusBlock (B : Block) (m : Marks) : Block × Marks :=
  if B.rows.length ≤ 1 then (B, m)
  else
    let r := minusPairs B
    minusApply B m (sortDedup B.x.length r.1) (sortDedup B.x.length r.2)

/-- algorithms.rs 59-131: all blocks from the last to the first.  Blocks with more than one row whose columns
all disappeared are removed (a block skipped because it has at most one row is not). -/
def minusSweep (S : Sys) (m : Marks) : Sys × Marks :=
  S.foldr (fun B acc =>
    let r := minusBlock B acc.2
    (if ¬ B.rows.length ≤ 1 ∧ r.1.x = [] then acc.1 else r.1 :: acc.1, r.2)) ([], m)

/-- `solve_minus`, algorithms.rs 49-136: the pair rule, then `solve_direct` (whose error is propagated), then
`chunk_matrixes` once more. -/
def solveMinus (S : Sys) (g : Board) : Option SolveOut := do
  let r := minusSweep S ⟨[], [], g⟩
  let d ← solveDirect r.1 r.2.board
  match d.res with
  | .error e => pure ⟨d.sys, d.board, .error e⟩
  | .ok (n, i) => do
    let S' ← chunkMatrixes d.sys
    pure ⟨S', d.board, .ok (r.2.notMine ++ n, r.2.isMine ++ i)⟩

end Ms
