import Verif.Model.Solve
import Verif.Model.BigNumber

/-!
# The enumeration engine

`combine` (utils.rs 755-793), `cal_cell_and_equation_map` (940-957), `cal_table_minenum_recursion_step` (959-1044),
`cal_table_minenum_recursion` (1046-1113), `solve_enumerate` (algorithms.rs 568-617).

Counts are `usize` in the Rust code and unbounded here; `enum_amount_fits` and `enum_counts_fit`
(Properties/Enum.lean) show that they stay below `2^64` for blocks of at most 55 cells.
-/

namespace Ms

/-- `ENUM_LIMIT`, lib.rs 77. -/
def ENUM_LIMIT : Nat := 55

/-! ## combine -/

/-- Columns `i` and `j` agree in every row (utils.rs 770). -/
def sameCol (B : Block) (i j : Nat) : Bool := B.rows.all fun r => r.1.getD i 0 = r.1.getD j 0

/-- The result of `combine` together with the right-hand sides: `matrixA_squeeze` zipped with `b`,
`matrixx_squeeze`, `pair_cells`. -/
structure Squeezed where
  rows : List (List Int × Int)
  x : List Pos
  groups : List (List Nat)
deriving DecidableEq, Repr

/-- utils.rs 767-774: `pair_cells` before the deletions: `i` and the later columns equal to it. -/
def pairCells (B : Block) : List (List Nat) :=
  (List.range B.x.length).map fun i => i :: (rng (i + 1) B.x.length).filter fun j => sameCol B i j

/-- utils.rs 768-777: `del_cells` after sorting in descending order and removing duplicates. -/
def delCells (B : Block) : List Nat :=
  ((List.range B.x.length).filter fun j => (List.range j).any fun i => sameCol B i j).reverse

/-- `combine`, utils.rs 755-793.  (The right-hand sides travel along unchanged.) -/
def combine (B : Block) : Squeezed :=
  let del := delCells B
  let groups := del.foldl (fun l k => l.eraseIdx k) (pairCells B)
  { rows := B.rows.map fun r =>
      (List.zipWith (fun c (gr : List Nat) => c * gr.length) (del.foldl (fun l k => l.eraseIdx k) r.1) groups, r.2)
    x := del.foldl (fun l k => l.eraseIdx k) B.x
    groups := groups }

/-! ## the recursion -/

/-- `matrixA_squeeze[e][j] >= 1`. -/
def Squeezed.hit (q : Squeezed) (e j : Nat) : Bool := ((q.rows.getD e ([], 0)).1.getD j 0) ≥ 1

/-- The number of columns of `matrixA_squeeze` (`matrixA_squeeze[0].len()`). -/
def Squeezed.cellsNum (q : Squeezed) : Nat := (q.rows.headD ([], 0)).1.length

/-- `combination_relationship[j].len()`. -/
def Squeezed.len (q : Squeezed) (j : Nat) : Nat := (q.groups.getD j []).length

/-- `cell_to_equation_map[j]`, utils.rs 944-955. -/
def Squeezed.eqsOf (q : Squeezed) (j : Nat) : List Nat := (List.range q.rows.length).filter fun e => q.hit e j

/-- `equation_to_cell_map[e]`, utils.rs 944-955. -/
def Squeezed.cellsOf (q : Squeezed) (e : Nat) : List Nat := (List.range q.cellsNum).filter fun j => q.hit e j

/-- utils.rs 991-1012: the bounds for cell `idx`.  (The test `matrixA_squeeze[*cell_i][idx] == 0` can never
succeed for an equation from the map and is left out.)  Signed: 1006 and 1009 compare as `i32`; for what happens with
a negative `upper_limit as usize` see `enumRange` and `enumStep`. -/
def enumLimits (q : Squeezed) (idx : Nat) (brem : List Int) : Int × Int :=
  (q.eqsOf idx).foldl (fun (lu : Int × Int) e =>
    let ui := min (brem.getD e 0) (q.len idx)
    let li := (q.cellsOf e).foldl (fun (l : Int) j => if j > idx then l - (q.len j : Nat) else l) (brem.getD e 0)
    (if li > lu.1 then li else lu.1, if ui < lu.2 then ui else lu.2)) (0, (q.len idx : Nat))

/-- `matrix_b_remain[*tt] -= u` for the equations of `idx`, utils.rs 1022-1024. -/
def bremSub (q : Squeezed) (idx u : Nat) (brem : List Int) : List Int :=
  (q.eqsOf idx).foldl (fun b e => b.modify e (· - (u : Nat))) brem

/-- `table_minenum[1]` and `table_cell_minenum`. -/
abbrev Tables := List Nat × List (List Nat)

/-- How the recursion stops early: a panic, or `Err(n)`. -/
inductive EnumStop where
  | panic
  | err (n : Nat)
deriving DecidableEq, Repr

/-- utils.rs 976-987: a leaf of the recursion, with its `Err(5)`. -/
def enumLeaf (q : Squeezed) (amount : Nat) (mv : List Nat) (T : Tables) : Except EnumStop Tables :=
  if mv.sum ≥ T.1.length then .error (.err 5)
  else .ok (T.1.modify mv.sum (· + amount),
    T.2.modify mv.sum fun row => row.mapIdx fun i v => v + amount * mv.getD i 0 / q.len i)

/-- The values of `u` of the loop `lower_limit..upper_limit + 1` of utils.rs 1017.  An upper limit below -1 is a number
near `2^64` as `usize`; then the loop can only end early (at the latest with `u = 9`, where `C_query` panics), so the
values up to the first one that panics are enough. -/
def enumRange (lu : Int × Int) : List Nat :=
  if lu.2 < 0 then rng lu.1.toNat (max 10 (lu.1.toNat + 1)) else rng lu.1.toNat (lu.2.toNat + 1)

/-- `C_query`, panicking (1026). -/
def cQueryE (n u : Nat) : Except EnumStop Nat :=
  match cQuery n u with
  | none => .error .panic
  | some c => .ok c

/-- `cal_table_minenum_recursion_step`, utils.rs 959-1044, with `r` cells to go.  The updates of
`matrix_b_remain` and `mine_vec` are undone after every call (1037-1040), so here the callee gets modified copies.
For the upper limit -1 (`usize::MAX`) the addition `upper_limit + 1` of 1017 overflows: a panic with overflow checks.
(Without them the loop is empty.) -/
def enumStep (q : Squeezed) : Nat → Nat → Nat → List Int → List Nat → Tables → Except EnumStop Tables
  | 0, _, amount, _, mv, T => enumLeaf q amount mv T
  | r + 1, idx, amount, brem, mv, T =>
    let lu := enumLimits q idx brem
    if lu.2 = -1 then .error .panic
    else
      (enumRange lu).foldlM (fun T u => do
        let c ← cQueryE (q.len idx) u
        enumStep q r (idx + 1) (amount * c) (bremSub q idx u brem) (mv.set idx u) T) T

/-- One line of the result: a number of mines, the number of solutions with that many mines, and per (merged)
cell the number of those with a mine there. -/
abbrev EnumLine := Nat × Nat × List Nat

/-- `cal_table_minenum_recursion`, utils.rs 1046-1113.  Outer `none`: panic.  `.error 1`: no solution;
`.error 5`: from a leaf; `.error n`: too many cells.  The three tables have equal lengths and are zipped; the two `while` loops drop the
lines with zero solutions at both ends. -/
def enumTable (q : Squeezed) : Option (Except Nat (List EnumLine)) :=
  if q.x.length > ENUM_LIMIT then some (.error q.x.length)
  else if q.rows = [] then none
  else
    let total := (q.groups.map List.length).sum
    match enumStep q q.cellsNum 0 1 (q.rows.map (·.2)) (List.replicate q.x.length 0)
      (List.replicate (total + 1) 0, List.replicate (total + 1) (List.replicate q.x.length 0)) with
    | .error .panic => none
    | .error (.err n) => some (.error n)
    | .ok T =>
      let lines := (List.range (total + 1)).zip (T.1.zip T.2)
      let front := lines.dropWhile fun l => l.2.1 = 0
      if front = [] then some (.error 1)
      else some (.ok (front.reverse.dropWhile fun l => l.2.1 = 0).reverse)

/-! ## solve_enumerate -/

/-- algorithms.rs 598-615: the cells of one block found safe / mined. -/
def enumBlock (B : Block) : Option (List Pos × List Pos) :=
  let q := combine B
  match enumTable q with
  | some (.ok lines) =>
    let total := (lines.map fun l => l.2.1).sum
    let width := (lines.headD (0, 0, [])).2.2.length
    some ((List.range width).foldl (fun (acc : List Pos × List Pos) j =>
      let s := (lines.map fun l => l.2.2.getD j 0).sum
      let grp := (q.groups.getD j []).map fun k => B.x.getD k (0, 0)
      if s = 0 then (acc.1 ++ grp, acc.2)
      else if s = total * (q.groups.getD j []).length then (acc.1, acc.2 ++ grp)
      else acc) ([], []))
  | _ => none

/-- `solve_enumerate`, algorithms.rs 568-617.  `none`: panic (`unwrap` of an error).  When some block exceeds the
limit nothing is reported. -/
def solveEnumerate (S : Sys) : Option (List Pos × List Pos) :=
  if S.any fun B => B.x.length > ENUM_LIMIT then some ([], [])
  else (S.mapM enumBlock).map fun l => (l.flatMap (·.1), l.flatMap (·.2))

end Ms
