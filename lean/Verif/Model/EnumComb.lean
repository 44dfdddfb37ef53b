import Verif.Model.Enum

/-!
# The older enumeration: `enum_comb` (utils.rs 795-886), `cal_table_minenum_enum` (utils.rs 1115-1196)

`matrixA_squeeze` zipped with `Matrixb`, `matrixx_squeeze` and `combination_relationship` are a `Squeezed`, as for
`cal_table_minenum_recursion`.  Matrices are taken to be rectangular.  `u8` sums are taken modulo 256 (a release build; a debug
build panics when they overflow); the counts of situations (`usize`) are unbounded.
-/

namespace Ms

/-- `(0..k).map(|i| 0..max[i] + 1).multi_cartesian_product()`, in lexicographic order (without the special case of no factor) -/
def prods : List Nat → List (List Nat)
  | [] => [[]]
  | m :: ms => (List.range (m + 1)).flatMap fun u => (prods ms).map (u :: ·)

/-- `matrixA_squeeze[e][j]` -/
def Squeezed.coef (q : Squeezed) (e j : Nat) : Int := (q.rows.getD e ([], 0)).1.getD j 0

/-- `Matrixb[e]` -/
def Squeezed.rhs (q : Squeezed) (e : Nat) : Int := (q.rows.getD e ([], 0)).2

/-- `enum_cell` of row `e`, utils.rs 811-814 -/
def Squeezed.cellsIn (q : Squeezed) (e : Nat) : List Nat := (List.range q.x.length).filter fun j => decide (q.coef e j > 0)

/-- The test of utils.rs 830-833, 869-872 and 875-878: the entries at `cells`, added as `u8`, are `b as u8`. -/
def sumIs (cells : List Nat) (b : Int) (item : List Nat) : Bool :=
  decide ((((cells.map fun i => item.getD i 0).sum % 256 : Nat) : Int) = b % 256)

/-- `row[cells[m]] = item[m]` for all `m` -/
def putAt (row cells item : List Nat) : List Nat := (cells.zip item).foldl (fun r p => r.set p.1 p.2) row

/-- utils.rs 821-825: `new_enum_table`.  The product of no factors is empty in itertools 0.10. -/
def newTable (maxs : List Nat) (b : Int) : List (List Nat) :=
  if maxs = [] then [] else (prods maxs).filter fun s => decide ((s.sum : Int) ≤ b)

/-- utils.rs 837-857: the table merged with the new situations: the first is written over the rows, the others into copies of
them behind. -/
def mergeTable (table : List (List Nat)) (cells : List Nat) : List (List Nat) → List (List Nat)
  | [] => table
  | first :: rest =>
    let t := table.map fun r => putAt r cells first
    rest.foldl (fun acc item => acc ++ t.map fun r => putAt r cells item) t

/-- `dedup`: of equal neighbours only one stays -/
def dedupAdj : List Nat → List Nat
  | [] => []
  | [a] => [a]
  | a :: b :: l => if a = b then dedupAdj (b :: l) else a :: dedupAdj (b :: l)

/-- `enum_comb_table`, `not_enum_cell` and `enum_cell_table` -/
abbrev CombState := List (List Nat) × List Bool × List (List Nat)

/-- One row of `enum_comb`, utils.rs 807-884. -/
def combStep (q : Squeezed) (st : CombState) (e : Nat) : CombState :=
  let cells := q.cellsIn e
  let new := cells.filter fun j => st.2.1.getD j false
  let seen := new.foldl (fun l j => l.set j false) st.2.1
  let items := newTable (new.map fun j => (q.coef e j).toNat) (q.rhs e)
  let own := sumIs cells (q.rhs e)
  let table :=
    if items = [] then st.1.filter own
    else
      let eqs := dedupAdj (cells.flatMap fun k => (List.range e).filter fun r => decide (q.coef r k > 0))
      (eqs.foldl (fun t r => t.filter (sumIs (st.2.2.getD r []) (q.rhs r))) (mergeTable st.1 new items)).filter own
  (table, seen, st.2.2 ++ [cells])

/-- `enum_comb`, utils.rs 795-886. -/
def enumComb (q : Squeezed) : List (List Nat) :=
  ((List.range q.rows.length).foldl (combStep q)
    ([List.replicate q.x.length 0], List.replicate q.x.length true, [])).1

/-- utils.rs 1141-1144: `si_num`; `none` is a panic of `C_query`. -/
def situations (q : Squeezed) (s : List Nat) : Option Nat :=
  (List.range s.length).foldlM (m := Option) (fun a i => (cQuery (q.len i) (s.getD i 0)).map (a * ·)) 1

/-- utils.rs 1159-1168 and 1181-1190: `sss` for cell `c`. -/
def situationsAt (q : Squeezed) (s : List Nat) (c : Nat) : Option Nat :=
  (List.range s.length).foldlM (m := Option) (fun a d =>
    (if c ≠ d then cQuery (q.len d) (s.getD d 0) else cQuery (q.len d - 1) (s.getD d 0 - 1)).map (a * ·)) 1

/-- what a situation adds to the line of its number of mines, per cell -/
def cellCounts (q : Squeezed) (s : List Nat) : Option (List Nat) :=
  (List.range s.length).mapM (m := Option) fun c => if s.getD c 0 = 0 then some 0 else situationsAt q s c

/-- One situation, utils.rs 1138-1193; `position` finds the first line with this number of mines. -/
def tableStep (q : Squeezed) (lines : List EnumLine) (s : List Nat) : Option (List EnumLine) :=
  let m := s.sum % 256
  (situations q s).bind fun n => (cellCounts q s).map fun cs =>
    match lines.findIdx? fun l => decide (l.1 = m) with
    | none => lines ++ [(m, n, cs)]
    | some i => lines.modify i fun l => (l.1, l.2.1 + n, List.zipWith (· + ·) l.2.2 cs)

/-- `cal_table_minenum_enum`, utils.rs 1115-1196.  Outer `none`: panic.  `.error 0`: too many cells; `.error 1`: no solution.
The two parts of `table_minenum` and `table_cell_minenum` are zipped. -/
def enumTableOld (q : Squeezed) : Option (Except Nat (List EnumLine)) :=
  if q.x.length > 45 then some (.error 0)
  else if enumComb q = [] then some (.error 1)
  else ((enumComb q).foldlM (m := Option) (tableStep q) []).map .ok

end Ms
