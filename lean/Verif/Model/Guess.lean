import Verif.Model.Mark

/-!
# `refresh_matrixses`, `find_a_border_cell`, `is_guess_while_needless`
-/

namespace Ms

/-! ## refresh_matrixses -/

/-- utils.rs 336-345: the neighbours (and the cell itself) of a popped cell: covered ones are marked 21 and pushed,
a value below 10 makes the popped cell a border cell.  The stack is modelled with its top as head. -/
def compCell (st : Board × List Pos × Bool) (q : Pos) : Board × List Pos × Bool :=
  if st.1.get q.1 q.2 = 10 then (st.1.set q.1 q.2 21, q :: st.2.1, st.2.2)
  else if st.1.get q.1 q.2 < 10 then (st.1, st.2.1, true)
  else st

/-- utils.rs 333-354: `while !buffer.is_empty()`; the marked board and the border cells in the order they are popped.
`none`: out of fuel. -/
def compLoop : Nat → Board → List Pos → List Pos → Option (Board × List Pos)
  | 0, _, _, _ => none
  | _ + 1, m, [], out => some (m, out)
  | fuel + 1, m, t :: buf, out =>
    let r := (block m.row m.col t.1 t.2).foldl compCell (m, buf, false)
    compLoop fuel r.1 r.2.1 (if r.2.2 then out ++ [t] else out)

/-- utils.rs 326-358: one cell of the scan; `fuel` for the loop. -/
def regionStep (fuel : Nat) (st : Board × List (List Pos)) (p : Pos) : Option (Board × List (List Pos)) :=
  if st.1.get p.1 p.2 = 10 then
    (compLoop fuel (st.1.set p.1 p.2 21) [p] []).map fun r => (r.1, if r.2 = [] then st.2 else st.2 ++ [r.2])
  else some st

/-- utils.rs 324-359: `cell_10`, the border cells of each connected region of covered cells that has any. -/
def borderGroups (g : Board) : Option (List (List Pos)) :=
  ((cells g.row g.col).foldlM (regionStep (g.row * g.col + 2)) (g, [])).map fun st => st.2

/-- utils.rs 367-376: the blocks met along one region, consecutive ones become adjacent.  `none`: the `unwrap` of
`position` fails (or out of fuel). -/
def regionEdges (S : Sys) : Nat → List Pos → Option Nat → Option (List (Nat × Nat))
  | 0, _, _ => none
  | fuel + 1, blk, last =>
    match blk.getLast? with
    | none => some []
    | some seed => do
      let t ← S.findIdx? fun B => B.x.contains seed
      let tl ← regionEdges S fuel (blk.dropLast.filter fun x => ¬ (S.getD t ⟨[], []⟩).x.contains x) (some t)
      match last with
      | none => pure tl
      | some l => pure ((l, t) :: tl)

/-- utils.rs 365-377: the adjacency matrix, as a list of undirected edges. -/
def blockEdges (S : Sys) (gs : List (List Pos)) : Option (List (Nat × Nat)) :=
  (gs.mapM fun blk => regionEdges S (blk.length + 1) blk none).map List.flatten

/-- `adjacency_matrix[a][b]`. -/
def adjacent (E : List (Nat × Nat)) (a b : Nat) : Bool := E.contains (a, b) || E.contains (b, a)

/-- utils.rs 385-416: the blocks popped when the search starts at `t`: only neighbours with a larger index are pushed
(in ascending order, so popped in descending order), and they are pushed again every time `t` is popped.  The stack is
replaced by recursion, which visits in the same order.  `none`: out of fuel (a self-loop would never end). -/
def visitFrom (E : List (Nat × Nat)) (n : Nat) : Nat → Nat → Option (List Nat)
  | 0, _ => none
  | fuel + 1, t => do
    let kids := ((List.range n).filter fun j => t ≤ j && adjacent E t j).reverse
    let l ← kids.mapM (visitFrom E n fuel)
    pure (t :: l.flatten)

/-- utils.rs 388-411: move the visited blocks out of `As`, `xs`, `bs` (`append(&mut As[t])` leaves an empty one). -/
def takeBlocks (S : Sys) (l : List Nat) : Sys × Sys :=
  l.foldl (fun st t => (st.1 ++ [st.2.getD t ⟨[], []⟩], st.2.set t ⟨[], []⟩)) ([], S)

/-- utils.rs 379-416: one start block; blocks already moved away are skipped. -/
def groupStep (E : List (Nat × Nat)) (n : Nat) (st : List Sys × Sys) (i : Nat) : Option (List Sys × Sys) :=
  if (st.2.getD i ⟨[], []⟩).rows = [] then some st
  else (visitFrom E n (n + 1) i).map fun l => (st.1 ++ [(takeBlocks st.2 l).1], (takeBlocks st.2 l).2)

/-- utils.rs 378-417. -/
def groupBlocks (S : Sys) (E : List (Nat × Nat)) : Option (List Sys) :=
  ((List.range S.length).foldlM (groupStep E S.length) ([], S)).map fun st => st.1

/-- `refresh_matrixses`, utils.rs 303-418. -/
def refreshMatrixses (g : Board) : Option (List Sys) := do
  let S ← refreshMatrixs g
  if S.length = 1 then return [S]
  let gs ← borderGroups g
  if gs.length = 1 then return [S]
  let E ← blockEdges S gs
  groupBlocks S E

/-! ## find_a_border_cell -/

/-- utils.rs 1682-1688 and 1696-1702: some cell of the 3x3 block is below 10. -/
def besideNumber (g : Board) (p : Pos) : Bool := (block g.row g.col p.1 p.2).any fun q => g.get q.1 q.2 < 10

/-- utils.rs 1693-1707: the inner loops for one popped cell `t`; a border cell is returned at once. -/
def borderScan (t : Pos) : List Pos → Board × List Pos → Pos ⊕ (Board × List Pos)
  | [], st => .inr st
  | q :: qs, st =>
    if q ≠ t ∧ st.1.get q.1 q.2 = 10 then
      if besideNumber st.1 q then .inl q
      else borderScan t qs (st.1.set q.1 q.2 100, q :: st.2)
    else borderScan t qs st

/-- utils.rs 1691-1709.  The outer `none`: out of fuel. -/
def borderLoop : Nat → Board × List Pos → Option (Option Pos)
  | 0, _ => none
  | _ + 1, (_, []) => some none
  | fuel + 1, (m, t :: buf) =>
    match borderScan t (block m.row m.col t.1 t.2) (m, buf) with
    | .inl q => some (some q)
    | .inr st => borderLoop fuel st

/-- `find_a_border_cell`, utils.rs 1677-1710. -/
def findBorderCell (g : Board) (p : Pos) : Option (Option Pos × Bool) :=
  if besideNumber g p then some (some p, true)
  else (borderLoop (g.row * g.col + 2) (g.set p.1 p.2 100, [p])).map fun q => (q, false)

/-! ## is_guess_while_needless -/

/-- `is_guess_while_needless`, algorithms.rs 1327-1385: the answer and the board left behind.  `none`: panic. -/
def isGuess (g : Board) (p : Pos) : Option (Nat × Board) := do
  let g := unmark g
  if ¬ (p.1 < g.row ∧ p.2 < g.col) then none
  if g.get p.1 p.2 < 10 then return (5, g)
  let Ts ← refreshMatrixses g
  match ← findBorderCell g p with
  | (none, _) => return (2, g)
  | (some q, border) =>
    let T ← Ts.find? fun T => T.any fun B => B.x.contains q
    let o ← solveDirect T g
    match o.res with
    | .error _ => none
    | .ok (n, _) =>
      if border = false ∧ n ≠ [] then return (3, o.board)
      if o.board.get q.1 q.2 = 12 then return (1, o.board)
      if o.board.get q.1 q.2 = 11 then return (4, o.board)
      let o2 ← solveMinus o.sys o.board
      match o2.res with
      | .error _ => none
      | .ok (n2, _) =>
        if border = false ∧ n2 ≠ [] then return (3, o2.board)
        if o2.board.get q.1 q.2 = 12 then return (1, o2.board)
        if o2.board.get q.1 q.2 = 11 then return (4, o2.board)
        let (n3, i3) ← solveEnumerate o2.sys
        if border = false ∧ n3 ≠ [] then return (3, o2.board)
        if n3.contains q then return (1, o2.board)
        if i3.contains q then return (4, o2.board)
        if n = [] ∧ n2 = [] ∧ n3 = [] then return (2, o2.board)
        return (3, o2.board)

end Ms
