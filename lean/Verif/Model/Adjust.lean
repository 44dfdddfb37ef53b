import Verif.Model.Laymine
import Verif.Model.Guess

/-!
# Laying boards that need no guess by adjustment: `laymine_solvable_adjust`
(algorithms.rs 787-1047)

Boards under construction hold `-10` (nothing laid yet), `-1` (mine), `0` (no mine).  `sh k` is the result of the `k`-th
shuffle; the number of shuffles done so far is threaded through.  The outer `Option` is `none` for a panic.
-/

namespace Ms

/-- `adjust_the_area_on_board`, algorithms.rs 1020-1047: `minenum` mines are laid at random on the cells of the area
(the underflow of 1028 is excluded by the caller). -/
def adjustArea (sh : List Int → List Int) (b : Board) (area : List (List Pos)) (minenum : Nat) : Board :=
  (area.flatten.zip (sh (unshuffled area.flatten.length minenum))).foldl (fun b pv => b.set pv.1.1 pv.1.2 pv.2) b

/-- algorithms.rs 937-968: the number of mines tried in round `i` for `n` cells, when `e` are expected. -/
def roundMines (n e i : Nat) : Nat :=
  if e = 0 ∨ n = 0 then 0
  else if e = n then e
  else if i = n - 1 then 0
  else if i = n then n
  else if n > e * 2 then
    if i < e * 2 - 1 then
      if i % 2 = 1 then e + (i + 1) / 2 else e - i / 2
    else i + 1
  else
    if i < (n - e) * 2 - 1 then
      if i % 2 = 1 then e + (i + 1) / 2 else e - i / 2
    else n - i - 1

/-- algorithms.rs 977-992: the right-hand sides are computed from the mines laid on `b`. -/
def refitBlock (b bg : Board) (B : Block) : Block :=
  { B with rows := B.rows.map fun row =>
      (row.1, (((List.range (B.rows.headD ([], 0)).1.length).filter fun a =>
        row.1.getD a 0 = 1 && (b.get (B.x.getD a (0, 0)).1 (B.x.getD a (0, 0)).2 = -1 &&
          bg.get (B.x.getD a (0, 0)).1 (B.x.getD a (0, 0)).2 ≠ 11)).length : Nat)) }

/-- The local variables of `adjust_step` that the loops change, and the number of shuffles done. -/
structure AdjSt where
  b : Board
  bg : Board
  r : Nat
  rn : Nat
  k : Nat

/-- `adjust_step`'s result, with the number of shuffles done. -/
abbrev AdjOut := Board × Bool × Nat

/-- The type of the recursive call `adjust_step(board, board_of_game, plan_click, remain_minenum, remain_not_minenum)`. -/
abbrev AdjRec := Board → Board → List Pos → Nat → Nat → Nat → Option AdjOut

/-- algorithms.rs 974-1012: one of the three tries with `m` mines.  `board0`, `bog`, `r0`, `rn0` are the arguments of
`adjust_step`, to which a failed recursive call resets the variables.  (Subtractions: `m ≤ r` and `xs - m ≤ rn` were
tested in 970.) -/
def adjustTry (sh : Nat → List Int → List Int) (step : AdjRec) (board0 bog : Board) (r0 rn0 : Nat) (T : Sys)
    (front : List (List Pos)) (m : Nat) (s : AdjSt) : Option (AdjOut ⊕ AdjSt) := do
  let b := adjustArea (sh s.k) s.b front m
  let (n, i, bg) ← getAllOnBoard (T.map (refitBlock b s.bg)) s.bg
  let bg := i.foldl (fun g p => g.set p.1 p.2 10) bg
  if n = [] then return .inr { s with b := b, bg := bg, k := s.k + 1 }
  let bg := n.foldl (fun g p => g.set p.1 p.2 1) bg
  let bg := i.foldl (fun g p => g.set p.1 p.2 11) bg
  if s.rn ≤ n.length then return .inl (b, true, s.k + 1)
  let a ← step b bg n (s.r - m) (s.rn - (front.flatten.length - m)) (s.k + 1)
  if a.2.1 then
    if a.1 ≠ [] then return .inl (a.1, true, a.2.2)
    return .inr ⟨b, bg, s.r - m, s.rn - (front.flatten.length - m), a.2.2⟩
  return .inr ⟨board0, bog, r0, rn0, a.2.2⟩

/-- algorithms.rs 974: up to three tries. -/
def adjustTries (sh : Nat → List Int → List Int) (step : AdjRec) (board0 bog : Board) (r0 rn0 : Nat) (T : Sys)
    (front : List (List Pos)) (m : Nat) : Nat → AdjSt → Option (AdjOut ⊕ AdjSt)
  | 0, s => some (.inr s)
  | u + 1, s => do
    match ← adjustTry sh step board0 bog r0 rn0 T front m s with
    | .inl o => return .inl o
    | .inr s => adjustTries sh step board0 bog r0 rn0 T front m u s

/-- algorithms.rs 935-1016: the rounds. -/
def adjustRounds (sh : Nat → List Int → List Int) (step : AdjRec) (board0 bog : Board) (r0 rn0 : Nat) (T : Sys)
    (front : List (List Pos)) (e : Nat) : List Nat → AdjSt → Option AdjOut
  | [], s => some ([], false, s.k)
  | i :: is, s => do
    let m := roundMines front.flatten.length e i
    if m > s.r ∨ front.flatten.length - m > s.rn then adjustRounds sh step board0 bog r0 rn0 T front e is s
    else
      match ← adjustTries sh step board0 bog r0 rn0 T front m 3 s with
      | .inl o => return o
      | .inr s => adjustRounds sh step board0 bog r0 rn0 T front e is s

/-- `adjust_step`, algorithms.rs 884-1018, with fuel for the recursion.  The expected number of mines (932) is the exact
floor of the quotient; with `f64` this is the same for all boards of fewer than 2^25 cells. -/
def adjustStep (sh : Nat → List Int → List Int) : Nat → AdjRec
  | 0, _, _, _, _, _, _ => none
  | fuel + 1, board, bog, plan, r, rn, k => do
    let bg := plan.foldl (fun g p => g.set p.1 p.2 1) bog
    let Ts ← refreshMatrixses bg
    match Ts with
    | [] => return ([], false, k)
    | T :: _ =>
      match T.map fun B => B.x.filter fun p => board.get p.1 p.2 = -10 with
      | [] => none
      | f0 :: fs =>
        if f0 = [] then
          if rn > 0 then return ([], false, k) else return (board, true, k)
        else
          adjustRounds sh (adjustStep sh fuel) board bog r rn T (f0 :: fs)
            ((f0 :: fs).flatten.length * r / (rn + r)) (List.range ((f0 :: fs).flatten.length + 1)) ⟨board, bg, r, rn, k⟩

/-- `laymine_solvable_adjust`, algorithms.rs 797-873 (`area_op` of 805-817 is computed as in `laymine_op`). -/
def laymineSolvableAdjust (sh : Nat → List Int → List Int) (row col minenum x0 y0 : Nat) : Option (Board × Bool) := do
  if row * col < areaOp row col x0 y0 then none
  if row * col - areaOp row col x0 y0 < minenum then
    let t ← laymine (sh 0) row col minenum x0 y0
    if row * col < minenum then none
    return (t, decide (row * col - minenum = 1))
  if row * col = areaOp row col x0 y0 + minenum then
    let t ← laymineOp (sh 0) row col minenum x0 y0
    return (t, true)
  let board : Board := (block row col x0 y0).foldl (fun (b : Board) p => b.set p.1 p.2 0)
    (List.replicate row (List.replicate col (-10)))
  let bog : Board := Board.set (List.replicate row (List.replicate col 10)) x0 y0 0
  let (b, flag, k) ← adjustStep sh (row * col + 1) board bog ((block row col x0 y0).filter fun p => p ≠ (x0, y0))
    minenum (row * col - areaOp row col x0 y0 - minenum) 0
  if flag = false ∨ b = [] then
    let t ← laymineOp (sh k) row col minenum x0 y0
    return (t, false)
  let b : Board := (cells row col).foldl (fun b p => if b.get p.1 p.2 = -10 then b.set p.1 p.2 (-1) else b) b
  return ((cells row col).foldl (fun b p => if b.get p.1 p.2 = -1 then addAround row col b p.1 p.2 else b) b, true)

end Ms
