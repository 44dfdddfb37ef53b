import Verif.Model.Basic

/-! # Laying mines (utils.rs 416-558, 1771-1787) -/

namespace Ms

/-- The loop `for j .. { for k .. { if Board[j][k] >= 0 { Board[j][k] += 1 } } }` around `(x,y)`:
utils.rs 490-496, 548-554, 1777-1783. -/
def addAround (row col : Nat) (b : Board) (x y : Nat) : Board :=
  (block row col x y).foldl
    (fun b q => if b.get q.1 q.2 ≥ 0 then b.set q.1 q.2 (b.get q.1 q.2 + 1) else b) b

/-- The board list both engines shuffle: `area - minenum` zeros followed by `minenum` times `-1`
(utils.rs 462-463, 525-526). -/
def unshuffled (area minenum : Nat) : List Int :=
  List.replicate (area - minenum) 0 ++ List.replicate minenum (-1)

/-- `laymine`, utils.rs 458-500.  `shuffle` is the (random) result of `board1_dim.shuffle(&mut rng)` /
`shuffle_()`.  `none` is a panic: the subtractions of lines 459 and 462 underflow, or line 478 indexes out
of bounds. -/
def laymine (shuffle : List Int → List Int) (row col minenum X0 Y0 : Nat) : Option Board :=
  if row * col < 1 then none
  else
    let area := row * col - 1
    if area < minenum then none
    else
      let board1 := shuffle (unshuffled area minenum)
      let pointer := X0 + Y0 * row
      if area < pointer then none
      else
        let board2 := (rng 0 pointer).map (fun i => board1.getD i 0) ++ [0] ++
          (rng pointer area).map (fun i => board1.getD i 0)
        some <| (List.range (area + 1)).foldl
          (fun b i =>
            if board2.getD i 0 < 0 then
              let x := i % row
              let y := i / row
              addAround row col (b.set x y (-1)) x y
            else b)
          (Board.build row col fun _ _ => 0)

/-- `areaOp` of `laymine_op`, utils.rs 512-523 (`row - 1`, `column - 1` do not underflow because the caller
below is only evaluated for positive sizes). -/
def areaOp (row col X0 Y0 : Nat) : Nat :=
  if X0 = 0 ∨ Y0 = 0 ∨ X0 = row - 1 ∨ Y0 = col - 1 then
    if X0 = 0 ∧ Y0 = 0 ∨ X0 = 0 ∧ Y0 = col - 1 ∨ X0 = row - 1 ∧ Y0 = 0 ∨
        X0 = row - 1 ∧ Y0 = col - 1 then 4
    else 6
  else 9

/-- One iteration of the loop of `laymine_op`, utils.rs 539-556; the state is `(Board, skip)`, `none` is
the out-of-bounds panic of line 546. -/
def laymineOpStep (row col X0 Y0 : Nat) (board1 : List Int) (st : Board × Nat) (i : Nat) :
    Option (Board × Nat) :=
  let x := i % row
  let y := i / row
  if x ≤ X0 + 1 ∧ X0 ≤ x + 1 ∧ y ≤ Y0 + 1 ∧ Y0 ≤ y + 1 then some (st.1, st.2 + 1)
  else
    match board1[i - st.2]? with
    | none => none
    | some w =>
      if w < 0 then some (addAround row col (st.1.set x y (-1)) x y, st.2)
      else some st

/-- `laymine_op`, utils.rs 505-558.  `none` is a panic: `row - 1` / `column - 1` (line 513), the
subtractions of lines 524-525, or `board1_dim[i - skip]` out of bounds (line 546). -/
def laymineOp (shuffle : List Int → List Int) (row col minenum X0 Y0 : Nat) : Option Board :=
  if row = 0 ∨ col = 0 then none
  else
    let aop := areaOp row col X0 Y0
    if row * col < aop then none
    else
      let area := row * col - aop
      if area < minenum then none
      else
        let board1 := shuffle (unshuffled area minenum)
        ((List.range (area + aop)).foldlM (m := Option) (laymineOpStep row col X0 Y0 board1)
          (Board.build row col fun _ _ => 0, 0)).map (·.1)

/-- `cal_board_numbers`, utils.rs 1771-1787 (line 1773 panics on an empty board: `none`). -/
def calBoardNumbers (b : Board) : Option Board :=
  if b.row = 0 then none
  else some <| (cells b.row b.col).foldl
    (fun b' p => if b'.get p.1 p.2 = -1 then addAround b.row b.col b' p.1 p.2 else b') b

/-- `get_random_int`, utils.rs 419-434, fed with a stream of 32-bit draws; the rejection loop takes the
first accepted draw (`none`: the stream given never produced one). -/
def getRandomInt (limit : Nat) : List Nat → Option (Nat × List Nat)
  | [] => if limit = 0 then some (0, []) else none
  | t :: ts =>
    if limit = 0 then some (0, t :: ts)
    else if t < (2 ^ 32 - 1) / limit * limit then some (t % limit, ts)
    else getRandomInt limit ts

/-- One swap of `shuffle_`, utils.rs 447-450: the out-of-bounds panic is explicit. -/
def swapAt (l : List Int) (i id : Nat) : Option (List Int) :=
  match l[i]?, l[id]? with
  | some t, some u => some ((l.set i u).set id t)
  | _, _ => none

/-- `shuffle_`, utils.rs 443-452, driven by a stream of draws. -/
def jsShuffle (draws : List Nat) (l : List Int) : Option (List Int × List Nat) :=
  (rng 1 l.length).foldlM (m := Option)
    (fun (st : List Int × List Nat) i => do
      let (id, ds) ← getRandomInt (i + 1) st.2
      let l ← swapAt st.1 i id
      pure (l, ds))
    (l, draws)

end Ms
