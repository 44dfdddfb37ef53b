import Verif.Model.Basic

/-!
# `SafeBoard` (safe_board.rs): the memory-obfuscated board

Each cell is stored as three `i32` whose sum modulo 20 is a code.  32-bit overflow (a panic in a debug
build, a wrap in a release build) is explicit: every intermediate result goes through `i32`.
The random draws are arguments.
-/

namespace Ms

/-- An `i32` result: `none` is an arithmetic overflow. -/
def i32 (n : Int) : Option Int := if -2 ^ 31 ≤ n ∧ n < 2 ^ 31 then some n else none

/-- The table in `encode`, safe_board.rs 22-24. -/
def encodeTable : List Int := [7, 1, 3, 14, 16, 17, 9, 11, 12, 5, 6, 13, 19, 19, 18, 15, 4, 8, 2, 0]

/-- The table stored in every row, safe_board.rs 74-76. -/
def decodeTable : List Int := [16, -2, 15, -1, 13, 6, 7, -3, 14, 3, 9, 4, 5, 8, 0, 12, 1, 2, 11, 10]

/-- The three random draws made by one `encode` call. -/
structure Mask where
  a : Int
  b : Int
  k : Int

/-- The ranges of the three draws, safe_board.rs 20, 21, 25. -/
def Mask.Ok (m : Mask) : Prop :=
  (-200000000 ≤ m.a ∧ m.a < 200000001) ∧ (-10000 ≤ m.b ∧ m.b < 10001) ∧
  (-10000000 ≤ m.k ∧ m.k < 10000001)

/-- One stored cell: `(value_1[i], value_2[i], value_3[i])`. -/
abbrev Triple := Int × Int × Int

/-- `encode`, safe_board.rs 19-27.  `none`: index out of bounds (`v + 3` negative becomes a huge
`usize`) or overflow. -/
def encode (m : Mask) (v : Int) : Option Triple := do
  let i ← i32 (v + 3)
  let code ← if 0 ≤ i then encodeTable[i.toNat]? else none
  let t ← i32 (m.k * 20)
  let t ← i32 (code + t)
  let t ← i32 (t - m.a)
  let c ← i32 (t - m.b)
  pure (m.a, m.b, c)

/-- `decode`, safe_board.rs 30-36.  Rust's `%` truncates (`Int.tmod`). -/
def decode (t : Triple) : Option Int := do
  let s ← i32 (t.1 + t.2.1)
  let s ← i32 (s + t.2.2)
  let r := Int.tmod s 20
  pure (if r < 0 then r + 20 else r)

/-- `SafeBoardRow`, safe_board.rs 41-48.  The three value vectors, always pushed together, are one list
of triples; the `table` field is the constant `decodeTable`. -/
structure SafeRow where
  value : List Triple
  counter : Nat := 0
deriving DecidableEq

/-- `SafeBoard`, safe_board.rs 53-57. -/
structure SafeBoard where
  value : List SafeRow
  counter : Nat := 0
deriving DecidableEq

/-- `encode` of the cells of a row from column `j` on, safe_board.rs 67-72; `m j` are the draws made for column `j`. -/
def encodeRow (m : Nat → Mask) : List Int → Nat → Option (List Triple)
  | [], _ => some []
  | v :: vs, j => do
    let t ← encode (m j) v
    let ts ← encodeRow m vs (j + 1)
    pure (t :: ts)

/-- `SafeBoardRow::new`, safe_board.rs 61-79. -/
def SafeRow.new (m : Nat → Mask) (v : List Int) : Option SafeRow := do
  let l ← encodeRow m v 0
  pure { value := l }

/-- the row loop of `SafeBoard::new` and `SafeBoard::set`, safe_board.rs 95-97, 118-120 -/
def newRows (m : Nat → Nat → Mask) : Board → Nat → Option (List SafeRow)
  | [], _ => some []
  | v :: vs, i => do
    let r ← SafeRow.new (m i) v
    let rs ← newRows m vs (i + 1)
    pure (r :: rs)

/-- `SafeBoard::new`, safe_board.rs 93-102. -/
def SafeBoard.new (m : Nat → Nat → Mask) (v : Board) : Option SafeBoard := do
  let l ← newRows m v 0
  pure { value := l }

/-- `SafeBoard::set`, safe_board.rs 116-122 (the iterator counter is kept). -/
def SafeBoard.setBoard (s : SafeBoard) (m : Nat → Nat → Mask) (v : Board) : Option SafeBoard := do
  let l ← newRows m v 0
  pure { s with value := l }

/-- `self.table[decode(..) as usize]`, safe_board.rs 107-108, 129-134 -/
def Triple.read (t : Triple) : Option Int := do
  let d ← decode t
  if 0 ≤ d then decodeTable[d.toNat]? else none

/-- `row[index]`, safe_board.rs 126-135. -/
def SafeRow.index (r : SafeRow) (j : Nat) : Option Int := do
  let t ← r.value[j]?
  Triple.read t

/-- `SafeBoardRow::into_vec`, safe_board.rs 80-88. -/
def SafeRow.intoVec (r : SafeRow) : Option (List Int) := (List.range r.value.length).mapM r.index

/-- `board[i][j]`, safe_board.rs 209-214 then 126-135. -/
def SafeBoard.index (s : SafeBoard) (i j : Nat) : Option Int := do
  let r ← s.value[i]?
  r.index j

/-- `get_row`, safe_board.rs 250-252. -/
def SafeBoard.row (s : SafeBoard) : Nat := s.value.length

/-- `get_column`, safe_board.rs 253-255: `self.value[0].len()`, which resolves to the
`ExactSizeIterator::len` of safe_board.rs 188-192 (the number of stored cells, whatever the counter).
`none`: the panic on an empty board. -/
def SafeBoard.col (s : SafeBoard) : Option Nat := s.value.head?.map fun r => r.value.length

/-- `SafeBoard::into_vec_vec`, safe_board.rs 103-114. -/
def SafeBoard.intoVecVec (s : SafeBoard) : Option Board :=
  s.value.mapM fun r => do
    let c ← s.col
    (List.range c).mapM r.index

/-- A `SafeBoard` seen through `Index + BoardSize` by the generic functions. -/
def SafeBoard.view (s : SafeBoard) : View :=
  ⟨s.row, s.col.getD 0, fun i j => (s.index i j).getD 0⟩

/-- `Iterator::next` for a row, safe_board.rs 169-183: note that it yields `decode(..)`, not the table
entry.  Outer `none`: panic; inner `none`: end of iteration. -/
def SafeRow.next (r : SafeRow) : Option (Option Int × SafeRow) :=
  match r.value[r.counter]? with
  | some t => (decode t).map fun d => (some d, { r with counter := r.counter + 1 })
  | none => some (none, r)

/-- `Iterator::next` for the board, safe_board.rs 195-205. -/
def SafeBoard.next (s : SafeBoard) : Option SafeRow × SafeBoard :=
  match s.value[s.counter]? with
  | some r => (some r, { s with counter := s.counter + 1 })
  | none => (none, s)

end Ms
