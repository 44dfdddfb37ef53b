/-!
# Boards, views, loops

`Vec<Vec<i32>>` is modelled by lists of lists of (unbounded) integers.  Reading outside a board is a
panic in the Rust code; the model's `Board.get` returns `0` there, and every theorem whose conclusion
could depend on that value carries an explicit range hypothesis (or the model checks the range and
returns an explicit panic value).
-/

namespace Ms

/-- `Vec<Vec<i32>>` (used throughout `/repo/base/src`). -/
abbrev Board := List (List Int)

/-- `(usize, usize)`: a cell, row index first. -/
abbrev Pos := Nat × Nat

/-- `board[i][j]` (read).  Out-of-range reads (a Rust panic) give `0`. -/
def Board.get (b : Board) (i j : Nat) : Int := (b.getD i []).getD j 0

/-- `board[i][j] = v` (write).  Out-of-range writes (a Rust panic) change nothing. -/
def Board.set (b : Board) (i j : Nat) (v : Int) : Board := b.modify i (fun r => r.set j v)

/-- `BoardSize::get_row` for `Vec<Vec<i32>>`, safe_board.rs 231-233. -/
def Board.row (b : Board) : Nat := b.length

/-- `BoardSize::get_column` for `Vec<Vec<i32>>`, safe_board.rs 234-236 (panics on an empty board; the
model gives `0`). -/
def Board.col (b : Board) : Nat := (b.headD []).length

/-- The board is a rectangle of `r` rows of `c` cells. -/
structure Rect (b : Board) (r c : Nat) : Prop where
  len : b.length = r
  rows : ∀ l ∈ b, l.length = c

/-- `vec![vec![v; c]; r]` and, more generally, the board whose cell `(i,j)` is `f i j`. -/
def Board.build (r c : Nat) (f : Nat → Nat → Int) : Board :=
  (List.range r).map fun i => (List.range c).map fun j => f i j

/-- The interface through which the generic functions (`T: Index<usize> + BoardSize`,
e.g. utils.rs 20-24) look at a board: two sizes and an index operation. -/
structure View where
  row : Nat
  col : Nat
  get : Nat → Nat → Int

/-- A `Vec<Vec<i32>>` seen through `Index + BoardSize`. -/
def Board.view (b : Board) : View := ⟨b.row, b.col, b.get⟩

/-- The Rust half-open range `lo..hi`. -/
def rng (lo hi : Nat) : List Nat := List.range' lo (hi - lo)

/-- The cells visited by the ubiquitous double loop
`for m in max(1,i)-1..min(row,i+2) { for n in max(1,j)-1..min(col,j+2) { .. } }`
(e.g. utils.rs 50-51, 74-75, 127-128, 490-491, 573-574, 618-619), in order, *including* `(i,j)`. -/
def block (row col i j : Nat) : List Pos :=
  (rng (max 1 i - 1) (min row (i + 2))).flatMap fun m =>
    (rng (max 1 j - 1) (min col (j + 2))).map fun n => (m, n)

/-- The cells visited by `for i in 0..row { for j in 0..column { .. } }`, in order. -/
def cells (row col : Nat) : List Pos :=
  (List.range row).flatMap fun i => (List.range col).map fun j => (i, j)

end Ms
