import Verif.Spec

/-! # Specification vocabulary: solving without guessing

A player sees the numbers of the opened cells and nothing else (in particular not the total number of mines).  A
covered cell may be opened without guessing when it is safe in *every* layout of mines that agrees with what is
seen. -/

namespace Ms.Spec

/-- The number of mines of the layout `σ` on the `3×3` block around `p`. -/
def layoutNear (r c : Nat) (σ : Pos → Bool) (p : Pos) : Nat :=
  ((grid r c).filter fun q => Near p q ∧ σ q = true).card

/-- The layout of a board: the mines are the cells `-1`. -/
def layout (b : Board) (p : Pos) : Bool := decide (b.get p.1 p.2 = -1)

/-- `σ` agrees with what a player sees who has opened the cells `O` of `b`: no opened cell is a mine, and every
opened cell has as many mines around it as on `b`. -/
def Explains (r c : Nat) (b : Board) (O : Finset Pos) (σ : Pos → Bool) : Prop :=
  ∀ p ∈ O, σ p = false ∧ layoutNear r c σ p = layoutNear r c (layout b) p

/-- The sets of cells that can be opened without guessing: first the start, then, one by one, cells that are safe in
every layout agreeing with the cells opened before. -/
inductive Openable (r c : Nat) (b : Board) (s : Pos) : Finset Pos → Prop
  | start : Openable r c b s {s}
  | step {O : Finset Pos} {p : Pos} : Openable r c b s O → p ∈ grid r c →
      (∀ σ, Explains r c b O σ → σ p = false) → Openable r c b s (insert p O)

/-- Starting at `s`, all safe cells can be opened without guessing. -/
def NoGuess (r c : Nat) (b : Board) (s : Pos) : Prop :=
  ∃ O, Openable r c b s O ∧ ∀ p ∈ grid r c, layout b p = false → p ∈ O

/-- The covered cells next to an opened one. -/
def border (r c : Nat) (O : Finset Pos) : Finset Pos :=
  (grid r c).filter fun q => q ∉ O ∧ ∃ p ∈ O, Near p q

/-! ## dead structures -/

/-- Two cells side by side or one above the other. -/
def Orth (x y : Pos) : Prop :=
  (x.1 = y.1 ∧ (x.2 + 1 = y.2 ∨ y.2 + 1 = x.2)) ∨ (x.2 = y.2 ∧ (x.1 + 1 = y.1 ∨ y.1 + 1 = x.1))

/-- A safe cell all of whose neighbours are mines. -/
def DeadHole (r c : Nat) (b : Board) (z : Pos) : Prop :=
  z ∈ grid r c ∧ layout b z = false ∧ ∀ q ∈ grid r c, Adj z q → layout b q = true

/-- Two orthogonal neighbours, exactly one a mine, and every other cell that sees only one of the two is a mine. -/
def DeadPair (r c : Nat) (b : Board) (x y : Pos) : Prop :=
  x ∈ grid r c ∧ y ∈ grid r c ∧ Orth x y ∧ layout b y = !layout b x ∧
  ∀ q ∈ grid r c, q ≠ x → q ≠ y → ¬ (Near q x ↔ Near q y) → layout b q = true

/-- A corner cell of the board. -/
def IsCorner (r c : Nat) (p : Pos) : Prop := (p.1 = 0 ∨ p.1 + 1 = r) ∧ (p.2 = 0 ∨ p.2 + 1 = c)

/-- The cell `p` belongs to the `2×2` square with upper left cell `(i, j)`. -/
def InSquare (i j : Nat) (p : Pos) : Prop := (p.1 = i ∨ p.1 = i + 1) ∧ (p.2 = j ∨ p.2 = j + 1)

/-- A `2×2` square in which mines and safe cells alternate (whatever a corner cell of the board holds), and whose
diagonal outer neighbours are all mines. -/
def DeadSquare (r c : Nat) (b : Board) (i j : Nat) : Prop :=
  i + 1 < r ∧ j + 1 < c ∧
  (∀ x y, InSquare i j x → InSquare i j y → ¬ IsCorner r c x → ¬ IsCorner r c y → Orth x y →
    layout b y = !layout b x) ∧
  ∀ q ∈ grid r c, (q.1 + 1 = i ∨ q.1 = i + 2) → (q.2 + 1 = j ∨ q.2 = j + 2) → layout b q = true

end Ms.Spec
