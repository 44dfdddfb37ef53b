import Verif.Model.Solve
import Verif.Spec
import Mathlib.Logic.Relation

/-! # Specification vocabulary for the solvers

An assignment `σ : Pos → Bool` says which cells are mines. -/

namespace Ms.Spec

/-- The left-hand side of an equation under an assignment. -/
def lhs (σ : Pos → Bool) (coeffs : List Int) (xs : List Pos) : Int :=
  (List.zipWith (fun c p => if σ p = true then c else 0) coeffs xs).sum

/-- `σ` satisfies every equation of the block. -/
def SolvesB (σ : Pos → Bool) (B : Block) : Prop := ∀ r ∈ B.rows, lhs σ r.1 B.x = r.2

/-- `σ` satisfies every equation of the system. -/
def Solves (σ : Pos → Bool) (S : Sys) : Prop := ∀ B ∈ S, SolvesB σ B

/-- All cells of a system. -/
def sysCells (S : Sys) : List Pos := S.flatMap fun B => B.x

/-- A rectangular block with coefficients 0 and 1. -/
def Block01 (B : Block) : Prop :=
  ∀ r ∈ B.rows, r.1.length = B.x.length ∧ ∀ c ∈ r.1, c = 0 ∨ c = 1

/-- Every cell of the block occurs in one of its equations. -/
def BlockCovered (B : Block) : Prop := ∀ k, k < B.x.length → ∃ r ∈ B.rows, r.1.getD k 0 = 1

/-- A system the solvers are meant for: rectangular 0/1 blocks, no cell occurs twice, every cell occurs in
some equation of its block. -/
structure GoodSys (S : Sys) : Prop where
  rect : ∀ B ∈ S, Block01 B
  nodup : (sysCells S).Nodup
  covered : ∀ B ∈ S, BlockCovered B

/-- The game board `g'` is `g` with the cells of `ism` marked 11 and those of `notm` marked 12. -/
def MarkedFrom (g g' : Board) (notm ism : List Pos) : Prop :=
  ∀ i j, g'.get i j = if (i, j) ∈ ism then 11 else if (i, j) ∈ notm then 12 else g.get i j

instance (σ : Pos → Bool) (B : Block) : Decidable (SolvesB σ B) :=
  inferInstanceAs (Decidable (∀ r ∈ B.rows, lhs σ r.1 B.x = r.2))

/-- The solutions of a block with exactly `m` mines, each given by its set of mines. -/
def solutions (B : Block) (m : Nat) : Finset (Finset Pos) :=
  B.x.toFinset.powerset.filter fun T => T.card = m ∧ SolvesB (fun p => decide (p ∈ T)) B

/-! ## game boards

A game board shows `0..9` for numbers, `10` for covered cells, `11` for cells marked as mines; the solvers write
`12` for cells marked as safe. -/

/-- `p` is a cell of the board showing a number. -/
def IsNumber (g : Board) (p : Pos) : Prop :=
  p ∈ grid g.row g.col ∧ 0 ≤ g.get p.1 p.2 ∧ g.get p.1 p.2 < 10

/-- `p` is a covered cell of the board. -/
def IsCovered (g : Board) (p : Pos) : Prop := p ∈ grid g.row g.col ∧ g.get p.1 p.2 = 10

/-- The number of mines around `p` when the covered cells with `σ` true and the marked cells are the mines. -/
def minesNear (g : Board) (σ : Pos → Bool) (p : Pos) : Nat :=
  ((grid g.row g.col).filter fun q =>
    Near p q ∧ (g.get q.1 q.2 = 11 ∨ (g.get q.1 q.2 = 10 ∧ σ q = true))).card

/-- The layout `σ` of mines on the covered cells agrees with every shown number. -/
def Consistent (g : Board) (σ : Pos → Bool) : Prop :=
  ∀ p, IsNumber g p → g.get p.1 p.2 = minesNear g σ p

/-- A covered cell next to a number. -/
def Frontier (g : Board) (q : Pos) : Prop := IsCovered g q ∧ ∃ p, IsNumber g p ∧ Near p q

/-- `q` is reached from `p` by steps to neighbouring covered cells. -/
def Region (g : Board) : Pos → Pos → Prop := Relation.ReflTransGen fun a b => Near a b ∧ IsCovered g b

/-- `b` is reached from `a` by steps between covered cells next to a common number. -/
def SharesNumbers (g : Board) : Pos → Pos → Prop :=
  Relation.ReflTransGen fun a b => IsCovered g b ∧ ∃ n, IsNumber g n ∧ Near n a ∧ Near n b

end Ms.Spec
