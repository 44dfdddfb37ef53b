import Verif.SpecSolve
import Verif.Model.Game

/-! # Specification vocabulary: a careful player in the game machine

A careful player looks only at the board the game shows.  After the first click they open a cell only if it holds no
mine in any layout agreeing with every number shown, and flag a cell only if it holds a mine in every such layout. -/

namespace Ms.Spec
open Ms

/-- Press and let go the left button on a cell. -/
def leftOn (p : Pos) : List (Ev × Pos) := [(.lc, p), (.lr, p)]

/-- Press and let go the right button on a cell. -/
def rightOn (p : Pos) : List (Ev × Pos) := [(.rc, p), (.rr, p)]

/-- Press the left, then the right button on a cell; let go the left, then the right one. -/
def chordOn (p : Pos) : List (Ev × Pos) := [(.lc, p), (.rc, p), (.lr, p), (.rr, p)]

/-- A covered cell that holds no mine in any layout agreeing with the shown board. -/
def SureSafe (g : Board) (p : Pos) : Prop := IsCovered g p ∧ ∀ σ, Consistent g σ → σ p = false

/-- A covered cell that holds a mine in every layout agreeing with the shown board. -/
def SureMine (g : Board) (p : Pos) : Prop := IsCovered g p ∧ ∀ σ, Consistent g σ → σ p = true

/-- What a careful player does: open cells that are surely safe, flag sure mines, remove flags again, and chord
anywhere on the board. -/
inductive CarefulMove : MSB → MSB → Prop
  | opens {s t : MSB} {p : Pos} : SureSafe s.gameBoard p → s.stepFlow (leftOn p) = some (t, true) → CarefulMove s t
  | flags {s t : MSB} {p : Pos} : SureMine s.gameBoard p → s.stepFlow (rightOn p) = some (t, true) → CarefulMove s t
  | unflags {s t : MSB} {p : Pos} : p ∈ grid s.row s.column → s.gameBoard.get p.1 p.2 = 11 →
      s.stepFlow (rightOn p) = some (t, true) → CarefulMove s t
  | chords {s t : MSB} {p : Pos} : p ∈ grid s.row s.column → s.stepFlow (chordOn p) = some (t, true) → CarefulMove s t

/-- Any number of such moves. -/
def CarefulGame : MSB → MSB → Prop := Relation.ReflTransGen CarefulMove

/-- Opening one surely safe cell by a left click. -/
def SureClick (s t : MSB) : Prop := ∃ p, SureSafe s.gameBoard p ∧ s.stepFlow (leftOn p) = some (t, true)

end Ms.Spec
