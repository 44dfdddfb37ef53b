import Verif.SpecCareful
import Verif.SpecLearn

/-! # Specification vocabulary: a player who counts the mines

As in `SpecCareful`, the player looks only at the board the game shows, but they also know how many mines there are. -/

namespace Ms.Spec
open Ms

/-- The shown board allows the layout `σ` of `n` mines: the flagged cells and the covered cells with `σ` true are `n`
mines, and every shown number is the number of these mines around it. -/
def Allows (g : Board) (n : Nat) (σ : Pos → Bool) : Prop :=
  Consistent g σ ∧ ((coveredSet g).filter fun p => σ p = true).card + (markedSet g).card = n

/-- A covered cell that holds no mine in any layout of `n` mines the shown board allows. -/
def SafeAmong (g : Board) (n : Nat) (p : Pos) : Prop := IsCovered g p ∧ ∀ σ, Allows g n σ → σ p = false

/-- A covered cell that holds a mine in every layout of `n` mines the shown board allows. -/
def MineAmong (g : Board) (n : Nat) (p : Pos) : Prop := IsCovered g p ∧ ∀ σ, Allows g n σ → σ p = true

/-- What a player does who counts: open cells that are safe in every layout of `n` mines, flag cells that are mines in
every such layout, remove flags again, and chord anywhere on the board. -/
inductive CountingMove (n : Nat) : MSB → MSB → Prop
  | opens {s t : MSB} {p : Pos} : SafeAmong s.gameBoard n p → s.stepFlow (leftOn p) = some (t, true) → CountingMove n s t
  | flags {s t : MSB} {p : Pos} : MineAmong s.gameBoard n p → s.stepFlow (rightOn p) = some (t, true) → CountingMove n s t
  | unflags {s t : MSB} {p : Pos} : p ∈ grid s.row s.column → s.gameBoard.get p.1 p.2 = 11 →
      s.stepFlow (rightOn p) = some (t, true) → CountingMove n s t
  | chords {s t : MSB} {p : Pos} : p ∈ grid s.row s.column → s.stepFlow (chordOn p) = some (t, true) → CountingMove n s t

/-- Any number of such moves. -/
def CountingGame (n : Nat) : MSB → MSB → Prop := Relation.ReflTransGen (CountingMove n)

end Ms.Spec
