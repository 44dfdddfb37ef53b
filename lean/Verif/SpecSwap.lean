import Verif.Spec
import Verif.SpecGame
import Verif.Model.Game

/-! # Replacing the board during a game

A program may keep the mines undecided while the player is forced to guess: it then gives the game another board that
explains everything shown. -/

namespace Ms.Spec

/-- The new board is as good an explanation of what is shown as the old one: the same size, correct numbers, as many mines,
and every number already shown is right. -/
structure ExplainsShown (s : MSB) (v : View) : Prop where
  numbered : Numbered v
  row : v.row = s.board.row
  col : v.col = s.board.col
  count : (mines v).card = (mines s.board).card
  same : ∀ p ∈ vcells s.board, shown s.gameBoard p < 10 → val v p = shown s.gameBoard p

/-- The games in which the board may be replaced, before the game by any board, during the game by one that explains what is
shown; otherwise as in `Reach`: any events, any resets. -/
inductive SwapRun : MSB → Prop
  | new {v : View} : Numbered v → SwapRun (MSB.new v)
  | step {s s' : MSB} {e : Ev} {p : Pos} {r : Option Nat} : SwapRun s → s.step e p = some (s', r) → SwapRun s'
  | reset {s : MSB} : SwapRun s → 0 < s.row → SwapRun s.reset
  | load {s : MSB} {v : View} : SwapRun s → (s.state = .ready ∨ s.state = .preFlaging) → Numbered v →
      v.row = s.row → v.col = s.column → SwapRun { s with board := v }
  | swap {s : MSB} {v : View} : SwapRun s → s.state = .playing → ExplainsShown s v → SwapRun { s with board := v }

/-- `p` comes before `q` in reading order. -/
def ReadBefore (p q : Pos) : Prop := p.1 < q.1 ∨ p.1 = q.1 ∧ p.2 < q.2

/-- The new board keeps the mines at the beginning: those with no covered safe cell before them in reading order. -/
def KeepsFront (s : MSB) (v : View) : Prop :=
  ∀ q ∈ mines s.board, (∀ p ∈ vcells s.board, val s.board p ≠ -1 → 10 ≤ shown s.gameBoard p → ¬ ReadBefore p q) → q ∈ mines v

/-- As `SwapRun`, but boards given during the game keep the mines at the beginning. -/
inductive FrontRun : MSB → Prop
  | new {v : View} : Numbered v → FrontRun (MSB.new v)
  | step {s s' : MSB} {e : Ev} {p : Pos} {r : Option Nat} : FrontRun s → s.step e p = some (s', r) → FrontRun s'
  | reset {s : MSB} : FrontRun s → 0 < s.row → FrontRun s.reset
  | load {s : MSB} {v : View} : FrontRun s → (s.state = .ready ∨ s.state = .preFlaging) → Numbered v →
      v.row = s.row → v.col = s.column → FrontRun { s with board := v }
  | swap {s : MSB} {v : View} : FrontRun s → s.state = .playing → ExplainsShown s v → KeepsFront s v → FrontRun { s with board := v }

end Ms.Spec
