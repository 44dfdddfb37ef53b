import Verif.SpecSwap

/-! # Replaying a game in which the board was replaced -/

namespace Ms.Spec

/-- What a player sees of a game: the board shown, the state of the game and of the mouse, the click counters and the number of flags. -/
structure Sight where
  board : Board
  state : GState
  mouse : Mouse
  left : Nat
  right : Nat
  double : Nat
  flag : Nat
deriving DecidableEq

/-- what is seen of a game -/
def sight (s : MSB) : Sight := ⟨s.gameBoard, s.state, s.mouse, s.left, s.right, s.double, s.flag⟩

/-- An accepted event, the level it was answered with, and what was seen then. -/
structure Seen where
  ev : Ev
  pos : Pos
  level : Nat
  after : Sight
deriving DecidableEq

/-- The games and their tapes: events that are refused are not recorded; the board may be replaced, before the game by any board,
during the game by one that explains what is shown and keeps the mines at the beginning (as in `FrontRun`). -/
inductive Played : List Seen → MSB → Prop
  | new {v : View} : Numbered v → Played [] (MSB.new v)
  | step {tape : List Seen} {s s' : MSB} {e : Ev} {p : Pos} {k : Nat} : Played tape s → s.step e p = some (s', some k) →
      Played (tape ++ [⟨e, p, k, sight s'⟩]) s'
  | refused {tape : List Seen} {s s' : MSB} {e : Ev} {p : Pos} : Played tape s → s.step e p = some (s', none) → Played tape s'
  | load {tape : List Seen} {s : MSB} {v : View} : Played tape s → (s.state = .ready ∨ s.state = .preFlaging) → Numbered v →
      v.row = s.row → v.col = s.column → Played tape { s with board := v }
  | swap {tape : List Seen} {s : MSB} {v : View} : Played tape s → s.state = .playing → ExplainsShown s v → KeepsFront s v →
      Played tape { s with board := v }

/-- Feeding the events of the tape to the game `s` gives every time the recorded answer and the recorded sight; `t` is the game
at the end. -/
def Replays (s : MSB) : List Seen → MSB → Prop
  | [], t => t = s
  | x :: tape, t => ∃ s1, s.step x.ev x.pos = some (s1, some x.level) ∧ sight s1 = x.after ∧ Replays s1 tape t

end Ms.Spec
