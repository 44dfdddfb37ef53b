import Verif.Spec
import Verif.SpecGame
import Verif.Model.Game

/-! # A hand on a mouse with two buttons -/

namespace Ms.Spec

/-- The two buttons: is the left one down, is the right one down? -/
structure Buttons where
  left : Bool
  right : Bool
deriving DecidableEq

/-- What a hand can do: press a button that is up, let go a button that is down, move. -/
inductive HandMove : Buttons → Ev → Buttons → Prop
  | lc {r : Bool} : HandMove ⟨false, r⟩ .lc ⟨true, r⟩
  | lr {r : Bool} : HandMove ⟨true, r⟩ .lr ⟨false, r⟩
  | rc {l : Bool} : HandMove ⟨l, false⟩ .rc ⟨l, true⟩
  | rr {l : Bool} : HandMove ⟨l, true⟩ .rr ⟨l, false⟩
  | mv {b : Buttons} : HandMove b .mv b

/-- The mouse state a program shows agrees with the buttons. -/
def Agrees (m : Mouse) (b : Buttons) : Prop :=
  match m with
  | .upUp => b = ⟨false, false⟩
  | .upDown | .upDownNotFlag => b = ⟨false, true⟩
  | .downUp | .downUpAfterChording => b = ⟨true, false⟩
  | .chording | .chordingNotFlag => b = ⟨true, true⟩
  | .undefined => False

/-- A position a program passes on: a cell of the board, or the conventional point outside. -/
def Pointed (s : MSB) (p : Pos) : Prop := p ∈ vcells s.board ∨ p = (s.board.row, s.board.col)

/-- Both buttons up. -/
abbrev released : Buttons := ⟨false, false⟩

/-- The states a program can bring a game into with a hand on the mouse, and the buttons at that moment: new game, accepted
events, and - with both buttons up - reset and a new board before the game begins. -/
inductive HandRun : MSB → Buttons → Prop
  | new {v : View} : Numbered v → HandRun (MSB.new v) released
  | move {s s' : MSB} {b b' : Buttons} {e : Ev} {p : Pos} {k : Nat} : HandRun s b → HandMove b e b' →
      s.step e p = some (s', some k) → HandRun s' b'
  | reset {s : MSB} : HandRun s released → 0 < s.row → HandRun s.reset released
  | load {s : MSB} {v : View} : HandRun s released → (s.state = .ready ∨ s.state = .preFlaging) → Numbered v →
      v.row = s.row → v.col = s.column → HandRun { s with board := v } released

/-- The two presses that must be on the board: a left press before the game, a right press during the game. -/
def Careful (s : MSB) (e : Ev) (p : Pos) : Prop :=
  (e = .lc ∧ s.state = .ready ∨ e = .rc ∧ s.state = .playing) → p ∈ vcells s.board

/-- As `HandRun`, with every event at a cell or at the point outside, and those two presses on the board. -/
inductive CarefulRun : MSB → Buttons → Prop
  | new {v : View} : Numbered v → CarefulRun (MSB.new v) released
  | move {s s' : MSB} {b b' : Buttons} {e : Ev} {p : Pos} {k : Nat} : CarefulRun s b → HandMove b e b' → Pointed s p →
      Careful s e p → s.step e p = some (s', some k) → CarefulRun s' b'
  | reset {s : MSB} : CarefulRun s released → 0 < s.row → CarefulRun s.reset released
  | load {s : MSB} {v : View} : CarefulRun s released → (s.state = .ready ∨ s.state = .preFlaging) → Numbered v →
      v.row = s.row → v.col = s.column → CarefulRun { s with board := v } released

/-- A list of events a hand can make one after the other. -/
inductive HandMoves : Buttons → List (Ev × Pos) → Buttons → Prop
  | nil {b : Buttons} : HandMoves b [] b
  | cons {b b' b'' : Buttons} {e : Ev} {p : Pos} {l : List (Ev × Pos)} : HandMove b e b' → HandMoves b' l b'' →
      HandMoves b ((e, p) :: l) b''

end Ms.Spec
