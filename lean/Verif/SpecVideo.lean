import Verif.Model.Video
import Verif.Spec

/-!
# Vocabulary for the recording properties

A *session* is what a program can do with one `BaseVideo`: create it on a board with correct numbers, call
`step` as often as it likes with a clock that does not run backwards, give it another board while no cell is
open, set the pixel size before the game, and reset it at any time.  The Boolean says whether the board is still
the one on which the current recording began.  `e ≠ .pf`: the event `pf` does not come from the mouse.
-/

namespace Ms.Spec

inductive Session (dist : Pos → Pos → ℚ) : Bool → Nat → Live → Prop
  | new {v : View} {pix now : Nat} : Numbered v → Session dist true now (Live.new v pix now)
  | step {b : Bool} {t now : Nat} {L L' : Live} {e : Ev} {pos : Pos} {ok : Bool} : Session dist b t L → t ≤ now →
      e ≠ .pf → pos.1 < 65536 → pos.2 < 65536 → L.step dist now e pos = some (L', ok) → Session dist b now L'
  | board {b : Bool} {t : Nat} {L L' : Live} {v : View} : Session dist b t L → Numbered v →
      L.gstate = .ready ∨ L.gstate = .preFlaging → L.setBoard v = (L', true) → Session dist false t L'
  | fresh {b : Bool} {t : Nat} {L : Live} : Session dist b t L → L.gstate = .ready → Session dist true t L
  | reset {b : Bool} {t : Nat} {L : Live} {row column pix : Nat} : Session dist b t L → 0 < row →
      Session dist true t (L.reset row column pix)
  | pix {b : Bool} {t : Nat} {L : Live} {pix : Nat} : Session dist b t L → L.gstate = .ready →
      Session dist b t (L.setPix pix).1

/-- the event took place within the board -/
def OnBoard (L : Live) (r : Rec) : Prop := r.y < L.height * L.pix ∧ r.x < L.width * L.pix

end Ms.Spec

namespace Ms.Spec

/-- The game machine driven by the events of a file: pixels are divided by the cell size; no event may be refused. -/
def play (pix : Nat) (v : View) (evs : List RawEv) : Option MSB :=
  evs.foldlM (m := Option) (fun m e =>
    match m.step e.ev (e.y / pix, e.x / pix) with
    | some (m', some _) => some m'
    | _ => none) (MSB.new v)

/-- A position of a game on the board `v`: a cell that shows a number shows the right one and is no mine. -/
def Faithful (v : View) (g : Board) : Prop :=
  Rect g v.row v.col ∧ ∀ p ∈ vcells v, 10 ≤ g.get p.1 p.2 ∨ (g.get p.1 p.2 = val v p ∧ val v p ≠ -1)

end Ms.Spec
