import Verif.SpecOdds
import Verif.SpecFeatures

/-! # Specification vocabulary: the chance that an event of a video would have lost the game -/

namespace Ms.Spec
open Ms

/-- The events of a file as calls of the game machine: pixels are divided by the cell size. -/
def moves (pix : Nat) (evs : List RawEv) : List (Ev × Pos) := evs.map fun e => (e.ev, (e.y / pix, e.x / pix))

/-- Of the sets of mines with which the events `ops` look the same (`alike`), those with which the next event `op` loses the game. -/
def losingBy (v : View) (ops : List (Ev × Pos)) (op : Ev × Pos) : Finset (Finset Pos) :=
  (alike v ops).filter fun M =>
    (playOn (MSB.new (withMines v.row v.col M)) (ops ++ [op])).map (·.state) = some .loss

end Ms.Spec
