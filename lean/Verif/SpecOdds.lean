import Verif.SpecSecret

/-! # Specification vocabulary: the chance of losing -/

namespace Ms.Spec
open Ms

/-- The sets of mines with which the game would look the same: all sets of as many cells as `v` has mines such that the
events `ops` look the same, all along, on the board with these mines. -/
def alike (v : View) (ops : List (Ev × Pos)) : Finset (Finset Pos) :=
  ((vcells v).powersetCard (mines v).card).filter fun M =>
    watch (MSB.new (withMines v.row v.col M)) ops = watch (MSB.new v) ops

/-- Those of them with which a left click on `c` now loses the game. -/
def losing (v : View) (ops : List (Ev × Pos)) (c : Pos) : Finset (Finset Pos) :=
  (alike v ops).filter fun M =>
    (playOn (MSB.new (withMines v.row v.col M)) (ops ++ leftOn c)).map (·.state) = some .loss

/-- Those of them with which a left click on `c` now shows a cell with no mine around it, and so opens an area. -/
def opening (v : View) (ops : List (Ev × Pos)) (c : Pos) : Finset (Finset Pos) :=
  (alike v ops).filter fun M =>
    (playOn (MSB.new (withMines v.row v.col M)) (ops ++ leftOn c)).map (fun t => shown t.gameBoard c) = some 0

end Ms.Spec
