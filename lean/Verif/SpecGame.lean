import Verif.Spec

/-!
# Specification vocabulary for the game

Marks of a game board: `0..8` an opened number, `10` covered, `11` flag, `12` covered and known safe,
`14` wrong flag (shown after a loss), `15` the mine that was hit.
-/

namespace Ms.Spec

/-- The mark a game board shows in a cell. -/
def shown (g : Board) (p : Pos) : Int := g.get p.1 p.2

/-- What is opened when the cells of `start` are clicked: those cells and, from every opened zero, all
its neighbours that are covered on `g` (mark 10 or 12; flags stop the cascade). -/
inductive Opens (v : View) (g : Board) (start : List Pos) : Pos → Prop
  | click {p : Pos} : p ∈ start → Opens v g start p
  | spread {p q : Pos} : Opens v g start p → val v p = 0 → q ∈ vcells v → Adj p q →
      (shown g q = 10 ∨ shown g q = 12) → Opens v g start q

/-- The mark of an opened cell: its number, or 15 on a mine. -/
def openMark (v : View) (p : Pos) : Int := if 0 ≤ val v p then val v p else 15

end Ms.Spec
