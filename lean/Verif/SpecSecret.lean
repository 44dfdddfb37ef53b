import Verif.SpecTape
import Verif.SpecInformed

/-! # Specification vocabulary: what a game gives away of its board -/

namespace Ms.Spec
open Ms

/-- Everything a player sees of a game, event after event: the answer to every event (`none`: refused) and what is shown
then.  No value if the machine panics. -/
def watch : MSB → List (Ev × Pos) → Option (List (Option Nat × Sight))
  | _, [] => some []
  | s, op :: ops =>
    match s.step op.1 op.2 with
    | none => none
    | some (s', r) => (watch s' ops).map fun w => (r, sight s') :: w

/-- The game after the events (refused events included).  No value if the machine panics. -/
def playOn : MSB → List (Ev × Pos) → Option MSB
  | s, [] => some s
  | s, op :: ops =>
    match s.step op.1 op.2 with
    | none => none
    | some (s', _) => playOn s' ops

/-- The boards that could have been dealt instead of `v`: the same size, as many mines, the right numbers. -/
structure Dealt (v v' : View) : Prop where
  row : v'.row = v.row
  col : v'.col = v.col
  count : (mines v').card = (mines v).card
  numbered : Numbered v'

/-- The mines `M` agree with the numbers shown: no number is shown where there is a mine, and every number shown is the
number of mines around it.  (Flags do not matter.) -/
def AgreesWith (g : Board) (M : Finset Pos) : Prop :=
  ∀ p ∈ grid g.row g.col, shown g p < 10 → p ∉ M ∧ shown g p = adjCount M p

/-- The board with the mines `M`. -/
def withMines (r c : Nat) (M : Finset Pos) : View := ⟨r, c, fun i j => if (i, j) ∈ M then -1 else adjCount M (i, j)⟩

/-- A player, or a program that plays: it decides from everything seen so far which event comes next. -/
abbrev Mind := List (Option Nat × Sight) → Ev × Pos

/-- The events `ops` are those this player makes in the game: each is decided from what was seen before it. -/
def Chooses (m : Mind) (s : MSB) (ops : List (Ev × Pos)) : Prop :=
  ∀ before op later, ops = before ++ op :: later → ∃ w, watch s before = some w ∧ op = m w

/-- The player never loses on a board that could be dealt instead of `v` (with no mine on the cell `c0`). -/
def NeverLoses (m : Mind) (v : View) (c0 : Pos) : Prop :=
  ∀ v', Dealt v v' → c0 ∉ mines v' → ∀ ops t, Chooses m (MSB.new v') ops → playOn (MSB.new v') ops = some t → t.state ≠ .loss

end Ms.Spec
