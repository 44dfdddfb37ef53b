import Verif.SpecSecret
import Verif.SpecNoGuess
import Verif.Model.Poss

/-! # Specification vocabulary: a program that plays by advice -/

namespace Ms.Spec
open Ms

/-- The program that plays by advice: it presses and releases the left button on the cell `s` it starts with; from then on it
asks the advice `f` about the board shown, presses and releases the left button on the cell it is told, and only moves the mouse
if it is told none.  It sees nothing but the game. -/
def follow (s : Pos) (f : Board → Option Pos) : Mind := fun w =>
  match w.getLast? with
  | none => (.lc, s)
  | some (_, y) =>
    if y.state = .preFlaging then (.lr, s)
    else
      match f y.board with
      | none => (.mv, s)
      | some p => if y.mouse = .upUp then (.lc, p) else (.lr, p)

/-- The program neither loses nor makes the machine panic, on any board that could be dealt instead of `v` (with no mine on the cell
`c0`). -/
def Faultless (m : Mind) (v : View) (c0 : Pos) : Prop :=
  ∀ v', Dealt v v' → c0 ∉ mines v' → ∀ ops, Chooses m (MSB.new v') ops → ∃ t, playOn (MSB.new v') ops = some t ∧ t.state ≠ .loss

/-- The program wins on the board `v`. -/
def WinsOn (m : Mind) (v : View) : Prop :=
  ∃ ops t, Chooses m (MSB.new v) ops ∧ playOn (MSB.new v) ops = some t ∧ t.state = .win

/-- The board `g` is shown at some moment of a game on some correctly numbered `r × c` board with `n` mines, begun on the safe cell
`s` by a player who counts. -/
def Meets (r c n : Nat) (s : Pos) (g : Board) : Prop :=
  ∃ (b : Board) (t u : MSB), Rect b r c ∧ Numbered b.view ∧ (mines b.view).card = n ∧ b.get s.1 s.2 ≠ -1 ∧
    (MSB.new b.view).stepFlow (leftOn s) = some (t, true) ∧ CountingGame n t u ∧ u.gameBoard = g

/-- The advice names only cells that are safe in all layouts of `n` mines the shown board allows. -/
def Honest (r c n : Nat) (s : Pos) (f : Board → Option Pos) : Prop :=
  ∀ g, Meets r c n s g → ∀ p, f g = some p → SafeAmong g n p

/-- The advice names a cell whenever there is such a cell. -/
def Helpful (r c n : Nat) (s : Pos) (f : Board → Option Pos) : Prop :=
  ∀ g, Meets r c n s g → (∃ p, SafeAmong g n p) → (f g).isSome

/-- Sets of cells that can be opened one after the other from `s`, each of them free of mines in every layout of `n` mines that agrees
with the cells opened before (`Openable` of `SpecNoGuess` for a player who knows the number of mines). -/
inductive CountOpen (r c : Nat) (b : Board) (s : Pos) (n : Nat) : Finset Pos → Prop
  | start : CountOpen r c b s n {s}
  | step {O : Finset Pos} {p : Pos} : CountOpen r c b s n O → p ∈ grid r c →
      (∀ σ, Explains r c b O σ → ((grid r c).filter fun q => σ q = true).card = n → σ p = false) →
      CountOpen r c b s n (insert p O)

/-- Starting at `s`, all safe cells can be opened without guessing by a player who knows that there are `n` mines. -/
def NoGamble (r c : Nat) (b : Board) (s : Pos) (n : Nat) : Prop :=
  ∃ O, CountOpen r c b s n O ∧ ∀ p ∈ grid r c, b.get p.1 p.2 ≠ -1 → p ∈ O

/-- The cells without a mine. -/
def safeCells (b : Board) : Finset Pos := (grid b.row b.col).filter fun p => b.get p.1 p.2 ≠ -1

/-- The advice of `cal_possibility_onboard`: a covered cell of the shown board for which its table (for `n` mines) says 0. -/
def byTable (n : Nat) (g : Board) : Option Pos :=
  match calPossibilityOnboard g (n : ℚ) with
  | some (.ok (P, _)) => (cells g.row g.col).find? fun p => decide (g.get p.1 p.2 = 10) && decide (cellProb P p = some 0)
  | _ => none

end Ms.Spec
