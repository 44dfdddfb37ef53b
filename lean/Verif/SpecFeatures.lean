import Verif.Model.Features
import Verif.Properties.GameBoard

/-!
# Vocabulary for the feature analyses

What the analyses say about an event refers to the position the player saw before it, `A.stream[r.prior]?`, and to the cell
under the mouse.
-/

namespace Ms.Spec
open Properties

/-- A video after any calls of `analyse_for_features` (one name each). -/
inductive Annotated (dist : Pos → Pos → ℚ) (A : Replay) (mines pix : Nat) : Feat → Prop
  | start : Annotated dist A mines pix (A.feat mines pix)
  | run {F F' : Feat} {f : Feature} : Annotated dist A mines pix F → F.run dist f = some F' → Annotated dist A mines pix F'

/-- The cell under the mouse. -/
def _root_.Ms.Rec.cell (r : Rec) (pix : Nat) : Pos := (r.y / pix, r.x / pix)

open Classical in
/-- The share of the layouts of `mines` mines explaining the numbers of `g` that have a mine at `p`. -/
noncomputable def mineShare (g : Board) (mines : Nat) (p : Pos) : ℚ :=
  (((layouts (unmark g) mines).filter fun B => p ∈ B).card : ℚ) / ((layouts (unmark g) mines).card : ℚ)

/-- The two boards show the same numbers, at the same cells. -/
def SameNumbers (g g' : Board) (row col : Nat) : Prop :=
  ∀ p ∈ grid row col, g.get p.1 p.2 < 10 ∨ g'.get p.1 p.2 < 10 → g.get p.1 p.2 = g'.get p.1 p.2

/-- The risk of the event `r` of the analysed video `A`: 0 if the cell under the mouse showed a number before, otherwise the
share of the layouts explaining that position that have a mine there. -/
noncomputable def _root_.Ms.Replay.risk (A : Replay) (mines pix : Nat) (r : Rec) : ℚ :=
  if (A.stream.getD r.prior []).get (r.cell pix).1 (r.cell pix).2 < 10 then 0
  else mineShare (A.stream.getD r.prior []) mines (r.cell pix)

/-- A video of a game with correct numbers, analysed with the right sizes. -/
structure PlainVideo (dist : Pos → Pos → ℚ) (v : View) (pix : Nat) (evs : List RawEv) (A : Replay) : Prop where
  numbers : Numbered v
  row : 0 < v.row
  pixPos : 0 < pix
  analysed : analyse dist v v.row v.col pix evs = some A

/-- ... with at least one mine, none of whose positions is too large to be enumerated. -/
structure GoodVideo (dist : Pos → Pos → ℚ) (v : View) (pix : Nat) (evs : List RawEv) (A : Replay) : Prop
    extends PlainVideo dist v pix evs A where
  mine : 1 ≤ (mines v).card
  reach : ∀ g ∈ A.stream, ∀ p, IsNumber (unmark g) p → InReach (unmark g) p

/-- `q` is in the list `get_basic_not_mine` of the position `g`. -/
def BasicSafe (mines : Nat) (g : Board) (q : Pos) : Prop :=
  ∃ l, ((GameBoard.new mines).setBoard g).getBasicNot.map (·.2) = some l ∧ q ∈ l

/-- `q` is in the list `get_enum_not_mine` of the position `g`. -/
def EnumSafe (mines : Nat) (g : Board) (q : Pos) : Prop :=
  ∃ l, ((GameBoard.new mines).setBoard g).getEnumNot.map (·.2) = some l ∧ q ∈ l

/-- The pixel of event `i`. -/
def pixelAt (rs : List Rec) (i : Nat) : Pos := ((rs[i]?.map fun r => (r.x, r.y)).getD (0, 0))

/-- `m` is the first event after `j` with the property, `j` being event 0 or having the property itself. -/
def Consecutive (mk : Nat → Prop) (j m : Nat) : Prop :=
  (j = 0 ∨ mk j) ∧ j < m ∧ mk m ∧ ∀ l, j < l → l < m → ¬ mk l

/-- Event `i` is a click for the analysis of the mouse's way. -/
def ClickAt (rs : List Rec) (i : Nat) : Prop := ∃ r, rs[i]? = some r ∧ (r.ev = .lr ∨ r.ev = .rc ∨ r.ev = .rr)

/-- Event `i` opened cells. -/
def OpenAt (rs : List Rec) (i : Nat) : Prop := ∃ r, rs[i]? = some r ∧ 2 ≤ r.useful

/-- The length of the mouse's way from event `j` to event `m`. -/
def wayLength (dist : Pos → Pos → ℚ) (rs : List Rec) (j m : Nat) : ℚ :=
  ∑ l ∈ Finset.Ico j m, dist (pixelAt rs l) (pixelAt rs (l + 1))

/-- Event `i` is no movement. -/
def NoMove (rs : List Rec) (i : Nat) : Prop := ∃ r, rs[i]? = some r ∧ r.ev ≠ .mv

/-- Event `i` is a flag put on a covered cell. -/
def FlagStep (A : Replay) (pix i : Nat) : Prop := ∃ r, A.recs[i]? = some r ∧ r.ev = .rc ∧ r.useful = 1 ∧
  (A.stream.getD r.prior []).get (r.cell pix).1 (r.cell pix).2 = 10

/-- Event `i` (no movement) is a chord that opens cells, one that `is_good_chording` approves. -/
def ChordStep (A : Replay) (pix i : Nat) : Prop := ∃ r, A.recs[i]? = some r ∧ r.ev ≠ .mv ∧ r.useful = 3 ∧
  isGoodChording (A.stream.getD r.prior []) (r.cell pix) = some true

/-- Event `i` ends a run: a chord not approved, or a left click, or a chord without effect (told by the state of the buttons
at the event before that is no movement). -/
def BreakStep (A : Replay) (pix i : Nat) : Prop := ∃ l r q, Consecutive (NoMove A.recs) l i ∧ A.recs[i]? = some r ∧ A.recs[l]? = some q ∧
  ((r.useful = 3 ∧ isGoodChording (A.stream.getD r.prior []) (r.cell pix) = some false) ∨
   (r.useful ≠ 3 ∧ (r.ev = .lr ∧ (q.mouseSt = .downUp ∨ q.mouseSt = .chording) ∨ r.ev = .rr ∧ q.mouseSt = .chording)))

/-- Event `i` is more than 4 cells away from the event before that is no movement. -/
def FarStep (A : Replay) (pix i : Nat) : Prop := ∃ l r q, Consecutive (NoMove A.recs) l i ∧ A.recs[i]? = some r ∧ A.recs[l]? = some q ∧
  (((r.cell pix).1 : Int) - (q.cell pix).1) ^ 2 + (((r.cell pix).2 : Int) - (q.cell pix).2) ^ 2 > 16

/-- Event `i` is so far away from the event before that is no movement that the square of the distance in cells does not fit
a signed 32-bit integer. -/
def TooFar (A : Replay) (pix i : Nat) : Prop := ∃ l r q, Consecutive (NoMove A.recs) l i ∧ A.recs[i]? = some r ∧ A.recs[l]? = some q ∧
  (((r.cell pix).1 : Int) - (q.cell pix).1) ^ 2 + (((r.cell pix).2 : Int) - (q.cell pix).2) ^ 2 ≥ 2 ^ 31

open Classical in
/-- The number of flags and chords from event `a` to event `e`. -/
noncomputable def stepCount (A : Replay) (pix a e : Nat) : Nat :=
  ((Finset.Icc a e).filter fun l => FlagStep A pix l ∨ ChordStep A pix l).card

/-- Event `l` would end a run begun at `a`: it breaks it, or it is far away and the run has, up to it, a second flag or chord. -/
def EndAt (A : Replay) (pix a l : Nat) : Prop :=
  BreakStep A pix l ∨ (FarStep A pix l ∧ ∃ b, a < b ∧ b ≤ l ∧ (FlagStep A pix b ∨ ChordStep A pix b))

/-- The run begun at `a` ends at event `i`. -/
def RunEnds (A : Replay) (pix a i : Nat) : Prop := a < i ∧ EndAt A pix a i ∧ ∀ l, a < l → l < i → ¬ EndAt A pix a l

/-- A run begins at the first flag, and at the first flag after the end of a run. -/
inductive RunBegins (A : Replay) (pix : Nat) : Nat → Prop
  | first {a : Nat} : 1 ≤ a → FlagStep A pix a → (∀ l, 1 ≤ l → l < a → ¬ FlagStep A pix l) → RunBegins A pix a
  | next {a' i a : Nat} : RunBegins A pix a' → RunEnds A pix a' i → i < a → FlagStep A pix a →
      (∀ l, i < l → l < a → ¬ FlagStep A pix l) → RunBegins A pix a

/-- The run begun at `a` ends and is worth a comment: it has a chord with at least 5 flags and chords up to it, before the event
that ends it; `n` is the number of flags and chords up to its last chord. -/
def FLRun (A : Replay) (pix a n : Nat) : Prop :=
  RunBegins A pix a ∧ ∃ i e, RunEnds A pix a i ∧
    (∃ e', a < e' ∧ e' < i ∧ ChordStep A pix e' ∧ 5 ≤ stepCount A pix a e') ∧
    a < e ∧ e ≤ i ∧ ChordStep A pix e ∧ (∀ l, e < l → l ≤ i → ¬ ChordStep A pix l) ∧ n = stepCount A pix a e

end Ms.Spec
