import Verif.SpecSolve
import Mathlib.Data.Rat.Defs
import Mathlib.Data.Finset.Powerset

/-! # Specification vocabulary for the probability engine -/

namespace Ms.Spec

/-- The covered cells. -/
def coveredSet (g : Board) : Finset Pos := (grid g.row g.col).filter fun p => g.get p.1 p.2 = 10

/-- The cells marked as mines. -/
def markedSet (g : Board) : Finset Pos := (grid g.row g.col).filter fun p => g.get p.1 p.2 = 11

/-- At most 55 covered cells are linked (through shared numbers) to the covered cells around `p`: the limit of the
enumeration engine. -/
def InReach (g : Board) (p : Pos) : Prop :=
  ∀ l : List Pos, l.Nodup → (∀ q ∈ l, ∃ a, IsCovered g a ∧ Near p a ∧ SharesNumbers g a q) → l.length ≤ 55

/-- The numbers next to covered cells (and within reach) all have the right number of mines around them. -/
def ReachConsistent (g : Board) (σ : Pos → Bool) : Prop :=
  ∀ p, IsNumber g p → (∃ q, IsCovered g q ∧ Near p q) → InReach g p → g.get p.1 p.2 = minesNear g σ p

open Classical in
/-- The layouts of exactly `m` mines on the covered cells that agree with the numbers (within reach). -/
noncomputable def layouts (g : Board) (m : Nat) : Finset (Finset Pos) :=
  (coveredSet g).powerset.filter fun A => A.card = m ∧ ReachConsistent g fun q => decide (q ∈ A)

open Classical in
/-- The fraction of the layouts with a mine at `q`, all layouts being equally likely; undefined when there is none. -/
noncomputable def chance (g : Board) (m : Nat) (q : Pos) : Option ℚ :=
  if (layouts g m).card = 0 then none
  else some ((((layouts g m).filter fun A => q ∈ A).card : ℚ) / ((layouts g m).card : ℚ))

/-- A covered cell next to a number within reach. -/
def Fringe (g : Board) (q : Pos) : Prop := IsCovered g q ∧ ∃ p, IsNumber g p ∧ InReach g p ∧ Near p q

open Classical in
/-- The chance that a click at `c` opens an empty area: the cell is not shown yet, nothing near it is marked as a mine,
and the layout has no mine near it (`Near` includes the cell itself). -/
noncomputable def openChance (g : Board) (m : Nat) (c : Pos) : ℚ :=
  if g.get c.1 c.2 < 10 ∨ ∃ q ∈ grid g.row g.col, Near c q ∧ g.get q.1 q.2 = 11 then 0
  else (((layouts g m).filter fun A => ∀ q ∈ A, ¬ Near c q).card : ℚ) / ((layouts g m).card : ℚ)

end Ms.Spec
