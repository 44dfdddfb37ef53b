import Verif.SpecPoss
import Mathlib.Algebra.BigOperators.Group.Finset.Basic
import Mathlib.Data.Rat.Init

/-! # Learning more about a board

`Learned g g'`: the player's board `g'` shows all that `g` shows, and more: cells covered in `g` may have been opened, or
marked as mines (11) or as safe (12). -/

namespace Ms.Spec
open Finset

structure Learned (g g' : Board) : Prop where
  rows : g'.row = g.row
  cols : g'.col = g.col
  cells : ∀ p ∈ grid g.row g.col, g'.get p.1 p.2 = g.get p.1 p.2 ∨
    (g.get p.1 p.2 = 10 ∧ ((0 ≤ g'.get p.1 p.2 ∧ g'.get p.1 p.2 < 10) ∨ g'.get p.1 p.2 = 11 ∨ g'.get p.1 p.2 = 12))

/-- `g'` is `g` with `v` in the cell `c` -/
structure Put (g g' : Board) (c : Pos) (v : Int) : Prop where
  rows : g'.row = g.row
  cols : g'.col = g.col
  here : g'.get c.1 c.2 = v
  there : ∀ p ∈ grid g.row g.col, p ≠ c → g'.get p.1 p.2 = g.get p.1 p.2

/-- the number in a cell of a table of probabilities (`none` is NaN) -/
def cellProb (P : List (List (Option ℚ))) (p : Pos) : Option ℚ := (P.getD p.1 []).getD p.2 none

/-- the sum of all entries of a table for an `r × c` board -/
def total (P : List (List (Option ℚ))) (r c : Nat) : ℚ := ∑ p ∈ grid r c, (cellProb P p).getD 0

/-- A set of `m` covered cells that, with the marked cells, is a possible set of mines: every number shown is right. -/
def Possible (g : Board) (m : Nat) (A : Finset Pos) : Prop :=
  (∀ q ∈ A, IsCovered g q) ∧ A.card = m ∧ Consistent g fun q => decide (q ∈ A)

open Classical in
/-- Of all possible sets of `m` mines, the fraction in which the covered cell `c` is free and has `v` mines around it. -/
noncomputable def showChance (g : Board) (m : Nat) (c : Pos) (v : Nat) : ℚ :=
  (((coveredSet g).powerset.filter fun A => Possible g m A ∧ c ∉ A ∧ minesNear g (fun q => decide (q ∈ A)) c = v).card : ℚ) /
    (((coveredSet g).powerset.filter fun A => Possible g m A).card : ℚ)

end Ms.Spec
