import Verif.Model.EnumComb
import Verif.SpecSolve

/-! # Vocabulary for `enum_comb` -/

namespace Ms.Spec

/-- What `enum_comb` needs: cell `j` has the same coefficient `cap j` in all rows it occurs in, no row can hold more than 255
mines, and the right-hand sides are bytes. -/
structure CombOK (q : Squeezed) (cap : Nat → Nat) : Prop where
  coefs : ∀ e j, q.coef e j = 0 ∨ q.coef e j = cap j
  fits : ∀ e < q.rows.length, ((q.cellsIn e).map cap).sum ≤ 255
  rhs : ∀ e < q.rows.length, 0 ≤ q.rhs e ∧ q.rhs e ≤ 255

/-- `t` gives every cell a number of mines up to its capacity (none to a cell that does not occur), such that the first `k`
rows add up. -/
structure IsComb (q : Squeezed) (cap : Nat → Nat) (k : Nat) (t : List Nat) : Prop where
  length : t.length = q.x.length
  le : ∀ j < q.x.length, (∃ e < k, q.coef e j > 0) → t.getD j 0 ≤ cap j
  zero : ∀ j < q.x.length, (¬ ∃ e < k, q.coef e j > 0) → t.getD j 0 = 0
  sums : ∀ e < k, (((q.cellsIn e).map fun j => t.getD j 0).sum : Int) = q.rhs e

/-- what the lines of the older table say -/
structure OldTable (B : Block) (lines : List EnumLine) : Prop where
  /-- no number of mines twice -/
  nodup : (lines.map (·.1)).Nodup
  /-- exactly the numbers of mines that occur -/
  keys : ∀ m, m ∈ lines.map (·.1) ↔ (solutions B m).Nonempty
  /-- the number of solutions -/
  count : ∀ l ∈ lines, l.2.1 = (solutions B l.1).card
  width : ∀ l ∈ lines, l.2.2.length = (combine B).groups.length
  /-- for every cell the number of solutions with a mine there -/
  cell : ∀ l ∈ lines, ∀ j k, k ∈ (combine B).groups.getD j [] →
    l.2.2.getD j 0 = ((solutions B l.1).filter fun T => B.x.getD k (0, 0) ∈ T).card

end Ms.Spec
