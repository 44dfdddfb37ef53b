import Verif.Model.EnuStep

/-! # Vocabulary for `enuOneStep`

A row assigns to every cell 0 (no mine), 1 (mine) or 2 (not decided). -/

namespace Ms.Spec

/-- `r'` decides the cells of `ids` that `r` leaves open, and changes nothing else. -/
def Decides (ids : List Nat) (r r' : List Nat) : Prop :=
  r'.length = r.length ∧
  ∀ j : Nat, (j ∈ ids ∧ r[j]? = some 2 → r'[j]? = some 0 ∨ r'[j]? = some 1) ∧
       (¬ (j ∈ ids ∧ r[j]? = some 2) → r'[j]? = r[j]?)

/-- the mines among the cells `ids` -/
def minesAmong (ids : List Nat) (r : List Nat) : Nat := (ids.filter fun j => r[j]? = some 1).length

/-- All rows have the same length and leave the same cells open. -/
def SameOpen (all : List (List Nat)) : Prop :=
  ∀ r ∈ all, ∀ q ∈ all, r.length = q.length ∧ ∀ j : Nat, r[j]? = some 2 ↔ q[j]? = some 2

/-- `r` is a solution of the equations: it decides exactly the cells that occur in them, and in each the number of mines is
right. -/
def SolvesRow (n : Nat) (eqs : List (List Nat × Nat)) (r : List Nat) : Prop :=
  r.length = n ∧
  (∀ j < n, (∃ e ∈ eqs, j ∈ e.1) → r[j]? = some 0 ∨ r[j]? = some 1) ∧
  (∀ j < n, (¬ ∃ e ∈ eqs, j ∈ e.1) → r[j]? = some 2) ∧
  ∀ e ∈ eqs, minesAmong e.1 r = e.2

end Ms.Spec
