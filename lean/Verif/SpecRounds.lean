import Verif.SpecSolve

/-!
# What one look at every equation finds

An equation is given by the set of cells that occur in it; `E` is the set of equations, `K` the set of cells already known, and `σ` any
layout that agrees with the equations.  Saying "the unknown cells of the equation are all mines" is the same as saying that its right-hand
side, minus the known mines, is the number of its unknown cells: it does not depend on which layout `σ` one takes.
-/

namespace Ms.Spec

/-- The cells of the equations whose unknown cells are all mines (`v = true`) or all safe (`v = false`), added to `K`. -/
def single (σ : Pos → Bool) (E : Set (Set Pos)) (v : Bool) (K : Set Pos) : Set Pos :=
  K ∪ {p | ∃ e ∈ E, p ∈ e ∧ ∀ t ∈ e, t ∈ K ∨ σ t = v}

/-- Two equations with a common unknown cell such that the unknown cells that occur only in the first are all mines and those that occur
only in the second are all safe: these cells, added to `K`. -/
def paired (σ : Pos → Bool) (E : Set (Set Pos)) (K : Set Pos) : Set Pos :=
  K ∪ {p | ∃ e ∈ E, ∃ e' ∈ E, (∃ t, t ∈ e ∧ t ∈ e' ∧ t ∉ K) ∧ (∀ t ∈ e, t ∉ e' → t ∈ K ∨ σ t = true) ∧
    (∀ t ∈ e', t ∉ e → t ∈ K ∨ σ t = false) ∧ (p ∈ e ∧ p ∉ e' ∨ p ∈ e' ∧ p ∉ e)}

/-- One look at the single equations: first for mines, then for safe cells. -/
def singles (σ : Pos → Bool) (E : Set (Set Pos)) (K : Set Pos) : Set Pos := single σ E false (single σ E true K)

/-- One look at the pairs of equations, then one at the single equations. -/
def pairs (σ : Pos → Bool) (E : Set (Set Pos)) (K : Set Pos) : Set Pos := singles σ E (paired σ E K)

/-- The equations of a system, as sets of cells. -/
def equationsOf (S : Sys) : Set (Set Pos) :=
  {e | ∃ B ∈ S, ∃ row ∈ B.rows, e = {p | ∃ k, k < B.x.length ∧ B.x.getD k (0, 0) = p ∧ row.1.getD k 0 = 1}}

/-- The equations of a game board: for every number the covered cells around it. -/
def numbersOf (g : Board) : Set (Set Pos) := {e | ∃ n, IsNumber g n ∧ e = {t | IsCovered g t ∧ Near n t}}

/-- What one look at the single equations, then one at the pairs, then one at the single equations again finds. -/
def quick (σ : Pos → Bool) (E : Set (Set Pos)) : Set Pos := pairs σ E (singles σ E ∅)

/-- `q` is reached from `p` by steps between unknown cells of one equation. -/
def Knotted (E : Set (Set Pos)) (K : Set Pos) : Pos → Pos → Prop :=
  Relation.ReflTransGen fun a b => ∃ e ∈ E, a ∈ e ∧ b ∈ e ∧ a ∉ K ∧ b ∉ K

/-- The unknown cells of the equations. -/
def unknowns (E : Set (Set Pos)) (K : Set Pos) : Set Pos := {p | p ∉ K ∧ ∃ e ∈ E, p ∈ e}

/-- No group of tied unknown cells has more than 55 cells. -/
def SmallKnots (E : Set (Set Pos)) (K : Set Pos) : Prop :=
  ∀ l : List Pos, l.Nodup → (∀ a ∈ l, a ∈ unknowns E K) → (∀ a ∈ l, ∀ b ∈ l, Knotted E K a b) → l.length ≤ 55

/-- Another unknown cell occurs in the same equations. -/
def TwinIn (E : Set (Set Pos)) (K : Set Pos) (p : Pos) : Prop := ∃ q, q ≠ p ∧ q ∈ unknowns E K ∧ ∀ e ∈ E, p ∈ e ↔ q ∈ e

end Ms.Spec
