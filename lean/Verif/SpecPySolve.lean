import Verif.SpecPoss

/-! # Specification vocabulary for the solvers that take a board -/

namespace Ms.Spec

/-- Another covered cell is next to the same numbers. -/
def TwinCell (g : Board) (p : Pos) : Prop := ∃ q, q ≠ p ∧ IsCovered g q ∧ ∀ n, IsNumber g n → (Near n p ↔ Near n q)

/-- No group of linked cells next to numbers has more than 55 cells. -/
def SmallGroups (g : Board) : Prop :=
  ∀ l : List Pos, l.Nodup → (∀ a ∈ l, Frontier g a) → (∀ a ∈ l, ∀ b ∈ l, SharesNumbers g a b) → l.length ≤ 55

end Ms.Spec
