import Verif.SpecPoss
import Mathlib.Data.Rat.Floor
import Mathlib.Algebra.BigOperators.Group.List.Basic

/-! # Specification vocabulary for rounding errors -/

namespace Ms.Spec

/-- A rounding like that of `f64`: zero is kept, and between `1e-300` and `1e300` the relative error is at most `2^-53`.
Nothing is asked about other numbers, so underflow and overflow may be treated in any way. -/
structure Rounds (fl : ℚ → ℚ) : Prop where
  zero : fl 0 = 0
  near : ∀ x, 1 / 10 ^ 300 ≤ x → x ≤ 10 ^ 300 → |fl x - x| ≤ x / 2 ^ 53

/-- The rounding is never off by more than `2^-51` for numbers of size up to 4 (true of `f64`, with or without underflow). -/
def RoundsAbs (fl : ℚ → ℚ) : Prop := ∀ x, |x| ≤ 4 → |fl x - x| ≤ 1 / 2 ^ 51

/-- the factor that makes up for one rounding, in either direction -/
def rho : ℚ := 1 + 1 / 2 ^ 52

/-- `x` is `v` up to `K` roundings. -/
def Within (K : Nat) (v x : ℚ) : Prop := v ≤ x * rho ^ K ∧ x ≤ v * rho ^ K

/-- The same for probabilities, where `none` stands for NaN. -/
def WithinO (K : Nat) : Option ℚ → Option ℚ → Prop
  | none, none => True
  | some v, some x => Within K v x
  | _, _ => False

/-- `x` is `v` up to a relative error `δ`, or both are NaN. -/
def CloseO (δ : ℚ) : Option ℚ → Option ℚ → Prop
  | none, none => True
  | some v, some x => |x - v| ≤ v * δ
  | _, _ => False

/-- The groups of linked cells next to numbers (within reach), each cell once. -/
structure Groups (g : Board) (P : List (List Pos)) : Prop where
  once : P.flatten.Nodup
  cells : ∀ q, q ∈ P.flatten ↔ Fringe g q
  group : ∀ l ∈ P, ∀ a ∈ l, ∀ b, b ∈ l ↔ SharesNumbers g a b
  ne : ∀ l ∈ P, l ≠ []

/-- A bound for the number of ways to distribute mines over the groups: each group has from none to all of its cells mined. -/
def splitCount (P : List (List Pos)) : Nat := (P.map fun l => l.length + 1).prod

/-- The relative error of a probability, for `N` ways to distribute the mines over the groups and `Q` covered cells. -/
def tolerance (N Q : Nat) : ℚ := ((N + Q + 35) * (Q / 3 + 29) : Nat) / 2 ^ 50

end Ms.Spec
