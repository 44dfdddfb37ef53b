import Verif.Model.Time

/-! # Vocabulary for times -/

namespace Ms.Spec

/-- a number a 64-bit float can hold (exponents unbounded) -/
def Double (x : ℚ) : Prop := ∃ m e : ℤ, |m| ≤ 2 ^ 53 ∧ x = m * 2 ^ e

/-- `r` is a double nearest to `x` -/
def NearestDouble (x r : ℚ) : Prop := Double r ∧ ∀ y, Double y → |x - r| ≤ |x - y|

/-- the whole number of milliseconds nearest to `micros` microseconds, halves upwards -/
def nearestMs (micros : Nat) : Nat := (micros + 500) / 1000

end Ms.Spec
