import Verif.SpecPoss

/-! # Specification vocabulary for counting with machine words -/

namespace Ms.Spec

/-- At most `n` covered cells are linked (through shared numbers) to the covered cells around `p`.  (`InReach` is the case
`n = 55`.) -/
def LinkedAtMost (n : Nat) (g : Board) (p : Pos) : Prop :=
  ∀ l : List Pos, l.Nodup → (∀ q ∈ l, ∃ a, IsCovered g a ∧ Near p a ∧ SharesNumbers g a q) → l.length ≤ n

/-- The numbers of layouts of a 64-bit and of a 32-bit machine. -/
def word64 : Nat := 2 ^ 64
def word32 : Nat := 2 ^ 32

end Ms.Spec
