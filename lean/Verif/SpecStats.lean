import Verif.Model.Stats
import Verif.SpecVideo

/-!
# Vocabulary for the statistics
-/

namespace Ms.Spec

/-- `n` things in `ms` milliseconds, per second; nothing in the first millisecond -/
def perSecond (n : Nat) (ms : ℚ) : ℚ := if ms < 99 / 100 then 0 else n * 1000 / ms

/-- `a` per `b`; 0 when there is no `b` -/
def per (a b : Nat) : ℚ := if b = 0 then 0 else a / b

/-- all clicks of the machine -/
def clicks (m : MSB) : Nat := m.left + m.right + m.double

/-- `r` is the last of the events up to number `i` that lies to the left of `edge` -/
def LastLeftOf (recs : List Rec) (edge i : Nat) (r : Rec) : Prop :=
  ∃ j ≤ i, recs[j]? = some r ∧ r.x < edge ∧ ∀ k q, j < k → k ≤ i → recs[k]? = some q → edge ≤ q.x

/-! ## `is_valid` -/

/-- the software, and what is asked of its videos -/
inductive Allowed (c : Claim) : Prop
  | arbiter : c.software = arbiter → Allowed c
  /-- Viennasweeper, begun before 24 April 2023: the first ten bytes of the start time, read as digits -/
  | vienna : c.software = vienna →
      (∀ i < 10, ∃ d, c.startTime[i]? = some d ∧ 48 ≤ d) →
      ∑ i ∈ Finset.range 10, (c.startTime.getD i 0 - 48) * 10 ^ (9 - i) ≤ 1682265600 → Allowed c
  /-- the Metasweeper, fair, with a checksum whose bytes are not all the same -/
  | metaSweeper : c.software = meta32 ∨ c.software = meta317 → c.fair = true →
      (∃ a ∈ c.checksum, ∃ b ∈ c.checksum, a ≠ b) → Allowed c

/-- fewer than ten events per 3BV -/
def Sparse (c : Claim) : Prop := c.events < 10 * c.bbbv

instance (c : Claim) : Decidable (Sparse c) := inferInstanceAs (Decidable (_ < _))

end Ms.Spec
