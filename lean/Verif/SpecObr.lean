import Verif.Model.Obr

/-! # Vocabulary for pictures of boards -/

namespace Ms.Spec

/-- a number a 32-bit float can hold (exponents unbounded) -/
def Single (x : ℚ) : Prop := ∃ m e : ℤ, |m| ≤ 2 ^ 24 ∧ x = m * 2 ^ e

/-- `r` is a single nearest to `x` -/
def NearestSingle (x r : ℚ) : Prop := Single r ∧ ∀ y, Single y → |x - r| ≤ |x - y|

/-- A walk of `m` steps on five places: each step stays or goes to a neighbouring place. -/
def Walk (m : Nat) (q : Nat → Nat) : Prop :=
  (∀ t, t ≤ m → q t ≤ 4) ∧ ∀ t, t < m → q (t + 1) ≤ q t + 1 ∧ q t ≤ q (t + 1) + 1

/-- how many of the lines `lo + 1, .., lo + m` show an edge where the walk is when it comes to them (column `a + q t`) -/
def walkHits (edge : Nat → Nat → Bool) (lo a m : Nat) (q : Nat → Nat) : Nat :=
  ((List.range m).filter fun t => edge (lo + 1 + t) (a + q t)).length

/-- how often the walk changes its place -/
def walkTurns (m : Nat) (q : Nat → Nat) : Nat := ((List.range m).filter fun t => decide (q t ≠ q (t + 1))).length

/-- how far apart two places are -/
def apart (i j : Nat) : Nat := max i j - min i j

/-- `s` is the greatest number of edges met by a walk along the lines `lo + 1, .., hi` in the five columns from `a` on that
ends in column `a + k`, less the number of its sidesteps, less the distance of its first column from column `a + k`. -/
def BestWalk (edge : Nat → Nat → Bool) (lo hi a k s : Nat) : Prop :=
  (∃ q, Walk (hi - lo) q ∧ q (hi - lo) = k ∧
    walkHits edge lo a (hi - lo) q = s + walkTurns (hi - lo) q + apart (q 0) k) ∧
  ∀ q, Walk (hi - lo) q → q (hi - lo) = k →
    walkHits edge lo a (hi - lo) q ≤ s + walkTurns (hi - lo) q + apart (q 0) k

/-- the strip of five columns, within `a .. b`, in which the `t`-th entry of a list of scores is measured -/
def stripStart (a b t : Nat) : Nat := if t < 2 then a else if t + 2 < b - a then a + t - 2 else b - 4

/-- ... and the place of its column in the strip -/
def stripPlace (a b t : Nat) : Nat := if t < 2 then t else if t + 2 < b - a then 2 else t + 5 - (b - a)

/-- A list of scores with evenly spaced lines: `N + 1` lines, `p` apart, the first one at place `o`, each `w` places wide and of
the full score `H`; everywhere else the score is lower, and at most a third four or more places away from every line. -/
structure EvenLines (x : List Nat) (H p o N w : Nat) : Prop where
  fits : o + N * p + w ≤ x.length
  line : ∀ i, i ≤ N → ∀ t, t < w → x.getD (o + i * p + t) 0 = H
  lower : ∀ j, j < x.length → (∀ i, i ≤ N → ∀ t, t < w → j ≠ o + i * p + t) → x.getD j 0 < H
  far : ∀ j, j < x.length → (∀ i, i ≤ N → ∀ t, t < w → j + 4 ≤ o + i * p + t ∨ o + i * p + t + 4 ≤ j) → 3 * x.getD j 0 ≤ H

/-- A list of scores with lines at the places `L`: far enough apart from each other, each `w` places wide and of the full score `H`;
everywhere else the score is lower, and at most a third four or more places away from every line. -/
structure LinesAt (x : List Nat) (H w : Nat) (L : List Nat) : Prop where
  spaced : L.Pairwise fun a b => a + 8 + w ≤ b
  fits : ∀ a ∈ L, a + w ≤ x.length
  line : ∀ a ∈ L, ∀ t, t < w → x.getD (a + t) 0 = H
  lower : ∀ j, j < x.length → (∀ a ∈ L, ∀ t, t < w → j ≠ a + t) → x.getD j 0 < H
  far : ∀ j, j < x.length → (∀ a ∈ L, ∀ t, t < w → j + 4 ≤ a + t ∨ a + t + 4 ≤ j) → 3 * x.getD j 0 ≤ H

/-- the last `d` scores of a list are at most a third of the greatest one -/
def Faint (x : List Nat) (d : Nat) : Prop :=
  ∃ H, 0 < H ∧ H ≤ 2 ^ 24 ∧ (∀ v ∈ x, v ≤ H) ∧ H ∈ x ∧ ∀ k, k < x.length → x.length ≤ k + d → 3 * x.getD k 0 ≤ H

/-- The raw data of a picture of `h` rows of `w` pixels (four numbers each: blue, green, red and one that is not used): red is
full in the rows `R` and absent in the others, green is full in the columns `C` and absent in the others, there is no blue. -/
structure RawBands (data : List Nat) (h w : Nat) (R C : Nat → Bool) : Prop where
  size : data.length = 4 * (h * w)
  red : ∀ i, i < h → ∀ j, j < w → data.getD ((i * w + j) * 4 + 2) 0 = if R i then 255 else 0
  green : ∀ i, i < h → ∀ j, j < w → data.getD ((i * w + j) * 4 + 1) 0 = if C j then 255 else 0
  blue : ∀ i, i < h → ∀ j, j < w → data.getD ((i * w + j) * 4) 0 = 0

/-- the colour changes at the places `m, m + p, .., m + M * p`: is the number of changes up to place `i` odd? -/
def band (m p M i : Nat) : Bool := ((List.range (M + 1)).filter fun k => decide (m + k * p ≤ i)).length % 2 == 1

/-- One direction of a picture, `len` pixels: a margin of `m` pixels (2 to 5), `M` cells (4 or more) of `p` pixels each, a margin
of at least 5 pixels and at most `p`; three neighbouring changes of colour (`k`, `k + 1`, `k + 2`) fall into the middle third of what
remains without the last two pixels, counted from two pixels before each. -/
structure Side (len m p M : Nat) : Prop where
  lead : 2 ≤ m ∧ m ≤ 5
  cells : 4 ≤ M
  trail : m + M * p + 5 ≤ len ∧ len ≤ m + (M + 1) * p
  middle : ∃ k, k + 2 ≤ M ∧ (len - 2) / 3 + 2 ≤ m + k * p ∧ m + (k + 2) * p < (len - 2) * 2 / 3 + 2

end Ms.Spec
