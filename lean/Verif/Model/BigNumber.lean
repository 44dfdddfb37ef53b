import Mathlib.Data.Rat.Floor

/-!
# `BigNumber`, `C`, `C_query` (utils.rs 642-752)

The mantissa `f64` is an exact rational here: rounding is not modelled.  `while` loops carry fuel; `none`
is exhausted fuel (that is, non-termination) or a panic.
-/

namespace Ms

/-- `BigNumber`, utils.rs 643-648: the number `a * 10^b`. -/
structure BigNumber where
  a : ℚ
  b : Int
deriving DecidableEq

namespace BigNumber

/-- `while self.a >= 10.0 { self.a /= 10.0; self.b += 1; }`, utils.rs 657-660. -/
def shrink : Nat → BigNumber → Option BigNumber
  | 0, n => if n.a ≥ 10 then none else some n
  | fuel + 1, n => if n.a ≥ 10 then shrink fuel ⟨n.a / 10, n.b + 1⟩ else some n

/-- fuel for `shrink`: more than enough iterations -/
def fuelFor (q : ℚ) : Nat := q.num.natAbs

/-- `a_become_smaller_than`, utils.rs 651-661. -/
def becomeSmaller (n : BigNumber) (thrd : ℚ) : Option BigNumber :=
  if n.a < thrd then some n else shrink (fuelFor n.a) n

/-- `mul_usize`, utils.rs 662-671. -/
def mulUsize (n : BigNumber) (k : Nat) : Option BigNumber :=
  if k = 0 then some ⟨0, 1⟩ else becomeSmaller ⟨n.a * k, n.b⟩ 10

/-- `mul_big_number`, utils.rs 672-677. -/
def mul (n k : BigNumber) : Option BigNumber := becomeSmaller ⟨n.a * k.a, n.b + k.b⟩ 10

/-- `while self.b > kb { ka /= 10.0; kb += 1; }`, utils.rs 681-684 (`d = self.b - kb` iterations). -/
def lower : Nat → ℚ → ℚ
  | 0, x => x
  | d + 1, x => lower d (x / 10)

/-- `ans *= 10.0` repeated, utils.rs 698-701. -/
def raise : Nat → ℚ → ℚ
  | 0, x => x
  | d + 1, x => raise d (x * 10)

/-- `add_big_number`, utils.rs 678-691: the two `while` loops align the exponents (each runs as many times
as the exponents differ, in one direction or the other). -/
def add (n k : BigNumber) : Option BigNumber :=
  let ka := lower (n.b - k.b).toNat k.a
  let kb := max n.b k.b
  let a := lower (kb - n.b).toNat n.a
  becomeSmaller ⟨a + ka, kb⟩ 10

/-- `div_big_num`, utils.rs 692-704: the quotient (`self.b` is also overwritten with `k.b`; callers
pass temporaries).  `none`: division by zero (an infinite or NaN result in `f64`). -/
def divBig (n k : BigNumber) : Option ℚ :=
  if k.a = 0 then none
  else
    let ans := n.a / k.a
    some (raise (n.b - k.b).toNat (lower (k.b - n.b).toNat ans))

/-- `while self.a < 1.0 { self.a *= 10.0; self.b -= 1; }`, utils.rs 711-714. -/
def grow : Nat → BigNumber → Option BigNumber
  | 0, n => if n.a < 1 then none else some n
  | fuel + 1, n => if n.a < 1 then grow fuel ⟨n.a * 10, n.b - 1⟩ else some n

/-- `div_usize`, utils.rs 705-716 (`1e-8` exactly). -/
def divUsize (n : BigNumber) (k : Nat) : Option BigNumber :=
  if n.a < 1 / 100000000 ∧ n.b = 1 then some n
  else if k = 0 then none
  else grow (n.a / k).den ⟨n.a / k, n.b⟩

end BigNumber

/-- Loop of `C`, utils.rs 726-730, for `i` from `i` to `k - 1`. -/
def chooseLoop (n : Nat) : Nat → Nat → BigNumber → Option BigNumber
  | 0, _, c => some c
  | m + 1, i, c =>
    (BigNumber.becomeSmaller ⟨c.a * ((n - i : Nat) : ℚ) / ((i + 1 : Nat) : ℚ), c.b⟩ (10 ^ 208)).bind fun c' =>
      chooseLoop n m (i + 1) c'

/-- The body of `C` for `n ≥ k + k`, utils.rs 724-732. -/
def chooseCore (n k : Nat) : Option BigNumber :=
  (chooseLoop n k 0 ⟨1, 0⟩).bind fun c => c.becomeSmaller 10

/-- `C`, utils.rs 719-733.  The recursive call `C(n, n - k)` is made at most once; `none` is the
underflow of `n - k` when `k > n`. -/
def bigC (n k : Nat) : Option BigNumber :=
  if n < k + k then
    if n < k then none
    else if n < (n - k) + (n - k) then none
    else chooseCore n (n - k)
  else chooseCore n k

/-- `C_query`, utils.rs 735-752; `none` is the index panic. -/
def cQuery (n k : Nat) : Option Nat :=
  (([[1, 0, 0, 0, 0, 0, 0, 0, 0], [1, 1, 0, 0, 0, 0, 0, 0, 0], [1, 2, 1, 0, 0, 0, 0, 0, 0],
     [1, 3, 3, 1, 0, 0, 0, 0, 0], [1, 4, 6, 4, 1, 0, 0, 0, 0], [1, 5, 10, 10, 5, 1, 0, 0, 0],
     [1, 6, 15, 20, 15, 6, 1, 0, 0], [1, 7, 21, 35, 35, 21, 7, 1, 0],
     [1, 8, 28, 56, 70, 56, 28, 8, 1]] : List (List Nat))[n]?).bind fun r => r[k]?

end Ms
