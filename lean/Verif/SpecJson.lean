import Verif.Model.Json

/-!
# JSON texts (RFC 8259)

`Spells v t`: the text `t` is a spelling of the value `v`.  Written down are integers, strings without escapes, lists and
the literals; decimal fractions, exponents, escapes and objects are left out (a value with such a part has no spelling here).
`Reader parse`: what is assumed of `serde_json::from_str`, namely that every spelling, with any white space around it, is
read as the value it spells.
-/

namespace Ms.Spec

/-- white space of JSON -/
def White (t : List Char) : Prop := ∀ c ∈ t, c = ' ' ∨ c = '\t' ∨ c = '\n' ∨ c = '\r'

/-- the number a row of decimal digits stands for -/
def decimal (ds : List Char) : Nat := ds.foldl (fun n c => 10 * n + (c.toNat - 48)) 0

/-- a nonempty row of decimal digits without superfluous zeros -/
def Digits (ds : List Char) : Prop :=
  ds ≠ [] ∧ (∀ c ∈ ds, '0' ≤ c ∧ c ≤ '9') ∧ (ds.head? = some '0' → ds = ['0'])

/-- an integer of 64 bits: signed if it is negative, unsigned otherwise (`-0` is not one of them) -/
def IntSpelling (n : Int) (t : List Char) : Prop :=
  (Digits t ∧ n = decimal t ∧ decimal t < 2 ^ 64) ∨
  (∃ ds, t = '-' :: ds ∧ Digits ds ∧ n = -decimal ds ∧ 0 < decimal ds ∧ decimal ds ≤ 2 ^ 63)

mutual
/-- `t` spells `v` -/
def Spells : JVal → List Char → Prop
  | .null, t => t = ['n', 'u', 'l', 'l']
  | .bool b, t => t = if b then ['t', 'r', 'u', 'e'] else ['f', 'a', 'l', 's', 'e']
  | .int n, t => IntSpelling n t
  | .str s, t => (∀ c ∈ s, c ≠ '"' ∧ c ≠ '\\' ∧ ' ' ≤ c) ∧ t = '"' :: (s ++ ['"'])
  | .arr l, t => ∃ u, t = '[' :: (u ++ [']']) ∧ SpellsAll l u
  | .float, _ => False
  | .obj, _ => False
/-- `u` spells the values one after the other, with commas between them and white space anywhere -/
def SpellsAll : List JVal → List Char → Prop
  | [], u => White u
  | v :: l, u => ∃ a t b, White a ∧ White b ∧ Spells v t ∧
      ((l = [] ∧ u = a ++ (t ++ b)) ∨ (l ≠ [] ∧ ∃ r, u = a ++ (t ++ (b ++ ',' :: r)) ∧ SpellsAll l r))
end

/-- what is assumed of `serde_json::from_str` -/
def Reader (parse : List Char → Option JVal) : Prop :=
  ∀ v a t b, White a → White b → Spells v t → parse (a ++ (t ++ b)) = some v

/-- the value of a matrix of integers -/
def matrix (b : List (List Int)) : JVal := .arr (b.map fun r => .arr (r.map .int))

/-- the value of a list of operations, as `step_flow` takes them: `[["lc",0,1],["lr",0,1]]` -/
def operations (ops : List (List Char × Nat × Nat)) : JVal :=
  .arr (ops.map fun o => .arr [.str o.1, .int o.2.1, .int o.2.2])

/-- `c` is the number of 32 bits (signed) whose lower 32 bits are those of `n` -/
def Word32 (n c : Int) : Prop := -2 ^ 31 ≤ c ∧ c < 2 ^ 31 ∧ (2 ^ 32 : Int) ∣ c - n

/-- all cells fit in 32 bits (signed) -/
def Cells32 (b : List (List Int)) : Prop := ∀ r ∈ b, ∀ x ∈ r, -2 ^ 31 ≤ x ∧ x < 2 ^ 31

/-- all cells fit in 64 bits (signed) -/
def Cells64 (b : List (List Int)) : Prop := ∀ r ∈ b, ∀ x ∈ r, -2 ^ 63 ≤ x ∧ x < 2 ^ 63

end Ms.Spec
