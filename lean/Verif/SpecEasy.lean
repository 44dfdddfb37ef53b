import Verif.SpecNoGuess
import Mathlib.Logic.Relation

/-!
# The player that `is_solvable` imitates

A player knows a set `K` of cells: the safe ones among them are open and show their numbers, the mines among them are flagged.
This player reasons in rounds.  The easy reasoning looks at single numbers and at pairs of numbers and is carried on for as
long as it finds anything; in which order does not matter (`easy` is the least set that is closed under it).  When the easy
reasoning has come to an end, the player compares all layouts (`hard`), but only if no group of linked covered cells has more
than 55 cells; then the easy reasoning starts again.
-/

namespace Ms.Spec

/-- `q` is a known safe cell of the board: its number can be read -/
def ReadsAt (r c : Nat) (b : Board) (K : Finset Pos) (q : Pos) : Prop := q ∈ grid r c ∧ q ∈ K ∧ layout b q = false

/-- Nothing more follows from single numbers and from pairs of numbers.

`one`: if the unknown cells around a number are all mines (the number minus the known mines is the number of unknown cells) or
all safe (the number is the number of known mines), they are known.

`pair`: if of two numbers the unknown cells seen only by the first are all mines and those seen only by the second are all safe
(the difference of the numbers, known mines subtracted, is the number of unknown cells seen only by the first), they are known. -/
structure Settled (r c : Nat) (b : Board) (K : Finset Pos) : Prop where
  one : ∀ (v : Bool) (q : Pos), ReadsAt r c b K q → (∀ t ∈ grid r c, Near q t → t ∈ K ∨ layout b t = v) →
    ∀ t ∈ grid r c, Near q t → t ∈ K
  pair : ∀ q q' : Pos, ReadsAt r c b K q → ReadsAt r c b K q' →
    (∀ t ∈ grid r c, Near q t → ¬ Near q' t → t ∈ K ∨ layout b t = true) →
    (∀ t ∈ grid r c, Near q' t → ¬ Near q t → t ∈ K ∨ layout b t = false) →
    ∀ t ∈ grid r c, ¬ (Near q t ↔ Near q' t) → t ∈ K

open Classical in
/-- what the easy reasoning finds from `K`: the least set with nothing more to find -/
noncomputable def easy (r c : Nat) (b : Board) (K : Finset Pos) : Finset Pos :=
  (grid r c).filter fun p => ∀ C, K ⊆ C → Settled r c b C → p ∈ C

/-- `q` is reached from `p` by steps between unknown cells next to a common number -/
def Tied (r c : Nat) (b : Board) (K : Finset Pos) : Pos → Pos → Prop :=
  Relation.ReflTransGen fun x y => (y ∈ grid r c ∧ y ∉ K) ∧ ∃ n, ReadsAt r c b K n ∧ Near n x ∧ Near n y

/-- an unknown cell next to a number -/
def Edge (r c : Nat) (b : Board) (K : Finset Pos) (p : Pos) : Prop :=
  p ∈ grid r c ∧ p ∉ K ∧ ∃ n, ReadsAt r c b K n ∧ Near n p

open Classical in
/-- some group of linked unknown cells next to numbers has more than 55 cells -/
def TooLarge (r c : Nat) (b : Board) (K : Finset Pos) : Prop :=
  ∃ p, Edge r c b K p ∧ 55 < ((grid r c).filter fun q => Tied r c b K p q).card

/-- the layout `σ` agrees with everything the player knows and reads -/
def Fits (r c : Nat) (b : Board) (K : Finset Pos) (σ : Pos → Bool) : Prop :=
  (∀ p ∈ grid r c, p ∈ K → σ p = layout b p) ∧
  ∀ n, ReadsAt r c b K n → layoutNear r c σ n = layoutNear r c (layout b) n

/-- another unknown cell is next to the same numbers -/
def HasDouble (r c : Nat) (b : Board) (K : Finset Pos) (p : Pos) : Prop :=
  ∃ q ∈ grid r c, q ∉ K ∧ q ≠ p ∧ ∀ n, ReadsAt r c b K n → (Near n p ↔ Near n q)

open Classical in
/-- what comparing all layouts adds to `K`: the cells next to numbers that are safe in every layout, and those that are mines in
every layout and have no double -/
noncomputable def hard (r c : Nat) (b : Board) (K : Finset Pos) : Finset Pos :=
  K ∪ (grid r c).filter fun p => Edge r c b K p ∧
    ((∀ σ, Fits r c b K σ → σ p = false) ∨ ((∀ σ, Fits r c b K σ → σ p = true) ∧ ¬ HasDouble r c b K p))

/-- from the knowledge `K` this player gets to know all safe cells -/
inductive Clears (r c : Nat) (b : Board) : Finset Pos → Prop
  | done {K : Finset Pos} : (∀ p ∈ grid r c, layout b p = false → p ∈ easy r c b K) → Clears r c b K
  | more {K : Finset Pos} : ¬ TooLarge r c b (easy r c b K) → Clears r c b (hard r c b (easy r c b K)) → Clears r c b K

end Ms.Spec
