import Mathlib.Data.Finset.Prod
import Mathlib.Data.Finset.Card
import Mathlib.Logic.Relation
import Mathlib.SetTheory.Cardinal.Finite
import Verif.Model.Basic

/-!
# The specification vocabulary

Everything a property statement needs and nothing from the model except the bare `View`
(two sizes and an index function): neighbourhood, mines, correct numbers, connected components.
-/

namespace Ms.Spec

/-- All cells of an `r × c` board. -/
def grid (r c : Nat) : Finset Pos := Finset.range r ×ˢ Finset.range c

/-- `p` and `q` differ by at most one in each coordinate (so `p` is near itself). -/
def Near (p q : Pos) : Prop := p.1 ≤ q.1 + 1 ∧ q.1 ≤ p.1 + 1 ∧ p.2 ≤ q.2 + 1 ∧ q.2 ≤ p.2 + 1

instance (p q : Pos) : Decidable (Near p q) := by unfold Near; infer_instance

/-- The 8-neighbourhood relation. -/
def Adj (p q : Pos) : Prop := Near p q ∧ p ≠ q

instance (p q : Pos) : Decidable (Adj p q) := by unfold Adj; infer_instance

/-- The cell of a view. -/
def val (v : View) (p : Pos) : Int := v.get p.1 p.2

/-- The cells of a view. -/
def vcells (v : View) : Finset Pos := grid v.row v.col

/-- Cells of a view holding a mine (`-1`). -/
def mines (v : View) : Finset Pos := (vcells v).filter fun p => val v p = -1

/-- How many cells of the set `M` are 8-neighbours of `p`. -/
def adjCount (M : Finset Pos) (p : Pos) : Nat := (M.filter fun q => Adj p q).card

/-- Every cell is a mine (`-1`) or shows the number of adjacent mines. -/
def Numbered (v : View) : Prop :=
  ∀ p ∈ vcells v, val v p ≠ -1 → val v p = adjCount (mines v) p

/-- Cells holding `0`. -/
def zeros (v : View) : Finset Pos := (vcells v).filter fun p => val v p = 0

/-- Numbered cells that touch no zero: these are the cells of the "islands". -/
def isolated (v : View) : Finset Pos :=
  (vcells v).filter fun p => 0 < val v p ∧ ∀ q ∈ vcells v, Near p q → val v q ≠ 0

/-- Two cells of `S` are linked when a chain of 8-neighbour steps inside `S` joins them. -/
def Linked (S : Finset Pos) (p q : Pos) : Prop :=
  Relation.ReflTransGen (fun a b => a ∈ S ∧ b ∈ S ∧ Near a b) p q

theorem Near.symm {p q : Pos} (h : Near p q) : Near q p := ⟨h.2.1, h.1, h.2.2.2, h.2.2.1⟩

theorem Linked.symm {S : Finset Pos} {p q : Pos} (h : Linked S p q) : Linked S q p := by
  induction h with
  | refl => exact .refl
  | tail _ h ih => exact Relation.ReflTransGen.head ⟨h.2.1, h.1, h.2.2.symm⟩ ih

/-- "Linked" as an equivalence relation on the cells of `S`. -/
def linkedSetoid (S : Finset Pos) : Setoid {p : Pos // p ∈ S} where
  r a b := Linked S a.1 b.1
  iseqv := ⟨fun _ => .refl, fun h => h.symm, fun h k => h.trans k⟩

/-- The number of 8-connected components of a set of cells: the number of equivalence classes. -/
noncomputable def components (S : Finset Pos) : Nat := Nat.card (Quotient (linkedSetoid S))

/-- What a left click on `p` reveals on a board without flags: `p` itself and, with every revealed
zero, all its neighbours. -/
inductive Reveals (v : View) (p : Pos) : Pos → Prop
  | self : Reveals v p p
  | spread {q q' : Pos} : Reveals v p q → val v q = 0 → q' ∈ vcells v → Near q q' → Reveals v p q'

/-- The list of left clicks reveals every safe cell and is made on safe cells of the board only. -/
def ClearsBoard (v : View) (clicks : List Pos) : Prop :=
  (∀ p ∈ clicks, p ∈ vcells v ∧ val v p ≠ -1) ∧
  ∀ q ∈ vcells v, val v q ≠ -1 → ∃ p ∈ clicks, Reveals v p q

/-- The number of cells of the `3×3` block around `p` (with `p`, clipped at the border) whose value
satisfies `P`. -/
def nearCount (v : View) (p : Pos) (P : Int → Prop) [DecidablePred P] : Nat :=
  ((vcells v).filter fun q => Near p q ∧ P (val v q)).card

end Ms.Spec
