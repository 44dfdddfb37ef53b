import Verif.Model.CApi

/-! # What a C program may rely on -/

namespace Ms.Spec

/-- a heap as the allocator leaves it: fresh pointers are unused, nothing lives at the dangling pointer -/
structure SoundHeap {α : Type} (h : CHeap α) : Prop where
  fresh : ∀ p, h.next ≤ p → h.block p = none
  zero : h.block 0 = none
  pos : 0 < h.next

/-- a matrix whose rows, with some capacities, all have the same length -/
def RectVec {α : Type} (m : List (Nat × List α)) : Prop :=
  (∀ r ∈ m, r.2.length ≤ r.1) ∧ ∀ r ∈ m, ∀ r' ∈ m, r.2.length = r'.2.length

/-- what a C program sees at `rows[i].cells[j]` -/
def seen {α : Type} (h : CHeap α) (b : CBoard) (i j : Nat) : Option α :=
  match h.block b.rows with
  | some (_, .rows l) =>
    match l[i]? with
    | some r =>
      match h.block r.cells with
      | some (_, .cells c) => c[j]?
      | _ => none
    | none => none
  | _ => none

end Ms.Spec
