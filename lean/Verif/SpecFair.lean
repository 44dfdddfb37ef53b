import Verif.Spec
import Mathlib.Data.Fintype.Perm
import Mathlib.Data.List.OfFn

/-! # Fair shuffles: what a permutation of places does to a list -/

namespace Ms.Spec

/-- The list `l` rearranged by the permutation `σ` of its places: entry `i` is entry `σ i` of `l`.  (A list of another length
is left as it is.) -/
def rearranged {α : Type} {n : Nat} (σ : Equiv.Perm (Fin n)) (l : List α) : List α :=
  if h : l.length = n then List.ofFn fun i : Fin n => l[(σ i).val]'(h ▸ (σ i).isLt) else l

/-- A correctly numbered board of the given size and number of mines. -/
structure MineBoard (b : Board) (row col minenum : Nat) : Prop where
  rect : Rect b row col
  numbered : Numbered b.view
  count : (mines b.view).card = minenum

end Ms.Spec
