import Verif.SpecTurn
import Verif.Model.Game
import Verif.SpecGame

/-! # A game played on a turned board -/

namespace Ms.Spec

/-- `p'` on an `r' × c'` board is the place of `p` on an `r × c` board: the cell `p` was turned to; the cell "outside the board"
(`(r, c)`) stays outside; every other place that is no cell stays one. -/
def SamePlace (r c r' c' : Nat) (σ : Pos → Pos) (p p' : Pos) : Prop :=
  (p ∈ grid r c ∧ p' = σ p) ∨ (p = (r, c) ∧ p' = (r', c')) ∨
    (p ∉ grid r c ∧ p ≠ (r, c) ∧ p' ∉ grid r' c' ∧ p' ≠ (r', c'))

/-- The second game looks like the first one turned: the boards and the game boards are, every mine flagged at some time in the one
was in the other, and all other things a caller can ask for are equal.  (`bbbv_solved` is left out.) -/
structure SameGame (σ τ : Pos → Pos) (s t : MSB) : Prop where
  turn : Turn s.row s.column t.row t.column σ τ
  bd : ∀ p ∈ grid s.row s.column, t.board.get (σ p).1 (σ p).2 = s.board.get p.1 p.2
  gb : ∀ p ∈ grid s.row s.column, t.gameBoard.get (σ p).1 (σ p).2 = s.gameBoard.get p.1 p.2
  flaged : ∀ p ∈ grid s.row s.column, σ p ∈ t.flagedList ↔ p ∈ s.flagedList
  left : t.left = s.left
  right : t.right = s.right
  double : t.double = s.double
  ce : t.ce = s.ce
  flag : t.flag = s.flag
  mouse : t.mouse = s.mouse
  state : t.state = s.state
  preFlagNum : t.preFlagNum = s.preFlagNum
  middleHold : t.middleHold = s.middleHold

/-- two outcomes of `step`: both panic, or both return the same and leave games that look alike -/
def SameStep (σ τ : Pos → Pos) (o o' : Option (MSB × Option Nat)) : Prop :=
  (o = none ∧ o' = none) ∨ ∃ s t r, o = some (s, r) ∧ o' = some (t, r) ∧ SameGame σ τ s t

/-- two outcomes of `step_flow` -/
def SameFlow (σ τ : Pos → Pos) (o o' : Option (MSB × Bool)) : Prop :=
  (o = none ∧ o' = none) ∨ ∃ s t r, o = some (s, r) ∧ o' = some (t, r) ∧ SameGame σ τ s t

/-- two sequences of operations: the same events, at corresponding places -/
def SameOps (r c r' c' : Nat) (σ : Pos → Pos) (ops ops' : List (Ev × Pos)) : Prop :=
  List.Forall₂ (fun a b => b.1 = a.1 ∧ SamePlace r c r' c' σ a.2 b.2) ops ops'

/-- no zero cell of the board carries a flag -/
def NoZeroFlagged (s : MSB) : Prop := ∀ z ∈ vcells s.board, val s.board z = 0 → shown s.gameBoard z ≠ 11

end Ms.Spec
