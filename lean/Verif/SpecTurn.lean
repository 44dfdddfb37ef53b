import Verif.SpecPoss
import Verif.SpecNoGuess

/-!
# Turning and mirroring boards

`Turn r c r' c' σ τ`: `σ` maps the cells of an `r × c` board one to one onto those of an `r' × c'` board, `τ` maps them back,
and cells near each other go to cells near each other.  Turns by 90, 180 and 270 degrees, the two mirror images and the two
transpositions are of this kind (`Properties/Turn.lean`).
-/

namespace Ms.Spec

structure Turn (r c r' c' : Nat) (σ τ : Pos → Pos) : Prop where
  there : ∀ p ∈ grid r c, σ p ∈ grid r' c' ∧ τ (σ p) = p
  back : ∀ p ∈ grid r' c', τ p ∈ grid r c ∧ σ (τ p) = p
  near : ∀ p ∈ grid r c, ∀ q ∈ grid r c, Near (σ p) (σ q) ↔ Near p q

/-- the second board shows what the first one shows, with the cells moved by `σ` -/
structure Turned (σ τ : Pos → Pos) (v w : View) : Prop where
  turn : Turn v.row v.col w.row w.col σ τ
  cells : ∀ p ∈ grid v.row v.col, w.get (σ p).1 (σ p).2 = v.get p.1 p.2

/-- left and right exchanged -/
def mirror (b : Board) : Board := b.map List.reverse

/-- upper and lower exchanged -/
def upsideDown (b : Board) : Board := b.reverse

/-- rows and columns exchanged -/
def flipped (b : Board) : Board := (List.range b.col).map fun j => (List.range b.row).map fun i => b.get i j

/-- Two answers of the probability functions are the same up to moving the cells by `σ`: both panic, or both are the same
error, or both give the same three mine numbers and the same probability to corresponding cells. -/
inductive SameAnswer (r c : Nat) (σ : Pos → Pos) : Option (Except Nat (List (List (Option ℚ)) × Nat × Nat × Nat)) →
    Option (Except Nat (List (List (Option ℚ)) × Nat × Nat × Nat)) → Prop
  | panic : SameAnswer r c σ none none
  | error (e : Nat) : SameAnswer r c σ (some (.error e)) (some (.error e))
  | ok {P P' : List (List (Option ℚ))} (range : Nat × Nat × Nat) :
      (∀ p ∈ grid r c, (P'.getD (σ p).1 []).getD (σ p).2 none = (P.getD p.1 []).getD p.2 none) →
      SameAnswer r c σ (some (.ok (P, range))) (some (.ok (P', range)))

end Ms.Spec
