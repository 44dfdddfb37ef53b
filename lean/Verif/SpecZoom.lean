import Verif.SpecVideo
import Verif.SpecAgain
import Verif.Model.Features

/-!
# Vocabulary: the same video with cells drawn `k` times as large, recorded at another time

A program that draws a cell with `k` times as many pixels and whose player moves the mouse `k` times as far hands `ms_toollib`
positions that are `k` times as large.  A clock that is `d` ahead shows all times `d` later.
-/

namespace Ms

/-- a position with `k` times as many pixels -/
def Spec.zoomPos (k : Nat) (p : Pos) : Pos := (k * p.1, k * p.2)

/-- a recorded event: the mouse `k` times as far, `t` ms later; everything else is the same -/
def Rec.zoomed (k t : Nat) (r : Rec) : Rec := { r with x := k * r.x, y := k * r.y, time := r.time + t }

/-- an event of a file: the mouse `k` times as far, `t` ms later -/
def RawEv.zoomed (k t : Nat) (r : RawEv) : RawEv := ⟨r.time + t, r.ev, k * r.x, k * r.y⟩

/-- a live video: the cells and all positions `k` times as large, begun `d` µs later (the times of events count from the beginning) -/
def Live.zoomed (k d : Nat) (L : Live) : Live :=
  { L with pix := k * L.pix, recs := L.recs.map (Rec.zoomed k 0), videoStart := L.videoStart + d }

/-- an analysed video with comments -/
def Feat.zoomed (k t : Nat) (F : Feat) : Feat := { F with recs := F.recs.map (Rec.zoomed k t), pix := k * F.pix }

namespace Spec

/-- the calls a program can make -/
inductive VCall
  | step (now : Nat) (e : Ev) (pos : Pos)
  | board (v : View)
  | reset (row column pix : Nat)
  | pix (n : Nat)

/-- the same call of a program whose cells are `k` times as large and whose clock is `d` ahead -/
def VCall.zoomed (k d : Nat) : VCall → VCall
  | .step now e pos => .step (now + d) e (zoomPos k pos)
  | .board v => .board v
  | .reset row column px => .reset row column (k * px)
  | .pix n => .pix (k * n)

/-- the positions are stored as 16 bit numbers -/
def VCall.Fits (k : Nat) : VCall → Prop
  | .step _ _ pos => k * pos.1 < 65536 ∧ k * pos.2 < 65536
  | _ => True

/-- One call; `dist n` is the length of a way when a cell has `n` pixels.  `none` is a panic; the Boolean is `true` for `Ok`. -/
def VCall.run (dist : Nat → Pos → Pos → ℚ) (L : Live) : VCall → Option (Live × Bool)
  | .step now e pos => L.step (dist L.pix) now e pos
  | .board v => some (L.setBoard v)
  | .reset row column px => some (L.reset row column px, true)
  | .pix n => some (L.setPix n)

/-- a series of calls and the answers -/
def calls (dist : Nat → Pos → Pos → ℚ) : Live → List VCall → Option (Live × List Bool)
  | L, [] => some (L, [])
  | L, c :: cs => (c.run dist L).bind fun q => (calls dist q.1 cs).map fun q' => (q'.1, q.2 :: q'.2)

/-- Ways are measured in cells: `k` times as far with cells `k` times as large is the same length.  (The code: the Euclidean
distance, times 16, divided by the size of a cell.) -/
def InCells (dist : Nat → Pos → Pos → ℚ) : Prop :=
  ∀ k n p q, 0 < k → dist (k * n) (zoomPos k p) (zoomPos k q) = dist n p q

end Spec
end Ms
