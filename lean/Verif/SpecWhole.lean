import Verif.Model.Whole
import Verif.SpecVideo

/-!
# Vocabulary for the life of a video object

A *life* is any sequence of public calls a program can make on a `BaseVideo` it created on a board with correct numbers: mouse
events of the eight kinds the recorder writes (at non-decreasing clock readings, pixel positions in 16 bits), resets, boards with
correct numbers (not while cells are open), sizes of a cell in one byte, marks of one or two bytes, texts and time stamps without
a zero byte, checksums of 32 bytes, generation of the file at any time.  Calls that are refused are part of it.  The Boolean says
whether the game has a board: one was given since the last reset.
-/

namespace Ms.Spec
open Whole

/-- the mouse events of the recorder -/
def mouseEvents : List Ev := [.mv, .lc, .lr, .rc, .rr, .mc, .mr, .cc]

/-- a text without a zero byte -/
def TextOk (s : Evf.Bytes) : Prop := ∀ b ∈ s, b ≠ 0

/-- the calls described above -/
def Sound (W : Whole) (t : Nat) : Call → Prop
  | .step now e pos stamp => t ≤ now ∧ e ∈ mouseEvents ∧ pos.1 < 65536 ∧ pos.2 < 65536 ∧ TextOk stamp
  | .reset row _ pix => 0 < row ∧ pix < 256
  | .setBoard v => Numbered v ∧ W.live.gstate ≠ .playing
  | .setPix pix => pix < 256
  | .setMode n => n < 65536
  | .setText _ s => TextOk s
  | .setChecksum s => s.length = 32
  | _ => True

/-- the clock after a call -/
def clockAfter (t : Nat) : Call → Nat
  | .step now _ _ _ => now
  | _ => t

/-- whether there is a board after a call -/
def placedAfter (placed : Bool) : Call → Bool → Bool
  | .reset _ _ _, _ => false
  | .setBoard _, true => true
  | _, _ => placed

inductive Life (dist : Pos → Pos → ℚ) : Bool → Nat → Whole → Prop
  | new {v : View} {pix now : Nat} : Numbered v → 0 < v.row → pix < 256 → Life dist true now (Whole.new v pix now)
  | call {placed : Bool} {t : Nat} {W W' : Whole} {c : Call} {ok : Bool} : Life dist placed t W → Sound W t c →
      W.call dist c = some (W', ok) → Life dist (placedAfter placed c ok) (clockAfter t c) W'

end Ms.Spec
