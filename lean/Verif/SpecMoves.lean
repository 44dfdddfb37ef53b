import Verif.SpecVideo

/-!
# Vocabulary: programs that report different mouse movements

A program may report every movement of the mouse, some of them, or none.  What it reports of the buttons - the events other
than `mv` - is the same.
-/

namespace Ms

/-- the events of the buttons, without the length of the way of the mouse -/
def Spec.buttons (rs : List Rec) : List Rec := (rs.filter fun r => r.ev ≠ .mv).map fun r => { r with path := 0 }

/-- the events of the buttons in a file -/
def Spec.rawClicks (evs : List RawEv) : List RawEv := evs.filter fun r => r.ev ≠ .mv

namespace Spec

/-- Two live videos handled alike - the same boards, presses, releases, resets and pixel sizes, at the same times - except for
the movements: each program reports its own.  Calls as in `Session`. -/
inductive Twins (dist : Pos → Pos → ℚ) : Nat → Live → Live → Prop
  | new {v : View} {pix now : Nat} : Numbered v → Twins dist now (Live.new v pix now) (Live.new v pix now)
  | left {t now : Nat} {L L' M : Live} {pos : Pos} {ok : Bool} : Twins dist t L M → t ≤ now → pos.1 < 65536 → pos.2 < 65536 →
      L.step dist now .mv pos = some (L', ok) → Twins dist now L' M
  | right {t now : Nat} {L M M' : Live} {pos : Pos} {ok : Bool} : Twins dist t L M → t ≤ now → pos.1 < 65536 → pos.2 < 65536 →
      M.step dist now .mv pos = some (M', ok) → Twins dist now L M'
  | step {t now : Nat} {L M L' M' : Live} {e : Ev} {pos : Pos} {ok ok' : Bool} : Twins dist t L M → t ≤ now → e ≠ .pf →
      pos.1 < 65536 → pos.2 < 65536 → L.step dist now e pos = some (L', ok) → M.step dist now e pos = some (M', ok') →
      Twins dist now L' M'
  | board {t : Nat} {L M L' M' : Live} {v : View} : Twins dist t L M → Numbered v → L.gstate = .ready ∨ L.gstate = .preFlaging →
      L.setBoard v = (L', true) → M.setBoard v = (M', true) → Twins dist t L' M'
  | reset {t : Nat} {L M : Live} {row column pix : Nat} : Twins dist t L M → 0 < row →
      Twins dist t (L.reset row column pix) (M.reset row column pix)
  | pix {t : Nat} {L M : Live} {pix : Nat} : Twins dist t L M → L.gstate = .ready → Twins dist t (L.setPix pix).1 (M.setPix pix).1

end Spec
end Ms
