import Verif.Model.Video
import Verif.Model.Evf
import Verif.Model.Metrics

/-!
# The video object as a whole: playing, marking, writing (videos/base_video.rs)

`Live` (Model/Video) is the recording; here the marks a program puts on it and the bytes it makes of it are added, so that whole
lives of a `BaseVideo` can be followed: several games, setters in any order, generation of the file at any time.  `none` is a panic.
A time stamp of the system clock (`start_time`, `end_time`) is given by the caller as bytes.
-/

namespace Ms

/-- the name of an event in the files -/
def evName : Ev → String
  | .lc => "lc" | .lr => "lr" | .rc => "rc" | .rr => "rr" | .mc => "mc" | .mr => "mr" | .mv => "mv" | .cc => "cc"
  | .pf => "pf" | .l => "l" | .r => "r" | .m => "m" | .crl => "crl" | .crr => "crr" | .other => ""

/-- the event `step` takes a string for (minesweeper_board.rs 411-797) -/
def evOf (s : String) : Ev :=
  if s = "lc" then .lc else if s = "lr" then .lr else if s = "rc" then .rc else if s = "rr" then .rr
  else if s = "mc" then .mc else if s = "mr" then .mr else if s = "mv" then .mv else if s = "cc" then .cc
  else if s = "pf" then .pf else if s = "l" then .l else if s = "r" then .r else if s = "m" then .m
  else if s = "crl" then .crl else if s = "crr" then .crr else .other

/-- an event as it is written: `s_to_ms(event.time)` is the number of milliseconds (C65) -/
def Rec.toFile (r : Rec) : Evf.Event := ⟨r.time, evName r.ev, r.x, r.y⟩

namespace Whole

/-- the texts of a video, base_video.rs 300-333 -/
inductive Text
  | software | player | race | unique | startTime | endTime | country | deviceUuid
deriving DecidableEq

/-- the value of a text -/
def Text.get (s : Evf.Strs) : Text → Evf.Bytes
  | .software => s.software | .player => s.player | .race => s.race | .unique => s.unique
  | .startTime => s.startTime | .endTime => s.endTime | .country => s.country | .deviceUuid => s.deviceUuid

/-- the texts with one of them replaced -/
def Text.put (s : Evf.Strs) (b : Evf.Bytes) : Text → Evf.Strs
  | .software => { s with software := b } | .player => { s with player := b } | .race => { s with race := b }
  | .unique => { s with unique := b } | .startTime => { s with startTime := b } | .endTime => { s with endTime := b }
  | .country => { s with country := b } | .deviceUuid => { s with deviceUuid := b }

end Whole

/-- `BaseVideo<SafeBoard>`, base_video.rs 234-333: the recording, and what the file holds beside it.  `bbbv` is
`static_params.bbbv`. -/
structure Whole where
  live : Live
  offical : Bool
  fair : Bool
  mode : Nat
  strs : Evf.Strs
  hasChecksum : Bool
  checksum : Evf.Bytes
  raw : Evf.Bytes
  mineNum : Nat
  bbbv : Nat
  level : Nat

namespace Whole

/-- the mines of a board counted, base_video.rs 734-738, 662-666 -/
def countMines (v : View) : Nat := (cells v.row v.col).foldl (fun n p => if v.get p.1 p.2 = -1 then n + 1 else n) 0

/-- `new_before_game`, base_video.rs 732-756, and the defaults 339-390. -/
def new (v : View) (pix now : Nat) : Whole where
  live := Live.new v pix now
  offical := false
  fair := false
  mode := 0
  strs := ⟨[], [], [], [], [], [], [], []⟩
  hasChecksum := false
  checksum := List.replicate 32 0
  raw := []
  mineNum := countMines v
  bbbv := calBbbv v
  level := 0

/-- `game_board_state` is `Win` or `Loss` -/
def over (W : Whole) : Bool := W.live.gstate = .win || W.live.gstate = .loss

/-- `step`, base_video.rs 768-942, at clock `now`; `stamp` is the system time in microseconds, as text. -/
def step (dist : Pos → Pos → ℚ) (W : Whole) (now : Nat) (e : Ev) (pos : Pos) (stamp : Evf.Bytes) : Option (Whole × Bool) :=
  let old := W.live.msb.state
  match W.live.step dist now e pos with
  | none => none
  | some (L, ok) =>
    if old = .loss ∨ old = .win ∨ old = .display ∨ ok = false then some ({ W with live := L }, ok)
    else
      match L.gstate with
      | .playing => some (if old ≠ .playing then { W with live := L, strs := { W.strs with startTime := stamp } } else { W with live := L }, ok)
      | .loss | .win => some ({ W with live := L, strs := { W.strs with endTime := stamp }, bbbv := calBbbv L.board }, ok)
      | _ => some ({ W with live := L }, ok)

/-- `reset`, base_video.rs 634-648: the recording, the bytes and the statistics; the marks, the checksum, the number of mines and
the level stay. -/
def reset (W : Whole) (row column pix : Nat) : Whole :=
  { W with live := W.live.reset row column pix, raw := [], bbbv := 0 }

/-- `set_board`, base_video.rs 650-679 -/
def setBoard (W : Whole) (v : View) : Whole × Bool :=
  match W.live.setBoard v with
  | (_, false) => (W, false)
  | (L, true) => ({ W with live := L, mineNum := countMines v, level := Evf.levelOf v.row v.col (countMines v) }, true)

/-- `set_pix_size`, base_video.rs 1099-1108 -/
def setPix (W : Whole) (pix : Nat) : Whole × Bool :=
  ({ W with live := (W.live.setPix pix).1 }, (W.live.setPix pix).2)

/-- `set_is_offical`, base_video.rs 1255-1263 -/
def setOffical (W : Whole) (b : Bool) : Whole × Bool := if W.over then ({ W with offical := b }, true) else (W, false)

/-- `set_is_fair`, base_video.rs 1264-1272 -/
def setFair (W : Whole) (b : Bool) : Whole × Bool := if W.over then ({ W with fair := b }, true) else (W, false)

/-- `set_mode`, base_video.rs 1273-1281 -/
def setMode (W : Whole) (n : Nat) : Whole × Bool := if W.over then ({ W with mode := n }, true) else (W, false)

/-- `set_software`, `set_player_designator`, …, `set_device_uuid`, base_video.rs 1282-1357 -/
def setText (W : Whole) (f : Text) (s : Evf.Bytes) : Whole × Bool :=
  if W.over || (f = .software && W.live.gstate = .ready) then ({ W with strs := f.put W.strs s }, true) else (W, false)

/-- the fields `generate_evf_v0_raw_data` writes -/
def content (W : Whole) : Evf.Rec where
  hdr := ⟨W.live.completed, W.offical, W.fair, W.live.height, W.live.width, W.mineNum, W.live.pix, W.mode, W.bbbv, W.live.rtimeMs⟩
  strs := W.strs
  board := W.live.board.get
  events := W.live.recs.map Rec.toFile
  hasChecksum := W.hasChecksum
  checksum := W.checksum

/-- the indices of the loop base_video.rs 1831-1844 lie within the stored board -/
def boardFits (W : Whole) : Bool :=
  W.live.height = 0 || W.live.width = 0 || (W.live.height ≤ W.live.board.row && W.live.width ≤ W.live.board.col)

/-- `generate_evf_v0_raw_data`, base_video.rs 1759-1881 -/
def generate (W : Whole) : Option Whole :=
  if W.boardFits then (Evf.generate W.content).map fun bs => { W with raw := bs } else none

/-- `set_checksum`, base_video.rs 1358-1379 (as in Model/Evf) -/
def setChecksum (W : Whole) (sum : Evf.Bytes) : Option (Whole × Bool) :=
  if ¬ W.over then some (W, false)
  else if ¬ W.hasChecksum then
    if W.raw = [] then none
    else some ({ W with raw := W.raw.dropLast ++ [0] ++ sum, checksum := sum, hasChecksum := true }, true)
  else if W.raw.length < 32 then none
  else some ({ W with raw := W.raw.take (W.raw.length - 32) ++ sum }, true)

/-- `get_raw_data`, base_video.rs 1380-1388 (`Display` does not occur in a live game) -/
def getRaw (W : Whole) : Option Evf.Bytes := if W.over then some W.raw else none

/-- the public methods that change a video object -/
inductive Call
  | step (now : Nat) (e : Ev) (pos : Pos) (stamp : Evf.Bytes)
  | reset (row column pix : Nat)
  | setBoard (v : View)
  | setPix (pix : Nat)
  | setOffical (b : Bool)
  | setFair (b : Bool)
  | setMode (n : Nat)
  | setText (f : Text) (s : Evf.Bytes)
  | generate
  | setChecksum (sum : Evf.Bytes)

/-- A call: the object after it, and whether it returned `Ok`; `none` is a panic. -/
def call (dist : Pos → Pos → ℚ) (W : Whole) : Call → Option (Whole × Bool)
  | .step now e pos stamp => W.step dist now e pos stamp
  | .reset row column pix => some (W.reset row column pix, true)
  | .setBoard v => some (W.setBoard v)
  | .setPix pix => some (W.setPix pix)
  | .setOffical b => some (W.setOffical b)
  | .setFair b => some (W.setFair b)
  | .setMode n => some (W.setMode n)
  | .setText f s => some (W.setText f s)
  | .generate => W.generate.map (·, true)
  | .setChecksum s => W.setChecksum s

end Whole
end Ms
