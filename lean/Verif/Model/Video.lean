import Verif.Model.GameEnd
import Mathlib.Data.Rat.Defs
import Mathlib.Algebra.Order.Ring.Rat

/-!
# `BaseVideo`: recording a game while it is played, and replaying a recording (videos/base_video.rs)

`none` is a panic (division by a zero pixel size, `usize`/`u32` underflow as in a debug build, a failed
`unwrap`).  Simplifications: times are natural numbers (the code keeps seconds as `f64`, always a whole number
of milliseconds divided by 1000; the clock is given by the caller as microseconds and durations are below
`2^32` ms); the length of a mouse move is a parameter `dist` (the code: the Euclidean distance, times 16,
divided by the pixel size, in `f64`); `GameBoard` is represented by the board it holds; the bytes
`start_time`/`end_time`, `mine_num`, `level` and the `f64` statistics are left out.
-/

namespace Ms

/-- `VideoActionStateRecorder`, base_video.rs 49-78.  `time` in milliseconds; `mouseSt` is `mouse_state`;
`comments`, `op_solved`, `isl_solved` are constant and left out. -/
structure Rec where
  time : Nat
  ev : Ev
  x : Nat
  y : Nat
  useful : Nat
  prior : Nat
  next : Nat
  mouseSt : Mouse
  left : Nat
  right : Nat
  double : Nat
  ce : Nat
  flag : Nat
  bbbvSolved : Nat
  path : ℚ

/-- What a video file stores of an event: base_video.rs 49-58. -/
structure RawEv where
  time : Nat
  ev : Ev
  x : Nat
  y : Nat
deriving DecidableEq

/-- the stored part of a recorded event -/
def Rec.raw (r : Rec) : RawEv := ⟨r.time, r.ev, r.x, r.y⟩

/-- `BaseVideo<SafeBoard>`, base_video.rs 234-333: the fields that recording uses.  `board` is
`BaseVideo::board`, `msb` is `minesweeper_board`, `gstate` is `game_board_state`; `videoStart` is
`video_start_instant` in microseconds, `gameStart` is `game_start_ms`. -/
structure Live where
  msb : MSB
  board : View
  width : Nat
  height : Nat
  pix : Nat
  gstate : GState
  recs : List Rec
  stream : List Board
  videoStart : Nat
  gameStart : Nat
  rtimeMs : Nat
  completed : Bool

/-- `vec![vec![10; width]; height]` -/
def coveredBoard (h w : Nat) : Board := Board.build h w fun _ _ => 10

/-- `time_ms_between`, miscellaneous.rs 15-17: microseconds to milliseconds, rounded half up.  `duration_since`
is zero for an earlier instant. -/
def timeMsBetween (future past : Nat) : Nat := (future - past + 500) / 1000

namespace Live

/-- `new_before_game`, base_video.rs 730-756, at clock `now` (`Default` takes `Instant::now()`). -/
def new (v : View) (pix now : Nat) : Live :=
  { msb := MSB.new v, board := v, width := v.col, height := v.row, pix := pix, gstate := .ready, recs := [],
    stream := [], videoStart := now, gameStart := 0, rtimeMs := 0, completed := false }

/-- `reset`, base_video.rs 634-648: a new machine on an empty board; `board`, `game_start_ms`,
`video_start_instant` and `is_completed` are kept. -/
def reset (L : Live) (row column pix : Nat) : Live :=
  { L with
    msb := MSB.new (Board.build row column fun _ _ => 0).view
    width := column, height := row, pix := pix, recs := [], stream := [], rtimeMs := 0, gstate := .ready }

/-- `set_board`, base_video.rs 650-679 (the `assert!(!board.is_empty())` is left out). -/
def setBoard (L : Live) (v : View) : Live × Bool :=
  match L.gstate with
  | .playing | .ready | .preFlaging =>
    if L.width ≠ v.col ∨ L.height ≠ v.row then (L, false)
    else ({ L with height := v.row, width := v.col, board := v, msb := { L.msb with board := v } }, true)
  | _ => (L, false)

/-- `set_pix_size`, base_video.rs 1096-1105. -/
def setPix (L : Live) (pix : Nat) : Live × Bool :=
  if L.gstate ≠ .ready ∧ L.gstate ≠ .win ∧ L.gstate ≠ .loss then (L, false) else ({ L with pix := pix }, true)

/-- the test of the path loop, base_video.rs 861-863: the event lies within the board -/
def inside (L : Live) (r : Rec) : Bool := !(decide (r.y ≥ L.height * L.pix) || decide (r.x ≥ L.width * L.pix))

/-- The path, base_video.rs 856-895: `none` when no earlier event lies within the board (`outside_skip`
underflows). -/
def pathFrom (dist : Pos → Pos → ℚ) (L : Live) (pos : Pos) : Option ℚ :=
  (L.recs.reverse.find? L.inside).map fun r => r.path + dist (r.y, r.x) pos

/-- The end of `step`, base_video.rs 854-941: path, first board of the stream, board ids, new event. -/
def record (dist : Pos → Pos → ℚ) (L : Live) (old : GState) (a timeMs : Nat) (e : Ev) (pos : Pos) :
    Option Live :=
  let path : Option ℚ := if old = .playing then L.pathFrom dist pos else some 0
  path.bind fun path =>
    let stream := if old ≠ .playing ∧ L.stream = [] ∧ (L.msb.state = .preFlaging ∨ L.msb.state = .playing ∨
        L.msb.state = .win ∨ L.msb.state = .loss) then [coveredBoard L.height L.width] else L.stream
    let stream' := if a ≥ 1 then stream ++ [L.msb.gameBoard] else stream
    let back := if a ≥ 1 then 2 else 1
    if stream'.length < back then none
    else
      some { L with
        stream := stream'
        recs := L.recs ++ [{
          time := timeMs, ev := e, x := pos.2 % 65536, y := pos.1 % 65536, useful := a,
          prior := stream'.length - back, next := stream'.length - 1, mouseSt := L.msb.mouse,
          left := L.msb.left, right := L.msb.right, double := L.msb.double, ce := L.msb.ce,
          flag := L.msb.flag, bbbvSolved := L.msb.bbbvSolved, path := path }] }

/-- `step`, base_video.rs 768-942, at clock `now`.  `some (L, true)` is `Ok(0)`, `some (L, false)` is
`Err(())`. -/
def step (dist : Pos → Pos → ℚ) (L : Live) (now : Nat) (e : Ev) (pos : Pos) : Option (Live × Bool) :=
  let timeMs := timeMsBetween now L.videoStart
  let old := L.msb.state
  if old = .loss ∨ old = .win ∨ old = .display then some (L, true)
  else if L.pix = 0 then none
  else
    match L.msb.step e (pos.1 / L.pix, pos.2 / L.pix) with
    | none => none
    | some (m, none) => some ({ L with msb := m }, false)
    | some (m, some a) =>
      let L := { L with msb := m, gstate := m.state }
      match m.state with
      | .ready => some ({ L with stream := [], recs := [] }, true)
      | .preFlaging =>
        let fresh := old ≠ .preFlaging
        let L := if fresh then { L with videoStart := now } else L
        let timeMs := if fresh then timeMsBetween now now else timeMs
        (L.record dist old a timeMs e pos).map (·, true)
      | .playing =>
        let L1 := if old = .ready then { L with videoStart := now } else L
        let timeMs := if old = .ready then timeMsBetween now now else timeMs
        let L1 := if old ≠ .playing then { L1 with gameStart := timeMs } else L
        (L1.record dist old a timeMs e pos).map (·, true)
      | .display => (L.record dist old a timeMs e pos).map (·, true)
      | .loss =>
        if timeMs < L.gameStart then none
        else
          let L := { L with completed := false, rtimeMs := timeMs - L.gameStart }
          (L.record dist old a timeMs e pos).map (·, true)
      | .win =>
        if timeMs < L.gameStart then none
        else
          let L := { L with completed := true, rtimeMs := timeMs - L.gameStart }
          (L.record dist old a timeMs e pos).map (·, true)

/-- `get_time`, base_video.rs 1157-1174, in milliseconds: `as_millis` rounds down.  (`Display` does not occur
in a live game.) -/
def getTimeMs (L : Live) (now : Nat) : Option Nat :=
  match L.gstate with
  | .playing =>
    let t := (now - L.videoStart) / 1000
    if t < L.gameStart then none else some (t - L.gameStart)
  | .preFlaging => some ((now - L.videoStart) / 1000)
  | .loss | .win => some L.rtimeMs
  | .ready => some 0
  | .display => none

end Live

/-! ## `analyse` -/

/-- What `analyse` builds: the machine `b`, `game_board_stream`, the events done so far, `delta_time`. -/
structure Replay where
  msb : MSB
  stream : List Board
  recs : List Rec
  delta : Nat

/-- `svi.y >= height * pix && svi.x >= width * pix`, base_video.rs 508-510, 521-523: both coordinates off the
board.  (`u16` products: the caller checks that they do not overflow.) -/
def offBoth (h w pix y x : Nat) : Bool := decide (y ≥ h * pix) && decide (x ≥ w * pix)

/-- The path of an event, base_video.rs 503-536, once the machine `b` is in state `st`: before the game starts
it keeps its initial value 0.  `none`: an index underflows or a `u16` product overflows (the second one is only computed
for an event below the board: this one or, going back, the one before). -/
def replayPath (dist : Pos → Pos → ℚ) (h w pix : Nat) (st : GState) (recs : List Rec) (r : RawEv) : Option ℚ :=
  if st = .playing ∨ st = .win ∨ st = .loss then
    if (h % 65536) * pix ≥ 65536 ∨ (w % 65536) * pix ≥ 65536 ∧
        (r.y ≥ (h % 65536) * pix ∨ recs.getLast?.any (fun q => decide (q.y ≥ (h % 65536) * pix)) = true) then none
    else if offBoth (h % 65536) (w % 65536) pix r.y r.x then recs.getLast?.map (·.path)
    else (recs.reverse.find? fun q => !offBoth (h % 65536) (w % 65536) pix q.y q.x).map fun q =>
      q.path + dist (q.y, q.x) (r.y, r.x)
  else some 0

/-- One iteration of the loop of `analyse`, base_video.rs 462-537.  The `unwrap` of a refused step panics.
`useful_level` of a move is what the parser left there: 0. -/
def Replay.next (dist : Pos → Pos → ℚ) (h w pix : Nat) (A : Replay) (r : RawEv) : Option Replay :=
  let prior := A.stream.length - 1
  let fin (A : Replay) (a : Nat) : Option Replay :=
    (replayPath dist h w pix A.msb.state A.recs r).map fun path =>
      { A with recs := A.recs ++ [{
          time := r.time, ev := r.ev, x := r.x, y := r.y, useful := a, prior := prior,
          next := A.stream.length - 1, mouseSt := A.msb.mouse, left := A.msb.left, right := A.msb.right,
          double := A.msb.double, ce := A.msb.ce, flag := A.msb.flag, bbbvSolved := A.msb.bbbvSolved,
          path := path }] }
  if r.ev = .mv then fin A 0
  else if pix = 0 then none
  else
    match A.msb.step r.ev (r.y / pix, r.x / pix) with
    | none => none
    | some (_, none) => none
    | some (m, some a) =>
      if a ≥ 1 then
        fin { A with
          msb := m, stream := A.stream ++ [m.gameBoard]
          delta := if A.msb.state ≠ .playing then r.time else A.delta } a
      else fin { A with msb := m } a

/-- `analyse`, base_video.rs 448-537, on a freshly parsed video: board `v`, sizes `h`, `w`, pixel size `pix`
and the events of the file. -/
def analyse (dist : Pos → Pos → ℚ) (v : View) (h w pix : Nat) (evs : List RawEv) : Option Replay :=
  evs.foldlM (m := Option) (Replay.next dist h w pix)
    { msb := MSB.new v, stream := [coveredBoard h w], recs := [], delta := 0 }

end Ms
