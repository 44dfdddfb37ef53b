import Verif.Model.Features

/-!
# Calling `analyse` a second time (videos/base_video.rs 448-602)

`analyse` works in place on `video_action_state_recorder` and only appends to `game_board_stream`, so what a second call does
depends on what the first one left: the boards already there, the `path` of the events before the game starts and the
`useful_level` of moves (neither is written), `delta_time` (written when the game starts).
-/

namespace Ms

/-- base_video.rs 503-536: as `replayPath`, but before the game starts the path stays what it was. -/
def reworkPath (dist : Pos → Pos → ℚ) (h w pix : Nat) (st : GState) (recs : List Rec) (old : Rec) : Option ℚ :=
  if st = .playing ∨ st = .win ∨ st = .loss then
    if (h % 65536) * pix ≥ 65536 ∨ (w % 65536) * pix ≥ 65536 ∧
        (old.y ≥ (h % 65536) * pix ∨ recs.getLast?.any (fun q => decide (q.y ≥ (h % 65536) * pix)) = true) then none
    else if offBoth (h % 65536) (w % 65536) pix old.y old.x then recs.getLast?.map (·.path)
    else (recs.reverse.find? fun q => !offBoth (h % 65536) (w % 65536) pix q.y q.x).map fun q =>
      q.path + dist (q.y, q.x) (old.y, old.x)
  else some old.path

/-- One iteration of the loop of `analyse`, base_video.rs 462-537, on the event `old` of the recorder: `recs` are the events
before it, already done; the result ends with the event as it is now. -/
def Replay.rework (dist : Pos → Pos → ℚ) (h w pix : Nat) (A : Replay) (old : Rec) : Option Replay :=
  let prior := A.stream.length - 1
  let fin (A : Replay) (a : Nat) : Option Replay :=
    (reworkPath dist h w pix A.msb.state A.recs old).map fun path =>
      { A with recs := A.recs ++ [{
          time := old.time, ev := old.ev, x := old.x, y := old.y, useful := a, prior := prior,
          next := A.stream.length - 1, mouseSt := A.msb.mouse, left := A.msb.left, right := A.msb.right,
          double := A.msb.double, ce := A.msb.ce, flag := A.msb.flag, bbbvSolved := A.msb.bbbvSolved,
          path := path }] }
  if old.ev = .mv then fin A old.useful
  else if pix = 0 then none
  else
    match A.msb.step old.ev (old.y / pix, old.x / pix) with
    | none => none
    | some (_, none) => none
    | some (m, some a) =>
      if a ≥ 1 then
        fin { A with
          msb := m, stream := A.stream ++ [m.gameBoard]
          delta := if A.msb.state ≠ .playing then old.time else A.delta } a
      else fin { A with msb := m } a

/-- `analyse`, base_video.rs 448-537, on a video in whatever state: its events, its stream of boards, its `delta_time`. -/
def reanalyse (dist : Pos → Pos → ℚ) (v : View) (h w pix : Nat) (recs : List Rec) (stream : List Board) (delta : Nat) :
    Option Replay :=
  recs.foldlM (m := Option) (Replay.rework dist h w pix)
    { msb := MSB.new v, stream := stream ++ [coveredBoard h w], recs := [], delta := delta }

/-- `analyse` called `n` more times on an analysed video -/
def analyseTimes (dist : Pos → Pos → ℚ) (v : View) (h w pix : Nat) : Nat → Replay → Option Replay
  | 0, A => some A
  | n + 1, A => (reanalyse dist v h w pix A.recs A.stream A.delta).bind (analyseTimes dist v h w pix n)

/-- An event as the parsers leave it in the recorder (`VideoActionStateRecorder::default`, base_video.rs 80-95). -/
def RawEv.parsed (r : RawEv) : Rec :=
  { time := r.time, ev := r.ev, x := r.x, y := r.y, useful := 0, prior := 0, next := 0, mouseSt := .undefined, left := 0, right := 0,
    double := 0, ce := 0, flag := 0, bbbvSolved := 0, path := 0 }

end Ms
