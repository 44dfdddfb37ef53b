import Verif.Model.Video
import Verif.Model.GameBoard

/-!
# Playing a video: seeking by time and by event, boards and probabilities (videos/base_video.rs 1107-1256)

Times are exact rational milliseconds (the code: seconds as `f64`).  `none` is a panic.
-/

namespace Ms

/-- The fields of `BaseVideo` that playing uses: `game_board_state`, `video_action_state_recorder`,
`game_board_stream`, `delta_time`, `current_event_id`, `current_time`, `height`, `width`, `mine_num`. -/
structure Player where
  state : GState
  recs : List Rec
  stream : List GameBoard
  delta : ℚ
  cur : Nat
  curTime : ℚ
  height : Nat
  width : Nat
  mineNum : Nat

namespace Player

/-- `get_video_start_time`, base_video.rs 1190-1195: `Err` is `none`. -/
def startTime (P : Player) : Option ℚ := if P.state ≠ .display then none else some (-P.delta)

/-- `get_video_end_time`, base_video.rs 1198-1204: `Err`, and the panic of `last().unwrap()`, are `none`. -/
def endTime (P : Player) : Option ℚ :=
  if P.state ≠ .display then none else P.recs.getLast?.map fun r => (r.time : ℚ) - P.delta

/-- The first loop of `set_current_time`, base_video.rs 1218-1229; the first argument bounds the rounds. -/
def seekFwd (rs : List Rec) (t : ℚ) : Nat → Nat → Option Nat
  | 0, _ => none
  | n + 1, i =>
    if i + 1 ≥ rs.length then some i
    else
      match rs[i + 1]? with
      | none => none
      | some r => if (r.time : ℚ) ≤ t then seekFwd rs t n (i + 1) else some i

/-- The second loop of `set_current_time`, base_video.rs 1231-1241. -/
def seekBack (rs : List Rec) (t : ℚ) : Nat → Option Nat
  | 0 => some 0
  | i + 1 =>
    match rs[i]? with
    | none => none
    | some r => if (r.time : ℚ) > t then seekBack rs t i else some i

/-- `set_current_time`, base_video.rs 1207-1244. -/
def setTime (P : Player) (time : ℚ) : Option Player := do
  let s ← P.startTime
  let c := if time < s then s else time
  let e ← P.endTime
  let c := if c > e then e else c
  let t := time + P.delta
  let r ← P.recs[P.cur]?
  let cur ← if t > (r.time : ℚ) then seekFwd P.recs t (P.recs.length + 1) P.cur else seekBack P.recs t P.cur
  return { P with curTime := c, cur := cur }

/-- `set_current_event_id`, base_video.rs 1246-1254: `some (P, false)` is `Err(())`. -/
def setEvent (P : Player) (id : Nat) : Option (Player × Bool) :=
  if P.state ≠ .display then some (P, false)
  else P.recs[id]?.map fun r => ({ P with cur := id, curTime := (r.time : ℚ) - P.delta }, true)

/-- `get_game_board`, base_video.rs 1109-1118, in state `Display`. -/
def gameBoard (P : Player) : Option Board := do
  let r ← P.recs[P.cur]?
  let G ← P.stream[r.next]?
  return G.board

/-- The loop of `get_game_board_poss`, base_video.rs 1122-1128, from event `id`: `some true` when an event of level 2 or
more is met, `some false` when `id` reaches 0 by counting down. -/
def possSearch (rs : List Rec) : Nat → Option Bool
  | 0 =>
    match rs[0]? with
    | none => none
    | some r => if r.useful < 2 then none else some true
  | id + 1 =>
    match rs[id + 1]? with
    | none => none
    | some r => if r.useful < 2 then (if id = 0 then some false else possSearch rs id) else some true

/-- `get_game_board_poss`, base_video.rs 1120-1141.  `0 / 0` is NaN. -/
def gameBoardPoss (P : Player) : Option (Player × List (List (Option ℚ))) := do
  if ← possSearch P.recs P.cur then
    let r ← P.recs[P.cur]?
    let G ← P.stream[r.next]?
    let (G, M) ← G.getPoss
    return ({ P with stream := P.stream.set r.next G }, M)
  else
    let p : Option ℚ := if P.height * P.width = 0 then none else some ((P.mineNum : ℚ) / ((P.height * P.width : Nat) : ℚ))
    return (P, List.replicate P.width (List.replicate P.height p))

end Player

/-- A video after `analyse`, base_video.rs 448-602 (see `Replay`): state `Display` (base_video.rs 351, 400), at the first
event, `current_time` 0 (base_video.rs 413). -/
def Replay.player (A : Replay) (h w mines : Nat) : Player :=
  { state := .display, recs := A.recs, stream := A.stream.map fun g => (GameBoard.new mines).setBoard g,
    delta := (A.delta : ℚ), cur := 0, curTime := 0, height := h, width := w, mineNum := mines }

end Ms
