import Verif.Model.Player
import Verif.Model.Metrics

/-!
# The statistics a video reports (videos/base_video.rs 997-1035, 1389-1757) and `is_valid` (1908-1962)

Times are exact rational seconds.  A value is `none` when the floating-point result is infinite or NaN.  The two
irrational powers that the code takes are parameters, see `Pow`.
-/

namespace Ms

/-- the outcome of a method that returns a `Result` or panics -/
inductive Res (α : Type) where
  | panic
  | err
  | ok (a : α)
deriving DecidableEq, Repr

namespace Res

/-- `?` -/
def bind {α β : Type} (x : Res α) (f : α → Res β) : Res β :=
  match x with
  | panic => panic
  | err => err
  | ok a => f a

/-- a panic, or a value -/
def get {α : Type} : Option α → Res α
  | none => panic
  | some a => ok a

end Res

/-- `f64::powf(1.7)` on numbers that are not negative and `f64::powf(0.5)`; only their signs are assumed. -/
structure Pow where
  p17 : ℚ → ℚ
  sqrt : ℚ → ℚ
  p17_zero : p17 0 = 0
  p17_pos : ∀ t, 0 < t → 0 < p17 t
  sqrt_nonneg : ∀ t, 0 ≤ t → 0 ≤ sqrt t

/-- `f64` division: a zero divisor gives an infinity or NaN -/
def fdiv (a b : ℚ) : Option ℚ := if b = 0 then none else some (a / b)

/-- `f64` division of results of which either may be infinite or NaN.  (A finite number over an infinity is 0; this
does not occur below, where a numerator is never infinite and the divisors come from `pow17`.) -/
def fdiv' (a b : Option ℚ) : Option ℚ := a.bind fun a => b.bind fun b => fdiv a b

/-- `f64` multiplication of results -/
def fmul (a b : Option ℚ) : Option ℚ := a.bind fun a => b.map fun b => a * b

/-- `t.powf(1.7)`: NaN for a negative `t` -/
def Pow.pow17 (W : Pow) (t : ℚ) : Option ℚ := if t < 0 then none else some (W.p17 t)

/-- The fields of `BaseVideo` that the getters read.  `left` .. `mouse` are those of `minesweeper_board`; `leftS` ..
`flagS` those of `game_dynamic_params`; `bbbv` is `static_params.bbbv`; `videoStart` (microseconds), `gameStart`
(milliseconds) as in `Live`; `playK` is `video_playing_pix_size_k`. -/
structure Stats where
  state : GState
  recs : List Rec
  cur : Nat
  curTime : ℚ
  left : Nat
  right : Nat
  double : Nat
  flag : Nat
  mouse : Mouse
  rtime : ℚ
  leftS : Option ℚ
  rightS : Option ℚ
  doubleS : Option ℚ
  clS : Option ℚ
  flagS : Option ℚ
  bbbv : Nat
  height : Nat
  width : Nat
  mineNum : Nat
  pix : Nat
  videoStart : Nat
  gameStart : Nat
  playK : Option ℚ

namespace Stats

/-- `self.video_action_state_recorder[self.current_event_id]` -/
def current (S : Stats) : Option Rec := S.recs[S.cur]?

/-- `get_left`, base_video.rs 1389-1398 -/
def getLeft (S : Stats) : Option Nat := if S.state = .display then S.current.map (·.left) else some S.left

/-- `get_right`, base_video.rs 1399-1408 -/
def getRight (S : Stats) : Option Nat := if S.state = .display then S.current.map (·.right) else some S.right

/-- `get_double`, base_video.rs 1409-1418 -/
def getDouble (S : Stats) : Option Nat := if S.state = .display then S.current.map (·.double) else some S.double

/-- `get_cl`, base_video.rs 1419-1421 -/
def getCl (S : Stats) : Option Nat :=
  S.getLeft.bind fun l => S.getRight.bind fun r => S.getDouble.map fun d => l + r + d

/-- `get_flag`, base_video.rs 1422-1431 -/
def getFlag (S : Stats) : Option Nat := if S.state = .display then S.current.map (·.flag) else some S.flag

/-- What `get_left_s`, `get_right_s`, `get_double_s`, `get_cl_s` and `get_flag_s` have in common, base_video.rs 1432-1531:
`n` is the count, `f` the stored rate, `now` the clock in microseconds (`as_millis` rounds down).  `none` is a panic: the
count panics, or `t_ms - self.game_start_ms` underflows. -/
def rate (S : Stats) (n : Option Nat) (f : Option ℚ) (now : Nat) : Option (Option ℚ) :=
  match S.state with
  | .display => if S.curTime < 99 / 100000 then some (some 0) else n.map fun n => fdiv n S.curTime
  | .loss | .win => some f
  | .preFlaging | .ready => some (some 0)
  | .playing =>
    let t := (now - S.videoStart) / 1000
    n.bind fun n => if t < S.gameStart then none else some (fdiv (n * 1000) ((t - S.gameStart : Nat) : ℚ))

/-- `get_left_s`, base_video.rs 1432-1451 -/
def getLeftS (S : Stats) (now : Nat) : Option (Option ℚ) := S.rate S.getLeft S.leftS now
/-- `get_right_s`, base_video.rs 1452-1471 -/
def getRightS (S : Stats) (now : Nat) : Option (Option ℚ) := S.rate S.getRight S.rightS now
/-- `get_double_s`, base_video.rs 1472-1491 -/
def getDoubleS (S : Stats) (now : Nat) : Option (Option ℚ) := S.rate S.getDouble S.doubleS now
/-- `get_cl_s`, base_video.rs 1492-1511 -/
def getClS (S : Stats) (now : Nat) : Option (Option ℚ) := S.rate S.getCl S.clS now
/-- `get_flag_s`, base_video.rs 1512-1531 -/
def getFlagS (S : Stats) (now : Nat) : Option (Option ℚ) := S.rate S.getFlag S.flagS now

/-- `get_path`, base_video.rs 1532-1541 -/
def getPath (S : Stats) : Option ℚ :=
  if S.recs = [] then some 0
  else if S.state = .display then S.current.map (·.path) else S.recs.getLast?.map (·.path)

/-- `get_bbbv_solved`, base_video.rs 1564-1580 -/
def getSolved (S : Stats) : Res Nat :=
  match S.state with
  | .display => .get (S.current.map (·.bbbvSolved))
  | .win | .loss => .get (S.recs.getLast?.map (·.bbbvSolved))
  | _ => .err

/-- `get_ce`, base_video.rs 1624-1637 -/
def getCe (S : Stats) : Res Nat :=
  match S.state with
  | .display => .get (S.current.map (·.ce))
  | .win | .loss => .get (S.recs.getLast?.map (·.ce))
  | _ => .err

/-- `get_etime`, base_video.rs 1542-1553 -/
def getEtime (S : Stats) : Res (Option ℚ) :=
  S.getSolved.bind fun n =>
    if n = 0 then .ok (some 0)
    else if S.state = .display then .ok (fmul (fdiv S.curTime n) (some S.bbbv))
    else .ok (fmul (fdiv S.rtime n) (some S.bbbv))

/-- `get_bbbv_s`, base_video.rs 1554-1563 -/
def getBbbvS (S : Stats) : Res (Option ℚ) :=
  S.getSolved.bind fun n =>
    if S.state = .display then
      if S.curTime < 99 / 100000 then .ok (some 0) else .ok (fdiv n S.curTime)
    else .ok (fdiv n S.rtime)

/-- The coefficient of `get_stnb`, base_video.rs 1589-1594. -/
def stnbCoeff (h w mines : Nat) : Option ℚ :=
  if h = 8 ∧ w = 8 ∧ mines = 10 then some (47299 / 1000)
  else if h = 16 ∧ w = 16 ∧ mines = 40 then some (15373 / 100)
  else if h = 16 ∧ w = 30 ∧ mines = 99 then some (435001 / 1000)
  else none

/-- `c * bbbv / t.powf(1.7) * (solved / bbbv).powf(0.5)` -/
def stnbOf (W : Pow) (c t : ℚ) (bbbv solved : Nat) : Option ℚ :=
  fmul (fdiv' (some (c * bbbv)) (W.pow17 t)) ((fdiv solved bbbv).map W.sqrt)

/-- `get_stnb`, base_video.rs 1581-1609 -/
def getStnb (W : Pow) (S : Stats) : Res (Option ℚ) :=
  S.getSolved.bind fun n =>
    if S.state = .display ∧ S.curTime < 99 / 100000 then .ok (some 0)
    else
      match stnbCoeff S.height S.width S.mineNum with
      | none => .ok (some 0)
      | some c =>
        if S.state = .display then .ok (stnbOf W c S.curTime S.bbbv n) else .ok (stnbOf W c S.rtime S.bbbv n)

/-- `get_rqp`, base_video.rs 1610-1616 -/
def getRqp (S : Stats) : Res (Option ℚ) :=
  S.getSolved.bind fun n => if n = 0 then .ok (some 0) else .ok (fdiv (S.curTime ^ 2) n)

/-- `get_qg`, base_video.rs 1617-1623 -/
def getQg (W : Pow) (S : Stats) : Res (Option ℚ) :=
  S.getSolved.bind fun n => if n = 0 then .ok (some 0) else .ok (fdiv' (W.pow17 S.curTime) (some (n : ℚ)))

/-- `get_ce_s`, base_video.rs 1638-1644 -/
def getCeS (S : Stats) : Res (Option ℚ) :=
  S.getCe.bind fun n => if S.curTime < 99 / 100000 then .ok (some 0) else .ok (fdiv n S.curTime)

/-- `get_corr`, base_video.rs 1645-1652 -/
def getCorr (S : Stats) : Res (Option ℚ) :=
  S.getCe.bind fun ce => (Res.get S.getCl).bind fun cl => if cl = 0 then .ok (some 0) else .ok (fdiv ce cl)

/-- `get_thrp`, base_video.rs 1653-1660: the `unwrap` panics on an `Err` -/
def getThrp (S : Stats) : Res (Option ℚ) :=
  S.getCe.bind fun ce =>
    match S.getSolved with
    | .ok n => if ce = 0 then .ok (some 0) else .ok (fdiv n ce)
    | _ => .panic

/-- `get_ioe`, base_video.rs 1661-1668 -/
def getIoe (S : Stats) : Res (Option ℚ) :=
  S.getSolved.bind fun n => (Res.get S.getCl).bind fun cl => if cl = 0 then .ok (some 0) else .ok (fdiv n cl)

/-- `get_op_solved` and `get_isl_solved`, base_video.rs 1669-1690: the fields are written nowhere but with the value 0
(base_video.rs 157-158, 494-495, 932-933) -/
def getOpSolved (S : Stats) : Res Nat :=
  if S.state ≠ .display ∧ S.state ≠ .win ∧ S.state ≠ .loss then .err else .get (S.current.map fun _ => 0)

/-- The numbers of `get_mouse_state`, base_video.rs 1699-1708. -/
def mouseCode : Mouse → Nat
  | .upUp => 1
  | .upDown => 2
  | .upDownNotFlag => 3
  | .downUp => 4
  | .chording => 5
  | .chordingNotFlag => 6
  | .downUpAfterChording => 7
  | .undefined => 8

/-- `get_mouse_state`, base_video.rs 1692-1709 -/
def getMouse (S : Stats) : Option Nat :=
  if S.state = .display then S.current.map fun r => mouseCode r.mouseSt else some (mouseCode S.mouse)

/-- `(x as f64 * k) as u16`: rounds down and saturates; NaN and negative numbers give 0 -/
def toU16 (q : ℚ) : Nat := min ⌊q⌋₊ 65535

/-- The loop of `get_x_y`, base_video.rs 1725-1737, from event `i` down. -/
def walkBack (recs : List Rec) (edge : Nat) : Nat → Option Rec
  | 0 => recs[0]?.bind fun r => if r.x < edge then some r else none
  | i + 1 => recs[i + 1]?.bind fun r => if r.x < edge then some r else walkBack recs edge i

/-- `get_x_y`, base_video.rs 1720-1738.  `self.cell_pixel_size as u16 * self.width as u16` may overflow. -/
def getXY (S : Stats) : Res (Nat × Nat) :=
  if S.state ≠ .display then .err
  else if S.pix * (S.width % 65536) ≥ 65536 then .panic
  else
    (Res.get (walkBack S.recs (S.pix * (S.width % 65536)) S.cur)).bind fun r =>
      match S.playK with
      | some k => .ok (toU16 (r.x * k), toU16 (r.y * k))
      | none => .ok (if r.x = 0 then 0 else 65535, if r.y = 0 then 0 else 65535)

/-- `get_pix_size`, base_video.rs 1740-1745 -/
def getPix (S : Stats) : Res Nat := if S.state ≠ .display then .err else .ok S.pix

/-- `set_video_playing_pix_size`, base_video.rs 1747-1752: `none` is the panic.  A cell size 0 makes the factor infinite
or NaN. -/
def setPlayPix (S : Stats) (n : Nat) : Option Stats :=
  if S.state ≠ .display then none else some { S with playK := fdiv n S.pix }

/-- `gather_params_after_game`, base_video.rs 997-1016: the rates; the counts it copies are those of the machine. -/
def gather (S : Stats) (t : ℚ) : Stats :=
  { S with
    leftS := fdiv S.left t, rightS := fdiv S.right t, doubleS := fdiv S.double t, flagS := fdiv S.flag t
    clS := fdiv (S.left + S.right + S.double : Nat) t }

end Stats

/-- The getters of a video that is being played; `base` holds whatever the file and `analyse` left in the other
fields. -/
def Player.stats (P : Player) (base : Stats) : Stats :=
  { base with
    state := P.state, recs := P.recs, cur := P.cur, curTime := P.curTime / 1000, height := P.height, width := P.width
    mineNum := P.mineNum }

/-- The getters of a live game.  `current_time` and `current_event_id` keep their initial value 0 (base_video.rs
357-359): nothing but the player's methods assigns them.  The rates are stored at the end of the game, base_video.rs
846-868, and cleared by `reset`; `static_params.bbbv` is computed there from `self.board` (before the end of the game no
method that uses it returns a value). -/
def Live.stats (L : Live) (mineNum : Nat) : Stats :=
  let S : Stats :=
    { state := L.gstate, recs := L.recs, cur := 0, curTime := 0, left := L.msb.left, right := L.msb.right
      double := L.msb.double, flag := L.msb.flag, mouse := L.msb.mouse, rtime := (L.rtimeMs : ℚ) / 1000
      leftS := some 0, rightS := some 0, doubleS := some 0, clS := some 0, flagS := some 0, bbbv := calBbbv L.board
      height := L.height, width := L.width, mineNum := mineNum, pix := L.pix, videoStart := L.videoStart
      gameStart := L.gameStart, playK := some 1 }
  if L.gstate = .win ∨ L.gstate = .loss then S.gather S.rtime else S

/-! ## what `analyse` stores at the end -/

/-- The totals that `analyse` stores, base_video.rs 538-602 (`game_dynamic_params` without `double_s` and `flag_s`,
which it does not set, `video_dynamic_params` without `etime` and `qg`, which it does not set).  The `f64` results are
left out except `corr`, `ioe`, `thrp`; the static ones are computed by `cal_static_params`, base_video.rs 1018-1035:
`none` is its panic. -/
structure Totals where
  completed : Bool
  left : Nat
  right : Nat
  double : Nat
  cl : Nat
  flag : Nat
  ce : Nat
  solved : Nat
  corr : Option ℚ
  ioe : Option ℚ
  thrp : Option ℚ
  cells : List Nat
  op : Nat
  isl : Nat

/-- base_video.rs 538-602, with the machine `b` at the end of the loop and the board `v` of the video. -/
def totals (b : MSB) (v : View) : Option Totals :=
  (calCellNums v).map fun cells =>
    { completed := decide (b.state = .win), left := b.left, right := b.right, double := b.double
      cl := b.left + b.right + b.double, flag := b.flag, ce := b.ce, solved := b.bbbvSolved
      corr := fdiv b.ce (b.left + b.right + b.double : Nat)
      ioe := fdiv b.bbbvSolved (b.left + b.right + b.double : Nat)
      thrp := fdiv b.bbbvSolved b.ce
      cells := cells, op := calOp v, isl := calIsl v }

/-! ## `is_valid` -/

/-- What `is_valid` reads: `software`, `start_time`, `checksum`, `is_fair`, the number of events, `static_params.bbbv`,
`is_completed`. -/
structure Claim where
  software : List Nat
  startTime : List Nat
  checksum : List Nat
  fair : Bool
  events : Nat
  bbbv : Nat
  completed : Bool

/-- "Arbiter" -/
def arbiter : List Nat := [65, 114, 98, 105, 116, 101, 114]
/-- "Viennasweeper" -/
def vienna : List Nat := [86, 105, 101, 110, 110, 97, 115, 119, 101, 101, 112, 101, 114]
/-- "元3.2" in UTF-8 -/
def meta32 : List Nat := [229, 133, 131, 51, 46, 50]
/-- "元3.1.7" in UTF-8 -/
def meta317 : List Nat := [229, 133, 131, 51, 46, 49, 46, 55]

/-- The ten digits of `start_time`, base_video.rs 1920-1929: `none` when there are fewer than ten bytes or one is below
48 (`u8` subtraction, debug build). -/
def tenDigits (s : List Nat) : Option Nat :=
  (List.range 10).foldlM (m := Option) (fun acc i =>
    s[i]?.bind fun c => if c < 48 then none else some (acc + (c - 48) * 10 ^ (9 - i))) 0

/-- The last two tests of `is_valid`, base_video.rs 1950-1961.  `len / bbbv < 10.0` in `f64`: with `bbbv` 0 the quotient
is infinite or NaN, and not below 10. -/
def Claim.done (c : Claim) : Nat :=
  if c.bbbv ≠ 0 ∧ (c.events : ℚ) / c.bbbv < 10 then 3 else if c.completed then 0 else 1

/-- `is_valid`, base_video.rs 1916-1962; `none` is a panic. -/
def Claim.isValid (c : Claim) : Option Nat :=
  if c.software = arbiter then some c.done
  else if c.software = vienna then (tenDigits c.startTime).map fun t => if t > 1682265600 then 1 else c.done
  else if c.software = meta32 ∨ c.software = meta317 then
    if ∀ e ∈ c.checksum, c.checksum[0]? = some e then some 1
    else if !c.fair then some 1
    else some c.done
  else some 1

end Ms
