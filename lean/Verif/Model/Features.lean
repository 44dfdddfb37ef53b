import Verif.Model.Player
import Verif.Model.Misc

/-!
# `analyse_for_features` (videos/base_video.rs 637-664, videos/analyse_methods.rs)

The comments the analyses write to the events of an analysed video.  A comment is kept as what it says, its numbers exact
(the code: formatted with three or six digits).  `none` is a panic.
-/

namespace Ms

/-- The comments, analyse_methods.rs. -/
inductive Comment
  /-- `error: 危险的猜雷(猜对概率{});`, line 31 -/
  | risky (right : ℚ)
  /-- `feature: 高难度的判雷(左键);`, line 57 -/
  | hardSafe
  /-- `feature: 高难度的判雷(标雷);`, line 71 -/
  | hardMine
  /-- `warning: 可以判雷时选择猜雷;`, line 97 -/
  | needless
  /-- `error: 过于弯曲的鼠标轨迹({}%);`, line 125; `none` is infinite -/
  | veryCurved (k : Option ℚ)
  /-- `warning: 弯曲的鼠标轨迹({}%);`, line 135 -/
  | curved (k : ℚ)
  /-- `suspect: 笔直的鼠标轨迹;`, line 146 -/
  | straight
  /-- `warning: 可以判雷时视野的转移;`, line 197 -/
  | transfer
  /-- `luck: a * b * … = s;`, lines 216-249: the factors and their product -/
  | luck (factors : List ℚ) (product : ℚ)
  /-- `feature: 教科书式的FL局部(步数{});`, line 379 -/
  | superFL (steps : Int)
deriving DecidableEq

/-- The fields of `BaseVideo` the analyses use: `video_action_state_recorder` (the `comments` apart), the comments of each
event, `game_board_stream`, `cell_pixel_size`. -/
structure Feat where
  recs : List Rec
  comments : List (List Comment)
  stream : List GameBoard
  pix : Nat

namespace Feat

/-- `comments = format!("{}{}", comments, c)` of event `i`; an index off the list panics. -/
def say (F : Feat) (i : Nat) (c : Comment) : Option Feat :=
  F.comments[i]?.map fun cs => { F with comments := F.comments.set i (cs ++ [c]) }

/-- A comment, or none. -/
def sayIf (F : Feat) (i : Nat) : Option Comment → Option Feat
  | none => some F
  | some c => F.say i c

/-- `game_board_stream[id].get_…()`: the answer is remembered in the stream. -/
def ask (F : Feat) (id : Nat) (q : GameBoard → Option (GameBoard × α)) : Option (Feat × α) := do
  let G ← F.stream[id]?
  let (G, a) ← q G
  return ({ F with stream := F.stream.set id G }, a)

/-- `get_poss()[x][y]` of board `id`. -/
def possAt (F : Feat) (id x y : Nat) : Option (Feat × Option ℚ) := do
  let (F, M) ← F.ask id GameBoard.getPoss
  let l ← M[x]?
  let p ← l[y]?
  return (F, p)

/-- `for ide in lo..len { … }` -/
def loop (step : Feat → Nat → Rec → Option Feat) (lo : Nat) (F : Feat) : Option Feat :=
  (rng lo F.recs.length).foldlM (m := Option) (fun F i => F.recs[i]?.bind fun r => step F i r) F

/-- analyse_methods.rs 28-33.  A comparison with a NaN is false. -/
def riskComment : Option ℚ → Option Comment
  | some p => if p ≥ 51 / 100 then some (.risky (1 - p)) else none
  | none => none

/-- The body of `analyse_high_risk_guess`, analyse_methods.rs 24-34. -/
def riskyStep (F : Feat) (i : Nat) (r : Rec) : Option Feat :=
  if F.pix = 0 then none
  else if r.useful ≥ 2 then
    (F.possAt r.prior (r.y / F.pix) (r.x / F.pix)).bind fun (F, p) => F.sayIf i (riskComment p)
  else some F

/-- `analyse_high_risk_guess`, analyse_methods.rs 20-37. -/
def risky : Feat → Option Feat := loop riskyStep 2

/-- `!a.contains(p) && b.contains(p)` for the lists `q1`, `q2` of board `id`; the second is not asked for if not needed. -/
def onlySecond (F : Feat) (id : Nat) (q1 q2 : GameBoard → Option (GameBoard × List Pos)) (p : Pos) : Option (Feat × Bool) := do
  let (F, l) ← F.ask id q1
  if l.contains p then return (F, false)
  else
    let (F, l) ← F.ask id q2
    return (F, l.contains p)

/-- The body of `analyse_jump_judge`, analyse_methods.rs 44-74. -/
def jumpStep (F : Feat) (i : Nat) (r : Rec) : Option Feat :=
  if F.pix = 0 then none
  else if r.useful ≥ 2 ∧ r.ev = .lr then
    (F.onlySecond r.prior GameBoard.getBasicNot GameBoard.getEnumNot (r.y / F.pix, r.x / F.pix)).bind fun (F, b) =>
      F.sayIf i (if b then some .hardSafe else none)
  else if r.useful = 1 ∧ r.ev = .rc then
    (F.onlySecond r.prior GameBoard.getBasicIs GameBoard.getEnumIs (r.y / F.pix, r.x / F.pix)).bind fun (F, b) =>
      F.sayIf i (if b then some .hardMine else none)
  else some F

/-- `analyse_jump_judge`, analyse_methods.rs 39-76. -/
def jump : Feat → Option Feat := loop jumpStep 2

/-- analyse_methods.rs 86-93: in neither list of safe cells. -/
def inNeither (F : Feat) (id : Nat) (p : Pos) : Option (Feat × Bool) := do
  let (F, l) ← F.ask id GameBoard.getBasicNot
  if l.contains p then return (F, false)
  else
    let (F, l) ← F.ask id GameBoard.getEnumNot
    return (F, !l.contains p)

/-- The body of `analyse_needless_guess`, analyse_methods.rs 81-101. -/
def needlessStep (F : Feat) (i : Nat) (r : Rec) : Option Feat :=
  if r.useful ≥ 2 ∧ r.ev = .lr then
    if F.pix = 0 then none
    else
      (F.possAt r.prior (r.y / F.pix) (r.x / F.pix)).bind fun (F, v) =>
        if v.any (0 < ·) then
          (F.inNeither r.prior (r.y / F.pix, r.x / F.pix)).bind fun (F, b) =>
            F.sayIf i (if b then some .needless else none)
        else some F
  else some F

/-- `analyse_needless_guess`, analyse_methods.rs 78-102. -/
def needless : Feat → Option Feat := loop needlessStep 2

/-- The variables of the loop of `analyse_mouse_trace`, analyse_methods.rs 105-108: `click_last`, `click_last_id`,
`move_last`, `path`. -/
structure Trace where
  click : Pos
  clickId : Nat
  move : Pos
  path : ℚ

/-- The comment on a way of length `path` between clicks at distance `s`, analyse_methods.rs 120-154: `path / s` is infinite
if only `s` is 0, NaN (no comment) if both are. -/
def traceComment (path s : ℚ) : Option Comment :=
  if s = 0 then
    if path = 0 then none else some (.veryCurved none)
  else if path / s > 7 then some (.veryCurved (some (path / s)))
  else if path / s > 7 / 2 then some (.curved (path / s))
  else if path / s < 101 / 100 then
    if path / s > 5 then some .straight else none
  else none

/-- The body of `analyse_mouse_trace`, analyse_methods.rs 109-158; points are (x, y). -/
def traceStep (dist : Pos → Pos → ℚ) (T : Feat × Trace) (i : Nat) : Option (Feat × Trace) :=
  T.1.recs[i]?.bind fun r =>
    let p : Pos := (r.x, r.y)
    let path := T.2.path + dist T.2.move p
    if r.ev = .lr ∨ r.ev = .rc ∨ r.ev = .rr then
      (T.1.sayIf T.2.clickId (traceComment path (dist T.2.click p))).map fun F => (F, ⟨p, i, p, 0⟩)
    else some (T.1, { T.2 with move := p, path := path })

/-- `analyse_mouse_trace`, analyse_methods.rs 104-160; `dist` is the distance of two points (`sqrt`). -/
def mouseTrace (dist : Pos → Pos → ℚ) (F : Feat) : Option Feat := do
  let r ← F.recs[0]?
  let T ← (rng 0 F.recs.length).foldlM (m := Option) (traceStep dist) (F, ⟨(r.x, r.y), 0, (r.x, r.y), 0⟩)
  return T.1

/-- `x <= l_x + 3 && x + 3 >= l_x && y <= l_y + 3 && y + 3 >= l_y`, analyse_methods.rs 185, 192. -/
def within3 (q l : Pos) : Bool := decide (q.1 ≤ l.1 + 3 ∧ q.1 + 3 ≥ l.1 ∧ q.2 ≤ l.2 + 3 ∧ q.2 + 3 ≥ l.2)

/-- The square of the distance of two points. -/
def dist2 (a b : Pos) : Int := ((a.1 : Int) - b.1) ^ 2 + ((a.2 : Int) - b.2) ^ 2

/-- The variables of the loop of `analyse_vision_transfer`, analyse_methods.rs 164-167: `click_last`, `(l_x, l_y)`,
`click_last_id`. -/
structure Look where
  click : Pos
  cell : Pos
  clickId : Nat

/-- Whether a cell known to be safe on board `id` is near the cell `l`, analyse_methods.rs 180-195. -/
def safeNear (F : Feat) (id : Nat) (l : Pos) : Option (Feat × Bool) := do
  let (F, l1) ← F.ask id GameBoard.getBasicNot
  let (F, l2) ← F.ask id GameBoard.getEnumNot
  return (F, l1.any (within3 · l) || l2.any (within3 · l))

/-- analyse_methods.rs 174-204: the comment on moving from the last click to the point `p`.  The distance (a square root) is
at least 112 iff its square is at least 112². -/
def lookSay (F : Feat) (t : Look) (id : Nat) (p : Pos) : Option Feat :=
  if dist2 t.click p ≥ 112 ^ 2 then do
    let (F, b) ← F.safeNear id t.cell
    F.sayIf t.clickId (if b then some .transfer else none)
  else some F

/-- The body of `analyse_vision_transfer`, analyse_methods.rs 168-209; points are (y, x). -/
def lookStep (T : Feat × Look) (i : Nat) : Option (Feat × Look) :=
  T.1.recs[i]?.bind fun r =>
    if r.useful ≥ 2 then
      (T.1.lookSay T.2 r.prior (r.y, r.x)).map fun F => (F, ⟨(r.y, r.x), (r.y / F.pix, r.x / F.pix), i⟩)
    else some T

/-- `analyse_vision_transfer`, analyse_methods.rs 163-211. -/
def visionTransfer (F : Feat) : Option Feat := do
  let r ← F.recs[0]?
  if F.pix = 0 then none
  else
    let T ← (rng 0 F.recs.length).foldlM (m := Option) lookStep (F, ⟨(r.y, r.x), (r.y / F.pix, r.x / F.pix), 0⟩)
    return T.1

/-- analyse_methods.rs 230-235: `1 - p`, if the opening was a risk. -/
def luckFactor : Option ℚ → List ℚ
  | some p => if 0 < p ∧ p < 1 then [1 - p] else []
  | none => []

/-- The body of `analyse_survive_poss`, analyse_methods.rs 219-237; the variables are the factors in `message` and
`has_begin`; `s_poss` is their product. -/
def luckStep (T : Feat × List ℚ × Bool) (i : Nat) : Option (Feat × List ℚ × Bool) :=
  T.1.recs[i]?.bind fun r =>
    if r.ev = .lr ∧ r.useful > 0 then
      if T.2.2 = false then some (T.1, T.2.1, true)
      else if T.1.pix = 0 then none
      else (T.1.possAt r.prior (r.y / T.1.pix) (r.x / T.1.pix)).map fun (F, p) => (F, T.2.1 ++ luckFactor p, true)
    else some T

/-- `analyse_survive_poss`, analyse_methods.rs 213-250.  The comments of the last event are replaced. -/
def survive (F : Feat) : Option Feat := do
  let T ← (rng 0 F.recs.length).foldlM (m := Option) luckStep (F, [], false)
  let (F, fs, _) := T
  if F.comments.length = 0 then none
  else return { F with comments := F.comments.set (F.comments.length - 1) [.luck fs fs.prod] }

/-- `SuperFLState`, analyse_methods.rs 252-259. -/
inductive FLState | notStart | startNow | startNotOk | isOk | finish
deriving DecidableEq, Repr

/-- The variables of `analyse_super_fl_local`, analyse_methods.rs 263-267. -/
structure FL where
  anchor : Nat
  counter : Int
  state : FLState
  lastRc : Int
  last : Nat
deriving DecidableEq

/-- A left click, a wrong flag or a wrong chord: analyse_methods.rs 347-351, with the resets. -/
def FL.break (t : FL) : FL :=
  if t.state = .isOk then { t with counter := t.counter - t.lastRc, state := .finish }
  else { t with state := .notStart, counter := 0, lastRc := 0 }

/-- A correct flag, analyse_methods.rs 288-306. -/
def FL.flag (t : FL) (i : Nat) : FL :=
  match t.state with
  | .notStart => { t with state := .startNow, counter := 1, lastRc := 1, anchor := i }
  | .startNow => { t with state := .startNotOk, counter := t.counter + 1, lastRc := t.lastRc + 1 }
  | .startNotOk | .isOk => { t with counter := t.counter + 1, lastRc := t.lastRc + 1 }
  | .finish => t

/-- A good chord, analyse_methods.rs 328-340. -/
def FL.chord (t : FL) : FL :=
  match t.state with
  | .startNow => { t with state := .startNotOk, counter := t.counter + 1, lastRc := 0 }
  | .startNotOk | .isOk => { t with counter := t.counter + 1, lastRc := 0 }
  | _ => t

/-- The jump to a far cell, analyse_methods.rs 359-374. -/
def FL.jump (t : FL) : FL :=
  match t.state with
  | .startNotOk => { t with state := .notStart, counter := 0, lastRc := 0 }
  | .isOk => { t with counter := t.counter - t.lastRc, state := .finish }
  | _ => t

/-- Enough steps, analyse_methods.rs 375-382. -/
def FL.enough (t : FL) : FL :=
  if t.counter - t.lastRc ≥ 5 ∧ (t.state = .startNow ∨ t.state = .startNotOk) then { t with state := .isOk } else t

/-- analyse_methods.rs 282-357: what event `i`, `q` being the one before that is no movement, does on the board `b`.
`board[x][y]` panics off the board, for every press of the right button. -/
def flMove (t : FL) (i : Nat) (b : Board) (r q : Rec) (p : Pos) : Option FL :=
  if r.ev = .rc ∧ (b[p.1]?.bind fun l => l[p.2]?) = none then none
  else if r.ev = .rc ∧ (b[p.1]?.bind fun l => l[p.2]?) = some 10 ∧ r.useful = 1 then some (t.flag i)
  else if r.useful = 3 then (isGoodChording b p).map fun good => if good then t.chord else t.break
  else if r.ev = .lr ∧ (q.mouseSt = .downUp ∨ q.mouseSt = .chording) ∨ r.ev = .rr ∧ q.mouseSt = .chording then some t.break
  else some t

/-- analyse_methods.rs 359-396: after that, `far` being whether the event was far from the one before. -/
def flAfter (F : Feat) (t : FL) (far : Bool) (i : Nat) : Option (Feat × FL) :=
  let t := (if far then t.jump else t).enough
  if t.state = .finish then
    (F.say t.anchor (.superFL t.counter)).map fun F => (F, { t with state := .notStart, last := i })
  else some (F, { t with last := i })

/-- The body of `analyse_super_fl_local`, analyse_methods.rs 268-397.  (The board is looked up for every event here; its id
is valid.)  The squares of lines 348-349 are computed in `i32`: an overflow of one of them or of their sum panics, which is
when the sum is 2³¹ or more (both are at least 0). -/
def flStep (T : Feat × FL) (i : Nat) : Option (Feat × FL) :=
  T.1.recs[i]?.bind fun r =>
    if r.ev = .mv then some T
    else if T.1.pix = 0 then none
    else
      T.1.recs[T.2.last]?.bind fun q => T.1.stream[r.prior]?.bind fun G =>
        let p : Pos := (r.y / T.1.pix, r.x / T.1.pix)
        let p1 : Pos := (q.y / T.1.pix, q.x / T.1.pix)
        (flMove T.2 i G.board r q p).bind fun t =>
          if dist2 p p1 ≥ 2 ^ 31 then none else flAfter T.1 t (decide (dist2 p p1 > 16)) i

/-- `analyse_super_fl_local`, analyse_methods.rs 260-398. -/
def superFLLocal (F : Feat) : Option Feat := do
  let T ← (rng 1 F.recs.length).foldlM (m := Option) flStep (F, ⟨0, 0, .notStart, 0, 0⟩)
  return T.1

end Feat

/-- The names `analyse_for_features` knows, base_video.rs 652-661. -/
inductive Feature | highRiskGuess | jumpJudge | needlessGuess | mouseTrace | visionTransfer | survivePoss | superFLLocal | unknown

/-- `analyse_for_features` with one name, base_video.rs 651-662; with several: one after the other. -/
def Feat.run (dist : Pos → Pos → ℚ) (F : Feat) : Feature → Option Feat
  | .highRiskGuess => F.risky
  | .jumpJudge => F.jump
  | .needlessGuess => F.needless
  | .mouseTrace => F.mouseTrace dist
  | .visionTransfer => F.visionTransfer
  | .survivePoss => F.survive
  | .superFLLocal => F.superFLLocal
  | .unknown => some F

/-- An analysed video, before any comment (`comments` is created empty: `VideoActionStateRecorder::default`). -/
def Replay.feat (A : Replay) (mines pix : Nat) : Feat :=
  { recs := A.recs, comments := A.recs.map fun _ => [], stream := A.stream.map fun g => (GameBoard.new mines).setBoard g, pix }

end Ms
