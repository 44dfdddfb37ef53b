import Verif.Model.Parsers
import Verif.Spec
import Mathlib.Logic.Equiv.Defs

/-!
# The layouts of AVF, RMV and MVF files

Each layout is given by its parts (`AvfFile`, `RmvFile`, `MvfFile`), the bytes they make up (`bytes`), the conditions on the
parts (`Valid`) and the video they stand for (`video`).  Characters: 13 CR, 44 `,`, 46 `.`, 58 `:`, 66 `B`, 83 `S`, 84 `T`,
91 `[`, 93 `]`, 105 `i`, 107 `k`, 110 `n`, 124 `|`.
-/

namespace Ms.Spec
open Ms.Vid

/-- `s` is the shortest beginning of itself with the property. -/
def Shortest (P : Bytes → Prop) (s : Bytes) : Prop := P s ∧ ∀ n < s.length, ¬ P (s.take n)

/-- The bytes of pairs. -/
def flat2 (ps : List (Nat × Nat)) : Bytes := ps.flatMap fun q => [q.1, q.2]

/-- The board of `h` rows of `w` cells whose mines are the cells of `M`: correct numbers everywhere else. -/
def BoardOf (h w : Nat) (M : List Pos) (b : Board) : Prop :=
  Rect b h w ∧ Numbered b.view ∧ ∀ i j, i < h → j < w → (b.get i j = -1 ↔ (i, j) ∈ M)

/-! ## AVF -/

/-- The eight bytes of an event. -/
def _root_.Ms.Vid.Buf8.list (b : Buf8) : Bytes := [b.b0, b.b1, b.b2, b.b3, b.b4, b.b5, b.b6, b.b7]

structure AvfFile where
  /-- five bytes that are not used -/
  head : Bytes
  level : Nat
  width : Nat
  height : Nat
  mineNum : Nat
  /-- row and column of each mine, counted from 1 -/
  mines : List (Nat × Nat)
  /-- up to the first of `[0|`, `[1|`, `[2|`, `[3|`, inclusive -/
  mark : Bytes
  startTime : Bytes
  endTime : Bytes
  /-- after the `|` that ends the end time, up to the first `|B`, inclusive -/
  toB : Bytes
  /-- the 3BV in digits -/
  bbbv : Bytes
  /-- the time in text -/
  rtime : Bytes
  /-- up to the first byte 1 after a byte at most 1 -/
  toStart : Bytes
  /-- the first event; its first three bytes are the last three of `toStart` -/
  first : Buf8
  events : List Buf8
  /-- the end mark: eight bytes, the third and seventh 0 -/
  last : Buf8
  toS : Bytes
  toK : Bytes
  toI : Bytes
  toN : Bytes
  toColon : Bytes
  skin : Bytes
  player : Bytes

/-- The size of the board, by level: beginner, intermediate, expert; otherwise (6) it is in the file. -/
def AvfFile.sizeBytes (f : AvfFile) : Bytes :=
  if f.level = 6 then [6, f.width - 1, f.height - 1, f.mineNum / 256, f.mineNum % 256] else [f.level]

def AvfFile.bytes (f : AvfFile) : Bytes :=
  List.flatten [f.head, f.sizeBytes, flat2 f.mines, f.mark, f.startTime, [124], f.endTime, [124], f.toB, f.bbbv, [84],
    f.rtime, [93], f.toStart, [f.first.b3, f.first.b4, f.first.b5, f.first.b6, f.first.b7],
    f.events.flatMap Buf8.list, f.last.list, f.toS, [83], f.toK, [107], f.toI, [105], f.toN, [110],
    f.toColon, [58], f.skin, [13], f.player, [13]]

/-- Codes of the events. -/
def avfCode : List (Nat × String) :=
  [(1, "mv"), (3, "lc"), (5, "lr"), (9, "rc"), (17, "rr"), (33, "mc"), (65, "mr"), (145, "rr"), (193, "mr"), (11, "sc"),
   (21, "lr")]

/-- The event that eight bytes stand for: seconds are counted from 1. -/
def AvfMeans (b : Buf8) (e : FileEv) : Prop :=
  (b.b0, e.mouse) ∈ avfCode ∧ e.ms = ((b.b6 * 256 + b.b2 : Nat) : Int) * 1000 - 1000 + (b.b4 : Int) * 10 ∧
  e.x = b.b1 * 256 + b.b3 ∧ e.y = b.b5 * 256 + b.b7

/-- The text `s`, with `.` for `,`, as `str::parse::<f64>` reads it. -/
def commaToDot (s : Bytes) : Bytes := s.map fun c => if c = 44 then 46 else c

structure AvfFile.Valid (f : AvfFile) : Prop where
  head : f.head.length = 5
  level : (f.level, f.width, f.height, f.mineNum) ∈ [(3, 8, 8, 10), (4, 16, 16, 40), (5, 30, 16, 99)] ∨
    f.level = 6 ∧ 1 ≤ f.width ∧ 1 ≤ f.height
  mines : f.mines.length = f.mineNum ∧ ∀ q ∈ f.mines, 1 ≤ q.1 ∧ q.1 ≤ f.height ∧ 1 ≤ q.2 ∧ q.2 ≤ f.width
  mark : Shortest (fun s => ∃ j d, s = j ++ [91, d, 124] ∧ 48 ≤ d ∧ d ≤ 51) f.mark
  startTime : 124 ∉ f.startTime
  endTime : 124 ∉ f.endTime
  toB : Shortest (fun s => ∃ j, 124 :: s = j ++ [124, 66]) f.toB
  bbbv : 84 ∉ f.bbbv
  rtime : 93 ∉ f.rtime
  toStart : Shortest (fun s => ∃ j b c, [0, 0] ++ s = j ++ [c, b, 1] ∧ b ≤ 1) f.toStart
  first : ∃ j, [0, 0] ++ f.toStart = j ++ [f.first.b0, f.first.b1, f.first.b2]
  events : ∀ b ∈ f.events, ¬ (b.b2 = 0 ∧ b.b6 = 0)
  last : f.last.b2 = 0 ∧ f.last.b6 = 0
  ends : 83 ∉ f.toS ∧ 107 ∉ f.toK ∧ 105 ∉ f.toI ∧ 110 ∉ f.toN ∧ 58 ∉ f.toColon ∧ 13 ∉ f.skin ∧ 13 ∉ f.player

/-- `v` is the video of the file. -/
structure AvfFile.Video (parseF64 : Bytes → Option (Option ℚ)) (f : AvfFile) (v : FileVideo) : Prop where
  size : v.level = f.level ∧ v.width = f.width ∧ v.height = f.height ∧ v.mineNum = f.mineNum
  board : BoardOf f.height f.width (f.mines.map fun q => (q.1 - 1, q.2 - 1)) v.board
  texts : v.startTime = f.startTime ∧ v.endTime = f.endTime ∧ v.player = f.player
  bbbv : parseUsize f.bbbv = some v.bbbv
  rtime : ∃ t, parseF64 (commaToDot f.rtime) = some t ∧ v.rtime = t.map (· - 1)
  events : List.Forall₂ AvfMeans (f.first :: f.events) v.events
  others : v.software = "Arbiter".toList.map Char.toNat ∧ v.mode = 0 ∧ v.nf = false ∧ v.country = []

/-- Files on which the reader reaches a mine whose row or column is 0 or off the board. -/
def AvfBadMine (l : Bytes) : Prop :=
  ∃ (f : AvfFile) (c d : Nat) (r : Bytes), f.head.length = 5 ∧
    ((f.level, f.width, f.height, f.mineNum) ∈ [(3, 8, 8, 10), (4, 16, 16, 40), (5, 30, 16, 99)] ∨
      f.level = 6 ∧ 1 ≤ f.width ∧ 1 ≤ f.height) ∧
    f.mines.length < f.mineNum ∧ (∀ q ∈ f.mines, 1 ≤ q.1 ∧ q.1 ≤ f.height ∧ 1 ≤ q.2 ∧ q.2 ≤ f.width) ∧
    ¬ (1 ≤ c ∧ c ≤ f.height ∧ 1 ≤ d ∧ d ≤ f.width) ∧ l = List.flatten [f.head, f.sizeBytes, flat2 f.mines, [c, d], r]

/-! ## RMV -/

/-- A record of the event section. -/
inductive RmvItem
  /-- a time stamp, not used -/
  | tick (b : Bytes)
  /-- a mouse event: code 1 to 7, milliseconds in three bytes, a byte not used, the point in pixels of the window -/
  | mouse (code t1 t2 t3 u x1 x2 y1 y2 : Nat)
  /-- something else, not used: code 9 to 14 or 18 to 27 and two bytes -/
  | other (code a b : Nat)

def RmvItem.bytes : RmvItem → Bytes
  | .tick b => 0 :: b
  | .mouse c t1 t2 t3 u x1 x2 y1 y2 => [c, t1, t2, t3, u, x1, x2, y1, y2]
  | .other c a b => [c, a, b]

def RmvItem.Valid : RmvItem → Prop
  | .tick b => b.length = 4
  | .mouse c .. => 1 ≤ c ∧ c ≤ 7
  | .other c _ _ => 9 ≤ c ∧ c ≤ 14 ∨ 18 ≤ c ∧ c ≤ 27

/-- The point on a board of `w` columns and `h` rows of 16 pixels, whose corner is at (12, 56) of the window; every point
off the board stands for its lower right corner.  (16-bit arithmetic: left of or above the board means far away.) -/
def rmvAt (w h x y : Nat) : Nat × Nat :=
  if 12 ≤ x ∧ x < 12 + w * 16 ∧ 56 ≤ y ∧ y < 56 + h * 16 then (x - 12, y - 56) else (w * 16, h * 16)

/-- The event of a mouse record. -/
def RmvItem.event (w h : Nat) : RmvItem → List FileEv
  | .mouse c t1 t2 t3 _ x1 x2 y1 y2 =>
    [⟨((t1 * 65536 + t2 * 256 + t3 : Nat) : Int), ["mv", "lc", "lr", "rc", "rr", "mc", "mr"].getD (c - 1) "",
      (rmvAt w h (x1 * 256 + x2) (y1 * 256 + y2)).1, (rmvAt w h (x1 * 256 + x2) (y1 * 256 + y2)).2⟩]
  | _ => []

/-- The events: the pressing of the left button is left out of the file before the first event, and restored. -/
def rmvPlayed (w h : Nat) (items : List RmvItem) : List FileEv :=
  match items.flatMap (RmvItem.event w h) with
  | [] => []
  | e :: es => { e with mouse := "lc" } :: e :: es

structure RmvFile where
  /-- bytes 6-9, 14-17 and 22-28, not used -/
  skip1 : Bytes
  skip2 : Bytes
  skip3 : Bytes
  /-- the result text, without its first three bytes -/
  result : Bytes
  /-- the version text and two bytes -/
  version : Bytes
  /-- the number of texts about the player, and the first four of them -/
  info : Nat
  texts : List Bytes
  skip4 : Bytes
  width : Nat
  height : Nat
  /-- column and row of each mine -/
  mines : List (Nat × Nat)
  /-- row and column of the flags set before the game, if there is such a section, and its announced size -/
  preSize : Nat
  pre : List (Nat × Nat)
  /-- the properties: not used, no-flag, mode, level, and the rest -/
  unused : Nat
  nf : Nat
  mode : Nat
  level : Nat
  props : Bytes
  items : List RmvItem
  stop : Nat

def two (n : Nat) : Bytes := [n / 256, n % 256]

def RmvFile.bytes (f : RmvFile) : Bytes :=
  List.flatten [[42, 114, 109, 118, 0, 1], f.skip1, two (f.result.length + 3), two (f.version.length - 2), f.skip2,
    two f.preSize, two (f.props.length + 4), f.skip3, f.result, f.version, two f.info,
    f.texts.flatMap (fun t => t.length :: t), f.skip4, [f.width, f.height], two f.mines.length, flat2 f.mines,
    (if 0 < f.preSize then two f.pre.length ++ flat2 f.pre else []), [f.unused, f.nf, f.mode, f.level], f.props,
    f.items.flatMap RmvItem.bytes, [f.stop]]

structure RmvFile.Valid (f : RmvFile) : Prop where
  skips : f.skip1.length = 4 ∧ f.skip2.length = 4 ∧ f.skip3.length = 7 ∧ f.skip4.length = 4
  version : 2 ≤ f.version.length
  texts : f.texts.length = min 4 f.info
  height : 0 < f.height
  mines : ∀ q ∈ f.mines, q.1 < f.width ∧ q.2 < f.height
  pre : f.preSize = 0 → f.pre = []
  level : f.level ≤ 252
  items : ∀ i ∈ f.items, i.Valid
  stop : 15 ≤ f.stop ∧ f.stop ≤ 17
  some : f.pre ≠ [] ∨ rmvPlayed f.width f.height f.items ≠ []

/-- The 3BV and the start time: in result texts of more than 35 bytes, the 3BV is the decimal number of the digits among
the three bytes 29 to 27 from the end, and the start time the last ten bytes; shorter texts have neither. -/
def RmvFile.Result (f : RmvFile) (bbbv : Nat) (startTime : Bytes) : Prop :=
  if 35 < f.result.length + 3 then
    parseUsize (((f.result.drop (f.result.length - 29)).take 3).filter fun c => 48 ≤ c ∧ c ≤ 57) = some bbbv ∧
    startTime = f.result.drop (f.result.length - 10)
  else bbbv = 0 ∧ startTime = []

structure RmvFile.Video (f : RmvFile) (v : FileVideo) : Prop where
  size : v.width = f.width ∧ v.height = f.height ∧ v.mineNum = f.mines.length ∧ v.level = f.level + 3
  board : BoardOf f.height f.width (f.mines.map fun q => (q.2, q.1)) v.board
  result : f.Result v.bbbv v.startTime
  texts : v.player = f.texts.getD 0 [] ∧ v.country = f.texts.getD 2 []
  events : v.events = f.pre.map (fun q => ⟨0, "pf", q.2 * 16, q.1 * 16⟩) ++ rmvPlayed f.width f.height f.items
  rtime : ∃ e, v.events.getLast? = some e ∧ v.rtime = some ((e.ms : ℚ) / 1000)
  others : v.software = "Viennasweeper".toList.map Char.toNat ∧ v.mode = f.mode ∧ (v.nf = true ↔ f.nf = 1) ∧ v.endTime = []

/-- What precedes the size of the board. -/
def RmvFile.headBytes (f : RmvFile) (propSize : Nat) : Bytes :=
  List.flatten [[42, 114, 109, 118, 0, 1], f.skip1, two (f.result.length + 3), two (f.version.length - 2), f.skip2,
    two f.preSize, two propSize, f.skip3, f.result, f.version, two f.info,
    f.texts.flatMap (fun t => t.length :: t), f.skip4]

structure RmvFile.HeadValid (f : RmvFile) : Prop where
  skips : f.skip1.length = 4 ∧ f.skip2.length = 4 ∧ f.skip3.length = 7 ∧ f.skip4.length = 4
  version : 2 ≤ f.version.length
  texts : f.texts.length = min 4 f.info
  result : ∃ bbbv startTime, f.Result bbbv startTime

/-- The result text is announced with fewer than three bytes. -/
def RmvShortResult (l : Bytes) : Prop :=
  ∃ (s1 s2 r : Bytes) (n v p q : Nat), s1.length = 4 ∧ s2.length = 4 ∧ n < 3 ∧
    l = List.flatten [[42, 114, 109, 118, 0, 1], s1, two n, two v, s2, two p, two q, r]

/-- The board has no rows (and no mines). -/
def RmvNoRows (l : Bytes) : Prop :=
  ∃ (f : RmvFile) (q : Nat) (r : Bytes), f.HeadValid ∧ l = f.headBytes q ++ [f.width, 0, 0, 0] ++ r

/-- The level is over 252, or the properties are announced with fewer than four bytes. -/
def RmvBadProps (l : Bytes) : Prop :=
  ∃ (f : RmvFile) (q : Nat) (r : Bytes), f.HeadValid ∧ 0 < f.height ∧ (∀ m ∈ f.mines, m.1 < f.width ∧ m.2 < f.height) ∧
    (f.preSize = 0 → f.pre = []) ∧ (252 < f.level ∨ q < 4) ∧
    l = List.flatten [f.headBytes q, [f.width, f.height], two f.mines.length, flat2 f.mines,
      (if 0 < f.preSize then two f.pre.length ++ flat2 f.pre else []), [f.unused, f.nf, f.mode, f.level], r]

/-- There are no flags and no events. -/
def RmvNoEvents (l : Bytes) : Prop :=
  ∃ (f : RmvFile) (r : Bytes), f.HeadValid ∧ 0 < f.height ∧ (∀ m ∈ f.mines, m.1 < f.width ∧ m.2 < f.height) ∧
    f.level ≤ 252 ∧ (∀ i ∈ f.items, i.Valid) ∧ (15 ≤ f.stop ∧ f.stop ≤ 17) ∧ f.pre = [] ∧
    rmvPlayed f.width f.height f.items = [] ∧ l = f.bytes ++ r

/-! ## MVF -/

/-- The places of the forty bits of an event, in the order of their digits in the code of the file. -/
def MvfOrder (s : Fin 40 → Fin 10) (π : Equiv.Perm (Fin 40)) : Prop :=
  ∀ i j, i < j → s (π i) < s (π j) ∨ s (π i) = s (π j) ∧ π i < π j

/-- Bit `n` of an event: bit `p % 8` of byte `p / 8`, where `p` is the place of `n`. -/
def mvfBitAt (π : Equiv.Perm (Fin 40)) (e : Bytes) (n : Fin 40) : Bool :=
  (e.getD ((π n).val / 8) 0).testBit ((π n).val % 8)

/-- What five bytes stand for: bits 0, 1, 2 the right, middle and left button, 3-11 and 12-20 the point, 21-27 hundredths,
28-37 seconds. -/
def MvfMeans (π : Equiv.Perm (Fin 40)) (e : Bytes) (r : MvfRaw) : Prop :=
  r.rb = mvfBitAt π e 0 ∧ r.mb = mvfBitAt π e 1 ∧ r.lb = mvfBitAt π e 2 ∧
  (r.y < 2 ^ 9 ∧ ∀ j : Fin 9, r.y.testBit j = mvfBitAt π e ⟨3 + j.val, by omega⟩) ∧
  (r.x < 2 ^ 9 ∧ ∀ j : Fin 9, r.x.testBit j = mvfBitAt π e ⟨12 + j.val, by omega⟩) ∧
  (r.ths < 2 ^ 7 ∧ ∀ j : Fin 7, r.ths.testBit j = mvfBitAt π e ⟨21 + j.val, by omega⟩) ∧
  (r.sec < 2 ^ 10 ∧ ∀ j : Fin 10, r.sec.testBit j = mvfBitAt π e ⟨28 + j.val, by omega⟩)

/-- The events between two records: the mouse was moved, buttons pressed, buttons released. -/
def mvfChanges (p r : MvfRaw) : List FileEv :=
  ([("mv", decide ((r.x, r.y) ≠ (p.x, p.y))), ("lc", r.lb && !p.lb), ("rc", r.rb && !p.rb), ("mc", r.mb && !p.mb),
    ("lr", !r.lb && p.lb), ("rr", !r.rb && p.rb), ("mr", !r.mb && p.mb)].filter (·.2)).map fun c =>
    ⟨((r.ths * 10 + r.sec * 1000 : Nat) : Int), c.1, r.x, r.y⟩

/-- The events of a list of records, `p` being the one before. -/
def mvfPlayed (p : MvfRaw) : List MvfRaw → List FileEv
  | [] => []
  | r :: rs => mvfChanges p r ++ mvfPlayed r rs

structure MvfFile where
  skip1 : Bytes
  skip2 : Bytes
  date : Bytes
  level : Nat
  mode : Nat
  sec : Nat
  hund : Nat
  bbbv : Nat
  skip3 : Bytes
  width : Nat
  height : Nat
  /-- column and row of each mine, counted from 1 -/
  mines : List (Nat × Nat)
  player : Bytes
  /-- the number that determines the order of the bits -/
  leading : Nat
  /-- five bytes each -/
  first : Bytes
  others : List Bytes

def MvfFile.bytes (f : MvfFile) : Bytes :=
  List.flatten [[17, 77], f.skip1, [53], f.skip2, f.date, [f.level, f.mode], two f.sec, [f.hund], two f.bbbv, f.skip3,
    [f.width, f.height], two f.mines.length, flat2 f.mines, [f.player.length], f.player, two f.leading,
    [(f.others.length + 1) / 65536, (f.others.length + 1) / 256 % 256, (f.others.length + 1) % 256], f.first,
    f.others.flatten]

structure MvfFile.Valid (f : MvfFile) : Prop where
  skips : f.skip1.length = 25 ∧ f.skip2.length = 46 ∧ f.date.length = 7 ∧ f.skip3.length = 9
  level : f.level ≤ 253
  height : 0 < f.height
  mines : ∀ q ∈ f.mines, 1 ≤ q.1 ∧ q.1 ≤ f.width ∧ 1 ≤ q.2 ∧ q.2 ≤ f.height
  first : f.first.length = 5
  others : ∀ e ∈ f.others, e.length = 5

/-- What precedes the level. -/
def MvfFile.startBytes (f : MvfFile) : Bytes := List.flatten [[17, 77], f.skip1, [53], f.skip2, f.date]

/-- What lies between the level and the size of the board. -/
def MvfFile.midBytes (f : MvfFile) : Bytes :=
  List.flatten [[f.mode], two f.sec, [f.hund], two f.bbbv, f.skip3]

/-- The skipped parts have their sizes. -/
def MvfFile.Skips (f : MvfFile) : Prop :=
  f.skip1.length = 25 ∧ f.skip2.length = 46 ∧ f.date.length = 7 ∧ f.skip3.length = 9

/-- The level is over 253. -/
def MvfBadLevel (l : Bytes) : Prop :=
  ∃ (f : MvfFile) (r : Bytes), f.Skips ∧ 253 < f.level ∧ l = f.startBytes ++ f.level :: r

/-- A mine whose row or column is 0 or off the board. -/
def MvfBadMine (l : Bytes) : Prop :=
  ∃ (f : MvfFile) (n c d : Nat) (r : Bytes), f.Skips ∧ f.level ≤ 253 ∧ f.mines.length < n ∧
    (∀ q ∈ f.mines, 1 ≤ q.1 ∧ q.1 ≤ f.width ∧ 1 ≤ q.2 ∧ q.2 ≤ f.height) ∧
    ¬ (1 ≤ c ∧ c ≤ f.width ∧ 1 ≤ d ∧ d ≤ f.height) ∧
    l = List.flatten [f.startBytes, [f.level], f.midBytes, [f.width, f.height], two n, flat2 f.mines, [c, d], r]

/-- The board has no rows (and no mines). -/
def MvfNoRows (l : Bytes) : Prop :=
  ∃ (f : MvfFile) (r : Bytes), f.Skips ∧ f.level ≤ 253 ∧
    l = List.flatten [f.startBytes, [f.level], f.midBytes, [f.width, 0, 0, 0], r]

/-- The number of events is 0 (and five more bytes follow). -/
def MvfNoEvents (l : Bytes) : Prop :=
  ∃ (f : MvfFile) (r : Bytes), f.Skips ∧ f.level ≤ 253 ∧ 0 < f.height ∧ f.first.length = 5 ∧
    (∀ q ∈ f.mines, 1 ≤ q.1 ∧ q.1 ≤ f.width ∧ 1 ≤ q.2 ∧ q.2 ≤ f.height) ∧
    l = List.flatten [f.startBytes, [f.level], f.midBytes, [f.width, f.height], two f.mines.length, flat2 f.mines,
      [f.player.length], f.player, two f.leading, [0, 0, 0], f.first, r]

structure MvfFile.Video (magic : Nat → Fin 40 → Fin 10) (f : MvfFile) (v : FileVideo) : Prop where
  size : v.width = f.width ∧ v.height = f.height ∧ v.mineNum = f.mines.length ∧ v.level = f.level + 2
  board : BoardOf f.height f.width (f.mines.map fun q => (q.2 - 1, q.1 - 1)) v.board
  texts : v.player = f.player ∧ v.bbbv = f.bbbv ∧ v.rtime = some ((f.sec : ℚ) + (f.hund : ℚ) / 100)
  mode : (f.mode = 1 → v.mode = 0) ∧ (f.mode = 2 → v.mode = 3) ∧ (f.mode = 3 → v.mode = 1) ∧
    (f.mode = 0 ∨ 4 ≤ f.mode → v.mode = 2)
  /-- The first event is a press of a button, if one is down (of several the first of middle, right, left), otherwise a
  movement.  The point of the first record is not used in comparing it with the second: (0, 0) is. -/
  events : ∃ π, MvfOrder (magic f.leading) π ∧ ∃ r rs, MvfMeans π f.first r ∧ List.Forall₂ (MvfMeans π) f.others rs ∧
    v.events = ⟨((r.ths * 10 + r.sec * 1000 : Nat) : Int),
        if r.mb then "mc" else if r.rb then "rc" else if r.lb then "lc" else "mv", r.x, r.y⟩ ::
      mvfPlayed { r with x := 0, y := 0 } rs
  others : v.software = "0.97 beta".toList.map Char.toNat ∧ v.nf = false ∧ v.country = [] ∧ v.startTime = [] ∧ v.endTime = []

end Ms.Spec
