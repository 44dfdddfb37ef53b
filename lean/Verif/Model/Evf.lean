import Verif.Model.Laymine

/-!
# The EVF codec

`generate_evf_v0_raw_data` (base_video.rs 1759-1880), `EvfVideo::parse_video` (evf_video.rs 43-207),
`set_checksum` (base_video.rs 1358-1379).  A byte is a natural number; the parser accepts any list of
numbers (so in particular every list of bytes).  Times are the integral milliseconds that `s_to_ms`
(miscellaneous.rs 6-8) yields: the `f64` second value `ms as f64 / 1000.0` is represented by `ms`
itself (`s_to_ms` rounds it back).
-/

namespace Ms.Evf

/-- `Vec<u8>` / `raw_data`. -/
abbrev Bytes := List Nat

/-- How a parse can fail: `ErrReadVideoReason::FileIsTooShort`, a Rust panic, or (model only) the
event loop running out of fuel (shown never to happen). -/
inductive Fail
  | tooShort | panic | fuel
deriving DecidableEq, Repr

/-- A reader: `raw_data[offset..]` in, value and remaining bytes out. -/
def P (α : Type) := Bytes → Except Fail (α × Bytes)

/-- `?`-sequencing of readers. -/
def P.bind {α β : Type} (p : P α) (f : α → P β) : P β := fun l =>
  match p l with
  | .ok (a, r) => f a r
  | .error e => .error e

instance : Monad P where
  pure a := fun l => .ok (a, l)
  bind := P.bind

/-- `panic!` -/
def P.fail {α : Type} (e : Fail) : P α := fun _ => .error e

/-- `BaseVideo::get_u8`, base_video.rs 683-690 (`get_char`, 712-715, is the same byte). -/
def getU8 : P Nat
  | [] => .error .tooShort
  | b :: r => .ok (b, r)

/-- `get_u16`, base_video.rs 692-696 (big endian). -/
def getU16 : P Nat := do
  let a ← getU8
  let b ← getU8
  pure (a * 256 + b)

/-- `get_u24`, base_video.rs 697-702. -/
def getU24 : P Nat := do
  let a ← getU8
  let b ← getU8
  let c ← getU8
  pure (a * 65536 + b * 256 + c)

/-- The loop reading a zero-terminated string, evf_video.rs 79-85 (and seven more copies, 86-141). -/
def getStr : P Bytes
  | [] => .error .tooShort
  | b :: r => if b = 0 then .ok ([], r) else
    match getStr r with
    | .ok (s, r') => .ok (b :: s, r')
    | .error e => .error e

/-- The eight zero-terminated strings of the format (fields of `BaseVideo`, base_video.rs 300-360). -/
structure Strs where
  software : Bytes
  player : Bytes
  race : Bytes
  unique : Bytes
  startTime : Bytes
  endTime : Bytes
  country : Bytes
  deviceUuid : Bytes
deriving DecidableEq, Repr

/-- The fixed-width fields of the header (fields of `BaseVideo`). -/
structure Hdr where
  completed : Bool
  offical : Bool
  fair : Bool
  height : Nat
  width : Nat
  mineNum : Nat
  cellPixel : Nat
  mode : Nat
  bbbv : Nat
  rtimeMs : Nat
deriving DecidableEq, Repr

/-- The stored part of a `VideoActionStateRecorder`. -/
structure Event where
  ms : Nat
  mouse : String
  x : Nat
  y : Nat
deriving DecidableEq, Repr

/-- What `parse_video` leaves in the video object. -/
structure Parsed where
  hdr : Hdr
  level : Nat
  strs : Strs
  board : Board
  events : List Event
  checksum : Bytes
deriving DecidableEq, Repr

/-- evf_video.rs 44-65: the fixed-width header.  `b & 0b1000_0000 != 0` is bit 7. -/
def getHdr : P Hdr := do
  let _ ← getU8
  let b ← getU8
  let height ← getU8
  let width ← getU8
  let mineNum ← getU16
  let cellPixel ← getU8
  let mode ← getU16
  let bbbv ← getU16
  let t ← getU24
  pure ⟨b.testBit 7, b.testBit 6, b.testBit 5, height, width, mineNum, cellPixel, mode, bbbv, t⟩

/-- evf_video.rs 51-59: the level classification. -/
def levelOf (height width mineNum : Nat) : Nat :=
  if height = 8 ∧ width = 8 ∧ mineNum = 10 then 3
  else if height = 16 ∧ width = 16 ∧ mineNum = 40 then 4
  else if height = 16 ∧ width = 30 ∧ mineNum = 99 then 5
  else 6

/-- evf_video.rs 78-141: the eight strings in file order. -/
def getStrs : P Strs := do
  let a ← getStr
  let b ← getStr
  let c ← getStr
  let d ← getStr
  let e ← getStr
  let f ← getStr
  let g ← getStr
  let h ← getStr
  pure ⟨a, b, c, d, e, f, g, h⟩

/-- Loop body of evf_video.rs 149-158.  The state is (board, `byte`, `ptr`); the Rust `ptr` is decremented
first and a new byte fetched when it became negative, so `ptr = 0` here means "fetch". -/
def readCell (st : Board × Nat × Nat) (p : Pos) : P (Board × Nat × Nat) := do
  let (byte, ptr) ← (if st.2.2 = 0 then do let b ← getU8; pure (b, 7) else pure (st.2.1, st.2.2 - 1))
  pure (if byte.testBit ptr then st.1.set p.1 p.2 (-1) else st.1, byte, ptr)

/-- `for i in 0..height { for j in 0..width { .. } }` with a reader as body. -/
def foldP {α β : Type} (f : β → α → P β) : β → List α → P β
  | b, [] => pure b
  | b, a :: l => do
    let b' ← f b a
    foldP f b' l

/-- evf_video.rs 143-160: the mine bitmap and `cal_board_numbers` (which panics without rows). -/
def getBoard (height width : Nat) : P Board := do
  let st ← foldP readCell (Board.build height width fun _ _ => 0, 0, 0) (cells height width)
  match calBoardNumbers st.1 with
  | some b => pure b
  | none => P.fail .panic

/-- The `match byte` of evf_video.rs 175-194 for event codes. -/
def mouseOf (c : Nat) : String :=
  if c = 1 then "mv" else if c = 2 then "lc" else if c = 3 then "lr" else if c = 4 then "rc"
  else if c = 5 then "rr" else if c = 6 then "mc" else if c = 7 then "mr" else if c = 8 then "pf"
  else if c = 9 then "cc" else "ub"

/-- evf_video.rs 172-207: the event loop; the flag is `have_checksum`. -/
def getEvents : Nat → P (List Event × Bool)
  | 0 => P.fail .fuel
  | fuel + 1 => do
    let c ← getU8
    if c = 0 then pure ([], true)
    else if c = 255 then pure ([], false)
    else do
      let t ← getU24
      let x ← getU16
      let y ← getU16
      let (es, cs) ← getEvents fuel
      pure (⟨t, mouseOf c, x, y⟩ :: es, cs)

/-- evf_video.rs 208-214: 32 checksum bytes. -/
def getBytes : Nat → P Bytes
  | 0 => pure []
  | n + 1 => do
    let b ← getU8
    let bs ← getBytes n
    pure (b :: bs)

/-- Everything after the board. -/
def getTail (hdr : Hdr) (strs : Strs) (board : Board) : P Parsed := fun l => (do
    let (es, cs) ← getEvents (l.length + 1)
    let sum ← if cs then getBytes 32 else pure (List.replicate 32 0)
    pure ⟨hdr, levelOf hdr.height hdr.width hdr.mineNum, strs, board, es, sum⟩ : P Parsed) l

/-- `EvfVideo::parse_video`, evf_video.rs 43-217, on a freshly constructed video (so the strings and the
event list start empty and the one permitted `set_rtime` succeeds). -/
def parseVideo : P Parsed := do
  let hdr ← getHdr
  let strs ← getStrs
  let board ← getBoard hdr.height hdr.width
  getTail hdr strs board

/-! ## the generator -/

/-- The fields of a `BaseVideo` that `generate_evf_v0_raw_data` writes. `board i j` is
`self.board[i][j]`. -/
structure Rec where
  hdr : Hdr
  strs : Strs
  board : Nat → Nat → Int
  events : List Event
  hasChecksum : Bool
  checksum : Bytes

/-- `x.try_into::<u8>().unwrap()`: panics (`none`) outside the range. -/
def u8? (n : Nat) : Option Nat := if n < 256 then some n else none

/-- base_video.rs 1765-1773: the flag byte. -/
def flagByte (h : Hdr) : Nat :=
  (if h.completed then 128 else 0) ||| (if h.offical then 64 else 0) ||| (if h.fair then 32 else 0)

/-- base_video.rs 1764-1802: the fixed-width header (`height as u8` truncates, `try_into` panics). -/
def genHdr (h : Hdr) : Option Bytes := do
  let m1 ← u8? (h.mineNum / 256)
  let m2 ← u8? (h.mineNum % 256)
  let o1 ← u8? (h.mode / 256)
  let o2 ← u8? (h.mode % 256)
  let b1 ← u8? (h.bbbv / 256)
  let b2 ← u8? (h.bbbv % 256)
  let t1 ← u8? (h.rtimeMs / 65536)
  let t2 ← u8? (h.rtimeMs / 256 % 256)
  let t3 ← u8? (h.rtimeMs % 256)
  pure [0, flagByte h, h.height % 256, h.width % 256, m1, m2, h.cellPixel, o1, o2, b1, b2, t1, t2, t3]

/-- base_video.rs 1803-1827: strings, each followed by a zero byte. -/
def genStrs (s : Strs) : Bytes :=
  s.software ++ [0] ++ s.player ++ [0] ++ s.race ++ [0] ++ s.unique ++ [0] ++ s.startTime ++ [0] ++
    s.endTime ++ [0] ++ s.country ++ [0] ++ s.deviceUuid ++ [0]

/-- Loop body of base_video.rs 1831-1844; state (`raw_data` suffix, `byte`, `ptr`), `byte` is a `u8`. -/
def packCell (st : Bytes × Nat × Nat) (mine : Bool) : Bytes × Nat × Nat :=
  let byte := st.2.1 * 2 % 256
  let byte := if mine then byte ||| 1 else byte
  let ptr := st.2.2 + 1
  if ptr = 8 then (st.1 ++ [byte], 0, 0) else (st.1, byte, ptr)

/-- base_video.rs 1829-1848: the mine bitmap. -/
def genBoard (height width : Nat) (board : Nat → Nat → Int) : Bytes :=
  let st := ((cells height width).map fun p => decide (board p.1 p.2 = -1)).foldl packCell ([], 0, 0)
  if st.2.2 > 0 then st.1 ++ [st.2.1 * 2 ^ (8 - st.2.2) % 256] else st.1

/-- The `match event.mouse` of base_video.rs 1852-1864. -/
def codeOf (m : String) : Nat :=
  if m = "mv" then 1 else if m = "lc" then 2 else if m = "lr" then 3 else if m = "rc" then 4
  else if m = "rr" then 5 else if m = "mc" then 6 else if m = "mr" then 7 else if m = "pf" then 8
  else if m = "cc" then 9 else 99

/-- Loop body of base_video.rs 1850-1873. -/
def genEvent (e : Event) : Option Bytes := do
  let t1 ← u8? (e.ms / 65536)
  let t2 ← u8? (e.ms / 256 % 256)
  let t3 ← u8? (e.ms % 256)
  let x1 ← u8? (e.x / 256)
  let x2 ← u8? (e.x % 256)
  let y1 ← u8? (e.y / 256)
  let y2 ← u8? (e.y % 256)
  pure [codeOf e.mouse, t1, t2, t3, x1, x2, y1, y2]

/-- base_video.rs 1850-1873: all events. -/
def genEvents : List Event → Option Bytes
  | [] => some []
  | e :: es => do
    let b ← genEvent e
    let bs ← genEvents es
    pure (b ++ bs)

/-- base_video.rs 1874-1880. -/
def genEnd (has : Bool) (sum : Bytes) : Bytes := if has then 0 :: sum else [255]

/-- `generate_evf_v0_raw_data`, base_video.rs 1759-1881: the new `raw_data`; `none` is a panic of a
`try_into().unwrap()`. -/
def generate (v : Rec) : Option Bytes := do
  let h ← genHdr v.hdr
  let es ← genEvents v.events
  pure (h ++ genStrs v.strs ++ genBoard v.hdr.height v.hdr.width v.board ++ es ++
    genEnd v.hasChecksum v.checksum)

/-! ## set_checksum and the raw-data state -/

/-- The part of a `BaseVideo` that `generate_evf_v0_raw_data`, `set_checksum` and `get_raw_data` touch:
the record, `raw_data`, and whether the game is over (`game_board_state` is `Win` or `Loss`). -/
structure Vid where
  content : Rec
  rawData : Bytes
  over : Bool

/-- Result of a method: `Ok`, `Err(())`, or a panic. -/
inductive Res
  | ok | err | panic
deriving DecidableEq, Repr

/-- `generate_evf_v0_raw_data` as a state change (`raw_data` is overwritten). -/
def Vid.generate (v : Vid) : Option Vid :=
  (Evf.generate v.content).map fun bs => { v with rawData := bs }

/-- `set_checksum`, base_video.rs 1358-1379.  `none` is a panic: `last_mut().unwrap()` on empty data, or
`len() - 32` underflowing. -/
def Vid.setChecksum (v : Vid) (sum : Bytes) : Option (Res × Vid) :=
  if ¬ v.over then some (.err, v)
  else if ¬ v.content.hasChecksum then
    if v.rawData = [] then none
    else some (.ok, { v with
      rawData := v.rawData.dropLast ++ [0] ++ sum
      content := { v.content with checksum := sum, hasChecksum := true } })
  else if v.rawData.length < 32 then none
  else some (.ok, { v with rawData := v.rawData.take (v.rawData.length - 32) ++ sum })

end Ms.Evf
