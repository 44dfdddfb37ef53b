import Verif.Model.Laymine
import Mathlib.Data.Rat.Defs

/-!
# The readers of AVF, RMV and MVF files

`AvfVideo::parse_video` (avf_video.rs 71-262), `RmvVideo::parse_video` (rmv_video.rs 42-252), `MvfVideo::parse_video`
(mvf_video.rs 304-327), each on a freshly constructed video.  A byte is a natural number; the readers take any list.

A reader turns `raw_data[offset..]` into a value and the rest.  `offset += k` beyond the end is not noticed by the code
until the next read, which always follows before anything else can happen, and fails with `FileIsTooShort`; `skip` fails
at once with the same error.
-/

namespace Ms.Vid

/-- `Vec<u8>` / `raw_data`. -/
abbrev Bytes := List Nat

/-- `ErrReadVideoReason` (base_video.rs 28-39, the reasons that occur), or a Rust panic. -/
inductive Fail
  | tooShort | empty | notRmv | invalidLevel | invalidParams | invalidEvent | invalidMine | panic
deriving DecidableEq, Repr

/-- A reader. -/
def Rd (α : Type) := Bytes → Except Fail (α × Bytes)

/-- `?`-sequencing of readers. -/
def Rd.bind {α β : Type} (p : Rd α) (f : α → Rd β) : Rd β := fun l =>
  match p l with
  | .ok (a, r) => f a r
  | .error e => .error e

instance : Monad Rd where
  pure a := fun l => .ok (a, l)
  bind := Rd.bind

/-- `return Err(e)`, or a panic -/
def Rd.fail {α : Type} (e : Fail) : Rd α := fun _ => .error e

/-- `get_u8`, base_video.rs 683-690; `get_char`, 712-715, is the same byte. -/
def u8 : Rd Nat
  | [] => .error .tooShort
  | b :: r => .ok (b, r)

/-- `get_u16`, base_video.rs 692-696. -/
def u16 : Rd Nat := do
  let a ← u8
  let b ← u8
  pure (a * 256 + b)

/-- `get_u24`, base_video.rs 697-702. -/
def u24 : Rd Nat := do
  let a ← u8
  let b ← u8
  let c ← u8
  pure (a * 65536 + b * 256 + c)

/-- `self.data.offset += k` (see above). -/
def skip (k : Nat) : Rd Unit := fun l => if l.length < k then .error .tooShort else .ok ((), l.drop k)

/-- `for _ in 0..n { v.push(get_u8()?) }` -/
def take : Nat → Rd Bytes
  | 0 => pure []
  | n + 1 => do
    let b ← u8
    let bs ← take n
    pure (b :: bs)

/-- `loop { let v = get_char()?; match v { c => break, _ => s.push(v) } }` -/
def upTo (c : Nat) : Rd Bytes
  | [] => .error .tooShort
  | b :: r =>
    if b = c then .ok ([], r)
    else
      match upTo c r with
      | .ok (s, r') => .ok (b :: s, r')
      | .error e => .error e

/-- The stored part of a `VideoActionStateRecorder`; the time in milliseconds. -/
structure FileEv where
  ms : Int
  mouse : String
  x : Nat
  y : Nat
deriving DecidableEq, Repr

/-- What the three parsers leave in the video object. `rtime`: `none` is NaN or infinite. -/
structure FileVideo where
  software : Bytes := []
  width : Nat := 0
  height : Nat := 0
  mineNum : Nat := 0
  level : Nat := 0
  mode : Nat := 0
  nf : Bool := false
  bbbv : Nat := 0
  rtime : Option ℚ := some 0
  board : Board := []
  startTime : Bytes := []
  endTime : Bytes := []
  player : Bytes := []
  country : Bytes := []
  events : List FileEv := []
deriving DecidableEq

/-! ## AVF -/

/-- `str::parse::<usize>`: an optional `+`, then at least one decimal digit; `Err` on overflow. -/
def parseUsize (s : Bytes) : Option Nat :=
  let d := if s.head? = some 43 then s.tail else s
  if d = [] ∨ ∃ c ∈ d, c < 48 ∨ 57 < c then none
  else
    let n := d.foldl (fun a c => a * 10 + (c - 48)) 0
    if n < 2 ^ 64 then some n else none

/-- avf_video.rs 105-110; `board[c - 1][d - 1]` panics out of range. -/
def avfMines (h w : Nat) : Nat → Board → Rd Board
  | 0, b => pure b
  | n + 1, b => do
    let c ← u8
    let d ← u8
    if c = 0 ∨ h < c ∨ d = 0 ∨ w < d then Rd.fail .panic
    else avfMines h w n (b.set (c - 1) (d - 1) (-1))

/-- avf_video.rs 112-124: the numbers. -/
def avfNumbers (h w : Nat) (b : Board) : Board :=
  (cells h w).foldl (fun b' p => if b'.get p.1 p.2 = -1 then addAround h w b' p.1 p.2 else b') b

/-- avf_video.rs 125-136: up to and including the first `[d|` with `d` one of 0 1 2 3; the arguments are `buffer[1]`,
`buffer[2]`. -/
def avfMark : Nat → Nat → Rd Unit
  | _, _, [] => .error .tooShort
  | b1, b2, b :: r => if b1 = 91 ∧ 48 ≤ b2 ∧ b2 ≤ 51 ∧ b = 124 then .ok ((), r) else avfMark b2 b r

/-- avf_video.rs 164-170: up to and including `|B`. -/
def avfB : Nat → Nat → Rd Unit
  | b0, b1, l =>
    if b0 = 124 ∧ b1 = 66 then .ok ((), l)
    else
      match l with
      | [] => .error .tooShort
      | b :: r => avfB b1 b r

/-- avf_video.rs 156-170: up to and including `|B`, where a `|` stands before. -/
def avfToB : Rd Unit := do
  let v ← u8
  if v = 124 then avfB 0 124 else if v = 66 then avfB 124 66 else avfB 0 0

/-- avf_video.rs 196-201: up to the first byte 1 that follows a byte at most 1; returns the two bytes before. -/
def avfStart : Nat → Nat → Nat → Rd (Nat × Nat)
  | b0, b1, b2, l =>
    if b2 = 1 ∧ b1 ≤ 1 then .ok ((b0, b1), l)
    else
      match l with
      | [] => .error .tooShort
      | b :: r => avfStart b1 b2 b r

/-- The names of avf_video.rs 212-225. -/
def avfName (c : Nat) : Option String :=
  if c = 1 then some "mv" else if c = 3 then some "lc" else if c = 5 then some "lr" else if c = 9 then some "rc"
  else if c = 17 then some "rr" else if c = 33 then some "mc" else if c = 65 then some "mr" else if c = 145 then some "rr"
  else if c = 193 then some "mr" else if c = 11 then some "sc" else if c = 21 then some "lr" else none

/-- `buffer: [u8; 8]` -/
structure Buf8 where
  b0 : Nat
  b1 : Nat
  b2 : Nat
  b3 : Nat
  b4 : Nat
  b5 : Nat
  b6 : Nat
  b7 : Nat
deriving DecidableEq

/-- avf_video.rs 209-231: the event in the buffer. -/
def avfEvent (b : Buf8) : Option FileEv :=
  (avfName b.b0).map fun m =>
    ⟨((b.b6 * 256 + b.b2 : Nat) : Int) * 1000 - 1000 + b.b4 * 10, m, b.b1 * 256 + b.b3, b.b5 * 256 + b.b7⟩

/-- avf_video.rs 205-239: the event loop. -/
def avfEvents (b : Buf8) (l : Bytes) : Except Fail (List FileEv × Bytes) :=
  match avfEvent b with
  | none => .error .invalidEvent
  | some e =>
    match l with
    | c0 :: c1 :: c2 :: c3 :: c4 :: c5 :: c6 :: c7 :: r =>
      if c2 = 0 ∧ c6 = 0 then .ok ([e], r)
      else
        match avfEvents ⟨c0, c1, c2, c3, c4, c5, c6, c7⟩ r with
        | .ok (es, r') => .ok (e :: es, r')
        | .error e => .error e
    | _ => .error .tooShort

/-- avf_video.rs 80-104: level, width, height and number of mines. -/
def avfSize : Rd (Nat × Nat × Nat × Nat) := do
  let level ← u8
  if level = 3 then pure (level, 8, 8, 10)
  else if level = 4 then pure (level, 16, 16, 40)
  else if level = 5 then pure (level, 30, 16, 99)
  else if level = 6 then do
    let w ← u8
    let h ← u8
    let m ← u16
    pure (level, w + 1, h + 1, m)
  else Rd.fail .invalidLevel

/-- `AvfVideo::parse_video`, avf_video.rs 71-262.  `parseF64` is `str::parse::<f64>` on what is left between `T` and `]`
after `,` became `.`: `none` is `Err`, `some none` NaN or an infinity. -/
def parseAvf (parseF64 : Bytes → Option (Option ℚ)) : Rd FileVideo := fun l =>
  if l = [] then .error .empty
  else (do
    let _ ← u8
    skip 4
    let (level, width, height, mineNum) ← avfSize
    let board ← avfMines height width mineNum (Board.build height width fun _ _ => 0)
    let board := avfNumbers height width board
    avfMark 0 0
    let startTime ← upTo 124
    let endTime ← upTo 124
    avfToB
    let s ← upTo 84
    match parseUsize s with
    | none => Rd.fail .invalidParams
    | some bbbv => do
      let s ← upTo 93
      match parseF64 (s.map fun c => if c = 44 then 46 else c) with
      | none => Rd.fail .invalidParams
      | some t => do
        let (b0, b1) ← avfStart 0 0 0
        let b3 ← u8
        let b4 ← u8
        let b5 ← u8
        let b6 ← u8
        let b7 ← u8
        let events ← avfEvents ⟨b0, b1, 1, b3, b4, b5, b6, b7⟩
        let _ ← upTo 83
        let _ ← upTo 107
        let _ ← upTo 105
        let _ ← upTo 110
        let _ ← upTo 58
        let _ ← upTo 13
        let player ← upTo 13
        pure { software := "Arbiter".toList.map Char.toNat, width, height, mineNum, level, bbbv, rtime := t.map (· - 1), board,
               startTime, endTime, player, events } : Rd FileVideo) l

/-! ## RMV -/

/-- One of the tests of rmv_video.rs 46-66: the next byte must be `c`. -/
def expect (c : Nat) : Rd Unit := fun l =>
  match l with
  | b :: r => if b = c then .ok ((), r) else .error .notRmv
  | [] => .error .notRmv

/-- rmv_video.rs 46-66: `*rmv` and the number 1. -/
def rmvMagic : Rd Unit := fun l =>
  if l = [] then .error .empty
  else (do
    expect 42
    expect 114
    expect 109
    expect 118
    expect 0
    expect 1 : Rd Unit) l

/-- `parse::<usize>` of the at most three digits among three characters, rmv_video.rs 80-91. -/
def rmvBbbv (s : Bytes) : Option Nat := parseUsize (s.filter fun c => 48 ≤ c ∧ c ≤ 57)

/-- rmv_video.rs 76-107: 3BV and start time. -/
def rmvResult (size : Nat) : Rd (Nat × Bytes) :=
  if 35 < size then do
    skip (size - 32)
    let s ← take 3
    match rmvBbbv s with
    | none => Rd.fail .invalidParams
    | some bbbv => do
      skip 16
      let t ← take 10
      pure (bbbv, t)
  else do
    let _ ← take (size - 3)
    pure (0, [])

/-- One of the four strings of rmv_video.rs 113-140, present if `b`. -/
def rmvStr (b : Bool) : Rd Bytes :=
  if b then do
    let n ← u8
    take n
  else pure []

/-- rmv_video.rs 153-160. -/
def rmvMines (h w : Nat) : Nat → Board → Rd Board
  | 0, b => pure b
  | n + 1, b => do
    let c ← u8
    let d ← u8
    if w ≤ c ∨ h ≤ d then Rd.fail .invalidMine
    else rmvMines h w n (b.set d c (-1))

/-- rmv_video.rs 163-176: the flags set before the game. -/
def rmvFlags : Nat → Rd (List FileEv)
  | 0 => pure []
  | n + 1 => do
    let c ← u8
    let d ← u8
    let es ← rmvFlags n
    pure (⟨0, "pf", d * 16, c * 16⟩ :: es)

/-- rmv_video.rs 162-176. -/
def rmvPre (preSize : Nat) : Rd (List FileEv) :=
  if 0 < preSize then do
    let n ← u16
    rmvFlags n
  else pure []

/-- The names of rmv_video.rs 221-230. -/
def rmvName (c : Nat) : String :=
  if c = 1 then "mv" else if c = 2 then "lc" else if c = 3 then "lr" else if c = 4 then "rc" else if c = 5 then "rr"
  else if c = 6 then "mc" else "mr"

/-- rmv_video.rs 198-204: a point on the board, from the stored coordinates (`wrapping_sub`), any point off the board being
moved to its corner. -/
def rmvPoint (w h x0 y0 : Nat) : Nat × Nat :=
  let x := (x0 + 65536 - 12) % 65536
  let y := (y0 + 65536 - 56) % 65536
  if w * 16 ≤ x ∨ h * 16 ≤ y then (w * 16, h * 16) else (x, y)

/-- rmv_video.rs 190-245: the event loop; the flag is `first_op_flag`. -/
def rmvEvents (w h : Nat) : Bool → Bytes → Except Fail (List FileEv × Bytes)
  | _, [] => .error .tooShort
  | first, c :: r =>
    if c = 0 then
      match r with
      | _ :: _ :: _ :: _ :: r => rmvEvents w h first r
      | _ => .error .tooShort
    else if c ≤ 7 then
      match r with
      | t1 :: t2 :: t3 :: _ :: x1 :: x2 :: y1 :: y2 :: r =>
        let t : Int := ((t1 * 65536 + t2 * 256 + t3 : Nat) : Int)
        let p := rmvPoint w h (x1 * 256 + x2) (y1 * 256 + y2)
        match rmvEvents w h false r with
        | .ok (es, r') =>
          .ok ((if first then [⟨t, "lc", p.1, p.2⟩] else []) ++ ⟨t, rmvName c, p.1, p.2⟩ :: es, r')
        | .error e => .error e
      | _ => .error .tooShort
    else if c = 8 then .error .invalidParams
    else if c ≤ 14 ∨ 18 ≤ c ∧ c ≤ 27 then
      match r with
      | _ :: _ :: r => rmvEvents w h first r
      | _ => .error .tooShort
    else if c ≤ 17 then .ok ([], r)
    else .error .invalidParams

/-- rmv_video.rs 146-252: the board, the flags, the properties and the events, after the texts. -/
def rmvTail (preSize propSize bbbv : Nat) (startTime player country : Bytes) : Rd FileVideo := do
  let width ← u8
  let height ← u8
  let mineNum ← u16
  let board ← rmvMines height width mineNum (Board.build height width fun _ _ => 0)
  match calBoardNumbers board with
  | none => Rd.fail .panic
  | some board => do
    let pre ← rmvPre preSize
    skip 1
    let nf ← u8
    let mode ← u8
    let level ← u8
    if 255 < level + 3 ∨ propSize < 4 then Rd.fail .panic
    else do
      skip (propSize - 4)
      let events ← rmvEvents width height true
      match (pre ++ events).getLast? with
      | none => Rd.fail .panic
      | some last =>
        pure { software := "Viennasweeper".toList.map Char.toNat, width, height, mineNum, level := level + 3, mode,
               nf := nf = 1, bbbv, rtime := some ((last.ms : ℚ) / 1000), board, startTime, player, country,
               events := pre ++ events }

/-- `RmvVideo::parse_video`, rmv_video.rs 42-252.  The test whether `result_string_size - 3` underflows (line 104) is made
before `offset += 7` (line 74), which cannot fail in the code. -/
def parseRmv : Rd FileVideo := do
  rmvMagic
  skip 4
  let resultSize ← u16
  let versionSize ← u16
  skip 4
  let preSize ← u16
  let propSize ← u16
  if resultSize < 3 then Rd.fail .panic
  else do
    skip 7
    let (bbbv, startTime) ← rmvResult resultSize
    skip (versionSize + 2)
    let info ← u16
    let player ← rmvStr (0 < info)
    let _ ← rmvStr (1 < info)
    let country ← rmvStr (2 < info)
    let _ ← rmvStr (3 < info)
    skip 4
    rmvTail preSize propSize bbbv startTime player country

/-! ## MVF -/

/-- `read_board(-1)`, mvf_video.rs 50-55; the index 0 becomes `usize::MAX`. -/
def mvfMines (h w : Nat) : Nat → Board → Rd Board
  | 0, b => pure b
  | n + 1, b => do
    let c ← u8
    let d ← u8
    if c = 0 ∨ w < c ∨ d = 0 ∨ h < d then Rd.fail .panic
    else mvfMines h w n (b.set (d - 1) (c - 1) (-1))

/-- `read_board(-1)`, mvf_video.rs 42-58. -/
def mvfBoard : Rd (Nat × Nat × Nat × Board) := do
  let width ← u8
  let height ← u8
  let mineNum ← u16
  let board ← mvfMines height width mineNum (Board.build height width fun _ _ => 0)
  match calBoardNumbers board with
  | none => Rd.fail .panic
  | some board => pure (width, height, mineNum, board)

/-- mvf_video.rs 194-203: where the bits of an event are: the positions 0..39, ordered by the digits of the code. -/
def mvfPerm (s : Fin 40 → Fin 10) : List (Fin 40) :=
  (List.finRange 10).flatMap fun i => (List.finRange 40).filter fun j => s j = i

/-- `apply_perm`, mvf_video.rs 96-103, on the five bytes of an event. -/
def mvfBit (s : Fin 40 → Fin 10) (e : Bytes) (num : Nat) : Bool :=
  match (mvfPerm s)[num]? with
  | none => false
  | some j => (e.getD (j.val / 8) 0).testBit (j.val % 8)

/-- `for j in 0..n { x |= apply_perm(k + j) << j }` -/
def mvfNum (s : Fin 40 → Fin 10) (e : Bytes) (k : Nat) : Nat → Nat
  | 0 => 0
  | n + 1 => mvfNum s e k n ||| ((mvfBit s e (k + n)).toNat <<< n)

/-- The decoded event: buttons, point and time (`ths * 10` ms and `sec` s), mvf_video.rs 213-235, 259-279. -/
structure MvfRaw where
  rb : Bool
  mb : Bool
  lb : Bool
  y : Nat
  x : Nat
  ths : Nat
  sec : Nat
deriving DecidableEq, Repr

def mvfRaw (s : Fin 40 → Fin 10) (e : Bytes) : MvfRaw :=
  ⟨mvfBit s e 0, mvfBit s e 1, mvfBit s e 2, mvfNum s e 3 9, mvfNum s e 12 9, mvfNum s e 21 7, mvfNum s e 28 10⟩

def MvfRaw.ms (r : MvfRaw) : Int := ((r.ths * 10 + r.sec * 1000 : Nat) : Int)

/-- `parse_event`, mvf_video.rs 59-95. -/
def mvfNames (r p : MvfRaw) : List String :=
  (if r.x ≠ p.x ∨ r.y ≠ p.y then ["mv"] else []) ++
  (if r.lb ∧ ¬ p.lb then ["lc"] else []) ++ (if r.rb ∧ ¬ p.rb then ["rc"] else []) ++
  (if r.mb ∧ ¬ p.mb then ["mc"] else []) ++ (if ¬ r.lb ∧ p.lb then ["lr"] else []) ++
  (if ¬ r.rb ∧ p.rb then ["rr"] else []) ++ (if ¬ r.mb ∧ p.mb then ["mr"] else [])

/-- mvf_video.rs 237-254: the first event. -/
def mvfFirst (r : MvfRaw) : FileEv :=
  ⟨r.ms, if r.mb then "mc" else if r.rb then "rc" else if r.lb then "lc" else "mv", r.x, r.y⟩

/-- mvf_video.rs 255-299: the loop over the other events; `p` is the previous one. -/
def mvfEvents (s : Fin 40 → Fin 10) : Nat → MvfRaw → Rd (List FileEv)
  | 0, _ => pure []
  | n + 1, p => do
    let e ← take 5
    let r := mvfRaw s e
    let es ← mvfEvents s n r
    pure ((mvfNames r p).map (fun m => ⟨r.ms, m, r.x, r.y⟩) ++ es)

/-- The mode, mvf_video.rs 120-129. -/
def mvfMode (m : Nat) : Nat := if m = 1 then 0 else if m = 2 then 3 else if m = 3 then 1 else 2

/-- `read_097`, mvf_video.rs 104-303.  `magic` gives the forty digits that the code computes from the leading number with
`sqrt`, `sin` and `cos` (mvf_video.rs 153-192: the first eight digits of five numbers printed with at least eight digits). -/
def mvf097 (magic : Nat → Fin 40 → Fin 10) : Rd FileVideo := do
  skip 7
  let level ← u8
  if 255 < level + 2 then Rd.fail .panic
  else do
    let mode ← u8
    let sec ← u16
    let ths ← u8
    let bbbv ← u16
    skip 9
    let (width, height, mineNum, board) ← mvfBoard
    let n ← u8
    let player ← take n
    let leading ← u16
    let s := magic leading
    let size ← u24
    let e ← take 5
    let r := mvfRaw s e
    if size = 0 then Rd.fail .panic
    else do
      let es ← mvfEvents s (size - 1) { r with x := 0, y := 0 }
      pure { software := "0.97 beta".toList.map Char.toNat, width, height, mineNum, level := level + 2, mode := mvfMode mode,
             bbbv, rtime := some ((sec : ℚ) + (ths : ℚ) / 100), board, player, events := mvfFirst r :: es }

/-- `MvfVideo::parse_video`, mvf_video.rs 304-327. -/
def parseMvf (magic : Nat → Fin 40 → Fin 10) : Rd FileVideo := do
  let c ← u8
  let d ← u8
  if c = 17 ∧ d = 77 then do
    skip 25
    let c ← u8
    if c = 53 then do
      skip 46
      mvf097 magic
    else pure {}
  else pure {}

end Ms.Vid
