import Verif.Model.Evf
import Verif.Spec

/-!
# The published standard of EVF files (/repo/evf标准.md)

The four versions it describes, 0.0 (lines 209-269), 0.1 (163-205), 0.2 (117-159) and 0.3 (63-113), are written down here
from that text, not from the code.  What a file says is a `StdVideo`; `Std ver f bs` means: `bs` is a file of version 0.`ver`
that says `f`.
-/

namespace Ms.Spec
open Ms.Evf (Bytes)

/-- big endian, two bytes -/
def big2 (n : Nat) : Bytes := [n / 256, n % 256]

/-- big endian, three bytes -/
def big3 (n : Nat) : Bytes := [n / 65536, n / 256 % 256, n % 256]

/-- "1: mv; 2: lc; 3: lr; 4: rc; 5: rr; 6: mc; 7: mr; 8: pf; 9: cc" -/
def stdNames : List String := ["mv", "lc", "lr", "rc", "rr", "mc", "mr", "pf", "cc"]

/-- A mouse event: kind of operation, milliseconds, distances from the left and the upper border in pixels. -/
structure StdEvent where
  code : Nat
  ms : Nat
  x : Nat
  y : Nat

/-- one byte, three, two, two -/
def StdEvent.bytes (e : StdEvent) : Bytes := [e.code] ++ big3 e.ms ++ big2 e.x ++ big2 e.y

/-- What an EVF file says.  `nf` is not in version 0.0; `noMarks`, `confined` and `restart` are in version 0.3 only; `uuid`
is not in versions 0.0 and 0.1. -/
structure StdVideo where
  completed : Bool
  official : Bool
  fair : Bool
  nf : Bool
  noMarks : Bool
  confined : Bool
  restart : Bool
  height : Nat
  width : Nat
  mineNum : Nat
  pixel : Nat
  mode : Nat
  bbbv : Nat
  rtime : Nat
  software : Bytes
  player : Bytes
  race : Bytes
  unique : Bytes
  startTime : Bytes
  endTime : Bytes
  country : Bytes
  uuid : Bytes
  mine : Nat → Nat → Bool
  events : List StdEvent
  checksum : Option Bytes

/-- The number of bits, highest first. -/
def bits : List Bool → Nat → Nat
  | [], _ => 0
  | b :: bs, w => (if b then w else 0) + bits bs (w / 2)

/-- Item 2, the summary: completed, official, fair and, from version 0.1 on, no flags used; the other bits are 0. -/
def StdVideo.summary (f : StdVideo) (ver : Nat) : Nat :=
  bits ([f.completed, f.official, f.fair] ++ if 1 ≤ ver then [f.nf] else []) 128

/-- Item 3 of version 0.3, the settings. -/
def StdVideo.settings (f : StdVideo) : Nat := bits [f.noMarks, f.confined, f.restart] 128

/-- "⌈rows × columns / 8⌉ bytes; bit number i × columns + j tells whether the cell in row i, column j is a mine", the bits
of a byte counted from the highest. -/
def Bitmap (h w : Nat) (mine : Nat → Nat → Bool) (bm : Bytes) : Prop :=
  bm.length = (h * w + 7) / 8 ∧ (∀ b ∈ bm, b < 256) ∧ ∀ i j, i < h → j < w →
    (bm.getD ((i * w + j) / 8) 0).testBit (7 - (i * w + j) % 8) = mine i j

/-- The seven texts of every version. -/
def StdVideo.texts (f : StdVideo) : List Bytes :=
  [f.software, f.player, f.race, f.unique, f.startTime, f.endTime, f.country]

/-- Rows, columns, mines, size of a cell, mode, 3BV, time. -/
def StdVideo.numbers (f : StdVideo) : Bytes :=
  [f.height, f.width] ++ big2 f.mineNum ++ [f.pixel] ++ big2 f.mode ++ big2 f.bbbv ++ big3 f.rtime

/-- texts that end with a zero byte -/
def zeroEnded (ts : List Bytes) : Bytes := ts.flatMap fun t => t ++ [0]

/-- "0: a checksum follows; 255: no checksum" -/
def StdVideo.ending (f : StdVideo) : Bytes :=
  match f.checksum with
  | some c => 0 :: c
  | none => [255]

/-- The file after the version, the summary and the settings, given the texts and the bitmap. -/
def StdVideo.body (f : StdVideo) (ts : List Bytes) (bm : Bytes) : Bytes :=
  f.numbers ++ zeroEnded ts ++ bm ++ f.events.flatMap StdEvent.bytes ++ f.ending

/-- The numbers fit their bytes, no text has a zero byte inside, kinds of operations are below `top`. -/
structure StdVideo.Fits (top : Nat) (f : StdVideo) : Prop where
  sizes : f.height < 256 ∧ f.width < 256 ∧ f.pixel < 256
  words : f.mineNum < 65536 ∧ f.mode < 65536 ∧ f.bbbv < 65536 ∧ f.rtime < 16777216
  texts : ∀ t ∈ f.uuid :: f.texts, ∀ b ∈ t, 0 < b ∧ b < 256
  events : ∀ e ∈ f.events, 1 ≤ e.code ∧ e.code < top ∧ e.ms < 16777216 ∧ e.x < 65536 ∧ e.y < 65536
  checksum : ∀ c, f.checksum = some c → c.length = 32 ∧ ∀ b ∈ c, b < 256

/-- `bs` is a file of version 0.`ver` that says `f`.  (Bits of the bitmap beyond the last cell are not determined.) -/
def Std (ver : Nat) (f : StdVideo) (bs : Bytes) : Prop :=
  f.Fits 10 ∧ ∃ bm, Bitmap f.height f.width f.mine bm ∧
    bs = [ver, f.summary ver] ++ (if ver = 3 then [f.settings] else []) ++
      f.body (f.texts ++ if 2 ≤ ver then [f.uuid] else []) bm

/-- A parsed video says what `f` says, in what every version has. -/
structure Told (f : StdVideo) (out : Evf.Parsed) : Prop where
  flags : (out.hdr.completed, out.hdr.offical, out.hdr.fair) = (f.completed, f.official, f.fair)
  sizes : (out.hdr.height, out.hdr.width, out.hdr.mineNum, out.hdr.cellPixel) = (f.height, f.width, f.mineNum, f.pixel)
  words : (out.hdr.mode, out.hdr.bbbv, out.hdr.rtimeMs) = (f.mode, f.bbbv, f.rtime)
  texts : [out.strs.software, out.strs.player, out.strs.race, out.strs.unique, out.strs.startTime, out.strs.endTime,
    out.strs.country] = f.texts
  board : Rect out.board f.height f.width ∧ Numbered out.board.view ∧
    ∀ i j, i < f.height → j < f.width → (out.board.get i j = -1 ↔ f.mine i j = true)
  events : out.events = f.events.map fun e => ⟨e.ms, stdNames.getD (e.code - 1) "ub", e.x, e.y⟩
  checksum : out.checksum = f.checksum.getD (List.replicate 32 0)

/-- The example of the standard: the board of 3 rows and 4 columns is the bytes 00110111 11110000. -/
example : Bitmap 3 4 (fun i j => decide (4 ≤ 2 * i + j ∨ i = 0 ∧ 2 ≤ j ∨ i = 1 ∧ 1 ≤ j)) [0b00110111, 0b11110000] := by
  refine ⟨rfl, by decide, fun i j hi hj => ?_⟩
  have : ∀ i < 3, ∀ j < 4, ([0b00110111, 0b11110000].getD ((i * 4 + j) / 8) 0).testBit (7 - (i * 4 + j) % 8) =
      decide (4 ≤ 2 * i + j ∨ i = 0 ∧ 2 ≤ j ∨ i = 1 ∧ 1 ≤ j) := by decide
  exact this i hi j hj

/-- What a video holds, as the standard puts it.  (A video does not hold the settings of version 0.3.) -/
def stdOf (v : Evf.Rec) (nf : Bool) : StdVideo where
  completed := v.hdr.completed
  official := v.hdr.offical
  fair := v.hdr.fair
  nf := nf
  noMarks := false
  confined := false
  restart := false
  height := v.hdr.height
  width := v.hdr.width
  mineNum := v.hdr.mineNum
  pixel := v.hdr.cellPixel
  mode := v.hdr.mode
  bbbv := v.hdr.bbbv
  rtime := v.hdr.rtimeMs
  software := v.strs.software
  player := v.strs.player
  race := v.strs.race
  unique := v.strs.unique
  startTime := v.strs.startTime
  endTime := v.strs.endTime
  country := v.strs.country
  uuid := v.strs.deviceUuid
  mine := fun i j => decide (v.board i j = -1)
  events := v.events.map fun e => ⟨stdNames.idxOf e.mouse + 1, e.ms, e.x, e.y⟩
  checksum := if v.hasChecksum then some v.checksum else none

/-- The texts, the checksum and the size of a cell consist of bytes. -/
structure ByteRec (v : Evf.Rec) : Prop where
  pixel : v.hdr.cellPixel < 256
  texts : ∀ t ∈ [v.strs.software, v.strs.player, v.strs.race, v.strs.unique, v.strs.startTime, v.strs.endTime,
    v.strs.country, v.strs.deviceUuid], ∀ b ∈ t, b < 256
  checksum : ∀ b ∈ v.checksum, b < 256

end Ms.Spec
