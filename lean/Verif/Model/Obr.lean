import Verif.Model.Misc
import Verif.Model.Time
import Mathlib.Data.Fin.VecNotation

/-!
# `ImageBoard` (OBR.rs) and `OBR_board` (algorithms.rs 1199-1234): finding the cells of a picture of a board

`none` is a panic: an index out of range, an unsigned subtraction below zero, an allocation beyond the address space.  An `f32`
is a rational number; every operation rounds (`fl32`); infinities, `NaN` and the range of exponents are left out, except where a
division by zero is met (`cellCount`).  The recognition of a single cell (a neural network) is a parameter.
-/

namespace Ms

/-- the exponent of the last place of the `f32` near `x` -/
def lastPlace32 (x : ℚ) : ℤ := Int.log 2 |x| - 23

/-- IEEE 754 rounding to a `f32` (to nearest, ties to even; 24 bits; exponents unbounded). -/
def fl32 (x : ℚ) : ℚ := roundEven (x / 2 ^ lastPlace32 x) * 2 ^ lastPlace32 x

/-- A `Vec<Vec<_>>` of `rows` rows of `cols` entries. -/
structure Pic (α : Type) where
  rows : Nat
  cols : Nat
  px : Nat → Nat → α

namespace Pic

/-- `x[i][j]`: panics out of range (OBR.rs, everywhere) -/
def read {α : Type} (x : Pic α) (i j : Nat) : Option α := if i < x.rows ∧ j < x.cols then some (x.px i j) else none

/-- A loop over all `i < rows`, `j < cols` that sets entry `(i, j)`. -/
def build {α : Type} [Inhabited α] (rows cols : Nat) (f : Nat → Nat → Option α) : Option (Pic α) :=
  if (List.range rows).all (fun i => (List.range cols).all fun j => (f i j).isSome) then
    some ⟨rows, cols, fun i j => (f i j).getD default⟩
  else none

end Pic

/-- `sort_by(|a, b| a.partial_cmp(b).unwrap())` -/
def sortQ (l : List ℚ) : List ℚ := l.mergeSort fun a b => decide (a ≤ b)

/-- `vec.sort()` -/
def sortN (l : List Nat) : List Nat := l.mergeSort fun a b => decide (a ≤ b)

/-- `as usize` of a nonnegative float -/
def toIdx (x : ℚ) : Nat := ⌊x⌋.toNat

/-- A colour picture: three channels. -/
abbrev Image := Pic (Fin 3 → ℚ)

/-- `ImageBoard::new`, OBR.rs 26-39: the pixels; four numbers per pixel, the first three taken in reverse order. -/
def imageNew (data : List Nat) (height width : Nat) : Option Image :=
  Pic.build height width fun i j => do
    let a ← data[(i * width + j) * 4 + 2]?
    let b ← data[(i * width + j) * 4 + 1]?
    let c ← data[(i * width + j) * 4 + 0]?
    return ![fl32 (fl32 a / 255), fl32 (fl32 b / 255), fl32 (fl32 c / 255)]

/-- `-a - b - c + d + e + f` -/
def six (a b c d e f : ℚ) : ℚ := fl32 (fl32 (fl32 (fl32 (fl32 (-a - b) - c) + d) + e) + f)

/-- `if x > g.abs() { x } else { g.abs() }` -/
def keepMax (x g : ℚ) : ℚ := if x > |g| then x else |g|

/-- `get_gradient`, OBR.rs 77-108. -/
def gradient (x : Image) : Option (Pic ℚ) :=
  if x.rows < 2 ∨ x.cols < 2 then none
  else Pic.build (x.rows - 2) (x.cols - 2) fun i j => do
    let a ← x.read i j
    let b ← x.read i (j + 1)
    let c ← x.read i (j + 2)
    let d ← x.read (i + 1) j
    let e ← x.read (i + 1) (j + 2)
    let f ← x.read (i + 2) j
    let g ← x.read (i + 2) (j + 1)
    let h ← x.read (i + 2) (j + 2)
    return ([0, 1, 2] : List (Fin 3)).foldl (fun m k =>
      keepMax (keepMax m (six (a k) (b k) (c k) (f k) (g k) (h k))) (six (a k) (d k) (f k) (c k) (e k) (h k))) 0

/-- The threshold of `binarize_gradient`, OBR.rs 312-327. -/
def threshold (x : Pic ℚ) : Option ℚ := do
  let ss ← ((rng (x.rows / 4) (x.rows * 3 / 4)).flatMap fun i =>
    (rng (x.cols / 4) (x.cols * 3 / 4)).map fun j => (i, j)).mapM fun p => x.read p.1 p.2
  let th ← (sortQ ss)[toIdx (fl32 (fl32 ss.length * fl32 (55 / 100)))]?
  return if th > 1 then 1 else if th < fl32 (1 / 100) then fl32 (1 / 100) else th

/-- `binarize_gradient`, OBR.rs 311-336. -/
def binarize (x : Pic ℚ) : Option (Pic Bool) :=
  if x.rows = 0 then none
  else (threshold x).map fun th => ⟨x.rows, x.cols, fun i j => decide (th ≤ x.px i j)⟩

/-- The loops of OBR.rs 139-150, 186-197, 234-245, 281-292: the place of the fifth hit (`k` so far) among `ns`. -/
def fifth (hit : Nat → Option Bool) : Nat → List Nat → Option (Option Nat)
  | _, [] => some none
  | k, n :: l => do
    if ← hit n then (if k + 1 ≥ 5 then return some n else fifth hit (k + 1) l)
    else fifth hit k l

/-- `for skip in 1..4`, OBR.rs 133-154, 228-249: where to go on, if anywhere. -/
def skipDown (hit : Nat → Nat → Option Bool) (ns : List Nat) (c : Nat) : List Nat → Option (Option (Nat × Nat))
  | [] => some none
  | k :: ks =>
    if c ≤ k then some none
    else do
      match ← fifth (fun n => hit n (c - k)) 0 ns with
      | some n => return some (c - k, n)
      | none => skipDown hit ns c ks

/-- The loops of OBR.rs 123-165 and 218-260: from the middle towards 0. -/
def scanDown (hit : Nat → Nat → Option Bool) (ns : List Nat) : Nat → Nat → Nat → Option Nat
  | 0, _, _ => none
  | fuel + 1, c, pos =>
    if c = 0 then some 0
    else do
      if ← hit pos (c - 1) then scanDown hit ns fuel (c - 1) pos
      else
        match ← skipDown hit ns c [1, 2, 3] with
        | some (c', n) => scanDown hit ns fuel c' n
        | none => return c

/-- `for skip in 1..4`, OBR.rs 180-201, 275-296. -/
def skipUp (hit : Nat → Nat → Option Bool) (ns : List Nat) (last c : Nat) : List Nat → Option (Option (Nat × Nat))
  | [] => some none
  | k :: ks =>
    if c + k = last then some none
    else do
      match ← fifth (fun n => hit n (c + k)) 0 ns with
      | some n => return some (c + k, n)
      | none => skipUp hit ns last c ks

/-- The loops of OBR.rs 170-212 and 265-307: from the middle towards the last index. -/
def scanUp (hit : Nat → Nat → Option Bool) (ns : List Nat) (last : Nat) : Nat → Nat → Nat → Option Nat
  | 0, _, _ => none
  | fuel + 1, c, pos =>
    if c = last then some last
    else do
      if ← hit pos (c + 1) then scanUp hit ns last fuel (c + 1) pos
      else
        match ← skipUp hit ns last c [1, 2, 3] with
        | some (c', n) => scanUp hit ns last fuel c' n
        | none => return c

/-- What `get_r12c12` returns, OBR.rs 308. -/
structure Cut where
  r1 : Nat
  r2 : Nat
  c1 : Nat
  c2 : Nat
  rp1 : Nat
  rp2 : Nat
  cp1 : Nat
  cp2 : Nat
deriving DecidableEq

/-- `get_r12c12`, OBR.rs 109-309. -/
def cutOut (x : Pic Bool) : Option Cut :=
  if x.rows = 0 ∨ x.cols = 0 then none
  else do
    let rp1 := x.rows / 3
    let rp2 := x.rows * 2 / 3
    let cp1 := x.cols / 3
    let cp2 := x.cols * 2 / 3
    let c1 ← scanDown (fun n c => x.read n c) (rng rp1 rp2) (x.cols + 1) (x.cols / 2) rp1
    let c2 ← scanUp (fun n c => x.read n c) (rng rp1 rp2) (x.cols - 1) (x.cols + 1) (x.cols / 2) rp1
    let r1 ← scanDown (fun n r => x.read r n) (rng cp1 cp2) (x.rows + 1) (x.rows / 2) cp1
    let r2 ← scanUp (fun n r => x.read r n) (rng cp1 cp2) (x.rows - 1) (x.rows + 1) (x.rows / 2) cp1
    return ⟨r1, r2, c1, c2, rp1, rp2, cp1, cp2⟩

/-- `narrow`, OBR.rs 338-367: the middle one of each `K` x `K` square. -/
def narrow (K : Nat) (x : Image) : Option Image :=
  Pic.build (x.rows / K) (x.cols / K) fun i j => do
    let l ← ((rng (i * K) ((i + 1) * K)).flatMap fun a => (rng (j * K) ((j + 1) * K)).map fun b => (a, b)).mapM
      fun p => x.read p.1 p.2
    let a ← (sortQ (l.map fun v => v 0))[K * K / 2]?
    let b ← (sortQ (l.map fun v => v 1))[K * K / 2]?
    let c ← (sortQ (l.map fun v => v 2))[K * K / 2]?
    return ![a, b, c]

/-- `r_2 - r_1 <= row / 3 || c_2 - c_1 <= column / 3`, OBR.rs 564 -/
def tooSmall (k : Cut) (row col : Nat) : Option Bool :=
  if k.r2 < k.r1 then none
  else if k.r2 - k.r1 ≤ row / 3 then some true
  else if k.c2 < k.c1 then none
  else some (decide (k.c2 - k.c1 ≤ col / 3))

/-- The edges of a picture: gradient, black and white, and the first cut; OBR.rs 559-563, 566-568. -/
def edges (x : Image) : Option (Pic Bool × Cut) := do
  let g ← gradient x
  let b ← binarize g
  let k ← cutOut b
  return (b, k)

/-- The `while` loop of `get_pos_pixel`, OBR.rs 564-582: the picture left, and the cut unless the function returns. -/
def shrink : Nat → Image → Cut → Nat → Nat → Option (Image × Option (Cut × Nat × Nat))
  | 0, _, _, _, _ => none
  | fuel + 1, x, k, row, col => do
    if ← tooSmall k row col then
      let x ← narrow 3 x
      let e ← edges x
      if x.rows - 2 ≤ 64 ∨ x.cols - 2 ≤ 64 then return (x, none)
      shrink fuel x e.2 (x.rows - 2) (x.cols - 2)
    else return (x, some (k, row, col))

/-- The inner loops of OBR.rs 592-600 and the like: are there at most two hits (counted from `ss` on)? -/
def fewHits (hit : Nat → Option Nat) : Nat → List Nat → Option Bool
  | ss, [] => some (decide (ss ≤ 2))
  | ss, n :: l => do
    let k ← hit n
    if ss + k > 2 then return false
    fewHits hit (ss + k) l

/-- The outer loops of OBR.rs 591-605, 607-621, 623-637, 639-653: the first place with few hits, or the last one. -/
def pushTo (few : Nat → Option Bool) : Nat → List Nat → Option Nat
  | cur, [] => some cur
  | _, c :: l => do if ← few c then return c else pushTo few c l

/-- `x[i][j] as i32 + x[k][l] as i32`, OBR.rs 594-595 and the like -/
def twoHits (x : Pic Bool) (i j k l : Nat) : Option Nat := do
  let a ← x.read i j
  let b ← x.read k l
  return a.toNat + b.toNat

/-- `r - 1` of OBR.rs 595, 627 -/
def dec (r : Nat) : Option Nat := if r = 0 then none else some (r - 1)

/-- The four loops of OBR.rs 591-653 (the first one looks at `x_bw3[r - 1][c]`, not at `x_bw3[r][c - 1]`).  `x` is the picture
before any narrowing (`x_bw3` of line 560: the one of line 567 is local to the loop). -/
def widen (x : Pic Bool) (k : Cut) (row col : Nat) : Option Cut := do
  if row = 0 ∨ col = 0 then none
  let c1 ← pushTo (fun c => fewHits (fun r => do twoHits x r c (← dec r) c) 0 (rng k.rp1 k.rp2)) k.c1 (rng 1 (k.c1 + 1)).reverse
  let c2 ← pushTo (fun c => fewHits (fun r => twoHits x r c r (c + 1)) 0 (rng k.rp1 k.rp2)) k.c2 (rng k.c2 (col - 1))
  let r1 ← pushTo (fun r => fewHits (fun c => do twoHits x r c (← dec r) c) 0 (rng k.cp1 k.cp2)) k.r1 (rng 1 (k.r1 + 1)).reverse
  let r2 ← pushTo (fun r => fewHits (fun c => twoHits x r c (r + 1) c) 0 (rng k.cp1 k.cp2)) k.r2 (rng k.r2 (row - 1))
  return { k with r1 := r1, r2 := r2, c1 := c1, c2 := c2 }

/-- `1 - data[i][j] as usize`, OBR.rs 383 and the like -/
def miss (b : Bool) : Nat := if b then 0 else 1

/-- One turn of the loop of `get_c_sum` / `get_r_sum`, OBR.rs 381-399, 416-434; `w j`: does the line hit at place `j` of the
strip of five? -/
def stripStep (w : Fin 5 → Bool) (d : Fin 5 → Nat) : Fin 5 → Nat :=
  ![min (d 0 + miss (w 0)) (d 1 + miss (w 1) + 1),
    min (min (d 1 + miss (w 1)) (d 0 + miss (w 0) + 1)) (d 2 + miss (w 2) + 1),
    min (min (d 2 + miss (w 2)) (d 1 + miss (w 1) + 1)) (d 3 + miss (w 3) + 1),
    min (min (d 3 + miss (w 3)) (d 2 + miss (w 2) + 1)) (d 4 + miss (w 4) + 1),
    min (d 4 + miss (w 4)) (d 3 + miss (w 3) + 1)]

/-- `get_c_sum` (with `hit i j = data[i][j]`) and `get_r_sum` (with `hit i j = data[j][i]`), OBR.rs 369-437, on the strip of
the five places from `a` on, along the lines `lo + 1 ..= hi`. -/
def strip (hit : Nat → Nat → Option Bool) (a : Nat) (d : Fin 5 → Nat) (lo hi : Nat) : Option (Fin 5 → Nat) :=
  (rng (lo + 1) (hi + 1)).foldlM (fun d i => do
    let w0 ← hit i a
    let w1 ← hit i (a + 1)
    let w2 ← hit i (a + 2)
    let w3 ← hit i (a + 3)
    let w4 ← hit i (a + 4)
    return stripStep ![w0, w1, w2, w3, w4] d) d

/-- `hi - lo - get_c_sum(..)[k]`, started at place `k`, OBR.rs 655-671. -/
def score (hit : Nat → Nat → Option Bool) (lo hi a : Nat) (k : Fin 5) (d : Fin 5 → Nat) : Option Nat := do
  if hi < lo then none
  let e ← strip hit a d lo hi
  if hi - lo < e k then none
  return hi - lo - e k

/-- `c_sum` / `r_sum`, OBR.rs 655-662 and 664-671: the scores of the places from `a` to `b`. -/
def scores (hit : Nat → Nat → Option Bool) (lo hi a b : Nat) : Option (List Nat) := do
  let s0 ← score hit lo hi a 0 ![0, 1, 2, 3, 4]
  let s1 ← score hit lo hi a 1 ![1, 0, 1, 2, 3]
  if b < 4 then none
  let m ← (rng a (b - 4)).mapM fun c => score hit lo hi c 2 ![2, 1, 0, 1, 2]
  let s3 ← score hit lo hi (b - 4) 3 ![3, 2, 1, 0, 1]
  let s4 ← score hit lo hi (b - 4) 4 ![4, 3, 2, 1, 0]
  return [s0, s1] ++ m ++ [s3, s4]

/-- `xx` of `get_line`, OBR.rs 446-463 (`x.len() < 4` panics: `findLines`). -/
def smooth (x : List Nat) : Nat → Nat := fun i =>
  let g := fun k => x.getD k 0
  if i < 4 ∨ x.length - 4 ≤ i then g i
  else max (g i) (min (max (max (g (i - 4)) (g (i - 3))) (max (g (i - 2)) (g (i - 1))))
    (max (max (g (i + 1)) (g (i + 2))) (max (g (i + 3)) (g (i + 4)))))

/-- Is `i` taken as a line?  OBR.rs 466-492: high enough, nothing higher within seven places, and as many equal ones before as
after, or one less.  (When something higher is met the counting stops, but then the place is not taken anyway.) -/
def isLine (xx : Nat → Nat) (len : Nat) (th : ℚ) (i : Nat) : Bool :=
  let before := rng (max 7 i - 7) i
  let after := rng (i + 1) (min len (i + 8))
  let left := (before.filter fun j => decide (xx i ≤ xx j)).length
  let right := (after.filter fun j => decide (xx i ≤ xx j)).length
  decide (th ≤ fl32 (xx i)) && (before ++ after).all (fun j => decide (xx j ≤ xx i)) && (left == right || left + 1 == right)

/-- `th`, OBR.rs 441-444 -/
def lineLevel (x : List Nat) : Option ℚ := do
  let s := sortN x
  let a ← s[toIdx (fl32 (fl32 (85 / 100) * fl32 x.length))]?
  let b ← s.getLast?
  return fl32 (fl32 (fl32 a + fl32 (fl32 b * fl32 (3 / 4))) / 2)

/-- The lines found, OBR.rs 439-493. -/
def findLines (x : List Nat) : Option (List Nat) :=
  if x.length < 4 then none
  else (lineLevel x).map fun th => (List.range x.length).filter (isLine (smooth x) x.length th)

/-- The distances greater than 5 of neighbouring lines, OBR.rs 494-501. -/
def gaps (l : List Nat) : List Nat := (List.zipWith (fun a b => b - a) l l.tail).filter fun d => decide (d > 5)

/-- `(a - b) as f32 <= size_est as f32 * 0.8`, OBR.rs 505, 509 -/
def narrowGap (d size : Nat) : Bool := decide (fl32 d ≤ fl32 (fl32 size * fl32 (8 / 10)))

/-- OBR.rs 505-511: a first or last line that is too near to its neighbour is dropped. -/
def trimLines (l : List Nat) (size : Nat) : Option (List Nat) := do
  let a ← l[0]?
  let b ← l[1]?
  let l := if narrowGap (b - a) size then l.tail else l
  if l.length < 2 then none
  let a ← l[l.length - 2]?
  let b ← l[l.length - 1]?
  return if narrowGap (b - a) size then l.dropLast else l

/-- `hough[i][y]`, OBR.rs 518-537 (the increments are counted here at once; the conditions keep the index within bounds). -/
def votes (lines : List Nat) (lo hi maxx i y : Nat) : Nat :=
  (lines.map fun L => ((rng (L / hi) (L / lo + 1)).map fun n =>
    (if n * y / 4 ≤ L ∧ L ≤ maxx + n * y / 4 ∧ L - n * y / 4 = i then 1 else 0) +
    (if n * y / 4 ≤ L + 1 ∧ L + 1 ≤ maxx + n * y / 4 ∧ L + 1 - n * y / 4 = i then 1 else 0)).sum).sum

/-- The search for the greatest entry, OBR.rs 538-549: `(max_i, max_j)`. -/
def bestVote (v : Nat → Nat → Nat) (is js : List Nat) : Nat × Nat :=
  let r := (is.flatMap fun i => js.map fun j => (i, j)).foldl (fun (m : Nat × Nat × Nat) p =>
    if v p.1 p.2 > m.1 then (v p.1 p.2, p.1, p.2) else m) (0, 0, 0)
  r.2

/-- `((d) as f32 / (max_j as f32 / 4.0)) as usize`, OBR.rs 550: a division by zero gives infinity, which becomes the greatest
`usize`. -/
def cellCount (d j : Nat) : Nat := if j = 0 then 2 ^ 64 - 1 else toIdx (fl32 (fl32 d / fl32 (fl32 j / 4)))

/-- `get_line`, OBR.rs 439-552: size of a cell, place of the first line, number of cells. -/
def getLine (x : List Nat) : Option (ℚ × Nat × Nat) := do
  let lines ← findLines x
  let delta := sortN (gaps lines)
  let size ← delta[toIdx (fl32 (fl32 delta.length * fl32 (4 / 10)))]?
  let lines ← trimLines lines size
  if size < 5 then none
  let hi := min 200 (size + 5)
  let lo := max 8 (size - 5)
  let a ← lines.head?
  let b ← lines.getLast?
  let best := bestVote (votes lines lo hi (a + 7)) (List.range (a + 8)) (rng (lo * 4) (hi * 4 + 1))
  return (fl32 (fl32 best.2 / 4), best.1, cellCount (b - a + 2) best.2)

/-- What `get_pos_pixel` stores, OBR.rs 675-682. -/
structure Layout where
  pixelr : ℚ
  r0 : Nat
  r : Nat
  pixelc : ℚ
  c0 : Nat
  c : Nat
  r1 : Nat
  c1 : Nat

/-- The scores of columns and rows of a cut, OBR.rs 655-671. -/
def bothScores (b : Pic Bool) (k : Cut) : Option (List Nat × List Nat) := do
  let cs ← scores (fun i j => b.read i j) k.r1 k.r2 k.c1 k.c2
  let rs ← scores (fun i j => b.read j i) k.c1 k.c2 k.r1 k.r2
  return (cs, rs)

/-- `get_pos_pixel`, OBR.rs 554-683: the picture left (narrowed or not) and what is stored (`none`: nothing). -/
def posPixel (x : Image) : Option (Image × Option Layout) := do
  let e ← edges x
  let s ← shrink (x.rows + 2) x e.2 (x.rows - 2) (x.cols - 2)
  match s.2 with
  | none => return (s.1, none)
  | some (k, row, col) =>
    let k ← widen e.1 k row col
    let sc ← bothScores e.1 k
    let c ← getLine sc.1
    let r ← getLine sc.2
    return (s.1, some ⟨r.1, r.2.1, r.2.2, c.1, c.2.1, c.2.2, k.r1, k.c1⟩)

/-- the index of the sample `i` of cell `x`, OBR.rs 63-71 -/
def sampleAt (b o : Nat) (pixel : ℚ) (size x i : Nat) : Nat :=
  toIdx (fl32 (fl32 (fl32 (fl32 b + fl32 o) + fl32 (pixel * fl32 x)) +
    fl32 (fl32 (fl32 (pixel / 2) / fl32 size) * fl32 (fl32 (fl32 i * 2) + 1))))

/-- `extra_save_cell`, OBR.rs 57-76. -/
def extraCell (x : Image) (l : Layout) (i j size : Nat) : Option (List ℚ) :=
  (([0, 1, 2] : List (Fin 3)).flatMap fun k => (List.range size).flatMap fun a => (List.range size).map fun b => (k, a, b)).mapM
    fun q => (x.read (sampleAt l.r1 l.r0 l.pixelr size i q.2.1) (sampleAt l.c1 l.c0 l.pixelc size j q.2.2)).map fun v => v q.1

/-- `OBR_board`, algorithms.rs 1199-1234.  `cell` stands for `OBR_cell`, algorithms.rs 1133-1170 (and the loading of the
network): what it makes of 768 samples.  The error texts are numbered. -/
def obrBoard (cell : List ℚ → Int) (data : List Nat) (height width : Nat) : Option (Except Nat Board) :=
  if height ≤ 24 ∨ width ≤ 24 then some (.error 1)
  else do
    let x ← imageNew data height width
    match ← posPixel x with
    | (_, none) => return .error 2
    | (x, some l) =>
      if l.r ≤ 3 ∨ l.c ≤ 3 then return .error 2
      if 2 ^ 61 ≤ l.c ∨ 2 ^ 63 ≤ 24 * l.r then none
      let b ← (List.range l.r).mapM fun i => (List.range l.c).mapM fun j => (extraCell x l i j 16).map cell
      return .ok (legalizeBoard b)

end Ms
