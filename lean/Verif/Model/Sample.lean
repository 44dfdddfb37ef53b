import Verif.Model.Laymine
import Verif.Model.Misc

/-! # Sampling the 3BV of expert boards (algorithms.rs 1069-1130) -/

namespace Ms

/-- `for i in a..b { dst[i + off] = src[i] }`: `none` is the panic of an index out of bounds. -/
def copyTo (src : List Int) (off : Nat) (a b : Nat) (dst : List Int) : Option (List Int) :=
  (rng a b).foldlM (m := Option)
    (fun dst i => src[i]?.bind fun w => if i + off < dst.length then some (dst.set (i + off) w) else none) dst

/-- One board of `laymine_study_exp`, algorithms.rs 1096-1125.  `shuffle` is the result of `board1_dim.shuffle`. -/
def studyBoard (shuffle : List Int → List Int) (x0 y0 : Nat) : Option Board :=
  let pointer := x0 + y0 * 16
  let board1 := shuffle ((List.replicate 479 (0 : Int)).mapIdx fun i w => if 380 ≤ i then -1 else w)
  (copyTo board1 0 0 pointer (List.replicate 480 0)).bind fun board2 =>
  if 480 ≤ pointer then none
  else
    (copyTo board1 1 pointer 479 (board2.set pointer 0)).map fun board2 =>
      (List.range 480).foldl
        (fun b i =>
          if board2.getD i 0 < 0 then
            let x := i % 16
            let y := i / 16
            addAround 16 30 (b.set x y (-1)) x y
          else b)
        (Board.build 16 30 fun _ _ => 0)

/-- `bv_record[k] += 1`: `none` is the panic of an index out of bounds (a negative number does not occur as `usize`; here
it counts as a panic too). -/
def record (h : List Nat) (k : Int) : Option (List Nat) :=
  if 0 ≤ k ∧ k.toNat < h.length then some (h.set k.toNat (h.getD k.toNat 0 + 1)) else none

/-- `laymine_study_exp`, algorithms.rs 1090-1129; `shuffle id` is what the `id`-th call of `shuffle` does. -/
def studyExp (shuffle : Nat → List Int → List Int) (x0 y0 n : Nat) : Option (List Nat) :=
  (List.range n).foldlM (m := Option)
    (fun h id => (studyBoard (shuffle id) x0 y0).bind fun b => record h (calBbbvExp b)) (List.replicate 382 0)

/-- `sample_3BVs_exp`, algorithms.rs 1071-1087; `shuffle i id` is what the `id`-th shuffle of thread `i` does.  A panic of
a thread becomes a panic of `join().unwrap()`. -/
def sample3BVs (shuffle : Nat → Nat → List Int → List Int) (x0 y0 n : Nat) : Option (List Nat) :=
  (List.range 16).foldlM (m := Option)
    (fun aa i => (studyExp (shuffle i) x0 y0 (n / 16)).map fun h => List.zipWith (· + ·) aa h) (List.replicate 382 0)

end Ms
