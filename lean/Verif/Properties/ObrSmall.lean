import Verif.Lemmas.ObrSmall
import Verif.Properties.Obr

/-! # C73, C74: cells of less than 10 pixels -/

namespace Ms.Properties
open Ms Ms.Spec

/-- **C73** (finding): lines two pixels wide, 8 or 9 pixels apart: `get_line` panics, although 8 to 300 pixels are documented. -/
theorem C73_dense_refuted (x : List Nat) (H p o N : Nat) (hx : EvenLines x H p o N 2) (hp : p = 8 ∨ p = 9) (hN : 1 ≤ N) (h0 : 0 < H)
    (h24 : H ≤ 2 ^ 24) : getLine x = none := by
  rcases hp with rfl | rfl
  · exact hx.getLine_eight_two hN h0 h24
  · exact hx.getLine_nine hN h0 h24

/-- not void -/
example : EvenLines (scoreSample 9 2) 9 9 1 3 2 ∧ EvenLines (scoreSample 8 2) 9 8 1 3 2 :=
  ⟨scoreSample_even (by omega) (by omega), scoreSample_even (by omega) (by omega)⟩

/-- **C74** (finding): an ideal picture of a board whose cells are 8 or 9 pixels high, or 8 or 9 pixels wide, makes it panic. -/
theorem C74_small_cells_panic (cell : List ℚ → Int) (data : List Nat) (h w m p M n q N : Nat)
    (hd : RawBands data h w (band m p M) (band n q N)) (hr : Side h m p M) (hc : Side w n q N) (hp : 8 ≤ p)
    (hq : 8 ≤ q) (hsmall : p ≤ 9 ∨ q ≤ 9) (h1 : h ≤ 2 ^ 24) (h2 : w ≤ 2 ^ 24) : obrBoard cell data h w = none := by
  have hM : 4 * p ≤ M * p := Nat.mul_le_mul_right p hr.cells
  have hN : 4 * q ≤ N * q := Nat.mul_le_mul_right q hc.cells
  have k1 := hr.trail.1
  have k2 := hc.trail.1
  have k3 := hr.cells
  have k4 := hc.cells
  have k5 := hr.lead
  have k6 := hc.lead
  obtain ⟨x, x1, x2, x3, x4⟩ := raw_straight hd (by omega) (by omega)
  have hr' : Side x.rows m p M := by rw [x2]; exact hr
  have hc' : Side x.cols n q N := by rw [x3]; exact hc
  obtain ⟨cs, rs, a1, a2, b1, b2, e⟩ := cells_posPixel x4 hr' hc' hp hq
  have hpos : posPixel x = none := by
    rw [e]
    rcases hsmall with h9 | h9
    · rw [C73_dense_refuted rs _ p _ _ b1 (by omega) (by omega) (by omega) (by omega)]
      cases getLine cs <;> rfl
    · rw [C73_dense_refuted cs _ q _ _ a1 (by omega) (by omega) (by omega) (by omega)]
      rfl
  unfold obrBoard
  rw [if_neg (by omega), x1]
  simp only [Option.bind_eq_bind, Option.bind_some, hpos]
  rfl

/-- not void: a beginner's board of cells of 8 pixels -/
example (cell : List ℚ → Int) : obrBoard cell (rawBands 74 74 (band 5 8 8) (band 5 8 8)) 74 74 = none :=
  have hs := C74_eight 74 5 8 8 (by omega) (by omega) (by omega) (by omega)
  C74_small_cells_panic cell _ 74 74 5 8 8 5 8 8 (rawBands_spec _ _ _ _) hs hs
    (by omega) (by omega) (by omega) (by omega) (by omega)

end Ms.Properties
