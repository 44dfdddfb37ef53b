import Verif.Lemmas.ObrGrid
import Verif.Properties.Misc

/-!
# C71-C74: finding the cells of a picture of a board

C71: the score of a column (or row) of a picture of edges.  C72: what the reading of any picture does: error, board or panic.
C73: evenly spaced lines.  C74: a whole ideal picture, from the raw data to the board.
-/

namespace Ms.Properties
open Ms Ms.Spec

/-! ## C71: scores -/

/-- **C71**: whatever the picture of edges `x` and whatever the part of it (rows `lo` to `hi`, columns `a` to `b`), the list of
scores of its columns exists, nothing underflows, it has `b - a` entries, and each entry is the number of edges on the best walk
that ends in its column, less sidesteps. -/
theorem C71_scores (x : Pic Bool) (lo hi a b : Nat) (h : lo ≤ hi) (h1 : hi < x.rows) (hab : a + 4 ≤ b) (h2 : b < x.cols) :
    ∃ l, scores (fun i j => x.read i j) lo hi a b = some l ∧ l.length = b - a ∧
      ∀ t, t < b - a → BestWalk x.px lo hi (stripStart a b t) (stripPlace a b t) (l.getD t 0) :=
  scores_spec h hab fun _ _ hi _ _ hj => read_some (by omega) (by omega)

/-- the same for rows -/
theorem C71_scores_rows (x : Pic Bool) (lo hi a b : Nat) (h : lo ≤ hi) (h1 : hi < x.cols) (hab : a + 4 ≤ b) (h2 : b < x.rows) :
    ∃ l, scores (fun i j => x.read j i) lo hi a b = some l ∧ l.length = b - a ∧
      ∀ t, t < b - a → BestWalk (fun i j => x.px j i) lo hi (stripStart a b t) (stripPlace a b t) (l.getD t 0) :=
  scores_spec h hab fun _ _ hi _ _ hj => read_some (by omega) (by omega)

/-- **C71**: a score is at most the number of lines crossed; it is that number exactly when the column is one unbroken edge; and
it is never less than the number of edges in the column. -/
theorem C71_full_line (edge : Nat → Nat → Bool) (lo hi a k s : Nat) (hk : k ≤ 4) (h : BestWalk edge lo hi a k s) :
    s ≤ hi - lo ∧ (s = hi - lo ↔ ∀ i, lo < i → i ≤ hi → edge i (a + k) = true) ∧
    ((rng (lo + 1) (hi + 1)).filter fun i => edge i (a + k)).length ≤ s := by
  refine ⟨?_, ⟨fun hs i h1 h2 => ?_, bestWalk_full hk h⟩, ?_⟩
  · obtain ⟨⟨q, q1, q2, q3⟩, -⟩ := h
    have := walkHits_le edge lo a (hi - lo) q
    omega
  · by_contra hc
    have := bestWalk_broken h h1 h2 (by simpa using hc)
    omega
  · have := h.2 (fun _ => k) (walk_const hk) rfl
    rw [walkTurns_const, show apart k k = 0 by simp [apart]] at this
    have e : walkHits edge lo a (hi - lo) (fun _ => k) = ((rng (lo + 1) (hi + 1)).filter fun i => edge i (a + k)).length := by
      unfold walkHits rng
      rw [List.range'_eq_map_range, List.filter_map, List.length_map, show hi + 1 - (lo + 1) = hi - lo by omega]
      rfl
    omega

/-- The column whose score an entry is: entry `t` belongs to column `a + t`, but the last two to the columns `b - 1` and `b`; so
column `b - 2` has no score at all. -/
theorem C71_skipped_column (a b t : Nat) (hab : a + 5 ≤ b) (ht : t < b - a) :
    (t + 2 < b - a → stripStart a b t + stripPlace a b t = a + t) ∧
    (b - a ≤ t + 2 → stripStart a b t + stripPlace a b t = a + t + 1) ∧ stripStart a b t + stripPlace a b t ≠ b - 2 := by
  unfold stripStart stripPlace
  split
  · omega
  · split <;> omega

/-- not void: a column of edges with a kink; the walk along it has 5 edges, one sidestep and one place between its ends -/
example : ∃ l, scores (fun i j => (Pic.read ⟨6, 9, fun i j => j == 3 && i < 3 || j == 4 && 3 ≤ i⟩ i j)) 0 5 0 8 = some l ∧
    l = [0, 0, 0, 3, 3, 1, 0, 0] := by
  refine ⟨_, ?_, rfl⟩
  decide +kernel

/-! ## C73: evenly spaced lines -/

/-- **C73**: lines `p` apart, one or two places wide, the first one within the first seven places, of full score while the rest is
lower: size of the cells, place of the first line and number of cells are found exactly. -/
theorem C73_even_lines (x : List Nat) (H p o N w : Nat) (hx : EvenLines x H p o N w) (hw1 : 1 ≤ w) (hw : w ≤ 2) (hp : 8 + w ≤ p)
    (hp2 : p ≤ 200) (hN : 1 ≤ N) (ho : o ≤ 6) (h0 : 0 < H) (h24 : H ≤ 2 ^ 24) (hl : x.length < 2 ^ 24) :
    getLine x = some ((p : ℚ), o, N) := hx.getLine hw1 hw hp hp2 hN ho h0 h24 hl

/-- **C73**, the documented range (8 to 300 pixels) is not met: lines 8 apart are not found (panic), ... -/
theorem C73_eight_refuted (x : List Nat) (H o N : Nat) (hx : EvenLines x H 8 o N 1) (hN : 1 ≤ N) (h0 : 0 < H) (h24 : H ≤ 2 ^ 24) :
    getLine x = none := hx.getLine_eight hN h0 h24

/-- ... and lines 206 or more apart give size 0 and `2^64 - 1` cells. -/
theorem C73_large_refuted (x : List Nat) (H p o N w : Nat) (hx : EvenLines x H p o N w) (hw1 : 1 ≤ w) (hw : w ≤ 2) (hp : 206 ≤ p)
    (hN : 1 ≤ N) (h0 : 0 < H) (h24 : H ≤ 2 ^ 24) : getLine x = some (0, 0, 2 ^ 64 - 1) := hx.getLine_large hw1 hw hp hN h0 h24

/-- From 201 on the size found is never the right one. -/
theorem C73_wrong_size (x : List Nat) (H p o N w : Nat) (hx : EvenLines x H p o N w) (hw1 : 1 ≤ w) (hp : 201 ≤ p)
    (hN : 1 ≤ N) (v : ℚ × Nat × Nat) (h : getLine x = some v) : v.1 ≠ p := by
  obtain ⟨q, i, n⟩ := v
  have hNp : p ≤ N * p := Nat.le_mul_of_pos_left p hN
  have hfit := hx.fits
  obtain ⟨l, size, -, -, q1, q2⟩ := getLine_some (by omega) h
  have hpq : (201 : ℚ) ≤ p := by exact_mod_cast hp
  show q ≠ p
  by_cases hs : 206 ≤ size
  · rw [(q1 hs).1]
    intro e
    rw [← e] at hpq
    norm_num at hpq
  · obtain ⟨y, e, -, h800, -⟩ := q2 (by omega)
    rw [e]
    intro e2
    rw [← e2] at hpq
    have : (y : ℚ) ≤ 800 := by exact_mod_cast h800
    linarith

/-- a list of scores: lines of score 9, the rest 2 -/
def scoreSample (p w : Nat) : List Nat := (List.range (3 * p + 5)).map fun j => if (j + (p - 1)) % p < w then 9 else 2

theorem scoreSample_even {p w : Nat} (hw : w ≤ 2) (hp : 8 ≤ p) : EvenLines (scoreSample p w) 9 p 1 3 w := by
  have hlen : (scoreSample p w).length = 3 * p + 5 := by simp [scoreSample]
  have hget : ∀ j, j < 3 * p + 5 → (scoreSample p w).getD j 0 = if (j + (p - 1)) % p < w then 9 else 2 := by
    intro j hj
    unfold scoreSample
    rw [List.getD_eq_getElem?_getD, List.getElem?_map, List.getElem?_range hj]
    rfl
  have hmod : ∀ i t, t < p → (1 + i * p + t + (p - 1)) % p = t := by
    intro i t ht
    rw [show 1 + i * p + t + (p - 1) = t + (i + 1) * p by rw [Nat.succ_mul]; omega, Nat.add_mul_mod_self_right, Nat.mod_eq_of_lt ht]
  have hinv : ∀ j, j < 3 * p + 5 → (j + (p - 1)) % p < w → ∃ i, i ≤ 3 ∧ ∃ t, t < w ∧ j = 1 + i * p + t := by
    intro j hj h
    have hd := Nat.div_add_mod (j + (p - 1)) p
    have h1 : 1 ≤ (j + (p - 1)) / p := by
      rcases Nat.eq_zero_or_pos ((j + (p - 1)) / p) with e | e
      · rw [e] at hd
        omega
      · exact e
    have h2 : (j + (p - 1)) / p ≤ 4 := by
      have : (j + (p - 1)) / p < 5 := Nat.div_lt_of_lt_mul (by omega)
      omega
    refine ⟨(j + (p - 1)) / p - 1, by omega, (j + (p - 1)) % p, h, ?_⟩
    have : ((j + (p - 1)) / p - 1) * p + p = p * ((j + (p - 1)) / p) := by
      rw [← Nat.succ_mul, Nat.mul_comm]
      congr 1
      omega
    omega
  have hle : ∀ i, i ≤ 3 → i * p ≤ 3 * p := fun i hi => Nat.mul_le_mul_right p hi
  constructor
  · omega
  · intro i hi t ht
    have := hle i hi
    rw [hget _ (by omega), hmod i t (by omega), if_pos ht]
  · intro j hj hno
    rw [hget j (by omega)]
    split
    · rename_i h
      obtain ⟨i, hi, t, ht, e⟩ := hinv j (by omega) h
      exact absurd e (hno i hi t ht)
    · omega
  · intro j hj hno
    rw [hget j (by omega)]
    split
    · rename_i h
      obtain ⟨i, hi, t, ht, e⟩ := hinv j (by omega) h
      have := hno i hi t ht
      omega
    · omega

/-- not void, each of the three -/
example : getLine (scoreSample 16 2) = some (((16 : Nat) : ℚ), 1, 3) :=
  C73_even_lines _ 9 16 1 3 2 (scoreSample_even (by omega) (by omega)) (by omega) (by omega) (by omega) (by omega) (by omega) (by omega)
    (by omega) (by omega) (by simp [scoreSample])

example : getLine (scoreSample 8 1) = none := C73_eight_refuted _ 9 1 3 (scoreSample_even (by omega) (by omega)) (by omega) (by omega) (by omega)

example : getLine (scoreSample 300 2) = some (0, 0, 2 ^ 64 - 1) :=
  C73_large_refuted _ 9 300 1 3 2 (scoreSample_even (by omega) (by omega)) (by omega) (by omega) (by omega) (by omega) (by omega) (by omega)

/-! ## C72: any picture -/

/-- no two neighbouring lines of a list of scores are more than five apart -/
def NoLines (l : List Nat) : Prop :=
  ∃ ls, findLines l = some ls ∧ ∀ i (h : i + 1 < ls.length), ls[i + 1] ≤ ls[i] + 5

theorem gaps_nil_iff {l : List Nat} : gaps l = [] ↔ ∀ i (h : i + 1 < l.length), l[i + 1] ≤ l[i] + 5 := by
  unfold gaps
  rw [List.filter_eq_nil_iff]
  constructor
  · intro h i hi
    have hm : l[i + 1] - l[i] ∈ List.zipWith (fun a b => b - a) l l.tail := by
      rw [List.mem_iff_getElem]
      refine ⟨i, by simp; omega, ?_⟩
      rw [List.getElem_zipWith, List.getElem_tail]
    have := h _ hm
    simp at this
    omega
  · intro h d hd
    obtain ⟨i, hi, e⟩ := List.mem_iff_getElem.mp hd
    rw [List.getElem_zipWith, List.getElem_tail] at e
    have := h i (by simp at hi; omega)
    simp
    omega

theorem getLine_none {x : List Nat} (h : 8 ≤ x.length) : getLine x = none ↔ NoLines x := by
  rw [getLine_none_iff h]
  unfold NoLines
  constructor
  · rintro ⟨l, h1, h2⟩
    exact ⟨l, h1, gaps_nil_iff.mp h2⟩
  · rintro ⟨l, h1, h2⟩
    exact ⟨l, h1, gaps_nil_iff.mpr h2⟩

/-- **C72**: segmenting a picture of 25 x 25 pixels or more either gives up (an error), or ends in two lists of scores, of the
columns and of the rows of a part of the picture; it panics exactly when one of them has no two neighbouring lines more than five
apart. -/
theorem C72_segmentation_partial (x : Image) (hr : 25 ≤ x.rows) (hc : 25 ≤ x.cols) :
    (∃ y, posPixel x = some (y, none)) ∨
    ∃ (y : Image) (b : Pic Bool) (r1 r2 c1 c2 : Nat) (cs rs : List Nat),
      r1 + 8 ≤ r2 ∧ c1 + 8 ≤ c2 ∧ r2 < b.rows ∧ c2 < b.cols ∧
      scores (fun i j => b.read i j) r1 r2 c1 c2 = some cs ∧ scores (fun i j => b.read j i) c1 c2 r1 r2 = some rs ∧
      cs.length = c2 - c1 ∧ rs.length = r2 - r1 ∧ c2 + 2 < y.cols ∧ r2 + 2 < y.rows ∧ y.rows ≤ x.rows ∧ y.cols ≤ x.cols ∧
      ((posPixel x = none ↔ NoLines cs ∨ NoLines rs) ∧
       ∀ y' l, posPixel x = some (y', l) → y' = y ∧ ∃ lc lr, getLine cs = some lc ∧ getLine rs = some lr ∧
         l = some ⟨lr.1, lr.2.1, lr.2.2, lc.1, lc.2.1, lc.2.2, r1, c1⟩) := by
  obtain ⟨b, k, e1, e2, e3, e4⟩ := edges_some (x := x) (by omega) (by omega)
  obtain ⟨y, r, s1, s2⟩ := shrink_some (fuel := x.rows + 2) (x := x) (k := k) (by omega) hr hc rfl rfl e4
  cases r with
  | none =>
    left
    refine ⟨y, ?_⟩
    unfold posPixel
    simp only [e1, s1, Option.bind_eq_bind, Option.bind_some]
    rfl
  | some r =>
    obtain ⟨k1, row, col⟩ := r
    obtain ⟨f1, f2, f3, f4, f5, f6, f7, f8, f9⟩ := s2 k1 row col rfl
    obtain ⟨k2, w1, w2, w3, w4, w5, w6, w7⟩ := widen_some (x := b) f1 (by omega) (by omega) (by omega) (by omega)
    have hr' : k2.r1 + 8 ≤ k2.r2 := by omega
    have hc' : k2.c1 + 8 ≤ k2.c2 := by omega
    obtain ⟨cs, g1, g2, -⟩ := scores_spec (edge := b.px) (hit := fun i j => b.read i j) (lo := k2.r1) (hi := k2.r2) (a := k2.c1)
      (b := k2.c2) (by omega) (by omega) (fun i _ hi j _ hj => read_some (by omega) (by omega))
    obtain ⟨rs, h1, h2, -⟩ := scores_spec (edge := fun i j => b.px j i) (hit := fun i j => b.read j i) (lo := k2.c1) (hi := k2.c2)
      (a := k2.r1) (b := k2.r2) (by omega) (by omega) (fun i _ hi j _ hj => read_some (by omega) (by omega))
    have hp : posPixel x = (do
        let c ← getLine cs
        let r ← getLine rs
        return (y, some ⟨r.1, r.2.1, r.2.2, c.1, c.2.1, c.2.2, k2.r1, k2.c1⟩)) := by
      unfold posPixel
      simp only [e1, s1, w1, bothScores, g1, h1, Option.bind_eq_bind, Option.bind_some]
      rfl
    right
    refine ⟨y, b, k2.r1, k2.r2, k2.c1, k2.c2, cs, rs, hr', hc', by omega, by omega, g1, h1, g2, h2, by omega, by omega, by omega,
      by omega, ?_, ?_⟩
    · rw [← getLine_none (x := cs) (by omega), ← getLine_none (x := rs) (by omega), hp]
      cases getLine cs with
      | none => simp
      | some lc =>
        cases getLine rs with
        | none => simp
        | some lr => simp
    · intro y' l hl
      rw [hp] at hl
      cases hgc : getLine cs with
      | none => rw [hgc] at hl; cases hl
      | some lc =>
        cases hgr : getLine rs with
        | none => rw [hgc, hgr] at hl; cases hl
        | some lr =>
          rw [hgc, hgr] at hl
          cases hl
          exact ⟨rfl, lc, lr, rfl, rfl, rfl⟩

/-- a cell for every 8 pixels at most -/
theorem getLine_count {x : List Nat} {v : ℚ × Nat × Nat} (h8 : 8 ≤ x.length) (h : getLine x = some v) (hl : x.length < 2 ^ 21)
    (hn : v.2.2 < 2 ^ 62) : 8 * v.2.2 ≤ x.length + 1 := by
  obtain ⟨p, i, n⟩ := v
  simp only at hn ⊢
  obtain ⟨l, size, -, -, q1, q2⟩ := getLine_some h8 h
  by_cases hsz : 206 ≤ size
  · have := (q1 hsz).2.2
    omega
  · obtain ⟨y, -, k1, -, -, -, -, k2⟩ := q2 (by omega)
    have h1 := k2 hl
    have h2 : n * 32 ≤ n * y := Nat.mul_le_mul_left _ k1
    omega

theorem mapM_len {α β : Type} {f : α → Option β} : ∀ {l : List α} {m : List β}, l.mapM f = some m → m.length = l.length
  | [], m, h => by cases h; rfl
  | a :: l, m, h => by
    rw [List.mapM_cons] at h
    cases hb : f a with
    | none => rw [hb] at h; cases h
    | some b =>
      cases hm : l.mapM f with
      | none => rw [hb, hm] at h; cases h
      | some m' =>
        rw [hb, hm] at h
        cases h
        rw [List.length_cons, List.length_cons, mapM_len hm]

/-- **C72**: a picture with a side of 24 pixels or less is refused, whatever the data. -/
theorem C72_small (cell : List ℚ → Int) (data : List Nat) (h w : Nat) (hs : h ≤ 24 ∨ w ≤ 24) :
    obrBoard cell data h w = some (.error 1) := by
  unfold obrBoard
  rw [if_pos hs]

/-- **C72**: too few numbers for the picture: panic.  (Of the last pixel only three of the four numbers are needed.) -/
theorem C72_short (cell : List ℚ → Int) (data : List Nat) (h w : Nat) (hh : 25 ≤ h) (hw : 25 ≤ w) (hd : data.length + 1 < 4 * (h * w)) :
    obrBoard cell data h w = none := by
  unfold obrBoard
  rw [if_neg (by omega)]
  have : imageNew data h w = none := by
    cases hi : imageNew data h w with
    | none => rfl
    | some x =>
      exfalso
      have hx : x.rows = h ∧ x.cols = w := by
        unfold imageNew Pic.build at hi
        split at hi
        · cases hi
          exact ⟨rfl, rfl⟩
        · cases hi
      have := (imageNew_some (data := data) (h := h) (w := w) (by omega) (by omega)).mp ⟨x, hi, hx⟩
      omega
  rw [this]
  rfl

/-- **C72**: what is returned when a board is: at least four rows and columns; a cell for every 8 pixels at most; the values are
those a board shows to a player, and no number exceeds the number of covered neighbours. -/
theorem C72_board_partial (cell : List ℚ → Int) (data : List Nat) (h w : Nat) (hh : h < 2 ^ 21) (hw : w < 2 ^ 21) (b : Board)
    (hb : obrBoard cell data h w = some (.ok b)) :
    ∃ r c, 4 ≤ r ∧ 4 ≤ c ∧ 8 * r < h ∧ 8 * c < w ∧ Rect b r c ∧
      ∀ p ∈ grid r c, LegalDisplay (val b.view p) ∧ (1 ≤ val b.view p → val b.view p ≤ 8 →
        val b.view p ≤ nearCount b.view p (fun v => v = 10 ∨ v = 11)) := by
  unfold obrBoard at hb
  split at hb
  · cases hb
  rename_i hs
  push Not at hs
  cases hi : imageNew data h w with
  | none => rw [hi] at hb; cases hb
  | some x =>
    have hx : x.rows = h ∧ x.cols = w := by
      unfold imageNew Pic.build at hi
      split at hi
      · cases hi
        exact ⟨rfl, rfl⟩
      · cases hi
    rw [hi] at hb
    simp only [Option.bind_eq_bind, Option.bind_some] at hb
    cases hp : posPixel x with
    | none => rw [hp] at hb; cases hb
    | some r =>
      obtain ⟨y, l⟩ := r
      rw [hp] at hb
      simp only [Option.bind_some] at hb
      cases l with
      | none => cases hb
      | some l =>
        simp only at hb
        split at hb
        · cases hb
        rename_i h3
        split at hb
        · cases hb
        rename_i h61
        push Not at h3 h61
        have hl : 8 * l.r < h ∧ 8 * l.c < w := by
          rcases C72_segmentation_partial x (by omega) (by omega) with ⟨y', e⟩ | ⟨y', b', r1, r2, c1, c2, cs, rs, a1, a2, a3, a4, a5, a6,
            a7, a8, a9, a10, a11, a12, -, a13⟩
          · rw [hp] at e
            cases e
          · obtain ⟨-, lc, lr, g1, g2, e⟩ := a13 y (some l) hp
            cases e
            simp only at h3 h61 ⊢
            have k1 := getLine_count (by omega) g2 (by omega) (by omega)
            have k2 := getLine_count (by omega) g1 (by omega) (by omega)
            constructor <;> omega
        refine ⟨l.r, l.c, by omega, by omega, hl.1, hl.2, ?_⟩
        cases hm : (List.range l.r).mapM fun i => (List.range l.c).mapM fun j => (extraCell y l i j 16).map cell with
        | none => rw [hm] at hb; cases hb
        | some m =>
          rw [hm] at hb
          have e : legalizeBoard m = b := by
            simpa using hb
          have hrect : Rect m l.r l.c := by
            refine ⟨?_, ?_⟩
            · have := mapM_len hm
              rw [List.length_range] at this
              exact this
            · exact mapM_all hm fun i _ row hrow => by
                have := mapM_len hrow
                rw [List.length_range] at this
                exact this
          obtain ⟨q1, q2, -⟩ := C36_legalize m l.r l.c (by omega) hrect
          rw [e] at q1 q2
          exact ⟨q1, fun p hp => ⟨(q2 p hp).1, (q2 p hp).2.1⟩⟩

/-- the raw data of a picture of one colour -/
def RawFlat (data : List Nat) (h w : Nat) (v : Fin 3 → Nat) : Prop :=
  data.length = 4 * (h * w) ∧ (∀ k, v k ≤ 255) ∧ ∀ i, i < h → ∀ j, j < w → ∀ k : Fin 3, data.getD ((i * w + j) * 4 + k.val) 0 = v k

theorem raw_flat {data : List Nat} {h w : Nat} {v : Fin 3 → Nat} (hd : RawFlat data h w v) (hh : 0 < h) (hw : 0 < w) :
    ∃ x, imageNew data h w = some x ∧ x.rows = h ∧ x.cols = w ∧ Flat x := by
  obtain ⟨d1, d2, d3⟩ := hd
  obtain ⟨x, x1, x2, x3⟩ := (imageNew_some (data := data) hh hw).mpr (by omega)
  refine ⟨x, x1, x2, x3, ![fl32 (fl32 (v 2) / 255), fl32 (fl32 (v 1) / 255), fl32 (fl32 (v 0) / 255)], ?_, ?_⟩
  · have hb : ∀ n : Nat, n ≤ 255 → 0 ≤ fl32 (fl32 (n : ℚ) / 255) ∧ fl32 (fl32 (n : ℚ) / 255) ≤ 1 := by
      intro n hn
      rw [fl32_nat (n := n) (by omega)]
      have h1 : (n : ℚ) ≤ 255 := by exact_mod_cast hn
      refine ⟨fl32_nonneg (by positivity), ?_⟩
      have e : fl32 ((1 : Nat) : ℚ) = ((1 : Nat) : ℚ) := fl32_nat (by norm_num)
      rw [Nat.cast_one] at e
      rw [← e]
      refine fl32_mono ?_
      rw [div_le_one (by norm_num)]
      exact h1
    intro k
    fin_cases k
    · exact hb _ (d2 2)
    · exact hb _ (d2 1)
    · exact hb _ (d2 0)
  · intro i hi j hj
    have hidx : (i * w + j) * 4 + 3 < data.length := by
      rw [d1]
      have h1 : (i + 1) * w ≤ h * w := Nat.mul_le_mul_right w (by omega)
      rw [Nat.succ_mul] at h1
      omega
    have hget : ∀ n u, n < data.length → data.getD n 0 = u → data[n]? = some u := by
      intro n u hn hv
      rw [List.getD_eq_getElem?_getD, List.getElem?_eq_getElem hn] at hv
      rw [List.getElem?_eq_getElem hn]
      exact congrArg some hv
    have g0 := hget _ _ (by show (i * w + j) * 4 + 0 < data.length; omega) (d3 i (by omega) j (by omega) 0)
    have g1 := hget _ _ (by show (i * w + j) * 4 + 1 < data.length; omega) (d3 i (by omega) j (by omega) 1)
    have g2 := hget _ _ (by show (i * w + j) * 4 + 2 < data.length; omega) (d3 i (by omega) j (by omega) 2)
    unfold imageNew at x1
    obtain ⟨p, p1, p2, p3, p4⟩ := build_some (build_isSome x1)
    rw [x1] at p1
    cases p1
    have := p4 i (by omega) j (by omega)
    have e0 : data[(i * w + j) * 4 + 0]? = some (v 0) := g0
    have e1 : data[(i * w + j) * 4 + 1]? = some (v 1) := g1
    have e2 : data[(i * w + j) * 4 + 2]? = some (v 2) := g2
    rw [e0, e1, e2] at this
    exact (Option.some.inj this).symm

/-- **C72**: a picture of one colour is refused. -/
theorem C72_flat (cell : List ℚ → Int) (data : List Nat) (h w : Nat) (v : Fin 3 → Nat) (hh : 25 ≤ h) (hw : 25 ≤ w)
    (hd : RawFlat data h w v) : obrBoard cell data h w = some (.error 2) := by
  obtain ⟨x, x1, x2, x3, x4⟩ := raw_flat hd (by omega) (by omega)
  obtain ⟨y, hy⟩ := flat_posPixel x4 (by omega) (by omega)
  unfold obrBoard
  rw [if_neg (by omega), x1]
  simp only [Option.bind_eq_bind, Option.bind_some, hy]
  rfl

/-- not void -/
example : RawFlat (List.replicate 2500 192) 25 25 (fun _ => 192) := by
  refine ⟨List.length_replicate, fun _ => by show 192 ≤ 255; omega, fun i hi j hj k => ?_⟩
  rw [List.getD_eq_getElem?_getD, List.getElem?_replicate, if_pos (by have := k.isLt; omega)]
  rfl

/-- **C72** (finding): stripes two pixels high, red and black, make it panic, whatever the size of the picture. -/
theorem C72_stripes_panic (cell : List ℚ → Int) (data : List Nat) (h w : Nat) (C : Nat → Bool) (hh : 25 ≤ h) (hw : 25 ≤ w)
    (h24 : h ≤ 2 ^ 24) (hd : RawBands data h w (fun i => i / 2 % 2 == 1) C) : obrBoard cell data h w = none := by
  obtain ⟨x, x1, x2, x3, x4⟩ := raw_straight hd (by omega) (by omega)
  unfold obrBoard
  rw [if_neg (by omega), x1]
  simp only [Option.bind_eq_bind, Option.bind_some, stripes_panic x4 (by omega) (by omega) (by omega)]
  rfl

/-- raw data of bands -/
def rawBands (h w : Nat) (R C : Nat → Bool) : List Nat :=
  (List.range (4 * (h * w))).map fun n =>
    if n % 4 = 2 then (if R (n / 4 / w) then 255 else 0) else if n % 4 = 1 then (if C (n / 4 % w) then 255 else 0) else 0

/-- there are such data for all sizes and bands -/
theorem rawBands_spec (h w : Nat) (R C : Nat → Bool) : RawBands (rawBands h w R C) h w R C := by
  have hget : ∀ i, i < h → ∀ j, j < w → ∀ k, k < 4 → (rawBands h w R C).getD ((i * w + j) * 4 + k) 0 =
      if k = 2 then (if R i then 255 else 0) else if k = 1 then (if C j then 255 else 0) else 0 := by
    intro i hi j hj k hk
    have hidx : (i * w + j) * 4 + k < 4 * (h * w) := by
      have h1 : (i + 1) * w ≤ h * w := Nat.mul_le_mul_right w (by omega)
      rw [Nat.succ_mul] at h1
      omega
    have e1 : ((i * w + j) * 4 + k) % 4 = k := by omega
    have e2 : ((i * w + j) * 4 + k) / 4 = i * w + j := by omega
    have e3 : (i * w + j) / w = i := by
      rw [Nat.mul_comm, Nat.mul_add_div (by omega), Nat.div_eq_of_lt hj, Nat.add_zero]
    have e4 : (i * w + j) % w = j := by
      rw [Nat.mul_comm, Nat.mul_add_mod, Nat.mod_eq_of_lt hj]
    unfold rawBands
    rw [List.getD_eq_getElem?_getD, List.getElem?_map, List.getElem?_range hidx]
    simp only [Option.map_some, Option.getD_some, e1, e2, e3, e4]
  constructor
  · simp [rawBands]
  · intro i hi j hj
    exact hget i hi j hj 2 (by omega)
  · intro i hi j hj
    exact hget i hi j hj 1 (by omega)
  · intro i hi j hj
    exact hget i hi j hj 0 (by omega)

example (cell : List ℚ → Int) : obrBoard cell (rawBands 40 30 (fun i => i / 2 % 2 == 1) fun _ => false) 40 30 = none :=
  C72_stripes_panic cell _ 40 30 _ (by omega) (by omega) (by omega) (rawBands_spec _ _ _ _)

/-! ## C74: an ideal picture of a board -/

/-- the colour of a pixel of an ideal picture -/
def cellColour (R C : Nat → Bool) (i j : Nat) : Fin 3 → ℚ := ![if R i then 1 else 0, if C j then 1 else 0, 0]

/-- the samples of cell `(i, j)` that `OBR_board` reads (three colours, 16 x 16 places): they begin two pixels above and two
pixels to the left of the cell -/
def cellSamples (R C : Nat → Bool) (m p n q i j : Nat) : List ℚ :=
  ([0, 1, 2] : List (Fin 3)).flatMap fun k => (List.range 16).flatMap fun a => (List.range 16).map fun b =>
    cellColour R C (m - 2 + i * p + p * (2 * a + 1) / 32) (n - 2 + j * q + q * (2 * b + 1) / 32) k

theorem mapM_pure {α β : Type} {f : α → Option β} {g : α → β} {l : List α} (h : ∀ a ∈ l, f a = some (g a)) :
    l.mapM f = some (l.map g) := by
  induction l with
  | nil => rfl
  | cons a l ih =>
    rw [List.mapM_cons, h a (by simp), ih fun b hb => h b (by simp [hb])]
    rfl

theorem cells_sample {x : Image} {R C : Nat → Bool} {m p M n q N i j : Nat} (hx : Straight x R C) (hr : Side x.rows m p M)
    (hc : Side x.cols n q N) (hp2 : p ≤ 200) (hq2 : q ≤ 200) (h1 : x.rows < 2 ^ 19) (h2 : x.cols < 2 ^ 19) (hi : i < M) (hj : j < N) :
    extraCell x ⟨p, m - 2, M, q, n - 2, N, 0, 0⟩ i j 16 = some (cellSamples R C m p n q i j) := by
  obtain ⟨⟨r1, r2⟩, r3, ⟨r4, r5⟩, r6⟩ := hr
  obtain ⟨⟨c1, c2⟩, c3, ⟨c4, c5⟩, c6⟩ := hc
  have hM : (i + 1) * p ≤ M * p := Nat.mul_le_mul_right p hi
  have hN : (j + 1) * q ≤ N * q := Nat.mul_le_mul_right q hj
  have hM' := hM
  have hN' := hN
  rw [Nat.succ_mul] at hM' hN'
  unfold extraCell
  rw [mapM_pure (g := fun t : Fin 3 × Nat × Nat => if t.2.1 < 16 ∧ t.2.2 < 16 then
    cellColour R C (m - 2 + i * p + p * (2 * t.2.1 + 1) / 32) (n - 2 + j * q + q * (2 * t.2.2 + 1) / 32) t.1 else 0)]
  · unfold cellSamples
    refine congrArg some ?_
    rw [List.map_flatMap]
    apply List.flatMap_congr
    intro k _
    rw [List.map_flatMap]
    apply List.flatMap_congr
    intro a ha
    rw [List.map_map]
    apply List.map_congr_left
    intro b hb
    rw [List.mem_range] at ha hb
    show (if a < 16 ∧ b < 16 then _ else _) = _
    rw [if_pos ⟨ha, hb⟩]
  · rintro ⟨k, a, b⟩ ht
    simp only [List.mem_flatMap, List.mem_map, List.mem_range, Prod.mk.injEq] at ht
    obtain ⟨k', -, a', ha, b', hb, rfl, rfl, rfl⟩ := ht
    have hpa : p * (2 * a' + 1) ≤ p * 31 := Nat.mul_le_mul_left p (by omega)
    have hqb : q * (2 * b' + 1) ≤ q * 31 := Nat.mul_le_mul_left q (by omega)
    show Option.map _ (x.read (sampleAt 0 (m - 2) p 16 i a') (sampleAt 0 (n - 2) q 16 j b')) = some (if a' < 16 ∧ b' < 16 then _ else _)
    rw [sampleAt_exact hp2 ha (by omega), sampleAt_exact hq2 hb (by omega), read_some (by omega) (by omega),
      hx _ (by omega) _ (by omega), if_pos ⟨ha, hb⟩]
    rfl

/-- **C74**: an ideal picture of a board: `M` rows of `N` cells, `p` by `q` pixels each (10 to 200), neighbouring
cells of different colour, margins around (`Side`; `C74_eight`: eight cells or more, as on every standard board).  The reading succeeds with a board of `M` rows and `N` columns; each entry is what the
recogniser makes of the samples of its own cell, and the whole is made legal. -/
theorem C74_ideal_picture (cell : List ℚ → Int) (data : List Nat) (h w m p M n q N : Nat)
    (hd : RawBands data h w (band m p M) (band n q N)) (hr : Side h m p M) (hc : Side w n q N) (hp : 10 ≤ p) (hp2 : p ≤ 200)
    (hq : 10 ≤ q) (hq2 : q ≤ 200) (h1 : h < 2 ^ 19) (h2 : w < 2 ^ 19) :
    obrBoard cell data h w = some (.ok (legalizeBoard ((List.range M).map fun i => (List.range N).map fun j =>
      cell (cellSamples (band m p M) (band n q N) m p n q i j)))) := by
  have hM : 4 * p ≤ M * p := Nat.mul_le_mul_right p hr.cells
  have hN : 4 * q ≤ N * q := Nat.mul_le_mul_right q hc.cells
  have hM2 : M * 10 ≤ M * p := Nat.mul_le_mul_left M hp
  have hN2 : N * 10 ≤ N * q := Nat.mul_le_mul_left N hq
  have k1 := hr.trail.1
  have k2 := hc.trail.1
  have k3 := hr.cells
  have k4 := hc.cells
  obtain ⟨x, x1, x2, x3, x4⟩ := raw_straight hd (by omega) (by omega)
  have hr' : Side x.rows m p M := by rw [x2]; exact hr
  have hc' : Side x.cols n q N := by rw [x3]; exact hc
  have hpos := cells_found x4 hr' hc' hp hp2 hq hq2 (by omega) (by omega)
  unfold obrBoard
  rw [if_neg (by omega), x1]
  simp only [Option.bind_eq_bind, Option.bind_some, hpos]
  rw [if_neg (by omega), if_neg (by omega)]
  rw [mapM_pure (g := fun i => (List.range N).map fun j => cell (cellSamples (band m p M) (band n q N) m p n q i j))]
  · rfl
  · intro i hi
    rw [List.mem_range] at hi
    refine mapM_pure fun j hj => ?_
    rw [List.mem_range] at hj
    rw [cells_sample x4 hr' hc' hp2 hq2 (by omega) (by omega) hi hj]
    rfl

/-- **C74** (finding): the same picture with cells of 206 pixels or more in one direction makes it panic (an allocation of a row of
`2^64 - 1` cells, or of that many rows), although 8 to 300 pixels are documented. -/
theorem C74_large_cells_panic (cell : List ℚ → Int) (data : List Nat) (h w m p M n q N : Nat)
    (hd : RawBands data h w (band m p M) (band n q N)) (hr : Side h m p M) (hc : Side w n q N) (hp : 10 ≤ p)
    (hq : 10 ≤ q) (hlarge : (206 ≤ p ∧ (206 ≤ q ∨ q ≤ 200)) ∨ (206 ≤ q ∧ p ≤ 200)) (h1 : h ≤ 2 ^ 24) (h2 : w ≤ 2 ^ 24) :
    obrBoard cell data h w = none := by
  have hM : 4 * p ≤ M * p := Nat.mul_le_mul_right p hr.cells
  have hN : 4 * q ≤ N * q := Nat.mul_le_mul_right q hc.cells
  have k1 := hr.trail.1
  have k2 := hc.trail.1
  have k3 := hr.cells
  have k4 := hc.cells
  have k5 := hr.lead
  have k6 := hc.lead
  obtain ⟨x, x1, x2, x3, x4⟩ := raw_straight hd (by omega) (by omega)
  have hr' : Side x.rows m p M := by rw [x2]; exact hr
  have hc' : Side x.cols n q N := by rw [x3]; exact hc
  obtain ⟨cs, rs, a1, a2, b1, b2, e⟩ := cells_posPixel x4 hr' hc' (by omega) (by omega)
  have hcs : ∃ lc, getLine cs = some lc ∧ ((206 ≤ q ∧ lc.2.2 = 2 ^ 64 - 1) ∨ (q ≤ 200 ∧ lc.2.2 = N)) := by
    by_cases h200 : q ≤ 200
    · exact ⟨_, a1.getLine (by omega) (by omega) (by omega) h200 (by omega) (by omega) (by omega) (by omega) (by omega), .inr ⟨h200, rfl⟩⟩
    · exact ⟨_, a1.getLine_large (by omega) (by omega) (by omega) (by omega) (by omega) (by omega), .inl ⟨by omega, rfl⟩⟩
  have hrs : ∃ lr, getLine rs = some lr ∧ ((206 ≤ p ∧ lr.2.2 = 2 ^ 64 - 1) ∨ (p ≤ 200 ∧ lr.2.2 = M)) := by
    by_cases h200 : p ≤ 200
    · exact ⟨_, b1.getLine (by omega) (by omega) (by omega) h200 (by omega) (by omega) (by omega) (by omega) (by omega), .inr ⟨h200, rfl⟩⟩
    · exact ⟨_, b1.getLine_large (by omega) (by omega) (by omega) (by omega) (by omega) (by omega), .inl ⟨by omega, rfl⟩⟩
  obtain ⟨lc, gc, vc⟩ := hcs
  obtain ⟨lr, gr, vr⟩ := hrs
  have hpos : posPixel x = some (x, some ⟨lr.1, lr.2.1, lr.2.2, lc.1, lc.2.1, lc.2.2, 0, 0⟩) := by
    rw [e, gc, gr]
    rfl
  unfold obrBoard
  rw [if_neg (by omega), x1]
  simp only [Option.bind_eq_bind, Option.bind_some, hpos]
  rw [if_neg (by omega), if_pos (by omega)]
  rfl

/-- **C74**: with eight or more rows and columns, the margins are all that is asked for. -/
theorem C74_eight (len m p M : Nat) (hm : 2 ≤ m ∧ m ≤ 5) (hM : 8 ≤ M) (hp : 8 ≤ p) (ht : m + M * p + 5 ≤ len ∧ len ≤ m + (M + 1) * p) :
    Side len m p M := side_of_eight hm hM hp ht

/-- not void: a beginner's board of cells of 16 pixels, a board of 6 x 6, and a beginner's board of cells of 300 pixels -/
example (cell : List ℚ → Int) : ∃ b, obrBoard cell (rawBands 138 138 (band 5 16 8) (band 5 16 8)) 138 138 = some (.ok b) :=
  have hs := C74_eight 138 5 16 8 (by omega) (by omega) (by omega) (by omega)
  ⟨_, C74_ideal_picture cell _ 138 138 5 16 8 5 16 8 (rawBands_spec _ _ _ _) hs hs
    (by omega) (by omega) (by omega) (by omega) (by omega) (by omega)⟩

example (cell : List ℚ → Int) : ∃ b, obrBoard cell (rawBands 106 106 (band 5 16 6) (band 5 16 6)) 106 106 = some (.ok b) :=
  have hs : Side 106 5 16 6 := ⟨by omega, by omega, by omega, 2, by omega, by omega, by omega⟩
  ⟨_, C74_ideal_picture cell _ 106 106 5 16 6 5 16 6 (rawBands_spec _ _ _ _) hs hs
    (by omega) (by omega) (by omega) (by omega) (by omega) (by omega)⟩

example (cell : List ℚ → Int) : obrBoard cell (rawBands 2410 2410 (band 5 300 8) (band 5 300 8)) 2410 2410 = none :=
  have hs := C74_eight 2410 5 300 8 (by omega) (by omega) (by omega) (by omega)
  C74_large_cells_panic cell _ 2410 2410 5 300 8 5 300 8 (rawBands_spec _ _ _ _) hs hs
    (by omega) (by omega) (by omega) (by omega) (by omega)

/-- (finding) The samples of cell `i` (pixels `m + i * p` to `m + (i + 1) * p - 1`) are two pixels off: the first ones lie above
(left of) the cell when it is smaller than 64 pixels, and none lies in its last two rows (columns) of pixels. -/
theorem C74_samples_shifted (m p i a : Nat) (hm : 2 ≤ m) (ha : a < 16) (hp : 0 < p) :
    (p < 64 → m - 2 + i * p + p * (2 * 0 + 1) / 32 < m + i * p) ∧
    m - 2 + i * p + p * (2 * a + 1) / 32 < m + (i + 1) * p - 2 := by
  have hpa : p * (2 * a + 1) ≤ p * 31 := Nat.mul_le_mul_left p (by omega)
  have e : (i + 1) * p = i * p + p := Nat.succ_mul i p
  generalize p * (2 * a + 1) = z at *
  omega

end Ms.Properties
