import Verif.Lemmas.ObrReach
import Verif.Properties.Obr

/-! # C72: samples outside the picture -/

namespace Ms.Properties
open Ms Ms.Spec

theorem mapM_none {α β : Type} {f : α → Option β} {a : α} : ∀ {l : List α}, a ∈ l → f a = none → l.mapM f = none
  | b :: l, h, ha => by
    rw [List.mapM_cons]
    rcases List.mem_cons.mp h with rfl | h
    · rw [ha]; rfl
    · cases f b with
      | none => rfl
      | some c => rw [mapM_none h ha]; rfl

/-- the lines of a frame and of a board of nine rows of cells of 10 pixels (the last one has 11) -/
def frameLines : List Nat := [1, 18, 28, 38, 48, 58, 68, 78, 88, 99]

/-- the colour changes two places after each of these places -/
def frameBand (i : Nat) : Bool := (frameLines.filter fun a => decide (a + 2 ≤ i)).length % 2 == 1

theorem frame_line {x : List Nat} (h : findLines x = some frameLines) : getLine x = some (10, 8, 10) := by
  rw [getLine_of_lines h (m := [10, 10, 10, 10, 10, 10, 10, 11, 17]) (size := 10) (L' := frameLines) (a := 1) (b := 99) (best := (8, 40))
    (by decide +kernel) (by decide +kernel) (by decide +kernel) (by omega) (by decide +kernel) rfl rfl (by decide +kernel)]
  decide +kernel

/-- `frameBand`: where the picture shows edges -/
theorem frame_edges : ∀ i, i < 104 → ((frameBand i != frameBand (i + 2)) = true ↔ ∃ a ∈ frameLines, i = a ∨ i = a + 1) := by
  decide +kernel

/-- **C72** (finding): a picture of 106 x 106 pixels (a frame around nine rows and columns of cells of 10 pixels, the last one of 11)
in which rows and columns are found, ten of each, beginning eight pixels from the corner: the samples of the last one lie outside
the picture, and `OBR_board` panics. -/
theorem C72_samples_outside (cell : List ℚ → Int) (data : List Nat) (hd : RawBands data 106 106 frameBand frameBand) :
    (∃ x, imageNew data 106 106 = some x ∧ posPixel x = some (x, some ⟨10, 8, 10, 10, 8, 10, 0, 0⟩)) ∧
      sampleAt 0 8 10 16 9 15 = 107 ∧ obrBoard cell data 106 106 = none := by
  obtain ⟨x, x1, x2, x3, x4⟩ := raw_straight hd (by omega) (by omega)
  obtain ⟨g, b, g1, b1, b2, b3, hb⟩ := straight_px x4 (by omega) (by omega)
  rw [x2] at b2
  rw [x3] at b3
  have hs : sampleAt 0 8 10 16 9 15 = 107 := by
    have := sampleAt_exact (o := 8) (p := 10) (x := 9) (a := 15) (by omega) (by omega) (by omega)
    simpa using this
  have hcut := straight_cut (b := b) (E := fun i => frameBand i != frameBand (i + 2)) (F := fun i => frameBand i != frameBand (i + 2))
    (by omega) (by omega) hb (.inr ⟨by rw [b2]; decide +kernel, ⟨4, by omega, by omega, by decide +kernel⟩, 60, by omega, by omega, by decide +kernel⟩)
    (.inr (.inr ⟨by rw [b3]; decide +kernel, ⟨4, by omega, by omega, by decide +kernel⟩, 60, by omega, by omega, by decide +kernel⟩))
  have hpos := straight_posPixel g1 b1 (by omega) (by omega) (by omega) (by omega) hcut
  obtain ⟨cs, s1, s2, s3⟩ := scores_lines (hit := fun i j => b.read i j) (E := fun i => frameBand i != frameBand (i + 2))
    (F := fun i => frameBand i != frameBand (i + 2)) (rows := b.rows) (cols := b.cols) (e := 20) (L := frameLines) (by omega) (by omega)
    (by decide +kernel) (by decide +kernel) (by rw [b3]; decide +kernel) (fun j hj => frame_edges j (by omega)) hb
    ⟨4, by omega, by omega, by decide +kernel⟩ (by rw [b2]; decide +kernel) (by omega)
  obtain ⟨rs, t1, t2, t3⟩ := scores_lines (hit := fun i j => b.read j i) (E := fun i => frameBand i != frameBand (i + 2))
    (F := fun i => frameBand i != frameBand (i + 2)) (rows := b.cols) (cols := b.rows) (e := 20) (L := frameLines) (by omega) (by omega)
    (by decide +kernel) (by decide +kernel) (by rw [b2]; decide +kernel) (fun j hj => frame_edges j (by omega))
    (fun i hi j hj => by rw [hb j hj i hi, Bool.or_comm])
    ⟨4, by omega, by omega, by decide +kernel⟩ (by rw [b3]; decide +kernel) (by omega)
  have c1 := frame_line (s3.findLines (by omega) (by omega) (by decide) (by omega) (by omega) (by omega))
  have c2 := frame_line (t3.findLines (by omega) (by omega) (by decide) (by omega) (by omega) (by omega))
  have hpos' : posPixel x = some (x, some ⟨10, 8, 10, 10, 8, 10, 0, 0⟩) := by
    rw [hpos]
    simp only [s1, t1, c1, c2, Option.bind_eq_bind, Option.bind_some]
    rfl
  refine ⟨⟨x, x1, hpos'⟩, hs, ?_⟩
  unfold obrBoard
  rw [if_neg (by omega), x1]
  simp only [Option.bind_eq_bind, Option.bind_some, hpos']
  rw [if_neg (by omega), if_neg (by omega)]
  have hnone : ∀ j, extraCell x ⟨10, 8, 10, 10, 8, 10, 0, 0⟩ 9 j 16 = none := fun j =>
    mapM_none (a := (0, 15, 0)) (by simp) (by
      show Option.map _ (x.read (sampleAt 0 8 10 16 9 15) _) = none
      rw [hs]
      unfold Pic.read
      rw [if_neg (by omega)]
      rfl)
  refine Option.bind_eq_none_iff.mpr fun l hl => ?_
  rw [mapM_none (a := 9) (by simp) ?_] at hl
  · cases hl
  · exact mapM_none (a := 0) (by simp) (by
      show Option.map cell (extraCell x _ 9 0 16) = none
      rw [hnone]
      rfl)

/-- there is such a picture -/
example (cell : List ℚ → Int) : obrBoard cell (rawBands 106 106 frameBand frameBand) 106 106 = none :=
  (C72_samples_outside cell _ (rawBands_spec _ _ _ _)).2.2

/-- **C73**: lines at any places, one or two pixels wide and more than eight pixels apart: the lines found are exactly these. -/
theorem C73_lines_found (x : List Nat) (H w : Nat) (L : List Nat) (hx : LinesAt x H w L) (hw1 : 1 ≤ w) (hw : w ≤ 2) (hL : L ≠ [])
    (h8 : 8 ≤ x.length) (h0 : 0 < H) (h24 : H ≤ 2 ^ 24) : findLines x = some L := hx.findLines hw1 hw hL h8 h0 h24

/-- not void -/
example : LinesAt [2, 9, 2, 2, 2, 2, 2, 2, 2, 2, 2, 2, 2, 9, 2, 2, 2, 2, 2, 2, 2, 2, 9] 9 1 [1, 13, 22] :=
  ⟨by decide, by decide, by decide, by decide, by decide⟩

/-! ## how far outside -/

theorem line_samples {s : List Nat} {v : ℚ × Nat × Nat} {r1 i a : Nat} (h8 : 8 ≤ s.length) (h16 : r1 + s.length < 2 ^ 16) (h : getLine s = some v)
    (hn : v.2.2 < 2 ^ 62) (hi : i < v.2.2) (ha : a < 16) :
    ∃ l b, findLines s = some l ∧ b ∈ l ∧ sampleAt r1 v.2.1 v.1 16 i a < r1 + b + 9 := by
  obtain ⟨p, o, n⟩ := v
  obtain ⟨l, b, h1, h2, y, rfl, y1, y2, y3⟩ := getLine_reach h8 (by omega) h hn
  have hb := (findLines_sorted h1).2 b h2
  exact ⟨l, b, h1, h2, sampleAt_reach (m := b + 9) (by omega) y2 ha hi y3 (by omega)⟩

/-- **C72**: how far the samples of the cells reach.  When rows and columns are found (and their number is not the greatest one
there is), each sample lies at most four pixels outside the picture it is taken from; and it lies inside where the last five rows
(columns) of the part that was cut out are faint, that is: have at most a third of the greatest score. -/
theorem C72_samples_reach (x y : Image) (l : Layout) (hr : 25 ≤ x.rows) (hc : 25 ≤ x.cols) (hr2 : x.rows < 2 ^ 16) (hc2 : x.cols < 2 ^ 16)
    (h : posPixel x = some (y, some l)) (h1 : l.r < 2 ^ 62) (h2 : l.c < 2 ^ 62) :
    (∀ i, i < l.r → ∀ a, a < 16 → sampleAt l.r1 l.r0 l.pixelr 16 i a ≤ y.rows + 4) ∧
    (∀ j, j < l.c → ∀ a, a < 16 → sampleAt l.c1 l.c0 l.pixelc 16 j a ≤ y.cols + 4) ∧
    ∃ (b : Pic Bool) (r2 c2 : Nat) (cs rs : List Nat), scores (fun i j => b.read i j) l.r1 r2 l.c1 c2 = some cs ∧
      scores (fun i j => b.read j i) l.c1 c2 l.r1 r2 = some rs ∧
      (Faint rs 5 → ∀ i, i < l.r → ∀ a, a < 16 → sampleAt l.r1 l.r0 l.pixelr 16 i a < y.rows) ∧
      (Faint cs 5 → ∀ j, j < l.c → ∀ a, a < 16 → sampleAt l.c1 l.c0 l.pixelc 16 j a < y.cols) := by
  rcases C72_segmentation_partial x hr hc with ⟨y', e⟩ | ⟨y', b, r1, r2, c1, c2, cs, rs, a1, a2, a3, a4, a5, a6, a7, a8, a9, a10, a11, a12,
    -, a13⟩
  · rw [h] at e
    cases e
  · obtain ⟨rfl, lc, lr, g1, g2, e⟩ := a13 y (some l) h
    cases e
    simp only at h1 h2 ⊢
    have key : ∀ (s : List Nat) (v : ℚ × Nat × Nat) (b1 b2 len : Nat), s.length = b2 - b1 → b1 + 8 ≤ b2 → b2 + 2 < len → len < 2 ^ 16 →
        getLine s = some v → v.2.2 < 2 ^ 62 → ∀ i, i < v.2.2 → ∀ a, a < 16 →
        sampleAt b1 v.2.1 v.1 16 i a ≤ len + 4 ∧ (Faint s 5 → sampleAt b1 v.2.1 v.1 16 i a < len) := by
      intro s v b1 b2 len q1 q2 q3 q4 q5 q6 i hi a ha
      obtain ⟨l, b, w1, w2, w3⟩ := line_samples (r1 := b1) (by omega) (by omega) q5 q6 hi ha
      have hb := (findLines_sorted w1).2 b w2
      refine ⟨by omega, fun ⟨H, f1, f2, f3, f4, f5⟩ => ?_⟩
      have := findLines_faint f1 f2 f3 f4 w1 f5 w2
      omega
    refine ⟨fun i hi a ha => (key rs lr r1 r2 _ a8 a1 a10 (by omega) g2 h1 i hi a ha).1,
      fun j hj a ha => (key cs lc c1 c2 _ a7 a2 a9 (by omega) g1 h2 j hj a ha).1, b, r2, c2, cs, rs, a5, a6,
      fun hf i hi a ha => (key rs lr r1 r2 _ a8 a1 a10 (by omega) g2 h1 i hi a ha).2 hf,
      fun hf j hj a ha => (key cs lc c1 c2 _ a7 a2 a9 (by omega) g1 h2 j hj a ha).2 hf⟩

/-- not void: the picture above, and an ideal picture of a beginner's board -/
example : ∃ x y l, posPixel x = some (y, some l) ∧ 25 ≤ x.rows ∧ 25 ≤ x.cols ∧ l.r = 10 ∧ l.c = 10 := by
  obtain ⟨⟨x, h1, h2⟩, -, -⟩ := C72_samples_outside (fun _ => 0) _ (rawBands_spec 106 106 frameBand frameBand)
  obtain ⟨x', e, r, c, -⟩ := raw_straight (rawBands_spec 106 106 frameBand frameBand) (by omega) (by omega)
  rw [h1] at e
  cases e
  exact ⟨x, x, _, h2, by omega, by omega, rfl, rfl⟩

example : Faint (scoreSample 10 2 ++ [0, 0, 0, 0]) 5 :=
  ⟨9, by omega, by omega, by decide +kernel, by decide +kernel, by decide +kernel⟩

/-! ## when it panics -/

theorem extraCell_none {x : Image} {l : Layout} {i j : Nat} : extraCell x l i j 16 = none ↔
    (∃ a, a < 16 ∧ x.rows ≤ sampleAt l.r1 l.r0 l.pixelr 16 i a) ∨ ∃ a, a < 16 ∧ x.cols ≤ sampleAt l.c1 l.c0 l.pixelc 16 j a := by
  constructor
  · intro h
    by_contra hc
    push Not at hc
    obtain ⟨m, hm, -⟩ := mapM_some' (f := fun q : Fin 3 × Nat × Nat =>
      (x.read (sampleAt l.r1 l.r0 l.pixelr 16 i q.2.1) (sampleAt l.c1 l.c0 l.pixelc 16 j q.2.2)).map fun v => v q.1)
      (l := ([0, 1, 2] : List (Fin 3)).flatMap fun k => (List.range 16).flatMap fun a => (List.range 16).map fun b => (k, a, b)) (by
        rintro ⟨k, a, b⟩ hq
        simp only [List.mem_flatMap, List.mem_map, List.mem_range, Prod.mk.injEq] at hq
        obtain ⟨k', -, a', ha, b', hb, rfl, rfl, rfl⟩ := hq
        rw [read_some (hc.1 a' ha) (hc.2 b' hb)]
        rfl)
    unfold extraCell at h
    rw [hm] at h
    cases h
  · rintro (⟨a, ha, h⟩ | ⟨a, ha, h⟩)
    · refine mapM_none (a := (0, a, 0)) (by simp [ha]) ?_
      show Option.map _ (x.read (sampleAt l.r1 l.r0 l.pixelr 16 i a) _) = none
      unfold Pic.read
      rw [if_neg (by omega)]
      rfl
    · refine mapM_none (a := (0, 0, a)) (by simp [ha]) ?_
      show Option.map _ (x.read _ (sampleAt l.c1 l.c0 l.pixelc 16 j a)) = none
      unfold Pic.read
      rw [if_neg (by omega)]
      rfl

/-- **C72**: exactly when `OBR_board` panics on complete data of 25 x 25 pixels or more: the segmentation does; or the number of
rows or columns found is beyond what can be allocated; or a sample lies outside. -/
theorem C72_panic_iff (cell : List ℚ → Int) (data : List Nat) (h w : Nat) (hh : 25 ≤ h) (hw : 25 ≤ w) (x : Image)
    (hx : imageNew data h w = some x) :
    obrBoard cell data h w = none ↔ posPixel x = none ∨ ∃ y l, posPixel x = some (y, some l) ∧ 4 ≤ l.r ∧ 4 ≤ l.c ∧
      (2 ^ 61 ≤ l.c ∨ 2 ^ 63 ≤ 24 * l.r ∨ (∃ i, i < l.r ∧ ∃ a, a < 16 ∧ y.rows ≤ sampleAt l.r1 l.r0 l.pixelr 16 i a) ∨
        ∃ j, j < l.c ∧ ∃ a, a < 16 ∧ y.cols ≤ sampleAt l.c1 l.c0 l.pixelc 16 j a) := by
  unfold obrBoard
  rw [if_neg (by omega), hx]
  simp only [Option.bind_eq_bind, Option.bind_some]
  cases hp : posPixel x with
  | none => simp
  | some v =>
    obtain ⟨y, l⟩ := v
    simp only [Option.bind_some]
    cases l with
    | none => simp
    | some l =>
      simp only
      constructor
      · intro hn
        right
        refine ⟨y, l, rfl, ?_⟩
        split at hn
        · cases hn
        rename_i h4
        refine ⟨by omega, by omega, ?_⟩
        split at hn
        · rename_i h61
          exact h61.elim .inl fun h => .inr (.inl h)
        right; right
        by_contra hc
        push Not at hc
        obtain ⟨m, hm, -⟩ := mapM_some' (f := fun i => (List.range l.c).mapM fun j => (extraCell y l i j 16).map cell) (l := List.range l.r) (by
          intro i hi
          rw [List.mem_range] at hi
          obtain ⟨m, hm, -⟩ := mapM_some' (f := fun j => (extraCell y l i j 16).map cell) (l := List.range l.c) (by
            intro j hj
            rw [List.mem_range] at hj
            cases he : extraCell y l i j 16 with
            | none =>
              rcases extraCell_none.mp he with ⟨a, ha, h⟩ | ⟨a, ha, h⟩
              · have := hc.1 i hi a ha
                omega
              · have := hc.2 j hj a ha
                omega
            | some _ => rfl)
          rw [hm]
          rfl)
        rw [hm] at hn
        cases hn
      · rintro (hn | ⟨y', l', e, h4, h4', hn⟩)
        · cases hn
        · cases e
          rw [if_neg (by omega)]
          by_cases h61 : 2 ^ 61 ≤ l.c ∨ 2 ^ 63 ≤ 24 * l.r
          · rw [if_pos h61]
            rfl
          · rw [if_neg h61]
            refine Option.bind_eq_none_iff.mpr fun m hm => ?_
            exfalso
            rcases hn with hn | hn | ⟨i, hi, hn⟩ | ⟨j, hj, hn⟩
            · exact h61 (.inl hn)
            · exact h61 (.inr hn)
            · rw [mapM_none (a := i) (by simpa using hi) (mapM_none (a := 0) (by simp; omega) (by
                show Option.map cell (extraCell y l i 0 16) = none
                rw [extraCell_none.mpr (.inl hn)]; rfl))] at hm
              cases hm
            · have h0 : (List.range l.c).mapM (fun j => (extraCell y l 0 j 16).map cell) = none :=
                mapM_none (a := j) (by simpa using hj) (by rw [extraCell_none.mpr (.inr hn)]; rfl)
              rw [mapM_none (a := (0 : Nat)) (by simp; omega) h0] at hm
              cases hm

end Ms.Properties
