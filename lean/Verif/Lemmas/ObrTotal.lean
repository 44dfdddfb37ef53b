import Verif.Lemmas.Float32
import Verif.Lemmas.Strip
import Mathlib.Data.List.Sort

/-! # The segmentation of a picture: what cannot panic -/

namespace Ms.Properties
open Ms Ms.Spec

theorem mem_rng' {lo hi n : Nat} : n ∈ rng lo hi ↔ lo ≤ n ∧ n < hi := by
  unfold rng
  rw [List.mem_range'_1]
  omega

theorem build_some {α : Type} [Inhabited α] {rows cols : Nat} {f : Nat → Nat → Option α}
    (h : ∀ i, i < rows → ∀ j, j < cols → (f i j).isSome) :
    ∃ p, Pic.build rows cols f = some p ∧ p.rows = rows ∧ p.cols = cols ∧
      ∀ i, i < rows → ∀ j, j < cols → f i j = some (p.px i j) := by
  refine ⟨⟨rows, cols, fun i j => (f i j).getD default⟩, ?_, rfl, rfl, ?_⟩
  · unfold Pic.build
    rw [if_pos]
    rw [List.all_eq_true]
    intro i hi
    rw [List.all_eq_true]
    intro j hj
    exact h i (List.mem_range.mp hi) j (List.mem_range.mp hj)
  · intro i hi j hj
    obtain ⟨v, hv⟩ := Option.isSome_iff_exists.mp (h i hi j hj)
    simp [hv]

theorem build_isSome {α : Type} [Inhabited α] {rows cols : Nat} {f : Nat → Nat → Option α} {p : Pic α}
    (h : Pic.build rows cols f = some p) : ∀ i, i < rows → ∀ j, j < cols → (f i j).isSome := by
  unfold Pic.build at h
  split at h
  · rename_i hc
    intro i hi j hj
    rw [List.all_eq_true] at hc
    have := hc i (List.mem_range.mpr hi)
    rw [List.all_eq_true] at this
    exact this j (List.mem_range.mpr hj)
  · cases h

theorem read_some {α : Type} {x : Pic α} {i j : Nat} (hi : i < x.rows) (hj : j < x.cols) : x.read i j = some (x.px i j) := by
  unfold Pic.read
  rw [if_pos ⟨hi, hj⟩]

/-- the pixels of a picture exist exactly when there are enough numbers -/
theorem imageNew_some {data : List Nat} {h w : Nat} (hh : 0 < h) (hw : 0 < w) :
    (∃ x, imageNew data h w = some x ∧ x.rows = h ∧ x.cols = w) ↔ 4 * (h * w) ≤ data.length + 1 := by
  have hhw : 0 < h * w := Nat.mul_pos hh hw
  constructor
  · rintro ⟨x, hx, -⟩
    have := build_isSome hx (h - 1) (by omega) (w - 1) (by omega)
    by_contra hc
    have e : (h - 1) * w + (w - 1) = h * w - 1 := by
      obtain ⟨k, rfl⟩ : ∃ k, h = k + 1 := ⟨h - 1, by omega⟩
      rw [Nat.add_sub_cancel, Nat.add_mul]
      omega
    rw [e, List.getElem?_eq_none (by omega)] at this
    simp at this
  · intro hd
    obtain ⟨p, p1, p2, p3, -⟩ := build_some (α := Fin 3 → ℚ) (rows := h) (cols := w) (f := fun i j => do
        let a ← data[(i * w + j) * 4 + 2]?
        let b ← data[(i * w + j) * 4 + 1]?
        let c ← data[(i * w + j) * 4 + 0]?
        return ![fl32 (fl32 a / 255), fl32 (fl32 b / 255), fl32 (fl32 c / 255)]) (by
      intro i hi j hj
      have hb : i * w + j < h * w := by
        calc i * w + j < i * w + w := by omega
          _ = (i + 1) * w := by ring
          _ ≤ h * w := Nat.mul_le_mul_right _ hi
      simp [List.getElem?_eq_getElem (show (i * w + j) * 4 + 2 < data.length by omega),
        List.getElem?_eq_getElem (show (i * w + j) * 4 + 1 < data.length by omega),
        List.getElem?_eq_getElem (show (i * w + j) * 4 < data.length by omega)])
    exact ⟨p, p1, p2, p3⟩

theorem gradient_some {x : Image} (hr : 2 ≤ x.rows) (hc : 2 ≤ x.cols) :
    ∃ g, gradient x = some g ∧ g.rows = x.rows - 2 ∧ g.cols = x.cols - 2 := by
  unfold gradient
  rw [if_neg (by omega)]
  obtain ⟨p, p1, p2, p3, -⟩ := build_some (α := ℚ) (rows := x.rows - 2) (cols := x.cols - 2) (f := fun i j => do
    let a ← x.read i j
    let b ← x.read i (j + 1)
    let c ← x.read i (j + 2)
    let d ← x.read (i + 1) j
    let e ← x.read (i + 1) (j + 2)
    let f ← x.read (i + 2) j
    let g ← x.read (i + 2) (j + 1)
    let h ← x.read (i + 2) (j + 2)
    return ([0, 1, 2] : List (Fin 3)).foldl (fun m k =>
      keepMax (keepMax m (six (a k) (b k) (c k) (f k) (g k) (h k))) (six (a k) (d k) (f k) (c k) (e k) (h k))) 0) (by
    intro i hi j hj
    rw [read_some (by omega) (by omega), read_some (by omega) (by omega), read_some (by omega) (by omega),
      read_some (by omega) (by omega), read_some (by omega) (by omega), read_some (by omega) (by omega),
      read_some (by omega) (by omega), read_some (by omega) (by omega)]
    rfl)
  exact ⟨p, p1, p2, p3⟩

theorem mapM_some' {α β : Type} {f : α → Option β} : ∀ {l : List α}, (∀ a ∈ l, (f a).isSome) →
    ∃ m, l.mapM f = some m ∧ m.length = l.length
  | [], _ => ⟨[], rfl, rfl⟩
  | a :: l, h => by
    obtain ⟨b, hb⟩ := Option.isSome_iff_exists.mp (h a (by simp))
    obtain ⟨m, hm, hl⟩ := mapM_some' (f := f) (l := l) (fun x hx => h x (by simp [hx]))
    exact ⟨b :: m, by simp [hb, hm], by simp [hl]⟩

theorem length_square (r1 r2 c1 c2 : Nat) :
    ((rng r1 r2).flatMap fun i => (rng c1 c2).map fun j => (i, j)).length = (r2 - r1) * (c2 - c1) := by
  rw [List.length_flatMap]
  simp [rng]

theorem mem_square {r1 r2 c1 c2 : Nat} {p : Nat × Nat}
    (h : p ∈ (rng r1 r2).flatMap fun i => (rng c1 c2).map fun j => (i, j)) :
    r1 ≤ p.1 ∧ p.1 < r2 ∧ c1 ≤ p.2 ∧ p.2 < c2 := by
  rw [List.mem_flatMap] at h
  obtain ⟨i, hi, h⟩ := h
  rw [List.mem_map] at h
  obtain ⟨j, hj, rfl⟩ := h
  rw [mem_rng'] at hi hj
  exact ⟨hi.1, hi.2, hj.1, hj.2⟩

theorem length_sortQ (l : List ℚ) : (sortQ l).length = l.length := List.length_mergeSort _
theorem length_sortN (l : List Nat) : (sortN l).length = l.length := List.length_mergeSort _

theorem threshold_some {x : Pic ℚ} (hr : 2 ≤ x.rows) (hc : 2 ≤ x.cols) : ∃ th, threshold x = some th := by
  unfold threshold
  obtain ⟨m, hm, hl⟩ := mapM_some' (f := fun p : Nat × Nat => x.read p.1 p.2)
    (l := (rng (x.rows / 4) (x.rows * 3 / 4)).flatMap fun i => (rng (x.cols / 4) (x.cols * 3 / 4)).map fun j => (i, j)) (by
      intro p hp
      have := mem_square hp
      rw [read_some (by omega) (by omega)]
      rfl)
  have hpos : 0 < m.length := by
    rw [hl, length_square]
    exact Nat.mul_pos (by omega) (by omega)
  have hi := toIdx_part (q := 55 / 100) hpos (by norm_num) (by norm_num)
  rw [← length_sortQ] at hi
  simp only [hm, Option.bind_eq_bind, Option.bind_some]
  rw [length_sortQ] at hi
  rw [List.getElem?_eq_getElem (by rw [length_sortQ]; exact hi)]
  exact ⟨_, rfl⟩

theorem binarize_some {x : Pic ℚ} (hr : 2 ≤ x.rows) (hc : 2 ≤ x.cols) :
    ∃ b, binarize x = some b ∧ b.rows = x.rows ∧ b.cols = x.cols := by
  obtain ⟨th, h⟩ := threshold_some hr hc
  unfold binarize
  rw [if_neg (by omega), h]
  exact ⟨_, rfl, rfl, rfl⟩

theorem fifth_some {hit : Nat → Option Bool} : ∀ {ns : List Nat} {k : Nat}, (∀ n ∈ ns, (hit n).isSome) →
    ∃ r, fifth hit k ns = some r ∧ ∀ n, r = some n → n ∈ ns
  | [], _, _ => ⟨none, rfl, by simp⟩
  | n :: l, k, h => by
    obtain ⟨b, hb⟩ := Option.isSome_iff_exists.mp (h n (by simp))
    unfold fifth
    simp only [hb, Option.bind_eq_bind, Option.bind_some]
    have ih := fun k => fifth_some (hit := hit) (ns := l) (k := k) (fun x hx => h x (by simp [hx]))
    cases b
    · obtain ⟨r, h1, h2⟩ := ih k
      exact ⟨r, by simpa using h1, fun m hm => by simp [h2 m hm]⟩
    · by_cases hk : k + 1 ≥ 5
      · exact ⟨some n, by simp [hk], by simp⟩
      · obtain ⟨r, h1, h2⟩ := ih (k + 1)
        exact ⟨r, by simp [hk, h1], fun m hm => by simp [h2 m hm]⟩

theorem skipDown_some {hit : Nat → Nat → Option Bool} {ns : List Nat} {c : Nat} : ∀ {ks : List Nat},
    (∀ n ∈ ns, ∀ j, j ≤ c → (hit n j).isSome) → (∀ k ∈ ks, 1 ≤ k) →
    ∃ r, skipDown hit ns c ks = some r ∧ ∀ p, r = some p → p.1 < c ∧ p.2 ∈ ns
  | [], _, _ => ⟨none, rfl, by simp⟩
  | k :: ks, h, hk => by
    unfold skipDown
    by_cases hc : c ≤ k
    · rw [if_pos hc]
      exact ⟨none, rfl, by simp⟩
    · rw [if_neg hc]
      obtain ⟨r, h1, h2⟩ := fifth_some (hit := fun n => hit n (c - k)) (ns := ns) (k := 0) (fun n hn => h n hn _ (by omega))
      simp only [h1, Option.bind_eq_bind, Option.bind_some]
      have := hk k (by simp)
      cases r with
      | some n => exact ⟨some (c - k, n), rfl, fun p hp => by
          cases hp
          exact ⟨by show c - k < c; omega, h2 n rfl⟩⟩
      | none => exact skipDown_some h fun k' h' => hk k' (by simp [h'])

theorem scanDown_some {hit : Nat → Nat → Option Bool} {ns : List Nat} : ∀ {fuel c pos : Nat}, c < fuel →
    (∀ n, n ∈ ns ∨ n = pos → ∀ j, j ≤ c → (hit n j).isSome) →
    ∃ r, scanDown hit ns fuel c pos = some r ∧ r ≤ c
  | 0, _, _, h, _ => by omega
  | fuel + 1, c, pos, hf, h => by
    unfold scanDown
    by_cases hc : c = 0
    · rw [if_pos hc]
      exact ⟨0, rfl, by omega⟩
    · rw [if_neg hc]
      obtain ⟨b, hb⟩ := Option.isSome_iff_exists.mp (h pos (.inr rfl) (c - 1) (by omega))
      simp only [hb, Option.bind_eq_bind, Option.bind_some]
      cases b
      · obtain ⟨r, r1, r2⟩ := skipDown_some (hit := hit) (ns := ns) (c := c) (ks := [1, 2, 3])
          (fun n hn j hj => h n (.inl hn) j hj) (by simp)
        simp only [Bool.false_eq_true, if_false, r1, Option.bind_some]
        cases r with
        | none => exact ⟨c, rfl, le_rfl⟩
        | some p =>
          have hp := r2 p rfl
          obtain ⟨s, s1, s2⟩ := scanDown_some (hit := hit) (ns := ns) (fuel := fuel) (c := p.1) (pos := p.2) (by omega)
            (fun n hn j hj => h n (.inl (hn.elim id fun e => e ▸ hp.2)) j (by omega))
          exact ⟨s, s1, by omega⟩
      · obtain ⟨s, s1, s2⟩ := scanDown_some (hit := hit) (ns := ns) (fuel := fuel) (c := c - 1) (pos := pos) (by omega)
          (fun n hn j hj => h n hn j (by omega))
        exact ⟨s, by simpa using s1, by omega⟩

theorem skipUp_some {hit : Nat → Nat → Option Bool} {ns : List Nat} {last c : Nat} : ∀ {k : Nat} {len : Nat},
    (∀ n ∈ ns, ∀ j, j ≤ last → (hit n j).isSome) → c + k ≤ last → 1 ≤ k →
    ∃ r, skipUp hit ns last c (List.range' k len) = some r ∧ ∀ p, r = some p → c < p.1 ∧ p.1 ≤ last ∧ p.2 ∈ ns
  | k, 0, _, _, _ => ⟨none, rfl, by simp⟩
  | k, len + 1, h, hk, h1 => by
    rw [List.range'_succ]
    unfold skipUp
    by_cases hc : c + k = last
    · rw [if_pos hc]
      exact ⟨none, rfl, by simp⟩
    · rw [if_neg hc]
      obtain ⟨r, h1', h2⟩ := fifth_some (hit := fun n => hit n (c + k)) (ns := ns) (k := 0) (fun n hn => h n hn _ (by omega))
      simp only [h1', Option.bind_eq_bind, Option.bind_some]
      cases r with
      | some n => exact ⟨some (c + k, n), rfl, fun p hp => by
          cases hp
          exact ⟨by show c < c + k; omega, by show c + k ≤ last; omega, h2 n rfl⟩⟩
      | none => exact skipUp_some h (by omega) (by omega)

theorem scanUp_some {hit : Nat → Nat → Option Bool} {ns : List Nat} {last : Nat} : ∀ {fuel c pos : Nat}, last < fuel + c →
    c ≤ last → (∀ n, n ∈ ns ∨ n = pos → ∀ j, j ≤ last → (hit n j).isSome) →
    ∃ r, scanUp hit ns last fuel c pos = some r ∧ c ≤ r ∧ r ≤ last
  | 0, _, _, h, _, _ => by omega
  | fuel + 1, c, pos, hf, hl, h => by
    unfold scanUp
    by_cases hc : c = last
    · rw [if_pos hc]
      exact ⟨last, rfl, by omega, by omega⟩
    · rw [if_neg hc]
      obtain ⟨b, hb⟩ := Option.isSome_iff_exists.mp (h pos (.inr rfl) (c + 1) (by omega))
      simp only [hb, Option.bind_eq_bind, Option.bind_some]
      cases b
      · obtain ⟨r, r1, r2⟩ := skipUp_some (hit := hit) (ns := ns) (last := last) (c := c) (k := 1) (len := 3)
          (fun n hn j hj => h n (.inl hn) j hj) (by omega) le_rfl
        have e : List.range' 1 3 = [1, 2, 3] := rfl
        rw [e] at r1
        simp only [Bool.false_eq_true, if_false, r1, Option.bind_some]
        cases r with
        | none => exact ⟨c, rfl, le_rfl, hl⟩
        | some p =>
          have hp := r2 p rfl
          obtain ⟨s, s1, s2, s3⟩ := scanUp_some (hit := hit) (ns := ns) (last := last) (fuel := fuel) (c := p.1) (pos := p.2)
            (by omega) (by omega) (fun n hn j hj => h n (.inl (hn.elim id fun e => e ▸ hp.2.2)) j (by omega))
          exact ⟨s, s1, by omega, s3⟩
      · obtain ⟨s, s1, s2, s3⟩ := scanUp_some (hit := hit) (ns := ns) (last := last) (fuel := fuel) (c := c + 1) (pos := pos)
          (by omega) (by omega) (fun n hn j hj => h n hn j (by omega))
        exact ⟨s, by simpa using s1, by omega, s3⟩

/-- the cut of a picture of `row` x `col` edges -/
structure CutOk (k : Cut) (row col : Nat) : Prop where
  r1 : k.r1 ≤ row / 2
  r2 : row / 2 ≤ k.r2
  r3 : k.r2 < row
  c1 : k.c1 ≤ col / 2
  c2 : col / 2 ≤ k.c2
  c3 : k.c2 < col
  rp1 : k.rp1 = row / 3
  rp2 : k.rp2 = row * 2 / 3
  cp1 : k.cp1 = col / 3
  cp2 : k.cp2 = col * 2 / 3

theorem cutOut_some {x : Pic Bool} (hr : 1 ≤ x.rows) (hc : 1 ≤ x.cols) :
    ∃ k, cutOut x = some k ∧ CutOk k x.rows x.cols := by
  have hread : ∀ i, i < x.rows → ∀ j, j < x.cols → (x.read i j).isSome := fun i hi j hj => by
    rw [read_some hi hj]; rfl
  obtain ⟨c1, a1, a2⟩ := scanDown_some (hit := fun n c => x.read n c) (ns := rng (x.rows / 3) (x.rows * 2 / 3))
    (fuel := x.cols + 1) (c := x.cols / 2) (pos := x.rows / 3) (by omega) (by
      intro n hn j hj
      rw [mem_rng'] at hn
      exact hread n (by omega) j (by omega))
  obtain ⟨c2, b1, b2, b3⟩ := scanUp_some (hit := fun n c => x.read n c) (ns := rng (x.rows / 3) (x.rows * 2 / 3))
    (last := x.cols - 1) (fuel := x.cols + 1) (c := x.cols / 2) (pos := x.rows / 3) (by omega) (by omega) (by
      intro n hn j hj
      rw [mem_rng'] at hn
      exact hread n (by omega) j (by omega))
  obtain ⟨r1, d1, d2⟩ := scanDown_some (hit := fun n r => x.read r n) (ns := rng (x.cols / 3) (x.cols * 2 / 3))
    (fuel := x.rows + 1) (c := x.rows / 2) (pos := x.cols / 3) (by omega) (by
      intro n hn j hj
      rw [mem_rng'] at hn
      exact hread j (by omega) n (by omega))
  obtain ⟨r2, e1, e2, e3⟩ := scanUp_some (hit := fun n r => x.read r n) (ns := rng (x.cols / 3) (x.cols * 2 / 3))
    (last := x.rows - 1) (fuel := x.rows + 1) (c := x.rows / 2) (pos := x.cols / 3) (by omega) (by omega) (by
      intro n hn j hj
      rw [mem_rng'] at hn
      exact hread j (by omega) n (by omega))
  unfold cutOut
  rw [if_neg (by omega)]
  simp only [a1, b1, d1, e1, Option.bind_eq_bind, Option.bind_some]
  exact ⟨_, rfl, d2, e2, by show r2 < x.rows; omega, a2, b2, by show c2 < x.cols; omega, rfl, rfl, rfl, rfl⟩

theorem edges_some {x : Image} (hr : 4 ≤ x.rows) (hc : 4 ≤ x.cols) :
    ∃ b k, edges x = some (b, k) ∧ b.rows = x.rows - 2 ∧ b.cols = x.cols - 2 ∧ CutOk k (x.rows - 2) (x.cols - 2) := by
  obtain ⟨g, g1, g2, g3⟩ := gradient_some (x := x) (by omega) (by omega)
  obtain ⟨b, b1, b2, b3⟩ := binarize_some (x := g) (by omega) (by omega)
  obtain ⟨k, k1, k2⟩ := cutOut_some (x := b) (by omega) (by omega)
  refine ⟨b, k, by simp [edges, g1, b1, k1], by omega, by omega, ?_⟩
  rwa [b2, b3, g2, g3] at k2

theorem narrow_some (x : Image) : ∃ y, narrow 3 x = some y ∧ y.rows = x.rows / 3 ∧ y.cols = x.cols / 3 := by
  obtain ⟨p, p1, p2, p3, -⟩ := build_some (α := Fin 3 → ℚ) (rows := x.rows / 3) (cols := x.cols / 3) (f := fun i j => do
    let l ← ((rng (i * 3) ((i + 1) * 3)).flatMap fun a => (rng (j * 3) ((j + 1) * 3)).map fun b => (a, b)).mapM
      fun p => x.read p.1 p.2
    let a ← (sortQ (l.map fun v => v 0))[3 * 3 / 2]?
    let b ← (sortQ (l.map fun v => v 1))[3 * 3 / 2]?
    let c ← (sortQ (l.map fun v => v 2))[3 * 3 / 2]?
    return ![a, b, c]) (by
    intro i hi j hj
    obtain ⟨m, hm, hl⟩ := mapM_some' (f := fun p : Nat × Nat => x.read p.1 p.2)
      (l := (rng (i * 3) ((i + 1) * 3)).flatMap fun a => (rng (j * 3) ((j + 1) * 3)).map fun b => (a, b)) (by
        intro p hp
        have := mem_square hp
        rw [read_some (by omega) (by omega)]
        rfl)
    rw [length_square, show (i + 1) * 3 - i * 3 = 3 by omega, show (j + 1) * 3 - j * 3 = 3 by omega] at hl
    simp only [hm, Option.bind_eq_bind, Option.bind_some]
    rw [List.getElem?_eq_getElem (by rw [length_sortQ, List.length_map]; omega),
      List.getElem?_eq_getElem (by rw [length_sortQ, List.length_map]; omega),
      List.getElem?_eq_getElem (by rw [length_sortQ, List.length_map]; omega)]
    rfl)
  exact ⟨p, p1, p2, p3⟩

theorem tooSmall_some {k : Cut} {row col : Nat} (h : CutOk k row col) :
    tooSmall k row col = some (decide (k.r2 - k.r1 ≤ row / 3 ∨ k.c2 - k.c1 ≤ col / 3)) := by
  have := h.r1; have := h.r2; have := h.c1; have := h.c2
  unfold tooSmall
  rw [if_neg (by omega)]
  by_cases h1 : k.r2 - k.r1 ≤ row / 3
  · simp [h1]
  · rw [if_neg h1, if_neg (by omega)]
    simp [h1]

/-- after the narrowing: either nothing is found, or a cut that is large enough -/
theorem shrink_some : ∀ {fuel : Nat} {x : Image} {k : Cut} {row col : Nat}, x.rows < fuel → 25 ≤ x.rows → 25 ≤ x.cols →
    row = x.rows - 2 → col = x.cols - 2 → CutOk k row col →
    ∃ y r, shrink fuel x k row col = some (y, r) ∧ ∀ k' row' col', r = some (k', row', col') →
      CutOk k' row' col' ∧ row' ≤ row ∧ col' ≤ col ∧ 23 ≤ row' ∧ 23 ≤ col' ∧
      row' / 3 < k'.r2 - k'.r1 ∧ col' / 3 < k'.c2 - k'.c1 ∧ y.rows = row' + 2 ∧ y.cols = col' + 2
  | 0, _, _, _, _, h, _, _, _, _, _ => by omega
  | fuel + 1, x, k, row, col, hf, hr, hc, er, ec, hk => by
    unfold shrink
    simp only [tooSmall_some hk, Option.bind_eq_bind, Option.bind_some]
    by_cases ht : k.r2 - k.r1 ≤ row / 3 ∨ k.c2 - k.c1 ≤ col / 3
    · obtain ⟨y, y1, y2, y3⟩ := narrow_some x
      obtain ⟨b, k', e1, e2, e3, e4⟩ := edges_some (x := y) (by omega) (by omega)
      simp only [ht, decide_true, if_true, y1, e1, Option.bind_some]
      by_cases hs : y.rows - 2 ≤ 64 ∨ y.cols - 2 ≤ 64
      · exact ⟨y, none, by rw [if_pos hs]; rfl, by simp⟩
      · obtain ⟨z, r, h1, h2⟩ := shrink_some (fuel := fuel) (x := y) (k := k') (by omega) (by omega) (by omega) rfl rfl e4
        refine ⟨z, r, by rw [if_neg hs]; exact h1, fun k'' row' col' e => ?_⟩
        obtain ⟨a1, a2, a3, a4, a5, a6, a7, a8⟩ := h2 k'' row' col' e
        exact ⟨a1, by omega, by omega, a4, a5, a6, a7, a8⟩
    · refine ⟨x, some (k, row, col), by simp only [ht, decide_false, Bool.false_eq_true, if_false]; rfl, fun k' row' col' e => ?_⟩
      cases e
      push Not at ht
      exact ⟨hk, le_rfl, le_rfl, by omega, by omega, ht.1, ht.2, by omega, by omega⟩

theorem fewHits_some {hit : Nat → Option Nat} : ∀ {ns : List Nat} {s : Nat}, (∀ n ∈ ns, (hit n).isSome) →
    ∃ r, fewHits hit s ns = some r
  | [], s, _ => ⟨_, rfl⟩
  | n :: l, s, h => by
    obtain ⟨b, hb⟩ := Option.isSome_iff_exists.mp (h n (by simp))
    unfold fewHits
    simp only [hb, Option.bind_eq_bind, Option.bind_some]
    by_cases hk : s + b > 2
    · exact ⟨false, by simp [hk]⟩
    · obtain ⟨r, hr⟩ := fewHits_some (hit := hit) (ns := l) (s := s + b) (fun x hx => h x (by simp [hx]))
      exact ⟨r, by simp [hk, hr]⟩

theorem pushTo_some {few : Nat → Option Bool} : ∀ {l : List Nat} {cur : Nat}, (∀ c ∈ l, (few c).isSome) →
    ∃ r, pushTo few cur l = some r ∧ (r = cur ∨ r ∈ l)
  | [], cur, _ => ⟨cur, rfl, .inl rfl⟩
  | c :: l, cur, h => by
    obtain ⟨b, hb⟩ := Option.isSome_iff_exists.mp (h c (by simp))
    unfold pushTo
    simp only [hb, Option.bind_eq_bind, Option.bind_some]
    cases b
    · obtain ⟨r, r1, r2⟩ := pushTo_some (few := few) (l := l) (cur := c) (fun x hx => h x (by simp [hx]))
      exact ⟨r, by simpa using r1, .inr (by rcases r2 with e | e <;> simp [e])⟩
    · exact ⟨c, by simp, .inr (by simp)⟩

theorem twoHits_some {x : Pic Bool} {i j k l : Nat} (hi : i < x.rows) (hj : j < x.cols) (hk : k < x.rows) (hl : l < x.cols) :
    (twoHits x i j k l).isSome := by
  unfold twoHits
  rw [read_some hi hj, read_some hk hl]
  rfl

/-- the borders after the four loops -/
theorem widen_some {x : Pic Bool} {k : Cut} {row col : Nat} (hk : CutOk k row col) (hr : row ≤ x.rows) (hc : col ≤ x.cols)
    (h3 : 3 ≤ row) (h3' : 3 ≤ col) :
    ∃ k', widen x k row col = some k' ∧ k'.r1 ≤ k.r1 ∧ k.r2 ≤ k'.r2 ∧ k'.r2 < row ∧ k'.c1 ≤ k.c1 ∧ k.c2 ≤ k'.c2 ∧
      k'.c2 < col := by
  have q1 := hk.r1; have q2 := hk.r2; have q3 := hk.r3; have q4 := hk.c1; have q5 := hk.c2; have q6 := hk.c3
  have q7 := hk.rp1; have q8 := hk.rp2; have q9 := hk.cp1; have q10 := hk.cp2
  obtain ⟨c1, a1, a2⟩ := pushTo_some (few := fun c => fewHits (fun r => do twoHits x r c (← dec r) c) 0 (rng k.rp1 k.rp2))
    (l := (rng 1 (k.c1 + 1)).reverse) (cur := k.c1) (by
      intro c hc'
      rw [List.mem_reverse, mem_rng'] at hc'
      obtain ⟨r, hr'⟩ := fewHits_some (hit := fun r => do twoHits x r c (← dec r) c) (ns := rng k.rp1 k.rp2) (s := 0) (by
        intro n hn
        rw [mem_rng'] at hn
        have e : dec n = some (n - 1) := if_neg (by omega)
        simp only [e, Option.bind_eq_bind, Option.bind_some]
        exact twoHits_some (by omega) (by omega) (by omega) (by omega))
      rw [hr']; rfl)
  obtain ⟨c2, b1, b2⟩ := pushTo_some (few := fun c => fewHits (fun r => twoHits x r c r (c + 1)) 0 (rng k.rp1 k.rp2))
    (l := rng k.c2 (col - 1)) (cur := k.c2) (by
      intro c hc'
      rw [mem_rng'] at hc'
      obtain ⟨r, hr'⟩ := fewHits_some (hit := fun r => twoHits x r c r (c + 1)) (ns := rng k.rp1 k.rp2) (s := 0) (by
        intro n hn
        rw [mem_rng'] at hn
        exact twoHits_some (by omega) (by omega) (by omega) (by omega))
      rw [hr']; rfl)
  obtain ⟨r1, d1, d2⟩ := pushTo_some (few := fun r => fewHits (fun c => do twoHits x r c (← dec r) c) 0 (rng k.cp1 k.cp2))
    (l := (rng 1 (k.r1 + 1)).reverse) (cur := k.r1) (by
      intro c hc'
      rw [List.mem_reverse, mem_rng'] at hc'
      have e : dec c = some (c - 1) := if_neg (by omega)
      obtain ⟨r, hr'⟩ := fewHits_some (hit := fun n => do twoHits x c n (← dec c) n) (ns := rng k.cp1 k.cp2) (s := 0) (by
        intro n hn
        rw [mem_rng'] at hn
        simp only [e, Option.bind_eq_bind, Option.bind_some]
        exact twoHits_some (by omega) (by omega) (by omega) (by omega))
      rw [hr']; rfl)
  obtain ⟨r2, e1, e2⟩ := pushTo_some (few := fun r => fewHits (fun c => twoHits x r c (r + 1) c) 0 (rng k.cp1 k.cp2))
    (l := rng k.r2 (row - 1)) (cur := k.r2) (by
      intro c hc'
      rw [mem_rng'] at hc'
      obtain ⟨r, hr'⟩ := fewHits_some (hit := fun n => twoHits x c n (c + 1) n) (ns := rng k.cp1 k.cp2) (s := 0) (by
        intro n hn
        rw [mem_rng'] at hn
        exact twoHits_some (by omega) (by omega) (by omega) (by omega))
      rw [hr']; rfl)
  rw [List.mem_reverse, mem_rng'] at a2 d2
  rw [mem_rng'] at b2 e2
  refine ⟨{ k with r1 := r1, r2 := r2, c1 := c1, c2 := c2 }, ?_, ?_⟩
  · unfold widen
    rw [if_neg (by omega)]
    simp only [Option.bind_eq_bind] at a1 b1 d1 e1 ⊢
    simp only [pure_bind, a1, b1, d1, e1, Option.bind_some]
    rfl
  · show r1 ≤ k.r1 ∧ k.r2 ≤ r2 ∧ r2 < row ∧ c1 ≤ k.c1 ∧ k.c2 ≤ c2 ∧ c2 < col
    omega

end Ms.Properties
