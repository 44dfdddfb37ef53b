import Verif.Model.Basic

namespace Ms

/-! ## membership in the loop ranges -/

@[simp] theorem mem_rng {lo hi x : Nat} : x ∈ rng lo hi ↔ lo ≤ x ∧ x < hi := by
  unfold rng; rw [List.mem_range'_1]; omega

theorem nodup_rng (lo hi : Nat) : (rng lo hi).Nodup := by
  unfold rng; exact List.nodup_range'

theorem mem_block {row col i j m n : Nat} :
    (m, n) ∈ block row col i j ↔
      m < row ∧ n < col ∧ m ≤ i + 1 ∧ i ≤ m + 1 ∧ n ≤ j + 1 ∧ j ≤ n + 1 := by
  unfold block
  simp only [List.mem_flatMap, List.mem_map, mem_rng, Prod.mk.injEq]
  constructor
  · rintro ⟨a, ha, b, hb, rfl, rfl⟩; omega
  · intro h; exact ⟨m, by omega, n, by omega, rfl, rfl⟩

theorem mem_block' {row col i j : Nat} {p : Pos} :
    p ∈ block row col i j ↔
      p.1 < row ∧ p.2 < col ∧ p.1 ≤ i + 1 ∧ i ≤ p.1 + 1 ∧ p.2 ≤ j + 1 ∧ j ≤ p.2 + 1 := by
  obtain ⟨m, n⟩ := p; exact mem_block

theorem nodup_grid (l₁ l₂ : List Nat) (h₁ : l₁.Nodup) (h₂ : l₂.Nodup) :
    (l₁.flatMap fun m => l₂.map fun n => (m, n)).Nodup := by
  induction l₁ with
  | nil => simp
  | cons a l ih =>
    simp only [List.flatMap_cons]
    rw [List.nodup_append]
    simp only [List.nodup_cons] at h₁
    refine ⟨?_, ih h₁.2, ?_⟩
    · rw [List.nodup_iff_pairwise_ne, List.pairwise_map]
      rw [List.nodup_iff_pairwise_ne] at h₂
      exact h₂.imp (by intro a b hab; simp [hab])
    · intro x hx y hy hxy
      simp only [List.mem_map, List.mem_flatMap] at hx hy
      obtain ⟨n, _, rfl⟩ := hx
      obtain ⟨m, hm, n', _, rfl⟩ := hy
      simp only [Prod.mk.injEq] at hxy
      exact h₁.1 (hxy.1 ▸ hm)

theorem nodup_block (row col i j : Nat) : (block row col i j).Nodup :=
  nodup_grid _ _ (nodup_rng _ _) (nodup_rng _ _)

@[simp] theorem mem_cells {row col : Nat} {p : Pos} :
    p ∈ cells row col ↔ p.1 < row ∧ p.2 < col := by
  unfold cells
  simp only [List.mem_flatMap, List.mem_map, List.mem_range]
  constructor
  · rintro ⟨a, ha, b, hb, rfl⟩; exact ⟨ha, hb⟩
  · intro h; exact ⟨p.1, h.1, p.2, h.2, rfl⟩

theorem nodup_cells (row col : Nat) : (cells row col).Nodup :=
  nodup_grid _ _ List.nodup_range List.nodup_range

theorem length_cells (row col : Nat) : (cells row col).length = row * col := by
  unfold cells
  simp [List.length_flatMap, List.map_const', List.sum_replicate_nat]

theorem length_block_le (row col i j : Nat) : (block row col i j).length ≤ 9 := by
  unfold block
  have h1 : (rng (max 1 i - 1) (min row (i + 2))).length ≤ 3 := by
    unfold rng; rw [List.length_range']; omega
  have h2 : (rng (max 1 j - 1) (min col (j + 2))).length ≤ 3 := by
    unfold rng; rw [List.length_range']; omega
  simp only [List.length_flatMap, List.length_map]
  rw [List.map_const', List.sum_replicate_nat]
  calc _ ≤ 3 * 3 := Nat.mul_le_mul h1 h2
    _ = 9 := rfl

/-! ## reading and writing boards -/

theorem Rect.row_eq {b : Board} {r c : Nat} (h : Rect b r c) : b.row = r := h.len

theorem Rect.col_eq {b : Board} {r c : Nat} (h : Rect b r c) (hr : 0 < r) : b.col = c := by
  unfold Board.col
  cases b with
  | nil => have := h.len; simp at this; omega
  | cons a l => simpa using h.rows a (by simp)

theorem rect_set {b : Board} {r c : Nat} (h : Rect b r c) (i j : Nat) (v : Int) :
    Rect (b.set i j v) r c := by
  unfold Board.set
  refine ⟨by simpa using h.len, ?_⟩
  intro l hl
  rw [List.mem_iff_getElem] at hl
  obtain ⟨k, hk, rfl⟩ := hl
  simp only [List.length_modify] at hk
  rw [List.getElem_modify]
  split
  · simpa using h.rows _ (List.getElem_mem hk)
  · exact h.rows _ (List.getElem_mem hk)

theorem getD_row_length {b : Board} {r c : Nat} (h : Rect b r c) {i : Nat} (hi : i < r) :
    (b.getD i []).length = c := by
  have hi' : i < b.length := by rw [h.len]; exact hi
  rw [List.getD_eq_getElem?_getD, List.getElem?_eq_getElem hi']
  exact h.rows _ (List.getElem_mem hi')

theorem get_set {b : Board} {r c : Nat} (h : Rect b r c) {i j : Nat} (hi : i < r) (hj : j < c)
    (m n : Nat) (v : Int) :
    (b.set i j v).get m n = if m = i ∧ n = j then v else b.get m n := by
  unfold Board.get Board.set
  have hi' : i < b.length := by rw [h.len]; exact hi
  simp only [List.getD_eq_getElem?_getD, List.getElem?_modify]
  by_cases hm : m = i
  · subst hm
    have hl : (b[m]).length = c := h.rows _ (List.getElem_mem hi')
    simp only [List.getElem?_eq_getElem hi', Option.map_eq_map, Option.map_some,
      Option.getD_some, if_true]
    rw [List.getElem?_set]
    by_cases hn : n = j
    · subst hn; simp [hl, hj]
    · have : ¬ j = n := fun h => hn h.symm
      simp [hn, this]
  · have : ¬ i = m := fun h => hm h.symm
    simp [hm, this]

theorem get_set_self {b : Board} {r c : Nat} (h : Rect b r c) {i j : Nat} (hi : i < r) (hj : j < c)
    (v : Int) : (b.set i j v).get i j = v := by
  rw [get_set h hi hj]; simp

theorem get_set_ne {b : Board} {r c : Nat} (h : Rect b r c) {i j : Nat} (hi : i < r) (hj : j < c)
    {m n : Nat} (v : Int) (hne : ¬ (m = i ∧ n = j)) : (b.set i j v).get m n = b.get m n := by
  rw [get_set h hi hj]; simp [hne]

theorem rect_build (r c : Nat) (f : Nat → Nat → Int) : Rect (Board.build r c f) r c := by
  unfold Board.build
  refine ⟨by simp, ?_⟩
  intro l hl
  simp only [List.mem_map] at hl
  obtain ⟨i, _, rfl⟩ := hl
  simp

theorem get_build {r c : Nat} (f : Nat → Nat → Int) {i j : Nat} (hi : i < r) (hj : j < c) :
    (Board.build r c f).get i j = f i j := by
  unfold Board.get Board.build
  simp [List.getD_eq_getElem?_getD, hi, hj]

theorem Board.ext_get {b b' : Board} {r c : Nat} (h : Rect b r c) (h' : Rect b' r c)
    (hg : ∀ i j, i < r → j < c → b.get i j = b'.get i j) : b = b' := by
  apply List.ext_getElem (by rw [h.len, h'.len])
  intro i h1 h2
  have hi : i < r := by rw [← h.len]; exact h1
  have l1 := h.rows _ (List.getElem_mem h1)
  have l2 := h'.rows _ (List.getElem_mem h2)
  apply List.ext_getElem (by rw [l1, l2])
  intro j h3 h4
  have hj : j < c := by rw [← l1]; exact h3
  have := hg i j hi hj
  unfold Board.get at this
  simpa [List.getD_eq_getElem?_getD, h1, h2, h3, h4] using this

theorem rect_foldl_set {α} {b : Board} {r c : Nat} (h : Rect b r c) (l : List α)
    (f : Board → α → Board) (hf : ∀ b a, Rect b r c → Rect (f b a) r c) :
    Rect (l.foldl f b) r c := by
  induction l generalizing b with
  | nil => exact h
  | cons a l ih => exact ih (hf _ _ h)

end Ms
