import Verif.Lemmas.SafeBoard
import Verif.Lemmas.BoardCache
import Verif.Lemmas.Metrics

/-!
# C11: `SafeBoard` is observationally the plain board
-/

namespace Ms.Properties
open Ms Ms.Spec

/-- Cell values the library stores in boards (mines and numbers: `-1..8`) or on displays
(`10`, `11`, `12`, `14`, `15`, `16`, ...): everything from `-3` to `16` except the unused `9`. -/
def CellValue (v : Int) : Prop := -3 ≤ v ∧ v ≤ 16 ∧ v ≠ 9

instance (v : Int) : Decidable (CellValue v) := by unfold CellValue; infer_instance

/-- **C11** For all random draws in the ranges the code draws from, and every rectangular board of cell
values: encoding does not overflow or panic; sizes, indexing and the conversion back are those of the plain board;
and as a `View` (what every generic algorithm sees) the encoded board is *equal* to the plain one. -/
theorem C11_safe_board (m : Nat → Nat → Mask) (hm : ∀ i j, (m i j).Ok) (b : Board) (r c : Nat)
    (hr : 0 < r) (hb : Rect b r c) (hv : ∀ l ∈ b, ∀ v ∈ l, CellValue v) :
    ∃ s, SafeBoard.new m b = some s ∧ s.row = r ∧ s.col = some c ∧
      (∀ i j, i < r → j < c → s.index i j = some (b.get i j)) ∧
      (∀ i j, ¬ (i < r ∧ j < c) → s.index i j = none) ∧
      s.intoVecVec = some b ∧ s.view = b.view := by
  have hv' : ∀ l ∈ b, ∀ v ∈ l, -3 ≤ v ∧ v ≤ 16 := fun l hl v h => ⟨(hv l hl v h).1, (hv l hl v h).2.1⟩
  obtain ⟨rs, hrs, hrow, hcol, hidx, hvec⟩ := newRows_board m hm b hv' 0
  have hne : b ≠ [] := by rintro rfl; have := hb.len; simp at this; omega
  have hsh : ∀ l ∈ b, l.map shown = l := by
    intro l hl
    rw [List.map_congr_left (g := id), List.map_id]
    intro v h
    simp [shown, (hv l hl v h).2.2]
  have hidx' : ∀ i j, (⟨rs, 0⟩ : SafeBoard).index i j = (b[i]?).bind fun l => l[j]? := by
    intro i j
    rw [hidx]
    cases h : b[i]? with
    | none => rfl
    | some l =>
      have := hsh l (List.mem_of_getElem? h)
      simp only [Option.bind_some]
      rw [← List.getElem?_map, this]
  have hcb := hb.col_eq hr
  refine ⟨⟨rs, 0⟩, by simp [SafeBoard.new, hrs], by rw [hrow, hb.row_eq], by rw [hcol hne, hcb], ?_, ?_, ?_, ?_⟩
  · intro i j hi hj
    rw [hidx']
    have hi' : i < b.length := by rw [hb.len]; exact hi
    have hj' : j < b[i].length := by rw [hb.rows _ (List.getElem_mem hi')]; exact hj
    unfold Board.get
    simp [List.getD_eq_getElem?_getD, hi', hj']
  · intro i j hij
    rw [hidx']
    by_cases hi : i < r
    · have hi' : i < b.length := by rw [hb.len]; exact hi
      have hj' : b[i].length ≤ j := by rw [hb.rows _ (List.getElem_mem hi')]; omega
      simp [hi', hj']
    · have hi' : b.length ≤ i := by rw [hb.len]; omega
      simp [hi']
  · rw [hvec r c hb]
    congr 1
    rw [List.map_congr_left (g := id), List.map_id]
    exact hsh
  · unfold SafeBoard.view Board.view
    rw [hrow, hcol hne]
    simp only [Option.getD_some, View.mk.injEq, true_and]
    funext i j
    rw [hidx']
    unfold Board.get
    cases h : b[i]? with
    | none => simp [List.getD_eq_getElem?_getD, h]
    | some l => simp [List.getD_eq_getElem?_getD, h]

/-- **C11** in particular all generic board metrics agree. -/
theorem C11_generic_metrics (m : Nat → Nat → Mask) (hm : ∀ i j, (m i j).Ok) (b : Board) (r c : Nat)
    (hr : 0 < r) (hb : Rect b r c) (hv : ∀ l ∈ b, ∀ v ∈ l, CellValue v) :
    ∃ s, SafeBoard.new m b = some s ∧ calOp? s.view = calOp? b.view ∧ calIsl s.view = calIsl b.view ∧
      calBbbv s.view = calBbbv b.view ∧ calCellNums s.view = calCellNums b.view := by
  obtain ⟨s, hs, -, -, -, -, -, hview⟩ := C11_safe_board m hm b r c hr hb hv
  exact ⟨s, hs, by rw [hview], by rw [hview], by rw [hview], by rw [hview]⟩

/-- **C11** `set` re-encodes: afterwards the board is the new one, whatever was there before. -/
theorem C11_safe_board_set (s0 : SafeBoard) (m : Nat → Nat → Mask) (hm : ∀ i j, (m i j).Ok) (b : Board)
    (r c : Nat) (hr : 0 < r) (hb : Rect b r c) (hv : ∀ l ∈ b, ∀ v ∈ l, CellValue v) :
    ∃ s, s0.setBoard m b = some s ∧ s.view = b.view ∧ s.intoVecVec = some b := by
  obtain ⟨s, hs, -, -, -, -, hvec, hview⟩ := C11_safe_board m hm b r c hr hb hv
  unfold SafeBoard.new at hs
  cases h : newRows m b 0 with
  | none => simp [h] at hs
  | some l =>
    simp only [h, Option.bind_eq_bind, Option.bind_some, Option.pure_def, Option.some.injEq] at hs
    subst hs
    exact ⟨⟨l, s0.counter⟩, by simp [SafeBoard.setBoard, h], hview, hvec⟩

/-- The exception: a cell value `9` is always read back as `10`. -/
theorem C11_nine_becomes_ten (m : Nat → Nat → Mask) (hm : ∀ i j, (m i j).Ok) :
    ∃ s, SafeBoard.new m [[9]] = some s ∧ s.index 0 0 = some 10 ∧ s.intoVecVec = some [[10]] := by
  obtain ⟨rs, hrs, hrow, hcol, hidx, hvec⟩ := newRows_board m hm [[9]] (by decide) 0
  refine ⟨⟨rs, 0⟩, by simp [SafeBoard.new, hrs], by rw [hidx]; decide, ?_⟩
  rw [hvec 1 1 ⟨rfl, by decide⟩]; decide

/-- Iterating (instead of indexing) does *not* show the board: the row iterator yields the internal code
of the cell, e.g. `14` for a cell holding `0`, for all random draws. -/
theorem C11_iterator_refuted (m : Nat → Mask) (hm : ∀ j, (m j).Ok) :
    ∃ s r', SafeRow.new m [0] = some s ∧ s.index 0 = some 0 ∧ s.next = some (some 14, r') := by
  obtain ⟨ts, hts, hlen, hget, hdec⟩ := encodeRow_spec m hm [0] 0 (by decide)
  refine ⟨⟨ts, 0⟩, ⟨ts, 1⟩, by simp [SafeRow.new, hts], ?_, ?_⟩
  · have := hget 0
    simpa [SafeRow.index, shown] using this
  · have := hdec 0
    unfold SafeRow.next
    cases h : ts[0]? with
    | none => simp [h] at this; simp [encodeTable] at this
    | some t =>
      simp [h] at this
      have e : (encodeTable[3]? : Option Int) = some 14 := by decide
      simp [this, encodeTable]

/-- **C11** Iterating over the rows of a `SafeBoard` (a board made by `new`, asked `next` again and again): the `k`-th row handed out
reads (`into_vec`, indexing) as the `k`-th row of the plain board, and after the last row there is nothing more, however often it is
asked. -/
theorem C11_iterate_rows (m : Nat → Nat → Mask) (hm : ∀ i j, (m i j).Ok) (b : Board) (hv : ∀ l ∈ b, ∀ v ∈ l, CellValue v) :
    ∃ s, SafeBoard.new m b = some s ∧ ∀ k, ∃ row t, (fun x : SafeBoard => x.next.2)^[k] s = t ∧ t.next.1 = row ∧
      row.map (fun x => x.intoVec) = b[k]?.map some ∧ ∀ j, (row.bind fun x => x.index j) = b[k]?.bind fun l => l[j]? := by
  have hv' : ∀ l ∈ b, ∀ v ∈ l, -3 ≤ v ∧ v ≤ 16 := fun l hl v h => ⟨(hv l hl v h).1, (hv l hl v h).2.1⟩
  obtain ⟨rs, hrs, hlen, hrow, hidx, -, -⟩ := newRows_spec m hm b 0 hv'
  refine ⟨⟨rs, 0⟩, by simp [SafeBoard.new, hrs], fun k => ?_⟩
  have hit : ∀ k, (fun x : SafeBoard => x.next.2)^[k] ⟨rs, 0⟩ = ⟨rs, min k rs.length⟩ := by
    intro k
    induction k with
    | zero => simp
    | succ k ih =>
      rw [Function.iterate_succ_apply', ih]
      unfold SafeBoard.next
      by_cases h : k < rs.length
      · have : min k rs.length = k := by omega
        simp only [this, List.getElem?_eq_getElem h]
        congr 1; omega
      · have : min k rs.length = rs.length := by omega
        simp only [this, List.getElem?_eq_none (le_refl _)]
        congr 1; omega
  have hnext : (⟨rs, min k rs.length⟩ : SafeBoard).next.1 = rs[k]? := by
    unfold SafeBoard.next
    by_cases h : k < rs.length
    · have : min k rs.length = k := by omega
      simp only [this, List.getElem?_eq_getElem h]
    · have : min k rs.length = rs.length := by omega
      simp only [this, List.getElem?_eq_none (le_refl _)]
      rw [List.getElem?_eq_none (by omega)]
  have hsh : ∀ l ∈ b, l.map shown = l := by
    intro l hl
    rw [List.map_congr_left (g := id), List.map_id]
    intro v h
    simp [shown, (hv l hl v h).2.2]
  have hj : ∀ j, (rs[k]?.bind fun x => x.index j) = b[k]?.bind fun l => l[j]? := by
    intro j
    rw [hidx k j]
    cases h : b[k]? with
    | none => rfl
    | some l =>
      simp only [Option.bind_some]
      rw [← List.getElem?_map, hsh l (List.mem_of_getElem? h)]
  refine ⟨rs[k]?, _, hit k, hnext, ?_, hj⟩
  have hl := hrow k
  cases h : b[k]? with
  | none =>
    rw [h] at hl
    cases h2 : rs[k]? with
    | none => rfl
    | some x => simp [h2] at hl
  | some l =>
    rw [h] at hl
    cases h2 : rs[k]? with
    | none => simp [h2] at hl
    | some x =>
      simp only [h2, h, Option.bind_some, Option.map_some, Option.some.injEq] at hj hl ⊢
      unfold SafeRow.intoVec
      rw [hl]
      have key : ∀ (n : Nat), n ≤ l.length → (List.range n).mapM x.index = some (l.take n) := by
        intro n
        induction n with
        | zero => intro _; simp
        | succ n ih =>
          intro hn
          rw [List.range_succ, List.mapM_append, ih (by omega), List.take_succ]
          simp [hj n, List.getElem?_eq_getElem (show n < l.length by omega)]
      rw [key _ (le_refl _), List.take_length]

/-- Iterating over the cells of a row does *not* show the board: whatever is in the row and whatever was drawn, the iterator never panics, yields
one number per cell, and **every** one of them differs from the cell (it is an internal code). -/
theorem C11_iterate_cells_refuted (m : Nat → Mask) (hm : ∀ j, (m j).Ok) (l : List Int) (hv : ∀ v ∈ l, CellValue v) :
    ∃ ts, SafeRow.new m l = some ⟨ts, 0⟩ ∧ ts.length = l.length ∧
      (∀ j, ∀ v, l[j]? = some v → ∃ w, (⟨ts, j⟩ : SafeRow).next = some (some w, ⟨ts, j + 1⟩) ∧ w ≠ v ∧ 0 ≤ w ∧ w < 20) ∧
      (⟨ts, l.length⟩ : SafeRow).next = some (none, ⟨ts, l.length⟩) := by
  obtain ⟨ts, hts, hlen, hget, hdec⟩ := encodeRow_spec m hm l 0 fun v h => ⟨(hv v h).1, (hv v h).2.1⟩
  refine ⟨ts, by simp [SafeRow.new, hts], hlen, fun j v hj => ?_, ?_⟩
  · have h := hdec j
    have hC := hv v (List.mem_of_getElem? hj)
    have hcode : ∃ w, encodeTable[(v + 3).toNat]? = some w ∧ w ≠ v ∧ 0 ≤ w ∧ w < 20 := by
      obtain ⟨h1, h2, -⟩ := hC
      have : v = -3 ∨ v = -2 ∨ v = -1 ∨ v = 0 ∨ v = 1 ∨ v = 2 ∨ v = 3 ∨ v = 4 ∨ v = 5 ∨ v = 6 ∨ v = 7 ∨
        v = 8 ∨ v = 9 ∨ v = 10 ∨ v = 11 ∨ v = 12 ∨ v = 13 ∨ v = 14 ∨ v = 15 ∨ v = 16 := by omega
      rcases this with h | h | h | h | h | h | h | h | h | h | h | h | h | h | h | h | h | h | h | h <;>
        subst h <;> first | exact ⟨_, rfl, by decide, by decide, by decide⟩ | skip
      all_goals exact absurd ‹CellValue _› (by decide)
    obtain ⟨w, hw, hne, h0, h20⟩ := hcode
    rw [hj] at h
    simp only [Option.bind_some, hw] at h
    cases ht : ts[j]? with
    | none => simp [ht] at h
    | some t =>
      simp only [ht, Option.bind_some] at h
      exact ⟨w, by unfold SafeRow.next; simp [ht, h], hne, h0, h20⟩
  · unfold SafeRow.next
    simp [← hlen]

/-- a non-trivial board and non-trivial draws meeting the hypotheses -/
example : Rect [[1, -1, 1], [1, 1, 1]] 2 3 ∧ (∀ l ∈ ([[1, -1, 1], [1, 1, 1]] : Board), ∀ v ∈ l, CellValue v) ∧
    Mask.Ok ⟨-199999999, 7777, 9999999⟩ := by
  refine ⟨⟨rfl, by decide⟩, by decide, ?_⟩
  unfold Mask.Ok; decide

example : encode ⟨-199999999, 7777, -9999999⟩ (-1) = some (-199999999, 7777, -7755) := by decide

end Ms.Properties
