import Verif.Lemmas.Refresh

namespace Ms
open Spec

theorem adjCount_le (v : View) {p : Pos} (hp : p ∈ vcells v) : adjCount (mines v) p ≤ 8 := by
  have h1 : ((mines v).filter fun q => Adj p q) ⊆
      ((block v.row v.col p.1 p.2).toFinset).erase p := by
    intro q hq
    obtain ⟨hm, ha⟩ := Finset.mem_filter.mp hq
    have := (Finset.mem_filter.mp hm).1
    rw [Finset.mem_erase, List.mem_toFinset, mem_block_near]
    exact ⟨fun e => ha.2 e.symm, this, ha.1⟩
  have h2 := Finset.card_le_card h1
  have hmem : p ∈ (block v.row v.col p.1 p.2).toFinset := by
    rw [List.mem_toFinset, mem_block_near]; exact ⟨hp, near_refl p⟩
  rw [Finset.card_erase_of_mem hmem] at h2
  have h3 := List.toFinset_card_le (block v.row v.col p.1 p.2)
  have h4 := length_block_le v.row v.col p.1 p.2
  unfold adjCount
  omega

theorem numbered_range {v : View} (h : Numbered v) {p : Pos} (hp : p ∈ vcells v) :
    val v p = -1 ∨ (0 ≤ val v p ∧ val v p ≤ 8) := by
  by_cases hm : val v p = -1
  · exact .inl hm
  · right
    rw [h p hp hm]
    have := adjCount_le v hp
    omega

theorem numbered_le {v : View} (h : Numbered v) : ∀ p ∈ vcells v, val v p ≤ 8 := by
  intro p hp
  rcases numbered_range h hp with h | h <;> omega

/-- neighbours of a zero are safe -/
theorem numbered_zero {v : View} (h : Numbered v) {p q : Pos} (hp : p ∈ vcells v) (hq : q ∈ vcells v)
    (h0 : val v p = 0) (ha : Adj p q) : val v q ≠ -1 := by
  intro hm
  have h1 := h p hp (by omega)
  have : 0 < adjCount (mines v) p := by
    unfold adjCount
    apply Finset.card_pos.mpr
    exact ⟨q, Finset.mem_filter.mpr ⟨Finset.mem_filter.mpr ⟨hq, hm⟩, ha⟩⟩
  omega

/-- reading order -/
def RBefore (p q : Pos) : Prop := p.1 < q.1 ∨ (p.1 = q.1 ∧ p.2 < q.2)

namespace MSB

/-- flags on the board (also the crossed-out ones) -/
def flags (s : MSB) : Finset Pos :=
  (grid s.row s.column).filter fun p => bval s.gameBoard p = 11 ∨ bval s.gameBoard p = 14

/-- the state-independent part of the invariant -/
structure Core (s : MSB) : Prop where
  hrow : s.board.row = s.row
  hcol : s.board.col = s.column
  rect : Rect s.gameBoard s.row s.column
  num : Numbered s.board
  marks : ∀ p ∈ grid s.row s.column, s.gb p = 10 ∨ s.gb p = 11 ∨ (s.gb p = s.bd p ∧ s.bd p ≠ -1) ∨
    (s.state = .loss ∧ ((s.gb p = 15 ∧ s.bd p = -1) ∨ (s.gb p = 14 ∧ s.bd p ≠ -1)))
  flag : s.flag = s.flags.card
  ptr : ∀ p ∈ grid s.row s.column, RBefore p (s.pointerX, s.pointerY) →
    s.bd p = -1 ∨ s.gb p = s.bd p
  ptrRow : 0 < s.row → s.pointerX < s.row

theorem Core.vcells {s : MSB} (h : s.Core) : vcells s.board = grid s.row s.column := by
  unfold Spec.vcells; rw [h.hrow, h.hcol]

theorem gb_bval (s : MSB) (p : Pos) : s.gb p = bval s.gameBoard p := rfl
theorem bd_val (s : MSB) (p : Pos) : s.bd p = val s.board p := rfl

theorem Core.bd_range {s : MSB} (h : s.Core) {p : Pos} (hp : p ∈ grid s.row s.column) :
    s.bd p = -1 ∨ (0 ≤ s.bd p ∧ s.bd p ≤ 8) :=
  numbered_range h.num (h.vcells ▸ hp)

theorem inRange_iff {s : MSB} {p : Pos} : s.inRange p = true ↔ p ∈ grid s.row s.column := by
  unfold inRange; rw [mem_grid]; simp

/-! ### opening cells -/

/-- everything a click on covered cells opens was covered -/
theorem opens_covered {s : MSB} (h : s.Core) {start : List Pos}
    (hs : ∀ p ∈ start, p ∈ grid s.row s.column ∧ s.gb p = 10) {q : Pos}
    (ho : Opens s.board s.gameBoard start q) : q ∈ grid s.row s.column ∧ s.gb q = 10 := by
  cases ho with
  | click hq => exact hs q hq
  | spread _ h0 hm _ hc =>
    rw [h.vcells] at hm
    refine ⟨hm, ?_⟩
    rcases hc with hc | hc
    · exact hc
    · have h1 := h.marks q hm
      have h2 := h.bd_range hm
      change s.gb q = 12 at hc
      omega

/-- a mine can only be opened by clicking it -/
theorem opens_mine {s : MSB} (h : s.Core) {start : List Pos}
    (hs : ∀ p ∈ start, p ∈ grid s.row s.column ∧ s.gb p = 10) {q : Pos}
    (ho : Opens s.board s.gameBoard start q) (hm : s.bd q = -1) : q ∈ start := by
  cases ho with
  | click hq => exact hq
  | spread hp h0 hq ha _ =>
    have := (opens_covered h hs hp).1
    rw [← h.vcells] at this
    exact absurd hm (numbered_zero h.num this hq h0 ha)

open Classical in
/-- the board after opening: explicit description -/
theorem refresh_core {s : MSB} (h : s.Core) {start : List Pos}
    (hs : ∀ p ∈ start, p ∈ grid s.row s.column ∧ s.gb p = 10) :
    ∃ g', refreshBoard s.board s.gameBoard start = some g' ∧ Rect g' s.row s.column ∧
      ∀ q ∈ grid s.row s.column, bval g' q =
        if Opens s.board s.gameBoard start q then (if s.bd q = -1 then 15 else s.bd q)
        else if (∃ m ∈ start, s.bd m = -1) ∧ s.gb q = 11 ∧ s.bd q ≠ -1 then 14 else s.gb q := by
  have hr := h.rect
  rw [← h.hrow, ← h.hcol] at hr
  obtain ⟨g', h1, h2, h3⟩ := refreshBoard_spec (numbered_le h.num) hr (clicked := start)
    (fun p hp => h.vcells ▸ (hs p hp).1)
  rw [h.hrow, h.hcol] at h2
  refine ⟨g', h1, h2, fun q hq => ?_⟩
  rw [h3 q (h.vcells ▸ hq)]
  by_cases ho : Opens s.board s.gameBoard start q
  · rw [if_pos ho, if_pos ho]
    unfold openMark
    have := h.bd_range hq
    rw [← bd_val]
    split <;> split <;> omega
  · rw [if_neg ho, if_neg ho]
    have hiff : (∃ m ∈ Spec.vcells s.board, Opens s.board s.gameBoard start m ∧ val s.board m < 0) ↔
        ∃ m ∈ start, s.bd m = -1 := by
      constructor
      · rintro ⟨m, hm, hmo, hv⟩
        have hb : s.bd m = -1 := by
          have := h.bd_range (h.vcells ▸ hm)
          rw [bd_val] at this ⊢; omega
        exact ⟨m, opens_mine h hs hmo hb, hb⟩
      · rintro ⟨m, hm, hb⟩
        exact ⟨m, h.vcells ▸ (hs m hm).1, .click hm, by rw [← bd_val]; omega⟩
    by_cases hx : (∃ m ∈ start, s.bd m = -1) ∧ s.gb q = 11 ∧ s.bd q ≠ -1
    · rw [if_pos hx, if_pos ⟨hiff.mpr hx.1, hx.2⟩]
    · rw [if_neg hx, if_neg (fun h => hx ⟨hiff.mp h.1, h.2⟩)]; rfl

/-- the effect of opening on the invariant; `st` is the new state -/
theorem Core.open {s : MSB} (h : s.Core) (hst : s.state ≠ .loss) {start : List Pos}
    (hs : ∀ p ∈ start, p ∈ grid s.row s.column ∧ s.gb p = 10) (st : GState)
    (hl : st = .loss ∨ ∀ m ∈ start, s.bd m ≠ -1) {g' : Board}
    (hg : refreshBoard s.board s.gameBoard start = some g') :
    Core { s with gameBoard := g', state := st } := by
  obtain ⟨g'', h1, h2, h3⟩ := refresh_core h hs
  rw [hg] at h1
  obtain rfl : g' = g'' := by simpa using h1
  clear h1
  refine ⟨h.hrow, h.hcol, h2, h.num, ?_, ?_, ?_, h.ptrRow⟩
  · intro q hq
    change bval g' q = 10 ∨ bval g' q = 11 ∨ (bval g' q = s.bd q ∧ s.bd q ≠ -1) ∨ (st = .loss ∧
      ((bval g' q = 15 ∧ s.bd q = -1) ∨ (bval g' q = 14 ∧ s.bd q ≠ -1)))
    have h4 := h3 q hq
    have hmk := h.marks q hq
    simp only [hst, false_and, or_false] at hmk
    by_cases ho : Opens s.board s.gameBoard start q
    · rw [if_pos ho] at h4
      by_cases hb : s.bd q = -1
      · rw [if_pos hb] at h4
        have hq' := opens_mine h hs ho hb
        rcases hl with hl | hl
        · exact .inr (.inr (.inr ⟨hl, .inl ⟨h4, hb⟩⟩))
        · exact absurd hb (hl q hq')
      · rw [if_neg hb] at h4
        exact .inr (.inr (.inl ⟨h4, hb⟩))
    · rw [if_neg ho] at h4
      by_cases hc : (∃ m ∈ start, s.bd m = -1) ∧ s.gb q = 11 ∧ s.bd q ≠ -1
      · rw [if_pos hc] at h4
        rcases hl with hl | hl
        · exact .inr (.inr (.inr ⟨hl, .inr ⟨h4, hc.2.2⟩⟩))
        · obtain ⟨⟨m, hm, hb⟩, -⟩ := hc
          exact absurd hb (hl m hm)
      · rw [if_neg hc] at h4
        rw [h4]
        rcases hmk with h | h | h
        · exact .inl h
        · exact .inr (.inl h)
        · exact .inr (.inr (.inl h))
  · change s.flag = _
    rw [h.flag]
    congr 1
    unfold flags
    apply Finset.filter_congr
    intro q hq
    change _ ↔ bval g' q = 11 ∨ bval g' q = 14
    have h4 := h3 q hq
    have hmk := h.marks q hq
    have hbd := h.bd_range hq
    rw [← gb_bval]
    simp only [hst, false_and, or_false] at hmk
    rw [h4]
    by_cases ho : Opens s.board s.gameBoard start q
    · have := (opens_covered h hs ho).2
      rw [if_pos ho]
      split <;> omega
    · rw [if_neg ho]
      split <;> omega
  · intro q hq hb
    change s.bd q = -1 ∨ bval g' q = s.bd q
    have h4 := h3 q hq
    have h5 := h.ptr q hq hb
    by_cases ho : Opens s.board s.gameBoard start q
    · rw [if_pos ho] at h4
      by_cases hb : s.bd q = -1
      · exact .inl hb
      · rw [if_neg hb] at h4; exact .inr h4
    · rw [if_neg ho] at h4
      have hbd := h.bd_range hq
      rcases h5 with h5 | h5
      · exact .inl h5
      · right
        rw [if_neg (by omega)] at h4
        rw [h4]; exact h5

/-! ### the win scan -/

theorem winScan_spec (s : MSB) : ∀ (l : List Pos), (∀ p ∈ l, s.winCheck p ≠ some false) →
    (s.winScan l = (true, (s.pointerX, s.pointerY)) ∧ ∀ p ∈ l, s.gb p ≥ 10 → s.bd p = -1) ∨
    ∃ l1 p l2, l = l1 ++ p :: l2 ∧ (∀ q ∈ l1, s.gb q ≥ 10 → s.bd q = -1) ∧ s.gb p ≥ 10 ∧
      s.bd p ≠ -1 ∧ s.winScan l = (false, p) := by
  intro l
  induction l with
  | nil => intro _; left; simp [winScan]
  | cons p l ih =>
    intro hl
    have hp := hl p (by simp)
    by_cases hc : s.gb p ≥ 10 ∧ s.bd p ≠ -1
    · right
      refine ⟨[], p, l, rfl, by simp, hc.1, hc.2, ?_⟩
      have : s.winCheck p = some true := by
        unfold winCheck
        rw [if_neg (by omega), if_pos hc]
      simp [winScan, this]
    · have hn : s.winCheck p = none := by
        unfold winCheck at hp ⊢
        by_cases h1 : s.gb p < 10 ∧ s.gb p ≠ s.bd p
        · rw [if_pos h1] at hp; exact absurd rfl hp
        · rw [if_neg h1, if_neg hc]
      have hcp : s.gb p ≥ 10 → s.bd p = -1 := by
        intro h; by_contra h'; exact hc ⟨h, h'⟩
      have hw : s.winScan (p :: l) = s.winScan l := by simp [winScan, hn]
      rcases ih (fun q hq => hl q (by simp [hq])) with ⟨h1, h2⟩ | ⟨l1, q, l2, h1, h2, h3, h4, h5⟩
      · left
        refine ⟨hw.trans h1, ?_⟩
        intro q hq
        rcases List.mem_cons.mp hq with rfl | hq
        · exact hcp
        · exact h2 q hq
      · right
        refine ⟨p :: l1, q, l2, by simp [h1], ?_, h3, h4, hw.trans h5⟩
        intro q hq
        rcases List.mem_cons.mp hq with rfl | hq
        · exact hcp
        · exact h2 q hq

theorem mem_winCells {s : MSB} {p : Pos} (hx : 0 < s.row → s.pointerX < s.row) (hr : 0 < s.row) :
    p ∈ s.winCells ↔ p ∈ grid s.row s.column ∧ ¬ RBefore p (s.pointerX, s.pointerY) := by
  have := hx hr
  unfold winCells RBefore
  simp only [List.mem_append, List.mem_map, mem_rng, List.mem_flatMap, mem_grid]
  constructor
  · rintro (⟨j, hj, rfl⟩ | ⟨i, hi, j, hj, rfl⟩)
    · simp only; omega
    · simp only; omega
  · rintro ⟨⟨h1, h2⟩, h3⟩
    by_cases hx : p.1 = s.pointerX
    · left; exact ⟨p.2, by omega, by rw [← hx]⟩
    · right; exact ⟨p.1, by omega, p.2, by omega, rfl⟩

theorem rng_sorted (lo hi : Nat) : (rng lo hi).Pairwise (· < ·) := by
  unfold rng; exact List.pairwise_lt_range'

theorem winCells_sorted (s : MSB) : s.winCells.Pairwise RBefore := by
  unfold winCells
  rw [List.pairwise_append]
  refine ⟨?_, ?_, ?_⟩
  · rw [List.pairwise_map]
    exact (rng_sorted _ _).imp (fun h => .inr ⟨rfl, h⟩)
  · rw [List.pairwise_flatMap]
    refine ⟨?_, ?_⟩
    · intro i _
      rw [List.pairwise_map]
      exact (rng_sorted _ _).imp (fun h => .inr ⟨rfl, h⟩)
    · refine (rng_sorted _ _).imp ?_
      intro a b hab x hx y hy
      simp only [List.mem_map] at hx hy
      obtain ⟨_, _, rfl⟩ := hx
      obtain ⟨_, _, rfl⟩ := hy
      exact .inl hab
  · intro x hx y hy
    simp only [List.mem_map, List.mem_flatMap, mem_rng] at hx hy
    obtain ⟨_, _, rfl⟩ := hx
    obtain ⟨i, hi, _, _, rfl⟩ := hy
    left; simp only; omega

theorem RBefore.irrefl {p : Pos} : ¬ RBefore p p := by unfold RBefore; omega

/-- a correct board is never taken for a forged one -/
theorem Core.no_cheat {s : MSB} (h : s.Core) {p : Pos} (hp : p ∈ grid s.row s.column) :
    s.winCheck p ≠ some false := by
  unfold winCheck
  have := h.marks p hp
  have := h.bd_range hp
  split
  · omega
  · split <;> simp

theorem winScan_core {s : MSB} (h : s.Core) (hr : 0 < s.row) :
    (s.winScan s.winCells = (true, (s.pointerX, s.pointerY)) ∧
      ∀ p ∈ grid s.row s.column, s.bd p ≠ -1 → s.gb p = s.bd p) ∨
    ∃ p ∈ grid s.row s.column, s.gb p ≥ 10 ∧ s.bd p ≠ -1 ∧ s.winScan s.winCells = (false, p) ∧
      ∀ q ∈ grid s.row s.column, RBefore q p → s.bd q = -1 ∨ s.gb q = s.bd q := by
  have hm := fun p => mem_winCells (p := p) h.ptrRow hr
  have hopen : ∀ q ∈ grid s.row s.column, (s.gb q ≥ 10 → s.bd q = -1) → s.bd q = -1 ∨ s.gb q = s.bd q := by
    intro q hq hi
    have := h.marks q hq
    have := h.bd_range hq
    omega
  rcases winScan_spec s s.winCells (fun p hp => h.no_cheat ((hm p).mp hp).1) with
    ⟨h1, h2⟩ | ⟨l1, p, l2, h1, h2, h3, h4, h5⟩
  · left
    refine ⟨h1, fun p hp hb => ?_⟩
    by_cases hbf : RBefore p (s.pointerX, s.pointerY)
    · rcases h.ptr p hp hbf with h | h
      · exact absurd h hb
      · exact h
    · rcases hopen p hp (h2 p ((hm p).mpr ⟨hp, hbf⟩)) with h | h
      · exact absurd h hb
      · exact h
  · right
    have hp := ((hm p).mp (by rw [h1]; simp)).1
    refine ⟨p, hp, h3, h4, h5, fun q hq hb => ?_⟩
    by_cases hbf : RBefore q (s.pointerX, s.pointerY)
    · exact h.ptr q hq hbf
    · have hqw := (hm q).mpr ⟨hq, hbf⟩
      have hs := winCells_sorted s
      rw [h1] at hqw hs
      rw [List.pairwise_append] at hs
      rcases List.mem_append.mp hqw with hqw | hqw
      · exact hopen q hq (h2 q hqw)
      · exfalso
        rcases List.mem_cons.mp hqw with rfl | hqw
        · exact RBefore.irrefl hb
        · have := (List.pairwise_cons.mp hs.2.1).1 q hqw
          unfold RBefore at this hb
          omega

end MSB
end Ms
