import Verif.Lemmas.CountOpen
import Verif.Properties.Secret

/-! What programs that never lose can open (for C101). -/

namespace Ms
open Spec MSB

variable {r c n : Nat} {b : Board} {O : Finset Pos}

/-- the cells an event at `p` can open first -/
def firsts (x : MSB) (p : Pos) : List Pos := if x.gb p = 10 then [p] else x.chordCells p

theorem firsts_congr {x y : MSB} (hg : y.gameBoard = x.gameBoard) (hr : y.row = x.row) (hc : y.column = x.column) (p : Pos) :
    firsts y p = firsts x p := by
  have e : ∀ q, y.gb q = x.gb q := fun q => by unfold MSB.gb; rw [hg]
  unfold firsts chordCells MSB.ring
  simp only [e, hr, hc]

private theorem shown_set {g : Board} (hrect : Rect g r c) {p : Pos} (hp : p ∈ grid r c) {v : Int} (hv : v = 10 ∨ v = 11) :
    shownSet r c (g.set p.1 p.2 v) ⊆ shownSet r c g := by
  intro q hq
  rw [mem_shownSet, bval_set hrect hp] at hq
  by_cases e : q = p
  · rw [if_pos e] at hq
    rcases hv with rfl | rfl
    · exact absurd rfl hq.2.1
    · exact absurd rfl hq.2.2
  · rw [if_neg e] at hq
    exact mem_shownSet.mpr hq

/-- one event shows only cells of `O`, or opens at once cells without a mine, not all of them in `O` -/
theorem Full.step (hb : BoardOK r c b) (hF : Full r c b n O) {x y : MSB} (hi : x.GInv) (hbd : x.board = b.view)
    (hrow : x.row = r) (hcol : x.column = c) {e : Ev} {p : Pos} {k : Option Nat} (he : x.step e p = some (y, k))
    (hnl : y.state ≠ .loss) (hO : shownSet r c x.gameBoard ⊆ O) :
    shownSet r c y.gameBoard ⊆ O ∨
      ((∃ q ∈ firsts x p, q ∉ O) ∧ ∀ q ∈ firsts x p, q ∈ grid r c ∧ layout b q = false) := by
  have heff := MSB.step_eff he
  have hiy := heff.inv hi
  have hrect : Rect x.gameBoard r c := by have := hi.core.rect; rwa [hrow, hcol] at this
  have hbv : ∀ q, x.bd q = bval b q := fun q => by unfold MSB.bd; rw [hbd]; rfl
  -- opening a list of covered cells
  have opened : ∀ (start : List Pos) (g' : Board) (z : MSB), z.Core → z.board = x.board → z.gameBoard = x.gameBoard → z.row = x.row →
      z.column = x.column → (∀ q ∈ start, q ∈ grid r c ∧ x.gb q = 10) → refreshBoard z.board z.gameBoard start = some g' → y.gameBoard = g' →
      shownSet r c g' ⊆ O ∨ ((∃ q ∈ start, q ∉ O) ∧ ∀ q ∈ start, q ∈ grid r c ∧ layout b q = false) := by
    intro start g' z hz z1 z2 z3 z4 hst hg hy
    by_cases hall : ∀ q ∈ start, q ∈ O
    · left
      refine hF.refresh hb hz (z1.trans hbd) (z3.trans hrow) (z4.trans hcol) (start := start) (fun q hq => ⟨hall q hq, ?_⟩)
        (by rw [z2]; exact hO) hg
      have : z.gb q = x.gb q := by unfold MSB.gb; rw [z2]
      rw [this]; exact (hst q hq).2
    · right
      push Not at hall
      refine ⟨hall, fun q hq => ⟨(hst q hq).1, ?_⟩⟩
      by_contra hm
      have hst' : ∀ q ∈ start, q ∈ grid z.row z.column ∧ z.gb q = 10 := by
        intro q hq
        rw [z3, z4, hrow, hcol]
        refine ⟨(hst q hq).1, ?_⟩
        unfold MSB.gb; rw [z2]; exact (hst q hq).2
      obtain ⟨g'', e1, -, e3⟩ := refresh_core hz hst'
      rw [hg] at e1
      obtain rfl : g' = g'' := by simpa using e1
      have h1 := e3 q (hst' q hq).1
      have hz' : z.bd q = x.bd q := by unfold MSB.bd; rw [z1]
      have hmine : x.bd q = -1 := by
        rw [hbv]
        by_contra h
        exact hm (layout_false.mpr h)
      rw [if_pos (.click hq), hz', hmine, if_pos rfl] at h1
      obtain ⟨f1, f2, f3⟩ := heff.frame hi
      have hqy : q ∈ grid y.row y.column := by rw [f2, f3, hrow, hcol]; exact (hst q hq).1
      have h2 := hiy.core.marks q hqy
      have h3 : y.gb q = 15 := by unfold MSB.gb; rw [hy]; exact h1
      have h4 := hiy.core.bd_range hqy
      simp only [hnl, false_and, or_false] at h2
      omega
  have flagged : ∀ {m : Mouse} {j : Nat} {st : GState}, x.state ≠ .loss → st ≠ .loss →
      rightClick { x with mouse := m, preFlagNum := j, state := st } p = some (y, k) → shownSet r c y.gameBoard ⊆ O := by
    intro m j st h1 h2 h3
    obtain ⟨hp, -, heff⟩ := right_eff hi h1 h2 h3
    rw [hrow, hcol] at hp
    cases heff with
    | none _ => exact hO
    | flag _ => exact (shown_set hrect hp (.inr rfl)).trans hO
    | unflag _ _ => exact (shown_set hrect hp (.inl rfl)).trans hO
  cases heff with
  | idle => exact .inl hO
  | start => exact .inl hO
  | back => exact .inl hO
  | backClear => exact .inl hO
  | unflagLast h hp _ _ =>
    rw [hrow, hcol] at hp
    exact .inl ((shown_set hrect hp (.inl rfl)).trans hO)
  | preFlag m j _ _ h _ hp _ _ hc =>
    exact .inl (flagged (by rcases h with h | h <;> rw [h] <;> decide) (by decide) hc)
  | preUnflag m j _ _ h _ hp _ _ _ hc =>
    exact .inl (flagged (st := x.state) (by rw [h]; decide) (by rw [h]; decide) hc)
  | right m _ _ h _ hp hc =>
    exact .inl (flagged (st := x.state) (j := x.preFlagNum) (by rw [h]; decide) (by rw [h]; decide) hc)
  | miss => exact .inl hO
  | left m _ _ h _ _ hc =>
    obtain ⟨hp, hcore, heff⟩ := left_eff hi h hc
    rw [hrow, hcol] at hp
    cases heff with
    | none _ => exact .inl hO
    | mine _ _ _ => exact absurd rfl hnl
    | @safe g' h10 _ hg =>
      have h10 : x.gb p = 10 := h10
      have hf : firsts x p = [p] := by unfold firsts; rw [if_pos h10]
      rw [hf]
      have hy := (checkWin_frame { ({ x with mouse := m, state := .playing } : MSB) with
          left := x.left + 1, gameBoard := g', ce := x.ce + 1,
          bbbvSolved := x.bbbvSolved + leftGain { ({ x with mouse := m, state := .playing } : MSB) with left := x.left + 1 } p }).2.1
      have := opened [p] g' _ hcore rfl rfl rfl rfl (by simpa using ⟨hp, h10⟩) hg hy
      rw [hy]
      exact this
  | chord m mh dec _ _ _ _ _ hc =>
    obtain ⟨hp, hg', heff⟩ := chord_eff hi hc
    cases heff with
    | none _ => exact .inl hO
    | @opens g' j hch hn' hg =>
      have h1 := hch.1
      have h2 := hch.2.1
      have h1 : 0 < x.gb p := h1
      have h2 : x.gb p < 8 := h2
      have hf : firsts x p = x.chordCells p := by unfold firsts; rw [if_neg (by omega)]
      rw [hf]
      have hy := (checkWin_frame { ({ x with mouse := m, middleHold := mh, right := if dec = true then x.right - 1 else x.right } : MSB).preChord p with
        bbbvSolved := (({ x with mouse := m, middleHold := mh, right := if dec = true then x.right - 1 else x.right } : MSB).preChord p).bbbvSolved + j,
        gameBoard := g' }).2.1
      have := opened (x.chordCells p) g' _ hg'.core rfl rfl rfl rfl (fun q hq => by
        obtain ⟨q1, -, q3⟩ := mem_chordCells.mp hq
        rw [hrow, hcol] at q1
        exact ⟨q1, q3⟩) hg hy
      rw [hy]
      exact this

/-- the board with given mines -/
theorem exists_board (hr : 0 < r) {M : Finset Pos} (hM : M ⊆ grid r c) :
    ∃ b : Board, Rect b r c ∧ Numbered b.view ∧ mines b.view = M := by
  have hrect : Rect (Board.build r c (withMines r c M).get) r c := rect_build ..
  have hbd := rect_dims hrect hr
  have hcell : ∀ q ∈ grid r c, val (Board.build r c (withMines r c M).get).view q = val (withMines r c M) q := by
    intro q hq
    have := mem_grid.mp hq
    exact get_build _ this.1 this.2
  have hcells : vcells (Board.build r c (withMines r c M).get).view = grid r c := by
    show grid (Board.row _) (Board.col _) = _
    rw [hbd.1, hbd.2]
  have hmines : mines (Board.build r c (withMines r c M).get).view = M := by
    ext q
    unfold mines
    rw [Finset.mem_filter, hcells]
    constructor
    · rintro ⟨h1, h2⟩
      rw [hcell q h1, Properties.val_withMines] at h2
      by_contra hq
      rw [if_neg hq] at h2
      omega
    · intro h
      refine ⟨hM h, ?_⟩
      rw [hcell q (hM h), Properties.val_withMines, if_pos h]
  refine ⟨_, hrect, fun q hq hne => ?_, hmines⟩
  rw [hcells] at hq
  rw [hcell q hq] at hne ⊢
  rw [hmines]
  have := Properties.numbered_withMines hM q hq hne
  rw [Properties.mines_withMines hM] at this
  exact this

end Ms
