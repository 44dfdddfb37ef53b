import Verif.Lemmas.Solvable
import Verif.Lemmas.ForkIff

/-! # C26, C35: boards that can be solved without guessing -/

namespace Ms.Properties
open Ms Ms.Spec

/-- C26, soundness and termination: on every correctly numbered board with at least three rows and columns and every
safe start, `is_solvable` returns (it neither panics nor loops), and if the answer is `true` then all safe cells can
be opened one after the other, each of them safe in *every* layout of mines that agrees with the cells opened
before. -/
theorem is_solvable_sound (r c : Nat) (b : Board) (s : Pos) (hrect : Rect b r c) (hnum : Numbered b.view)
    (hr : 3 ≤ r) (hc : 3 ≤ c) (hs : s ∈ grid r c) (hsafe : b.get s.1 s.2 ≠ -1) :
    ∃ v, isSolvable b s.1 s.2 = some v ∧ (v = true → NoGuess r c b s) := by
  obtain ⟨u, v, -, h2, h3, -⟩ := isSolvable_spec (s := s) ⟨hrect, by omega, by omega, hnum⟩ hr hc
    (by simp [layout, hsafe]) hs
  exact ⟨v, h2, h3⟩

/-- C26, no mine is ever opened along the way (a consequence of the definition of the openable sets, not of the
code). -/
theorem openable_no_mine (r c : Nat) (b : Board) (s : Pos) (hsafe : b.get s.1 s.2 ≠ -1) (O : Finset Pos)
    (h : Openable r c b s O) : ∀ p ∈ O, b.get p.1 p.2 ≠ -1 := by
  have h1 := openable_safe (by simp [layout, hsafe]) h
  intro p hp
  simpa [layout] using h1 p hp

/-- around a cell showing 0 there is no mine -/
theorem zero_no_mine {r c : Nat} {b : Board} {s : Pos} (hrect : Rect b r c) (hnum : Numbered b.view)
    (hr : 0 < r) (hs : s ∈ grid r c) (hsafe : b.get s.1 s.2 = 0) :
    ∀ q ∈ grid r c, Near s q → layout b q = false := by
  have hd := rect_dims hrect hr
  have hv : vcells b.view = grid r c := by
    show grid b.row b.col = grid r c
    rw [hd.1, hd.2]
  intro q hq hn
  by_contra hm
  have hm : b.get q.1 q.2 = -1 := by simpa [layout] using hm
  have h0 := hnum s (by rw [hv]; exact hs) (by show b.get s.1 s.2 ≠ -1; omega)
  have h0 : adjCount (mines b.view) s = 0 := by
    have : (0 : Int) = (adjCount (mines b.view) s : Int) := by rw [← h0]; exact hsafe.symm
    omega
  unfold adjCount at h0
  rw [Finset.card_eq_zero, Finset.filter_eq_empty_iff] at h0
  refine h0 (x := q) (Finset.mem_filter.mpr ⟨by rw [hv]; exact hq, hm⟩) ⟨hn, ?_⟩
  rintro rfl
  omega

/-- C26, completeness for a start without mines around (a start that opens at once): if `is_solvable` answers `false`
then the board cannot be solved without guessing - unless the player, without guessing, reaches a position with
more than 55 covered cells along the border of the opened area (the limit of the enumeration). -/
theorem is_solvable_complete (r c : Nat) (b : Board) (s : Pos) (hrect : Rect b r c) (hnum : Numbered b.view)
    (hr : 3 ≤ r) (hc : 3 ≤ c) (hs : s ∈ grid r c) (hsafe : b.get s.1 s.2 = 0)
    (hno : isSolvable b s.1 s.2 = some false) :
    ¬ NoGuess r c b s ∨ ∃ O, Openable r c b s O ∧ 55 < (border r c O).card := by
  have hb : BoardOK r c b := ⟨hrect, by omega, by omega, hnum⟩
  have hl : layout b s = false := by simp [layout, hsafe]
  obtain ⟨u, v, h1, h2, -, h4, -⟩ := isSolvable_spec (s := s) hb hr hc hl hs
  rw [hno] at h2
  have hv : v = false := by simpa using h2.symm
  cases u with
  | false => exact h4 rfl hv
  | true =>
    left
    have hd := rect_dims hrect (by omega)
    have hf := unsolvable_fork h1
    rw [hd.1, hd.2] at hf
    exact hf.noGuess hl hs (zero_no_mine hrect hnum (by omega) hs hsafe)

/-- C26 on boards of at most 55 cells: for a start without mines around, `is_solvable` is exact. -/
theorem is_solvable_exact_small (r c : Nat) (b : Board) (s : Pos) (hrect : Rect b r c) (hnum : Numbered b.view)
    (hr : 3 ≤ r) (hc : 3 ≤ c) (hrc : r * c ≤ 55) (hs : s ∈ grid r c) (hsafe : b.get s.1 s.2 = 0) :
    isSolvable b s.1 s.2 = some true ↔ NoGuess r c b s := by
  obtain ⟨v, h1, h2⟩ := is_solvable_sound r c b s hrect hnum hr hc hs (by omega)
  constructor
  · intro h
    rw [h1] at h
    exact h2 (by simpa using h)
  · intro h
    cases v with
    | true => exact h1
    | false =>
      exfalso
      rcases is_solvable_complete r c b s hrect hnum hr hc hs hsafe h1 with h3 | ⟨O, -, h3⟩
      · exact h3 h
      · have : (border r c O).card ≤ (grid r c).card := Finset.card_filter_le _ _
        rw [card_grid] at this
        omega

/-- A `5×4` board on which the first click does not open everything: the solver has to deduce the last row. -/
def exSolvable : Board :=
  [[0, 0, 0, 0], [0, 0, 0, 0], [1, 1, 1, 0], [2, -1, 2, 1], [-1, 3, -1, 1]]

theorem exSolvable_numbered : Numbered exSolvable.view := by unfold Numbered; decide +kernel

theorem exSolvable_rect : Rect exSolvable 5 4 := ⟨rfl, by decide⟩

example : isSolvable exSolvable 0 0 = some true := by decide +kernel

example : NoGuess 5 4 exSolvable (0, 0) :=
  (is_solvable_exact_small 5 4 exSolvable (0, 0) exSolvable_rect exSolvable_numbered (by decide) (by decide) (by decide)
    (by decide) (by decide)).mp (by decide +kernel)

/-- A `5×4` board with a dead pair in the lower left corner. -/
def exUnsolvable : Board :=
  [[0, 0, 0, 0], [0, 0, 0, 0], [0, 1, 1, 1], [1, 3, -1, 2], [1, -1, -1, 2]]

theorem exUnsolvable_numbered : Numbered exUnsolvable.view := by unfold Numbered; decide +kernel

theorem exUnsolvable_rect : Rect exUnsolvable 5 4 := ⟨rfl, by decide⟩

example : ¬ NoGuess 5 4 exUnsolvable (0, 0) := fun h => by
  have := (is_solvable_exact_small 5 4 exUnsolvable (0, 0) exUnsolvable_rect exUnsolvable_numbered (by decide)
    (by decide) (by decide) (by decide) (by decide)).mpr h
  revert this
  decide +kernel

/-- The completeness needs a start without mines around: the only safe cell of this board is its centre; a player
starting there has nothing left to open, and `is_solvable` answers `false`. -/
theorem is_solvable_incomplete : ∃ b : Board, Rect b 3 3 ∧ Numbered b.view ∧ NoGuess 3 3 b (1, 1) ∧
    isSolvable b 1 1 = some false := by
  refine ⟨[[-1, -1, -1], [-1, 8, -1], [-1, -1, -1]], ⟨rfl, by decide⟩, by unfold Numbered; decide,
    ⟨{(1, 1)}, .start, by decide⟩, by decide +kernel⟩

/-! ## C35 -/

/-- C35, exactly what `unsolvable_structure` looks for, on every board with at least three rows and columns: a safe
cell all of whose neighbours are mines; two orthogonal neighbours, exactly one of them a mine, every other
cell that sees only one of them being a mine; or a `2×2` square of alternating mines and safe cells with mines on its
outer diagonals. -/
theorem unsolvable_structure_exact (r c : Nat) (b : Board) (hrect : Rect b r c) (hr : 3 ≤ r) (hc : 3 ≤ c) :
    ∃ u, unsolvableStructure b = some u ∧
      (u = true ↔ (∃ z, DeadHole r c b z) ∨ (∃ x y, DeadPair r c b x y) ∨ ∃ i j, DeadSquare r c b i j) := by
  have hd := rect_dims hrect (by omega)
  obtain ⟨u, hu⟩ : ∃ u, unsolvableStructure b = some u := by
    unfold unsolvableStructure
    simp only
    rw [if_neg (by omega)]
    exact ⟨_, rfl⟩
  refine ⟨u, hu, ?_⟩
  have h := unsolvable_iff (b := b) (by omega) (by omega)
  rw [hd.1, hd.2, hu] at h
  simpa [Dead] using h

/-- C35: if `unsolvable_structure` is true there is another layout of mines that cannot be told from the real one: some
safe cell is a mine in it, and every cell that is safe in both has the same number of mines around it in both. -/
theorem unsolvable_structure_ambiguous (r c : Nat) (b : Board) (hrect : Rect b r c) (hr : 0 < r)
    (h : unsolvableStructure b = some true) :
    ∃ τ : Pos → Bool, (∃ p ∈ grid r c, layout b p = false ∧ τ p = true) ∧ (∀ p, p ∉ grid r c → τ p = layout b p) ∧
      ∀ p ∈ grid r c, layout b p = false → τ p = false → layoutNear r c τ p = layoutNear r c (layout b) p := by
  have hd := rect_dims hrect hr
  have hf := unsolvable_fork h
  rw [hd.1, hd.2] at hf
  obtain ⟨D, τ, hf⟩ := hf
  obtain ⟨p, hp, hl⟩ := hf.safe
  refine ⟨τ, ⟨p, hf.sub hp, hl, hf.flip p hp hl⟩, fun q hq => hf.same q fun h => hq (hf.sub h), fun q hq h1 h2 => ?_⟩
  refine hf.count q hq (fun hD => ?_) h1
  rw [hf.flip q hD h1] at h2
  simp at h2

/-- C35: if `unsolvable_structure` is true the board cannot be solved without guessing from any start that opens at
once (a cell showing 0). -/
theorem unsolvable_structure_sound (r c : Nat) (b : Board) (s : Pos) (hrect : Rect b r c) (hnum : Numbered b.view)
    (hr : 0 < r) (hs : s ∈ grid r c) (h0 : b.get s.1 s.2 = 0)
    (h : unsolvableStructure b = some true) : ¬ NoGuess r c b s := by
  have hd := rect_dims hrect hr
  have hf := unsolvable_fork h
  rw [hd.1, hd.2] at hf
  refine hf.noGuess (by simp [layout, h0]) hs ?_
  exact zero_no_mine hrect hnum hr hs h0

example : unsolvableStructure exUnsolvable = some true := by decide +kernel

example : unsolvableStructure exSolvable = some false := by decide +kernel

/-- The dead pair of the example. -/
example : DeadPair 5 4 exUnsolvable (4, 0) (4, 1) := by
  refine ⟨by decide, by decide, by unfold Orth; decide, by decide, by decide⟩

/-- Dead structures of the third kind exist. -/
example : DeadSquare 4 4 [[-1, 2, 2, -1], [2, -1, 3, 2], [2, 3, -1, 2], [-1, 2, 2, -1]] 1 1 := by
  refine ⟨by decide, by decide, ?_, by decide⟩
  rintro ⟨x1, x2⟩ ⟨y1, y2⟩ ⟨h1, h2⟩ ⟨h3, h4⟩ - - h5
  unfold Orth at h5
  dsimp only at h1 h2 h3 h4 h5
  rcases h1 with rfl | rfl <;> rcases h2 with rfl | rfl <;> rcases h3 with rfl | rfl <;> rcases h4 with rfl | rfl <;>
    first
    | (exfalso; omega)
    | decide

end Ms.Properties
