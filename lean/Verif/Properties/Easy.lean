import Verif.Lemmas.EasyLoop
import Verif.Lemmas.EasyTurn
import Verif.Properties.Solvable
import Verif.Properties.Turn

/-!
# C26, C87, C92: exactly which boards `is_solvable` accepts

`Clears` (`SpecEasy.lean`) describes a player by sets of known cells only: no equations, no order of rules, no lists.
-/

namespace Ms.Properties

open Spec

/-- **C92** On every correctly numbered board of any size and every safe start, `is_solvable` answers, and it answers `true` exactly
if the board has no dead structure and the player of `SpecEasy` gets to know all safe cells. -/
theorem is_solvable_exact (r c : Nat) (b : Board) (s : Pos) (hrect : Rect b r c) (hnum : Numbered b.view) (hr : 3 ≤ r)
    (hc : 3 ≤ c) (hs : s ∈ grid r c) (hsafe : b.get s.1 s.2 ≠ -1) :
    ∃ v, isSolvable b s.1 s.2 = some v ∧
      (v = true ↔ (¬ ∃ z, DeadHole r c b z) ∧ (¬ ∃ x y, DeadPair r c b x y) ∧ (¬ ∃ i j, DeadSquare r c b i j) ∧
        Clears r c b {s}) := by
  obtain ⟨v, hv, -⟩ := is_solvable_sound r c b s hrect hnum hr hc hs hsafe
  obtain ⟨u, hu, hdead⟩ := unsolvable_structure_exact r c b hrect hr hc
  have h := isSolvable_clears (r := r) (c := c) (b := b) (s := s) ⟨hrect, by omega, by omega, hnum⟩ hr hc
    (by simp [layout, hsafe]) hs
  rw [hv, hu] at h
  simp only [Option.some.injEq] at h
  refine ⟨v, hv, h.trans ?_⟩
  cases u with
  | true =>
    simp only [Bool.true_eq_false, false_and, false_iff]
    rintro ⟨h1, h2, h3, -⟩
    rcases hdead.mp rfl with k | k | k
    · exact h1 k
    · exact h2 k
    · exact h3 k
  | false =>
    simp only [Bool.false_eq_true, false_iff, not_or] at hdead
    simp only [true_and]
    exact ⟨fun k => ⟨hdead.1, hdead.2.1, hdead.2.2, k⟩, fun k => k.2.2.2⟩

/-- **C92** For a start showing 0 the dead structures do not matter: the player never clears a board that has one. -/
theorem is_solvable_exact_zero (r c : Nat) (b : Board) (s : Pos) (hrect : Rect b r c) (hnum : Numbered b.view) (hr : 3 ≤ r)
    (hc : 3 ≤ c) (hs : s ∈ grid r c) (h0 : b.get s.1 s.2 = 0) :
    ∃ v, isSolvable b s.1 s.2 = some v ∧ (v = true ↔ Clears r c b {s}) := by
  obtain ⟨v, hv, -⟩ := is_solvable_sound r c b s hrect hnum hr hc hs (by omega)
  have hb : BoardOK r c b := ⟨hrect, by omega, by omega, hnum⟩
  have hl : layout b s = false := by simp [layout, h0]
  have h := isSolvable_clears hb hr hc hl hs
  rw [hv] at h
  simp only [Option.some.injEq] at h
  refine ⟨v, hv, h.trans ⟨fun k => k.2, fun k => ⟨?_, k⟩⟩⟩
  obtain ⟨u, hu, -⟩ := unsolvable_structure_exact r c b hrect hr hc
  cases u with
  | false => exact hu
  | true =>
    obtain ⟨g, w, -, -, h3, h4⟩ := run_clears hb hl hs
    exact absurd (h4 (h3.mpr k)) (unsolvable_structure_sound r c b s hrect hnum (by omega) hs h0 hu)

/-- **C92** what the player clears can be opened without guessing. -/
theorem clears_no_guess (r c : Nat) (b : Board) (s : Pos) (hrect : Rect b r c) (hnum : Numbered b.view) (hr : 0 < r)
    (hc : 0 < c) (hs : s ∈ grid r c) (hsafe : b.get s.1 s.2 ≠ -1) (h : Clears r c b {s}) : NoGuess r c b s := by
  obtain ⟨g, w, -, -, h3, h4⟩ := run_clears (r := r) (c := c) (b := b) (s := s) ⟨hrect, hr, hc, hnum⟩ (by simp [layout, hsafe]) hs
  exact h4 (h3.mpr h)

/-! ## turned boards -/

/-- **C87** on boards of any size `is_solvable` gives the same answer for the turned board and the turned start (showing 0). -/
theorem C87_solvable {b b' : Board} {r c r' c' : Nat} {σ τ : Pos → Pos} (h : Turn r c r' c' σ τ)
    (hcell : ∀ p ∈ grid r c, b'.get (σ p).1 (σ p).2 = b.get p.1 p.2) (hb : Rect b r c) (hb' : Rect b' r' c')
    (hnum : Numbered b.view) (hr : 3 ≤ r) (hc : 3 ≤ c) (hr' : 3 ≤ r') (hc' : 3 ≤ c') (s : Pos)
    (hs : s ∈ grid r c) (h0 : b.get s.1 s.2 = 0) :
    ∃ a, isSolvable b s.1 s.2 = some a ∧ isSolvable b' (σ s).1 (σ s).2 = some a := by
  have hnum' := turned_rect_numbered h hcell hb hb' (by omega) (by omega) hnum
  obtain ⟨x, hx, e1⟩ := is_solvable_exact_zero r c b s hb hnum hr hc hs h0
  obtain ⟨y, hy, e2⟩ := is_solvable_exact_zero r' c' b' (σ s) hb' hnum' hr' hc' (h.there s hs).1 (by rw [hcell s hs, h0])
  refine ⟨x, hx, ?_⟩
  rw [hy]
  have : (x = true) ↔ (y = true) := e1.trans ((turned_clears h hcell hs).trans e2.symm)
  cases x <;> cases y <;> simp_all

theorem rigid_solvable {b b' : Board} {r c r' c' : Nat} {σ τ : Pos → Pos} (h : Turn r c r' c' σ τ) (hg : Rigid r c r' c' σ)
    (hg' : Rigid r' c' r c τ) (hcell : ∀ p ∈ grid r c, b'.get (σ p).1 (σ p).2 = b.get p.1 p.2) (hb : Rect b r c)
    (hb' : Rect b' r' c') (hnum : Numbered b.view) (hr : 3 ≤ r) (hc : 3 ≤ c) (hr' : 3 ≤ r') (hc' : 3 ≤ c') (s : Pos)
    (hs : s ∈ grid r c) (hsafe : b.get s.1 s.2 ≠ -1) : isSolvable b' (σ s).1 (σ s).2 = isSolvable b s.1 s.2 := by
  have hnum' := turned_rect_numbered h hcell hb hb' (by omega) (by omega) hnum
  obtain ⟨x, hx, e1⟩ := is_solvable_exact r c b s hb hnum hr hc hs hsafe
  obtain ⟨y, hy, e2⟩ := is_solvable_exact r' c' b' (σ s) hb' hnum' hr' hc' (h.there s hs).1 (by rw [hcell s hs]; exact hsafe)
  have hlay : ∀ p ∈ grid r c, layout b' (σ p) = layout b p := fun p hp => by unfold layout; rw [hcell p hp]
  have hlay' : ∀ p ∈ grid r' c', layout b (τ p) = layout b' p := fun p hp => by
    rw [← hlay _ (h.back p hp).1, (h.back p hp).2]
  have d1 := hg.dead hg' h hlay
  have d2 := hg'.dead hg h.symm hlay'
  have hcl := turned_clears (b := b) (b' := b') h hcell hs
  have : (x = true) ↔ (y = true) := by
    rw [e1, e2, hcl]
    exact ⟨fun k => ⟨fun z => k.1 (d2.1 z), fun z => k.2.1 (d2.2.1 z), fun z => k.2.2.1 (d2.2.2 z), k.2.2.2⟩,
      fun k => ⟨fun z => k.1 (d1.1 z), fun z => k.2.1 (d1.2.1 z), fun z => k.2.2.1 (d1.2.2 z), k.2.2.2⟩⟩
  rw [hx, hy]
  cases x <;> cases y <;> simp_all

/-- **C87** `is_solvable` gives the same answer for a board of any size and its mirror images and transposition, from every safe
start.  All eight symmetries are compositions of these three. -/
theorem C87_solvable_safe_start (b : Board) (r c : Nat) (hb : Rect b r c) (hnum : Numbered b.view) (hr : 3 ≤ r) (hc : 3 ≤ c)
    (x y : Nat) (hx : x < r) (hy : y < c) (hsafe : b.get x y ≠ -1) :
    isSolvable (mirror b) x (c - 1 - y) = isSolvable b x y ∧
      isSolvable (upsideDown b) (r - 1 - x) y = isSolvable b x y ∧
      isSolvable (flipped b) y x = isSolvable b x y := by
  have hs : (x, y) ∈ grid r c := mem_grid.mpr ⟨hx, hy⟩
  have key : ∀ (b' : Board) (r' c' : Nat) (σ τ : Pos → Pos), Rect b' r' c' → 3 ≤ r' → 3 ≤ c' → Turned σ τ b.view b'.view →
      Rigid r c r' c' σ → Rigid r' c' r c τ → isSolvable b' (σ (x, y)).1 (σ (x, y)).2 = isSolvable b x y := by
    intro b' r' c' σ τ hb' hr' hc' ht hg hg'
    obtain ⟨a1, a2⟩ := rect_dims hb (by omega)
    obtain ⟨a3, a4⟩ := rect_dims hb' (by omega)
    have h : Turn b.row b.col b'.row b'.col σ τ := ht.turn
    rw [a1, a2, a3, a4] at h
    refine rigid_solvable h hg hg' (fun p hp => ?_) hb hb' hnum hr hc hr' hc' (x, y) hs hsafe
    rw [← a1, ← a2] at hp
    exact ht.cells p hp
  have h1 := C87_mirror b r c hb (by omega)
  have h2 := C87_upside_down b r c hb (by omega)
  have h3 := C87_flipped b r c hb (by omega) (by omega)
  refine ⟨?_, ?_, ?_⟩
  · exact key (mirror b) r c (fun p => (p.1, c - 1 - p.2)) (fun p => (p.1, c - 1 - p.2)) h1.1 hr hc h1.2 (rigid_mirror r c)
      (rigid_mirror r c)
  · exact key (upsideDown b) r c (fun p => (r - 1 - p.1, p.2)) (fun p => (r - 1 - p.1, p.2)) h2.1 hr hc h2.2
      (rigid_upsideDown r c) (rigid_upsideDown r c)
  · exact key (flipped b) c r (fun p => (p.2, p.1)) (fun p => (p.2, p.1)) h3.1 hc hr h3.2 (rigid_flipped r c) (rigid_flipped c r)

/-! ## examples -/

/-- the player clears the board of `Properties/Solvable.lean`, which is not open after the first click -/
example : Clears 5 4 exSolvable {(0, 0)} := by
  obtain ⟨v, h1, h2⟩ := is_solvable_exact_zero 5 4 exSolvable (0, 0) exSolvable_rect exSolvable_numbered (by decide) (by decide)
    (by decide) (by decide)
  refine h2.mp ?_
  have : isSolvable exSolvable 0 0 = some true := by decide +kernel
  rw [this] at h1
  exact (Option.some.inj h1).symm

example : ¬ Clears 5 4 exUnsolvable {(0, 0)} := by
  obtain ⟨v, h1, h2⟩ := is_solvable_exact_zero 5 4 exUnsolvable (0, 0) exUnsolvable_rect exUnsolvable_numbered (by decide)
    (by decide) (by decide) (by decide)
  rw [← h2]
  have : isSolvable exUnsolvable 0 0 = some false := by decide +kernel
  rw [this] at h1
  rw [← Option.some.inj h1]
  decide

/-- a board of more than 55 cells -/
def exLarge : Board :=
  [[0, 0, 0, 0, 0, 0, 0, 0], [0, 0, 0, 0, 0, 0, 0, 0], [0, 1, 1, 1, 0, 0, 0, 0], [0, 1, -1, 1, 0, 0, 0, 0],
   [0, 1, 1, 1, 1, 1, 1, 0], [1, 1, 0, 0, 1, -1, 1, 0], [-1, 1, 0, 0, 1, 1, 1, 0], [1, 1, 0, 0, 0, 0, 0, 0]]

theorem exLarge_numbered : Numbered exLarge.view := by unfold Numbered; decide +kernel

example : ∃ a, isSolvable exLarge 0 0 = some a ∧ isSolvable (mirror exLarge) 0 7 = some a := by
  have h := C87_mirror exLarge 8 8 ⟨by decide, by decide⟩ (by decide)
  exact C87_solvable (σ := fun p => (p.1, 8 - 1 - p.2)) h.2.turn h.2.cells ⟨by decide, by decide⟩ h.1 exLarge_numbered
    (by decide) (by decide) (by decide) (by decide) (0, 0) (by decide) (by decide)

example : isSolvable (mirror exSolvable) 0 3 = isSolvable exSolvable 0 0 :=
  (C87_solvable_safe_start exSolvable 5 4 exSolvable_rect exSolvable_numbered (by decide) (by decide) 0 0 (by decide) (by decide)
    (by decide)).1

end Ms.Properties
