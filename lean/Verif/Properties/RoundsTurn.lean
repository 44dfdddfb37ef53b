import Verif.Lemmas.RoundsTurn
import Verif.Properties.Turn

/-!
# C93: what the solvers find does not depend on how the board is held or the equations are ordered
-/

namespace Ms.Properties
open Ms Ms.Spec

variable {g g' : Board} {r c r' c' : Nat} {σ τ : Pos → Pos}

/-- **C93** the board `mark_board` leaves for a turned board is the turned board it leaves for the board. -/
theorem C93_mark_board (h : Turned σ τ g.view g'.view) (hg : Rect g r c) (hr : 0 < r) (hg' : Rect g' r' c') (hr' : 0 < r')
    (hc : ∃ s, Consistent g s) :
    ∃ m m', markBoard g = some (.ok (), m) ∧ markBoard g' = some (.ok (), m') ∧ Turned σ τ m.view m'.view := by
  obtain ⟨s, hs⟩ := hc
  have hs' : Consistent g' fun p => s (τ p) := turned_consistent h (fun p hp => by
    show s (τ (σ p)) = s p
    rw [(h.turn.there p hp).2]) hs
  obtain ⟨m, h1, h2⟩ := mark_board_finds g r c hg hr s hs
  obtain ⟨m', h1', h2'⟩ := mark_board_finds g' r' c' hg' hr' _ hs'
  obtain ⟨_, k1, k2, -⟩ := mark_board_exact g r c hg hr ⟨s, hs⟩
  obtain ⟨_, k1', k2', -⟩ := mark_board_exact g' r' c' hg' hr' ⟨_, hs'⟩
  rw [h1] at k1
  rw [h1'] at k1'
  simp only [Option.some.injEq, Prod.mk.injEq, true_and] at k1 k1'
  subst k1 k1'
  have d := rect_dims hg hr
  have d' := rect_dims hg' hr'
  have dm := rect_dims k2 hr
  have dm' := rect_dims k2' hr'
  have hview : m.view.row = g.row ∧ m.view.col = g.col := ⟨dm.1.trans d.1.symm, dm.2.trans d.2.symm⟩
  have hview' : m'.view.row = g'.row ∧ m'.view.col = g'.col := ⟨dm'.1.trans d'.1.symm, dm'.2.trans d'.2.symm⟩
  refine ⟨m, m', h1, h1', ?_, fun p hp => ?_⟩
  · rw [hview.1, hview.2, hview'.1, hview'.2]
    exact h.turn
  · rw [hview.1, hview.2] at hp
    show m'.get (σ p).1 (σ p).2 = m.get p.1 p.2
    have hq := (turned_eqs (s := s) h).quick p hp
    by_cases hk : p ∈ quick s (numbersOf g)
    · rw [(h2 p).2 hk, (h2' (σ p)).2 (hq.mpr hk), (h.turn.there p hp).2]
    · rw [(h2 p).1 hk, (h2' (σ p)).1 fun h' => hk (hq.mp h')]
      exact h.cells p hp

theorem unmark_turned (h : Turned σ τ g.view g'.view) (hg : Rect g r c) (hr : 0 < r) (hg' : Rect g' r' c') (hr' : 0 < r') :
    Turned σ τ (unmark g).view (unmark g').view := by
  obtain ⟨u1, u2⟩ := unmark_spec g r c hg
  obtain ⟨u1', u2'⟩ := unmark_spec g' r' c' hg'
  have d := rect_dims hg hr
  have d' := rect_dims hg' hr'
  have dm := rect_dims u1 hr
  have dm' := rect_dims u1' hr'
  have ht : Turn r c r' c' σ τ := by
    have := h.turn
    change Turn g.row g.col g'.row g'.col σ τ at this
    rwa [d.1, d.2, d'.1, d'.2] at this
  refine ⟨?_, fun p hp => ?_⟩
  · show Turn (unmark g).row (unmark g).col (unmark g').row (unmark g').col σ τ
    rwa [dm.1, dm.2, dm'.1, dm'.2]
  · change p ∈ grid (unmark g).row (unmark g).col at hp
    rw [dm.1, dm.2] at hp
    show (unmark g').get (σ p).1 (σ p).2 = (unmark g).get p.1 p.2
    have h1 := mem_grid.mp hp
    have h2 := mem_grid.mp (ht.there p hp).1
    have hcell : g'.get (σ p).1 (σ p).2 = g.get p.1 p.2 := h.cells p (by
      show p ∈ grid g.row g.col
      rwa [d.1, d.2])
    rw [u2 p h1.1 h1.2, u2' (σ p) h2.1 h2.2, hcell]

theorem engine_turned (h : Turned σ τ g.view g'.view) {K K' : Set Pos} (hK : SameSet {p | p ∈ grid g.row g.col} σ K K') {p : Pos}
    (hp : p ∈ grid g.row g.col) : (EngineSafe g' K' (σ p) ↔ EngineSafe g K p) ∧ (EngineMine g' K' (σ p) ↔ EngineMine g K p) := by
  have he := turned_eqs (s := fun _ => false) h
  unfold EngineSafe EngineMine
  rw [he.small hK, he.unknowns hK p hp, turned_certain_iff h hp, turned_certain_iff h hp, he.twin hK hp]
  exact ⟨Iff.rfl, Iff.rfl⟩

/-- **C93** `is_able_to_solve` gives the same answer for the corresponding cell. -/
theorem C93_able (h : Turned σ τ g.view g'.view) (hg : Rect g r c) (hr : 0 < r) (hg' : Rect g' r' c') (hr' : 0 < r')
    (hc : ∃ s, Consistent (unmark g) s) (p : Pos) (hp : p ∈ grid r c) :
    ∃ b, (isAbleToSolve g p).map (·.1) = some b ∧ (isAbleToSolve g' (σ p)).map (·.1) = some b := by
  obtain ⟨s, hs⟩ := hc
  have hu := unmark_turned h hg hr hg' hr'
  have d := rect_dims hg hr
  have d' := rect_dims hg' hr'
  have hpg : p ∈ grid g.row g.col := by rwa [d.1, d.2]
  have hp' : σ p ∈ grid r' c' := by
    have := (h.turn.there p hpg).1
    change σ p ∈ grid g'.row g'.col at this
    rwa [d'.1, d'.2] at this
  have hs' : Consistent (unmark g') fun p => s (τ p) := turned_consistent hu (fun p hp => by
    show s (τ (σ p)) = s p
    rw [(hu.turn.there p hp).2]) hs
  obtain ⟨b, m, h1, h2⟩ := is_able_to_solve_iff g r c hg hr s hs p (mem_grid.mp hp).1 (mem_grid.mp hp).2
  obtain ⟨b', m', h1', h2'⟩ := is_able_to_solve_iff g' r' c' hg' hr' _ hs' (σ p) (mem_grid.mp hp').1 (mem_grid.mp hp').2
  have hpu : p ∈ grid (unmark g).row (unmark g).col := by
    have dm := rect_dims (unmark_spec g r c hg).1 hr
    rwa [dm.1, dm.2]
  have hq := (turned_eqs (s := s) hu).quick
  have he := engine_turned hu hq hpu
  rw [hq p hpu, he.1, he.2, ← h2] at h2'
  have : b' = b := Bool.eq_iff_iff.mpr h2'
  subst this
  exact ⟨b', by rw [h1]; rfl, by rw [h1']; rfl⟩

/-- **C93** `get_all_not_and_is_mine_on_board` finds the corresponding safe cells and the corresponding mines. -/
theorem C93_all (h : Turned σ τ g.view g'.view) (hg : Rect g r c) (hr : 0 < r) (hg' : Rect g' r' c') (hr' : 0 < r')
    (hc : ∃ s, Consistent g s) :
    ∃ S n i m S' n' i' m', refreshMatrixs g = some S ∧ getAllOnBoard S g = some (n, i, m) ∧
      refreshMatrixs g' = some S' ∧ getAllOnBoard S' g' = some (n', i', m') ∧
      ∀ p ∈ grid r c, (σ p ∈ n' ↔ p ∈ n) ∧ (σ p ∈ i' ↔ p ∈ i) := by
  obtain ⟨s, hs⟩ := hc
  have hs' : Consistent g' fun p => s (τ p) := turned_consistent h (fun p hp => by
    show s (τ (σ p)) = s p
    rw [(h.turn.there p hp).2]) hs
  obtain ⟨S, n, i, m, h1, h2, h3, h4⟩ := get_all_on_board_iff g r c hg hr s hs
  obtain ⟨S', n', i', m', h1', h2', h3', h4'⟩ := get_all_on_board_iff g' r' c' hg' hr' _ hs'
  refine ⟨S, n, i, m, S', n', i', m', h1, h2, h1', h2', fun p hp => ?_⟩
  have d := rect_dims hg hr
  have hpg : p ∈ grid g.row g.col := by rwa [d.1, d.2]
  have hq := (turned_eqs (s := s) h).quick
  have he := engine_turned h hq hpg
  rw [h3, h4, h3', h4', hq p hpg, he.1, he.2, (h.turn.there p hpg).2]
  exact ⟨Iff.rfl, Iff.rfl⟩

/-- **C93** what `solve_direct` and `solve_minus` report does not depend on how the equations are ordered, which of two equal equations are
dropped, in which order their cells come or how they are put into blocks: two systems with the same equations and a common solution give
the same safe cells and the same mines. -/
theorem C93_order (S S' : Sys) (hS : GoodSys S) (hS' : GoodSys S') (hE : equationsOf S' = equationsOf S) (s : Pos → Bool) (hs : Solves s S)
    (hs' : Solves s S') (hg : Rect g r c) (hb : OnBoard S r c) (hb' : OnBoard S' r c) :
    (∃ o n i o' n' i', solveDirect S g = some o ∧ o.res = .ok (n, i) ∧ solveDirect S' g = some o' ∧ o'.res = .ok (n', i') ∧
      (∀ p, p ∈ n' ↔ p ∈ n) ∧ ∀ p, p ∈ i' ↔ p ∈ i) ∧
    ∃ o n i o' n' i', solveMinus S g = some o ∧ o.res = .ok (n, i) ∧ solveMinus S' g = some o' ∧ o'.res = .ok (n', i') ∧
      (∀ p, p ∈ n' ↔ p ∈ n) ∧ ∀ p, p ∈ i' ↔ p ∈ i := by
  constructor
  · obtain ⟨o, n, i, h1, h2, h3, h4, -⟩ := solve_direct_finds S g r c hS hg hb s hs
    obtain ⟨o', n', i', h1', h2', h3', h4', -⟩ := solve_direct_finds S' g r c hS' hg hb' s hs'
    exact ⟨o, n, i, o', n', i', h1, h2, h1', h2', fun p => by rw [h3, h3', hE], fun p => by rw [h4, h4', hE]⟩
  · obtain ⟨o, n, i, h1, h2, h3, h4, -⟩ := solve_minus_finds S g r c hS hg hb s hs
    obtain ⟨o', n', i', h1', h2', h3', h4', -⟩ := solve_minus_finds S' g r c hS' hg hb' s hs'
    exact ⟨o, n, i, o', n', i', h1, h2, h1', h2', fun p => by rw [h3, h3', hE], fun p => by rw [h4, h4', hE]⟩

/-- A board and its mirror image, marked. -/
example : Turned (fun p => (p.1, 4 - 1 - p.2)) (fun p => (p.1, 4 - 1 - p.2)) (Board.view [[1, 10, 1, 10], [1, 10, 1, 10]])
      (mirror [[1, 10, 1, 10], [1, 10, 1, 10]]).view ∧
    markBoard [[1, 10, 1, 10], [1, 10, 1, 10]] = some (.ok (), [[1, 10, 1, 12], [1, 10, 1, 12]]) ∧
    markBoard (mirror [[1, 10, 1, 10], [1, 10, 1, 10]]) = some (.ok (), mirror [[1, 10, 1, 12], [1, 10, 1, 12]]) :=
  ⟨(C87_mirror [[1, 10, 1, 10], [1, 10, 1, 10]] 2 4 ⟨rfl, by decide⟩ (by decide)).2, rfl, rfl⟩

end Ms.Properties
