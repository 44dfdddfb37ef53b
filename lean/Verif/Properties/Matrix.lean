import Verif.Lemmas.Matrix
import Mathlib.Data.Set.Card

/-! # C30: the equations built from a game board -/

namespace Ms.Properties
open Ms Ms.Spec

/-- C30: `refresh_matrixs` returns on every board (never looping forever) a well-formed system whose cells are
exactly the covered cells next to a number, each once, and an assignment solves it exactly when every number that
touches a covered cell has the right count of mines around it (marked cells counted as mines). -/
theorem refresh_matrixs_exact (g : Board) :
    ∃ S, refreshMatrixs g = some S ∧ GoodSys S ∧ (∀ q, q ∈ sysCells S ↔ Frontier g q) ∧
      (∀ B ∈ S, B.rows ≠ [] ∧ ∀ r ∈ B.rows, ∃ k, r.1.getD k 0 = 1) ∧
      ∀ σ, Solves σ S ↔
        ∀ p, IsNumber g p → (∃ q, IsCovered g q ∧ Near p q) → g.get p.1 p.2 = minesNear g σ p := by
  obtain ⟨S, h1, h2⟩ := refreshMatrixs_spec g
  refine ⟨S, h1, ⟨fun B hB => (h2.good B hB).1, h2.nodup, fun B hB => (h2.good B hB).2.1⟩, fun q => ?_,
    fun B hB => ⟨(h2.good B hB).2.2.2, (h2.good B hB).2.2.1⟩, fun σ => ?_⟩
  · rw [h2.cells]
    simp only [mem_numberCells, mem_unknownsOf, Frontier]
    constructor
    · rintro ⟨p, ⟨hp, _⟩, hq, hn⟩; exact ⟨hq, p, hp, hn⟩
    · rintro ⟨hq, p, hp, hn⟩; exact ⟨p, ⟨hp, q, hq, hn⟩, hq, hn⟩
  · rw [h2.solves]
    simp only [mem_numberCells, and_imp]

theorem minesNear_finished {g : Board} {p : Pos} (h : ¬ ∃ q, IsCovered g q ∧ Near p q) (σ τ : Pos → Bool) :
    minesNear g σ p = minesNear g τ p := by
  unfold minesNear
  congr 1
  apply Finset.filter_congr
  intro q hq
  constructor
  · rintro ⟨h1, h2 | ⟨h2, h3⟩⟩
    · exact ⟨h1, .inl h2⟩
    · exact absurd ⟨q, ⟨hq, h2⟩, h1⟩ h
  · rintro ⟨h1, h2 | ⟨h2, h3⟩⟩
    · exact ⟨h1, .inl h2⟩
    · exact absurd ⟨q, ⟨hq, h2⟩, h1⟩ h

/-- C30: on a board that some layout explains, the solutions of the system are exactly the layouts consistent
with all shown numbers. -/
theorem refresh_matrixs_consistent (g : Board) (hc : ∃ τ, Consistent g τ) :
    ∃ S, refreshMatrixs g = some S ∧ ∀ σ, Solves σ S ↔ Consistent g σ := by
  obtain ⟨S, h1, -, -, -, h2⟩ := refresh_matrixs_exact g
  obtain ⟨τ, hτ⟩ := hc
  refine ⟨S, h1, fun σ => ?_⟩
  rw [h2]
  constructor
  · intro hs p hp
    by_cases hq : ∃ q, IsCovered g q ∧ Near p q
    · exact hs p hp hq
    · rw [hτ p hp, minesNear_finished hq τ σ]
  · intro hs p hp _; exact hs p hp

/-- C30: the two counters returned by `refresh_matrixs`: covered cells away from every number, and cells marked
as mines. -/
theorem refresh_matrixs_counts (g : Board) (hv : ∀ p ∈ grid g.row g.col, 0 ≤ g.get p.1 p.2) :
    (inlandCount g : Nat) = Set.ncard {q : Pos | IsCovered g q ∧ ¬ Frontier g q} ∧
    (markedCount g : Nat) = Set.ncard {q : Pos | q ∈ grid g.row g.col ∧ g.get q.1 q.2 = 11} := by
  have hmem : ∀ q, q ∈ cells g.row g.col ↔ q ∈ grid g.row g.col := by
    intro q; rw [mem_cells]; simp [grid]
  constructor
  · unfold inlandCount
    rw [← List.toFinset_card_of_nodup ((nodup_cells _ _).filter _), ← Set.ncard_coe_finset]
    congr 1
    ext q
    simp only [List.coe_toFinset, List.mem_filter, Set.mem_setOf_eq, Bool.and_eq_true, decide_eq_true_eq,
      List.all_eq_true, near_mem_block, hmem, Frontier, IsCovered, not_and, not_exists]
    constructor
    · rintro ⟨h1, h2, h3⟩
      refine ⟨⟨h1, h2⟩, fun _ p hp hn => ?_⟩
      exact h3 p ⟨hp.1, hn.symm⟩ hp.2.2
    · rintro ⟨⟨h1, h2⟩, h3⟩
      refine ⟨h1, h2, fun p hp hlt => ?_⟩
      exact h3 ⟨h1, h2⟩ p ⟨hp.1, hv p hp.1, hlt⟩ hp.2.symm
  · unfold markedCount
    rw [← List.toFinset_card_of_nodup ((nodup_cells _ _).filter _), ← Set.ncard_coe_finset]
    congr 1
    ext q
    simp only [List.coe_toFinset, List.mem_filter, Set.mem_setOf_eq, decide_eq_true_eq, hmem]

/-- C30: `refresh_matrix` (no blocks) builds one block whose cells are the covered cells next to a *positive*
number and whose solutions are the layouts that satisfy every positive number touching a covered cell. -/
theorem refresh_matrix_exact (g : Board) :
    (∀ r ∈ (refreshMatrix g).rows, r.1.length = (refreshMatrix g).x.length ∧ ∀ c ∈ r.1, c = 0 ∨ c = 1) ∧
    (refreshMatrix g).x.Nodup ∧
    (∀ q, q ∈ (refreshMatrix g).x ↔ IsCovered g q ∧ ∃ p, IsNumber g p ∧ g.get p.1 p.2 ≠ 0 ∧ Near p q) ∧
    ∀ σ, SolvesB σ (refreshMatrix g) ↔
      ∀ p, IsNumber g p → g.get p.1 p.2 ≠ 0 → (∃ q, IsCovered g q ∧ Near p q) →
        g.get p.1 p.2 = minesNear g σ p := by
  have h := refreshMatrix_spec g
  obtain ⟨s, s1, s2, s3⟩ := h.seg
  refine ⟨?_, h.xnd, fun q => ?_, fun σ => ?_⟩
  · intro r hr
    rw [h.rows, List.mem_map] at hr
    obtain ⟨n, -, rfl⟩ := hr
    refine ⟨by simp, fun c hc => ?_⟩
    obtain ⟨y, -, rfl⟩ := List.mem_map.mp hc
    exact coeff01 n y
  · rw [h.x]
    simp only [mem_rmNums, mem_unknownsOf]
    constructor
    · rintro ⟨p, ⟨⟨hp, hp'⟩, _⟩, hq, hn⟩; exact ⟨hq, p, hp, hp', hn⟩
    · rintro ⟨hq, p, hp, hp', hn⟩; exact ⟨p, ⟨⟨hp, hp'⟩, q, hq, hn⟩, hq, hn⟩
  · rw [← s3, segBlock_solves s1, s2]
    simp only [mem_rmNums, and_imp]

/-- The two functions differ on a `0` that touches a covered cell: `refresh_matrix` ignores it. -/
example : refreshMatrix [[0, 10]] = ⟨[], []⟩ ∧ refreshMatrixs [[0, 10]] = some [⟨[([1], 0)], [(0, 1)]⟩] := by
  decide

/-- A board with two separate segments. -/
example : refreshMatrixs [[10, 1, 0, 0, 0, 2, 10], [10, 11, 0, 0, 0, 2, 10]] =
    some [⟨[([1, 1], 0)], [(0, 0), (1, 0)]⟩, ⟨[([1, 1], 2), ([1, 1], 2)], [(0, 6), (1, 6)]⟩] := by
  decide

/-- The hypothesis of `refresh_matrixs_consistent` holds on that board's right half. -/
example : Consistent [[2, 10], [2, 10]] (fun _ => true) := by
  intro p hp
  have hg : p ∈ grid 2 2 := hp.1
  have h10 := hp.2.2
  have : p = (0, 0) ∨ p = (0, 1) ∨ p = (1, 0) ∨ p = (1, 1) := by
    clear h10 hp; revert p; decide
  rcases this with rfl | rfl | rfl | rfl
  · decide
  · exact absurd h10 (by decide)
  · decide
  · exact absurd h10 (by decide)

end Ms.Properties
