import Verif.Lemmas.Direct
import Mathlib.Tactic.IntervalCases

/-! # C27, C28, C31: the deterministic solvers

An equation system is a list of blocks; an assignment `σ : Pos → Bool` says which cells are mines.
`Solves σ S` (SpecSolve.lean) says that every equation of `S` holds under `σ`. -/

namespace Ms.Properties
open Ms Ms.Spec

/-! ## C31 -/

/-- C31: on a rectangular 0/1 block in which every equation has a cell and every cell an equation,
`chunk_matrix` returns blocks that partition the cells and whose joint solutions are the solutions of the input;
every returned block again has those properties. -/
theorem chunk_matrix_exact (B : Block) (h : Block01 B) (hcov : BlockCovered B) (hne : B.rows ≠ [])
    (hhit : ∀ r ∈ B.rows, ∃ k, r.1.getD k 0 = 1) :
    ∃ S, chunkMatrix B = some S ∧ (∀ σ, SolvesB σ B ↔ Solves σ S) ∧ (sysCells S).Perm B.x ∧
      ∀ B' ∈ S, Block01 B' ∧ BlockCovered B' ∧ B'.rows ≠ [] ∧ B'.x ≠ [] ∧ ∀ r ∈ B'.rows, ∃ k, r.1.getD k 0 = 1 := by
  obtain ⟨S, h1, h2⟩ := chunkMatrix_spec h hhit hcov hne
  exact ⟨S, h1, h2.equiv, h2.perm, fun B' hB' =>
    ⟨h2.rect B' hB', h2.covered B' hB', h2.rows B' hB', h2.cols B' hB', h2.hit B' hB'⟩⟩

/-- C31: `chunk_matrix` panics exactly on the blocks with an equation without cells. -/
theorem chunk_matrix_panics_iff (B : Block) (h : Block01 B) (hcov : BlockCovered B) (hne : B.rows ≠ []) :
    chunkMatrix B = none ↔ ∃ r ∈ B.rows, ∀ k, r.1.getD k 0 = 0 := by
  constructor
  · intro hn
    by_contra hh
    push Not at hh
    obtain ⟨S, h1, -⟩ := chunkMatrix_spec h (fun r hr => by
      obtain ⟨k, hk⟩ := hh r hr
      exact ⟨k, (getD_mem01 (h r hr).2 k).resolve_left hk⟩) hcov hne
    rw [hn] at h1; simp at h1
  · rintro ⟨r, hr, hz⟩
    exact chunkLoop_none _ B h (fun hh => by
      obtain ⟨k, hk⟩ := hh r hr
      rw [hz k] at hk; omega)

/-- C31: the same for `chunk_matrixes` on a whole system. -/
theorem chunk_matrixes_exact (S : Sys) (hg : GoodSys S) (hne : ∀ B ∈ S, B.rows ≠ [])
    (hhit : ∀ B ∈ S, ∀ r ∈ B.rows, ∃ k, r.1.getD k 0 = 1) :
    ∃ S', chunkMatrixes S = some S' ∧ (∀ σ, Solves σ S ↔ Solves σ S') ∧ (sysCells S').Perm (sysCells S) ∧
      GoodSys S' := by
  obtain ⟨S', h1, h2⟩ := chunkMatrixes_spec S (fun B hB => ⟨hg.rect B hB, hhit B hB, hg.covered B hB, hne B hB⟩)
  exact ⟨S', h1, h2.equiv, h2.perm, h2.rect, h2.perm.nodup_iff.mpr hg.nodup, h2.covered⟩

/-- C31: the blocks of a system without repeated cells are independent: any choice of one solution per block is
a joint solution. -/
theorem blocks_independent (S : Sys) (hn : (sysCells S).Nodup) (τ : Block → Pos → Bool)
    (hτ : ∀ B ∈ S, SolvesB (τ B) B) : ∃ σ, Solves σ S ∧ ∀ B ∈ S, ∀ p ∈ B.x, σ p = τ B p :=
  combine_blocks S hn τ hτ

/-- A block of two independent equations. -/
def exBlock : Block := ⟨[([1, 0, 1, 0], 1), ([0, 1, 0, 1], 1)], [(0, 0), (0, 1), (1, 0), (1, 1)]⟩

example : chunkMatrix exBlock =
    some [⟨[([1, 1], 1)], [(1, 0), (0, 0)]⟩, ⟨[([1, 1], 1)], [(1, 1), (0, 1)]⟩] := by decide

example : Block01 exBlock ∧ BlockCovered exBlock ∧ exBlock.rows ≠ [] ∧
    ∀ r ∈ exBlock.rows, ∃ k, r.1.getD k 0 = 1 := by
  refine ⟨?_, ?_, by decide, ?_⟩
  · intro r hr
    simp only [exBlock, List.mem_cons, List.not_mem_nil, or_false] at hr
    rcases hr with rfl | rfl <;> decide
  · intro k hk
    have hk : k < 4 := hk
    interval_cases k
    · exact ⟨([1, 0, 1, 0], 1), by decide, rfl⟩
    · exact ⟨([0, 1, 0, 1], 1), by decide, rfl⟩
    · exact ⟨([1, 0, 1, 0], 1), by decide, rfl⟩
    · exact ⟨([0, 1, 0, 1], 1), by decide, rfl⟩
  · intro r hr
    simp only [exBlock, List.mem_cons, List.not_mem_nil, or_false] at hr
    rcases hr with rfl | rfl
    · exact ⟨0, rfl⟩
    · exact ⟨1, rfl⟩

/-- The panic is real: one cell next to a `1` and a `2` is an inconsistent board whose single block
`x = 1, x = 2` makes `solve_direct` panic instead of returning an error. -/
example : solveDirect [⟨[([1], 1), ([1], 2)], [(0, 0)]⟩] [[10]] = none := by decide

/-! ## C28 -/

/-- The cells of a system lie on the board. -/
def OnBoard (S : Sys) (r c : Nat) : Prop := ∀ p ∈ sysCells S, p.1 < r ∧ p.2 < c

theorem out_of_spec {S : Sys} {g : Board} {r c : Nat} (hg : GoodSys S) (hr : Rect g r c) (hb : OnBoard S r c)
    {out : SolveOut} {m : Marks} {l : List (Pos × Bool)} (ho : out.board = m.board)
    (hrep : Reports ⟨[], [], g⟩ m l) (hd : DedS S out.sys l) :
    (∀ σ, Solves σ S ↔ Solves σ out.sys ∧ (∀ p ∈ m.notMine, σ p = false) ∧ (∀ p ∈ m.isMine, σ p = true)) ∧
      (sysCells S).Perm (m.notMine ++ m.isMine ++ sysCells out.sys) ∧
      MarkedFrom g out.board m.notMine m.isMine ∧ GoodSys out.sys ∧ Rect out.board r c := by
  have hn : m.notMine = reported l false := by rw [hrep.notMine]; simp
  have hi : m.isMine = reported l true := by rw [hrep.isMine]; simp
  have hperm := hd.perm
  have hnd := hperm.nodup_iff.mp hg.nodup
  rw [List.nodup_append] at hnd
  refine ⟨fun σ => ?_, ?_, ?_, ⟨hd.rect, hnd.2.1, hd.covered⟩, ?_⟩
  · rw [hd.equiv, agrees_iff, hn, hi]
  · rw [hn, hi]
    exact hperm.trans ((reported_perm l).append_right _)
  · rw [ho]
    exact markedFrom_of_reports hr hrep hnd.1 (fun q hq => hb _ (hperm.mem_iff.mpr
      (List.mem_append.mpr (.inl (List.mem_map.mpr ⟨q, hq, rfl⟩)))))
  · rw [ho, hrep.board]
    exact applyMarks_rect l g hr

/-- C28: on every satisfiable system `solve_direct` returns `Ok((not_mine, is_mine))`; the assignments that
satisfy the input are exactly those that satisfy the remaining system, make every cell of `is_mine` a mine and
every cell of `not_mine` safe (in particular each reported cell is forced); the reported cells and the cells of the
remaining system partition the cells of the input; the board changes exactly at the reported cells (11 for mines,
12 for safe cells); and the remaining system is again well-formed. -/
theorem solve_direct_exact (S : Sys) (g : Board) (r c : Nat) (hg : GoodSys S) (hr : Rect g r c)
    (hb : OnBoard S r c) (hsat : ∃ σ, Solves σ S) :
    ∃ out notm ism, solveDirect S g = some out ∧ out.res = .ok (notm, ism) ∧
      (∀ σ, Solves σ S ↔ Solves σ out.sys ∧ (∀ p ∈ notm, σ p = false) ∧ (∀ p ∈ ism, σ p = true)) ∧
      (sysCells S).Perm (notm ++ ism ++ sysCells out.sys) ∧
      MarkedFrom g out.board notm ism ∧ GoodSys out.sys ∧ Rect out.board r c := by
  obtain ⟨out, m, l, h1, h2, h3, h4, h5, -⟩ := solveDirect_spec (g := g) hg.rect hg.covered hsat
  exact ⟨out, m.notMine, m.isMine, h1, h3, out_of_spec hg hr hb h2 h4 h5⟩

/-- C28 on arbitrary (also unsatisfiable) systems: where `solve_direct` returns `Ok` the same holds, and where
it returns an error the system has no solution.  (It panics on some unsatisfiable systems, see above.) -/
theorem solve_direct_result (S : Sys) (g : Board) (r c : Nat) (hg : GoodSys S) (hr : Rect g r c)
    (hb : OnBoard S r c) (out : SolveOut) (ho : solveDirect S g = some out) :
    (∃ notm ism, out.res = .ok (notm, ism) ∧
      (∀ σ, Solves σ S ↔ Solves σ out.sys ∧ (∀ p ∈ notm, σ p = false) ∧ (∀ p ∈ ism, σ p = true)) ∧
      (sysCells S).Perm (notm ++ ism ++ sysCells out.sys) ∧
      MarkedFrom g out.board notm ism ∧ GoodSys out.sys) ∨
    (out.res = .error 6 ∧ ∀ σ, ¬ Solves σ S) := by
  obtain ⟨m, l, h2, h4, h5, h6 | h6⟩ := solveDirect_ok hg.rect hg.covered ho
  · obtain ⟨a, b, c', d, -⟩ := out_of_spec hg hr hb h2 h4 h5
    exact .inl ⟨_, _, h6, a, b, c', d⟩
  · exact .inr h6

/-! ## C27 -/

/-- C27: the same for `solve_minus` on every satisfiable system. -/
theorem solve_minus_exact (S : Sys) (g : Board) (r c : Nat) (hg : GoodSys S) (hr : Rect g r c)
    (hb : OnBoard S r c) (hsat : ∃ σ, Solves σ S) :
    ∃ out notm ism, solveMinus S g = some out ∧ out.res = .ok (notm, ism) ∧
      (∀ σ, Solves σ S ↔ Solves σ out.sys ∧ (∀ p ∈ notm, σ p = false) ∧ (∀ p ∈ ism, σ p = true)) ∧
      (sysCells S).Perm (notm ++ ism ++ sysCells out.sys) ∧
      MarkedFrom g out.board notm ism ∧ GoodSys out.sys ∧ Rect out.board r c := by
  obtain ⟨out, m, l, h1, h2, h3, h4, h5, -⟩ := solveMinus_spec (g := g) hg.rect hg.covered hsat
  exact ⟨out, m.notMine, m.isMine, h1, h3, out_of_spec hg hr hb h2 h4 h5⟩

/-- Satisfiability cannot be dropped in C27: on this unsatisfiable system (equations 2 and 4 contradict each
other) `solve_minus` reports both cells as mines, returns `Ok` and leaves the empty system. -/
theorem solve_minus_unsat_example :
    let S : Sys := [⟨[([1, 0], 1), ([1, 1], 2), ([0, 1], 1), ([1, 1], 3)], [(0, 0), (0, 1)]⟩]
    (∀ σ, ¬ Solves σ S) ∧
      (solveMinus S [[10, 10]]).map (fun o => (o.sys, o.board, o.res.toOption)) =
        some ([], [[11, 11]], some ([], [(0, 0), (0, 1)])) := by
  refine ⟨fun σ h => ?_, rfl⟩
  have h1 := h _ (List.mem_singleton.mpr rfl) ([1, 1], 2) (by simp)
  have h2 := h _ (List.mem_singleton.mpr rfl) ([1, 1], 3) (by simp)
  simp only at h1 h2
  omega

/-- The pair rule at work: `a + b = 1`, `a + b + c = 2` gives the mine `c`; nothing else is known. -/
example : (solveMinus [⟨[([1, 1, 0], 1), ([1, 1, 1], 2)], [(0, 0), (0, 1), (0, 2)]⟩] [[10, 10, 10]]).map
      (fun o => (o.board, o.res.toOption)) = some ([[10, 10, 11]], some ([], [(0, 2)])) := rfl

example : GoodSys [⟨[([1, 1, 0], 1), ([1, 1, 1], 2)], [(0, 0), (0, 1), (0, 2)]⟩] ∧
    OnBoard [⟨[([1, 1, 0], 1), ([1, 1, 1], 2)], [(0, 0), (0, 1), (0, 2)]⟩] 1 3 ∧ Rect [[10, 10, 10]] 1 3 ∧
    ∃ σ, Solves σ [⟨[([1, 1, 0], 1), ([1, 1, 1], 2)], [(0, 0), (0, 1), (0, 2)]⟩] := by
  refine ⟨⟨?_, by decide, ?_⟩, ?_, ⟨rfl, by decide⟩, fun p => decide (p.2 ≥ 1), ?_⟩
  · intro B hB r hr
    rw [List.mem_singleton.mp hB] at hr ⊢
    simp only [List.mem_cons, List.not_mem_nil, or_false] at hr
    rcases hr with rfl | rfl <;> decide
  · intro B hB k hk
    rw [List.mem_singleton.mp hB] at hk ⊢
    have hk : k < 3 := hk
    refine ⟨([1, 1, 1], 2), by simp, ?_⟩
    interval_cases k <;> rfl
  · intro p hp
    simp only [sysCells, List.flatMap_cons, List.flatMap_nil, List.append_nil, List.mem_cons, List.not_mem_nil,
      or_false] at hp
    rcases hp with rfl | rfl | rfl <;> decide
  · intro B hB r hr
    rw [List.mem_singleton.mp hB] at hr ⊢
    simp only [List.mem_cons, List.not_mem_nil, or_false] at hr
    rcases hr with rfl | rfl <;> decide

end Ms.Properties
