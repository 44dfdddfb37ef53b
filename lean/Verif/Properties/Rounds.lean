import Verif.Lemmas.RoundsBoard
import Verif.Properties.Mark

/-!
# C27, C28, C31, C41, C44: exactly what the fast solvers find

`SpecRounds` says what one look at every equation, and one look at every pair of equations, finds.  The solvers find exactly that: no more
(C27, C28 already) and no less.
-/

namespace Ms.Properties
open Ms Ms.Spec

/-! ## C28, C27 -/

/-- C28: on every satisfiable system `solve_direct` reports exactly the cells that one look at the single equations finds, each as the value
it has in the solutions; what is left are exactly the equations that still have unknown cells, without the known ones, one block for each
group of cells tied by equations. -/
theorem solve_direct_finds (S : Sys) (g : Board) (r c : Nat) (hg : GoodSys S) (hr : Rect g r c) (hb : OnBoard S r c) (σ : Pos → Bool)
    (hσ : Solves σ S) : ∃ out notm ism, solveDirect S g = some out ∧ out.res = .ok (notm, ism) ∧
      (∀ p, p ∈ notm ↔ p ∈ singles σ (equationsOf S) ∅ ∧ σ p = false) ∧
      (∀ p, p ∈ ism ↔ p ∈ singles σ (equationsOf S) ∅ ∧ σ p = true) ∧
      ∀ B ∈ out.sys, ∀ p ∈ B.x, ∀ q, q ∈ B.x ↔ Knotted (equationsOf S) (singles σ (equationsOf S) ∅) p q := by
  obtain ⟨out, n, i, h1, h2, h3, h4, -⟩ := solve_direct_exact S g r c hg hr hb ⟨σ, hσ⟩
  have hL := Left.ofGood hg hσ
  have hL' := (hL.solveDirect h1).1
  have hf := found_iff h3 h4 hL hL' (singles_cells_of (by simp))
  exact ⟨out, n, i, h1, h2, fun p => (hf p).1, fun p => (hf p).2, fun B hB p hp q => hL'.knot_iff (hL.direct_conn h1) hB hp q⟩

/-- C27: on every satisfiable system `solve_minus` reports exactly the cells that one look at the pairs of equations, and then one at the
single equations, finds. -/
theorem solve_minus_finds (S : Sys) (g : Board) (r c : Nat) (hg : GoodSys S) (hr : Rect g r c) (hb : OnBoard S r c) (σ : Pos → Bool)
    (hσ : Solves σ S) : ∃ out notm ism, solveMinus S g = some out ∧ out.res = .ok (notm, ism) ∧
      (∀ p, p ∈ notm ↔ p ∈ pairs σ (equationsOf S) ∅ ∧ σ p = false) ∧
      (∀ p, p ∈ ism ↔ p ∈ pairs σ (equationsOf S) ∅ ∧ σ p = true) ∧
      ∀ B ∈ out.sys, ∀ p ∈ B.x, ∀ q, q ∈ B.x ↔ Knotted (equationsOf S) (pairs σ (equationsOf S) ∅) p q := by
  obtain ⟨out, n, i, h1, h2, h3, h4, -⟩ := solve_minus_exact S g r c hg hr hb ⟨σ, hσ⟩
  have hL := Left.ofGood hg hσ
  have hL' := (hL.solveMinus h1).1
  have hf := found_iff h3 h4 hL hL' (pairs_cells_of (by simp))
  exact ⟨out, n, i, h1, h2, fun p => (hf p).1, fun p => (hf p).2, fun B hB p hp q => hL'.knot_iff (hL.minus_conn h1) hB hp q⟩

/-- The system `a = 1, a + b = 1, c + d = 1` on which `solve_direct` finds two cells, and leaves the other two. -/
def exSys : Sys := [⟨[([1, 0], 1), ([1, 1], 1)], [(0, 0), (0, 1)]⟩, ⟨[([1, 1], 1)], [(1, 0), (1, 1)]⟩]

example : GoodSys exSys ∧ OnBoard exSys 2 2 ∧ Solves (fun p => decide (p = (0, 0) ∨ p = (1, 0))) exSys := by
  refine ⟨⟨?_, by decide, ?_⟩, by unfold OnBoard; decide, by unfold Solves SolvesB; decide⟩
  · intro B hB r hr
    simp only [exSys, List.mem_cons, List.not_mem_nil, or_false] at hB
    rcases hB with rfl | rfl <;> simp only [List.mem_cons, List.not_mem_nil, or_false] at hr
    · rcases hr with rfl | rfl <;> decide
    · subst hr; decide
  · intro B hB k hk
    simp only [exSys, List.mem_cons, List.not_mem_nil, or_false] at hB
    rcases hB with rfl | rfl
    · have hk : k < 2 := hk
      exact ⟨([1, 1], 1), by decide, by interval_cases k <;> rfl⟩
    · have hk : k < 2 := hk
      exact ⟨([1, 1], 1), by decide, by interval_cases k <;> rfl⟩

example : (solveDirect exSys [[10, 10], [10, 10]]).map (fun o => (o.board, o.sys)) =
    some ([[11, 12], [10, 10]], [⟨[([1, 1], 1)], [(1, 1), (1, 0)]⟩]) := by decide

/-! ## C31 -/

/-- C31: `chunk_matrixes` keeps every equation, adds none, and cuts as finely as possible: two cells are in one block exactly if a chain of
equations ties them together. -/
theorem chunk_matrixes_blocks (S : Sys) (hg : GoodSys S) (hne : ∀ B ∈ S, B.rows ≠ [])
    (hhit : ∀ B ∈ S, ∀ r ∈ B.rows, ∃ k, r.1.getD k 0 = 1) :
    ∃ S', chunkMatrixes S = some S' ∧ equationsOf S' = equationsOf S ∧
      ∀ B' ∈ S', ∀ p ∈ B'.x, ∀ q, q ∈ B'.x ↔ Knotted (equationsOf S) ∅ p q := by
  obtain ⟨S', h1, -⟩ := chunk_matrixes_exact S hg hne hhit
  exact ⟨S', h1, chunkMatrixes_equations hg hne hhit h1⟩

/-- C31: the same for `chunk_matrix` on one block. -/
theorem chunk_matrix_blocks (B : Block) (h : Block01 B) (hcov : BlockCovered B) (hne : B.rows ≠ []) (hnd : B.x.Nodup)
    (hhit : ∀ r ∈ B.rows, ∃ k, r.1.getD k 0 = 1) :
    ∃ S', chunkMatrix B = some S' ∧ equationsOf S' = equationsOf [B] ∧
      ∀ B' ∈ S', ∀ p ∈ B'.x, ∀ q, q ∈ B'.x ↔ Knotted (equationsOf [B]) ∅ p q := by
  obtain ⟨S', h1, h2, h3⟩ := chunk_matrixes_blocks [B] ⟨by simpa using h, by simpa [sysCells] using hnd, by simpa using hcov⟩
    (by simpa using hne) (by simpa using hhit)
  have e : chunkMatrixes [B] = chunkMatrix B := by
    cases hc : chunkMatrix B <;> simp [chunkMatrixes, hc]
  rw [e] at h1
  exact ⟨S', h1, h2, h3⟩

/-! ## C41 -/

/-- C41: `mark_board` marks exactly the cells that one look at the numbers, one look at the pairs of numbers and another look at the
numbers finds: mines as 11, safe cells as 12. -/
theorem mark_board_finds (g : Board) (r c : Nat) (hrect : Rect g r c) (hr : 0 < r) (σ : Pos → Bool) (hσ : Consistent g σ) :
    ∃ g', markBoard g = some (.ok (), g') ∧ ∀ p : Pos,
      (p ∉ quick σ (numbersOf g) → g'.get p.1 p.2 = g.get p.1 p.2) ∧
      (p ∈ quick σ (numbersOf g) → g'.get p.1 p.2 = if σ p then 11 else 12) := by
  obtain ⟨S, s1, s2⟩ := sysFor_of_consistent (r := r) (c := c) ⟨σ, hσ⟩
  obtain ⟨o, n, i, o2, n2, i2, h1, h2, h3, h4, h5, h6, h7, h8, h9⟩ := stage_both hrect hr s2 ⟨σ, hσ⟩
  obtain ⟨-, -, hf⟩ := stage_quick s2 s1 hσ h1 h4 h7
  refine ⟨o2.board, ?_, fun p => ?_⟩
  · unfold markBoard
    simp only [s1, Option.bind_eq_bind, Option.bind_some, h1, h2, not_overfull h3.ok h8, Bool.false_eq_true, if_false, h4,
      not_overfull h7.ok h9]
    rfl
  · have hm := h7.marked p.1 p.2
    obtain ⟨f1, f2⟩ := hf p
    rw [hm]
    constructor
    · intro hp
      rw [if_neg fun h => hp (f2.mp h).1, if_neg fun h => hp (f1.mp h).1]
    · intro hp
      cases hv : σ p
      · rw [if_neg fun h => by simpa [hv] using (f2.mp h).2, if_pos (f1.mpr ⟨hp, hv⟩)]; simp
      · rw [if_pos (f2.mpr ⟨hp, hv⟩)]; simp

/-- On this board both looks are needed: single numbers say nothing, the two numbers of a row together do; and the marks of a second
call are those of a second round. -/
example : (∃ σ, Consistent [[1, 10, 1, 10], [1, 10, 1, 10]] σ) ∧
    markBoard [[1, 10, 1, 10], [1, 10, 1, 10]] = some (.ok (), [[1, 10, 1, 12], [1, 10, 1, 12]]) :=
  ⟨⟨fun p => decide (p = (0, 1)), by
    rintro p ⟨hp, h⟩
    have hp : p ∈ grid 2 4 := hp
    revert h
    revert p
    decide⟩, rfl⟩

/-! ## C44 -/

/-- Certain safe cells that the enumeration engine adds: all of them, unless some group of tied unknown cells is too large. -/
def EngineSafe (g : Board) (K : Set Pos) (p : Pos) : Prop :=
  SmallKnots (numbersOf g) K ∧ p ∈ unknowns (numbersOf g) K ∧ Certain g p false

/-- Certain mines that the enumeration engine adds: those with no other unknown cell next to the same numbers. -/
def EngineMine (g : Board) (K : Set Pos) (p : Pos) : Prop :=
  SmallKnots (numbersOf g) K ∧ p ∈ unknowns (numbersOf g) K ∧ Certain g p true ∧ ¬ TwinIn (numbersOf g) K p

theorem engine_iff {g g' : Board} {r c : Nat} {S S2 : Sys} {n i n3 i3 : List Pos} {σ : Pos → Bool} {K : Set Pos} (hs : SysFor r c g S)
    (hσ : Consistent g σ) (h7 : Stage r c S S2 g g' n i) (h9 : ∃ σ, Solves σ S2) (hL : Left (numbersOf g) σ K S2)
    (hc : ConnS (numbersOf g) K S2) (he : solveEnumerate S2 = some (n3, i3)) (p : Pos) :
    (p ∈ n3 ↔ EngineSafe g K p) ∧ (p ∈ i3 ↔ EngineMine g K p) := by
  obtain ⟨n4, i4, e1, e2, e3, e4⟩ := enum_stage h7.ok h9
  rw [he] at e1
  simp only [Option.some.injEq, Prod.mk.injEq] at e1
  obtain ⟨rfl, rfl⟩ := e1
  have hcells : ∀ p, p ∈ sysCells S2 ↔ p ∈ unknowns (numbersOf g) K := hL.cells
  have hforced : ∀ {p}, p ∈ sysCells S2 → ∀ b, (∀ σ, Solves σ S2 → σ p = b) ↔ Certain g p b := by
    intro p hp b
    rw [h7.forced hs.good.nodup ⟨σ, (hs.solves σ).mpr hσ⟩ hp b]
    exact forall_congr' fun τ => by rw [hs.solves τ]
  by_cases hl : ∀ B ∈ S2, B.x.length ≤ ENUM_LIMIT
  · obtain ⟨f1, f2⟩ := e4 hl
    have hsm := (hL.small_iff hc).mp hl
    rw [f1, f2]
    constructor
    · constructor
      · rintro ⟨a1, a2⟩
        exact ⟨hsm, (hcells p).mp a1, (hforced a1 _).mp a2⟩
      · rintro ⟨-, a1, a2⟩
        have a1 := (hcells p).mpr a1
        exact ⟨a1, (hforced a1 _).mpr a2⟩
    · constructor
      · rintro ⟨a1, a2, a3⟩
        exact ⟨hsm, (hcells p).mp a1, (hforced a1 _).mp a3, (hL.twin_iff a1).mp a2⟩
      · rintro ⟨-, a1, a3, a2⟩
        have a1 := (hcells p).mpr a1
        exact ⟨a1, (hL.twin_iff a1).mpr a2, (hforced a1 _).mpr a3⟩
  · have hsm : ¬ SmallKnots (numbersOf g) K := fun h => hl ((hL.small_iff hc).mpr h)
    have hnil : n3 = [] ∧ i3 = [] := by
      have : solveEnumerate S2 = some ([], []) := by
        unfold solveEnumerate
        rw [if_pos]
        push Not at hl
        obtain ⟨B, hB, h⟩ := hl
        exact List.any_eq_true.mpr ⟨B, hB, by simpa using h⟩
      rw [he] at this
      simpa using this
    rw [hnil.1, hnil.2]
    exact ⟨⟨by simp, fun h => absurd h.1 hsm⟩, ⟨by simp, fun h => absurd h.1 hsm⟩⟩

/-- C44: `get_all_not_and_is_mine_on_board` on the equations of a board finds exactly what the three looks find and what the enumeration
engine adds. -/
theorem get_all_on_board_iff (g : Board) (r c : Nat) (hrect : Rect g r c) (hr : 0 < r) (σ : Pos → Bool) (hσ : Consistent g σ) :
    ∃ S n i g', refreshMatrixs g = some S ∧ getAllOnBoard S g = some (n, i, g') ∧
      (∀ p, p ∈ n ↔ (p ∈ quick σ (numbersOf g) ∧ σ p = false) ∨ EngineSafe g (quick σ (numbersOf g)) p) ∧
      (∀ p, p ∈ i ↔ (p ∈ quick σ (numbersOf g) ∧ σ p = true) ∨ EngineMine g (quick σ (numbersOf g)) p) := by
  obtain ⟨S, s1, s2⟩ := sysFor_of_consistent (r := r) (c := c) ⟨σ, hσ⟩
  obtain ⟨o, n, i, o2, n2, i2, h1, h2, h3, h4, h5, h6, h7, h8, h9⟩ := stage_both hrect hr s2 ⟨σ, hσ⟩
  obtain ⟨hL, hC, hf⟩ := stage_quick s2 s1 hσ h1 h4 h7
  obtain ⟨n3, i3, e1, -⟩ := enum_stage h7.ok h9
  have he := engine_iff s2 hσ h7 h9 hL hC e1
  refine ⟨S, n ++ n2 ++ n3, i ++ i2 ++ i3, o2.board, s1, ?_, fun p => ?_, fun p => ?_⟩
  · unfold getAllOnBoard
    simp only [h1, h2, h4, h5, e1, Option.bind_eq_bind, Option.bind_some]
    rfl
  · rw [List.mem_append, (hf p).1, (he p).1]
  · rw [List.mem_append, (hf p).2, (he p).2]

/-- The answer of `is_able_to_solve` in terms of what the three solvers find. -/
theorem able_chain_quick {g : Board} {r c : Nat} {σ : Pos → Bool} (hrect : Rect g r c) (hr : 0 < r) (hσ : Consistent (unmark g) σ) :
    ∃ (S S2 : Sys) (g2 : Board) (n i n3 i3 : List Pos),
      refreshMatrixs (unmark g) = some S ∧ SysFor r c (unmark g) S ∧ Stage r c S S2 (unmark g) g2 n i ∧ (∃ σ, Solves σ S2) ∧
      Left (numbersOf (unmark g)) σ (quick σ (numbersOf (unmark g))) S2 ∧ ConnS (numbersOf (unmark g)) (quick σ (numbersOf (unmark g))) S2 ∧
      (∀ p, (p ∈ n ↔ p ∈ quick σ (numbersOf (unmark g)) ∧ σ p = false) ∧ (p ∈ i ↔ p ∈ quick σ (numbersOf (unmark g)) ∧ σ p = true)) ∧
      solveEnumerate S2 = some (n3, i3) ∧
      ∀ p : Pos, p.1 < r → p.2 < c → ∃ g', isAbleToSolve g p = some (decide (p ∈ n ∨ p ∈ i ∨ p ∈ n3 ∨ p ∈ i3), g') := by
  have hcons : ∃ σ, Consistent (unmark g) σ := ⟨σ, hσ⟩
  obtain ⟨hu, hug⟩ := unmark_spec g r c hrect
  obtain ⟨S, s1, s2⟩ := sysFor_of_consistent (r := r) (c := c) hcons
  obtain ⟨o, n, i, o2, n2, i2, h1, h2, h3, h4, h5, h6, h7, h8, h9⟩ := stage_both hu hr s2 hcons
  obtain ⟨n3, i3, e1, -⟩ := enum_stage h7.ok h9
  obtain ⟨hL, hC, hf⟩ := stage_quick s2 s1 hσ h1 h4 h7
  refine ⟨S, o2.sys, o2.board, n ++ n2, i ++ i2, n3, i3, s1, s2, h7, h9, hL, hC, hf, e1, fun p hp1 hp2 => ?_⟩
  have hd := rect_dims hu hr
  have hg : (unmark g).get p.1 p.2 ≠ 11 ∧ (unmark g).get p.1 p.2 ≠ 12 := by
    rw [hug p hp1 hp2]; split_ifs <;> constructor <;> omega
  have hm1 : (o.board.get p.1 p.2 = 11 ∨ o.board.get p.1 p.2 = 12) ↔ p ∈ n ∨ p ∈ i := by
    rw [h3.marked p.1 p.2]
    split_ifs with a b
    · simp; exact .inr a
    · simp; exact .inl b
    · simp only [hg.1, hg.2, or_self, false_iff, not_or]; exact ⟨b, a⟩
  have hm2 : (o2.board.get p.1 p.2 = 11 ∨ o2.board.get p.1 p.2 = 12) ↔ p ∈ n ++ n2 ∨ p ∈ i ++ i2 := by
    rw [h7.marked p.1 p.2]
    split_ifs with a b
    · simp only [true_or, true_iff]; exact .inr a
    · simp only [or_true, true_iff]; exact .inl b
    · simp only [hg.1, hg.2, or_self, false_iff, not_or]; exact ⟨b, a⟩
  unfold isAbleToSolve
  simp only [s1, h1, h4, e1, Option.bind_eq_bind, Option.bind_some, hd.1, hd.2, hp1, hp2, and_self, not_true, if_false]
  by_cases c1 : o.board.get p.1 p.2 = 11 ∨ o.board.get p.1 p.2 = 12
  · have := hm1.mp c1
    rw [if_pos c1]
    refine ⟨_, congrArg (fun b => some (b, _)) (Eq.symm (decide_eq_true ?_))⟩
    rcases this with h | h
    · exact .inl (by simp [h])
    · exact .inr (.inl (by simp [h]))
  · rw [if_neg c1]
    by_cases c2 : o2.board.get p.1 p.2 = 11 ∨ o2.board.get p.1 p.2 = 12
    · have := hm2.mp c2
      rw [if_pos c2]
      refine ⟨_, congrArg (fun b => some (b, _)) (Eq.symm (decide_eq_true ?_))⟩
      rcases this with h | h
      · exact .inl h
      · exact .inr (.inl h)
    · have hn := hm2.not.mp c2
      rw [not_or] at hn
      rw [if_neg c2]
      refine ⟨o2.board, congrArg (fun b => some (b, o2.board)) ?_⟩
      rw [Bool.eq_iff_iff]
      simp only [Bool.or_eq_true, List.contains_iff_mem, decide_eq_true_eq, hn.1, hn.2, false_or]
      exact or_comm

/-- C44: `is_able_to_solve` says yes exactly for the cells that the three looks find or that the enumeration engine adds. -/
theorem is_able_to_solve_iff (g : Board) (r c : Nat) (hrect : Rect g r c) (hr : 0 < r) (σ : Pos → Bool)
    (hσ : Consistent (unmark g) σ) (p : Pos) (hp1 : p.1 < r) (hp2 : p.2 < c) :
    ∃ b g', isAbleToSolve g p = some (b, g') ∧
      (b = true ↔ p ∈ quick σ (numbersOf (unmark g)) ∨ EngineSafe (unmark g) (quick σ (numbersOf (unmark g))) p ∨
        EngineMine (unmark g) (quick σ (numbersOf (unmark g))) p) := by
  obtain ⟨S, S2, g2, n, i, n3, i3, s1, s2, h7, h9, hL, hC, hf, e1, h5⟩ := able_chain_quick hrect hr hσ
  have he := engine_iff s2 hσ h7 h9 hL hC e1
  obtain ⟨g', hg'⟩ := h5 p hp1 hp2
  refine ⟨_, g', hg', ?_⟩
  rw [decide_eq_true_iff, (he p).1, (he p).2, (hf p).1, (hf p).2]
  cases σ p <;> simp

end Ms.Properties
