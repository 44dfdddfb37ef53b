import Verif.Lemmas.EnumExact
import Mathlib.Data.Nat.Choose.Sum

/-! # C29, C33: the enumeration engine

`solutions B m` (SpecSolve.lean) is the set of all solutions of a block with exactly `m` mines.  `EnumOK B` collects
what the engine needs of a block: rectangular with 0/1 coefficients, no repeated cell, every cell in an equation,
every equation with a cell, at least one equation, at most eight cells per equation, right-hand sides not negative.
The blocks built by `refresh_matrixs` and left over by the deterministic solvers on a consistent board have these
properties. -/

namespace Ms.Properties
open Ms Ms.Spec

theorem mem_groups_cell {B : Block} (h : Block01 B) {j k : Nat} (hk : k ∈ (combine B).groups.getD j []) :
    j < (reps B).length ∧ B.x.getD k (0, 0) ∈ grpSet B ((reps B).getD j 0) := by
  have hj : j < (reps B).length := by
    by_contra hcon
    rw [List.getD_eq_getElem?_getD, List.getElem?_eq_none (by rw [combine_eq h]; simp; omega)] at hk
    simp at hk
  rw [combine_groups_getD h hj] at hk
  exact ⟨hj, mem_grpSet.mpr ⟨k, hk, rfl⟩⟩

/-- C33: for every satisfiable block (of at most 55 merged cells) the table lists mine counts in strictly
ascending order, gives for each the exact number of solutions with that many mines and, for every cell, the exact
number of those solutions in which the cell is a mine, misses no mine count that occurs, and has no zero line at
either end.  The groups of merged columns partition the cells. -/
theorem enum_table_exact (B : Block) (h : EnumOK B) (hlim : (combine B).x.length ≤ ENUM_LIMIT)
    (hsat : ∃ σ, SolvesB σ B) :
    ∃ lines, enumTable (combine B) = some (.ok lines) ∧
      (lines.map (·.1)).Pairwise (· < ·) ∧
      (∀ l ∈ lines, l.2.1 = (solutions B l.1).card) ∧
      (∀ l ∈ lines, ∀ j k, k ∈ (combine B).groups.getD j [] →
        l.2.2.getD j 0 = ((solutions B l.1).filter fun T => B.x.getD k (0, 0) ∈ T).card) ∧
      (∀ m, (solutions B m).Nonempty → ∃ l ∈ lines, l.1 = m) ∧
      (∀ l, lines.head? = some l → l.2.1 ≠ 0) ∧ (∀ l, lines.getLast? = some l → l.2.1 ≠ 0) ∧
      ((combine B).groups.flatten).Perm (List.range B.x.length) := by
  rcases enumTable_spec h.rect h.nodup h.covered h.hit h.ne h.weight h.rhs hlim with ⟨h1, -⟩ | ⟨lines, h0, h1, hl⟩
  · exfalso
    obtain ⟨σ, hσ⟩ := hsat
    have := mem_solutions.mpr ⟨Finset.filter_subset _ _, rfl, solves_setOf hσ⟩
    rw [h1] at this
    simp at this
  · refine ⟨lines, h1, hl.sorted, hl.count, fun l hl1 j k hk => ?_, hl.all, hl.ends.1, hl.ends.2, ?_⟩
    · obtain ⟨hj, hp⟩ := mem_groups_cell h.rect hk
      exact hl.cell l hl1 j hj _ hp
    · rw [combine_eq h.rect]; exact groups_perm B

/-- C33: an unsatisfiable block is reported as `Err(1)`. -/
theorem enum_table_unsat (B : Block) (h : EnumOK B) (hlim : (combine B).x.length ≤ ENUM_LIMIT)
    (hsat : ∀ σ, ¬ SolvesB σ B) : enumTable (combine B) = some (.error 1) := by
  rcases enumTable_spec h.rect h.nodup h.covered h.hit h.ne h.weight h.rhs hlim with ⟨-, h1⟩ | ⟨lines, h0, h1, hl⟩
  · exact h1
  · exfalso
    cases lines with
    | nil => simp at h0
    | cons l ls =>
      have h2 := hl.ends.1 l rfl
      rw [hl.count l (by simp)] at h2
      obtain ⟨T, hT⟩ := Finset.card_pos.mp (Nat.pos_of_ne_zero h2)
      exact hsat _ (mem_solutions.mp hT).2.2

/-- C33: a block over the limit is refused, and never enumerated. -/
theorem enum_table_limit (q : Squeezed) (h : q.x.length > ENUM_LIMIT) : enumTable q = some (.error q.x.length) := by
  unfold enumTable; rw [if_pos h]

theorem choose_le_two_pow' (n k : Nat) : n.choose k ≤ 2 ^ n := by
  rw [← Nat.sum_range_choose]
  by_cases hk : k ≤ n
  · exact Finset.single_le_sum (f := fun i => n.choose i) (fun _ _ => Nat.zero_le _) (Finset.mem_range.mpr (by omega))
  · rw [Nat.choose_eq_zero_of_lt (by omega)]; exact Nat.zero_le _

/-- C33: machine integers suffice: the product of binomials accumulated along any branch (`current_amount`), also
times a group size, stays below `2^64` as long as the branch covers at most 55 cells. -/
theorem enum_amount_fits (q : Squeezed) (v : List Nat) (i : Nat) (h : (lensFrom q i v.length).sum ≤ ENUM_LIMIT) :
    prodC q i v * 8 < 2 ^ 64 := by
  have hp : ∀ (v : List Nat) (i : Nat), prodC q i v ≤ 2 ^ (lensFrom q i v.length).sum := by
    intro v
    induction v with
    | nil => intro i; simp [prodC, lensFrom]
    | cons u v ih =>
      intro i
      rw [prodC, List.length_cons, lensFrom, List.range'_succ, List.map_cons, List.sum_cons, Nat.pow_add]
      exact Nat.mul_le_mul (choose_le_two_pow' _ _) (ih (i + 1))
  have h1 := hp v i
  have h2 : 2 ^ (lensFrom q i v.length).sum ≤ 2 ^ 55 := Nat.pow_le_pow_right (by omega) h
  omega

/-- C33: and so do the entries of the tables (every update adds, so intermediate values are smaller still). -/
theorem enum_counts_fit (B : Block) (hx : B.x.Nodup) (hl : B.x.length ≤ ENUM_LIMIT) (m : Nat) :
    (solutions B m).card * 8 < 2 ^ 64 := by
  have h1 : (solutions B m).card ≤ 2 ^ B.x.length := by
    unfold solutions
    refine (Finset.card_filter_le _ _).trans ?_
    rw [Finset.card_powerset, List.toFinset_card_of_nodup hx]
  have h2 : 2 ^ B.x.length ≤ 2 ^ 55 := Nat.pow_le_pow_right (by omega) hl
  omega

/-- The usual 1-2-1-like example: cells a b c d, a+b+c = 2, c+d = 1. -/
def exEnum : Block := ⟨[([1, 1, 1, 0], 2), ([0, 0, 1, 1], 1)], [(0, 0), (0, 1), (0, 2), (0, 3)]⟩

/-- `c` a mine: one of `a`, `b` (2 solutions with 2 mines); `d` a mine: both `a`, `b` (1 solution with 3). -/
example : enumTable (combine exEnum) = some (.ok [(2, 2, [1, 2, 0]), (3, 1, [1, 0, 1])]) := by rfl

theorem exEnum_ok : EnumOK exEnum := by
  refine ⟨?_, by decide, ?_, ?_, by decide, by unfold Weight8; decide, by decide⟩
  · unfold Block01; decide
  · have : ∀ k ∈ List.range exEnum.x.length, ∃ r ∈ exEnum.rows, r.1.getD k 0 = 1 := by decide
    exact fun k hk => this k (List.mem_range.mpr hk)
  · have : ∀ r ∈ exEnum.rows, ∃ k ∈ List.range 4, r.1.getD k 0 = 1 := by decide
    intro r hr
    obtain ⟨k, _, hk⟩ := this r hr
    exact ⟨k, hk⟩

example : ∃ σ, SolvesB σ exEnum := ⟨fun p => decide (p = (0, 0) ∨ p = (0, 2)), by decide⟩

/-- C29: on every satisfiable system whose blocks have at most 55 cells `solve_enumerate` does not panic; the
cells it reports as safe are exactly the cells that are safe in every solution; every cell it reports as a mine is
a mine in every solution; and every cell that is a mine in every solution is reported *unless another cell
occurs in exactly the same equations* (see the counterexample below).

Missing for the full C29: completeness of the reported mines for merged cells, which is false of the code. -/
theorem solve_enumerate_exact_partial (S : Sys) (hok : ∀ B ∈ S, EnumOK B)
    (hlim : ∀ B ∈ S, B.x.length ≤ ENUM_LIMIT) (hn : (sysCells S).Nodup) (hsat : ∃ σ, Solves σ S) :
    ∃ notm ism, solveEnumerate S = some (notm, ism) ∧
      (∀ p, p ∈ notm ↔ p ∈ sysCells S ∧ ∀ σ, Solves σ S → σ p = false) ∧
      (∀ p, p ∈ ism → p ∈ sysCells S ∧ ∀ σ, Solves σ S → σ p = true) ∧
      (∀ p, p ∈ sysCells S → (∀ σ, Solves σ S → σ p = true) → (∀ B ∈ S, ¬ HasTwin B p) → p ∈ ism) := by
  obtain ⟨n, i, h1, h2, h3⟩ := solveEnumerate_spec hok hlim hn hsat
  exact ⟨n, i, h1, h2, fun p hp => ⟨((h3 p).mp hp).1, ((h3 p).mp hp).2.2⟩,
    fun p hp hf ht => (h3 p).mpr ⟨hp, ht, hf⟩⟩

/-- The exact set of reported mines: forced mines without a twin. -/
theorem solve_enumerate_mines (S : Sys) (hok : ∀ B ∈ S, EnumOK B)
    (hlim : ∀ B ∈ S, B.x.length ≤ ENUM_LIMIT) (hn : (sysCells S).Nodup) (hsat : ∃ σ, Solves σ S)
    (notm ism : List Pos) (hr : solveEnumerate S = some (notm, ism)) (p : Pos) :
    p ∈ ism ↔ p ∈ sysCells S ∧ (∀ B ∈ S, ¬ HasTwin B p) ∧ ∀ σ, Solves σ S → σ p = true := by
  obtain ⟨n, i, h1, h2, h3⟩ := solveEnumerate_spec hok hlim hn hsat
  rw [hr] at h1
  simp only [Option.some.injEq, Prod.mk.injEq] at h1
  rw [h1.2]
  exact h3 p

/-- The full C29 is false of the code: both cells next to a `2` with two covered neighbours are mines in every
solution, and neither is reported (the code compares the count of *one* cell with the number of solutions times the
size of the group). -/
theorem solve_enumerate_incomplete : ∃ S : Sys, (∀ B ∈ S, EnumOK B) ∧ (∃ σ, Solves σ S) ∧
    (∀ p ∈ sysCells S, ∀ σ, Solves σ S → σ p = true) ∧ sysCells S ≠ [] ∧ solveEnumerate S = some ([], []) := by
  refine ⟨[⟨[([1, 1], 2)], [(0, 0), (0, 1)]⟩], ?_, ⟨fun _ => true, ?_⟩, ?_, by decide, rfl⟩
  · intro B hB
    rw [List.mem_singleton.mp hB]
    refine ⟨?_, by decide, ?_, ?_, by decide, by unfold Weight8; decide, by decide⟩
    · unfold Block01; decide
    · have : ∀ k ∈ List.range 2, ∃ r ∈ [(([1, 1], 2) : List Int × Int)], r.1.getD k 0 = 1 := by decide
      exact fun k hk => this k (List.mem_range.mpr hk)
    · intro r hr
      exact ⟨0, by rw [List.mem_singleton.mp hr]; rfl⟩
  · intro B hB
    rw [List.mem_singleton.mp hB]; decide
  · intro p hp σ hσ
    have h := hσ _ (List.mem_singleton.mpr rfl) _ (List.mem_singleton.mpr rfl)
    have hp : p = (0, 0) ∨ p = (0, 1) := by simpa [sysCells] using hp
    simp only [lhs_cons, lhs_nil] at h
    rcases hp with rfl | rfl
    · by_contra hc; rw [if_neg hc] at h; split at h <;> omega
    · by_contra hc; rw [if_neg hc] at h; split at h <;> omega

/-- In the example block `exEnum` (with one equation added) a forced mine without twin is found. -/
example : solveEnumerate [⟨[([1, 1, 1, 0], 2), ([0, 0, 1, 1], 1), ([1, 1, 0, 0], 1)],
    [(0, 0), (0, 1), (0, 2), (0, 3)]⟩] = some ([(0, 3)], [(0, 2)]) := by rfl

/-- C33: on a block with a negative right-hand side (a number with more flags around it than it says) no table is
returned, whatever the other equations say: the answer is `Err(1)` or `Err(5)`, or the call panics. -/
theorem enum_table_negative (B : Block) (rect : Block01 B) (nodup : B.x.Nodup) (covered : BlockCovered B) (hit : RowsHit B)
    (weight : Weight8 B) (hlim : (combine B).x.length ≤ ENUM_LIMIT) (hneg : ∃ r ∈ B.rows, r.2 < 0) :
    enumTable (combine B) = none ∨ enumTable (combine B) = some (.error 1) ∨ enumTable (combine B) = some (.error 5) := by
  obtain ⟨r, hr, hb⟩ := hneg
  refine enumTable_negative (combine_ok rect nodup covered hit (List.ne_nil_of_mem hr) weight) hlim ?_
  rw [combine_eq rect]
  exact ⟨_, List.mem_map.mpr ⟨r, hr, rfl⟩, hb⟩

/-- C33: so the side condition on the right-hand sides can be dropped when a table comes back: a returned table is always
exact, and the block has a solution. -/
theorem enum_table_ok (B : Block) (rect : Block01 B) (nodup : B.x.Nodup) (covered : BlockCovered B) (hit : RowsHit B)
    (ne : B.rows ≠ []) (weight : Weight8 B) (lines : List EnumLine) (h : enumTable (combine B) = some (.ok lines)) :
    (∃ σ, SolvesB σ B) ∧ (lines.map (·.1)).Pairwise (· < ·) ∧
      (∀ l ∈ lines, l.2.1 = (solutions B l.1).card) ∧
      (∀ l ∈ lines, ∀ j k, k ∈ (combine B).groups.getD j [] →
        l.2.2.getD j 0 = ((solutions B l.1).filter fun T => B.x.getD k (0, 0) ∈ T).card) ∧
      (∀ m, (solutions B m).Nonempty → ∃ l ∈ lines, l.1 = m) := by
  have hlim : (combine B).x.length ≤ ENUM_LIMIT := by
    by_contra hc
    rw [enum_table_limit _ (by omega)] at h
    cases h
  have hrhs : ∀ r ∈ B.rows, 0 ≤ r.2 := by
    by_contra hc
    push Not at hc
    rcases enum_table_negative B rect nodup covered hit weight hlim hc with h1 | h1 | h1 <;> rw [h1] at h <;> cases h
  have hok : EnumOK B := ⟨rect, nodup, covered, hit, ne, weight, hrhs⟩
  have hsat : ∃ σ, SolvesB σ B := by
    by_contra hc
    push Not at hc
    rw [enum_table_unsat B hok hlim hc] at h
    cases h
  obtain ⟨lines', e, h1, h2, h3, h4, -⟩ := enum_table_exact B hok hlim hsat
  rw [h] at e
  cases e
  exact ⟨hsat, h1, h2, h3, h4⟩

/-- All three outcomes occur.  One flag too many: `upper_limit + 1` overflows. -/
example : enumTable (combine ⟨[([1], -1)], [(0, 0)]⟩) = none := by rfl

/-- Two flags too many: the loop runs past the end of the table. -/
example : enumTable (combine ⟨[([1], -2)], [(0, 0)]⟩) = some (.error 5) := by rfl

/-- An equation before it without a solution: the negative one is never looked at. -/
example : enumTable (combine ⟨[([1, 0], 2), ([0, 1], -1)], [(0, 0), (0, 1)]⟩) = some (.error 1) := by rfl

end Ms.Properties
