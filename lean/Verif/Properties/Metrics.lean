import Verif.Lemmas.BoardCache
import Mathlib.Order.Bounds.Defs

/-! # Properties C04-C08: board metrics -/

namespace Ms.Properties
open Spec

/-- A concrete 4x5 board with two openings, one island and three mines, used to show that the
hypotheses below are satisfiable. -/
def sample : Board :=
  [[0, 0, 0, 1, -1],
   [1, 1, 0, 1, 1],
   [-1, 2, 1, 1, 0],
   [2, -1, 2, -1, 1]]

/-- A board with correct numbers (4 x 5, 3 mines). -/
def sampleValid : Board :=
  [[0, 0, 0, 1, -1],
   [1, 1, 0, 1, 1],
   [-1, 1, 0, 1, 1],
   [1, 1, 0, 1, -1]]

/-- **C04** `cal_op` always terminates and returns the number of 8-connected components of zero cells. -/
theorem C04_cal_op (v : View) : calOp? v = some (components (zeros v)) := calOp_eq v

example : calOp? sampleValid.view = some 1 := by decide
example : calOp? sample.view = some 2 := by decide
example : components (zeros sample.view) = 2 := by
  have := C04_cal_op sample.view
  have h : calOp? sample.view = some 2 := by decide
  rw [h] at this; simpa using this.symm

/-- **C05** `cal_isl` returns the number of 8-connected components of the numbered cells that touch no
zero. -/
theorem C05_cal_isl (v : View) : calIsl v = components (isolated v) := calIsl_eq v

example : calIsl sampleValid.view = 2 := by decide
example : calIsl sample.view = 2 := by decide

/-- **C06** `cal_cell_nums`: entry `k` is the number of cells showing `k`, on boards without values
above 8. -/
theorem C06_cal_cell_nums (v : View) (h : ∀ p ∈ vcells v, val v p ≤ 8) :
    calCellNums v = some ((List.range 9).map fun k =>
      ((vcells v).filter fun p => val v p = (k : Int)).card) :=
  calCellNums_ok h

/-- **C06** a value above 8 makes `cal_cell_nums` panic. -/
theorem C06_cal_cell_nums_panics (v : View) (h : ∃ p ∈ vcells v, 8 < val v p) :
    calCellNums v = none := calCellNums_none h

/-- **C06** the nine counts and the mines add up to the area. -/
theorem C06_total (v : View) (h : ∀ p ∈ vcells v, -1 ≤ val v p ∧ val v p ≤ 8) :
    ∃ ns, calCellNums v = some ns ∧ ns.sum + (mines v).card = v.row * v.col := by
  refine ⟨_, calCellNums_ok fun p hp => (h p hp).2, ?_⟩
  rw [← card_grid]
  have key : (vcells v).card = ((vcells v).filter fun p => val v p = -1).card +
      ∑ k ∈ Finset.range 9, ((vcells v).filter fun p => val v p = (k : Int)).card := by
    have := Finset.card_eq_sum_card_fiberwise (s := vcells v) (t := Finset.range 10)
      (f := fun p => (val v p + 1).toNat) (by
        intro p hp
        have := h p hp
        simp; omega)
    rw [this, Finset.sum_range_succ' _ 9, Nat.add_comm]
    congr 1
    · congr 1
      ext p
      simp only [Finset.mem_filter]
      constructor
      · rintro ⟨hp, h0⟩; have := h p hp; exact ⟨hp, by omega⟩
      · rintro ⟨hp, h0⟩; exact ⟨hp, by omega⟩
    · apply Finset.sum_congr rfl
      intro k _
      congr 1
      ext p
      simp only [Finset.mem_filter]
      constructor
      · rintro ⟨hp, h0⟩; have := h p hp; exact ⟨hp, by omega⟩
      · rintro ⟨hp, h0⟩; exact ⟨hp, by omega⟩
  show _ = (vcells v).card
  rw [key, Nat.add_comm]
  congr 1

example : (∀ p ∈ vcells sampleValid.view, -1 ≤ val sampleValid.view p ∧ val sampleValid.view p ≤ 8) := by
  decide
example : calCellNums sampleValid.view = some [6, 11, 0, 0, 0, 0, 0, 0, 0] := by decide
example : ∃ p ∈ vcells (Board.view [[0, 9]]), 8 < val (Board.view [[0, 9]]) p := by decide

/-- **C07** `cal_bbbv` is the number of isolated numbers plus the number of openings. -/
theorem C07_cal_bbbv (v : View) :
    calBbbv v = (isolated v).card + components (zeros v) := calBbbv_eq v

/-- **C07** on a board with correct numbers `cal_bbbv` is the least number of left clicks that reveals
every safe cell. -/
theorem C07_cal_bbbv_least (v : View) (h : Numbered v) :
    IsLeast {n | ∃ clicks : List Pos, clicks.length = n ∧ ClearsBoard v clicks} (calBbbv v) := by
  rw [calBbbv_eq]
  constructor
  · obtain ⟨clicks, hc, hl⟩ := clears_upper h
    exact ⟨clicks, hl, hc⟩
  · rintro n ⟨clicks, rfl, hc⟩
    exact clears_lower hc

example : Numbered sampleValid.view := by unfold Numbered; decide
example : calBbbv sampleValid.view = 4 := by decide

/-! ## C08 cached getters

The English property "every call returns the true metric" is *false* of the code: `get_bbbv`,
`get_op` and `get_isl` set their "already computed" flag but do not store what they computed, so the
second call answers 0 (and `get_bbbv` after `get_op` drops the openings).  The refutations below are
about the code as written; `C08_getters_partial` says exactly what every call returns. -/

/-- The true value of a metric of a board. -/
noncomputable def trueMetric (v : View) : Getter → Nat
  | .bbbv => (isolated v).card + components (zeros v)
  | .op => components (zeros v)
  | .isl => components (isolated v)
  | .cell k => ((vcells v).filter fun p => val v p = ((k : Nat) : Int)).card

/-- **C08 refuted** there is a board with correct numbers on which the second `get_op`, the second
`get_isl` and the second `get_bbbv` all return 0 although the metrics are positive, and `get_bbbv`
after `get_op` is wrong. -/
theorem C08_getters_refuted :
    Numbered sampleValid.view ∧
    ((BoardCache.new sampleValid).calls [.op, .op]).map (·.2) = some [1, 0] ∧
    ((BoardCache.new sampleValid).calls [.isl, .isl]).map (·.2) = some [2, 0] ∧
    ((BoardCache.new sampleValid).calls [.bbbv, .bbbv]).map (·.2) = some [4, 0] ∧
    ((BoardCache.new sampleValid).calls [.op, .bbbv]).map (·.2) = some [1, 3] := by
  refine ⟨by unfold Numbered; decide, by decide, by decide, by decide, by decide⟩

/-- What the code really returns for getter `g` after the calls `h` (most recent last). -/
noncomputable def actualMetric (v : View) (h : List Getter) : Getter → Nat
  | .bbbv => if Getter.bbbv ∈ h then 0
      else if Getter.op ∈ h then (isolated v).card
      else (isolated v).card + components (zeros v)
  | .op => if firstOB h = some .op then 0 else components (zeros v)
  | .isl => if Getter.isl ∈ h then 0 else components (isolated v)
  | .cell k => ((vcells v).filter fun p => val v p = ((k : Nat) : Int)).card

theorem calls_actual {b : Board} (hv : ∀ p ∈ vcells b.view, val b.view p ≤ 8) :
    ∀ (gs h : List Getter) (s : BoardCache), CacheInv b h s →
    ∃ s' as, s.calls gs = some (s', as) ∧ as.length = gs.length ∧
      ∀ i (hi : i < gs.length), as[i]? = some (actualMetric b.view (h ++ gs.take i) gs[i]) := by
  intro gs
  induction gs with
  | nil => intro h s _; exact ⟨s, [], rfl, rfl, by simp⟩
  | cons g gs ih =>
    intro h s hI
    obtain ⟨s1, a, h1, h2, h3⟩ := hI.step g hv
    obtain ⟨s2, as, h4, h5, h6⟩ := ih (h ++ [g]) s1 h2
    refine ⟨s2, a :: as, ?_, by simp [h5], ?_⟩
    · simp [BoardCache.calls, h1, h4]
    · intro i hi
      cases i with
      | zero =>
        simp only [List.getElem?_cons_zero, List.take_zero, List.append_nil, List.getElem_cons_zero]
        rw [h3]
        cases g <;> simp [actualMetric, cal3BVonIsland_eq, calBbbv_eq, calOp, calOp_eq, calIsl_eq]
      | succ i =>
        have := h6 i (by simpa using hi)
        simpa using this

/-- **C08 (partial)** for every board without values above 8 and every sequence of getter calls, no
call panics and the `i`-th call returns exactly `actualMetric` for the calls before it.  In
particular the digit getters are always right, and each of the other three is right when called
first.  Missing: the property itself (`actualMetric = trueMetric`), which is refuted above. -/
theorem C08_getters_partial (b : Board) (hv : ∀ p ∈ vcells b.view, val b.view p ≤ 8)
    (gs : List Getter) :
    ∃ s' as, (BoardCache.new b).calls gs = some (s', as) ∧ as.length = gs.length ∧
      ∀ i (hi : i < gs.length), as[i]? = some (actualMetric b.view (gs.take i) gs[i]) := by
  have h0 : CacheInv b [] (BoardCache.new b) :=
    ⟨rfl, rfl, rfl, rfl, rfl, rfl, rfl, by simp [BoardCache.new]⟩
  simpa using calls_actual hv gs [] _ h0

/-- **C08 (partial)** the digit getters are right at any point of any history, and the first call of
any getter on a fresh `Board` is right. -/
theorem C08_getters_right_partial (b : Board) (hv : ∀ p ∈ vcells b.view, val b.view p ≤ 8)
    (gs : List Getter) :
    ∃ s' as, (BoardCache.new b).calls gs = some (s', as) ∧
      ∀ i (hi : i < gs.length), (i = 0 ∨ ∃ k, gs[i] = Getter.cell k) →
        as[i]? = some (trueMetric b.view gs[i]) := by
  obtain ⟨s', as, h1, _, h3⟩ := C08_getters_partial b hv gs
  refine ⟨s', as, h1, ?_⟩
  intro i hi hor
  rw [h3 i hi]
  rcases hor with rfl | ⟨k, hk⟩
  · cases hg : gs[0] <;> simp [actualMetric, trueMetric, firstOB]
  · rw [hk]; rfl

example : ∀ p ∈ vcells sampleValid.view, val sampleValid.view p ≤ 8 := by decide

end Ms.Properties
