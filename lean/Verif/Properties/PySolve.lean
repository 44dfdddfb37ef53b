import Verif.Lemmas.Rows
import Verif.Model.BindingsSolve
import Verif.Properties.Mark
import Verif.Properties.Poss
import Verif.Properties.Obr

/-! # C78: the solvers of the Python package that take a board -/

namespace Ms.Properties
open Ms Ms.Spec

theorem smallGroups_iff {g : Board} {S : Sys} (h : SysOf g (numberCells g) S) :
    SmallGroups g ↔ ∀ B ∈ S, B.x.length ≤ ENUM_LIMIT := by
  have hl := longest_spec h
  have hmax : (∀ B ∈ S, B.x.length ≤ ENUM_LIMIT) ↔ S.foldr (fun B n => max n B.x.length) 0 ≤ ENUM_LIMIT := by
    clear hl h
    induction S with
    | nil => simp
    | cons B S ih =>
      rw [List.forall_mem_cons, ih, List.foldr_cons]
      omega
  rw [hmax]
  constructor
  · intro hs
    obtain ⟨l, h1, h2, h3, h4⟩ := hl.1
    rw [← h2]
    exact hs l h1 h3 h4
  · intro hs l h1 h2 h3
    exact (hl.2 ⟨l, h1, rfl, h2, h3⟩).trans hs

/-- C78: on every board that some layout explains, `solve_enumerate(board)` of the Python package returns.  If no group of linked
cells has more than 55, the safe cells it lists are exactly the covered cells next to numbers that are safe in every layout, and
the mines are exactly those that are mines in every layout and whose numbers are not the numbers of another covered cell.  Otherwise both
lists are empty. -/
theorem C78_solve_enumerate (g : Board) (hcons : ∃ σ, Consistent g σ) :
    ∃ n i, pySolveEnumerate g = some (n, i) ∧
      (SmallGroups g → (∀ p, p ∈ n ↔ Frontier g p ∧ Certain g p false) ∧
        ∀ p, p ∈ i ↔ Frontier g p ∧ Certain g p true ∧ ¬ TwinCell g p) ∧
      (¬ SmallGroups g → n = [] ∧ i = []) := by
  obtain ⟨S, s1, s2⟩ := sysFor_of_consistent (r := g.row) (c := g.col) hcons
  obtain ⟨S', s1', s3⟩ := refreshMatrixs_spec g
  rw [s1] at s1'
  obtain rfl := Option.some.inj s1'
  have hsat : ∃ σ, Solves σ S := by obtain ⟨σ, hσ⟩ := hcons; exact ⟨σ, (s2.solves σ).mpr hσ⟩
  obtain ⟨n, i, e1, -, -, e2⟩ := enum_stage s2.ok hsat
  have hiff := smallGroups_iff s3
  refine ⟨n, i, ?_, fun hs => ?_, fun hs => ?_⟩
  · unfold pySolveEnumerate
    rw [s1]
    exact e1
  · obtain ⟨e3, e4⟩ := e2 (hiff.mp hs)
    have hcert : ∀ p b, (∀ σ, Solves σ S → σ p = b) ↔ Certain g p b := by
      intro p b
      exact ⟨fun h σ hσ => h σ ((s2.solves σ).mpr hσ), fun h σ hσ => h σ ((s2.solves σ).mp hσ)⟩
    refine ⟨fun p => ?_, fun p => ?_⟩
    · rw [e3, s2.cells, hcert]
    · rw [e4, s2.cells, hcert]
      constructor
      · rintro ⟨h1, h2, h3⟩
        refine ⟨h1, h3, fun hsn => ?_⟩
        obtain ⟨B, hB, hp⟩ := List.mem_flatMap.mp ((s2.cells p).mpr h1)
        exact h2 B hB ((twin_board s1 hB hp).mpr hsn)
      · rintro ⟨h1, h2, h3⟩
        refine ⟨h1, fun B hB ht => ?_, h2⟩
        have hp : p ∈ B.x := by
          obtain ⟨a, b, ha, -, -, rfl, -⟩ := ht
          exact getD_mem_of_lt _ ha
        exact h3 ((twin_board s1 hB hp).mp ht)
  · have hb : ¬ ∀ B ∈ S, B.x.length ≤ ENUM_LIMIT := fun h => hs (hiff.mpr h)
    push Not at hb
    obtain ⟨B, hB, hlt⟩ := hb
    unfold solveEnumerate at e1
    rw [if_pos (List.any_eq_true.mpr ⟨B, hB, by simpa using hlt⟩)] at e1
    simp only [Option.some.injEq, Prod.mk.injEq] at e1
    exact ⟨e1.1.symm, e1.2.symm⟩

theorem smallGroups_of_few {g : Board} (h : FewFrontier g) : SmallGroups g := fun l h1 h2 _ => h l h1 h2

/-- 56 covered cells above a row of ones. -/
def wideBoard : Board := [List.replicate 56 10, List.replicate 56 1]

theorem wide_consistent : Consistent wideBoard fun p => decide (p.1 = 0 ∧ p.2 % 3 = 1) := by
  intro p hp
  have : ∀ p ∈ grid wideBoard.row wideBoard.col, wideBoard.get p.1 p.2 < 10 →
      wideBoard.get p.1 p.2 = minesNear wideBoard (fun p => decide (p.1 = 0 ∧ p.2 % 3 = 1)) p := by decide +kernel
  exact this p hp.1 hp.2.2

theorem wide_covered : ∀ j, j < 56 → IsCovered wideBoard (0, j) := by
  unfold IsCovered
  decide +kernel

theorem wide_number : ∀ j, j < 56 → IsNumber wideBoard (1, j) := by
  unfold IsNumber
  decide +kernel

theorem wide_linked : ∀ j, j < 56 → SharesNumbers wideBoard (0, 0) (0, j) ∧ SharesNumbers wideBoard (0, j) (0, 0) := by
  intro j
  induction j with
  | zero => exact fun _ => ⟨.refl, .refl⟩
  | succ j ih =>
    intro hj
    obtain ⟨h1, h2⟩ := ih (by omega)
    refine ⟨h1.tail ⟨wide_covered _ hj, (1, j), wide_number j (by omega), ?_, ?_⟩,
      Relation.ReflTransGen.head ⟨wide_covered _ (by omega), (1, j), wide_number j (by omega), ?_, ?_⟩ h2⟩ <;>
    · unfold Near
      simp only
      omega

/-- C78 (finding): the cell `(0, 2)` is certainly safe (the first `1` has its mine at one of its two covered neighbours, and the second
`1` sees both), but the group has 56 cells and nothing is listed. -/
theorem C78_too_long : (∃ σ, Consistent wideBoard σ) ∧ ¬ SmallGroups wideBoard ∧ Frontier wideBoard (0, 2) ∧
    Certain wideBoard (0, 2) false ∧ pySolveEnumerate wideBoard = some ([], []) := by
  have hns : ¬ SmallGroups wideBoard := by
    intro h
    have := h ((List.range 56).map fun j => (0, j)) (List.Nodup.map (fun a b hab => (Prod.mk.inj hab).2) List.nodup_range) ?_ ?_
    · simp at this
    · intro a ha
      obtain ⟨j, hj, rfl⟩ := List.mem_map.mp ha
      have hj := List.mem_range.mp hj
      exact ⟨wide_covered j hj, (1, j), wide_number j hj, by unfold Near; simp only; omega⟩
    · intro a ha b hb
      obtain ⟨j, hj, rfl⟩ := List.mem_map.mp ha
      obtain ⟨k, hk, rfl⟩ := List.mem_map.mp hb
      exact (wide_linked j (List.mem_range.mp hj)).2.trans (wide_linked k (List.mem_range.mp hk)).1
  refine ⟨⟨_, wide_consistent⟩, hns, ⟨wide_covered 2 (by omega), (1, 1), wide_number 1 (by omega), by unfold Near; simp only; omega⟩, ?_, ?_⟩
  · intro σ hσ
    have h0 := hσ (1, 0) (wide_number 0 (by omega))
    have h1 := hσ (1, 1) (wide_number 1 (by omega))
    rw [minesNear_eq] at h0 h1
    have a0 : unknownsOf wideBoard (1, 0) = [(0, 0), (0, 1)] := by decide +kernel
    have a1 : unknownsOf wideBoard (1, 1) = [(0, 0), (0, 1), (0, 2)] := by decide +kernel
    have b0 : (block wideBoard.row wideBoard.col 1 0).filter (fun q => wideBoard.get q.1 q.2 = 11) = [] := by decide +kernel
    have b1 : (block wideBoard.row wideBoard.col 1 1).filter (fun q => wideBoard.get q.1 q.2 = 11) = [] := by decide +kernel
    have c0 : wideBoard.get 1 0 = 1 := by decide +kernel
    have c1 : wideBoard.get 1 1 = 1 := by decide +kernel
    simp only [a0, a1, b0, b1, c0, c1] at h0 h1
    simp only [List.filter_cons, List.filter_nil] at h0 h1
    rcases Bool.eq_false_or_eq_true (σ (0, 0)) with x | x <;> rcases Bool.eq_false_or_eq_true (σ (0, 1)) with y | y <;>
      rcases Bool.eq_false_or_eq_true (σ (0, 2)) with z | z <;> simp [x, y, z] at h0 h1 ⊢
  · obtain ⟨n, i, h1, -, h2⟩ := C78_solve_enumerate wideBoard ⟨_, wide_consistent⟩
    obtain ⟨rfl, rfl⟩ := h2 hns
    exact h1

/-- C78: a panic of `solve_enumerate(board)` means that no layout explains the board. -/
theorem C78_enumerate_panic (g : Board) (h : pySolveEnumerate g = none) : ∀ σ, ¬ Consistent g σ := by
  intro σ hσ
  obtain ⟨n, i, h1, -⟩ := C78_solve_enumerate g ⟨σ, hσ⟩
  rw [h] at h1
  cases h1

/-- Two mines next to the same number are not reported, a single one is; a contradiction panics. -/
example : pySolveEnumerate [[10, 2, 10]] = some ([], []) ∧ pySolveEnumerate [[10, 1, 0, 10]] = some ([(0, 3)], [(0, 0)]) ∧
    pySolveEnumerate [[10, 3, 10]] = none := by decide +kernel

/-- C78: `mark_board(board)` of the Python package gives back the board with the marks of `mark_board`. -/
theorem C78_mark_board (g : Board) (r c : Nat) (hrect : Rect g r c) (hr : 0 < r) (hcons : ∃ σ, Consistent g σ) :
    ∃ h, pyMarkBoard g = some h ∧ Rect h r c ∧ ∀ p : Pos, h.get p.1 p.2 = g.get p.1 p.2 ∨
        (Frontier g p ∧ h.get p.1 p.2 = 11 ∧ Certain g p true) ∨ (Frontier g p ∧ h.get p.1 p.2 = 12 ∧ Certain g p false) := by
  obtain ⟨h, h1, h2, h3, -⟩ := mark_board_exact g r c hrect hr hcons
  exact ⟨h, by unfold pyMarkBoard; rw [h1]; rfl, h2, h3⟩

/-- C78 (finding): the Python `mark_board` drops the error, so the caller of a contradictory board gets a half-marked board and no sign. -/
theorem C78_mark_board_silent : pyMarkBoard [[10, 10, 0, 10, 1]] = some [[10, 10, 0, 11, 1]] ∧
    ∀ σ, ¬ Consistent [[10, 10, 0, 10, 1]] σ := by
  have hm : (markBoard [[10, 10, 0, 10, 1]]).map (fun r => r.1.toOption) = some none := by decide +kernel
  refine ⟨by decide +kernel, mark_board_error _ 1 5 ⟨rfl, by decide⟩ (by omega) ?_⟩
  cases h : markBoard [[10, 10, 0, 10, 1]] with
  | none => exact .inl rfl
  | some r =>
    obtain ⟨e, g'⟩ := r
    rw [h] at hm
    cases e with
    | error e => exact .inr ⟨e, g', rfl⟩
    | ok u => cases hm

/-- C78: on every board that some layout explains, `get_all_not_and_is_mine_on_board(board)` of the Python package returns the board as
`mark_board(board)` does, and two lists: every cell marked safe or as a mine is listed as such, every listed cell is certain, and while
at most 55 cells are next to numbers every certainly safe one is listed. -/
theorem C78_get_all (g : Board) (r c : Nat) (hrect : Rect g r c) (hr : 0 < r) (hcons : ∃ σ, Consistent g σ) :
    ∃ h n i, pyGetAllOnBoard g = some (h, n, i) ∧ pyMarkBoard g = some h ∧
      (∀ p, IsCovered g p → (h.get p.1 p.2 = 12 → p ∈ n) ∧ (h.get p.1 p.2 = 11 → p ∈ i)) ∧
      (∀ p ∈ n, Frontier g p ∧ Certain g p false) ∧ (∀ p ∈ i, Frontier g p ∧ Certain g p true) ∧
      (FewFrontier g → (∀ p, p ∈ n ↔ Frontier g p ∧ Certain g p false)) := by
  obtain ⟨S, n, i, h, s1, s2, s3, s4, s5⟩ := get_all_on_board_exact g r c hrect hr hcons
  obtain ⟨S', t1, t2⟩ := sysFor_of_consistent (r := r) (c := c) hcons
  rw [s1] at t1
  obtain rfl := Option.some.inj t1
  obtain ⟨o, n1, i1, o2, n2, i2, h1, h2, h3, h4, h5, h6, h7, h8, h9⟩ := stage_both hrect hr t2 hcons
  obtain ⟨n3, i3, e1, -⟩ := enum_stage h7.ok h9
  have hall : getAllOnBoard S g = some (n1 ++ n2 ++ n3, i1 ++ i2 ++ i3, o2.board) := by
    unfold getAllOnBoard
    simp only [h1, h2, h4, h5, e1, Option.bind_eq_bind, Option.bind_some]
    rfl
  rw [hall] at s2
  simp only [Option.some.injEq, Prod.mk.injEq] at s2
  obtain ⟨rfl, rfl, rfl⟩ := s2
  refine ⟨o2.board, _, _, ?_, ?_, fun p hp => ?_, s3, s4, fun hf p => ⟨s3 p, fun h => (s5 hf).1 p h.1 h.2⟩⟩
  · unfold pyGetAllOnBoard
    rw [s1]
    simp only [Option.bind_eq_bind, Option.bind_some, hall]
    rfl
  · unfold pyMarkBoard markBoard
    simp only [s1, Option.bind_eq_bind, Option.bind_some, h1, h2, not_overfull h3.ok h8, Bool.false_eq_true, if_false, h4,
      not_overfull h7.ok h9]
    rfl
  · have hm := h7.marked p.1 p.2
    rw [hp.2] at hm
    rw [hm]
    constructor
    · split
      · simp
      · split
        · rename_i hn
          intro _
          exact List.mem_append.mpr (.inl hn)
        · simp
    · split
      · rename_i hi
        intro _
        exact List.mem_append.mpr (.inl hi)
      · split <;> simp

/-- C78 (finding): the cells found by enumeration are listed but not marked on the returned board. -/
theorem C78_unmarked : pyGetAllOnBoard [[10, 10, 10, 10, 10, 10], [1, 2, 2, 2, 2, 1]] =
    some ([[10, 12, 11, 11, 12, 10], [1, 2, 2, 2, 2, 1]], [(0, 1), (0, 4)], [(0, 3), (0, 2), (0, 0), (0, 5)]) := by
  decide +kernel

theorem obr_rows {cell : List ℚ → Int} {data : List Nat} {h w : Nat} {b : Board} (hb : obrBoard cell data h w = some (.ok b)) :
    4 ≤ b.length := by
  unfold obrBoard at hb
  split at hb
  · cases hb
  cases hi : imageNew data h w with
  | none => rw [hi] at hb; cases hb
  | some x =>
    rw [hi] at hb
    simp only [Option.bind_eq_bind, Option.bind_some] at hb
    cases hp : posPixel x with
    | none => rw [hp] at hb; cases hb
    | some r =>
      obtain ⟨y, l⟩ := r
      rw [hp] at hb
      simp only [Option.bind_some] at hb
      cases l with
      | none => cases hb
      | some l =>
        simp only at hb
        split at hb
        · cases hb
        rename_i h3
        split at hb
        · cases hb
        push Not at h3
        cases hm : (List.range l.r).mapM fun i => (List.range l.c).mapM fun j => (extraCell y l i j 16).map cell with
        | none => rw [hm] at hb; cases hb
        | some m =>
          rw [hm] at hb
          have e : legalizeBoard m = b := by
            simpa using hb
          have hrect : Rect m l.r l.c := by
            refine ⟨?_, ?_⟩
            · have := mapM_len hm
              rw [List.length_range] at this
              exact this
            · exact mapM_all hm fun i _ row hrow => by
                have := mapM_len hrow
                rw [List.length_range] at this
                exact this
          obtain ⟨q1, -⟩ := C36_legalize m l.r l.c (by omega) hrect
          rw [e] at q1
          have := q1.len
          omega

/-- C78: `OBR_board` of the Python package gives `[[200]]` exactly when the picture is refused: a recognised board has at least four
rows. -/
theorem C78_obr (cell : List ℚ → Int) (data : List Nat) (h w : Nat) :
    pyObrBoard cell data h w = some [[200]] ↔ ∃ e, obrBoard cell data h w = some (.error e) := by
  unfold pyObrBoard
  match hx : obrBoard cell data h w with
  | none => simp
  | some (.error e) => simp
  | some (.ok b) =>
    have := obr_rows hx
    simp only [Option.some.injEq, reduceCtorEq, exists_false, iff_false]
    rintro rfl
    simp at this

end Ms.Properties
