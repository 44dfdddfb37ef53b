import Verif.Lemmas.MarkAny

/-! # C41, C44: marking certain cells, and recognising certain cells -/

namespace Ms.Properties
open Ms Ms.Spec

/-! ## C41: mark_board -/

/-- C41: on every board whose numbers can be met by some layout, `mark_board` returns `Ok`; it changes only covered
cells next to a number, writing 11 only on cells that are mines in every layout meeting the numbers and 12 only on
cells that are safe in every such layout; and the layouts meeting the numbers of the marked board (marks counted)
are exactly those meeting the numbers of the original one. -/
theorem mark_board_exact (g : Board) (r c : Nat) (hrect : Rect g r c) (hr : 0 < r) (hcons : ∃ σ, Consistent g σ) :
    ∃ g', markBoard g = some (.ok (), g') ∧ Rect g' r c ∧
      (∀ p : Pos, g'.get p.1 p.2 = g.get p.1 p.2 ∨
        (Frontier g p ∧ g'.get p.1 p.2 = 11 ∧ ∀ σ, Consistent g σ → σ p = true) ∨
        (Frontier g p ∧ g'.get p.1 p.2 = 12 ∧ ∀ σ, Consistent g σ → σ p = false)) ∧
      ∀ σ, Consistent g σ ↔ Consistent g' σ ∧
        ∀ p, IsCovered g p → (g'.get p.1 p.2 = 11 → σ p = true) ∧ (g'.get p.1 p.2 = 12 → σ p = false) := by
  obtain ⟨S, s1, s2⟩ := sysFor_of_consistent (r := r) (c := c) hcons
  obtain ⟨o, n, i, o2, n2, i2, h1, h2, h3, h4, h5, h6, h7, h8, h9⟩ := stage_both hrect hr s2 hcons
  have hd := rect_dims hrect hr
  have hd' := rect_dims h7.rect hr
  have hcell : ∀ p, p ∈ n ++ n2 ∨ p ∈ i ++ i2 → Frontier g p := fun p hp =>
    (s2.cells p).mp (hp.elim (fun h => h7.mem_n h) fun h => h7.mem_i h)
  have hforce : ∀ σ, Consistent g σ → (∀ p ∈ n ++ n2, σ p = false) ∧ ∀ p ∈ i ++ i2, σ p = true := fun σ hσ =>
    ((h7.equiv σ).mp ((s2.solves σ).mpr hσ)).2
  have hmark : ∀ p : Pos, o2.board.get p.1 p.2 = if p ∈ i ++ i2 then 11 else if p ∈ n ++ n2 then 12 else g.get p.1 p.2 :=
    fun p => h7.marked p.1 p.2
  have hall : ∀ p : Pos, o2.board.get p.1 p.2 = g.get p.1 p.2 ∨
        (Frontier g p ∧ o2.board.get p.1 p.2 = 11 ∧ ∀ σ, Consistent g σ → σ p = true) ∨
        (Frontier g p ∧ o2.board.get p.1 p.2 = 12 ∧ ∀ σ, Consistent g σ → σ p = false) := by
    intro p
    rw [hmark]
    by_cases hi : p ∈ i ++ i2
    · rw [if_pos hi]
      exact .inr (.inl ⟨hcell p (.inr hi), rfl, fun σ hσ => (hforce σ hσ).2 p hi⟩)
    · rw [if_neg hi]
      by_cases hn : p ∈ n ++ n2
      · rw [if_pos hn]
        exact .inr (.inr ⟨hcell p (.inl hn), rfl, fun σ hσ => (hforce σ hσ).1 p hn⟩)
      · rw [if_neg hn]
        exact .inl rfl
  refine ⟨o2.board, ?_, h7.rect, hall, fun σ => ?_⟩
  · unfold markBoard
    simp only [s1, Option.bind_eq_bind, Option.bind_some, h1, h2, not_overfull h3.ok h8, Bool.false_eq_true, if_false, h4,
      not_overfull h7.ok h9]
    rfl
  · have hnum : ∀ p, IsNumber g p ↔ IsNumber o2.board p := by
      intro p
      unfold IsNumber
      rw [hd.1, hd.2, hd'.1, hd'.2]
      rcases hall p with h | ⟨⟨⟨-, hf⟩, -⟩, h, -⟩ | ⟨⟨⟨-, hf⟩, -⟩, h, -⟩
      · rw [h]
      · rw [h, hf]; omega
      · rw [h, hf]; omega
    have key : (∀ p, IsCovered g p → (o2.board.get p.1 p.2 = 11 → σ p = true) ∧ (o2.board.get p.1 p.2 = 12 → σ p = false)) →
        ∀ p, minesNear g σ p = minesNear o2.board σ p := by
      intro hag p
      unfold minesNear
      rw [hd.1, hd.2, hd'.1, hd'.2]
      congr 1
      apply Finset.filter_congr
      intro q hq
      rcases hall q with h | ⟨⟨hc, -⟩, h, -⟩ | ⟨⟨hc, -⟩, h, -⟩
      · rw [h]
      · have := (hag q hc).1 h
        simp [h, hc.2, this]
      · have := (hag q hc).2 h
        simp [h, hc.2, this]
    have hsame : ∀ p, IsNumber g p → o2.board.get p.1 p.2 = g.get p.1 p.2 := by
      intro p hp
      rcases hall p with h | ⟨⟨⟨-, hf⟩, -⟩, -⟩ | ⟨⟨⟨-, hf⟩, -⟩, -⟩
      · exact h
      · have := hp.2.2; omega
      · have := hp.2.2; omega
    constructor
    · intro hσ
      have hag : ∀ p, IsCovered g p →
          (o2.board.get p.1 p.2 = 11 → σ p = true) ∧ (o2.board.get p.1 p.2 = 12 → σ p = false) := by
        intro p hp
        rcases hall p with h | ⟨-, h, hf⟩ | ⟨-, h, hf⟩
        · rw [h, hp.2]; simp
        · rw [h]; simp [hf σ hσ]
        · rw [h]; simp [hf σ hσ]
      refine ⟨fun p hp => ?_, hag⟩
      have hp := (hnum p).mpr hp
      rw [hsame p hp, ← key hag p]
      exact hσ p hp
    · rintro ⟨hσ, hag⟩ p hp
      rw [key hag p, ← hsame p hp]
      exact hσ p ((hnum p).mp hp)

/-- C41: an error - and a panic - of `mark_board` means that no layout meets the numbers. -/
theorem mark_board_error (g : Board) (r c : Nat) (hrect : Rect g r c) (hr : 0 < r)
    (h : markBoard g = none ∨ ∃ e g', markBoard g = some (.error e, g')) : ∀ σ, ¬ Consistent g σ := by
  intro σ hσ
  obtain ⟨g', h1, -⟩ := mark_board_exact g r c hrect hr ⟨σ, hσ⟩
  rcases h with h | ⟨e, g'', h⟩
  · rw [h1] at h; simp at h
  · rw [h1] at h
    simp only [Option.some.injEq, Prod.mk.injEq] at h
    exact absurd h.1 (by simp)

/-- C41: on every board whatsoever, consistent or not, `mark_board` (when it returns, with `Ok` or an error) changes
only covered cells next to numbers, and writes only 11 and 12. -/
theorem mark_board_touches (g g' : Board) (res : Except Nat Unit) (h : markBoard g = some (res, g')) (p : Pos) :
    g'.get p.1 p.2 = g.get p.1 p.2 ∨ (Frontier g p ∧ (g'.get p.1 p.2 = 11 ∨ g'.get p.1 p.2 = 12)) :=
  markBoard_touches h p

set_option maxRecDepth 100000 in
/-- All three error codes occur ... -/
example : (∃ g', markBoard [[10, 10, 0, 10, 1]] = some (.error 6, g')) ∧
    (∃ g', markBoard [[10, 2, 3, 2, 10]] = some (.error 7, g')) ∧
    ∃ g', markBoard [[0, 0, 1, 1, 10], [10, 3, 3, 10, 3], [10, 10, 10, 10, 10]] = some (.error 8, g') :=
  ⟨⟨_, rfl⟩, ⟨_, rfl⟩, ⟨_, rfl⟩⟩

/-- ... but, against the documentation, some boards that no layout meets make `mark_board` panic. -/
theorem mark_board_panics : markBoard [[1, 2, 10, 2, 10]] = none := rfl

/-- Subtracting equations can also leave an equation that asks for a negative number of mines; this board is refused for
that reason alone. -/
example : ∃ g', markBoard [[10, 2, 0, 0], [10, 1, 10, 10]] = some (.error 8, g') := ⟨_, rfl⟩

/-- A consistent board on which `mark_board` marks a mine and two safe cells. -/
example : markBoard [[1, 10, 1, 10], [1, 10, 1, 10]] = some (.ok (), [[1, 10, 1, 12], [1, 10, 1, 12]]) := rfl

example : ∃ σ, Consistent [[1, 10, 1, 10], [1, 10, 1, 10]] σ :=
  ⟨fun p => decide (p = (0, 1)), by
    rintro p ⟨hp, h⟩
    have hp : p ∈ grid 2 4 := hp
    revert h
    revert p
    decide⟩

/-! ## C44: is_able_to_solve -/

/-- Taking the marks off. -/
theorem unmark_spec (g : Board) (r c : Nat) (hrect : Rect g r c) :
    Rect (unmark g) r c ∧ ∀ p : Pos, p.1 < r → p.2 < c →
      (unmark g).get p.1 p.2 = if g.get p.1 p.2 > 10 then 10 else g.get p.1 p.2 := by
  refine ⟨⟨by simp [unmark, hrect.len], ?_⟩, ?_⟩
  · intro l hl
    unfold unmark at hl
    obtain ⟨l', hl', rfl⟩ := List.mem_map.mp hl
    simp [hrect.rows l' hl']
  · intro p h1 h2
    have hlen := hrect.len
    have hrow := hrect.rows (g[p.1]'(by omega)) (List.getElem_mem _)
    unfold unmark Board.get
    simp [List.getElem?_eq_getElem (show p.1 < g.length by omega),
      List.getElem?_eq_getElem (show p.2 < (g[p.1]'(by omega)).length by omega)]

/-- The status of the cell is the same in every layout that meets the numbers. -/
def Certain (g : Board) (p : Pos) (v : Bool) : Prop := ∀ σ, Consistent g σ → σ p = v

/-- The answer of `is_able_to_solve` in terms of what the three solvers find. -/
theorem able_chain {g : Board} {r c : Nat} (hrect : Rect g r c) (hr : 0 < r) (hcons : ∃ σ, Consistent (unmark g) σ) :
    ∃ (S S2 : Sys) (g2 : Board) (n i n3 i3 : List Pos),
      SysFor r c (unmark g) S ∧ Stage r c S S2 (unmark g) g2 n i ∧ (∃ σ, Solves σ S2) ∧ solveEnumerate S2 = some (n3, i3) ∧
      ∀ p : Pos, p.1 < r → p.2 < c → ∃ g', isAbleToSolve g p = some (decide (p ∈ n ∨ p ∈ i ∨ p ∈ n3 ∨ p ∈ i3), g') := by
  obtain ⟨hu, hug⟩ := unmark_spec g r c hrect
  obtain ⟨S, s1, s2⟩ := sysFor_of_consistent (r := r) (c := c) hcons
  obtain ⟨o, n, i, o2, n2, i2, h1, h2, h3, h4, h5, h6, h7, h8, h9⟩ := stage_both hu hr s2 hcons
  obtain ⟨n3, i3, e1, -⟩ := enum_stage h7.ok h9
  refine ⟨S, o2.sys, o2.board, n ++ n2, i ++ i2, n3, i3, s2, h7, h9, e1, fun p hp1 hp2 => ?_⟩
  have hd := rect_dims hu hr
  have hg : (unmark g).get p.1 p.2 ≠ 11 ∧ (unmark g).get p.1 p.2 ≠ 12 := by
    rw [hug p hp1 hp2]; split_ifs <;> constructor <;> omega
  have hm1 : (o.board.get p.1 p.2 = 11 ∨ o.board.get p.1 p.2 = 12) ↔ p ∈ n ∨ p ∈ i := by
    rw [h3.marked p.1 p.2]
    split_ifs with a b
    · simp; exact .inr a
    · simp; exact .inl b
    · simp only [hg.1, hg.2, or_self, false_iff, not_or]; exact ⟨b, a⟩
  have hm2 : (o2.board.get p.1 p.2 = 11 ∨ o2.board.get p.1 p.2 = 12) ↔ p ∈ n ++ n2 ∨ p ∈ i ++ i2 := by
    rw [h7.marked p.1 p.2]
    split_ifs with a b
    · simp only [true_or, true_iff]; exact .inr a
    · simp only [or_true, true_iff]; exact .inl b
    · simp only [hg.1, hg.2, or_self, false_iff, not_or]; exact ⟨b, a⟩
  unfold isAbleToSolve
  simp only [s1, h1, h4, e1, Option.bind_eq_bind, Option.bind_some, hd.1, hd.2, hp1, hp2, and_self, not_true, if_false]
  by_cases c1 : o.board.get p.1 p.2 = 11 ∨ o.board.get p.1 p.2 = 12
  · have := hm1.mp c1
    rw [if_pos c1]
    refine ⟨_, congrArg (fun b => some (b, _)) (Eq.symm (decide_eq_true ?_))⟩
    rcases this with h | h
    · exact .inl (by simp [h])
    · exact .inr (.inl (by simp [h]))
  · rw [if_neg c1]
    by_cases c2 : o2.board.get p.1 p.2 = 11 ∨ o2.board.get p.1 p.2 = 12
    · have := hm2.mp c2
      rw [if_pos c2]
      refine ⟨_, congrArg (fun b => some (b, _)) (Eq.symm (decide_eq_true ?_))⟩
      rcases this with h | h
      · exact .inl h
      · exact .inr (.inl h)
    · have hn := hm2.not.mp c2
      rw [not_or] at hn
      rw [if_neg c2]
      refine ⟨o2.board, congrArg (fun b => some (b, o2.board)) ?_⟩
      rw [Bool.eq_iff_iff]
      simp only [Bool.or_eq_true, List.contains_iff_mem, decide_eq_true_eq, hn.1, hn.2, false_or]
      exact or_comm

/-- C44: on every board that some layout explains, `is_able_to_solve` answers for every cell of the board, and says
yes only for covered cells next to a number whose status is the same in every layout explaining the board. -/
theorem is_able_to_solve_sound (g : Board) (r c : Nat) (hrect : Rect g r c) (hr : 0 < r)
    (hcons : ∃ σ, Consistent (unmark g) σ) (p : Pos) (hp1 : p.1 < r) (hp2 : p.2 < c) :
    ∃ b g', isAbleToSolve g p = some (b, g') ∧
      (b = true → Frontier (unmark g) p ∧ (Certain (unmark g) p true ∨ Certain (unmark g) p false)) := by
  obtain ⟨S, S2, g2, n, i, n3, i3, h1, h2, h3, h4, h5⟩ := able_chain hrect hr hcons
  obtain ⟨n4, i4, e1, e2, e3, -⟩ := enum_stage h2.ok h3
  rw [h4] at e1
  simp only [Option.some.injEq, Prod.mk.injEq] at e1
  obtain ⟨rfl, rfl⟩ := e1
  obtain ⟨g', hg'⟩ := h5 p hp1 hp2
  refine ⟨_, g', hg', fun hb => ?_⟩
  have hsub : ∀ {q}, q ∈ sysCells S2 → q ∈ sysCells S := fun hq => h2.perm.mem_iff.mpr (by simp [hq])
  have hsol : ∀ σ, Consistent (unmark g) σ → Solves σ S2 := fun σ hσ => ((h2.equiv σ).mp ((h1.solves σ).mpr hσ)).1
  rcases of_decide_eq_true hb with h | h | h | h
  · exact ⟨(h1.cells p).mp (h2.mem_n h), .inr fun σ hσ => ((h2.equiv σ).mp ((h1.solves σ).mpr hσ)).2.1 p h⟩
  · exact ⟨(h1.cells p).mp (h2.mem_i h), .inl fun σ hσ => ((h2.equiv σ).mp ((h1.solves σ).mpr hσ)).2.2 p h⟩
  · exact ⟨(h1.cells p).mp (hsub (e2 p h).1), .inr fun σ hσ => (e2 p h).2 σ (hsol σ hσ)⟩
  · exact ⟨(h1.cells p).mp (hsub (e3 p h).1), .inl fun σ hσ => (e3 p h).2 σ (hsol σ hσ)⟩

/-- No more than 55 covered cells lie next to numbers (so that the enumeration engine is not skipped). -/
def FewFrontier (g : Board) : Prop := ∀ l : List Pos, l.Nodup → (∀ q ∈ l, Frontier g q) → l.length ≤ 55

theorem FewFrontier.blocks {g g' : Board} {r c : Nat} {S S2 : Sys} {n i : List Pos} (h : FewFrontier g) (hs : SysFor r c g S)
    (st : Stage r c S S2 g g' n i) : ∀ B ∈ S2, B.x.length ≤ ENUM_LIMIT := by
  intro B hB
  have hn := (List.nodup_append.mp (st.perm.nodup_iff.mp hs.good.nodup)).2.1
  refine h B.x ?_ fun q hq => (hs.cells q).mp (st.perm.mem_iff.mpr ?_)
  · unfold sysCells at hn
    rw [List.nodup_flatMap] at hn
    exact hn.1 B hB
  · have : q ∈ sysCells S2 := List.mem_flatMap.mpr ⟨B, hB, hq⟩
    simp [this]

/-- C44: while at most 55 cells lie next to numbers, every such cell that is safe in all layouts is recognised. -/
theorem is_able_to_solve_safe (g : Board) (r c : Nat) (hrect : Rect g r c) (hr : 0 < r)
    (hcons : ∃ σ, Consistent (unmark g) σ) (hfew : FewFrontier (unmark g)) (p : Pos)
    (hf : Frontier (unmark g) p) (hsafe : Certain (unmark g) p false) : ∃ g', isAbleToSolve g p = some (true, g') := by
  obtain ⟨S, S2, g2, n, i, n3, i3, h1, h2, h3, h4, h5⟩ := able_chain hrect hr hcons
  obtain ⟨n4, i4, e1, -, -, e4⟩ := enum_stage h2.ok h3
  rw [h4] at e1
  simp only [Option.some.injEq, Prod.mk.injEq] at e1
  obtain ⟨rfl, rfl⟩ := e1
  obtain ⟨e5, -⟩ := e4 (hfew.blocks h1 h2)
  have hpg := hf.1.1
  rw [(rect_dims (unmark_spec g r c hrect).1 hr).1, (rect_dims (unmark_spec g r c hrect).1 hr).2, mem_grid] at hpg
  obtain ⟨g', hg'⟩ := h5 p hpg.1 hpg.2
  refine ⟨g', hg'.trans (congrArg (fun b => some (b, g')) (decide_eq_true ?_))⟩
  have hc := h2.perm.mem_iff.mp ((h1.cells p).mpr hf)
  simp only [List.mem_append] at hc
  rcases hc with (hc | hc) | hc
  · exact .inl hc
  · exact .inr (.inl hc)
  · refine .inr (.inr (.inl ((e5 p).mpr ⟨hc, (h2.forced h1.good.nodup ?_ hc false).mpr ?_⟩)))
    · obtain ⟨σ, hσ⟩ := hcons; exact ⟨σ, (h1.solves σ).mpr hσ⟩
    · exact fun σ hσ => hsafe σ ((h1.solves σ).mp hσ)

/-- C44: a cell that is a mine in all layouts is recognised, except that the code misses groups of two or more
certain mines that occur in the same equations: if `p` is missed, so is another certain mine. -/
theorem is_able_to_solve_mine_partial (g : Board) (r c : Nat) (hrect : Rect g r c) (hr : 0 < r)
    (hcons : ∃ σ, Consistent (unmark g) σ) (hfew : FewFrontier (unmark g)) (p : Pos)
    (hf : Frontier (unmark g) p) (hmine : Certain (unmark g) p true) :
    (∃ g', isAbleToSolve g p = some (true, g')) ∨
      (∃ g', isAbleToSolve g p = some (false, g')) ∧ ∃ q, q ≠ p ∧ Frontier (unmark g) q ∧ Certain (unmark g) q true ∧
        ∃ g', isAbleToSolve g q = some (false, g') := by
  obtain ⟨S, S2, g2, n, i, n3, i3, h1, h2, h3, h4, h5⟩ := able_chain hrect hr hcons
  obtain ⟨n4, i4, e1, -, -, e4⟩ := enum_stage h2.ok h3
  rw [h4] at e1
  simp only [Option.some.injEq, Prod.mk.injEq] at e1
  obtain ⟨rfl, rfl⟩ := e1
  obtain ⟨e5, e6⟩ := e4 (hfew.blocks h1 h2)
  have hd := rect_dims (unmark_spec g r c hrect).1 hr
  have hon : ∀ {q}, Frontier (unmark g) q → q.1 < r ∧ q.2 < c := by
    intro q hq
    have := hq.1.1
    rw [hd.1, hd.2, mem_grid] at this
    exact this
  have hsat : ∃ σ, Solves σ S := by obtain ⟨σ, hσ⟩ := hcons; exact ⟨σ, (h1.solves σ).mpr hσ⟩
  obtain ⟨g', hg'⟩ := h5 p (hon hf).1 (hon hf).2
  by_cases hb : p ∈ n ∨ p ∈ i ∨ p ∈ n3 ∨ p ∈ i3
  · rw [decide_eq_true hb] at hg'; exact .inl ⟨g', hg'⟩
  · rw [decide_eq_false hb] at hg'
    refine .inr ⟨⟨g', hg'⟩, ?_⟩
    have hc := h2.perm.mem_iff.mp ((h1.cells p).mpr hf)
    simp only [List.mem_append] at hc
    have hp2 : p ∈ sysCells S2 := by
      rcases hc with (hc | hc) | hc
      · exact absurd (.inl hc) hb
      · exact absurd (.inr (.inl hc)) hb
      · exact hc
    have hforced := (h2.forced h1.good.nodup hsat hp2 true).mpr fun σ hσ => hmine σ ((h1.solves σ).mp hσ)
    have ht : ∃ B ∈ S2, HasTwin B p := by
      by_contra hno
      push Not at hno
      exact hb (.inr (.inr (.inr ((e6 p).mpr ⟨hp2, hno, hforced⟩))))
    obtain ⟨B, hB, ht⟩ := ht
    have hn2 := (List.nodup_append.mp (h2.perm.nodup_iff.mp h1.good.nodup))
    have hpB : p ∈ B.x := by
      obtain ⟨a, b, ha, -, -, rfl, -⟩ := ht
      exact getD_mem_of_lt _ ha
    have hBn : B.x.Nodup := by
      have := hn2.2.1
      unfold sysCells at this
      rw [List.nodup_flatMap] at this
      exact this.1 B hB
    obtain ⟨q, hq, hqp, hqt, hqf⟩ := twin_forced (h2.ok.good.rect B hB) hBn ht
      ((forced_iff hn2.2.1 h3 hB hpB true).mpr hforced)
    have hq2 : q ∈ sysCells S2 := List.mem_flatMap.mpr ⟨B, hB, hq⟩
    have hqf2 := (forced_iff hn2.2.1 h3 hB hq true).mp hqf
    have hqS : q ∈ sysCells S := h2.perm.mem_iff.mpr (by simp [hq2])
    have hqF := (h1.cells q).mp hqS
    obtain ⟨g'', hg''⟩ := h5 q (hon hqF).1 (hon hqF).2
    refine ⟨q, hqp, hqF, fun σ hσ => (h2.forced h1.good.nodup hsat hq2 true).mp hqf2 σ ((h1.solves σ).mpr hσ), g'', ?_⟩
    rw [hg'', decide_eq_false]
    rintro (h | h | h | h)
    · exact hn2.2.2 q (by simp [h]) q hq2 rfl
    · exact hn2.2.2 q (by simp [h]) q hq2 rfl
    · obtain ⟨σ, hσ⟩ := h3
      have := ((e5 q).mp h).2 σ hσ
      rw [hqf2 σ hσ] at this
      simp at this
    · exact ((e6 q).mp h).2.1 B hB hqt

/-- The board of the counterexample below. -/
def twinBoard : Board := [[1, 1, 1, 1, 10], [10, 10, 3, 10, 1], [10, 10, 10, 10, 10]]

/-- The full C44 is false of the code: the cells (2, 1) and (2, 2) of this board, which some layout explains, are
mines in every layout, and the answer for both is no. -/
theorem is_able_to_solve_incomplete : (∃ σ, Consistent (unmark twinBoard) σ) ∧ FewFrontier (unmark twinBoard) ∧
    ∀ p ∈ [((2, 1) : Pos), (2, 2)], Frontier (unmark twinBoard) p ∧ Certain (unmark twinBoard) p true ∧
      (isAbleToSolve twinBoard p).map (·.1) = some false := by
  have hu : unmark twinBoard = twinBoard := by decide
  have hcons : ∃ σ, Consistent (unmark twinBoard) σ :=
    ⟨fun p => decide (p ∈ [((1, 0) : Pos), (2, 1), (2, 2), (1, 3)]), by
      rintro p ⟨hp, h⟩
      have hp : p ∈ grid 3 5 := hp
      revert h
      revert p
      decide +kernel⟩
  obtain ⟨S, h1, h2⟩ := sysFor_of_consistent (r := 3) (c := 5) hcons
  have hS : refreshMatrixs (unmark twinBoard) = some
      [⟨[([1, 1, 0, 0, 0, 0, 0, 0], 1), ([0, 1, 1, 1, 1, 1, 0, 0], 3), ([0, 1, 1, 0, 0, 0, 0, 0], 1),
         ([1, 1, 0, 0, 0, 0, 0, 0], 1), ([0, 0, 1, 0, 0, 1, 1, 1], 1), ([0, 0, 1, 0, 0, 0, 1, 0], 1)],
        [(1, 0), (1, 1), (1, 3), (2, 1), (2, 2), (2, 3), (0, 4), (2, 4)]⟩] := by decide +kernel
  rw [h1] at hS
  obtain rfl := Option.some.inj hS
  have hfr : ∀ p : Pos, Frontier (unmark twinBoard) p ↔
      p ∈ [((1, 0) : Pos), (1, 1), (1, 3), (2, 1), (2, 2), (2, 3), (0, 4), (2, 4)] := by
    intro p
    rw [← h2.cells p]
    simp [sysCells]
  have hcert : ∀ σ, Consistent (unmark twinBoard) σ → σ (2, 1) = true ∧ σ (2, 2) = true := by
    intro σ hσ
    have hs := (h2.solves σ).mpr hσ _ (List.mem_singleton.mpr rfl)
    have e1 := hs _ (List.mem_cons_self ..)
    have e2 := hs _ (List.mem_cons_of_mem _ (List.mem_cons_self ..))
    have e3 := hs _ (List.mem_cons_of_mem _ (List.mem_cons_of_mem _ (List.mem_cons_self ..)))
    have e5 := hs _ (List.mem_cons_of_mem _ (List.mem_cons_of_mem _ (List.mem_cons_of_mem _ (List.mem_cons_of_mem _
      (List.mem_cons_self ..)))))
    have e6 := hs _ (List.mem_cons_of_mem _ (List.mem_cons_of_mem _ (List.mem_cons_of_mem _ (List.mem_cons_of_mem _
      (List.mem_cons_of_mem _ (List.mem_cons_self ..))))))
    simp only [lhs, List.zipWith_cons_cons, List.zipWith_nil_left, List.sum_cons, List.sum_nil] at e1 e2 e3 e5 e6
    clear hs hσ
    generalize σ (1, 0) = x0 at *
    generalize σ (1, 1) = x1 at *
    generalize σ (1, 3) = x2 at *
    generalize σ (2, 1) = x3 at *
    generalize σ (2, 2) = x4 at *
    generalize σ (2, 3) = x5 at *
    generalize σ (0, 4) = x6 at *
    generalize σ (2, 4) = x7 at *
    clear hfr h2 h1 hcons hu
    revert x0 x1 x2 x3 x4 x5 x6 x7
    decide +kernel
  refine ⟨hcons, ?_, ?_⟩
  · intro l hn hl
    have hsub : l.toFinset ⊆ [((1, 0) : Pos), (1, 1), (1, 3), (2, 1), (2, 2), (2, 3), (0, 4), (2, 4)].toFinset := by
      intro q hq
      exact List.mem_toFinset.mpr ((hfr q).mp (hl q (List.mem_toFinset.mp hq)))
    have := Finset.card_le_card hsub
    rw [List.toFinset_card_of_nodup hn] at this
    exact this.trans (by decide)
  · intro p hp
    simp only [List.mem_cons, List.not_mem_nil, or_false] at hp
    rcases hp with rfl | rfl
    · exact ⟨(hfr _).mpr (by simp), fun σ hσ => (hcert σ hσ).1, by decide +kernel⟩
    · exact ⟨(hfr _).mpr (by simp), fun σ hσ => (hcert σ hσ).2, by decide +kernel⟩

/-- The theorems above apply to this board: the right column is recognised as safe, nothing is known about the rest. -/
example : (isAbleToSolve [[1, 10, 1, 10], [1, 10, 1, 11]] (0, 3)).map (·.1) = some true ∧
    (isAbleToSolve [[1, 10, 1, 10], [1, 10, 1, 11]] (0, 1)).map (·.1) = some false := by decide +kernel

/-! ## get_all_not_and_is_mine_on_board -/

/-- C44: called with the equations of a board that some layout explains, `get_all_not_and_is_mine_on_board` returns;
every cell it lists is certain; while at most 55 cells lie next to numbers it lists all certainly safe ones, and all
certain mines except the ones with a twin. -/
theorem get_all_on_board_exact (g : Board) (r c : Nat) (hrect : Rect g r c) (hr : 0 < r) (hcons : ∃ σ, Consistent g σ) :
    ∃ S n i g', refreshMatrixs g = some S ∧ getAllOnBoard S g = some (n, i, g') ∧
      (∀ p ∈ n, Frontier g p ∧ Certain g p false) ∧ (∀ p ∈ i, Frontier g p ∧ Certain g p true) ∧
      (FewFrontier g → (∀ p, Frontier g p → Certain g p false → p ∈ n) ∧
        ∀ p, Frontier g p → Certain g p true → p ∉ i → ∃ q, q ≠ p ∧ q ∉ i ∧ Frontier g q ∧ Certain g q true) := by
  obtain ⟨S, s1, s2⟩ := sysFor_of_consistent (r := r) (c := c) hcons
  obtain ⟨o, n, i, o2, n2, i2, h1, h2, h3, h4, h5, h6, h7, h8, h9⟩ := stage_both hrect hr s2 hcons
  obtain ⟨n3, i3, e1, e2, e3, e4⟩ := enum_stage h7.ok h9
  have hsub : ∀ {q}, q ∈ sysCells o2.sys → q ∈ sysCells S := fun hq => h7.perm.mem_iff.mpr (by simp [hq])
  have hsat : ∃ σ, Solves σ S := by obtain ⟨σ, hσ⟩ := hcons; exact ⟨σ, (s2.solves σ).mpr hσ⟩
  have hn2 := (List.nodup_append.mp (h7.perm.nodup_iff.mp s2.good.nodup))
  refine ⟨S, n ++ n2 ++ n3, i ++ i2 ++ i3, o2.board, s1, ?_, fun p hp => ?_, fun p hp => ?_, fun hfew => ?_⟩
  · unfold getAllOnBoard
    simp only [h1, h2, h4, h5, e1, Option.bind_eq_bind, Option.bind_some]
    rfl
  · rcases List.mem_append.mp hp with h | h
    · exact ⟨(s2.cells p).mp (h7.mem_n h), fun σ hσ => ((h7.equiv σ).mp ((s2.solves σ).mpr hσ)).2.1 p h⟩
    · exact ⟨(s2.cells p).mp (hsub (e2 p h).1),
        fun σ hσ => (e2 p h).2 σ ((h7.equiv σ).mp ((s2.solves σ).mpr hσ)).1⟩
  · rcases List.mem_append.mp hp with h | h
    · exact ⟨(s2.cells p).mp (h7.mem_i h), fun σ hσ => ((h7.equiv σ).mp ((s2.solves σ).mpr hσ)).2.2 p h⟩
    · exact ⟨(s2.cells p).mp (hsub (e3 p h).1),
        fun σ hσ => (e3 p h).2 σ ((h7.equiv σ).mp ((s2.solves σ).mpr hσ)).1⟩
  · obtain ⟨e5, e6⟩ := e4 (hfew.blocks s2 h7)
    refine ⟨fun p hf hc => ?_, fun p hf hc hpi => ?_⟩
    · have hm := h7.perm.mem_iff.mp ((s2.cells p).mpr hf)
      rw [List.mem_append, List.mem_append] at hm
      rcases hm with (hm | hm) | hm
      · exact List.mem_append.mpr (.inl hm)
      · obtain ⟨σ, hσ⟩ := hcons
        have := ((h7.equiv σ).mp ((s2.solves σ).mpr hσ)).2.2 p hm
        rw [hc σ hσ] at this
        simp at this
      · exact List.mem_append.mpr (.inr ((e5 p).mpr ⟨hm, (h7.forced s2.good.nodup hsat hm false).mpr
          fun σ hσ => hc σ ((s2.solves σ).mp hσ)⟩))
    · have hm := h7.perm.mem_iff.mp ((s2.cells p).mpr hf)
      rw [List.mem_append, List.mem_append] at hm
      rw [List.mem_append, not_or] at hpi
      have hp2 : p ∈ sysCells o2.sys := by
        rcases hm with (hm | hm) | hm
        · obtain ⟨σ, hσ⟩ := hcons
          have := ((h7.equiv σ).mp ((s2.solves σ).mpr hσ)).2.1 p hm
          rw [hc σ hσ] at this
          simp at this
        · exact absurd hm hpi.1
        · exact hm
      have hforced := (h7.forced s2.good.nodup hsat hp2 true).mpr fun σ hσ => hc σ ((s2.solves σ).mp hσ)
      have ht : ∃ B ∈ o2.sys, HasTwin B p := by
        by_contra hno
        push Not at hno
        exact hpi.2 ((e6 p).mpr ⟨hp2, hno, hforced⟩)
      obtain ⟨B, hB, ht⟩ := ht
      have hpB : p ∈ B.x := by
        obtain ⟨a, b, ha, -, -, rfl, -⟩ := ht
        exact getD_mem_of_lt _ ha
      have hBn : B.x.Nodup := by
        have := hn2.2.1
        unfold sysCells at this
        rw [List.nodup_flatMap] at this
        exact this.1 B hB
      obtain ⟨q, hq, hqp, hqt, hqf⟩ := twin_forced (h7.ok.good.rect B hB) hBn ht
        ((forced_iff hn2.2.1 h9 hB hpB true).mpr hforced)
      have hq2 : q ∈ sysCells o2.sys := List.mem_flatMap.mpr ⟨B, hB, hq⟩
      have hqf2 := (forced_iff hn2.2.1 h9 hB hq true).mp hqf
      refine ⟨q, hqp, ?_, (s2.cells q).mp (hsub hq2),
        fun σ hσ => (h7.forced s2.good.nodup hsat hq2 true).mp hqf2 σ ((s2.solves σ).mpr hσ)⟩
      rw [List.mem_append, not_or]
      exact ⟨fun h => hn2.2.2 q (List.mem_append.mpr (.inr h)) q hq2 rfl, fun h => ((e6 q).mp h).2.1 B hB hqt⟩

end Ms.Properties
