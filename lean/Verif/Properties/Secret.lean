import Verif.SpecSecret
import Verif.Properties.Tape
import Verif.Properties.Informed

/-!
# Property C99: a game gives away only what has been opened

`GameBoard`/`MinesweeperBoard.step` (base/src/videos/minesweeper_board.rs) works on the real board and on the shown one at the
same time.  What a player sees of a game depends only on the numbers opened so far (and on the number of mines).
-/

namespace Ms.Properties
open Spec MSB

theorem playOn_append {ops ops' : List (Ev × Pos)} : ∀ {s : MSB},
    playOn s (ops ++ ops') = (playOn s ops).bind fun t => playOn t ops' := by
  induction ops with
  | nil => intro s; rfl
  | cons op ops ih =>
    intro s
    simp only [List.cons_append, playOn]
    rcases s.step op.1 op.2 with _ | ⟨s', r⟩
    · rfl
    · exact ih

theorem playOn_flow {ops : List (Ev × Pos)} : ∀ {s t : MSB}, s.stepFlow ops = some (t, true) → playOn s ops = some t := by
  induction ops with
  | nil => intro s t h; simp only [stepFlow, Option.some.injEq, Prod.mk.injEq, and_true] at h; subst h; rfl
  | cons op ops ih =>
    intro s t h
    unfold stepFlow at h
    unfold playOn
    split at h
    · cases h
    · simp at h
    · rename_i s' k e
      rw [e]
      exact ih h

theorem playOn_reach {ops : List (Ev × Pos)} : ∀ {s t : MSB}, Reach s → playOn s ops = some t → Reach t := by
  induction ops with
  | nil => intro s t h e; simp only [playOn, Option.some.injEq] at e; subst e; exact h
  | cons op ops ih =>
    intro s t h e
    unfold playOn at e
    split at e
    · cases e
    · rename_i s' r e'
      exact ih (.step h e') e

theorem playOn_watch {ops : List (Ev × Pos)} : ∀ {s t : MSB}, playOn s ops = some t →
    ∃ w, watch s ops = some w ∧ w.length = ops.length := by
  induction ops with
  | nil => intro s t _; exact ⟨[], rfl, rfl⟩
  | cons op ops ih =>
    intro s t e
    unfold playOn at e
    unfold watch
    split at e
    · cases e
    · obtain ⟨w, h1, h2⟩ := ih e
      rename_i s' r _
      exact ⟨(r, sight s') :: w, by rw [h1]; rfl, by simp [h2]⟩

/-- equal sights of two games end with equal sights -/
theorem watch_last {ops : List (Ev × Pos)} : ∀ {s t u : MSB}, sight s = sight t → playOn s ops = some u → watch t ops = watch s ops →
    ∃ u', playOn t ops = some u' ∧ sight u' = sight u := by
  induction ops with
  | nil =>
    intro s t u h e _
    simp only [playOn, Option.some.injEq] at e
    subst e
    exact ⟨t, rfl, h.symm⟩
  | cons op ops ih =>
    intro s t u h e hw
    unfold playOn at e ⊢
    unfold watch at hw
    split at e
    · cases e
    rename_i s' r e'
    obtain ⟨w, w1, -⟩ := playOn_watch e
    rw [e'] at hw
    simp only [w1, Option.map_some] at hw
    split at hw
    · cases hw
    rename_i t' r' e''
    rcases hw2 : watch t' ops with _ | w'
    · rw [hw2] at hw; cases hw
    · rw [hw2] at hw
      simp only [Option.map_some, Option.some.injEq, List.cons.injEq, Prod.mk.injEq] at hw
      exact ih hw.1.2.symm e (by rw [hw2, w1, hw.2])

theorem suits_playOn {v : View} {ops : List (Ev × Pos)} : ∀ {s u : MSB}, s.GInv → playOn s ops = some u → Suits u v → Suits s v := by
  induction ops with
  | nil => intro s u _ e h; simp only [playOn, Option.some.injEq] at e; subst e; exact h
  | cons op ops ih =>
    intro s u hi e h
    unfold playOn at e
    split at e
    · cases e
    · rename_i s' r e'
      exact suits_back hi e' (ih ((MSB.step_eff e').inv hi) e h)

theorem same_run {v : View} {ops : List (Ev × Pos)} : ∀ {s t u : MSB}, s.GInv → t.GInv → Same2 v s t → t.state = s.state →
    playOn s ops = some u → Suits u v → watch t ops = watch s ops ∧ ∃ u', playOn t ops = some u' ∧ Same2 v u u' ∧ u'.state = u.state := by
  induction ops with
  | nil =>
    intro s t u _ _ h hst e _
    simp only [playOn, Option.some.injEq] at e
    subst e
    exact ⟨rfl, t, rfl, h, hst⟩
  | cons op ops ih =>
    intro s t u hs ht h hst e hu
    unfold playOn at e
    split at e
    · cases e
    rename_i s' r e'
    have hs' := (MSB.step_eff e').inv hs
    have hsu := suits_playOn hs' e hu
    obtain ⟨t', e1, e2, e3⟩ := MSB.step_same hs ht h hst op.1 op.2 s' r e' hsu.final
    have ht' := (MSB.step_eff e1).inv ht
    have hst' := MSB.sn_eq hs' ht' e2 e3 hsu.count
    obtain ⟨i1, u', i2, i3⟩ := ih hs' ht' e2 hst' e hu
    have hsi : sight t' = sight s' := by
      unfold sight
      rw [e2.gameBoard, hst', e2.mouse, e2.left, e2.right, e2.double, e2.flag]
    refine ⟨?_, u', ?_, i3⟩
    · unfold watch
      rw [e', e1]
      simp only [i1, hsi]
    · unfold playOn
      rw [e1]
      exact i2

theorem new_same {v v' : View} (hr : v'.row = v.row) (hc : v'.col = v.col) : Same2 v' (MSB.new v) (MSB.new v') := by
  refine ⟨rfl, ?_, rfl, rfl, rfl, rfl, hr, hc, rfl, rfl, rfl⟩
  show Board.build v'.row v'.col _ = Board.build v.row v.col _
  rw [hr, hc]

theorem steps_dims {ops : List (Ev × Pos)} : ∀ {s u : MSB}, s.GInv → playOn s ops = some u →
    u.board = s.board ∧ u.row = s.row ∧ u.column = s.column := by
  induction ops with
  | nil => intro s u _ e; simp only [playOn, Option.some.injEq] at e; subst e; exact ⟨rfl, rfl, rfl⟩
  | cons op ops ih =>
    intro s u hi e
    unfold playOn at e
    split at e
    · cases e
    · rename_i s' r e'
      have he := MSB.step_eff e'
      obtain ⟨f1, f2, f3⟩ := he.frame hi
      obtain ⟨g1, g2, g3⟩ := ih (he.inv hi) e
      exact ⟨g1.trans f1, g2.trans f2, g3.trans f3⟩

private theorem suits_of {v v' : View} (hn : Numbered v) (hd : Dealt v v') {ops : List (Ev × Pos)} {s : MSB}
    (hs : playOn (MSB.new v) ops = some s) (hl : s.state ≠ .loss)
    (h : ∀ p ∈ vcells v, shown s.gameBoard p < 10 → val v' p = shown s.gameBoard p) : Suits s v' := by
  obtain ⟨d1, d2, d3⟩ := steps_dims (MSB.new_inv hn) hs
  have hi := (playOn_reach (.new hn) hs).inv
  have d1 : s.board = v := d1
  have d2 : s.row = v.row := d2
  have d3 : s.column = v.col := d3
  refine ⟨hd.numbered, hd.row.trans d2.symm, hd.col.trans d3.symm, .inr ⟨fun q hq => ?_, fun q hq hlt => ?_⟩, fun _ => ?_⟩
  · have h1 := hi.core.marks q hq
    have h2 := hi.core.bd_range hq
    simp only [hl, false_and, or_false] at h1
    omega
  · have h1 := hi.core.marks q hq
    have h2 := h q (by show q ∈ grid v.row v.col; rw [← d2, ← d3]; exact hq) hlt
    have h3 : shown s.gameBoard q = s.gb q := rfl
    simp only [hl, false_and, or_false] at h1
    omega
  · rw [d1]; exact hd.count

/-- **C99** what a game gives away: play any events on any correctly numbered board, whether they are accepted or refused, until any
moment at which the game is not lost.  On another board that could have been dealt (the same size, as many mines) the same
events look the same - every answer, every board shown, the state of the game and of the mouse, the counters of clicks and
the number of flags, event after event - exactly if the other board has all the numbers shown at that moment. -/
theorem C99_iff (v v' : View) (hn : Numbered v) (hd : Dealt v v') (ops : List (Ev × Pos)) (s : MSB)
    (hs : playOn (MSB.new v) ops = some s) (hl : s.state ≠ .loss) :
    watch (MSB.new v') ops = watch (MSB.new v) ops ↔
      ∀ p ∈ vcells v, shown s.gameBoard p < 10 → val v' p = shown s.gameBoard p := by
  constructor
  · intro hw p hp hlt
    obtain ⟨u, u1, u2⟩ := watch_last (s := MSB.new v) (t := MSB.new v') (by
      unfold sight
      rw [(new_same hd.row hd.col).gameBoard]; rfl) hs hw
    obtain ⟨d1, d2, d3⟩ := steps_dims (MSB.new_inv hd.numbered) u1
    have d1 : u.board = v' := d1
    have d2 : u.row = v'.row := d2
    have d3 : u.column = v'.col := d3
    have hi := (playOn_reach (.new hd.numbered) u1).inv
    have hpu : p ∈ grid u.row u.column := by rw [d2, d3, hd.row, hd.col]; exact hp
    have hgb : u.gameBoard = s.gameBoard := congrArg Sight.board u2
    have hst : u.state = s.state := congrArg Sight.state u2
    have h1 := hi.core.marks p hpu
    have h2 : shown s.gameBoard p = u.gb p := by rw [← hgb]; rfl
    rw [hst] at h1
    simp only [hl, false_and, or_false] at h1
    have h3 : u.bd p = val v' p := by rw [MSB.bd_val, d1]
    omega
  · intro h
    exact (same_run (MSB.new_inv hn) (MSB.new_inv hd.numbered) (new_same hd.row hd.col) rfl hs (suits_of hn hd hs hl h)).1

/-! ### layouts -/

theorem vcells_withMines (r c : Nat) (M : Finset Pos) : vcells (withMines r c M) = grid r c := rfl

theorem val_withMines (r c : Nat) (M : Finset Pos) (p : Pos) : val (withMines r c M) p = if p ∈ M then -1 else (adjCount M p : Int) := rfl

theorem mines_withMines {r c : Nat} {M : Finset Pos} (hM : M ⊆ grid r c) : mines (withMines r c M) = M := by
  ext p
  unfold mines
  rw [Finset.mem_filter, vcells_withMines, val_withMines]
  constructor
  · rintro ⟨-, h⟩
    by_contra hp
    rw [if_neg hp] at h
    omega
  · intro h
    exact ⟨hM h, if_pos h⟩

theorem numbered_withMines {r c : Nat} {M : Finset Pos} (hM : M ⊆ grid r c) : Numbered (withMines r c M) := by
  intro p _ hp
  rw [mines_withMines hM]
  rw [val_withMines] at hp ⊢
  by_cases h : p ∈ M
  · rw [if_pos h] at hp; exact absurd rfl hp
  · rw [if_neg h]

theorem dealt_of {v : View} {M : Finset Pos} (hM : M ⊆ vcells v) (hc : M.card = (mines v).card) : Dealt v (withMines v.row v.col M) :=
  ⟨rfl, rfl, by rw [mines_withMines hM, hc], numbered_withMines hM⟩

theorem grid_of {v : View} (hn : Numbered v) {ops : List (Ev × Pos)} {s : MSB}
    (hs : playOn (MSB.new v) ops = some s) {p : Pos} (hp : p ∈ grid s.gameBoard.row s.gameBoard.col) : p ∈ vcells v := by
  have hi := (playOn_reach (.new hn) hs).inv
  obtain ⟨-, d2, d3⟩ := steps_dims (MSB.new_inv hn) hs
  have d2 : s.row = v.row := d2
  have d3 : s.column = v.col := d3
  have hr := hi.core.rect
  rw [d2, d3] at hr
  have h0 := mem_grid.mp hp
  have h1 : s.gameBoard.row = v.row := hr.len
  have := hr.col_eq (by omega)
  rw [mem_grid] at hp
  exact mem_grid.mpr (by omega)

theorem of_grid {v : View} (hn : Numbered v) {ops : List (Ev × Pos)} {s : MSB}
    (hs : playOn (MSB.new v) ops = some s) {p : Pos} (hp : p ∈ vcells v) : p ∈ grid s.gameBoard.row s.gameBoard.col := by
  have hi := (playOn_reach (.new hn) hs).inv
  obtain ⟨-, d2, d3⟩ := steps_dims (MSB.new_inv hn) hs
  have d2 : s.row = v.row := d2
  have d3 : s.column = v.col := d3
  have hr := hi.core.rect
  rw [d2, d3] at hr
  have h0 := mem_grid.mp hp
  have h1 : s.gameBoard.row = v.row := hr.len
  have := hr.col_eq (by omega)
  exact mem_grid.mpr (by omega)

/-- **C99** every layout of mines is still possible: at any moment of any game that is not lost, take any set of as many cells as there are
mines that agrees with the numbers shown.  There is a correctly numbered board with exactly these mines, and on it the same
events look the same from the beginning. -/
theorem C99_layouts (v : View) (hn : Numbered v) (ops : List (Ev × Pos)) (s : MSB) (hs : playOn (MSB.new v) ops = some s)
    (hl : s.state ≠ .loss) (M : Finset Pos) (hM : M ⊆ vcells v) (hc : M.card = (mines v).card) (ha : AgreesWith s.gameBoard M) :
    ∃ v', Dealt v v' ∧ mines v' = M ∧ watch (MSB.new v') ops = watch (MSB.new v) ops := by
  refine ⟨withMines v.row v.col M, dealt_of hM hc, mines_withMines hM, ?_⟩
  rw [C99_iff v _ hn (dealt_of hM hc) ops s hs hl]
  intro p hp hlt
  obtain ⟨h1, h2⟩ := ha p (of_grid hn hs hp) hlt
  rw [val_withMines, if_neg h1, h2]

/-- **C99** and no others: the mines of any board on which the events look the same agree with the numbers shown. -/
theorem C99_agrees (v v' : View) (hn : Numbered v) (hd : Dealt v v') (ops : List (Ev × Pos)) (s : MSB)
    (hs : playOn (MSB.new v) ops = some s) (hl : s.state ≠ .loss) (hw : watch (MSB.new v') ops = watch (MSB.new v) ops) :
    AgreesWith s.gameBoard (mines v') := by
  have h := (C99_iff v v' hn hd ops s hs hl).mp hw
  intro p hp hlt
  have hpv := grid_of hn hs hp
  have h1 := h p hpv hlt
  have hpv' : p ∈ vcells v' := by show p ∈ grid v'.row v'.col; rw [hd.row, hd.col]; exact hpv
  have hi := (playOn_reach (.new hn) hs).inv
  obtain ⟨d1, d2, d3⟩ := steps_dims (MSB.new_inv hn) hs
  have d2 : s.row = v.row := d2
  have d3 : s.column = v.col := d3
  have hps : p ∈ grid s.row s.column := by rw [d2, d3]; exact hpv
  have h2 := hi.core.marks p hps
  have h3 := hi.core.bd_range hps
  simp only [hl, false_and, or_false] at h2
  have h4 : shown s.gameBoard p = s.gb p := rfl
  have hne : val v' p ≠ -1 := by omega
  refine ⟨fun hm => hne (Finset.mem_filter.mp hm).2, ?_⟩
  rw [← h1]
  exact hd.numbered p hpv' hne

/-! ### opening a cell -/

private theorem left_result {s : MSB} (hi : s.GInv) (hst : s.state = .playing) (hm : s.mouse = .upUp) {p : Pos}
    (hp : p ∈ grid s.row s.column) (h10 : s.gb p = 10) :
    ∃ t, playOn s (leftOn p) = some t ∧ (t.state = .loss ↔ s.bd p = -1) := by
  obtain ⟨t, k, he, heff⟩ := leftClick_eff hi.core hp
  have hf := flow_left hst hm hp
  rw [he] at hf
  cases heff with
  | none h => exact absurd h10 h
  | mine _ hb hg => exact ⟨_, playOn_flow hf, by simp [hb]⟩
  | @safe g' _ hb hg =>
    refine ⟨_, playOn_flow hf, ?_⟩
    refine ⟨fun h => ?_, fun h => absurd h hb⟩
    rcases checkWin_state { s with
        left := s.left + 1, gameBoard := g', ce := s.ce + 1,
        bbbvSolved := s.bbbvSolved + leftGain { s with left := s.left + 1 } p } with h' | h'
    · rw [h'] at h; cases h
    · rw [h', hst] at h; cases h

/-- **C99** certainty is the only protection: at any moment of a running game, with no button down, take a covered cell.  It holds a mine in
no layout that agrees with the numbers shown (and has as many mines) exactly if opening it loses on none of the boards on
which the game looked the same; one such layout with a mine there, and there is a board on which the same game was seen and
now is lost.  On each of these boards the game goes on with an answer, never a panic. -/
theorem C99_certain (v : View) (hn : Numbered v) (ops : List (Ev × Pos)) (s : MSB) (hs : playOn (MSB.new v) ops = some s)
    (hst : s.state = .playing) (hm : s.mouse = .upUp) (p : Pos) (hp : IsCovered s.gameBoard p) :
    ((∀ M ⊆ vcells v, M.card = (mines v).card → AgreesWith s.gameBoard M → p ∉ M) ↔
      ∀ v', Dealt v v' → watch (MSB.new v') ops = watch (MSB.new v) ops →
        ∃ t, playOn (MSB.new v') (ops ++ leftOn p) = some t ∧ t.state ≠ .loss) ∧
    ∀ v', Dealt v v' → watch (MSB.new v') ops = watch (MSB.new v) ops →
      ∃ t, playOn (MSB.new v') (ops ++ leftOn p) = some t ∧ (t.state = .loss ↔ p ∈ mines v') := by
  have hl : s.state ≠ .loss := by rw [hst]; decide
  have hpv := grid_of hn hs hp.1
  have key : ∀ v', Dealt v v' → watch (MSB.new v') ops = watch (MSB.new v) ops →
      ∃ t, playOn (MSB.new v') (ops ++ leftOn p) = some t ∧ (t.state = .loss ↔ p ∈ mines v') := by
    intro v' hd hw
    obtain ⟨u, u1, u2⟩ := watch_last (s := MSB.new v) (t := MSB.new v') (by
      unfold sight
      rw [(new_same hd.row hd.col).gameBoard]; rfl) hs hw
    obtain ⟨d1, d2, d3⟩ := steps_dims (MSB.new_inv hd.numbered) u1
    have d1 : u.board = v' := d1
    have d2 : u.row = v'.row := d2
    have d3 : u.column = v'.col := d3
    have hpv' : p ∈ vcells v' := by show p ∈ grid v'.row v'.col; rw [hd.row, hd.col]; exact hpv
    obtain ⟨t, t1, t2⟩ := left_result (playOn_reach (.new hd.numbered) u1).inv ((congrArg Sight.state u2).trans hst)
      ((congrArg Sight.mouse u2).trans hm) (p := p) (by rw [d2, d3]; exact hpv') (by
        have : u.gameBoard = s.gameBoard := congrArg Sight.board u2
        unfold MSB.gb; rw [this]; exact hp.2)
    refine ⟨t, by rw [playOn_append, u1]; exact t1, t2.trans ?_⟩
    rw [MSB.bd_val, d1]
    unfold mines
    rw [Finset.mem_filter]
    exact ⟨fun h => ⟨hpv', h⟩, fun h => h.2⟩
  refine ⟨⟨fun h v' hd hw => ?_, fun h M hM hc ha hpM => ?_⟩, key⟩
  · obtain ⟨t, t1, t2⟩ := key v' hd hw
    refine ⟨t, t1, fun hh => ?_⟩
    refine h (mines v') ?_ hd.count (C99_agrees v v' hn hd ops s hs hl hw) (t2.mp hh)
    intro q hq
    have : q ∈ grid v'.row v'.col := (Finset.mem_filter.mp hq).1
    rw [hd.row, hd.col] at this
    exact this
  · obtain ⟨v', hd, hm', hw⟩ := C99_layouts v hn ops s hs hl M hM hc ha
    obtain ⟨t, t1, t2⟩ := h v' hd hw
    obtain ⟨t', t1', t2'⟩ := key v' hd hw
    rw [t1] at t1'
    obtain rfl : t = t' := by simpa using t1'
    exact t2 (t2'.mpr (by rw [hm']; exact hpM))

/-! ### programs that play -/

theorem watch_prefix {ops ops' : List (Ev × Pos)} : ∀ {s : MSB} {w : List (Option Nat × Sight)}, watch s (ops ++ ops') = some w →
    watch s ops = some (w.take ops.length) := by
  induction ops with
  | nil => intro s w _; simp [watch]
  | cons op ops ih =>
    intro s w h
    simp only [List.cons_append, watch] at h ⊢
    split at h
    · cases h
    rename_i s' r e
    rcases hw : watch s' (ops ++ ops') with _ | w'
    · rw [hw] at h; cases h
    rw [hw] at h
    simp only [Option.map_some, Option.some.injEq] at h
    subst h
    rw [ih hw]
    simp

/-- **C99** a program plays the same on boards it cannot tell apart: as long as the game looks the same, its next event is
the same. -/
theorem C99_chooses (m : Mind) (v v' : View) (ops : List (Ev × Pos)) (op : Ev × Pos) (s : MSB)
    (hs : playOn (MSB.new v) ops = some s) (hw : watch (MSB.new v') ops = watch (MSB.new v) ops)
    (h : Chooses m (MSB.new v) (ops ++ [op])) : Chooses m (MSB.new v') (ops ++ [op]) := by
  intro before o later e
  obtain ⟨w, w1, w2⟩ := h before o later e
  obtain ⟨w', w1', -⟩ := playOn_watch hs
  rw [w1'] at hw
  have hpre : ∃ l, ops = before ++ l := by
    rcases List.eq_nil_or_concat later with rfl | ⟨l, x, rfl⟩
    · exact ⟨[], by simpa using (List.append_inj' e rfl).1⟩
    · rw [List.concat_eq_append, ← List.cons_append, ← List.append_assoc] at e
      exact ⟨o :: l, (List.append_inj' e rfl).1⟩
  obtain ⟨l, rfl⟩ := hpre
  rw [watch_prefix w1'] at w1
  exact ⟨w, by rw [watch_prefix hw]; exact w1, w2⟩

private theorem press_left {s : MSB} (hst : s.state = .playing) (hm : s.mouse = .upUp) {p : Pos} :
    ∃ t, playOn s [(.lc, p)] = some t ∧ t.gameBoard = s.gameBoard ∧ t.state = .playing := by
  simp only [playOn, step, hst, stepPlaying, hm]
  exact ⟨_, rfl, rfl, rfl⟩

/-- **C99** a program that never loses opens only what is certain: take any program, however it decides, that loses on no board with as
many mines (and none on a given cell, say the one it starts with).  Whenever it clicks a covered cell in a running game with
no button down, this cell holds no mine in any layout with as many mines (and none on the given cell) that agrees with the
numbers shown. -/
theorem C99_never_loses (m : Mind) (v : View) (c0 : Pos) (hn : Numbered v) (hm : NeverLoses m v c0)
    (ops : List (Ev × Pos)) (s : MSB) (hs : playOn (MSB.new v) ops = some s) (hst : s.state = .playing) (hup : s.mouse = .upUp)
    (p : Pos) (hp : IsCovered s.gameBoard p) (hd : Chooses m (MSB.new v) (ops ++ leftOn p))
    (M : Finset Pos) (hM : M ⊆ vcells v) (hc : M.card = (mines v).card) (ha : AgreesWith s.gameBoard M) (h0 : c0 ∉ M) : p ∉ M := by
  intro hpM
  have hl : s.state ≠ .loss := by rw [hst]; decide
  obtain ⟨v', d1, d2, d3⟩ := C99_layouts v hn ops s hs hl M hM hc ha
  obtain ⟨t, t1, t2⟩ := (C99_certain v hn ops s hs hst hup p hp).2 v' d1 d3
  obtain ⟨s1, p1, p2, p3⟩ := press_left hst hup (p := p)
  have hs1 : playOn (MSB.new v) (ops ++ [(.lc, p)]) = some s1 := by rw [playOn_append, hs]; exact p1
  have hw1 : watch (MSB.new v') (ops ++ [(.lc, p)]) = watch (MSB.new v) (ops ++ [(.lc, p)]) := by
    rw [C99_iff v v' hn d1 _ s1 hs1 (by rw [p3]; decide), p2]
    exact (C99_iff v v' hn d1 ops s hs hl).mp d3
  have e : ops ++ leftOn p = (ops ++ [(.lc, p)]) ++ [(.lr, p)] := by simp [leftOn]
  rw [e] at hd
  refine hm v' d1 (by rw [d2]; exact h0) _ t ?_ t1 (t2.mpr (by rw [d2]; exact hpM))
  rw [e]
  exact C99_chooses m v v' _ _ s1 hs1 hw1 hd

/-! ### players who count -/

theorem events_of {n : Nat} {t u : MSB} (h : CountingGame n t u) : ∃ ops, playOn t ops = some u := by
  induction h with
  | refl => exact ⟨[], rfl⟩
  | tail _ hm ih =>
    obtain ⟨ops, h1⟩ := ih
    have : ∀ {x y : MSB} {o : List (Ev × Pos)}, playOn t ops = some x → x.stepFlow o = some (y, true) → ∃ o, playOn t o = some y :=
      fun {x y o} e1 e2 => ⟨ops ++ o, by rw [playOn_append, e1]; exact playOn_flow e2⟩
    cases hm with
    | opens _ e => exact this h1 e
    | flags _ e => exact this h1 e
    | unflags _ _ e => exact this h1 e
    | chords _ e => exact this h1 e

theorem allows_agrees {g : Board} {n : Nat} {σ : Pos → Bool} (hlow : ∀ p ∈ grid g.row g.col, shown g p = 10 ∨ shown g p = 11 ∨ (0 ≤ shown g p ∧ shown g p ≤ 8))
    (h : Allows g n σ) : (((coveredSet g).filter fun p => σ p = true) ∪ markedSet g).card = n ∧
      AgreesWith g (((coveredSet g).filter fun p => σ p = true) ∪ markedSet g) := by
  constructor
  · rw [Finset.card_union_of_disjoint, h.2]
    rw [Finset.disjoint_left]
    intro q hq hq'
    have h1 := (Finset.mem_filter.mp (Finset.mem_filter.mp hq).1).2
    have h2 := (Finset.mem_filter.mp hq').2
    omega
  · intro p hp hlt
    have hlt' : g.get p.1 p.2 < 10 := hlt
    have hnot : p ∉ ((coveredSet g).filter fun p => σ p = true) ∪ markedSet g := by
      intro hh
      rcases Finset.mem_union.mp hh with hh | hh
      · have h1 := (Finset.mem_filter.mp (Finset.mem_filter.mp hh).1).2
        omega
      · have h2 := (Finset.mem_filter.mp hh).2
        omega
    refine ⟨hnot, ?_⟩
    have hnum : IsNumber g p := by
      have := hlow p hp
      unfold IsNumber
      unfold shown at this
      refine ⟨hp, ?_⟩
      omega
    have := h.1 p hnum
    unfold shown
    rw [this]
    congr 1
    unfold minesNear adjCount
    congr 1
    ext q
    simp only [Finset.mem_filter, Finset.mem_union, coveredSet, markedSet]
    unfold Adj
    constructor
    · rintro ⟨h1, h2, h3⟩
      refine ⟨?_, h2, ?_⟩
      · rcases h3 with h3 | h3
        · exact .inr ⟨h1, h3⟩
        · exact .inl ⟨⟨h1, h3.1⟩, h3.2⟩
      · rintro rfl
        rcases h3 with h3 | h3 <;> omega
    · rintro ⟨h1, h2, h3⟩
      rcases h1 with h1 | h1
      · exact ⟨h1.1.1, h2, .inr ⟨h1.1.2, h1.2⟩⟩
      · exact ⟨h1.1, h2, .inl h1.2⟩

/-- **C99** a player who counts (C98) opens all that can be opened without risk: at every moment of their game, for every covered
cell that is not safe in all layouts there is another board (of the same size, with as many mines) on which the same events look
the same all along and on which opening this cell now loses. -/
theorem C99_gamble (hrect : Rect b r c) (hnum : Numbered b.view) (hs : s ∈ grid r c) (hsafe : b.get s.1 s.2 ≠ -1)
    (t u : MSB) (h1 : (MSB.new b.view).stepFlow (leftOn s) = some (t, true))
    (h2 : CountingGame (mines b.view).card t u) (hst : u.state = .playing) (p : Pos) (hp : IsCovered u.gameBoard p)
    (hno : ¬ SafeAmong u.gameBoard (mines b.view).card p) :
    ∃ ops v', playOn (MSB.new b.view) ops = some u ∧ Dealt b.view v' ∧
      watch (MSB.new v') ops = watch (MSB.new b.view) ops ∧
      ∃ w, playOn (MSB.new v') (ops ++ leftOn p) = some w ∧ w.state = .loss := by
  have hb : BoardOK r c b := by
    have := mem_grid.mp hs
    exact ⟨hrect, by omega, by omega, hnum⟩
  have hcard : ((grid r c).filter fun p => layout b p = true).card = (mines b.view).card := by
    unfold mines
    rw [hb.vcells]
    congr 1
    apply Finset.filter_congr
    intro q _
    rw [layout_iff]
    rfl
  obtain ⟨t', e1, e2⟩ := count_first (n := (mines b.view).card) hb (layout_false.mpr hsafe) hs
  rw [h1] at e1
  obtain rfl : t = t' := by simpa using e1
  obtain ⟨hi, -⟩ := e2.game hb hcard h2
  have hm : u.mouse = .upUp := by
    rcases hi.st with h | h
    · exact h.2
    · rw [hst] at h; cases h
  obtain ⟨ops, o1⟩ := events_of h2
  have ho : playOn (MSB.new b.view) (leftOn s ++ ops) = some u := by
    rw [playOn_append, playOn_flow h1]; exact o1
  unfold SafeAmong at hno
  push Not at hno
  obtain ⟨σ, s1, s2⟩ := hno hp
  have hl : u.state ≠ .loss := by rw [hst]; decide
  have hlow : ∀ q ∈ grid u.gameBoard.row u.gameBoard.col, shown u.gameBoard q = 10 ∨ shown u.gameBoard q = 11 ∨
      (0 ≤ shown u.gameBoard q ∧ shown u.gameBoard q ≤ 8) := by
    intro q hq
    have hqv := grid_of hnum ho hq
    have hqu : q ∈ grid u.row u.column := by
      rw [hi.row, hi.col, ← hb.vcells]; exact hqv
    have h1 := hi.reach.inv.core.marks q hqu
    have h2 := hi.reach.inv.core.bd_range hqu
    have h3 : shown u.gameBoard q = u.gb q := rfl
    simp only [hl, false_and, or_false] at h1
    omega
  obtain ⟨a1, a2⟩ := allows_agrees hlow s1
  obtain ⟨v', d1, d2, d3⟩ := C99_layouts b.view hnum (leftOn s ++ ops) u ho hl _ (by
    intro q hq
    refine grid_of hnum ho ?_
    rcases Finset.mem_union.mp hq with hq | hq
    · exact (Finset.mem_filter.mp (Finset.mem_filter.mp hq).1).1
    · exact (Finset.mem_filter.mp hq).1) a1 a2
  obtain ⟨w, w1, w2⟩ := (C99_certain b.view hnum (leftOn s ++ ops) u ho hst hm p hp).2 v' d1 d3
  refine ⟨leftOn s ++ ops, v', ho, d1, d3, w, w1, w2.mpr ?_⟩
  rw [d2]
  refine Finset.mem_union_left _ (Finset.mem_filter.mpr ⟨Finset.mem_filter.mpr ⟨hp.1, hp.2⟩, ?_⟩)
  exact by simpa using s2

/-! ### examples -/

/-- Three cells and one mine: a game begun in the middle. -/
def exSecret : View := withMines 1 3 {(0, 0)}

/-- After the first click nothing tells this board from the one with the mine on the other side: the hypotheses of `C99_iff`,
`C99_layouts` and `C99_certain` are met in a running game, ... -/
theorem exSecret_seen : ∃ s, playOn (MSB.new exSecret) (leftOn (0, 1)) = some s ∧ s.state = .playing ∧ s.mouse = .upUp ∧
    s.gameBoard = [[10, 1, 10]] := ⟨_, rfl, by decide +kernel, by decide +kernel, by decide +kernel⟩

/-- ... and opening the other side loses there. -/
example : ∃ v', Dealt exSecret v' ∧ mines v' = {(0, 2)} ∧
    watch (MSB.new v') (leftOn (0, 1)) = watch (MSB.new exSecret) (leftOn (0, 1)) ∧
    ∃ t, playOn (MSB.new v') (leftOn (0, 1) ++ leftOn (0, 2)) = some t ∧ t.state = .loss := by
  obtain ⟨s, h1, h2, h3, h4⟩ := exSecret_seen
  have hn : Numbered exSecret := numbered_withMines (by decide)
  obtain ⟨v', d1, d2, d3⟩ := C99_layouts exSecret hn _ s h1 (by rw [h2]; decide) {(0, 2)} (by decide) (by decide) (by
    rw [h4]; unfold AgreesWith; decide)
  obtain ⟨t, t1, t2⟩ := (C99_certain exSecret hn _ s h1 h2 h3 (0, 2) (by rw [h4]; exact ⟨by decide, by decide⟩)).2 v' d1 d3
  exact ⟨v', d1, d2, d3, t, t1, t2.mpr (by rw [d2]; decide)⟩

/-- ... while a board with the mine in the middle is told apart by the first click. -/
example : watch (MSB.new (withMines 1 3 {(0, 1)})) (leftOn (0, 1)) ≠ watch (MSB.new exSecret) (leftOn (0, 1)) := by decide +kernel

/-- A program for three cells and one mine that is not on the left: open the left cell, then the right one. -/
def exMind : Mind := fun w => ((leftOn (0, 0) ++ leftOn (0, 2))[w.length]?).getD (.lc, (0, 0))

private theorem watch_length {ops : List (Ev × Pos)} : ∀ {s : MSB} {w : List (Option Nat × Sight)}, watch s ops = some w →
    w.length = ops.length := by
  induction ops with
  | nil => intro s w h; simp only [watch, Option.some.injEq] at h; subst h; rfl
  | cons op ops ih =>
    intro s w h
    unfold watch at h
    split at h
    · cases h
    rename_i s' r e
    rcases hw : watch s' ops with _ | w'
    · rw [hw] at h; cases h
    rw [hw] at h
    simp only [Option.map_some, Option.some.injEq] at h
    subst h
    simp [ih hw]

private theorem exMind_moves {s : MSB} {ops : List (Ev × Pos)} (h : Chooses exMind s ops) :
    ∃ rest, ops = ((leftOn (0, 0) ++ leftOn (0, 2)).take ops.length) ++ rest ∧ (ops.length ≤ 4 → rest = []) := by
  refine ⟨ops.drop 4, ?_, fun h => by simpa using h⟩
  apply List.ext_getElem?
  intro i
  by_cases hi : i < ops.length
  swap
  · rw [List.getElem?_eq_none (by omega), List.getElem?_eq_none]
    simp only [leftOn, List.length_append, List.length_take, List.length_drop, List.length_cons, List.length_nil]
    omega
  by_cases h4 : i < 4
  · rw [List.getElem?_append_left (by simp [leftOn]; omega), List.getElem?_take_of_lt hi]
    obtain ⟨w, w1, w2⟩ := h (ops.take i) ops[i] (ops.drop (i + 1)) (by simp)
    have hw : w.length = i := by
      rw [watch_length w1]
      simp
      omega
    rw [List.getElem?_eq_getElem hi, w2]
    unfold exMind
    rw [hw]
    rw [List.getElem?_eq_getElem (by simp [leftOn]; omega)]
    rfl
  · rw [List.getElem?_append_right (by simp [leftOn]; omega), List.getElem?_drop]
    congr 1
    simp [leftOn]
    omega

private theorem playOn_frozen {s : MSB} (h : s.state = .win) : ∀ ops, playOn s ops = some s := by
  intro ops
  induction ops with
  | nil => rfl
  | cons op ops ih =>
    unfold playOn
    rw [C15_terminal_frozen s op.1 op.2 (.inl h)]
    exact ih

private def won (v : View) : Bool := [0, 1, 2, 3, 4].all fun k =>
  match playOn (MSB.new v) ((leftOn (0, 0) ++ leftOn (0, 2)).take k) with
  | none => false
  | some t => decide (t.state ≠ .loss) && (decide (k < 4) || decide (t.state = .win))

private theorem exMind_won {v : View} (hv : won v = true) {ops : List (Ev × Pos)} (h : Chooses exMind (MSB.new v) ops) :
    ∃ t, playOn (MSB.new v) ops = some t ∧ t.state ≠ .loss := by
  obtain ⟨rest, e1, e2⟩ := exMind_moves h
  unfold won at hv
  rw [List.all_eq_true] at hv
  by_cases h4 : ops.length ≤ 4
  · rw [e2 h4, List.append_nil] at e1
    have hk : ∀ k < 5, k ∈ [0, 1, 2, 3, 4] := by decide
    have := hv ops.length (hk _ (by omega))
    rw [← e1] at this
    split at this
    · cases this
    rename_i u hu
    simp only [Bool.and_eq_true, decide_eq_true_eq] at this
    exact ⟨u, hu, this.1⟩
  · rw [List.take_of_length_le (by simp [leftOn]; omega)] at e1
    have := hv 4 (by simp)
    rw [List.take_of_length_le (by simp [leftOn])] at this
    split at this
    · cases this
    rename_i u hu
    simp only [Bool.and_eq_true, decide_eq_true_eq, Nat.lt_irrefl, decide_false, Bool.false_or] at this
    refine ⟨u, ?_, this.1⟩
    rw [e1, playOn_append, hu]
    exact playOn_frozen this.2 rest

/-- a game that is not lost is the same on a board with the same mines -/
theorem same_cells {v v' : View} (hn : Numbered v) (hd : Dealt v v') (hv : mines v' = mines v) {ops : List (Ev × Pos)} {t : MSB}
    (ht : playOn (MSB.new v) ops = some t) (hl : t.state ≠ .loss) : watch (MSB.new v') ops = watch (MSB.new v) ops := by
  rw [C99_iff v v' hn hd ops t ht hl]
  intro p hp hlt
  obtain ⟨d1, d2, d3⟩ := steps_dims (MSB.new_inv hn) ht
  have d1 : t.board = v := d1
  have hi := (playOn_reach (.new hn) ht).inv
  have hpt : p ∈ grid t.row t.column := by rw [d2, d3]; exact hp
  have h1 := hi.core.marks p hpt
  have h2 := hi.core.bd_range hpt
  have h3 : shown t.gameBoard p = t.gb p := rfl
  simp only [hl, false_and, or_false] at h1
  have h4 : t.bd p = val v p := by rw [MSB.bd_val, d1]
  have hpv : p ∈ vcells v' := by
    show p ∈ grid v'.row v'.col
    rw [hd.row, hd.col]
    exact hp
  have h5 : val v p ≠ -1 := by rw [← h4]; omega
  have h6 : val v' p ≠ -1 := fun hh => h5 (Finset.mem_filter.mp (hv ▸ Finset.mem_filter.mpr ⟨hpv, hh⟩ : p ∈ mines v)).2
  have h7 := hd.numbered p hpv h6
  rw [hv, ← hn p hp h5] at h7
  omega

private theorem exMind_safe {v v' : View} (hn : Numbered v) (hd : Dealt v v') (hv : mines v' = mines v) (hw : won v = true)
    (ops : List (Ev × Pos)) : Chooses exMind (MSB.new v') ops →
    watch (MSB.new v') ops = watch (MSB.new v) ops ∧ ∃ t, playOn (MSB.new v') ops = some t ∧ t.state ≠ .loss := by
  induction ops using List.reverseRecOn with
  | nil => exact fun _ => ⟨rfl, _, rfl, by simp [MSB.new]⟩
  | append_singleton ops op ih =>
    intro h
    obtain ⟨i1, t, i2, i3⟩ := ih fun before o later e => h before o (later ++ [op]) (by rw [e]; simp)
    obtain ⟨u, u1, u2⟩ := exMind_won hw (C99_chooses exMind v' v ops op t i2 i1.symm h)
    have hx := same_cells hn hd hv u1 u2
    refine ⟨hx, ?_⟩
    obtain ⟨u', x1, x2⟩ := watch_last (s := MSB.new v) (t := MSB.new v') (by
      unfold sight
      rw [(new_same hd.row hd.col).gameBoard]; rfl) u1 hx
    refine ⟨u', x1, ?_⟩
    have : u'.state = u.state := congrArg Sight.state x2
    rw [this]; exact u2

/-- It never loses, so the hypothesis of `C99_never_loses` can be met ... -/
theorem exMind_neverLoses : NeverLoses exMind (withMines 1 3 {(0, 1)}) (0, 0) := by
  intro v' hd h0 ops t hc ht
  have hcard : (mines v').card = 1 := hd.count.trans (by decide)
  obtain ⟨a, ha⟩ := Finset.card_eq_one.mp hcard
  have ham : a ∈ grid 1 3 := by
    have h1 : a ∈ mines v' := by rw [ha]; simp
    have h2 : a ∈ grid v'.row v'.col := (Finset.mem_filter.mp h1).1
    rw [hd.row, hd.col] at h2
    exact h2
  have ha0 : a ≠ (0, 0) := by
    rintro rfl
    exact h0 (by rw [ha]; simp)
  have hcase : a = (0, 1) ∨ a = (0, 2) := by
    revert ha0
    clear ha
    revert a
    decide
  have key : ∀ x : Pos, x ∈ grid 1 3 → won (withMines 1 3 {x}) = true → a = x → t.state ≠ .loss := by
    rintro x hx hw rfl
    have hM : ({a} : Finset Pos) ⊆ grid 1 3 := by simpa using hx
    obtain ⟨-, u, u1, u2⟩ := exMind_safe (v := withMines 1 3 {a}) (v' := v') (numbered_withMines hM)
      ⟨hd.row, hd.col, by rw [mines_withMines hM, ha], hd.numbered⟩ (by rw [mines_withMines hM, ha]) hw ops hc
    rw [ht] at u1
    obtain rfl : t = u := by simpa using u1
    exact u2
  rcases hcase with h | h
  · exact key (0, 1) (by decide) (by decide +kernel) h
  · exact key (0, 2) (by decide) (by decide +kernel) h

/-- ... and it does click a covered cell in a running game. -/
example : ∃ s, playOn (MSB.new (withMines 1 3 {(0, 1)})) (leftOn (0, 0)) = some s ∧ s.state = .playing ∧ s.mouse = .upUp ∧
    IsCovered s.gameBoard (0, 2) ∧ Chooses exMind (MSB.new (withMines 1 3 {(0, 1)})) (leftOn (0, 0) ++ leftOn (0, 2)) := by
  refine ⟨_, rfl, by decide +kernel, by decide +kernel, by unfold IsCovered; decide +kernel, ?_⟩
  intro before op later e
  obtain ⟨t, ht⟩ : ∃ t, playOn (MSB.new (withMines 1 3 {(0, 1)})) (leftOn (0, 0) ++ leftOn (0, 2)) = some t := ⟨_, rfl⟩
  obtain ⟨w, w1, -⟩ := playOn_watch ht
  have w1' := w1
  rw [e] at w1'
  refine ⟨_, watch_prefix w1', ?_⟩
  have hl := watch_length (watch_prefix w1')
  unfold exMind
  rw [hl, e, List.getElem?_append_right (Nat.le_refl _)]
  simp

end Ms.Properties
