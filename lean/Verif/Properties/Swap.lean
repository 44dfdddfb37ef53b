import Verif.Lemmas.Swap
import Verif.Properties.Game

/-!
# Property C80: replacing the board during a game

`MinesweeperBoard.board` is a public field (the Python and wasm `set_board` write it, `BaseVideo::set_board` accepts a new
board while the game is being played): a program that keeps the mines undecided gives the game another board that explains
everything shown.
-/

namespace Ms.Properties
open Spec

/-- the game and its ghost, whose pointer is always right -/
theorem swapRun_ghost {s : MSB} (h : SwapRun s) :
    ∃ t : MSB, t.GInv ∧ MSB.Ghost s t ∧ (t.state = .ready ∨ t.state = .preFlaging → s = t) := by
  have self : ∀ {t : MSB}, t.GInv → ∃ u : MSB, u.GInv ∧ MSB.Ghost t u ∧ (u.state = .ready ∨ u.state = .preFlaging → t = u) :=
    fun {t} ht => ⟨t, ht, ⟨t.pointerX, t.pointerY, t.state, rfl, .inl rfl, ht.core.ptrRow⟩, fun _ => rfl⟩
  induction h with
  | new hv => exact self (MSB.new_inv hv)
  | step _ hs ih =>
    obtain ⟨t, ht, hg, hp⟩ := ih
    obtain ⟨t', h1, h2, h3, -⟩ := hg.step ht hp hs
    exact ⟨t', h1, h2, h3⟩
  | reset _ h0 _ => exact self (MSB.reset_inv h0)
  | @load s v _ hst hv h1 h2 ih =>
    obtain ⟨t, ht, hg, hp⟩ := ih
    have hts : t.state = .ready ∨ t.state = .preFlaging := by
      obtain ⟨x, y, st, rfl, hh, -⟩ := hg
      rcases hh with hh | hh
      · simpa [hh] using hst
      · simp [hh] at hst
    have hst' := hp hts
    exact self (MSB.load_inv (hst' ▸ ht) hst hv h1 h2)
  | @swap s v _ hst hv ih =>
    obtain ⟨t, ht, hg, hp⟩ := ih
    obtain ⟨x, y, st, rfl, hh, hx⟩ := hg
    have hst1 : st = .playing := hst
    have hts : t.state = .playing := by
      rcases hh with hh | hh
      · rw [← hh]; exact hst1
      · rw [hst1] at hh; simp at hh
    have hv' : ExplainsShown t v := ⟨hv.numbered, hv.row, hv.col, hv.count, hv.same⟩
    have hi : MSB.GInv { t with board := v, pointerX := 0, pointerY := 0 } :=
      MSB.swap_inv ht hts hv' (fun h => h) fun p _ hb => by
        rcases hb with hb | hb
        · exact absurd hb (Nat.not_lt_zero _)
        · exact absurd hb.2 (Nat.not_lt_zero _)
    refine ⟨_, hi, ⟨x, y, st, rfl, .inl (hst1.trans hts.symm), hx⟩, fun hh => ?_⟩
    have : t.state = .ready ∨ t.state = .preFlaging := hh
    simp [hts] at this

/-- **C80 (part)** Whatever boards are swapped in, a number shown is the true number of a safe cell of the current board;
every other cell is covered, flagged or, only in an ended game, an opened mine or a flag on a safe cell. -/
theorem C80_numbers_partial (s : MSB) (h : SwapRun s) :
    Rect s.gameBoard s.board.row s.board.col ∧ ∀ p ∈ vcells s.board,
      (shown s.gameBoard p < 10 → shown s.gameBoard p = val s.board p ∧ 0 ≤ val s.board p) ∧
      (shown s.gameBoard p ≥ 10 → shown s.gameBoard p = 10 ∨ shown s.gameBoard p = 11 ∨
        ((s.state = .loss ∨ s.state = .win) ∧ shown s.gameBoard p = 15 ∧ val s.board p = -1) ∨
        ((s.state = .loss ∨ s.state = .win) ∧ shown s.gameBoard p = 14 ∧ val s.board p ≠ -1)) := by
  obtain ⟨t, ht, ⟨x, y, st, rfl, hst, -⟩, -⟩ := swapRun_ghost h
  have hi := ht.core
  refine ⟨by show Rect t.gameBoard t.board.row t.board.col; rw [hi.hrow, hi.hcol]; exact hi.rect, fun p hp => ?_⟩
  have hp' : p ∈ grid t.row t.column := by rw [← hi.vcells]; exact hp
  have hm := hi.marks p hp'
  have hb := hi.bd_range hp'
  rw [MSB.bd_val] at hm hb
  rw [MSB.gb_bval, ← shown_eq] at hm
  have hend : t.state = .loss → st = .loss ∨ st = .win := fun hl => by rcases hst with h | h <;> simp [h, hl]
  show (shown t.gameBoard p < 10 → shown t.gameBoard p = val t.board p ∧ 0 ≤ val t.board p) ∧
      (shown t.gameBoard p ≥ 10 → shown t.gameBoard p = 10 ∨ shown t.gameBoard p = 11 ∨
        ((st = .loss ∨ st = .win) ∧ shown t.gameBoard p = 15 ∧ val t.board p = -1) ∨
        ((st = .loss ∨ st = .win) ∧ shown t.gameBoard p = 14 ∧ val t.board p ≠ -1))
  constructor
  · intro h1
    rcases hm with h | h | h | h
    · omega
    · omega
    · exact ⟨h.1, by omega⟩
    · omega
  · intro h1
    rcases hm with h | h | h | ⟨h, h' | h'⟩
    · exact .inl h
    · exact .inr (.inl h)
    · omega
    · exact .inr (.inr (.inl ⟨hend h, h'⟩))
    · exact .inr (.inr (.inr ⟨hend h, h'⟩))

/-- **C80 (part)** A win is never missed: while the game is played a safe cell of the current board is still covered, and once
every safe cell is open the game is won. -/
theorem C80_no_win_missed_partial (s : MSB) (h : SwapRun s) (hsafe : ∃ p ∈ vcells s.board, val s.board p ≠ -1) :
    (s.state = .playing → ∃ p ∈ vcells s.board, val s.board p ≠ -1 ∧
      (shown s.gameBoard p = 10 ∨ shown s.gameBoard p = 11)) ∧
    ((∀ p ∈ vcells s.board, val s.board p ≠ -1 → shown s.gameBoard p = val s.board p) → s.state = .win) := by
  obtain ⟨t, hi, ⟨x, y, st, rfl, hst, -⟩, -⟩ := swapRun_ghost h
  have hvc : vcells t.board = grid t.row t.column := hi.core.vcells
  have hplay : t.state = .playing → ∃ p ∈ vcells t.board, val t.board p ≠ -1 ∧
      (shown t.gameBoard p = 10 ∨ shown t.gameBoard p = 11) := by
    intro hts
    obtain ⟨p, hp, h1, h2⟩ := hi.playing hts
    refine ⟨p, hvc ▸ hp, h1, ?_⟩
    have := hi.core.marks p hp
    simp only [hts] at this
    rw [shown_eq, ← MSB.gb_bval]
    rcases this with h | h | h | h
    · exact .inl h
    · exact .inr h
    · exact absurd h.1 h2
    · simp at h
  refine ⟨fun hs => hplay ?_, fun hall => ?_⟩
  · have hs' : st = .playing := hs
    rcases hst with h | h
    · rw [← h]; exact hs'
    · rw [hs'] at h; simp at h
  · have hall' : ∀ p ∈ vcells t.board, val t.board p ≠ -1 → shown t.gameBoard p = val t.board p := hall
    have hsafe' : ∃ p ∈ vcells t.board, val t.board p ≠ -1 := hsafe
    rw [hvc] at hall' hsafe'
    have hw : t.state = .win := by
      have hcov : t.state = .ready ∨ t.state = .preFlaging → False := by
        intro hts
        obtain ⟨p, hp, hpm⟩ := hsafe'
        have h1 := (hi.pre hts).1 p hp
        have h2 := hall' p hp hpm
        have h3 := hi.core.bd_range hp
        rw [MSB.gb_bval, ← shown_eq] at h1
        rw [MSB.bd_val] at h3
        omega
      cases hts : t.state with
      | ready => exact (hcov (.inl hts)).elim
      | preFlaging => exact (hcov (.inr hts)).elim
      | playing =>
        obtain ⟨p, hp, h1, h2⟩ := hi.playing hts
        exact absurd (hall' p hp h1) h2
      | loss =>
        obtain ⟨p, hp, h1, h2⟩ := hi.lossOpen hts hsafe'
        exact absurd (hall' p hp h1) h2
      | win => rfl
      | display => exact absurd hts hi.nd
    show st = .win
    rcases hst with h | h
    · rw [h]; exact hw
    · exact h

/-- **C80 (part)** A lost game shows an opened mine, an opened mine is shown only in an ended game, and the flag counter is
the number of flags shown. -/
theorem C80_loss_flags_partial (s : MSB) (h : SwapRun s) :
    (s.state = .loss → ∃ p ∈ vcells s.board, shown s.gameBoard p = 15) ∧
    ((∃ p ∈ vcells s.board, shown s.gameBoard p = 15) → s.state = .loss ∨ s.state = .win) ∧
    s.flag = ((vcells s.board).filter fun p => shown s.gameBoard p = 11 ∨ shown s.gameBoard p = 14).card := by
  have hn := (C80_numbers_partial s h).2
  obtain ⟨t, hi, ⟨x, y, st, rfl, hst, -⟩, -⟩ := swapRun_ghost h
  have hvc : vcells t.board = grid t.row t.column := hi.core.vcells
  refine ⟨fun hl => ?_, ?_, ?_⟩
  · have hl' : st = .loss := hl
    have : t.state = .loss := by
      rcases hst with h | h
      · rw [← h]; exact hl'
      · rw [hl'] at h; simp at h
    obtain ⟨p, hp, h15⟩ := hi.loss this
    exact ⟨p, (by show p ∈ vcells t.board; rw [hvc]; exact hp), h15⟩
  · rintro ⟨p, hp, h15⟩
    have := (hn p hp).2 (by rw [h15]; decide)
    rw [h15] at this
    rcases this with h | h | h | h
    · simp at h
    · simp at h
    · exact h.1
    · exact h.1
  · show t.flag = ((vcells t.board).filter fun p => shown t.gameBoard p = 11 ∨ shown t.gameBoard p = 14).card
    rw [hi.core.flag, hvc]
    rfl

/-- A board with a guess at both ends, and two boards that explain the same numbers. -/
def swapA : Board := [[-1, 1, 0, 0, 1, -1], [1, 1, 0, 0, 1, 1]]
/-- the left mine is in the other row -/
def swapB : Board := [[1, 1, 0, 0, 1, -1], [-1, 1, 0, 0, 1, 1]]
/-- the right mine is in the other row -/
def swapC : Board := [[-1, 1, 0, 0, 1, 1], [1, 1, 0, 0, 1, -1]]
/-- both mines are in the other row -/
def swapD : Board := [[1, 1, 0, 0, 1, 1], [-1, 1, 0, 0, 1, -1]]

/-- the game after some events -/
def afterEvents (b : Board) (ops : List (Ev × Pos)) : Option MSB := ((MSB.new b.view).stepFlow ops).map (·.1)

theorem swapRun_stepFlow {s s' : MSB} {ops : List (Ev × Pos)} {b : Bool} (h : SwapRun s)
    (hs : s.stepFlow ops = some (s', b)) : SwapRun s' := by
  induction ops generalizing s with
  | nil =>
    simp only [MSB.stepFlow, Option.some.injEq, Prod.mk.injEq] at hs
    exact hs.1 ▸ h
  | cons op ops ih =>
    unfold MSB.stepFlow at hs
    split at hs
    · simp at hs
    · next s1 e =>
      simp only [Option.some.injEq, Prod.mk.injEq] at hs
      exact hs.1 ▸ .step h e
    · next s1 r e => exact ih (.step h e) hs

/-- the state in which the middle of `swapA` is open -/
def swapMiddle : MSB := ((afterEvents swapA [(.lc, (0, 2)), (.lr, (0, 2))]).getD (MSB.new swapA.view))

theorem swapMiddle_run : SwapRun swapMiddle := by
  have h : (MSB.new swapA.view).stepFlow [(.lc, (0, 2)), (.lr, (0, 2))] ≠ none := by decide
  unfold swapMiddle afterEvents
  cases hh : (MSB.new swapA.view).stepFlow [(.lc, (0, 2)), (.lr, (0, 2))] with
  | none => exact absurd hh h
  | some w =>
    obtain ⟨s, b⟩ := w
    exact swapRun_stepFlow (.new (by unfold Numbered; decide)) hh

theorem swapMiddle_explains : swapMiddle.state = .playing ∧ ExplainsShown swapMiddle swapB.view ∧ ExplainsShown swapMiddle swapD.view :=
  ⟨by decide, ⟨by unfold Numbered; decide, by decide, by decide, by decide, by decide⟩,
    ⟨by unfold Numbered; decide, by decide, by decide, by decide, by decide⟩⟩

/-- **C80** the game may be declared won although a safe cell is covered, and although a mine was opened -/
theorem C80_false_win :
    (∃ s : MSB, SwapRun s ∧ s.state = .win ∧ ∃ p ∈ vcells s.board, val s.board p ≠ -1 ∧ shown s.gameBoard p = 10) ∧
    ∃ s : MSB, SwapRun s ∧ s.state = .win ∧ ∃ p ∈ vcells s.board, val s.board p = -1 ∧ shown s.gameBoard p = 15 := by
  have run : ∀ (v : View) (ops : List (Ev × Pos)) (P : MSB → Prop), ExplainsShown swapMiddle v →
      (∃ w, ({ swapMiddle with board := v } : MSB).stepFlow ops = some w ∧ P w.1) → ∃ s, SwapRun s ∧ P s := by
    rintro v ops P hv ⟨⟨s, b⟩, h1, h2⟩
    exact ⟨s, swapRun_stepFlow (.swap swapMiddle_run swapMiddle_explains.1 hv) h1, h2⟩
  have get : ∀ (o : Option (MSB × Bool)) (P : MSB → Bool), o.any (fun w => P w.1) = true → ∃ w, o = some w ∧ P w.1 = true := by
    intro o P h
    cases o with
    | none => simp at h
    | some w => exact ⟨w, rfl, h⟩
  constructor
  · refine run swapB.view [(.lc, (1, 5)), (.lr, (1, 5))] _ swapMiddle_explains.2.1 ?_
    obtain ⟨w, h1, h2⟩ := get (({ swapMiddle with board := swapB.view } : MSB).stepFlow [(.lc, (1, 5)), (.lr, (1, 5))])
      (fun s => decide (s.state = .win ∧ (0, 0) ∈ vcells s.board ∧ val s.board (0, 0) ≠ -1 ∧ shown s.gameBoard (0, 0) = 10)) (by decide)
    have h3 := of_decide_eq_true h2
    exact ⟨w, h1, h3.1, (0, 0), h3.2.1, h3.2.2⟩
  · refine run swapD.view [(.rc, (0, 0)), (.rr, (0, 0)), (.lc, (0, 1)), (.rc, (0, 1)), (.lr, (0, 1)), (.rr, (0, 1))] _ swapMiddle_explains.2.2 ?_
    obtain ⟨w, h1, h2⟩ := get (({ swapMiddle with board := swapD.view } : MSB).stepFlow [(.rc, (0, 0)), (.rr, (0, 0)), (.lc, (0, 1)), (.rc, (0, 1)), (.lr, (0, 1)), (.rr, (0, 1))])
      (fun s => decide (s.state = .win ∧ (1, 0) ∈ vcells s.board ∧ val s.board (1, 0) = -1 ∧ shown s.gameBoard (1, 0) = 15)) (by decide)
    have h3 := of_decide_eq_true h2
    exact ⟨w, h1, h3.1, (1, 0), h3.2.1, h3.2.2⟩

/-- the invariant when the mines at the beginning stay -/
theorem frontRun_inv {s : MSB} (h : FrontRun s) : s.GInv := by
  induction h with
  | new hv => exact MSB.new_inv hv
  | step _ hs ih => exact (MSB.step_eff hs).inv ih
  | reset _ h0 _ => exact MSB.reset_inv h0
  | load _ hst hv h1 h2 ih => exact MSB.load_inv ih hst hv h1 h2
  | @swap s v _ hst hv hk ih =>
    have hvc : vcells s.board = grid s.row s.column := ih.core.vcells
    refine MSB.swap_inv (x := s.pointerX) (y := s.pointerY) ih hst hv ih.core.ptrRow fun p hp hb => ?_
    have hrng := ih.core.bd_range hp
    rcases ih.core.ptr p hp hb with h1 | h1
    · left
      refine (Finset.mem_filter.mp (hk p (Finset.mem_filter.mpr ⟨hvc ▸ hp, h1⟩) fun q hq hqm hqc hqb => ?_)).2
      have hq' : q ∈ grid s.row s.column := hvc ▸ hq
      have hqr := ih.core.bd_range hq'
      have hqb' : RBefore q (s.pointerX, s.pointerY) := by
        unfold RBefore ReadBefore at *
        simp only at *
        omega
      rcases ih.core.ptr q hq' hqb' with h2 | h2
      · exact hqm h2
      · have h3 : shown s.gameBoard q = s.gb q := rfl
        omega
    · by_cases hm : s.bd p = -1
      · have h15 : s.gb p = -1 := by omega
        have := ih.core.marks p hp
        simp only [hst, reduceCtorEq, false_and, or_false] at this
        omega
      · right
        have h3 : shown s.gameBoard p = s.gb p := rfl
        rw [hv.same p (hvc ▸ hp) (by omega), h3]

/-- **C80** If the boards given during the game keep the mines that have no covered safe cell before them in reading order,
the game is won exactly when every safe cell is open, and lost exactly when an opened mine is shown. -/
theorem C80_front (s : MSB) (h : FrontRun s) (hsafe : ∃ p ∈ vcells s.board, val s.board p ≠ -1) :
    (s.state = .win ↔ ∀ p ∈ vcells s.board, val s.board p ≠ -1 → shown s.gameBoard p = val s.board p) ∧
    (s.state = .loss ↔ ∃ p ∈ vcells s.board, shown s.gameBoard p = 15) := by
  have hi := frontRun_inv h
  rw [hi.core.vcells] at *
  refine ⟨⟨fun hw => hi.win hw, fun hall => ?_⟩, fun hl => hi.loss hl, ?_⟩
  · have hcov : s.state = .ready ∨ s.state = .preFlaging → False := by
      intro hst
      obtain ⟨p, hp, hpm⟩ := hsafe
      have h1 := (hi.pre hst).1 p hp
      have h2 := hall p hp hpm
      have h3 := hi.core.bd_range hp
      rw [MSB.gb_bval, ← shown_eq] at h1
      rw [MSB.bd_val] at h3
      omega
    cases hst : s.state with
    | ready => exact (hcov (.inl hst)).elim
    | preFlaging => exact (hcov (.inr hst)).elim
    | playing =>
      obtain ⟨p, hp, h1, h2⟩ := hi.playing hst
      exact absurd (hall p hp h1) h2
    | loss =>
      obtain ⟨p, hp, h1, h2⟩ := hi.lossOpen hst hsafe
      exact absurd (hall p hp h1) h2
    | win => rfl
    | display => exact absurd hst hi.nd
  · rintro ⟨p, hp, h15⟩
    have hm := hi.core.marks p hp
    have hb := hi.core.bd_range hp
    rw [shown_eq, ← MSB.gb_bval] at h15
    rcases hm with h | h | h | h
    · omega
    · omega
    · omega
    · exact h.1

/-- the right mine of `swapA` may be moved while the left one stays: no covered safe cell is then before it … -/
example : ExplainsShown { swapMiddle with board := swapC.view } swapA.view ∧
    KeepsFront { swapMiddle with board := swapC.view } swapA.view := by
  refine ⟨⟨by unfold Numbered; decide, by decide, by decide, by decide, by decide⟩, by unfold KeepsFront ReadBefore; decide⟩

/-- … but the left mine may not -/
example : ¬ KeepsFront swapMiddle swapB.view := by unfold KeepsFront ReadBefore; decide

end Ms.Properties
