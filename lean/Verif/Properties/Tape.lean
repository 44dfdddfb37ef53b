import Verif.SpecTape
import Verif.Lemmas.GameTwin
import Verif.Properties.Swap

/-!
# Property C82: replaying a game in which the board was replaced

A recorded game (`BaseVideo`) keeps the events and, after `set_board`, only the last board (videos/base_video.rs `set_board`
assigns `minesweeper_board.board`; the file is written from that board).  Reading the file back plays the events on that last
board.
-/

namespace Ms.Properties
open Spec

theorem played_inv {tape : List Seen} {s : MSB} (h : Played tape s) : FrontRun s := by
  induction h with
  | new hv => exact .new hv
  | step _ hs ih => exact .step ih hs
  | refused _ hs ih => exact .step ih hs
  | load _ h1 h2 h3 h4 ih => exact .load ih h1 h2 h3 h4
  | swap _ h1 h2 h3 ih => exact .swap ih h1 h2 h3

theorem step_stuck {s s' : MSB} {e : Ev} {p : Pos} {r : Option Nat} (hs : s.step e p = some (s', r)) (h : s.state = .loss ∨ s.state = .win) :
    s' = s := by
  rw [C15_terminal_frozen s e p h.symm] at hs
  simp only [Option.some.injEq, Prod.mk.injEq] at hs
  exact hs.1.symm

theorem Replays.snoc {s t u : MSB} {x : Seen} : ∀ {tape : List Seen}, Replays s tape t → t.step x.ev x.pos = some (u, some x.level) →
    sight u = x.after → Replays s (tape ++ [x]) u
  | [], h, h1, h2 => by
    obtain rfl : t = s := h
    exact ⟨u, h1, h2, rfl⟩
  | _ :: _, ⟨s1, a, b, h⟩, h1, h2 => ⟨s1, a, b, Replays.snoc h h1 h2⟩

theorem replays_inv {s t : MSB} (hs : s.GInv) : ∀ {tape : List Seen}, Replays s tape t → t.GInv
  | [], h => by obtain rfl : t = s := h; exact hs
  | _ :: _, ⟨_, a, _, h⟩ => replays_inv ((MSB.step_eff a).inv hs) h

/-- a board that fits the game -/
structure Suits (s : MSB) (v : View) : Prop where
  num : Numbered v
  row : v.row = s.row
  col : v.col = s.column
  final : MSB.Final2 v s
  count : s.state = .playing ∨ s.state = .win → (mines v).card = (mines s.board).card

theorem suits_back {s s' : MSB} {v : View} {e : Ev} {p : Pos} {r : Option Nat} (hi : s.GInv) (hs : s.step e p = some (s', r))
    (h : Suits s' v) : Suits s v := by
  have he := MSB.step_eff hs
  have hi' := he.inv hi
  obtain ⟨f1, f2, f3⟩ := he.frame hi
  have hlow : s.state ≠ .loss → ∀ q ∈ grid s.row s.column, s.gb q < 12 := by
    intro hl q hq
    have h1 := hi.core.marks q hq
    have h2 := hi.core.bd_range hq
    simp only [hl, false_and, or_false] at h1
    omega
  have hlost : s'.state = .loss → v = s.board := by
    intro hl
    obtain ⟨q, hq, h15⟩ := hi'.loss hl
    rcases h.final with h1 | h1
    · rw [h1, f1]
    · have := h1.1 q hq
      omega
  refine ⟨h.num, h.row.trans f2, h.col.trans f3, ?_, ?_⟩
  · by_cases hb : v = s.board
    · exact .inl hb
    have hagree : ∀ q ∈ grid s'.row s'.column, s'.gb q < 10 → val v q = s'.bd q := by
      rcases h.final with h1 | h1
      · exact absurd (h1.trans f1) hb
      · exact h1.2
    have hnl : s'.state ≠ .loss := fun hl => hb (hlost hl)
    have hbd : ∀ q, s'.bd q = s.bd q := fun q => by rw [MSB.bd_val, MSB.bd_val, f1]
    rw [f2, f3] at hagree
    cases hst : s.state with
    | ready => exact .inr ⟨hlow (by rw [hst]; decide), fun q hq hlt => absurd hlt (by have := hi.covered (.inl hst) q hq; omega)⟩
    | preFlaging => exact .inr ⟨hlow (by rw [hst]; decide), fun q hq hlt => absurd hlt (by have := hi.covered (.inr hst) q hq; omega)⟩
    | playing =>
      refine .inr ⟨hlow (by rw [hst]; decide), fun q hq hlt => ?_⟩
      rw [← hbd]
      refine hagree q hq ?_
      have hl := he.level hi hst
      have hgb : s'.gameBoard = s.gameBoard → s'.gb q < 10 := fun e => by unfold MSB.gb; rw [e]; exact hlt
      match r, hl with
      | none, hl => exact hgb hl
      | some 0, hl => exact hl.elim hgb fun h => absurd h hnl
      | some 1, hl =>
        by_cases hqp : q = p
        · subst hqp
          rcases hl.1 with h | h <;> omega
        · rw [hl.2 q hqp]; exact hlt
      | some 2, hl =>
        rcases hl.2.2.2 q hq with h | h
        · rw [h]; exact hlt
        · omega
      | some 3, hl =>
        rcases hl.2 hnl q hq with h | h
        · rw [h]; exact hlt
        · omega
    | loss =>
      have : s' = s := step_stuck hs (.inl hst)
      rw [this] at hnl
      exact absurd hst hnl
    | win =>
      have : s' = s := step_stuck hs (.inr hst)
      rw [← this]; exact h.final
    | display => exact absurd hst hi.nd
  · intro hst
    rcases hst with hst | hst
    · rcases (MSB.step_state hi hs).2.1 hst with h1 | h1 | h1
      · rw [h.count (.inl h1), f1]
      · rw [hlost h1]
      · rw [h.count (.inr h1), f1]
    · have : s' = s := step_stuck hs (.inr hst)
      rw [← this]; exact h.count (.inr (by rw [this]; exact hst))

/-- the replay on any board that fits -/
theorem played_replays {tape : List Seen} {s : MSB} (h : Played tape s) :
    ∀ v, Suits s v → ∃ t, Replays (MSB.new v) tape t ∧ MSB.Same2 v s t ∧ t.state = s.state := by
  have wrap : ∀ {v v0 : View} {s : MSB} {tape : List Seen}, (∃ t, Replays (MSB.new v) tape t ∧ MSB.Same2 v s t ∧ t.state = s.state) →
      ∃ t, Replays (MSB.new v) tape t ∧ MSB.Same2 v { s with board := v0 } t ∧ t.state = ({ s with board := v0 } : MSB).state := by
    rintro v v0 s tape ⟨t, e1, e2, e3⟩
    exact ⟨t, e1, ⟨e2.board, e2.gameBoard, e2.left, e2.right, e2.double, e2.flag, e2.row, e2.column, e2.mouse, e2.preFlagNum, e2.middleHold⟩, e3⟩
  induction h with
  | @new v0 hv0 =>
    intro v hv
    refine ⟨MSB.new v, rfl, ⟨rfl, ?_, rfl, rfl, rfl, rfl, hv.row, hv.col, rfl, rfl, rfl⟩, rfl⟩
    show Board.build v.row v.col _ = Board.build v0.row v0.col _
    rw [hv.row, hv.col]; rfl
  | @step tape s s' e p k hp hs ih =>
    intro v hv
    have hi := frontRun_inv (played_inv hp)
    obtain ⟨t, h1, h2, h3⟩ := ih v (suits_back hi hs hv)
    have ht := replays_inv (MSB.new_inv hv.num) h1
    obtain ⟨t', e1, e2, e3⟩ := MSB.step_same hi ht h2 h3 e p s' (some k) hs hv.final
    have hst := MSB.sn_eq ((MSB.step_eff hs).inv hi) ((MSB.step_eff e1).inv ht) e2 e3 hv.count
    refine ⟨t', Replays.snoc h1 e1 ?_, e2, hst⟩
    unfold sight
    rw [e2.gameBoard, hst, e2.mouse, e2.left, e2.right, e2.double, e2.flag]
  | @refused tape s s' e p hp hs ih =>
    intro v hv
    obtain rfl := MSB.step_err (frontRun_inv (played_inv hp)) hs
    exact ih v hv
  | @load tape s v0 hp hst hv0 h1 h2 ih =>
    intro v hv
    have hi := frontRun_inv (played_inv hp)
    have hsu : Suits s v → _ := ih v
    refine wrap (hsu ⟨hv.num, hv.row, hv.col, .inr ⟨fun q hq => ?_, fun q hq hlt => ?_⟩, fun hh => ?_⟩)
    · have := (hi.pre hst).1 q hq
      omega
    · have := hi.covered hst q hq
      omega
    · rcases hst with hst | hst <;> simp [hst] at hh
  | @swap tape s v0 hp hst hv0 hk ih =>
    intro v hv
    have hi := frontRun_inv (played_inv hp)
    have hvc := hi.core.vcells
    have hm : ∀ q ∈ grid s.row s.column, s.gb q = 10 ∨ s.gb q = 11 ∨ s.gb q = s.bd q ∧ s.bd q ≠ -1 := fun q hq => by
      have := hi.core.marks q hq
      simpa only [hst, reduceCtorEq, false_and, or_false] using this
    have hshow : ∀ q ∈ grid s.row s.column, s.gb q < 10 → val v0 q = s.bd q := by
      intro q hq hlt
      have h1 := hv0.same q (hvc ▸ hq) hlt
      have h2 : shown s.gameBoard q = s.gb q := rfl
      have h3 := hm q hq
      omega
    have hsu : Suits s v → _ := ih v
    refine wrap (hsu ⟨hv.num, hv.row, hv.col, .inr ⟨fun q hq => ?_, fun q hq hlt => ?_⟩, fun _ => ?_⟩)
    · have h1 := hm q hq
      have h2 := hi.core.bd_range hq
      omega
    · rcases hv.final with h1 | h1
      · have h1 : v = v0 := h1
        rw [h1]; exact hshow q hq hlt
      · have h2 : val v q = val v0 q := h1.2 q hq hlt
        rw [h2]; exact hshow q hq hlt
    · have h1 : (mines v).card = (mines v0).card := hv.count (.inl hst)
      rw [h1, hv0.count]

/-- **C82 (part)** A recorded game, in which the board was replaced any number of times, replays on the board it ended with, and on
every other board that explains what is shown at the end: a new game on that board accepts every recorded event, answers each with the
recorded level and shows each time what was seen - the board, the state of the game and of the mouse, the click counters and the number
of flags. -/
theorem C82_replay_partial (tape : List Seen) (s : MSB) (h : Played tape s) (v : View)
    (hv : v = s.board ∨ s.state = .playing ∧ ExplainsShown s v) :
    ∃ t, Replays (MSB.new v) tape t ∧ sight t = sight s := by
  have hi := frontRun_inv (played_inv h)
  have hsuit : Suits s v := by
    rcases hv with rfl | ⟨hst, hv⟩
    · exact ⟨hi.core.num, hi.core.hrow, hi.core.hcol, .inl rfl, fun _ => rfl⟩
    · refine ⟨hv.numbered, hv.row.trans hi.core.hrow, hv.col.trans hi.core.hcol, .inr ⟨fun q hq => ?_, fun q hq hlt => ?_⟩, fun _ => hv.count⟩
      all_goals
        have h1 := hi.core.marks q hq
        have h2 := hi.core.bd_range hq
        simp only [hst, reduceCtorEq, false_and, or_false] at h1
      · omega
      · have h3 := hv.same q (hi.core.vcells ▸ hq) hlt
        have h4 : shown s.gameBoard q = s.gb q := rfl
        omega
  obtain ⟨t, h1, h2, h3⟩ := played_replays h v hsuit
  refine ⟨t, h1, ?_⟩
  unfold sight
  rw [h2.gameBoard, h3, h2.mouse, h2.left, h2.right, h2.double, h2.flag]

/-- play some events, recording them -/
def tapeOf (s : MSB) : List (Ev × Pos) → Option (List Seen × MSB)
  | [] => some ([], s)
  | op :: ops =>
    match s.step op.1 op.2 with
    | none => none
    | some (s', none) => tapeOf s' ops
    | some (s', some k) => (tapeOf s' ops).map fun w => (⟨op.1, op.2, k, sight s'⟩ :: w.1, w.2)

theorem played_tapeOf {ops : List (Ev × Pos)} : ∀ {s s' : MSB} {tape new : List Seen}, Played tape s → tapeOf s ops = some (new, s') →
    Played (tape ++ new) s' := by
  induction ops with
  | nil =>
    intro s s' tape new h e
    simp only [tapeOf, Option.some.injEq, Prod.mk.injEq] at e
    obtain ⟨rfl, rfl⟩ := e
    rw [List.append_nil]; exact h
  | cons op ops ih =>
    intro s s' tape new h e
    unfold tapeOf at e
    split at e
    · simp at e
    · next s1 e1 => exact ih (.refused h e1) e
    · next s1 k e1 =>
      rw [Option.map_eq_some_iff] at e
      obtain ⟨⟨w1, w2⟩, e2, e3⟩ := e
      simp only [Prod.mk.injEq] at e3
      obtain ⟨rfl, rfl⟩ := e3
      have := ih (.step h e1) e2
      rwa [List.append_assoc] at this

theorem replays_unique {s t t' : MSB} : ∀ {tape : List Seen}, Replays s tape t → Replays s tape t' → t = t'
  | [], h, h' => h.trans h'.symm
  | _ :: _, ⟨s1, a, _, h⟩, ⟨s2, a', _, h'⟩ => by
    rw [a] at a'
    simp only [Option.some.injEq, Prod.mk.injEq] at a'
    obtain ⟨rfl, -⟩ := a'
    exact replays_unique h h'

/-- the game on `b`, some events, another board, some more events -/
def swapGame (b b' : Board) (ops ops' : List (Ev × Pos)) : Option (List Seen × MSB × MSB) :=
  (tapeOf (MSB.new b.view) ops).bind fun w =>
    (tapeOf { w.2 with board := b'.view } ops').map fun w' => (w.1 ++ w'.1, w.2, w'.2)

theorem played_swapGame {b b' : Board} {ops ops' : List (Ev × Pos)} {tape : List Seen} {s s' : MSB}
    (h : swapGame b b' ops ops' = some (tape, s, s')) (hb : Numbered b.view) (hst : s.state = .playing)
    (h1 : ExplainsShown s b'.view) (h2 : KeepsFront s b'.view) : Played tape s' := by
  unfold swapGame at h
  rw [Option.bind_eq_some_iff] at h
  obtain ⟨⟨w1, w2⟩, e1, e2⟩ := h
  rw [Option.map_eq_some_iff] at e2
  obtain ⟨⟨w3, w4⟩, e2, e3⟩ := e2
  simp only [Prod.mk.injEq] at e3
  obtain ⟨rfl, rfl, rfl⟩ := e3
  exact played_tapeOf (.swap (played_tapeOf (.new hb) e1) hst h1 h2) e2

/-- replaying, as a function -/
def replayOn (s : MSB) : List Seen → Option MSB
  | [] => some s
  | x :: tape => match s.step x.ev x.pos with
    | some (s1, some k) => if k = x.level ∧ sight s1 = x.after then replayOn s1 tape else none
    | _ => none

theorem replayOn_some {s t : MSB} : ∀ {tape : List Seen}, Replays s tape t → replayOn s tape = some t
  | [], h => by obtain rfl : t = s := h; rfl
  | _ :: _, ⟨s1, a, b, h⟩ => by
    unfold replayOn
    rw [a]
    simp only [b, and_self, if_true]
    exact replayOn_some h

theorem replayOn_replays {s t : MSB} : ∀ {tape : List Seen}, replayOn s tape = some t → Replays s tape t
  | [], h => by simp only [replayOn, Option.some.injEq] at h; exact h.symm
  | x :: tape, h => by
    unfold replayOn at h
    split at h
    · next s1 k e =>
      split at h
      · next hk => exact ⟨s1, by rw [e, hk.1], hk.2, replayOn_replays h⟩
      · simp at h
    · simp at h

/-- two boards with two mines in one row that both explain the third cell -/
def tapeA : Board := [[1, -1, 1, 0, 1, -1]]
/-- the other one -/
def tapeB : Board := [[1, -1, 1, 1, -1, 1]]

/-- **C82** what the full claim also says is false: the number of effective clicks and the solved 3BV of the replay may differ from
those of the game, because both were counted on boards that are gone -/
theorem C82_counters_differ :
    (∃ (tape : List Seen) (s t : MSB), Played tape s ∧ Replays (MSB.new s.board) tape t ∧ s.state = .playing ∧ s.ce = 3 ∧ t.ce = 2) ∧
    ∃ (tape : List Seen) (s t : MSB), Played tape s ∧ Replays (MSB.new s.board) tape t ∧ s.state = .playing ∧ s.bbbvSolved = 1 ∧ t.bbbvSolved = 2 := by
  have get : ∀ (b b' : Board) (ops ops' : List (Ev × Pos)) (P : MSB → MSB → Bool), Numbered b.view → Numbered b'.view →
      (swapGame b b' ops ops').any (fun w : List Seen × MSB × MSB => decide (w.2.1.state = .playing) && decide (b'.view.row = w.2.1.board.row) &&
        decide (b'.view.col = w.2.1.board.col) && decide ((mines b'.view).card = (mines w.2.1.board).card) &&
        decide (∀ p ∈ vcells w.2.1.board, shown w.2.1.gameBoard p < 10 → val b'.view p = shown w.2.1.gameBoard p) &&
        decide (∀ q ∈ mines w.2.1.board, (∀ p ∈ vcells w.2.1.board, val w.2.1.board p ≠ -1 → 10 ≤ shown w.2.1.gameBoard p →
          ¬ (p.1 < q.1 ∨ p.1 = q.1 ∧ p.2 < q.2)) → q ∈ mines b'.view) &&
        (replayOn (MSB.new b'.view) w.1).any (fun t => P w.2.2 t)) = true →
      ∃ (tape : List Seen) (s t : MSB), Played tape s ∧ Replays (MSB.new s.board) tape t ∧ P s t = true := by
    intro b b' ops ops' P hb hb' h
    cases hg : swapGame b b' ops ops' with
    | none => rw [hg] at h; simp at h
    | some w =>
      rw [hg] at h
      obtain ⟨tape, s, s'⟩ := w
      simp only [Option.any_some, Bool.and_eq_true, decide_eq_true_eq] at h
      obtain ⟨⟨⟨⟨⟨⟨h1, h2⟩, h3⟩, h4⟩, h5⟩, h6⟩, h7⟩ := h
      have hpl := played_swapGame hg hb h1 ⟨hb', h2, h3, h4, h5⟩ h6
      obtain ⟨t, e1, e2⟩ : ∃ t, replayOn (MSB.new b'.view) tape = some t ∧ P s' t = true := by
        cases hr : replayOn (MSB.new b'.view) tape with
        | none => rw [hr] at h7; simp at h7
        | some t => rw [hr] at h7; exact ⟨t, rfl, h7⟩
      have hbd : s'.board = b'.view := by
        have : ∀ {ops : List (Ev × Pos)} {s s' : MSB} {l : List Seen}, s.GInv → tapeOf s ops = some (l, s') → s'.board = s.board := by
          intro ops
          induction ops with
          | nil =>
            intro s s' l _ e
            simp only [tapeOf, Option.some.injEq, Prod.mk.injEq] at e
            rw [e.2]
          | cons op ops ih =>
            intro s s' l hi e
            unfold tapeOf at e
            split at e
            · simp at e
            · next s1 e1 => rw [ih ((MSB.step_eff e1).inv hi) e, ((MSB.step_eff e1).frame hi).1]
            · next s1 k e1 =>
              rw [Option.map_eq_some_iff] at e
              obtain ⟨⟨w1, w2⟩, e2, e3⟩ := e
              simp only [Prod.mk.injEq] at e3
              obtain ⟨rfl, rfl⟩ := e3
              rw [ih ((MSB.step_eff e1).inv hi) e2, ((MSB.step_eff e1).frame hi).1]
        unfold swapGame at hg
        rw [Option.bind_eq_some_iff] at hg
        obtain ⟨⟨w1, w2⟩, g1, g2⟩ := hg
        rw [Option.map_eq_some_iff] at g2
        obtain ⟨⟨w3, w4⟩, g2, g3⟩ := g2
        simp only [Prod.mk.injEq] at g3
        obtain ⟨rfl, rfl, rfl⟩ := g3
        exact this (frontRun_inv (played_inv (.swap (played_tapeOf (.new hb) g1) h1 ⟨hb', h2, h3, h4, h5⟩ h6))) g2
      exact ⟨tape, s', t, hpl, by rw [hbd]; exact replayOn_replays e1, e2⟩
  constructor
  · obtain ⟨tape, s, t, h1, h2, h3⟩ := get swapC swapA [(.lc, (0, 2)), (.lr, (0, 2)), (.rc, (1, 5)), (.rr, (1, 5))] [(.lc, (1, 0)), (.lr, (1, 0))]
      (fun s t => decide (s.state = .playing ∧ s.ce = 3 ∧ t.ce = 2)) (by unfold Numbered; decide) (by unfold Numbered; decide) (by decide +kernel)
    exact ⟨tape, s, t, h1, h2, of_decide_eq_true h3⟩
  · obtain ⟨tape, s, t, h1, h2, h3⟩ := get tapeA tapeB [(.lc, (0, 2)), (.lr, (0, 2))] [(.lc, (0, 3)), (.lr, (0, 3))]
      (fun s t => decide (s.state = .playing ∧ s.bbbvSolved = 1 ∧ t.bbbvSolved = 2)) (by unfold Numbered; decide) (by unfold Numbered; decide) (by decide +kernel)
    exact ⟨tape, s, t, h1, h2, of_decide_eq_true h3⟩

end Ms.Properties
