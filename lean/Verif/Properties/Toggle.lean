import Verif.SpecToggle
import Verif.Properties.Hand
import Verif.Lemmas.GameWait

/-! # C79: the event names `l`, `r`, `m`, `cc`, `crl`, `crr` -/

namespace Ms.Properties
open Ms Ms.Spec

/-- **C79 (partial, one event)** during the game each of these names does exactly what the event it stands for does (result,
counters, board, panics), on every board.  The one exception is left out here: `r` outside the board with both buttons up
(`C79_r_outside`). -/
theorem C79_stands_for_partial {s : MSB} {b : Buttons} (hst : s.state = .playing) (hm : Agrees s.mouse b) {e e' : Ev} {p : Pos}
    (he : StandsFor b s.middleHold e e') (hp : e = .r → b = released → p.1 < s.row ∧ p.2 < s.column) :
    s.step e p = s.step e' p := by
  unfold MSB.step
  simp only [hst]
  unfold MSB.stepPlaying
  generalize hmh : s.middleHold = mh at he
  cases he <;> cases hmo : s.mouse <;> simp only [hmo, Agrees, Buttons.mk.injEq, reduceCtorEq, and_false, false_and] at hm ⊢
  all_goals simp_all [MSB.inRange]

/-- **C79 (partial, refused)** during the game `cc`, `crl` and `crr` are refused, with nothing changed, when they stand for
nothing: `cc` with both buttons up or both down, `crl` and `crr` with a button up. -/
theorem C79_refused_partial {s : MSB} {b : Buttons} (hst : s.state = .playing) (hm : Agrees s.mouse b) {e : Ev}
    (he : e = .cc ∨ e = .crl ∨ e = .crr) (hn : ∀ e', ¬ StandsFor b s.middleHold e e') (p : Pos) : s.step e p = some (s, none) := by
  unfold MSB.step
  simp only [hst]
  unfold MSB.stepPlaying
  rcases he with rfl | rfl | rfl <;> cases hmo : s.mouse <;> simp only [hmo, Agrees] at hm ⊢
  all_goals subst hm
  all_goals first
    | exact absurd .cc_left (hn _)
    | exact absurd .cc_right (hn _)
    | exact absurd .crl (hn _)
    | exact absurd .crr (hn _)

/-- the hypotheses of the two theorems are met: both buttons down in a running game, and both up -/
example : ∃ s : MSB, Reach s ∧ s.state = .playing ∧ Agrees s.mouse ⟨true, true⟩ ∧ StandsFor ⟨true, true⟩ s.middleHold .crl .lr ∧
    ∀ e', ¬ StandsFor ⟨true, true⟩ s.middleHold .cc e' := by
  obtain ⟨s, h1, h2⟩ := C69_flow_partial gameSample_numbered
    (ops := [(.lc, (0, 0)), (.lr, (0, 0)), (.lc, (0, 0)), (.rc, (0, 0))]) (b := ⟨true, true⟩)
    (.cons .lc <| .cons .lr <| .cons .lc <| .cons .rc .nil) (by decide +kernel)
  have h3 : ((MSB.new gameSample.view).pyStepFlow [(.lc, (0, 0)), (.lr, (0, 0)), (.lc, (0, 0)), (.rc, (0, 0))]).map
      (fun s => s.state) = some .playing := by decide +kernel
  rw [h1] at h3
  have h4 : s.state = .playing := by simpa using h3
  refine ⟨s, ?_, h4, h2 (.inr (.inr h4)), .crl, ?_⟩
  · unfold MSB.pyStepFlow at h1
    split at h1
    · rename_i s' hs
      simp only [Option.some.injEq] at h1
      subst h1
      exact reach_stepFlow (.new gameSample_numbered) hs
    · simp at h1
  · generalize s.middleHold = m
    intro e' h
    cases h

/-- **C79 (refuted, first)** during the game with both buttons up, `r` outside the board panics; the press of the right button
there is accepted. -/
theorem C79_r_outside {s : MSB} (hst : s.state = .playing) (hm : s.mouse = .upUp) {p : Pos} (hp : ¬ (p.1 < s.row ∧ p.2 < s.column)) :
    s.step .r p = none ∧ s.step .rc p = some ({ s with mouse := .upDownNotFlag }, some 0) := by
  have h : s.inRange p = false := by
    rw [← Bool.not_eq_true]
    simpa [MSB.inRange] using hp
  unfold MSB.step
  simp only [hst]
  unfold MSB.stepPlaying
  simp [hm, h, hst]

/-- **C79 (refuted, second)** before the game every one of these names but `cc` is refused, as are the press and the release of
the middle button, with nothing changed: a game recorded with `l` and `r` never starts. -/
theorem C79_before {s : MSB} (hst : s.state = .ready ∨ s.state = .preFlaging) {e : Ev}
    (he : e ∈ [Ev.l, .r, .m, .crl, .crr, .mc, .mr]) (p : Pos) : s.step e p = some (s, none) := by
  unfold MSB.step
  simp only [List.mem_cons, List.not_mem_nil, or_false] at he
  rcases hst with hst | hst <;> rcases he with rfl | rfl | rfl | rfl | rfl | rfl | rfl <;>
    simp [hst, MSB.stepReady, MSB.stepPreFlaging]

/-- **C79 (partial, `cc` before the game)** before the game `cc` is accepted exactly if one of the two buttons is down; then both
are shown as down and nothing else changes, except that a left press on the board that would have started the game, without any
flag, is taken back.  `Undefined` is no state of a hand. -/
theorem C79_cc_before_partial {s : MSB} {b : Buttons} (hst : s.state = .ready ∨ s.state = .preFlaging) (hm : Agrees s.mouse b)
    (p : Pos) :
    (b.left = b.right → s.step .cc p = some (s, none)) ∧
    (b.left ≠ b.right → ∃ m, Agrees m ⟨true, true⟩ ∧ (m = .chordingNotFlag ↔ s.mouse = .upDownNotFlag) ∧
      s.step .cc p = some ({ s with mouse := m, state :=
        if s.state = .preFlaging ∧ s.mouse = .downUp ∧ s.preFlagNum = 0 ∧ p.1 < s.row ∧ p.2 < s.column then .ready else s.state },
        some 0)) := by
  unfold MSB.step
  rcases hst with hst | hst <;> simp only [hst, MSB.stepReady, MSB.stepPreFlaging, MSB.ok0] <;> cases hmo : s.mouse <;>
    simp only [hmo, Agrees] at hm <;> subst hm <;> simp only
  all_goals refine ⟨by simp, fun h => ?_⟩
  all_goals first
    | (simp at h; done)
    | (refine ⟨.chording, rfl, by simp, ?_⟩
       simp
       done)
    | (refine ⟨.chordingNotFlag, rfl, by simp, ?_⟩
       simp
       done)
    | skip
  refine ⟨.chording, rfl, by simp, ?_⟩
  by_cases h1 : s.inRange p = true ∧ s.preFlagNum = 0
  · have := h1.1
    simp only [MSB.inRange, Bool.and_eq_true, decide_eq_true_eq] at this
    simp [h1, this]
  · rw [if_neg h1, if_neg]
    · simp [hst]
    · simp only [MSB.inRange, Bool.and_eq_true, decide_eq_true_eq] at h1
      tauto

/-- a step of a hand with three buttons in a running game -/
theorem hand3_step {s s' : MSB} {b b' : Buttons} {m' : Bool} {e : Ev} {p : Pos} {a : Option Nat} (hr : Reach s)
    (hst : s.state = .playing) (hm : Agrees s.mouse b) (hb : Hand3 b s.middleHold e b' m') (h : s.step e p = some (s', a)) :
    a ≠ none ∧ (s'.state = .playing → Agrees s'.mouse b' ∧ s'.middleHold = m') := by
  generalize hmh : s.middleHold = mh at hb
  cases hb with
  | two hb =>
    have h1 := hand_step hr (fun _ => hm) hb h
    refine ⟨fun ha => ?_, fun h2 => ⟨h1.2 (fun ha => ?_) (.inr (.inr h2)), ?_⟩⟩
    · have := (h1.1.mp ha).1
      rw [hst] at this; simp at this
    · have := (h1.1.mp ha).1
      rw [hst] at this; simp at this
    · have h3 : s.stepPlaying e p = some (s', a) := by
        unfold MSB.step at h
        simpa only [hst] using h
      rw [← hmh]
      exact MSB.stepPlaying_middle (by cases hb <;> simp) h3
  | mc =>
    unfold MSB.step at h
    simp only [hst, MSB.stepPlaying, Option.some.injEq, Prod.mk.injEq] at h
    obtain ⟨rfl, rfl⟩ := h
    exact ⟨by simp, fun _ => ⟨hm, rfl⟩⟩
  | mr =>
    unfold MSB.step at h
    simp only [hst, MSB.stepPlaying] at h
    have h1 := MSB.chordingClick_mouse h
    have h2 := MSB.chordingClick_middle h
    exact ⟨h1.2.1, fun _ => ⟨by rw [h1.1]; exact hm, h2⟩⟩

/-- **C79 (partial, whole sequences)** a running game on any board, and any sequence of events of a hand on a mouse with three
buttons in which some events are called by these names: `step_flow` does exactly what it does with the plain names, up to the
end of the game and beyond (same result, same panics), if no `r` is outside the board. -/
theorem C79_flow_partial {s : MSB} {b : Buttons} (hr : Reach s) (hst : s.state = .playing) (hm : Agrees s.mouse b)
    {ops ops' : List (Ev × Pos)} (h : Reads b s.middleHold ops ops')
    (hp : ∀ op ∈ ops, op.1 = .r → op.2 ∈ vcells s.board) : s.stepFlow ops = s.stepFlow ops' := by
  generalize hmh : s.middleHold = m at h
  induction h generalizing s with
  | nil => rfl
  | @same b b' m m' e p l l' h1 _ ih =>
    unfold MSB.stepFlow
    simp only
    cases hs : s.step e p with
    | none => rfl
    | some x =>
      obtain ⟨s', a⟩ := x
      subst hmh
      have h2 := hand3_step hr hst hm h1 hs
      cases a with
      | none => rfl
      | some k =>
        simp only
        by_cases h3 : s'.state = .playing
        · have h4 := h2.2 h3
          refine ih (.step hr hs) h3 h4.1 (fun op hop he => ?_) h4.2
          rw [((MSB.step_eff hs).frame hr.inv).1]
          exact hp op (List.mem_cons_of_mem _ hop) he
        · have h4 : s'.state = .win ∨ s'.state = .loss := by
            have := (MSB.step_state hr.inv hs).2.1 hst
            tauto
          rw [C15_terminal_frozen_flow _ _ h4, C15_terminal_frozen_flow _ _ h4]
  | @name b b' m m' e e' p l l' h0 h1 _ ih =>
    subst hmh
    have he : s.step e p = s.step e' p := by
      refine C79_stands_for_partial hst hm h0 fun h5 _ => ?_
      have := hp _ List.mem_cons_self h5
      rw [hr.inv.core.vcells] at this
      simpa [grid] using this
    unfold MSB.stepFlow
    simp only [he]
    cases hs : s.step e' p with
    | none => rfl
    | some x =>
      obtain ⟨s', a⟩ := x
      have h2 := hand3_step hr hst hm h1 hs
      cases a with
      | none => rfl
      | some k =>
        simp only
        by_cases h3 : s'.state = .playing
        · have h4 := h2.2 h3
          refine ih (.step hr hs) h3 h4.1 (fun op hop he => ?_) h4.2
          rw [((MSB.step_eff hs).frame hr.inv).1]
          exact hp op (List.mem_cons_of_mem _ hop) he
        · have h4 : s'.state = .win ∨ s'.state = .loss := by
            have := (MSB.step_state hr.inv hs).2.1 hst
            tauto
          rw [C15_terminal_frozen_flow _ _ h4, C15_terminal_frozen_flow _ _ h4]

/-- a sequence with these names: a flag, a chord let go in both ways, a chord with the middle button -/
def toggleSample : List (Ev × Pos) :=
  [(.r, (1, 2)), (.l, (0, 0)), (.crr, (0, 1)), (.l, (3, 4)), (.r, (0, 0)), (.cc, (0, 0)), (.crl, (0, 1)), (.r, (0, 1)),
   (.m, (0, 1)), (.m, (0, 1)), (.l, (2, 3)), (.mv, (2, 3)), (.l, (2, 3))]

/-- what it stands for -/
def toggleMeaning : List (Ev × Pos) :=
  [(.rc, (1, 2)), (.lc, (0, 0)), (.rr, (0, 1)), (.lr, (3, 4)), (.rc, (0, 0)), (.lc, (0, 0)), (.lr, (0, 1)), (.rr, (0, 1)),
   (.mc, (0, 1)), (.mr, (0, 1)), (.lc, (2, 3)), (.mv, (2, 3)), (.lr, (2, 3))]

example : Reads released false toggleSample toggleMeaning :=
  .name .r_press (.two .rc) <| .name .l_press (.two .lc) <| .name .crr (.two .rr) <| .name .l_release (.two .lr) <|
    .name .r_press (.two .rc) <| .name .cc_left (.two .lc) <| .name .crl (.two .lr) <| .name .r_release (.two .rr) <|
    .name .m_press .mc <| .name .m_release .mr <| .name .l_press (.two .lc) <| .same (.two .mv) <|
    .name .l_release (.two .lr) .nil

/-- in a game just started the sequence is accepted -/
example : ((MSB.new gameSample.view).pyStepFlow ([(.lc, (0, 0)), (.lr, (0, 0))] ++ toggleSample)).map
    (fun s => (s.state, s.left, s.right, s.double)) = some (.playing, 2, 1, 3) := by decide +kernel

end Ms.Properties
