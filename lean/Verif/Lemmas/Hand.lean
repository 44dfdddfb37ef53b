import Verif.SpecHand
import Verif.Lemmas.GameEff

/-! # A hand on the mouse: the machine follows the buttons -/

namespace Ms.MSB
open Spec

theorem checkWin_mouse (s : MSB) : s.checkWin.mouse = s.mouse := by
  unfold checkWin
  simp only
  split <;> rfl

theorem checkWin_or (s : MSB) : s.checkWin.state = s.state ∨ s.checkWin.state = .win := by
  unfold checkWin
  simp only
  split
  · exact .inr rfl
  · exact .inl rfl

theorem leftClick_mouse {s s' : MSB} {p : Pos} {a : Option Nat} (h : s.leftClick p = some (s', a)) :
    s'.mouse = s.mouse ∧ a ≠ none ∧ (s.state = .playing → s'.state ≠ .ready ∧ s'.state ≠ .preFlaging) := by
  unfold leftClick at h
  split at h
  · simp at h
  simp only at h
  split at h
  · simp only [Option.some.injEq, Prod.mk.injEq] at h
    obtain ⟨rfl, rfl⟩ := h
    simp +contextual
  split at h
  · rw [Option.bind_eq_some_iff] at h
    obtain ⟨r, -, h⟩ := h
    rw [Option.map_eq_some_iff] at h
    obtain ⟨g, -, h⟩ := h
    simp only [Prod.mk.injEq] at h
    obtain ⟨rfl, rfl⟩ := h
    refine ⟨?_, by simp, fun h => ?_⟩
    · rw [checkWin_mouse]; simp only; split <;> rfl
    · unfold checkWin
      simp only
      split <;> (split <;> simp [h])
  split at h
  · rw [Option.map_eq_some_iff] at h
    obtain ⟨g, -, h⟩ := h
    simp only [Prod.mk.injEq] at h
    obtain ⟨rfl, rfl⟩ := h
    simp
  · rw [Option.map_eq_some_iff] at h
    obtain ⟨g, -, h⟩ := h
    simp only [Prod.mk.injEq] at h
    obtain ⟨rfl, rfl⟩ := h
    refine ⟨?_, by simp, fun h => ?_⟩
    · rw [checkWin_mouse]; simp only; split <;> rfl
    · unfold checkWin
      simp only
      split <;> (split <;> simp [h])

theorem rightClick_mouse {s s' : MSB} {p : Pos} {a : Option Nat} (h : s.rightClick p = some (s', a)) (hg : s.gb p ≤ 11) :
    s'.mouse = s.mouse ∧ a ≠ none ∧ s'.state = s.state := by
  unfold rightClick at h
  split at h
  · simp at h
  simp only at h
  split at h
  · simp only [Option.some.injEq, Prod.mk.injEq] at h
    obtain ⟨rfl, rfl⟩ := h
    simp
  split at h
  · split at h
    · simp only [Option.some.injEq, Prod.mk.injEq] at h
      obtain ⟨rfl, rfl⟩ := h
      simp
    · simp only [Option.some.injEq, Prod.mk.injEq] at h
      obtain ⟨rfl, rfl⟩ := h
      simp only
      split <;> simp
  split at h
  · split at h
    · simp at h
    · simp only [Option.some.injEq, Prod.mk.injEq] at h
      obtain ⟨rfl, rfl⟩ := h
      simp
  · rename_i h1 h2 h3
    have : ∀ t : MSB, t.gameBoard = s.gameBoard → t.gb p = s.gb p := fun t ht => by unfold gb; rw [ht]
    have e := this { s with right := s.right + 1 } rfl
    rw [e] at h1 h2 h3
    omega

theorem chordingClick_mouse {s s' : MSB} {p : Pos} {a : Option Nat} (h : s.chordingClick p = some (s', a)) :
    s'.mouse = s.mouse ∧ a ≠ none ∧
      (s'.state = s.state ∨ (s'.state ≠ .ready ∧ s'.state ≠ .preFlaging ∧ s'.state ≠ .playing)) := by
  unfold chordingClick at h
  split at h
  · simp at h
  simp only at h
  split at h
  · simp only [Option.some.injEq, Prod.mk.injEq] at h
    obtain ⟨rfl, rfl⟩ := h
    simp
  split at h
  · rw [Option.bind_eq_some_iff] at h
    obtain ⟨r, -, h⟩ := h
    rw [Option.map_eq_some_iff] at h
    obtain ⟨g, -, h⟩ := h
    simp only [Prod.mk.injEq] at h
    obtain ⟨rfl, rfl⟩ := h
    refine ⟨by rw [checkWin_mouse], by simp, ?_⟩
    rcases checkWin_or _ with e | e
    · rw [e]
      simp only
      split
      · right; simp
      · left; rfl
    · rw [e]; right; simp
  · simp only [Option.some.injEq, Prod.mk.injEq] at h
    obtain ⟨rfl, rfl⟩ := h
    simp

/-- What is known of a machine driven by a hand. -/
structure Follows (s : MSB) (b : Buttons) : Prop where
  agrees : s.state = .ready ∨ s.state = .preFlaging ∨ s.state = .playing → Agrees s.mouse b
  ready : s.state = .ready → s.mouse ≠ .downUp

theorem gb_le {s : MSB} (h : s.Core) (hst : s.state ≠ .loss) {p : Pos} (hp : p ∈ grid s.row s.column) : s.gb p ≤ 11 := by
  have h1 := h.marks p hp
  have h2 := h.bd_range hp
  rcases h1 with h1 | h1 | h1 | ⟨h1, -⟩
  · omega
  · omega
  · omega
  · exact absurd h1 hst

theorem rightClick_grid {s s' : MSB} {p : Pos} {a : Option Nat} (h : s.rightClick p = some (s', a)) :
    p ∈ grid s.row s.column := by
  unfold rightClick at h
  split at h
  · simp at h
  · next hi => exact inRange_iff.mp (by simpa using hi)

section
variable {s s' : MSB} {b b' : Buttons} {e : Ev} {p : Pos} {a : Option Nat}

/-- outcome of an event a hand makes: not refused, and the machine still follows -/
def Good (s' : MSB) (b' : Buttons) (a : Option Nat) : Prop := a ≠ none ∧ Follows s' b'

theorem good_same {m : Mouse} {t : MSB} (hm : Agrees m b') (hr : t.state = .ready → m ≠ .downUp)
    (ht : t.mouse = m) : Follows t b' := ⟨fun _ => ht ▸ hm, fun h => ht ▸ hr h⟩

theorem good_some {t s' : MSB} {a a0 : Option Nat} (h : some (t, a0) = some (s', a)) (h0 : a0 ≠ none) (ht : Follows t b') :
    Good s' b' a := by
  simp only [Option.some.injEq, Prod.mk.injEq] at h
  obtain ⟨rfl, rfl⟩ := h
  exact ⟨h0, ht⟩

theorem good_left {t : MSB} (h : t.leftClick p = some (s', a)) (hm : Agrees t.mouse b') (hst : t.state = .playing) :
    Good s' b' a := by
  obtain ⟨h1, h2, h3⟩ := leftClick_mouse h
  exact ⟨h2, ⟨fun _ => h1 ▸ hm, fun h => absurd h (h3 hst).1⟩⟩

theorem good_chord {t : MSB} (h : t.chordingClick p = some (s', a)) (hm : Agrees t.mouse b') (hst : t.state ≠ .ready) :
    Good s' b' a := by
  obtain ⟨h1, h2, h3⟩ := chordingClick_mouse h
  refine ⟨h2, ⟨fun _ => h1 ▸ hm, fun h => ?_⟩⟩
  rcases h3 with h3 | h3
  · exact absurd (h3 ▸ h) hst
  · exact absurd h h3.1

theorem good_right {t : MSB} (h : t.rightClick p = some (s', a)) (hg : ∀ q ∈ grid t.row t.column, t.gb q ≤ 11)
    (hm : Agrees t.mouse b') (hst : t.state ≠ .ready) : Good s' b' a := by
  obtain ⟨h1, h2, h3⟩ := rightClick_mouse h (hg p (rightClick_grid h))
  exact ⟨h2, ⟨fun _ => h1 ▸ hm, fun h => absurd (h3 ▸ h) hst⟩⟩

theorem good_releaseLeft {t : MSB} (h : t.releaseLeft p = some (s', a)) (hm : Agrees t.mouse b') (hst : t.state = .playing) :
    Good s' b' a := by
  unfold releaseLeft at h
  split at h
  · exact good_some h (by simp) ⟨fun _ => hm, fun h => by rw [hst] at h; simp at h⟩
  · exact good_left h hm hst

theorem good_releaseChord {t : MSB} (h : t.releaseChord p = some (s', a)) (hm : Agrees t.mouse b') (hst : t.state ≠ .ready) :
    Good s' b' a := by
  unfold releaseChord at h
  split at h
  · exact good_some h (by simp) ⟨fun _ => hm, fun h => absurd h hst⟩
  · exact good_chord h hm hst

theorem good_releaseNotFlag {t : MSB} (h : t.releaseNotFlag p = some (s', a)) (hm : Agrees t.mouse b')
    (hst : t.state ≠ .ready) : Good s' b' a := by
  unfold releaseNotFlag at h
  split at h
  · simp at h
  simp only at h
  split at h
  · exact good_some h (by simp) ⟨fun _ => hm, fun h => absurd h hst⟩
  · exact good_chord h hm hst

/-- the part of `step` for a running game, reached while a game is running or (for the events that pass through) before it -/
theorem good_playing {t : MSB} (hb : HandMove b e b') (hm : Agrees t.mouse b) (hst : t.state ≠ .ready)
    (hl : t.state = .playing ∨ (t.state = .preFlaging ∧ e ≠ .rc ∧ (e = .lr → t.mouse ≠ .downUp)))
    (hg : ∀ q ∈ grid t.row t.column, t.gb q ≤ 11)
    (h : t.stepPlaying e p = some (s', a)) : Good s' b' a := by
  cases hb with
  | lc =>
    unfold stepPlaying at h
    cases hmo : t.mouse <;> simp only [hmo, Agrees, Buttons.mk.injEq] at h hm <;> simp_all only [Bool.false_eq_true, Bool.true_eq_false, false_and, and_false, reduceCtorEq]
    all_goals exact good_some h (by simp) ⟨fun _ => by simp [Agrees, hm], fun h => absurd h hst⟩
  | lr =>
    unfold stepPlaying at h
    cases hmo : t.mouse <;> simp only [hmo, Agrees, Buttons.mk.injEq] at h hm <;> simp_all only [Bool.false_eq_true, Bool.true_eq_false, false_and, and_false, reduceCtorEq]
    · refine good_releaseLeft h (by simp [Agrees, hm]) ?_
      rcases hl with hl | ⟨-, -, hl⟩
      · exact hl
      · simp at hl
    · exact good_releaseChord h (by simp [Agrees, hm]) hst
    · exact good_releaseNotFlag h (by simp [Agrees, hm]) hst
    · exact good_some h (by simp) ⟨fun _ => by simp [Agrees, hm], fun h => absurd h hst⟩
  | rc =>
    have hp : t.state = .playing := by
      rcases hl with hl | ⟨-, hl, -⟩
      · exact hl
      · simp at hl
    unfold stepPlaying at h
    cases hmo : t.mouse <;> simp only [hmo, Agrees, Buttons.mk.injEq] at h hm <;> simp_all only [Bool.false_eq_true, Bool.true_eq_false, false_and, and_false, reduceCtorEq]
    · split at h
      · split at h
        · exact good_right h hg (by simp [Agrees, hm]) (by simp [hp])
        · exact good_right h hg (by simp [Agrees, hm]) (by simp [hp])
      · exact good_some h (by simp) ⟨fun _ => by simp [Agrees, hm], fun h => by simp [hp] at h⟩
    all_goals exact good_some h (by simp) ⟨fun _ => by simp [Agrees, hm], fun h => by simp [hp] at h⟩
  | rr =>
    unfold stepPlaying at h
    cases hmo : t.mouse <;> simp only [hmo, Agrees, Buttons.mk.injEq] at h hm <;> simp_all only [Bool.false_eq_true, Bool.true_eq_false, false_and, and_false, reduceCtorEq]
    · exact good_some h (by simp) ⟨fun _ => by simp [Agrees, hm], fun h => absurd h hst⟩
    · exact good_some h (by simp) ⟨fun _ => by simp [Agrees, hm], fun h => absurd h hst⟩
    · exact good_releaseChord h (by simp [Agrees, hm]) hst
    · exact good_releaseNotFlag h (by simp [Agrees, hm]) hst
  | mv =>
    unfold stepPlaying at h
    exact good_some h (by simp) ⟨fun _ => hm, fun h => absurd h hst⟩

theorem good_ready (hb : HandMove b e b') (hm : Agrees s.mouse b) (hst : s.state = .ready) (hnf : ¬ NF s.mouse)
    (hd : s.mouse ≠ .downUp) (hg : ∀ q ∈ grid s.row s.column, s.gb q ≤ 11)
    (h : s.step e p = some (s', a)) :
    Good s' b' a ∨ (e = .lc ∧ b.right = false ∧ s.inRange p = false ∧ a ≠ none ∧ s'.state = .ready ∧ Agrees s'.mouse b') := by
  unfold step at h
  simp only [hst] at h
  cases hb with
  | lc =>
    unfold stepReady at h
    cases hmo : s.mouse <;> simp only [hmo, Agrees, Buttons.mk.injEq] at h hm <;> simp_all only [Bool.false_eq_true, Bool.true_eq_false, false_and, and_false, reduceCtorEq]
    · simp only [inRange] at h
      by_cases hi : (decide (p.1 < s.row) && decide (p.2 < s.column)) = true
      · simp only [hi, if_true] at h
        exact .inl (good_some h (by simp) ⟨fun _ => by simp [Agrees, hm], fun h => by simp at h⟩)
      · simp only [hi, if_false] at h
        right
        have hi' : s.inRange p = false := by unfold inRange; simpa using hi
        simp only [ok0, Option.some.injEq, Prod.mk.injEq] at h
        obtain ⟨rfl, rfl⟩ := h
        refine ⟨?_, ?_, ?_, ?_, ?_, ?_⟩ <;> simp_all [Agrees]
    · exact .inl (good_some h (by simp) ⟨fun _ => by simp [Agrees, hm], fun _ => by simp⟩)
    · exact absurd (.inl rfl) hnf
  | lr =>
    left
    unfold stepReady at h
    cases hmo : s.mouse <;> simp only [hmo, Agrees, Buttons.mk.injEq] at h hm <;> simp_all only [Bool.false_eq_true, Bool.true_eq_false, false_and, and_false, reduceCtorEq, ne_eq, not_true_eq_false]
    all_goals exact good_some h (by simp) ⟨fun _ => by simp [Agrees, hm], fun _ => by simp⟩
  | rc =>
    left
    unfold stepReady at h
    cases hmo : s.mouse <;> simp only [hmo, Agrees, Buttons.mk.injEq] at h hm <;> simp_all only [Bool.false_eq_true, Bool.true_eq_false, false_and, and_false, reduceCtorEq, ne_eq, not_true_eq_false]
    · simp only [inRange] at h
      by_cases hi : (decide (p.1 < s.row) && decide (p.2 < s.column)) = true
      · simp only [hi, if_true] at h
        cases hr : ({ s with mouse := .upDown, preFlagNum := 1, state := .preFlaging } : MSB).rightClick p with
        | none => simp [hr, Flow.ofClick] at h
        | some x =>
          obtain ⟨x1, x2⟩ := x
          simp only [hr, Flow.ofClick, Option.some.injEq, Prod.mk.injEq] at h
          obtain ⟨rfl, rfl⟩ := h
          exact good_right hr hg (by simp [Agrees, hm]) (by simp)
      · simp only [hi, if_false] at h
        exact good_some h (by simp) ⟨fun _ => by simp [Agrees, hm], fun _ => by simp⟩
    · exact good_some h (by simp) ⟨fun _ => by simp [Agrees, hm], fun _ => by simp⟩
  | rr =>
    left
    unfold stepReady at h
    cases hmo : s.mouse <;> simp only [hmo, Agrees, Buttons.mk.injEq] at h hm <;> simp_all only [Bool.false_eq_true, Bool.true_eq_false, false_and, and_false, reduceCtorEq, ne_eq, not_true_eq_false]
    · exact good_some h (by simp) ⟨fun _ => by simp [Agrees, hm], fun _ => by simp⟩
    · exact absurd (.inl rfl) hnf
    · exact good_some h (by simp) ⟨fun _ => by simp [Agrees, hm], fun _ => by simp⟩
    · exact absurd (.inr rfl) hnf
  | mv =>
    left
    unfold stepReady at h
    exact good_some h (by simp) ⟨fun _ => hm, fun _ => hd⟩

theorem good_preFlaging (hb : HandMove b e b') (hm : Agrees s.mouse b) (hst : s.state = .preFlaging) (hnf : ¬ NF s.mouse)
    (hg : ∀ q ∈ grid s.row s.column, s.gb q ≤ 11)
    (h : s.step e p = some (s', a)) : Good s' b' a := by
  have hnr : s.state ≠ .ready := by simp [hst]
  unfold step at h
  simp only [hst] at h
  unfold stepPreFlaging at h
  cases hb with
  | lc => exact good_playing .lc hm hnr (.inr ⟨hst, by simp, by simp⟩) hg h
  | rr => exact good_playing .rr hm hnr (.inr ⟨hst, by simp, by simp⟩) hg h
  | mv => exact good_playing .mv hm hnr (.inr ⟨hst, by simp, by simp⟩) hg h
  | lr =>
    cases hmo : s.mouse <;> simp only [hmo] at h
    case downUp =>
      rw [hmo] at hm
      by_cases ho : s.atOutside p = true
      · simp only [ho, if_true] at h
        by_cases h0 : s.preFlagNum = 0
        all_goals simp only [h0, if_true, if_false] at h
        · exact good_some (by simpa [ok0] using h) (by simp) ⟨fun _ => by simpa [Agrees, clearClickNum] using hm, fun _ => by simp [clearClickNum]⟩
        · exact good_some (by simpa [ok0] using h) (by simp) ⟨fun _ => by simpa [Agrees] using hm, fun _ => by simp⟩
      · simp only [ho, if_false] at h
        by_cases hi : s.inRange p = true
        · simp only [hi, if_true] at h
          by_cases h10 : s.gb p = 10
          · simp only [h10, if_true] at h
            exact good_playing (t := { s with state := .playing, mouse := .downUp }) .lr hm (by simp) (.inl rfl) hg h
          · simp only [h10, if_false] at h
            simp only [stepPlaying] at h
            exact good_some h (by simp) ⟨fun _ => by simpa [Agrees] using hm, fun _ => by simp⟩
        · simp only [hi, if_false] at h
          simp at h
    case upDown => simp [hmo, Agrees] at hm
    case upDownNotFlag => simp [hmo, Agrees] at hm
    all_goals exact good_playing .lr hm hnr (.inr ⟨hst, by simp, by simp [hmo]⟩) hg h
  | rc =>
    cases hmo : s.mouse <;> simp only [hmo] at h
    case upUp =>
      rw [hmo] at hm
      have hb2 : Agrees .upDown ⟨false, true⟩ := rfl
      simp only [Agrees, Buttons.mk.injEq] at hm
      obtain ⟨rfl, -⟩ := hm
      simp only [inRange] at h
      by_cases hi : (decide (p.1 < s.row) && decide (p.2 < s.column)) = true
      · simp only [hi, if_true] at h
        simp only [MSB.gb] at h
        by_cases h10 : s.gameBoard.get p.1 p.2 = 10
        · simp only [h10, if_true] at h
          cases hr : ({ s with mouse := .upDown, preFlagNum := s.preFlagNum + 1, state := .preFlaging } : MSB).rightClick p with
          | none => simp [hr, Flow.ofClick] at h
          | some x =>
            obtain ⟨x1, x2⟩ := x
            simp only [hr, Flow.ofClick, Option.some.injEq, Prod.mk.injEq] at h
            obtain ⟨rfl, rfl⟩ := h
            exact good_right hr hg hb2 (by simp)
        · simp only [h10, if_false] at h
          by_cases h0 : s.preFlagNum = 0
          · simp [h0] at h
          · simp only [h0, if_false] at h
            by_cases h1 : s.preFlagNum - 1 = 0
            all_goals simp only [h1, if_true, if_false] at h
            · exact good_some (by simpa [ok0] using h) (by simp) ⟨fun _ => hb2, fun _ => by simp⟩
            · cases hr : ({ s with mouse := .upDown, preFlagNum := s.preFlagNum - 1 } : MSB).rightClick p with
              | none => simp [hr, Flow.ofClick] at h
              | some x =>
                obtain ⟨x1, x2⟩ := x
                simp only [hr, Flow.ofClick, Option.some.injEq, Prod.mk.injEq] at h
                obtain ⟨rfl, rfl⟩ := h
                exact good_right hr hg hb2 (by simp [hst])
      · simp only [hi, if_false] at h
        simp only [stepPlaying] at h
        exact good_some h (by simp) ⟨fun _ => hb2, fun _ => by simp⟩
    case downUp =>
      rw [hmo] at hm
      have h2 : ∀ c : Prop, [Decidable c] → (match (if c then Flow.go { s with mouse := .chording, state := .ready }
          else Flow.go { s with mouse := .chording }) with
        | .panic => none | .ret s r => some (s, r) | .go s => s.stepPlaying .rc p) = some (s', a) → s'.mouse = .chording ∧ a = some 0 := by
        intro c _ hc
        by_cases c <;> simp_all [stepPlaying]
        all_goals (obtain ⟨rfl, rfl⟩ := hc; simp)
      obtain ⟨e1, e2⟩ := h2 _ h
      exact ⟨by simp [e2], ⟨fun _ => by rw [e1]; simpa [Agrees] using hm, fun _ => by simp [e1]⟩⟩
    case downUpAfterChording =>
      rw [hmo] at hm
      simp only [stepPlaying] at h
      exact good_some h (by simp) ⟨fun _ => by simpa [Agrees] using hm, fun _ => by simp⟩
    all_goals simp [hmo, Agrees] at hm

/-- One event of a hand, in any state of a game that follows it. -/
theorem good_step (hr : Reach s) (hf : Follows s b) (hb : HandMove b e b') (h : s.step e p = some (s', a)) :
    Good s' b' a ∨ (s.state = .ready ∧ e = .lc ∧ b.right = false ∧ s.inRange p = false ∧ a ≠ none ∧ s'.state = .ready ∧
      Agrees s'.mouse b') := by
  have hg : s.state ≠ .loss → ∀ q ∈ grid s.row s.column, s.gb q ≤ 11 := fun hl q hq => gb_le hr.inv.core hl hq
  have hover : (s.state ≠ .ready ∧ s.state ≠ .preFlaging ∧ s.state ≠ .playing) → Good s' b' a := by
    intro ⟨h1, h2, h3⟩
    unfold step at h
    cases hst : s.state <;> simp only [hst] at h <;> simp_all only [ne_eq, not_true_eq_false, reduceCtorEq, not_false_eq_true]
    all_goals exact good_some h (by simp) ⟨fun hh => by simp [hst] at hh, fun hh => by simp [hst] at hh⟩
  cases hst : s.state with
  | ready =>
    rcases good_ready hb (hf.agrees (.inl hst)) hst (MSB.Reach.nfPlaying hr (.inr hst)) (hf.ready hst) (hg (by simp [hst])) h with hgo | ho
    · exact .inl hgo
    · exact .inr ⟨rfl, ho⟩
  | preFlaging =>
    exact .inl (good_preFlaging hb (hf.agrees (.inr (.inl hst))) hst (MSB.Reach.nfPlaying hr (.inl hst)) (hg (by simp [hst])) h)
  | playing =>
    have h' : s.stepPlaying e p = some (s', a) := by
      unfold step at h; simpa only [hst] using h
    exact .inl (good_playing hb (hf.agrees (.inr (.inr hst))) (by simp [hst]) (.inl hst) (hg (by simp [hst])) h')
  | loss => exact .inl (hover (by simp [hst]))
  | win => exact .inl (hover (by simp [hst]))
  | display => exact .inl (hover (by simp [hst]))

end

end Ms.MSB
