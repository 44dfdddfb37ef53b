import Verif.Lemmas.GameSim

/-!
# The machine before the game starts, refused steps, idle steps
-/

namespace Ms
open Spec

/-- boards of the same size with the same entries are equal -/
theorem rect_ext {b b' : Board} {r c : Nat} (h : Rect b r c) (h' : Rect b' r c)
    (he : ∀ p ∈ grid r c, bval b p = bval b' p) : b = b' := by
  refine List.ext_getElem (h.1.trans h'.1.symm) fun i h1 h2 => ?_
  have l1 := h.2 _ (List.getElem_mem h1)
  have l2 := h'.2 _ (List.getElem_mem h2)
  refine List.ext_getElem (l1.trans l2.symm) fun j h3 h4 => ?_
  have := he (i, j) (mem_grid.mpr ⟨by rw [← h.1]; exact h1, by rw [← l1]; exact h3⟩)
  simpa [bval, Board.get, List.getD_eq_getElem?_getD, h1, h2, h3, h4] using this

namespace MSB

/-! ### refused steps change nothing -/

theorem leftClick_ok {s s' : MSB} {p : Pos} : s.leftClick p ≠ some (s', none) := by
  unfold leftClick
  intro h
  split at h
  · simp at h
  simp only at h
  split at h
  · simp at h
  split at h
  · obtain ⟨o, h1, h2⟩ := Option.bind_eq_some_iff.mp h
    obtain ⟨g, h3, h4⟩ := Option.map_eq_some_iff.mp h2
    simp at h4
  split at h
  · obtain ⟨g, h3, h4⟩ := Option.map_eq_some_iff.mp h
    simp at h4
  · obtain ⟨g, h3, h4⟩ := Option.map_eq_some_iff.mp h
    simp at h4

theorem chordingClick_ok {s s' : MSB} {p : Pos} : s.chordingClick p ≠ some (s', none) := by
  unfold chordingClick
  intro h
  split at h
  · simp at h
  simp only at h
  split at h
  · simp at h
  split at h
  · obtain ⟨o, h1, h2⟩ := Option.bind_eq_some_iff.mp h
    obtain ⟨g, h3, h4⟩ := Option.map_eq_some_iff.mp h2
    simp at h4
  · simp at h

/-- no mark above 11 on the board -/
def Marks11 (s : MSB) : Prop := ∀ p, s.inRange p = true → s.gb p ≤ 11

theorem rightClick_ok {s s' : MSB} (hm : s.Marks11) {p : Pos} : s.rightClick p ≠ some (s', none) := by
  unfold rightClick
  intro h
  split at h
  · simp at h
  rename_i hin
  have h11 := hm p (by simpa using hin)
  simp only at h
  split at h
  · simp at h
  split at h
  · split at h <;> simp at h
  split at h
  · split at h <;> simp at h
  · rename_i h1 h2 h3
    have h1 : ¬ s.gb p < 10 := h1
    have h2 : ¬ s.gb p = 10 := h2
    have h3 : ¬ s.gb p = 11 := h3
    omega

theorem releaseLeft_ok {s s' : MSB} {p : Pos} : s.releaseLeft p ≠ some (s', none) := by
  unfold releaseLeft; split
  · simp
  · exact leftClick_ok

theorem releaseChord_ok {s s' : MSB} {p : Pos} : s.releaseChord p ≠ some (s', none) := by
  unfold releaseChord; split
  · simp
  · exact chordingClick_ok

theorem releaseNotFlag_ok {s s' : MSB} {p : Pos} : s.releaseNotFlag p ≠ some (s', none) := by
  unfold releaseNotFlag; split
  · simp
  · simp only
    split
    · simp
    · exact chordingClick_ok

theorem stepPlaying_err {s s' : MSB} {e : Ev} {p : Pos} (hm : s.Marks11) (h : s.stepPlaying e p = some (s', none)) :
    s' = s := by
  unfold stepPlaying at h
  cases e <;> simp only at h
  case m =>
    split at h
    · exact absurd h chordingClick_ok
    · simp at h
  case mc => simp at h
  case mr => exact absurd h chordingClick_ok
  case mv => simp at h
  case pf => simpa using h.symm
  case other => simpa using h.symm
  all_goals cases hmo : s.mouse <;> simp only [hmo] at h
  all_goals first
    | exact absurd h releaseLeft_ok
    | exact absurd h releaseChord_ok
    | exact absurd h releaseNotFlag_ok
    | (simp at h; done)
    | (simp at h; exact h.symm)
    | skip
  all_goals
    split at h
    · split at h
      · (refine absurd h (rightClick_ok ?_); exact hm)
      · (refine absurd h (rightClick_ok ?_); exact hm)
    · simp at h

theorem stepReady_err {s s' : MSB} {e : Ev} {p : Pos} (hm : s.Marks11)
    (h : Flow.run e p (s.stepReady e p) = some (s', none)) : s' = s := by
  unfold stepReady at h
  cases e <;> simp only at h
  case pf =>
    split at h
    · split at h
      · rw [run_ofClick] at h
        (refine absurd h (rightClick_ok ?_); exact hm)
      · simp [Flow.run] at h
    · simp [Flow.run] at h
  all_goals try (simp [Flow.run] at h; exact h.symm)
  all_goals try (simp [Flow.run] at h; done)
  all_goals cases hmo : s.mouse <;> simp only [hmo] at h
  all_goals try (simp [Flow.run] at h; done)
  all_goals try (simp [Flow.run] at h; exact h.symm)
  · split at h <;> simp [Flow.run] at h
  · split at h
    · rw [run_ofClick] at h
      (refine absurd h (rightClick_ok ?_); exact hm)
    · simp [Flow.run] at h

theorem stepPreFlaging_err {s s' : MSB} {e : Ev} {p : Pos} (hm : s.Marks11)
    (h : Flow.run e p (s.stepPreFlaging e p) = some (s', none)) : s' = s := by
  have go : ∀ {t : MSB}, t.Marks11 → Flow.run e p (.go t) = some (s', none) → s' = t :=
    fun hm h => stepPlaying_err hm h
  unfold stepPreFlaging at h
  cases e <;> simp only at h
  case lr =>
    cases hmo : s.mouse <;> simp only [hmo] at h
    case downUp =>
      split at h
      · split at h <;> simp [Flow.run] at h
      · split at h
        · split at h
          · exact absurd h releaseLeft_ok
          · simp [Flow.run, stepPlaying] at h
        · simp [Flow.run] at h
    all_goals first
      | exact go hm h
      | (simp [Flow.run] at h; exact h.symm)
  case pf =>
    split at h
    · split at h
      · rw [run_ofClick] at h
        (refine absurd h (rightClick_ok ?_); exact hm)
      · simp [Flow.run] at h
    · simp [Flow.run] at h
  case rc =>
    cases hmo : s.mouse <;> simp only [hmo] at h
    case upUp =>
      split at h
      · split at h
        · rw [run_ofClick] at h
          (refine absurd h (rightClick_ok ?_); exact hm)
        · split at h
          · simp [Flow.run] at h
          · split at h
            · simp [Flow.run] at h
            · rw [run_ofClick] at h
              (refine absurd h (rightClick_ok ?_); exact hm)
      · simp [Flow.run, stepPlaying] at h
    case downUp =>
      split at h <;> simp [Flow.run, stepPlaying] at h
    case downUpAfterChording => simp [Flow.run, stepPlaying] at h
    all_goals (simp [Flow.run] at h; exact h.symm)
  case cc =>
    cases hmo : s.mouse <;> simp only [hmo] at h
    all_goals first
      | (simp [Flow.run] at h; done)
      | (simp [Flow.run] at h; exact h.symm)
  all_goals first
    | exact go hm h
    | (simp [Flow.run] at h; exact h.symm)

theorem GInv.marks11 {s : MSB} (h : s.GInv) (hl : s.state ≠ .loss) : s.Marks11 := by
  intro p hp
  have hp := inRange_iff.mp hp
  have h2 := h.core.bd_range hp
  rcases h.core.marks p hp with h1 | h1 | h1 | h1
  · omega
  · omega
  · omega
  · exact absurd h1.1 hl

/-- a refused step leaves the machine as it was -/
theorem step_err {s s' : MSB} {e : Ev} {p : Pos} (h : s.GInv) (hs : s.step e p = some (s', none)) : s' = s := by
  rw [step_eq] at hs
  split at hs
  · exact stepReady_err (h.marks11 (by simp [*])) hs
  · exact stepPreFlaging_err (h.marks11 (by simp [*])) hs
  · exact stepPlaying_err (h.marks11 (by simp [*])) hs
  · simp [Flow.run] at hs

/-! ### the middle button before the game -/

theorem leftClick_middle {s s' : MSB} {p : Pos} {r : Option Nat} (h : s.leftClick p = some (s', r)) :
    s'.middleHold = s.middleHold := by
  unfold leftClick at h
  split at h
  · simp at h
  simp only at h
  split at h
  · simp only [Option.some.injEq, Prod.mk.injEq] at h; rw [← h.1]
  split at h
  · obtain ⟨o, h1, h2⟩ := Option.bind_eq_some_iff.mp h
    obtain ⟨g, h3, h4⟩ := Option.map_eq_some_iff.mp h2
    obtain ⟨rfl, -⟩ := Prod.mk.inj h4
    refine (checkWin_frame _).2.2.2.2.2.2.2.2.2.2.2.2.1.trans ?_
    cases o.1 <;> rfl
  split at h
  · obtain ⟨g, h3, h4⟩ := Option.map_eq_some_iff.mp h
    obtain ⟨rfl, -⟩ := Prod.mk.inj h4
    rfl
  · obtain ⟨g, h3, h4⟩ := Option.map_eq_some_iff.mp h
    obtain ⟨h4, -⟩ := Prod.mk.inj h4
    rw [← h4]
    refine (checkWin_frame _).2.2.2.2.2.2.2.2.2.2.2.2.1.trans ?_
    cases ({ s with left := s.left + 1, gameBoard := g } : MSB).cellIsBbbv p <;> rfl

theorem rightClick_middle {s s' : MSB} {p : Pos} {r : Option Nat} (h : s.rightClick p = some (s', r)) :
    s'.middleHold = s.middleHold := by
  unfold rightClick at h
  split at h
  · simp at h
  simp only at h
  split at h
  · simp only [Option.some.injEq, Prod.mk.injEq] at h; rw [← h.1]
  split at h
  · split at h
    · simp only [Option.some.injEq, Prod.mk.injEq] at h; rw [← h.1]
    · simp only [Option.some.injEq, Prod.mk.injEq] at h; rw [← h.1]; simp only; split <;> rfl
  split at h
  · split at h
    · simp at h
    · simp only [Option.some.injEq, Prod.mk.injEq] at h; rw [← h.1]
  · simp only [Option.some.injEq, Prod.mk.injEq] at h; rw [← h.1]

theorem chordingClick_middle {s s' : MSB} {p : Pos} {r : Option Nat} (h : s.chordingClick p = some (s', r)) :
    s'.middleHold = s.middleHold := by
  unfold chordingClick at h
  split at h
  · simp at h
  simp only at h
  split at h
  · simp only [Option.some.injEq, Prod.mk.injEq] at h; rw [← h.1]
  split at h
  · obtain ⟨o, h1, h2⟩ := Option.bind_eq_some_iff.mp h
    obtain ⟨g, h3, h4⟩ := Option.map_eq_some_iff.mp h2
    obtain ⟨rfl, -⟩ := Prod.mk.inj h4
    exact (checkWin_frame _).2.2.2.2.2.2.2.2.2.2.2.2.1
  · simp only [Option.some.injEq, Prod.mk.injEq] at h; rw [← h.1]

theorem releaseLeft_middle {s s' : MSB} {p : Pos} {r : Option Nat} (h : s.releaseLeft p = some (s', r)) :
    s'.middleHold = s.middleHold := by
  unfold releaseLeft at h; split at h
  · simp only [Option.some.injEq, Prod.mk.injEq] at h; rw [← h.1]
  · exact leftClick_middle h

theorem releaseChord_middle {s s' : MSB} {p : Pos} {r : Option Nat} (h : s.releaseChord p = some (s', r)) :
    s'.middleHold = s.middleHold := by
  unfold releaseChord at h; split at h
  · simp only [Option.some.injEq, Prod.mk.injEq] at h; rw [← h.1]
  · exact chordingClick_middle h

theorem releaseNotFlag_middle {s s' : MSB} {p : Pos} {r : Option Nat} (h : s.releaseNotFlag p = some (s', r)) :
    s'.middleHold = s.middleHold := by
  unfold releaseNotFlag at h; split at h
  · simp at h
  · simp only at h
    split at h
    · simp only [Option.some.injEq, Prod.mk.injEq] at h; rw [← h.1]
    · exact (chordingClick_middle h).trans rfl

theorem stepPlaying_middle {s s' : MSB} {e : Ev} {p : Pos} {r : Option Nat} (he : e ≠ .m ∧ e ≠ .mc ∧ e ≠ .mr)
    (h : s.stepPlaying e p = some (s', r)) : s'.middleHold = s.middleHold := by
  have ret : ∀ {t : MSB} {r' : Option Nat}, some (t, r') = some (s', r) → s'.middleHold = t.middleHold := by
    intro t r' h; simp only [Option.some.injEq, Prod.mk.injEq] at h; rw [← h.1]
  unfold stepPlaying at h
  cases e <;> simp only at h
  case m => simp at he
  case mc => simp at he
  case mr => simp at he
  case mv => (have h' := ret h; exact h')
  case pf => (have h' := ret h; exact h')
  case other => (have h' := ret h; exact h')
  all_goals cases hmo : s.mouse <;> simp only [hmo] at h
  all_goals first
    | (have h' := ret h; exact h')
    | (have h' := releaseLeft_middle h; exact h')
    | (have h' := releaseChord_middle h; exact h')
    | (have h' := releaseNotFlag_middle h; exact h')
    | skip
  all_goals
    split at h
    · split at h
      · (have h' := rightClick_middle h; exact h')
      · (have h' := rightClick_middle h; exact h')
    · first | (have h' := ret h; exact h') | simp at h

theorem step_middle {s s' : MSB} {e : Ev} {p : Pos} {r : Option Nat} (hst : s.state ≠ .playing)
    (h : s.step e p = some (s', r)) : s'.middleHold = s.middleHold := by
  have ret : ∀ {t : MSB} {r' : Option Nat}, Flow.run e p (.ret t r') = some (s', r) → s'.middleHold = t.middleHold := by
    intro t r' h; simp only [Flow.run, Option.some.injEq, Prod.mk.injEq] at h; rw [← h.1]
  have click : ∀ {t : MSB}, Flow.run e p (.ofClick (t.rightClick p)) = some (s', r) → s'.middleHold = t.middleHold := by
    intro t h; rw [run_ofClick] at h; exact rightClick_middle h
  have go : ∀ {t : MSB}, e ≠ .m ∧ e ≠ .mc ∧ e ≠ .mr → Flow.run e p (.go t) = some (s', r) → s'.middleHold = t.middleHold :=
    fun he h => stepPlaying_middle he h
  rw [step_eq] at h
  split at h
  · unfold stepReady at h
    cases e <;> simp only at h
    case pf =>
      split at h
      · split at h
        · (have h' := click h; exact h')
        · simp [Flow.run] at h
      · simp [Flow.run] at h
    all_goals try (have h' := ret h; exact h')
    all_goals cases hmo : s.mouse <;> simp only [hmo] at h
    all_goals try (have h' := ret h; exact h')
    · split at h
      · (have h' := ret h; exact h')
      · (have h' := ret h; exact h')
    · split at h
      · (have h' := click h; exact h')
      · (have h' := ret h; exact h')
  · unfold stepPreFlaging at h
    cases e <;> simp only at h
    case lr =>
      cases hmo : s.mouse <;> simp only [hmo] at h
      case downUp =>
        split at h
        · split at h
          · (have h' := ret h; exact h')
          · (have h' := ret h; exact h')
        · split at h
          · split at h
            · (have h' := go (by simp) h; exact h')
            · (have h' := go (by simp) h; exact h')
          · simp [Flow.run] at h
      all_goals first
        | (have h' := ret h; exact h')
        | (have h' := go (by simp) h; exact h')
    case pf =>
      split at h
      · split at h
        · (have h' := click h; exact h')
        · simp [Flow.run] at h
      · simp [Flow.run] at h
    case rc =>
      cases hmo : s.mouse <;> simp only [hmo] at h
      case upUp =>
        split at h
        · split at h
          · (have h' := click h; exact h')
          · split at h
            · simp [Flow.run] at h
            · split at h
              · (have h' := ret h; exact h')
              · (have h' := click h; exact h')
        · (have h' := go (by simp) h; exact h')
      case downUp =>
        split at h
        · (have h' := go (by simp) h; exact h')
        · (have h' := go (by simp) h; exact h')
      case downUpAfterChording => (have h' := go (by simp) h; exact h')
      all_goals (have h' := ret h; exact h')
    case cc =>
      cases hmo : s.mouse <;> simp only [hmo] at h
      all_goals first
        | (have h' := ret h; exact h')
        | (refine (ret h).trans ?_; simp only; split <;> rfl)
    all_goals first
      | (have h' := ret h; exact h')
      | (have h' := go (by simp) h; exact h')
  · exact absurd ‹_› hst
  · (have h' := ret h; exact h')

/-! ### before the game -/

/-- what holds before the first cell is opened, besides `GInv` -/
structure Waiting (s : MSB) : Prop where
  left : s.state = .ready ∨ s.state = .preFlaging → s.left = 0
  bbbv : s.state = .ready ∨ s.state = .preFlaging → s.bbbvSolved = 0
  middle : s.state = .ready ∨ s.state = .preFlaging → s.middleHold = false
  num : s.state = .ready ∨ s.state = .preFlaging → s.preFlagNum = s.flag
  none : s.state = .ready ∨ s.state = .preFlaging → s.flag = 0 → s.right = 0 ∧ s.flagedList = []
  nf : s.state = .preFlaging ∨ s.state = .ready → ¬ NF s.mouse

theorem GInv.flag_ready {s : MSB} (h : s.GInv) (hst : s.state = .ready) : s.flag = 0 := by
  rw [h.core.flag]
  apply Finset.card_eq_zero.mpr
  apply Finset.filter_eq_empty_iff.mpr
  intro q hq
  have := h.ready hst q hq
  rw [gb_bval] at this; omega

theorem new_waiting (v : View) : (MSB.new v).Waiting := by
  refine ⟨fun _ => rfl, fun _ => rfl, fun _ => rfl, fun _ => rfl, fun _ _ => ⟨rfl, rfl⟩, fun _ => ?_⟩
  simp [NF, MSB.new]

theorem Waiting.load {s : MSB} (h : s.Waiting) (v : View) : Waiting { s with board := v } :=
  ⟨h.left, h.bbbv, h.middle, h.num, h.none, h.nf⟩

theorem waiting_of_other {s : MSB} (h1 : s.state ≠ .ready) (h2 : s.state ≠ .preFlaging) : s.Waiting := by
  have h : ¬ (s.state = .ready ∨ s.state = .preFlaging) := by simp [h1, h2]
  have h' : ¬ (s.state = .preFlaging ∨ s.state = .ready) := by simp [h1, h2]
  exact ⟨fun a => absurd a h, fun a => absurd a h, fun a => absurd a h, fun a => absurd a h, fun a => absurd a h,
    fun a => absurd a h'⟩

theorem ChordEff.state {s s' : MSB} {p : Pos} {r : Option Nat} (e : ChordEff s p s' r) :
    s'.state = s.state ∨ s'.state = .loss ∨ s'.state = .win := by
  cases e with
  | none _ => exact .inl rfl
  | opens hc hn hg =>
    rename_i g' n
    rcases checkWin_state { preChord s p with bbbvSolved := (preChord s p).bbbvSolved + n, gameBoard := g' } with h1 | h1
    · exact .inr (.inr h1)
    · rcases preChord_state s p with h2 | h2
      · exact .inr (.inl (h1.trans h2))
      · exact .inl (h1.trans h2)

theorem step_waiting {s s' : MSB} {e : Ev} {p : Pos} {r : Option Nat} (h : s.GInv) (hw : s.Waiting)
    (hs : s.step e p = some (s', r)) : s'.Waiting := by
  have he := step_eff hs
  have hmid := fun hst => step_middle hst hs
  have hnf := he.nfPlaying h hw.nf
  have hpre : ∀ {x : GState}, x = .ready ∨ x = .preFlaging → x ≠ .playing := by
    intro x h; rcases h with rfl | rfl <;> decide
  cases he with
  | idle m mh r _ _ =>
    exact ⟨hw.left, hw.bbbv, fun hst => (hmid (hpre hst)).trans (hw.middle hst), hw.num, hw.none, hnf⟩
  | start hst hp =>
    exact ⟨fun _ => hw.left (.inl hst), fun _ => hw.bbbv (.inl hst), fun _ => hw.middle (.inl hst),
      fun _ => hw.num (.inl hst), fun _ => hw.none (.inl hst), hnf⟩
  | back m hst h0 _ =>
    exact ⟨fun _ => hw.left (.inr hst), fun _ => hw.bbbv (.inr hst), fun _ => hw.middle (.inr hst),
      fun _ => hw.num (.inr hst), fun _ => hw.none (.inr hst), hnf⟩
  | backClear m hst h0 _ =>
    exact ⟨fun _ => rfl, fun _ => hw.bbbv (.inr hst), fun _ => hw.middle (.inr hst),
      fun _ => h0, fun _ _ => ⟨rfl, rfl⟩, hnf⟩
  | unflagLast hst hp h10 h0 =>
    exact ⟨fun _ => rfl, fun _ => hw.bbbv (.inr hst), fun _ => hw.middle (.inr hst),
      fun _ => rfl, fun _ _ => ⟨rfl, rfl⟩, hnf⟩
  | preFlag m k _ _ hst _ hp hk h10 hc =>
    obtain ⟨-, -, e2⟩ := right_eff h (by rcases hst with h | h <;> simp [h]) (by simp) hc
    have hf := e2.frame
    have hg : s.gb p = 10 := h10.elim id fun h' => h.ready h' p hp
    have hk' : k = s.flag + 1 := by
      rcases hk with hk | hk
      · rw [hk, hw.num hst]
      · rw [hk.2, h.flag_ready hk.1]
    refine ⟨fun _ => hf.2.2.2.2.2.2.2.2.1.trans (hw.left hst), fun _ => hf.2.2.2.2.2.2.2.2.2.2.2.1.trans (hw.bbbv hst),
      fun _ => hf.2.2.2.2.2.2.2.2.2.2.2.2.trans (hw.middle hst), fun _ => ?_, fun _ h0 => ?_, hnf⟩
    · rw [hf.2.2.2.2.2.2.1]
      cases e2 with
      | none hh => have hh : s.gb p < 10 := hh; omega
      | flag _ => exact hk'
      | unflag hh _ => have hh : s.gb p = 11 := hh; omega
    · cases e2 with
      | none hh => have hh : s.gb p < 10 := hh; omega
      | flag _ => simp at h0
      | unflag hh _ => have hh : s.gb p = 11 := hh; omega
  | preUnflag m k _ _ hst _ hp hk hk' h10 hc =>
    obtain ⟨-, -, e2⟩ := right_eff (st := s.state) h (by simp [hst]) (by simp [hst]) hc
    have hf := e2.frame
    have hg : s.gb p = 11 := ((h.pre (.inr hst)).1 p hp).resolve_left h10
    have hn := hw.num (.inr hst)
    refine ⟨fun _ => hf.2.2.2.2.2.2.2.2.1.trans (hw.left (.inr hst)),
      fun _ => hf.2.2.2.2.2.2.2.2.2.2.2.1.trans (hw.bbbv (.inr hst)),
      fun _ => hf.2.2.2.2.2.2.2.2.2.2.2.2.trans (hw.middle (.inr hst)), fun _ => ?_, fun _ h0 => ?_, hnf⟩
    · rw [hf.2.2.2.2.2.2.1]
      cases e2 with
      | none hh => have hh : s.gb p < 10 := hh; omega
      | flag hh => have hh : s.gb p = 10 := hh; omega
      | unflag hh _ => show k = s.flag - 1; omega
    · cases e2 with
      | none hh => have hh : s.gb p < 10 := hh; omega
      | flag hh => have hh : s.gb p = 10 := hh; omega
      | unflag hh _ =>
        have h0 : s.flag - 1 = 0 := h0
        omega
  | right m _ _ hst _ hp hc =>
    obtain ⟨-, -, e2⟩ := right_eff (k := s.preFlagNum) (st := s.state) h (by simp [hst]) (by simp [hst]) hc
    have := e2.frame.2.2.2.1
    exact waiting_of_other (by rw [this, hst]; decide) (by rw [this, hst]; decide)
  | left m _ _ hst _ _ hc =>
    have := leftClick_state hc
    refine waiting_of_other ?_ ?_ <;> rcases this with e | e | e <;> rw [e] <;> simp
  | chord m mh dec _ _ hst hm hm' hc =>
    obtain ⟨hp, hg, e2⟩ := chord_eff h hc
    rcases hst with hst | hst
    · have := e2.state
      simp only [hst] at this
      refine waiting_of_other ?_ ?_ <;> rcases this with e | e | e <;> rw [e] <;> simp
    · have hnfs := hw.nf (.inl hst)
      have hd : dec = false := by
        cases dec with
        | false => rfl
        | true => exact absurd (hm rfl).2.1 hnfs
      subst hd
      have hf := e2.frame
      cases e2 with
      | none _ =>
        exact ⟨fun _ => hw.left (.inr hst), fun _ => hw.bbbv (.inr hst),
          fun _ => (hmid (by rw [hst]; decide)).trans (hw.middle (.inr hst)),
          fun _ => hw.num (.inr hst), fun _ => hw.none (.inr hst), hnf⟩
      | opens hc' hn' hg' =>
        exfalso
        have h1 := hc'.2.1
        have h1 : s.gb p < 8 := h1
        rcases (h.pre (.inr hst)).1 p hp with h2 | h2 <;> omega
  | miss m hst _ hm' _ =>
    rcases hst with hst | hst
    · exact waiting_of_other (by show s.state ≠ _; rw [hst]; decide) (by show s.state ≠ _; rw [hst]; decide)
    · exact absurd hm' (hw.nf (.inl hst))

theorem Waiting.fresh {s : MSB} (h : s.GInv) (hw : s.Waiting) (hst : s.state = .ready) (v : View)
    (h1 : v.row = s.row) (h2 : v.col = s.column) :
    s = { MSB.new v with board := s.board, double := s.double, ce := s.ce, mouse := s.mouse } := by
  have hr : Rect (Board.build v.row v.col fun _ _ => 10) v.row v.col := rect_build _ _ _
  have hg : s.gameBoard = Board.build v.row v.col fun _ _ => 10 := by
    rw [h1, h2] at hr ⊢
    refine rect_ext h.core.rect hr fun p hp => ?_
    have := h.ready hst p hp
    rw [gb_bval] at this
    rw [this]
    have := mem_grid.mp hp
    exact (get_build (fun _ _ => 10) this.1 this.2).symm
  have hf := h.flag_ready hst
  have hn := hw.none (.inl hst) hf
  have hp := h.pre (.inl hst)
  have e1 := hw.left (.inl hst)
  have e2 := hw.bbbv (.inl hst)
  have e3 := hw.middle (.inl hst)
  have e4 := hw.num (.inl hst)
  rw [hf] at e4
  obtain ⟨bo, gb, fl, le, ri, dou, ce, flg, bb, ro, co, mo, st, px, py, pn, mh⟩ := s
  simp only at *
  subst h1 h2 hg hf e1 e2 e3 e4 hst
  obtain ⟨rfl, rfl⟩ := hn
  obtain ⟨-, rfl, rfl⟩ := hp
  rfl

theorem stepReady_lc {t : MSB} {p : Pos} (hm : t.mouse = .upUp) (hin : t.inRange p = true) :
    t.stepReady .lc p = ok0 { t with mouse := .downUp, state := .preFlaging } := by
  unfold stepReady
  simp only [hm]
  rw [if_pos (by exact hin)]

theorem stepReady_rc {t : MSB} {p : Pos} (hm : t.mouse = .upUp) (hin : t.inRange p = true) :
    t.stepReady .rc p =
      .ofClick (({ t with mouse := .upDown, preFlagNum := 1, state := .preFlaging } : MSB).rightClick p) := by
  unfold stepReady
  simp only [hm]
  rw [if_pos (by exact hin)]

/-- leaving `Ready`: a press within the board, with all buttons up; a new machine on any board of this size
does the same -/
theorem step_start {s s' : MSB} {e : Ev} {p : Pos} {a : Nat} (h : s.GInv) (hw : s.Waiting) (hst : s.state = .ready)
    (he : e ≠ .pf) (hs : s.step e p = some (s', some a)) (hs' : s'.state ≠ .ready) :
    s'.state = .preFlaging ∧ p ∈ grid s.row s.column ∧ (∀ v : View, v.row = s.row → v.col = s.column →
      ∃ t', (MSB.new v).step e p = some (t', some a) ∧ PSim s.double s' t' ∧
        (v = s.board → Sim True s.double s.ce s' t')) := by
  have hfr := fun v h1 h2 => hw.fresh h hst v h1 h2
  rw [step_eq, hst] at hs
  simp only at hs
  have idle : ∀ {t : MSB} {r : Option Nat}, t.state = s.state →
      Flow.run e p (.ret t r) ≠ some (s', some a) := by
    intro t r ht hh
    simp only [Flow.run, Option.some.injEq, Prod.mk.injEq] at hh
    rw [← hh.1, ht] at hs'
    exact hs' hst
  have hstart : ∀ v, (MSB.new v).step e p = Flow.run e p ((MSB.new v).stepReady e p) := fun v => by
    rw [step_eq]; rfl
  simp only [hstart]
  unfold stepReady at hs
  cases e <;> simp only at hs
  case pf => exact absurd rfl he
  case lc =>
    cases hmo : s.mouse <;> simp only [hmo] at hs
    case upUp =>
      split at hs
      · rename_i hin
        have hin : s.inRange p = true := hin
        simp only [Flow.run, Option.some.injEq, Prod.mk.injEq] at hs
        obtain ⟨rfl, rfl⟩ := hs
        refine ⟨rfl, inRange_iff.mp hin, fun v h1 h2 => ?_⟩
        have hin' : ({ MSB.new v with mouse := .downUp } : MSB).inRange p = true := by
          unfold inRange at hin ⊢
          rw [show ({ MSB.new v with mouse := .downUp } : MSB).row = s.row from h1,
            show ({ MSB.new v with mouse := .downUp } : MSB).column = s.column from h2]
          exact hin
        refine ⟨{ MSB.new v with mouse := .downUp, state := .preFlaging }, ?_, ?_, ?_⟩
        · rw [stepReady_lc rfl (by exact hin')]
          rfl
        · refine ⟨s.board, s.ce, [], ?_⟩
          have := hfr v h1 h2
          rw [this]
          simp [MSB.new]
        · intro hv
          refine ⟨s.ce, [], ?_, fun _ => ⟨by simp [MSB.new], rfl⟩⟩
          have := hfr v h1 h2
          rw [this, hv]
          simp [MSB.new]
      · exact absurd hs (idle rfl)
    all_goals exact absurd hs (idle rfl)
  case rc =>
    cases hmo : s.mouse <;> simp only [hmo] at hs
    case upUp =>
      split at hs
      · rename_i hin
        have hin : s.inRange p = true := hin
        rw [run_ofClick] at hs
        have hstate : s'.state = .preFlaging := by
          have := (right_eff (k := 1) (st := .preFlaging) h (by rw [hst]; decide) (by decide) hs).2.2.frame
          exact this.2.2.2.1
        refine ⟨hstate, inRange_iff.mp hin, fun v h1 h2 => ?_⟩
        have hin' : ({ MSB.new v with mouse := .upDown } : MSB).inRange p = true := by
          unfold inRange at hin ⊢
          rw [show ({ MSB.new v with mouse := .upDown } : MSB).row = s.row from h1,
            show ({ MSB.new v with mouse := .upDown } : MSB).column = s.column from h2]
          exact hin
        have hrun : Flow.run .rc p ((MSB.new v).stepReady .rc p) =
            ({ MSB.new v with mouse := .upDown, preFlagNum := 1, state := .preFlaging } : MSB).rightClick p := by
          rw [stepReady_rc rfl (by exact hin'), run_ofClick]
        rw [hrun]
        have hps : PSim s.double { s with mouse := .upDown, preFlagNum := 1, state := .preFlaging }
            ({ MSB.new v with mouse := .upDown, preFlagNum := 1, state := .preFlaging } : MSB) := by
          refine ⟨s.board, s.ce, [], ?_⟩
          have := hfr v h1 h2
          rw [this]
          simp [MSB.new]
        obtain ⟨t', ht, hsim⟩ := rightClick_psim hps p s' (some a) hs hstate
        refine ⟨t', ht, hsim, fun hv => ?_⟩
        have hss : Sim True s.double s.ce { s with mouse := .upDown, preFlagNum := 1, state := .preFlaging }
            ({ MSB.new v with mouse := .upDown, preFlagNum := 1, state := .preFlaging } : MSB) := by
          refine ⟨s.ce, [], ?_, fun _ => ⟨by simp [MSB.new], rfl⟩⟩
          have := hfr v h1 h2
          rw [this, hv]
          simp [MSB.new]
        have := rightClick_sim hss p
        rw [hs, ht] at this
        exact this.2
      · exact absurd hs (idle rfl)
    all_goals exact absurd hs (idle rfl)
  all_goals try exact absurd hs (idle rfl)
  all_goals cases hmo : s.mouse <;> simp only [hmo] at hs
  all_goals exact absurd hs (idle rfl)

/-! ### states and boards along a step -/

/-- where a step can lead -/
theorem step_state {s s' : MSB} {e : Ev} {p : Pos} {r : Option Nat} (h : s.GInv) (hs : s.step e p = some (s', r)) :
    (s.state = .ready → s'.state = .ready ∨ s'.state = .preFlaging) ∧
    (s.state = .playing → s'.state = .playing ∨ s'.state = .loss ∨ s'.state = .win) ∧ s'.state ≠ .display := by
  have he := step_eff hs
  refine ⟨?_, ?_, (he.inv h).nd⟩
  · intro hst
    cases he with
    | idle => exact .inl hst
    | start => exact .inr rfl
    | back => exact .inl rfl
    | backClear => exact .inl rfl
    | unflagLast => exact .inl rfl
    | preFlag m k _ _ hst' _ hp hk h10 hc =>
      have := (right_eff h (by rcases hst' with h | h <;> simp [h]) (by simp) hc).2.2.frame
      exact .inr this.2.2.2.1
    | preUnflag m k _ _ hst' _ hp hk hk' h10 hc => rw [hst] at hst'; exact absurd hst' (by decide)
    | right m _ _ hst' _ hp hc => rw [hst] at hst'; exact absurd hst' (by decide)
    | left m _ _ hst' _ _ hc =>
      rw [hst] at hst'
      rcases hst' with h | h
      · exact absurd h (by decide)
      · exact absurd h.1 (by decide)
    | chord m mh dec _ _ hst' hm hm' hc =>
      rw [hst] at hst'
      rcases hst' with h | h <;> exact absurd h (by decide)
    | miss => exact .inl hst
  · intro hst
    cases he with
    | idle => exact .inl hst
    | start h' => rw [hst] at h'; exact absurd h' (by decide)
    | back _ h' => rw [hst] at h'; exact absurd h' (by decide)
    | backClear _ h' => rw [hst] at h'; exact absurd h' (by decide)
    | unflagLast h' => rw [hst] at h'; exact absurd h' (by decide)
    | preFlag m k _ _ hst' _ hp hk h10 hc =>
      rw [hst] at hst'
      rcases hst' with h | h <;> exact absurd h (by decide)
    | preUnflag m k _ _ hst' _ hp hk hk' h10 hc => rw [hst] at hst'; exact absurd hst' (by decide)
    | right m _ _ hst' _ hp hc =>
      have := (right_eff (k := s.preFlagNum) (st := s.state) h (by simp [hst]) (by simp [hst]) hc).2.2.frame
      exact .inl (this.2.2.2.1.trans hst)
    | left m _ _ hst' _ _ hc => exact leftClick_state hc
    | chord m mh dec _ _ hst' hm hm' hc =>
      have := (chord_eff h hc).2.2.state
      simp only [hst] at this
      exact this
    | miss => exact .inl hst

/-- a step that reports no effect and neither loses nor goes back leaves the game board alone -/
theorem step_idle {s s' : MSB} {e : Ev} {p : Pos} (h : s.GInv) (hs : s.step e p = some (s', some 0))
    (h1 : s'.state ≠ .ready) (h2 : s'.state ≠ .loss) : s'.gameBoard = s.gameBoard := by
  have he := step_eff hs
  generalize hr : (some 0 : Option Nat) = r at he
  cases he with
  | idle => rfl
  | start => rfl
  | back => rfl
  | backClear => rfl
  | unflagLast => exact absurd rfl h1
  | preFlag m k _ _ hst _ hp hk h10 hc =>
    obtain ⟨-, -, e2⟩ := right_eff h (by rcases hst with h | h <;> simp [h]) (by simp) hc
    cases e2 with
    | none _ => rfl
    | flag _ => simp at hr
    | unflag _ _ => simp at hr
  | preUnflag m k _ _ hst _ hp hk hk' h10 hc =>
    obtain ⟨-, -, e2⟩ := right_eff (st := s.state) h (by simp [hst]) (by simp [hst]) hc
    cases e2 with
    | none _ => rfl
    | flag _ => simp at hr
    | unflag _ _ => simp at hr
  | right m _ _ hst _ hp hc =>
    obtain ⟨-, -, e2⟩ := right_eff (k := s.preFlagNum) (st := s.state) h (by simp [hst]) (by simp [hst]) hc
    cases e2 with
    | none _ => rfl
    | flag _ => simp at hr
    | unflag _ _ => simp at hr
  | left m _ _ hst _ _ hc =>
    obtain ⟨-, -, e2⟩ := left_eff h hst hc
    cases e2 with
    | none _ => rfl
    | mine _ _ _ => exact absurd rfl h2
    | safe _ _ _ => simp at hr
  | chord m mh dec _ _ hst hm hm' hc =>
    obtain ⟨-, -, e2⟩ := chord_eff h hc
    cases e2 with
    | none _ => rfl
    | opens _ _ _ => simp at hr
  | miss => rfl

/-- moving the mouse never does anything -/
theorem step_mv {s : MSB} (p : Pos) : s.step .mv p = some (s, some 0) := by
  rw [step_eq]
  cases hst : s.state <;> rfl

end MSB
end Ms
