import Verif.Lemmas.GameStep

namespace Ms
open Spec

namespace MSB

theorem checkWin_frame (t : MSB) : t.checkWin.board = t.board ∧ t.checkWin.gameBoard = t.gameBoard ∧
    t.checkWin.row = t.row ∧ t.checkWin.column = t.column ∧ t.checkWin.flag = t.flag ∧
    t.checkWin.mouse = t.mouse ∧ t.checkWin.left = t.left ∧ t.checkWin.right = t.right ∧
    t.checkWin.double = t.double ∧ t.checkWin.ce = t.ce ∧ t.checkWin.bbbvSolved = t.bbbvSolved ∧
    t.checkWin.preFlagNum = t.preFlagNum ∧ t.checkWin.middleHold = t.middleHold ∧
    t.checkWin.flagedList = t.flagedList := by
  unfold checkWin
  simp only
  split <;> simp

theorem checkWin_state (t : MSB) : t.checkWin.state = .win ∨ t.checkWin.state = t.state := by
  unfold checkWin
  simp only
  split <;> simp

/-- the counters after a left click -/
theorem LeftEff.frame {s s' : MSB} {p : Pos} {r : Option Nat} (e : LeftEff s p s' r) :
    s'.board = s.board ∧ s'.row = s.row ∧ s'.column = s.column ∧ s'.mouse = s.mouse ∧
    s'.left = s.left + 1 ∧ s'.right = s.right ∧ s'.double = s.double ∧ s'.ce ≤ s.ce + 1 ∧
    s'.flagedList = s.flagedList ∧ s'.preFlagNum = s.preFlagNum ∧ s'.middleHold = s.middleHold := by
  cases e with
  | none _ => simp
  | mine _ _ _ => simp
  | safe _ _ _ =>
    obtain ⟨h1, h2, h3, h4, h5, h6, h7, h8, h9, h10, h11, h12, h13, h14⟩ := checkWin_frame { s with
        left := s.left + 1, gameBoard := ‹Board›, ce := s.ce + 1,
        bbbvSolved := s.bbbvSolved + leftGain { s with left := s.left + 1 } p }
    exact ⟨h1, h3, h4, h6, h7, h8, h9, le_of_eq h10, h14, h12, h13⟩

theorem ChordEff.frame {s s' : MSB} {p : Pos} {r : Option Nat} (e : ChordEff s p s' r) :
    s'.board = s.board ∧ s'.row = s.row ∧ s'.column = s.column ∧ s'.mouse = s.mouse ∧
    s'.left = s.left ∧ s'.right = s.right ∧ s'.double = s.double + 1 ∧ s'.ce ≤ s.ce + 1 ∧
    s'.flagedList = s.flagedList ∧ s'.preFlagNum = s.preFlagNum ∧ s'.middleHold = s.middleHold := by
  cases e with
  | none _ => simp
  | opens hc hn hg =>
    rename_i g' n
    obtain ⟨h1, h2, h3, h4, h5, h6, h7, h8, h9, h10, h11, h12, h13, h14⟩ := checkWin_frame
      { s.preChord p with bbbvSolved := (s.preChord p).bbbvSolved + n, gameBoard := g' }
    exact ⟨h1, h3, h4, h6, h7, h8, h9, le_of_eq h10, h14, h12, h13⟩

theorem left_eff {s : MSB} (h : s.GInv) {p : Pos} {s' : MSB} {r : Option Nat} {m : Mouse}
    (hst : s.state = .playing ∨ (s.state = .preFlaging ∧ s.gb p = 10))
    (hc : leftClick { s with mouse := m, state := .playing } p = some (s', r)) :
    p ∈ grid s.row s.column ∧ Core { s with mouse := m, state := .playing } ∧
    LeftEff { s with mouse := m, state := .playing } p s' r := by
  by_cases hp : p ∈ grid s.row s.column
  · have hnl : s.state ≠ .loss := by rcases hst with h | h <;> simp [h]
    have hcore : Core { s with mouse := m, state := .playing } :=
      h.core.congr rfl rfl rfl rfl rfl rfl rfl (.inr hnl)
    obtain ⟨s1, r1, e1, e2⟩ := leftClick_eff hcore hp
    rw [hc] at e1
    simp only [Option.some.injEq, Prod.mk.injEq] at e1
    obtain ⟨rfl, rfl⟩ := e1
    exact ⟨hp, hcore, e2⟩
  · have hn : leftClick { s with mouse := m, state := .playing } p = none := leftClick_none hp
    rw [hn] at hc; simp at hc

theorem chord_eff {s : MSB} (h : s.GInv) {p : Pos} {s' : MSB} {r : Option Nat} {m : Mouse} {mh : Bool}
    {k : Nat} (hc : chordingClick { s with mouse := m, middleHold := mh, right := k } p = some (s', r)) :
    p ∈ grid s.row s.column ∧ GInv { s with mouse := m, middleHold := mh, right := k } ∧
    ChordEff { s with mouse := m, middleHold := mh, right := k } p s' r := by
  by_cases hp : p ∈ grid s.row s.column
  · have hg : GInv { s with mouse := m, middleHold := mh, right := k } :=
      ⟨h.core.congr rfl rfl rfl rfl rfl rfl rfl (.inl rfl), h.ready, h.pre, h.preNum, h.playing, h.win,
        h.loss, h.lossOpen, h.nd⟩
    obtain ⟨s1, r1, e1, e2⟩ := chordingClick_eff hg.core hp
    rw [hc] at e1
    simp only [Option.some.injEq, Prod.mk.injEq] at e1
    obtain ⟨rfl, rfl⟩ := e1
    exact ⟨hp, hg, e2⟩
  · have hn : chordingClick { s with mouse := m, middleHold := mh, right := k } p = none :=
      chordingClick_none hp
    rw [hn] at hc; simp at hc

theorem right_eff {s : MSB} (h : s.GInv) {p : Pos} {s' : MSB} {r : Option Nat} {m : Mouse} {k : Nat}
    {st : GState} (hnl : s.state ≠ .loss) (hst : st ≠ .loss)
    (hc : rightClick { s with mouse := m, preFlagNum := k, state := st } p = some (s', r)) :
    p ∈ grid s.row s.column ∧ Core { s with mouse := m, preFlagNum := k, state := st } ∧
    RightEff { s with mouse := m, preFlagNum := k, state := st } p s' r := by
  by_cases hp : p ∈ grid s.row s.column
  · have hcore : Core { s with mouse := m, preFlagNum := k, state := st } :=
      h.core.congr rfl rfl rfl rfl rfl rfl rfl (.inr hnl)
    obtain ⟨s1, r1, e1, e2⟩ := rightClick_eff hcore hst hp
    rw [hc] at e1
    simp only [Option.some.injEq, Prod.mk.injEq] at e1
    obtain ⟨rfl, rfl⟩ := e1
    exact ⟨hp, hcore, e2⟩
  · have hn : rightClick { s with mouse := m, preFlagNum := k, state := st } p = none := rightClick_none hp
    rw [hn] at hc; simp at hc

/-- the board and the sizes never change -/
theorem Eff.frame {s : MSB} {e : Ev} {p : Pos} {s' : MSB} {r : Option Nat} (h : s.GInv)
    (he : Eff s e p s' r) : s'.board = s.board ∧ s'.row = s.row ∧ s'.column = s.column := by
  cases he with
  | idle => exact ⟨rfl, rfl, rfl⟩
  | start => exact ⟨rfl, rfl, rfl⟩
  | back => exact ⟨rfl, rfl, rfl⟩
  | backClear => exact ⟨rfl, rfl, rfl⟩
  | unflagLast => exact ⟨rfl, rfl, rfl⟩
  | miss => exact ⟨rfl, rfl, rfl⟩
  | preFlag m k _ _ hst _ hp hk h10 hc =>
    have := (right_eff h (by rcases hst with h | h <;> simp [h]) (by simp) hc).2.2.frame
    exact ⟨this.1, this.2.1, this.2.2.1⟩
  | preUnflag m k _ _ hst _ hp hk hk' h10 hc =>
    have := (right_eff (st := s.state) h (by simp [hst]) (by simp [hst]) hc).2.2.frame
    exact ⟨this.1, this.2.1, this.2.2.1⟩
  | right m _ _ hst _ hp hc =>
    have := (right_eff (k := s.preFlagNum) (st := s.state) h (by simp [hst]) (by simp [hst]) hc).2.2.frame
    exact ⟨this.1, this.2.1, this.2.2.1⟩
  | left m _ _ hst _ _ hc =>
    have := (left_eff h hst hc).2.2.frame
    exact ⟨this.1, this.2.1, this.2.2.1⟩
  | chord m mh dec _ _ hst _ _ hc =>
    have := (chord_eff h hc).2.2.frame
    exact ⟨this.1, this.2.1, this.2.2.1⟩

/-! ### no panic -/

/-- the remembered right press has been counted -/
def RightOk (s : MSB) : Prop := NF s.mouse → 0 < s.right

theorem Eff.rightOk {s : MSB} {e : Ev} {p : Pos} {s' : MSB} {r : Option Nat} (h : s.GInv)
    (hr : s.RightOk) (hw : s.state = .playing → e = .rc → p ∈ grid s.row s.column)
    (he : Eff s e p s' r) : s'.RightOk := by
  unfold RightOk at *
  cases he with
  | idle m mh r _ hnf =>
    intro hn
    rcases hnf hn with h1 | ⟨h1, h2, h3⟩
    · exact hr h1
    · exact absurd (hw h1 h2) h3
  | start _ _ => simp [NF]
  | back m _ _ hm => exact fun hn => absurd hn hm
  | backClear m _ _ hm => exact fun hn => absurd hn hm
  | unflagLast _ _ _ _ => simp [NF]
  | preFlag m k _ _ hst _ hp hk h10 hc =>
    have := (right_eff h (by rcases hst with h | h <;> simp [h]) (by simp) hc).2.2.frame
    intro _
    rw [this.2.2.2.2.2.2.2.2.2.2.1]; simp
  | preUnflag m k _ _ hst _ hp hk hk' h10 hc =>
    have := (right_eff (st := s.state) h (by simp [hst]) (by simp [hst]) hc).2.2.frame
    intro _
    rw [this.2.2.2.2.2.2.2.2.2.2.1]; simp
  | right m _ _ hst _ hp hc =>
    have := (right_eff (k := s.preFlagNum) (st := s.state) h (by simp [hst]) (by simp [hst]) hc).2.2.frame
    intro _
    rw [this.2.2.2.2.2.2.2.2.2.2.1]; simp
  | left m _ _ hst hm _ hc =>
    have := (left_eff h hst hc).2.2.frame
    intro hn
    rw [this.2.2.2.1] at hn
    exact absurd hn hm
  | chord m mh dec _ _ hst hm hm' hc =>
    have := (chord_eff h hc).2.2.frame
    intro hn
    rw [this.2.2.2.1] at hn
    cases dec with
    | true => exact absurd hn (hm rfl).1
    | false =>
      rw [this.2.2.2.2.2.1]
      exact hr (hm' rfl hn)
  | miss m _ hm _ _ => exact fun hn => absurd hn hm

/-- the events and positions under which `step` never panics -/
structure WellFormed (s : MSB) (e : Ev) (p : Pos) : Prop where
  pos : p ∈ grid s.row s.column ∨ p = (s.row, s.column)
  mid : e = .mr ∨ e = .m ∨ e = .r → p ∈ grid s.row s.column
  pf : e = .pf → (s.state = .ready ∨ s.state = .preFlaging) → p ∈ grid s.row s.column ∧ s.gb p = 10

theorem grid_of_not_outside {s : MSB} {p : Pos} (hp : p ∈ grid s.row s.column ∨ p = (s.row, s.column))
    (ho : ¬ s.atOutside p = true) : p ∈ grid s.row s.column := by
  rcases hp with h | h
  · exact h
  · subst h; simp [atOutside] at ho

theorem releaseLeft_some {s : MSB} (h : s.Core) {p : Pos} (m : Mouse)
    (hp : p ∈ grid s.row s.column ∨ p = (s.row, s.column)) :
    releaseLeft { s with mouse := m } p ≠ none := by
  unfold releaseLeft
  split
  · simp
  · next ho =>
    obtain ⟨_, _, e, _⟩ := leftClick_eff (s := { s with mouse := m })
      (h.congr rfl rfl rfl rfl rfl rfl rfl (.inl rfl)) (grid_of_not_outside hp ho)
    rw [e]; simp

theorem releaseChord_some {s : MSB} (h : s.Core) {p : Pos} (m : Mouse)
    (hp : p ∈ grid s.row s.column ∨ p = (s.row, s.column)) :
    releaseChord { s with mouse := m } p ≠ none := by
  unfold releaseChord
  split
  · simp
  · next ho =>
    obtain ⟨_, _, e, _⟩ := chordingClick_eff (s := { s with mouse := m })
      (h.congr rfl rfl rfl rfl rfl rfl rfl (.inl rfl)) (grid_of_not_outside hp ho)
    rw [e]; simp

theorem releaseNotFlag_some {s : MSB} (h : s.Core) {p : Pos} (m : Mouse) (hr : 0 < s.right)
    (hp : p ∈ grid s.row s.column ∨ p = (s.row, s.column)) :
    releaseNotFlag { s with mouse := m } p ≠ none := by
  unfold releaseNotFlag
  rw [if_neg (by change ¬ s.right = 0; omega)]
  simp only
  split
  · simp
  · next ho =>
    obtain ⟨_, _, e, _⟩ := chordingClick_eff (s := { s with mouse := m, right := s.right - 1 })
      (h.congr rfl rfl rfl rfl rfl rfl rfl (.inl rfl)) (grid_of_not_outside hp ho)
    rw [e]; simp

theorem rightClick_some {s : MSB} (h : s.Core) {p : Pos} (hst : s.state ≠ .loss)
    (hp : p ∈ grid s.row s.column) : s.rightClick p ≠ none := by
  obtain ⟨_, _, e, _⟩ := rightClick_eff h hst hp
  rw [e]; simp

theorem stepPlaying_some {s : MSB} (h : s.Core) (hst : s.state ≠ .loss) (hr : s.RightOk) {e : Ev} {p : Pos}
    (hp : p ∈ grid s.row s.column ∨ p = (s.row, s.column))
    (hmid : e = .mr ∨ e = .m ∨ e = .r → p ∈ grid s.row s.column) : s.stepPlaying e p ≠ none := by
  unfold stepPlaying
  split
  -- lc
  · split <;> simp
  -- lr
  · split
    · exact releaseLeft_some h _ hp
    · exact releaseChord_some h _ hp
    · simp
    · exact releaseNotFlag_some h _ (hr (by simp [NF, *])) hp
    all_goals simp
  -- l
  · split
    · exact releaseLeft_some h _ hp
    · exact releaseChord_some h _ hp
    · simp
    · exact releaseNotFlag_some h _ (hr (by simp [NF, *])) hp
    all_goals simp
  -- rc
  · split
    · split
      · next hin =>
        have hp' := inRange_iff.mp hin
        split
        · (apply rightClick_some; exacts [h.congr rfl rfl rfl rfl rfl rfl rfl (.inl rfl), hst, hp'])
        · (apply rightClick_some; exacts [h.congr rfl rfl rfl rfl rfl rfl rfl (.inl rfl), hst, hp'])
      · simp
    all_goals simp
  -- rr
  · split
    · simp
    · simp
    · exact releaseChord_some h _ hp
    · exact releaseNotFlag_some h _ (hr (by simp [NF, *])) hp
    all_goals simp
  -- r
  · have hp' := hmid (by simp)
    split
    · simp
    · simp
    · exact releaseChord_some h _ hp
    · exact releaseNotFlag_some h _ (hr (by simp [NF, *])) hp
    · rw [if_pos (inRange_iff.mpr hp')]
      split
      · (apply rightClick_some; exacts [h.congr rfl rfl rfl rfl rfl rfl rfl (.inl rfl), hst, hp'])
      · (apply rightClick_some; exacts [h.congr rfl rfl rfl rfl rfl rfl rfl (.inl rfl), hst, hp'])
    all_goals simp
  · simp
  · simp
  -- mr
  · obtain ⟨_, _, e, _⟩ := chordingClick_eff (s := { s with middleHold := false })
      (h.congr rfl rfl rfl rfl rfl rfl rfl (.inl rfl)) (hmid (by simp))
    rw [e]; simp
  -- m
  · simp only
    split
    · obtain ⟨_, _, e, _⟩ := chordingClick_eff (s := { s with middleHold := !s.middleHold })
        (h.congr rfl rfl rfl rfl rfl rfl rfl (.inl rfl)) (hmid (by simp))
      rw [e]; simp
    · simp
  -- cc
  · split <;> simp
  -- crl
  · split
    · exact releaseChord_some h _ hp
    · exact releaseNotFlag_some h _ (hr (by simp [NF, *])) hp
    · simp
  -- crr
  · split
    · exact releaseChord_some h _ hp
    · exact releaseNotFlag_some h _ (hr (by simp [NF, *])) hp
    · simp
  · simp
  · simp

theorem run_ofClick_some {e : Ev} {p : Pos} {o : Option (MSB × Option Nat)} (h : o ≠ none) :
    Flow.run e p (.ofClick o) ≠ none := by rw [run_ofClick]; exact h

theorem step_some {s : MSB} (h : s.GInv) (hr : s.RightOk) {e : Ev} {p : Pos} (hw : s.WellFormed e p) :
    s.step e p ≠ none := by
  have hco : ∀ t : MSB, t.board = s.board → t.gameBoard = s.gameBoard → t.row = s.row →
      t.column = s.column → t.flag = s.flag → t.pointerX = s.pointerX → t.pointerY = s.pointerY →
      s.state ≠ .loss → t.Core := fun t h1 h2 h3 h4 h5 h6 h7 h8 => h.core.congr h1 h2 h3 h4 h5 h6 h7 (.inr h8)
  rw [step_eq]
  split
  · next hst =>
    have hnl : s.state ≠ .loss := by simp [hst]
    unfold stepReady
    split
    · simp [Flow.run]
    · split
      · simp only; split <;> simp [Flow.run]
      all_goals simp [Flow.run]
    · obtain ⟨h1, h2⟩ := hw.pf rfl (.inl hst)
      rw [if_pos (inRange_iff.mpr h1), if_pos h2]
      (apply run_ofClick_some; apply rightClick_some; exacts [hco _ rfl rfl rfl rfl rfl rfl rfl hnl, (by simp), h1])
    · split
      · simp only
        split
        · next hin =>
          (apply run_ofClick_some; apply rightClick_some; exacts [hco _ rfl rfl rfl rfl rfl rfl rfl hnl, (by simp), (inRange_iff.mp hin)])
        · simp [Flow.run]
      all_goals simp [Flow.run]
    · split <;> simp [Flow.run]
    · split <;> simp [Flow.run]
    · split <;> simp [Flow.run]
    · simp [Flow.run]
  · next hst =>
    have hnl : s.state ≠ .loss := by simp [hst]
    unfold stepPreFlaging
    split
    · exact stepPlaying_some (e := .lc) h.core hnl hr hw.pos (by simp)
    · exact stepPlaying_some (e := .rr) h.core hnl hr hw.pos (by simp)
    · exact stepPlaying_some (e := .mv) h.core hnl hr hw.pos (by simp)
    -- lr
    · split
      · next hmo =>
        split
        · simp only; split <;> simp [Flow.run]
        · next ho =>
          have hp := grid_of_not_outside hw.pos ho
          rw [if_pos (inRange_iff.mpr hp)]
          split
          · exact stepPlaying_some (e := .lr) (s := { s with state := .playing })
              (hco _ rfl rfl rfl rfl rfl rfl rfl hnl) (by simp) hr (.inl hp) (by simp)
          · exact stepPlaying_some (e := .lr) (s := { s with mouse := .upUp })
              (hco _ rfl rfl rfl rfl rfl rfl rfl hnl) hnl (by simp [RightOk, NF]) (.inl hp) (by simp)
      · exact stepPlaying_some (e := .lr) h.core hnl hr hw.pos (by simp)
      · exact stepPlaying_some (e := .lr) h.core hnl hr hw.pos (by simp)
      · exact stepPlaying_some (e := .lr) h.core hnl hr hw.pos (by simp)
      · exact stepPlaying_some (e := .lr) h.core hnl hr hw.pos (by simp)
      · exact stepPlaying_some (e := .lr) h.core hnl hr hw.pos (by simp)
      · simp [Flow.run]
    -- pf
    · obtain ⟨h1, h2⟩ := hw.pf rfl (.inr hst)
      rw [if_pos (inRange_iff.mpr h1), if_pos h2]
      (apply run_ofClick_some; apply rightClick_some; exacts [hco _ rfl rfl rfl rfl rfl rfl rfl hnl, hnl, h1])
    -- rc
    · split
      · simp only
        split
        · next hin =>
          have hp := inRange_iff.mp hin
          split
          · (apply run_ofClick_some; apply rightClick_some; exacts [hco _ rfl rfl rfl rfl rfl rfl rfl hnl, (by simp), hp])
          · next h10 =>
            have h11 : s.gb p = 11 := by
              rcases (h.pre (.inr hst)).1 p hp with h | h
              · exact absurd h h10
              · exact h
            have hf : 0 < s.flag := by
              rw [h.core.flag]
              exact Finset.card_pos.mpr ⟨p, Finset.mem_filter.mpr ⟨hp, .inl h11⟩⟩
            have := h.preNum hst
            rw [if_neg (by omega)]
            split
            · simp [Flow.run]
            · (apply run_ofClick_some; apply rightClick_some; exacts [hco _ rfl rfl rfl rfl rfl rfl rfl hnl, hnl, hp])
        · exact stepPlaying_some (e := .rc) (s := { s with mouse := .upDown })
            (hco _ rfl rfl rfl rfl rfl rfl rfl hnl) hnl (by simp [RightOk, NF]) hw.pos (by simp)
      · simp only
        split
        · exact stepPlaying_some (e := .rc) (s := { s with mouse := .chording, state := .ready })
            (hco _ rfl rfl rfl rfl rfl rfl rfl hnl) (by simp) (by simp [RightOk, NF]) hw.pos (by simp)
        · exact stepPlaying_some (e := .rc) (s := { s with mouse := .chording })
            (hco _ rfl rfl rfl rfl rfl rfl rfl hnl) hnl (by simp [RightOk, NF]) hw.pos (by simp)
      · exact stepPlaying_some (e := .rc) (s := { s with mouse := .chording })
            (hco _ rfl rfl rfl rfl rfl rfl rfl hnl) hnl (by simp [RightOk, NF]) hw.pos (by simp)
      · simp [Flow.run]
    -- cc
    · split <;> simp [Flow.run]
    · simp [Flow.run]
  · next hst => exact stepPlaying_some h.core (by simp [hst]) hr hw.pos hw.mid
  · simp [Flow.run]

/-! ### initial states -/

theorem new_inv {v : View} (hv : Numbered v) : (MSB.new v).GInv := by
  have hall : ∀ p ∈ grid v.row v.col, (MSB.new v).gb p = 10 := by
    intro p hp
    rw [mem_grid] at hp
    exact get_build _ hp.1 hp.2
  refine ⟨⟨rfl, rfl, rect_build _ _ _, hv, fun p hp => .inl (hall p hp), ?_, ?_, ?_⟩, fun _ => hall,
    fun _ => ⟨fun p hp => .inl (hall p hp), rfl, rfl⟩, ?_, ?_, ?_, ?_, ?_, ?_⟩
  · symm
    apply Finset.card_eq_zero.mpr
    apply Finset.filter_eq_empty_iff.mpr
    intro q hq
    have := hall q hq
    rw [gb_bval] at this
    omega
  · intro p _ hb
    have hb : RBefore p (0, 0) := hb
    unfold RBefore at hb
    simp at hb
  · exact fun h => h
  all_goals simp [MSB.new]

theorem zero_numbered (r c : Nat) : Numbered (Board.build r c fun _ _ => 0).view := by
  intro p hp hm
  have hz : ∀ q ∈ vcells (Board.build r c fun _ _ => 0).view,
      val (Board.build r c fun _ _ => 0).view q = 0 := by
    intro q hq
    unfold vcells at hq
    rw [mem_grid] at hq
    have h1 : q.1 < r := by
      have := hq.1
      simp only [Board.view, (rect_build r c _).row_eq] at this
      exact this
    have h2 : q.2 < c := by
      have := hq.2
      simp only [Board.view, (rect_build r c _).col_eq (by omega)] at this
      exact this
    exact get_build _ h1 h2
  rw [hz p hp]
  symm
  have : mines (Board.build r c fun _ _ => 0).view = ∅ := by
    apply Finset.filter_eq_empty_iff.mpr
    intro q hq
    rw [hz q hq]; decide
  simp [adjCount, this]

theorem reset_inv {s : MSB} (h0 : 0 < s.row) : s.reset.GInv := by
  have hall : ∀ p ∈ grid s.row s.column, s.reset.gb p = 10 := by
    intro p hp
    rw [mem_grid] at hp
    exact get_build _ hp.1 hp.2
  refine ⟨⟨(rect_build _ _ _).row_eq, (rect_build _ _ _).col_eq h0, rect_build _ _ _, zero_numbered _ _,
    fun p hp => .inl (hall p hp), ?_, ?_, ?_⟩, fun _ => hall,
    fun _ => ⟨fun p hp => .inl (hall p hp), rfl, rfl⟩, ?_, ?_, ?_, ?_, ?_, ?_⟩
  · symm
    apply Finset.card_eq_zero.mpr
    apply Finset.filter_eq_empty_iff.mpr
    intro q hq
    have := hall q hq
    rw [gb_bval] at this
    omega
  · intro p _ hb
    have hb : RBefore p (0, 0) := hb
    unfold RBefore at hb
    simp at hb
  · exact fun h => h
  all_goals simp [MSB.reset]

theorem load_inv {s : MSB} {v : View} (h : s.GInv) (hst : s.state = .ready ∨ s.state = .preFlaging)
    (hv : Numbered v) (h1 : v.row = s.row) (h2 : v.col = s.column) : GInv { s with board := v } := by
  have hpre := h.pre hst
  refine ⟨⟨h1, h2, h.core.rect, hv, fun p hp => ?_, h.core.flag, ?_, h.core.ptrRow⟩, h.ready, h.pre, h.preNum,
    ?_, ?_, ?_, ?_, h.nd⟩
  · rcases hpre.1 p hp with h | h
    · exact .inl h
    · exact .inr (.inl h)
  · intro p _ hb
    have hb : RBefore p (s.pointerX, s.pointerY) := hb
    rw [hpre.2.1, hpre.2.2] at hb
    unfold RBefore at hb
    simp at hb
  all_goals
    rcases hst with hst | hst <;> simp [hst]

end MSB

/-- The states of `MinesweeperBoard` a program can get to: created on a board with correct numbers, driven
by any `step`s that return, reset at any time, and given another board of the same size while the game has
not begun (`BaseVideo::set_board`, base_video.rs 650-679). -/
inductive Reach : MSB → Prop
  | new {v : View} : Numbered v → Reach (MSB.new v)
  | step {s s' : MSB} {e : Ev} {p : Pos} {r : Option Nat} : Reach s → s.step e p = some (s', r) → Reach s'
  | reset {s : MSB} : Reach s → 0 < s.row → Reach s.reset
  | load {s : MSB} {v : View} : Reach s → (s.state = .ready ∨ s.state = .preFlaging) → Numbered v →
      v.row = s.row → v.col = s.column → Reach { s with board := v }

theorem Reach.inv {s : MSB} (h : Reach s) : s.GInv := by
  induction h with
  | new hv => exact MSB.new_inv hv
  | step _ hs ih => exact (MSB.step_eff hs).inv ih
  | reset _ h0 _ => exact MSB.reset_inv h0
  | load _ hst hv h1 h2 ih => exact MSB.load_inv ih hst hv h1 h2

end Ms
