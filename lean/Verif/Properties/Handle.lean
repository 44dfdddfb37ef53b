import Verif.Model.Handle
import Verif.Properties.Valid

/-! # C83: the player behind Python and JavaScript -/

namespace Ms.Properties
open Ms Ms.Spec

variable {dist : Pos → Pos → ℚ}

/-- A player of the analysed video `A` after any of the calls that a Python or JavaScript program can make: seeking,
assigning the current event (any number), asking for the probabilities.  A call that panics - an exception in Python - may
be followed by others; when seeking panics, only the time shown may have changed. -/
inductive Handled (A : Replay) (h w mines : Nat) : Player → Prop
  | start : Handled A h w mines (A.player h w mines)
  | seek {P P' : Player} {t : ℚ} : Handled A h w mines P → P.setTime t = some P' → Handled A h w mines P'
  | seekPanic {P : Player} {t c : ℚ} : Handled A h w mines P → P.setTime t = none →
      Handled A h w mines { P with curTime := c }
  | assign {P : Player} (id : Nat) : Handled A h w mines P → Handled A h w mines (P.assign id)
  | poss {P P' : Player} {M : List (List (Option ℚ))} : Handled A h w mines P → P.gameBoardPoss = some (P', M) →
      Handled A h w mines P'

theorem possSearch_cur {rs : List Rec} {i : Nat} {b : Bool} (h : Player.possSearch rs i = some b) : ∃ r, rs[i]? = some r := by
  cases i with
  | zero =>
    unfold Player.possSearch at h
    cases hr : rs[0]? with
    | none => rw [hr] at h; cases h
    | some r => exact ⟨r, rfl⟩
  | succ i =>
    unfold Player.possSearch at h
    cases hr : rs[i + 1]? with
    | none => rw [hr] at h; cases h
    | some r => exact ⟨r, rfl⟩

theorem gameBoardPoss_cur {P : Player} {x : Player × List (List (Option ℚ))} (h : P.gameBoardPoss = some x) :
    ∃ r, P.recs[P.cur]? = some r := by
  unfold Player.gameBoardPoss at h
  cases hb : Player.possSearch P.recs P.cur with
  | none => rw [hb] at h; simp at h
  | some b => exact possSearch_cur hb

theorem setTime_cur {P P' : Player} {t : ℚ} (h : P.setTime t = some P') : ∃ r, P.recs[P.cur]? = some r := by
  unfold Player.setTime at h
  cases hr : P.recs[P.cur]? with
  | some r => exact ⟨r, rfl⟩
  | none =>
    exfalso
    cases hs : P.startTime with
    | none => rw [hs] at h; simp at h
    | some s =>
      cases he : P.endTime with
      | none => rw [hs, he] at h; simp at h
      | some e => rw [hs, he, hr] at h; simp at h

theorem setTime_curTime (P : Player) (c t : ℚ) : Player.setTime { P with curTime := c } t = P.setTime t := by
  unfold Player.setTime Player.startTime Player.endTime
  rfl

theorem gameBoardPoss_curTime (P : Player) (c : ℚ) : Player.gameBoardPoss { P with curTime := c } =
    P.gameBoardPoss.map fun x => ({ x.1 with curTime := c }, x.2) := by
  unfold Player.gameBoardPoss
  cases hb : Player.possSearch P.recs P.cur with
  | none => simp [hb]
  | some b =>
    cases b with
    | false => simp [hb]
    | true =>
      cases hr : P.recs[P.cur]? with
      | none => simp [hb, hr]
      | some r =>
        cases hG : P.stream[r.next]? with
        | none => simp [hb, hr, hG]
        | some G =>
          cases hp : G.getPoss with
          | none => simp [hb, hr, hG, hp]
          | some x => simp [hb, hr, hG, hp]

/-- Up to the current event and the time shown, the library's own player. -/
theorem Handled.core {A : Replay} {h w mines : Nat} {P : Player} (hP : Handled A h w mines P) :
    ∃ Q, Playing A h w mines Q ∧ P = { Q with cur := P.cur, curTime := P.curTime } := by
  have jump : ∀ {Q P : Player}, Playing A h w mines Q → P = { Q with cur := P.cur, curTime := P.curTime } → ∀ {r : Rec},
      P.recs[P.cur]? = some r → ∃ Q', Playing A h w mines Q' ∧ P = { Q' with curTime := P.curTime } := by
    intro Q P hQ e r hr
    have hrec : P.recs = Q.recs := by rw [e]
    rw [hrec] at hr
    refine ⟨{ Q with cur := P.cur, curTime := (r.time : ℚ) - Q.delta }, ?_, e⟩
    refine .jump (id := P.cur) (ok := true) hQ ?_
    unfold Player.setEvent
    rw [if_neg (by simp [hQ.inv.state]), hr]
    rfl
  induction hP with
  | start => exact ⟨_, .start, rfl⟩
  | @seek P P' t _ hs ih =>
    obtain ⟨Q, hQ, e⟩ := ih
    obtain ⟨r, hr⟩ := setTime_cur hs
    obtain ⟨Q', hQ', e'⟩ := jump hQ e hr
    rw [e', setTime_curTime] at hs
    exact ⟨P', .seek hQ' hs, rfl⟩
  | @seekPanic P t c _ _ ih =>
    obtain ⟨Q, hQ, e⟩ := ih
    refine ⟨Q, hQ, ?_⟩
    rw [e]
  | @assign P id _ ih =>
    obtain ⟨Q, hQ, e⟩ := ih
    refine ⟨Q, hQ, ?_⟩
    unfold Player.assign
    rw [e]
  | @poss P P' M _ hs ih =>
    obtain ⟨Q, hQ, e⟩ := ih
    obtain ⟨r, hr⟩ := gameBoardPoss_cur hs
    obtain ⟨Q', hQ', e'⟩ := jump hQ e hr
    rw [e', gameBoardPoss_curTime, Option.map_eq_some_iff] at hs
    obtain ⟨⟨P1, M1⟩, h1, h2⟩ := hs
    simp only [Prod.mk.injEq] at h2
    exact ⟨P1, .poss hQ' h1, by rw [← h2.1]⟩

/-- **C83** As long as the current event is one of the video, the player behind Python and JavaScript is the library's own
player, but for the time it shows. -/
theorem C83_player {A : Replay} {h w mines : Nat} {P : Player} (hP : Handled A h w mines P)
    (hc : P.cur < A.recs.length) : ∃ Q, Playing A h w mines Q ∧ P = { Q with curTime := P.curTime } := by
  obtain ⟨Q, hQ, e⟩ := hP.core
  have hr : A.recs[P.cur]? = some (A.recs[P.cur]'hc) := List.getElem?_eq_getElem hc
  refine ⟨{ Q with cur := P.cur, curTime := ((A.recs[P.cur]'hc).time : ℚ) - Q.delta }, ?_, e⟩
  refine .jump (id := P.cur) (ok := true) hQ ?_
  unfold Player.setEvent
  rw [if_neg (by simp [hQ.inv.state]), hQ.inv.recs, hr]
  rfl

/-- **C83** Assigning the current event, whatever was done before (assigning an event that is not there and catching the
exceptions included), shows that event: its board and its counters. -/
theorem C83_assign {v : View} {h w pix mines : Nat} (hv : Numbered v) {evs : List RawEv} {A : Replay}
    (hA : analyse dist v h w pix evs = some A) {P : Player} (hP : Handled A h w mines P) {id : Nat}
    (hid : id < evs.length) (base : Stats) :
    ∃ r g m, A.recs[id]? = some r ∧ A.stream[r.next]? = some g ∧ (P.assign id).gameBoard = some g ∧
      play pix v (evs.take (id + 1)) = some m ∧
      ((P.assign id).stats base).getLeft = some m.left ∧ ((P.assign id).stats base).getRight = some m.right ∧
      ((P.assign id).stats base).getDouble = some m.double ∧ ((P.assign id).stats base).getFlag = some m.flag ∧
      ((P.assign id).stats base).getCe = .ok m.ce ∧ ((P.assign id).stats base).getSolved = .ok m.bbbvSolved ∧
      ((P.assign id).stats base).getMouse = some (Stats.mouseCode m.mouse) := by
  have hlen : A.recs.length = evs.length := by rw [← (analyse_inv hv hA).raw, List.length_map]
  have hne : evs ≠ [] := by rintro rfl; simp at hid
  obtain ⟨Q, hQ, e⟩ := C83_player (.assign id hP) (by show id < _; omega)
  obtain ⟨r, g, h1, h2, h3⟩ := C52_shows hv hA hne hQ
  obtain ⟨m, m1, m2, m3, m4, -, m6, m7, m8, m9, -⟩ := C59_counts hv hA hne hQ base
  have hcur : Q.cur = id := (congrArg Player.cur e).symm
  rw [hcur] at h1 m1
  rw [e]
  exact ⟨r, g, m, h1, h2, h3, m1, m2, m3, m4, m6, m7, m8, m9⟩

/-- **C83** Seeking by time after assigning an event ends where it does after any other history: it never panics, shows
the wanted time (kept within the video) and, with events in order of time, the last event not after it, unless the event
assigned is at exactly that time (see C38). -/
theorem C83_seek {A : Replay} {h w mines : Nat} {P : Player} (hP : Handled A h w mines P) {id : Nat} (r last : Rec)
    (hr : A.recs[id]? = some r) (hl : A.recs.getLast? = some last) (time : ℚ) :
    ∃ P', (P.assign id).setTime time = some P' ∧ Playing A h w mines P' ∧
      P'.curTime = min (max time (-(A.delta : ℚ))) (last.time - A.delta) ∧
      (SortedRecs A.recs → time + A.delta ≠ r.time → EventAt A.recs (time + A.delta) P'.cur) := by
  obtain ⟨Q, hQ, e⟩ := C83_player (.assign id hP) (List.getElem?_eq_some_iff.mp hr).1
  have hcur : Q.cur = id := (congrArg Player.cur e).symm
  obtain ⟨P', h1, h2, -⟩ := C38_total hQ last hl time
  refine ⟨P', by rw [e, setTime_curTime]; exact h1, .seek hQ h1, h2, fun hs hne => ?_⟩
  exact C38_seek_partial hQ hs r (by rw [hcur]; exact hr) hne h1

/-- **C83** An event that is not there can be assigned; then showing the board, asking for the probabilities and seeking
all panic - however often they are tried - until an event that is there is assigned. -/
theorem C83_out_of_range {A : Replay} {h w mines : Nat} {P : Player} (hP : Handled A h w mines P)
    (hc : A.recs.length ≤ P.cur) (t : ℚ) : P.gameBoard = none ∧ P.gameBoardPoss = none ∧ P.setTime t = none := by
  obtain ⟨Q, hQ, e⟩ := hP.core
  have hr : P.recs[P.cur]? = none := by
    have hrec : P.recs = Q.recs := by rw [e]
    rw [hrec, hQ.inv.recs]
    exact List.getElem?_eq_none hc
  refine ⟨by simp [Player.gameBoard, hr], ?_, ?_⟩
  · by_contra hne
    obtain ⟨x, hx⟩ := Option.ne_none_iff_exists'.mp hne
    obtain ⟨r, h2⟩ := gameBoardPoss_cur hx
    rw [hr] at h2
    cases h2
  · by_contra hne
    obtain ⟨x, hx⟩ := Option.ne_none_iff_exists'.mp hne
    obtain ⟨r, h2⟩ := setTime_cur hx
    rw [hr] at h2
    cases h2

/-- **C83** Finding: the time shown stays what it was, and the rates divide the counters of the event shown by it. -/
theorem C83_time_stale {v : View} {h w pix mines : Nat} (hv : Numbered v) {evs : List RawEv} {A : Replay}
    (hA : analyse dist v h w pix evs = some A) {P : Player} (hP : Handled A h w mines P) {id : Nat}
    (hid : id < evs.length) (base : Stats) (now : Nat) :
    ∃ m, play pix v (evs.take (id + 1)) = some m ∧ (P.assign id).curTime = P.curTime ∧
      ((P.assign id).stats base).getLeftS now = some (some (perSecond m.left P.curTime)) ∧
      ((P.assign id).stats base).getBbbvS = .ok (some (perSecond m.bbbvSolved P.curTime)) := by
  have hlen : A.recs.length = evs.length := by rw [← (analyse_inv hv hA).raw, List.length_map]
  have hne : evs ≠ [] := by rintro rfl; simp at hid
  obtain ⟨Q, hQ, e⟩ := C83_player (.assign id hP) (by show id < _; omega)
  obtain ⟨m, m1, m2, -, -, -, -, -, m8, -⟩ := C59_counts hv hA hne hQ base
  have hcur : Q.cur = id := (congrArg Player.cur e).symm
  rw [hcur] at m1
  refine ⟨m, m1, rfl, ?_, ?_⟩
  all_goals
    have hs : ((P.assign id).stats base).state = .display := by rw [e]; exact hQ.inv.state
    have ht : ((P.assign id).stats base).curTime * 1000 = P.curTime := by
      show P.curTime / 1000 * 1000 = P.curTime
      ring
  · have hl : ((P.assign id).stats base).getLeft = some m.left := by rw [e]; exact m2
    unfold Stats.getLeftS
    rw [hl, rate_display hs, ht]
  · have hl : ((P.assign id).stats base).getSolved = .ok m.bbbvSolved := by rw [e]; exact m8
    have hp : ∀ n : Nat, (if ((P.assign id).stats base).curTime < 99 / 100000 then Res.ok (some (0 : ℚ))
        else .ok (fdiv n ((P.assign id).stats base).curTime)) = Res.ok (some (perSecond n P.curTime)) := by
      intro n
      rw [← ht]
      unfold perSecond
      by_cases h : ((P.assign id).stats base).curTime < 99 / 100000
      · rw [if_pos h, if_pos (by linarith)]
      · have h0 : ((P.assign id).stats base).curTime ≠ 0 := by intro h0; rw [h0] at h; norm_num at h
        rw [if_neg h, if_neg (by linarith), fdiv, if_neg h0]
        congr 2
        field_simp
    rw [← hp]
    simp [Stats.getBbbvS, hs, hl, Res.bind]

/-! ### the sample video behind Python -/

set_option synthInstance.maxSize 1000 in
/-- **C83 (refuted)** that the time shown is that of the event shown, as it is after the library's own
`set_current_event_id`: in the sample video, freshly opened and sent to event 10, at 57 ms, both show the same board, but Python
shows time 0 and 0 left clicks per second; and sent from the time 57 ms to event 1, at 0 ms, Python still shows 57 ms. -/
theorem C83_time_refuted : ∃ A P P' Q Q', sampleVideo = some A ∧
    Handled A 3 4 2 P ∧ P = (A.player 3 4 2).assign 10 ∧ (A.player 3 4 2).setEvent 10 = some (P', true) ∧
    P.gameBoard = P'.gameBoard ∧ P.curTime = 0 ∧ P'.curTime = 57 ∧
    (P.stats sampleBase).getLeft = some 3 ∧ (P.stats sampleBase).getLeftS 0 = some (some 0) ∧
    (P'.stats sampleBase).getLeftS 0 = some (some (3000 / 57)) ∧
    (A.player 3 4 2).setTime 57 = some Q ∧ Handled A 3 4 2 (Q.assign 1) ∧ (Q.assign 1).curTime = 57 ∧
    Q.setEvent 1 = some (Q', true) ∧ Q'.curTime = 0 := by
  have hd : (sampleVideo.bind fun A => ((A.player 3 4 2).setEvent 10).bind fun P' => ((A.player 3 4 2).setTime 57).bind
      fun Q => (Q.setEvent 1).map fun Q' => (P'.2, Q'.2, P'.1.curTime, Q.curTime, Q'.1.curTime)) =
      some (true, true, 57, 57, 0) := by decide +kernel
  have hd2 : (sampleVideo.bind fun A => ((A.player 3 4 2).setEvent 10).map fun P' =>
      (decide (((A.player 3 4 2).assign 10).gameBoard = P'.1.gameBoard), (((A.player 3 4 2).assign 10).stats sampleBase).getLeft,
        (((A.player 3 4 2).assign 10).stats sampleBase).getLeftS 0, (P'.1.stats sampleBase).getLeftS 0)) =
      some (true, some 3, some (some 0), some (some (3000 / 57))) := by decide +kernel
  rw [Option.bind_eq_some_iff] at hd
  obtain ⟨A, hA, hd⟩ := hd
  rw [Option.bind_eq_some_iff] at hd
  obtain ⟨⟨P', b⟩, hP, hd⟩ := hd
  rw [Option.bind_eq_some_iff] at hd
  obtain ⟨Q, hQ, hd⟩ := hd
  rw [Option.map_eq_some_iff] at hd
  obtain ⟨⟨Q', b'⟩, hQ', hd⟩ := hd
  simp only [Prod.mk.injEq] at hd
  obtain ⟨rfl, rfl, d1, d2, d3⟩ := hd
  rw [hA, Option.bind_some, hP, Option.map_some, Option.some.injEq] at hd2
  simp only [Prod.mk.injEq, decide_eq_true_eq] at hd2
  exact ⟨A, _, P', Q, Q', hA, .assign 10 .start, rfl, hP, hd2.1, rfl, d1, hd2.2.1, hd2.2.2.1, hd2.2.2.2, hQ,
    .assign 1 (.seek .start hQ), d2, hQ', d3⟩

/-- An event that is not there, and back: the hypotheses of the theorems above are met. -/
example : ∃ A evs, analyse taxi gameSample.view 3 4 10 evs = some A ∧ 2 < evs.length ∧
    Handled A 3 4 2 ((A.player 3 4 2).assign 1000) ∧ ((A.player 3 4 2).assign 1000).gameBoard = none ∧
    ((((A.player 3 4 2).assign 1000).assign 2).gameBoard).isSome = true := by
  have hd : (sampleVideo.map fun A => (A.recs.length, (((A.player 3 4 2).assign 1000).gameBoard).isSome,
      ((((A.player 3 4 2).assign 1000).assign 2).gameBoard).isSome)) = some (15, false, true) := by decide +kernel
  obtain ⟨A, evs, h1, h2, h3, -⟩ := sampleVideo_analysed
  rw [h1, Option.map_some, Option.some.injEq] at hd
  simp only [Prod.mk.injEq] at hd
  refine ⟨A, evs, h3, ?_, .assign 1000 .start, by simpa using hd.2.1, hd.2.2⟩
  rw [← (analyse_inv gameSample_numbered h3).raw, List.length_map, hd.1]
  omega

end Ms.Properties
