import Verif.Lemmas.Replay
import Verif.Model.Whole
import Verif.Properties.Evf
import Verif.Properties.Game

/-! # C48-C51: recording a game, its duration, replaying it -/

namespace Ms.Properties
open Ms.Spec

variable {dist : Pos → Pos → ℚ}

/-! ## C48 the recording is a gapless account of the game -/

theorem timeline_index {rs : List Rec} {n u : Nat} (h : Timeline rs n u) :
    1 ≤ n ∧ (∀ r, rs[0]? = some r → r.prior = 0) ∧ (rs = [] → n = 1) ∧
    (∀ i r, rs[i]? = some r → r.next = r.prior + (if r.useful = 0 then 0 else 1) ∧ r.next < n ∧ r.time ≤ u ∧
      (∀ r', rs[i + 1]? = some r' → r'.prior = r.next ∧ r.time ≤ r'.time) ∧
      (rs[i + 1]? = none → r.next + 1 = n ∧ r.time = u)) := by
  induction h with
  | nil => simp
  | @snoc rs n t r h hn ht h1 h2 ih =>
    obtain ⟨i1, i2, i3, i4⟩ := ih
    have hnext : r.next = r.prior + (if r.useful = 0 then 0 else 1) := by
      rw [h1, h2]; split <;> split <;> omega
    have hlt : r.next + 1 = (if r.useful ≥ 1 then n + 1 else n) := by rw [h2]; split <;> omega
    refine ⟨by split <;> omega, ?_, by simp, ?_⟩
    · intro q hq
      by_cases hne : rs = []
      · subst hne
        simp only [List.nil_append, List.getElem?_cons_zero, Option.some.injEq] at hq
        subst hq
        rw [h1, i3 rfl]
      · rw [List.getElem?_append_left (List.length_pos_iff.mpr hne)] at hq
        exact i2 q hq
    · intro i q hq
      rcases Nat.lt_trichotomy i rs.length with hi | hi | hi
      · rw [List.getElem?_append_left hi] at hq
        obtain ⟨j1, j2, j3, j4, j5⟩ := i4 i q hq
        have hsucc : (rs ++ [r])[i + 1]? = none → False := by
          intro h; rw [List.getElem?_eq_none_iff] at h; simp at h; omega
        refine ⟨j1, by split <;> omega, le_trans j3 ht, fun r' hr' => ?_, fun h => absurd h (fun h => hsucc h)⟩
        by_cases hi' : i + 1 < rs.length
        · rw [List.getElem?_append_left hi'] at hr'
          exact j4 r' hr'
        · have hi2 : i + 1 = rs.length := by omega
          have hnone : rs[i + 1]? = none := List.getElem?_eq_none (by omega)
          rw [hi2, List.getElem?_concat_length, Option.some.injEq] at hr'
          subst hr'
          obtain ⟨k1, k2⟩ := j5 hnone
          exact ⟨by omega, le_trans j3 ht⟩
      · subst hi
        rw [List.getElem?_concat_length, Option.some.injEq] at hq
        subst hq
        have hnone : (rs ++ [r])[rs.length + 1]? = none := List.getElem?_eq_none (by simp)
        exact ⟨hnext, by omega, le_refl _, fun r' hr' => (by rw [hnone] at hr'; cases hr'), fun _ => ⟨hlt, rfl⟩⟩
      · rw [List.getElem?_eq_none (by simp; omega)] at hq
        cases hq

/-- **C48** Before the game nothing is recorded. -/
theorem C48_nothing_before {b : Bool} {t : Nat} {L : Live} (h : Session dist b t L) (hs : L.gstate = .ready) :
    L.recs = [] ∧ L.stream = [] :=
  h.linv.ready (h.linv.gst.symm.trans hs)

/-- **C48** In every session, once a recording has begun: the stream of boards starts with the covered board;
the first event lies on the board at time 0 and refers to that board; each event refers to two boards of the
stream, the same one if it had no effect (level 0) and consecutive ones otherwise; the next event takes up where
the previous left off, no earlier in time; the last event refers to the last board. -/
theorem C48_timeline {b : Bool} {t : Nat} {L : Live} (h : Session dist b t L) (hs : L.gstate ≠ .ready) :
    L.stream[0]? = some (coveredBoard L.height L.width) ∧
    (∃ r, L.recs[0]? = some r ∧ OnBoard L r ∧ r.time = 0 ∧ r.prior = 0) ∧
    (∀ i r, L.recs[i]? = some r →
      r.next = r.prior + (if r.useful = 0 then 0 else 1) ∧ r.next < L.stream.length ∧
      (∀ r', L.recs[i + 1]? = some r' → r'.prior = r.next ∧ r.time ≤ r'.time) ∧
      (L.recs[i + 1]? = none → r.next + 1 = L.stream.length)) := by
  have hi := h.linv
  have hs' : L.msb.state ≠ .ready := by rw [← hi.gst]; exact hs
  obtain ⟨u, hu, -⟩ := hi.line hs'
  obtain ⟨-, t2, -, t4⟩ := timeline_index hu
  obtain ⟨r, r1, r2, r3⟩ := hi.head hs'
  refine ⟨by rw [← List.head?_eq_getElem?]; exact hi.first hs', ⟨r, ?_, r2, r3, ?_⟩, fun i r hr => ?_⟩
  · rw [← List.head?_eq_getElem?]; exact r1
  · exact t2 r (by rw [← List.head?_eq_getElem?]; exact r1)
  · obtain ⟨k1, k2, -, k4, k5⟩ := t4 i r hr
    exact ⟨k1, k2, k4, fun hn => (k5 hn).1⟩

/-- **C48** What a call of `step` adds.  A refused event (`Err`) changes nothing, nor does any event after the
end; an event that brings the game back to its initial state empties the recording; every other one is recorded
with its name, its position, the milliseconds since the recording began, the level the game machine reported and the machine's counters, its boards being
the game board before and after it (of a click on a mine, level 0, the opened board is not stored). -/
theorem C48_step {b : Bool} {t now : Nat} {L L' : Live} {e : Ev} {pos : Pos} {ok : Bool} (h : Session dist b t L)
    (hle : t ≤ now) (he : e ≠ .pf) (h1 : pos.1 < 65536) (h2 : pos.2 < 65536)
    (hs : L.step dist now e pos = some (L', ok)) :
    (ok = false → L' = L) ∧
    (L.gstate = .win ∨ L.gstate = .loss → L' = L) ∧
    (ok = true → L.gstate ≠ .win → L.gstate ≠ .loss → ∃ a,
      L.msb.step e (pos.1 / L.pix, pos.2 / L.pix) = some (L'.msb, some a) ∧
      (L'.gstate = .ready ∧ L'.recs = [] ∧ L'.stream = [] ∨
        ∃ r new, L'.recs = L.recs ++ [r] ∧ r.ev = e ∧ (r.y, r.x) = pos ∧ r.useful = a ∧
          L'.videoStart = (if L.gstate = .ready then now else L.videoStart) ∧
          r.time = (now - L'.videoStart + 500) / 1000 ∧
          (r.mouseSt, r.left, r.right, r.double) = (L'.msb.mouse, L'.msb.left, L'.msb.right, L'.msb.double) ∧
          (r.ce, r.flag, r.bbbvSolved) = (L'.msb.ce, L'.msb.flag, L'.msb.bbbvSolved) ∧
          L'.stream = (if L.gstate = .ready then [coveredBoard L.height L.width] else L.stream) ++ new ∧
          L'.stream[r.prior]? = some L.msb.gameBoard ∧
          (L'.gstate = .loss ∧ r.useful = 0 ∨ L'.stream[r.next]? = some L'.msb.gameBoard))) := by
  have hi := h.linv
  have hg := hi.reach.inv
  have hi' := Live.step_inv hi hle he h1 h2 hs
  have eff := Live.step_eff hg (fun hp => hi.stream_ne (by simp [hp])) hs
  cases eff with
  | over ho =>
    refine ⟨by simp, fun _ => rfl, fun _ w1 w2 => ?_⟩
    rw [hi.gst] at w1 w2
    rcases ho with x | x | x
    · exact absurd x w2
    · exact absurd x w1
    · exact absurd x hg.nd
  | refused m hm =>
    have : m = L.msb := MSB.step_err hg hm
    subst this
    exact ⟨fun _ => rfl, fun _ => rfl, fun h => by cases h⟩
  | back m a hm hr =>
    refine ⟨by simp, fun hw => ?_, fun _ _ _ => ⟨a, hm, .inl ⟨hr, rfl, rfl⟩⟩⟩
    exfalso
    rw [hi.gst] at hw
    have : m = L.msb := by
      rcases hw with hw | hw <;> simp [MSB.step_eq, hw, MSB.Flow.run] at hm <;> exact hm.1.symm
    rw [this] at hr
    rcases hw with hw | hw <;> rw [hw] at hr <;> cases hr
  | saved m a path hm hr ho hp ht =>
    refine ⟨by simp, fun hw => ?_, fun _ _ _ => ⟨a, hm, .inr ?_⟩⟩
    · exfalso
      rw [hi.gst] at hw
      rcases hw with hw | hw <;> rw [hw] at ho <;> simp at ho
    · have hready : L.stream = [] ↔ L.gstate = .ready := by
        rw [hi.gst]
        exact ⟨fun hs => by by_contra hc; exact hi.stream_ne hc hs, fun hs => (hi.ready hs).2⟩
      have hS : (L.recorded now e pos m a path).stream =
          (if L.gstate = .ready then [coveredBoard L.height L.width] else L.stream) ++
            (if a ≥ 1 then [m.gameBoard] else []) := by
        show L.newStream m a = _
        unfold Live.newStream
        simp only [hready]
      have hlast : (if L.gstate = .ready then [coveredBoard L.height L.width] else L.stream).getLast? =
          some L.msb.gameBoard := by
        split
        · rename_i hs
          rw [hi.gst] at hs
          rw [Live.covered_ready hg hs, hi.hrow, hi.hcol]; rfl
        · rename_i hs
          rw [hi.gst] at hs
          exact hi.shows hs (by rcases ho with h | h | h <;> simp [h])
      set S0 := (if L.gstate = .ready then [coveredBoard L.height L.width] else L.stream) with hS0
      have hne : S0 ≠ [] := by intro h; rw [h] at hlast; cases hlast
      have hpos := List.length_pos_iff.mpr hne
      rw [List.getLast?_eq_getElem?] at hlast
      refine ⟨L.newRec (L.newStream m a) m a (L.stamp now) e pos path, _, rfl, rfl, ?_, rfl, ?_, ?_, rfl, rfl, hS, ?_, ?_⟩
      · show (pos.1 % 65536, pos.2 % 65536) = pos
        rw [Nat.mod_eq_of_lt h1, Nat.mod_eq_of_lt h2]
      · rw [hi.gst]; rfl
      · show L.stamp now = (now - (if L.msb.state = .ready then now else L.videoStart) + 500) / 1000
        unfold Live.stamp
        split
        · simp
        · rfl
      · have hpr : (L.newRec (L.newStream m a) m a (L.stamp now) e pos path).prior = S0.length - 1 := by
          refine Live.stream_len ?_
          rw [hS0]; simp only [hready]
        rw [hpr, hS, List.getElem?_append_left (by omega)]
        exact hlast
      · by_cases hl : (m.state = .loss ∧ a = 0)
        · exact .inl hl
        · right
          have hnx : (L.newRec (L.newStream m a) m a (L.stamp now) e pos path).next =
              (L.recorded now e pos m a path).stream.length - 1 := rfl
          rw [hnx, ← List.getLast?_eq_getElem?]
          by_cases ha : a ≥ 1
          · rw [hS, if_pos ha]; simp; rfl
          · exact hi'.shows hr (fun h => hl ⟨h, by omega⟩)

/-- **C48** The recorded mouse path: 0 until the first cell is opened; then, for every event, the path recorded with the
latest earlier event on the board plus the distance from it. -/
theorem C48_path {b : Bool} {t now : Nat} {L L' : Live} {e : Ev} {pos : Pos} (h : Session dist b t L)
    (hs : L.step dist now e pos = some (L', true)) (r : Rec) (hr : L'.recs = L.recs ++ [r]) :
    (L.gstate ≠ .playing → r.path = 0) ∧
    (L.gstate = .playing → ∃ l q l', L.recs = l ++ q :: l' ∧ OnBoard L q ∧ (∀ q' ∈ l', ¬ OnBoard L q') ∧
      r.path = q.path + dist (q.y, q.x) pos) := by
  have hi := h.linv
  have hg := hi.reach.inv
  have eff := Live.step_eff hg (fun hp => hi.stream_ne (by simp [hp])) hs
  generalize hok : true = ok at eff
  cases eff with
  | over ho => simp at hr
  | refused m hm => cases hok
  | back m a hm hb => simp at hr
  | saved m a path hm hb ho hp ht =>
    have : r.path = path := by
      have h1 : L.recs ++ [L.newRec (L.newStream m a) m a (L.stamp now) e pos path] = L.recs ++ [r] := hr
      have h2 := List.append_cancel_left h1
      simp only [List.cons.injEq, and_true] at h2
      rw [← h2]; rfl
    rw [hi.gst, this]
    refine ⟨fun hc => ?_, fun hc => ?_⟩
    · rw [if_neg hc, Option.some.injEq] at hp
      exact hp.symm
    · rw [if_pos hc] at hp
      unfold Live.pathFrom at hp
      rw [Option.map_eq_some_iff] at hp
      obtain ⟨q, hq, hp⟩ := hp
      rw [List.find?_eq_some_iff_append] at hq
      obtain ⟨hq1, as, bs, hq2, hq3⟩ := hq
      refine ⟨bs.reverse, q, as.reverse, ?_, ?_, ?_, hp.symm⟩
      · have := congrArg List.reverse hq2
        simpa using this
      · unfold Live.inside at hq1
        unfold OnBoard
        simp at hq1
        exact hq1
      · intro q' hq' hc
        have := hq3 q' (by simpa using hq')
        unfold Live.inside at this
        unfold OnBoard at hc
        simp at this
        omega

/-- **C48** The size of the cells in pixels, which turns positions into cells, cannot be changed during a game. -/
theorem C48_pix (L : Live) (pix : Nat) :
    (L.gstate = .preFlaging ∨ L.gstate = .playing → L.setPix pix = (L, false)) ∧
    (L.gstate = .ready → L.setPix pix = ({ L with pix := pix }, true)) := by
  unfold Live.setPix
  refine ⟨fun h => if_pos ?_, fun h => if_neg ?_⟩
  · rcases h with h | h <;> simp [h]
  · simp [h]

/-! ### a session to look at -/

/-- drive a recording: clock, event, pixel position; stops at a call no session makes -/
def runLive (dist : Pos → Pos → ℚ) : Nat → Live → List (Nat × Ev × Pos) → Option (Nat × Live)
  | t, L, [] => some (t, L)
  | t, L, (now, e, pos) :: l =>
    if t ≤ now ∧ e ≠ .pf ∧ pos.1 < 65536 ∧ pos.2 < 65536 then
      (L.step dist now e pos).bind fun r => runLive dist now r.1 l
    else none

theorem session_run {b : Bool} : ∀ {l : List (Nat × Ev × Pos)} {t : Nat} {L : Live} {t' : Nat} {L' : Live},
    Session dist b t L → runLive dist t L l = some (t', L') → Session dist b t' L'
  | [], t, L, t', L', h, hr => by
    simp only [runLive, Option.some.injEq, Prod.mk.injEq] at hr
    obtain ⟨rfl, rfl⟩ := hr
    exact h
  | (now, e, pos) :: l, t, L, t', L', h, hr => by
    unfold runLive at hr
    split at hr
    · rename_i hc
      rw [Option.bind_eq_some_iff] at hr
      obtain ⟨⟨L1, ok⟩, h1, h2⟩ := hr
      exact session_run (h.step hc.1 hc.2.1 hc.2.2.1 hc.2.2.2 h1) h2
    · cases hr

/-- the distance in the examples: in rows and columns -/
def taxi (p q : Pos) : ℚ := ((p.1 - q.1 + (q.1 - p.1) + (p.2 - q.2) + (q.2 - p.2) : Nat) : ℚ)

/-- the sample game on the 3 x 4 board with 10-pixel cells -/
def liveEvents : List (Nat × Ev × Pos) :=
  [(1000, .mv, (3, 3)), (2000, .lc, (5, 35)), (52600, .lr, (5, 35)), (60000, .rc, (25, 25)), (70000, .rr, (25, 25)),
   (80000, .mv, (500, 700)), (90000, .lc, (5, 5)), (91000, .lr, (5, 5)), (100000, .rc, (15, 5)), (101000, .rr, (15, 5)),
   (110000, .lc, (25, 15)), (110400, .lr, (25, 15)), (140000, .lc, (25, 35)), (141000, .lr, (25, 35)), (150000, .lc, (25, 5)), (160501, .lr, (25, 5))]

def sampleLive : Option (Nat × Live) := runLive taxi 7 (Live.new gameSample.view 10 7) liveEvents

theorem sampleLive_session : ∃ t L, sampleLive = some (t, L) ∧ Session taxi true t L ∧ L.gstate = .win := by
  have hs : (sampleLive.map fun r => r.2.gstate) = some .win := by decide +kernel
  rw [Option.map_eq_some_iff] at hs
  obtain ⟨⟨t, L⟩, h1, h2⟩ := hs
  exact ⟨t, L, h1, session_run (Session.new gameSample_numbered) h1, h2⟩

example : (sampleLive.map fun r => r.2.recs.map fun q => [q.time, q.y, q.x, q.useful, q.prior, q.next]) =
    some [[0, 5, 35, 0, 0, 0], [51, 5, 35, 2, 0, 1], [58, 25, 25, 1, 1, 2], [68, 25, 25, 0, 2, 2],
      [78, 500, 700, 0, 2, 2], [88, 5, 5, 0, 2, 2], [89, 5, 5, 2, 2, 3], [98, 15, 5, 1, 3, 4], [99, 15, 5, 0, 4, 4],
      [108, 25, 15, 0, 4, 4], [108, 25, 15, 2, 4, 5], [138, 25, 35, 0, 5, 5], [139, 25, 35, 2, 5, 6],
      [148, 25, 5, 0, 6, 6], [159, 25, 5, 2, 6, 7]] := by decide +kernel

/-! ## C49 the duration of a game -/

/-- **C49** (partial) When a game has ended and it had opened cells before the event that ended it, the recorded
duration is the time of the last event minus the time of the first event that opened a cell.  Missing: games that
end with the first click, see `C49_first_click`. -/
theorem C49_rtime_partial {b : Bool} {t : Nat} {L : Live} (h : Session dist b t L)
    (hend : L.gstate = .win ∨ L.gstate = .loss) (l : List Rec) (r : Rec) (hl : L.recs = l ++ [r])
    (hopen : ∃ q ∈ l, 2 ≤ q.useful) :
    ∃ l1 r1 l2, l = l1 ++ r1 :: l2 ∧ (∀ q ∈ l1, q.useful < 2) ∧ 2 ≤ r1.useful ∧ L.rtimeMs + r1.time = r.time := by
  rw [h.linv.gst] at hend
  obtain ⟨l', r', e1, -, -, hc⟩ := h.linv.fin hend
  rw [hl] at e1
  have e2 := List.append_inj' e1 rfl
  simp only [List.cons.injEq, and_true] at e2
  obtain ⟨rfl, rfl⟩ := e2
  rcases hc with ⟨l1, r1, l2, c1, c2, c3, c4⟩ | ⟨c1, -⟩
  · exact ⟨l1, r1, l2, c1, fun q hq => by have := c2 q hq; omega, by omega, c4⟩
  · obtain ⟨q, hq, h2⟩ := hopen
    have := c1 q hq
    omega

/-- **C49** A game that ends with the first opening click: the duration is not 0 but the time of that click minus
what the previous game left behind as its start (0 if there was none). -/
theorem C49_first_click {b : Bool} {t : Nat} {L : Live} (h : Session dist b t L)
    (hend : L.gstate = .win ∨ L.gstate = .loss) (l : List Rec) (r : Rec) (hl : L.recs = l ++ [r])
    (hopen : ∀ q ∈ l, q.useful < 2) : L.rtimeMs + L.gameStart = r.time := by
  rw [h.linv.gst] at hend
  obtain ⟨l', r', e1, -, -, hc⟩ := h.linv.fin hend
  rw [hl] at e1
  have e2 := List.append_inj' e1 rfl
  simp only [List.cons.injEq, and_true] at e2
  obtain ⟨rfl, rfl⟩ := e2
  rcases hc with ⟨l1, r1, l2, c1, c2, c3, c4⟩ | ⟨-, -, -, c4⟩
  · have := hopen r1 (by rw [c1]; simp)
    omega
  · exact c4

/-- **C49** `is_completed` after the end -/
theorem C49_completed {b : Bool} {t : Nat} {L : Live} (h : Session dist b t L) :
    (L.gstate = .win → L.completed = true) ∧ (L.gstate = .loss → L.completed = false) := by
  rw [h.linv.gst]; exact ⟨h.linv.done, h.linv.lost⟩

example : (sampleLive.map fun r => (r.2.rtimeMs, r.2.completed)) = some (108, true) := by decide +kernel

/-- a board won by the first click -/
def firstClickBoard : Board := [[0, 0, 0], [1, 1, 0], [-1, 1, 0]]

/-- **C49** is refuted for games won or lost by their first click: the button is pressed at 0 ms and the
cell opened, and the game won, at 300 ms; the duration, 0 ms by the rule above, is recorded as 300 ms. -/
theorem C49_refuted : ∃ t L, Session taxi true t L ∧ L.gstate = .win ∧ L.rtimeMs = 300 ∧
    L.recs.map (fun q => (q.time, q.useful)) = [(0, 0), (300, 2)] := by
  have hs : (runLive taxi 0 (Live.new firstClickBoard.view 10 0) [(1000, .lc, (1, 1)), (301000, .lr, (1, 1))]).map
      (fun r => (r.2.gstate, r.2.rtimeMs, r.2.recs.map fun q => (q.time, q.useful))) =
      some (.win, 300, [(0, 0), (300, 2)]) := by decide +kernel
  rw [Option.map_eq_some_iff] at hs
  obtain ⟨⟨t, L⟩, h1, h2⟩ := hs
  simp only [Prod.mk.injEq] at h2
  exact ⟨t, L, session_run (Session.new (by unfold Numbered; decide)) h1, h2⟩

/-! ## C50 replaying a recording -/

/-- A recorded event `r` and the corresponding event `q` of a replay agree: everything but the length of the mouse
path; `d` more double clicks, and `c` more effective clicks if `ex`. -/
def SameEvent (ex : Prop) (d c : Nat) (r q : Rec) : Prop :=
  r.raw = q.raw ∧ r.useful = q.useful ∧ r.prior = q.prior ∧ r.next = q.next ∧ r.mouseSt = q.mouseSt ∧
  r.left = q.left ∧ r.right = q.right ∧ r.flag = q.flag ∧ r.bbbvSolved = q.bbbvSolved ∧
  r.double = q.double + d ∧ (ex → r.ce = q.ce + c)

/-- **C50** In every session, once an event has been recorded, replaying the recorded events on the game's board
with `analyse` does not panic and gives the same stream of boards, a machine in the same state showing the same
board, and the same events: names, positions, times, levels, board ids, mouse states, and left, right, flag
and solved-3BV counts.  The double-click count is smaller by its value at the first event, and, if the board was
not replaced after the recording began, `ce` is smaller by a constant no larger than its value at the first
event. -/
theorem C50_replay {b : Bool} {t : Nat} {L : Live} (h : Session dist b t L)
    (hs : L.gstate ≠ .ready) (h1 : L.height * L.pix < 65536) (h2 : L.width * L.pix < 65536) :
    ∃ A r0 c, analyse dist L.msb.board L.height L.width L.pix (L.recs.map Rec.raw) = some A ∧
      A.stream = L.stream ∧ A.msb.state = L.gstate ∧ A.msb.gameBoard = L.msb.gameBoard ∧
      L.recs[0]? = some r0 ∧ c ≤ r0.ce ∧
      List.Forall₂ (SameEvent (b = true) r0.double c) L.recs A.recs := by
  rw [h.linv.gst] at hs
  have hc := h.linv.reach.inv.core
  obtain ⟨r0, hr0, -⟩ := h.linv.head hs
  have key : ∀ d c A, (∀ r, L.recs.head? = some r → r.double = d ∧ c ≤ r.ce) →
      analyse dist L.msb.board L.height L.width L.pix (L.recs.map Rec.raw) = some A → A.stream = L.stream →
      MSB.Sim (b = true) d c L.msb A.msb → List.Forall₂ (RecMatch (b = true) d c) L.recs A.recs →
      ∃ A r0 c, analyse dist L.msb.board L.height L.width L.pix (L.recs.map Rec.raw) = some A ∧
      A.stream = L.stream ∧ A.msb.state = L.gstate ∧ A.msb.gameBoard = L.msb.gameBoard ∧
      L.recs[0]? = some r0 ∧ c ≤ r0.ce ∧
      List.Forall₂ (SameEvent (b = true) r0.double c) L.recs A.recs := by
    intro d c A h0 a1 a3 a5 a6
    have f := Live.sim_fields a5
    obtain ⟨g1, g2⟩ := h0 r0 hr0
    refine ⟨A, r0, c, a1, a3, by rw [h.linv.gst]; exact f.2.2.2.2.2.2.2.1, f.2.2.2.2.2.2.1,
      by rw [← List.head?_eq_getElem?]; exact hr0, g2, a6.imp fun r q m => ?_⟩
    rw [g1]
    exact ⟨m.raw, m.useful, m.prior, m.next, m.mouseSt, m.left, m.right, m.flag, m.bbbvSolved, m.double, m.ce⟩
  by_cases hp : L.msb.state = .preFlaging
  · obtain ⟨d, c, h0, hv⟩ := (h.rinv h1 h2).pre hp
    obtain ⟨A, a1, a2, a3, a4, -, a5, a6⟩ := hv L.msb.board hc.num (hc.hrow.trans h.linv.hrow.symm)
      (hc.hcol.trans h.linv.hcol.symm)
    exact key d c A h0 a1 a3 (a5 rfl) (a6.imp fun _ _ m => { m with ce := fun hx => m.ce ⟨hx, rfl⟩ })
  · obtain ⟨d, c, h0, A, a1, a2, a3, a4, a5, a6⟩ := (h.rinv h1 h2).game hs hp
    exact key d c A h0 a1 a3 a5 a6

/-- **C50** A recording that begins with clean counters is reproduced exactly: also `double`, and `ce` if the board
was not replaced meanwhile. -/
theorem C50_replay_exact {b : Bool} {t : Nat} {L : Live} (h : Session dist b t L)
    (hs : L.gstate ≠ .ready) (h1 : L.height * L.pix < 65536) (h2 : L.width * L.pix < 65536)
    (r0 : Rec) (hr0 : L.recs[0]? = some r0) (hd : r0.double = 0) (hce : r0.ce = 0) :
    ∃ A, analyse dist L.msb.board L.height L.width L.pix (L.recs.map Rec.raw) = some A ∧
      A.stream = L.stream ∧ A.msb.state = L.gstate ∧ A.msb.gameBoard = L.msb.gameBoard ∧
      List.Forall₂ (fun r q => SameEvent (b = true) 0 0 r q) L.recs A.recs := by
  obtain ⟨A, r1, c, a1, a2, a3, a4, a5, a6, a7⟩ := C50_replay h hs h1 h2
  rw [hr0, Option.some.injEq] at a5
  subst a5
  rw [hce] at a6
  have : c = 0 := by omega
  subst this
  rw [hd] at a7
  exact ⟨A, a1, a2, a3, a4, a7⟩

/-- the replayed sample: same boards, state and counters -/
example : (sampleLive.bind fun r => (analyse taxi r.2.msb.board 3 4 10 (r.2.recs.map Rec.raw)).map fun A =>
      decide (A.stream = r.2.stream ∧ A.msb.state = r.2.gstate ∧
        A.recs.map (fun q => [q.useful, q.prior, q.next, q.left, q.right, q.double, q.ce, q.flag, q.bbbvSolved]) =
        r.2.recs.map (fun q => [q.useful, q.prior, q.next, q.left, q.right, q.double, q.ce, q.flag, q.bbbvSolved]))) =
    some true := by decide +kernel
example : (sampleLive.map fun r => (r.2.recs.map fun q => (q.double, q.ce)).head?) = some (some (0, 0)) := by
  decide +kernel

/-- The lengths of the mouse path do differ between the recording and its replay: for a point off the board in both
directions the recording counts the way to it, the replay does not (fifth event). -/
example : (sampleLive.bind fun r => (analyse taxi r.2.msb.board 3 4 10 (r.2.recs.map Rec.raw)).map fun A =>
      (r.2.recs.map (·.path), A.recs.map (·.path))) =
    some ([0, 0, 30, 30, 1180, 70, 70, 80, 80, 100, 100, 120, 120, 150, 150],
      [0, 0, 30, 30, 30, 70, 70, 80, 80, 100, 100, 120, 120, 150, 150]) := by decide +kernel

/-! ### through a file -/

theorem evOf_evName (e : Ev) : evOf (evName e) = e := by cases e <;> decide

/-- an event as it is read -/
def fromFile (e : Evf.Event) : RawEv := ⟨e.ms, evOf e.mouse, e.x, e.y⟩

/-- **C50** Saving and loading: the record written for a session whose board is `B` is within the field widths of
the format.  Then parsing the generated bytes and running `analyse` on what was parsed gives the boards, the
state and the events of the recording. -/
theorem C50_file_replay {b : Bool} {t : Nat} {L : Live} (h : Session dist b t L)
    (hs : L.gstate ≠ .ready) (h1 : L.height * L.pix < 65536) (h2 : L.width * L.pix < 65536)
    (B : Board) (hR : Rect B L.height L.width) (hB : L.msb.board = B.view) (v : Evf.Rec)
    (v1 : v.hdr.height = L.height) (v2 : v.hdr.width = L.width) (v3 : v.hdr.cellPixel = L.pix)
    (v4 : v.board = B.get) (v5 : v.events = L.recs.map Rec.toFile) (hv : FitsEvf v) :
    ∃ bs out A r0 c, Evf.generate v = some bs ∧ Evf.parseVideo bs = .ok (out, []) ∧
      analyse dist out.board.view out.hdr.height out.hdr.width out.hdr.cellPixel (out.events.map fromFile) = some A ∧
      A.stream = L.stream ∧ A.msb.state = L.gstate ∧ A.msb.gameBoard = L.msb.gameBoard ∧
      L.recs[0]? = some r0 ∧ c ≤ r0.ce ∧
      List.Forall₂ (SameEvent (b = true) r0.double c) L.recs A.recs := by
  obtain ⟨bs, out, g1, g2, g3, -, g5, -, g7, g8, g9, g10⟩ := C23_evf_roundtrip v hv
  obtain ⟨A, r0, c, a⟩ := C50_replay h hs h1 h2
  refine ⟨bs, out, A, r0, c, g1, by simpa using g2 [], ?_, a.2⟩
  have hnum : Numbered ⟨v.hdr.height, v.hdr.width, v.board⟩ := by
    have := h.linv.reach.inv.core.num
    rw [hB] at this
    rw [v1, v2, v4]
    have hpos : 0 < L.height := by rw [← v1]; exact hv.height_pos
    have e : B.view = ⟨L.height, L.width, B.get⟩ := by
      unfold Board.view
      rw [hR.row_eq, hR.col_eq hpos]
    rw [← e]; exact this
  have hout : out.board = B := by
    rw [v1, v2] at g7
    refine rect_ext g7 hR fun p hp => ?_
    rw [mem_grid] at hp
    have := g10 hnum p.1 p.2 (by rw [v1]; exact hp.1) (by rw [v2]; exact hp.2)
    rw [v4] at this
    exact this
  have hev : out.events.map fromFile = L.recs.map Rec.raw := by
    rw [g5, v5, List.map_map]
    refine List.map_congr_left fun r _ => ?_
    show (⟨r.time, evOf (evName r.ev), r.x, r.y⟩ : RawEv) = _
    rw [evOf_evName]; rfl
  rw [hout, hev, g3, v1, v2, v3, ← hB]
  exact a.1

/-- the record written for the sample session -/
def sampleFile (L : Live) : Evf.Rec where
  hdr := ⟨L.completed, false, true, L.height, L.width, 2, L.pix, 0, 5, L.rtimeMs⟩
  strs := sampleRec.strs
  board := gameSample.get
  events := L.recs.map Rec.toFile
  hasChecksum := false
  checksum := List.replicate 32 0

/-- a case that meets the hypotheses of `C50_file_replay` -/
example : ∃ t L, Session taxi true t L ∧ L.gstate ≠ .ready ∧ L.height * L.pix < 65536 ∧ L.width * L.pix < 65536 ∧
    Rect gameSample L.height L.width ∧ L.msb.board = gameSample.view ∧ FitsEvf (sampleFile L) ∧
    (sampleFile L).events = L.recs.map Rec.toFile := by
  have hs : (sampleLive.map fun r => (r.2.gstate, r.2.height, r.2.width, r.2.pix, r.2.rtimeMs)) =
      some (.win, 3, 4, 10, 108) := by decide +kernel
  have he : (sampleLive.map fun r => decide (∀ e ∈ r.2.recs.map Rec.toFile,
      e.mouse ∈ ["mv", "lc", "lr", "rc", "rr", "mc", "mr", "pf", "cc"] ∧ e.ms < 2 ^ 24 ∧ e.x < 2 ^ 16 ∧ e.y < 2 ^ 16)) =
      some true := by decide +kernel
  obtain ⟨t, L, h1, h2, h3⟩ := sampleLive_session
  rw [h1] at hs he
  simp only [Option.map_some, Option.some.injEq, Prod.mk.injEq, decide_eq_true_eq] at hs he
  obtain ⟨a1, a2, a3, a4, a5⟩ := hs
  refine ⟨t, L, h2, by simp [a1], by simp [a2, a4], by simp [a3, a4], ?_, ?_, ?_, rfl⟩
  · rw [a2, a3]; exact ⟨rfl, by decide⟩
  · have hb : ∀ (l : List (Nat × Ev × Pos)) (t : Nat) (L : Live) (b : Bool) (t' : Nat) (L' : Live),
        Session taxi b t L → runLive taxi t L l = some (t', L') → L'.msb.board = L.msb.board := by
      intro l
      induction l with
      | nil =>
        intro t L b t' L' _ h
        simp only [runLive, Option.some.injEq, Prod.mk.injEq] at h
        rw [h.2]
      | cons x l ih =>
        obtain ⟨now, e, pos⟩ := x
        intro t L b t' L' hS h
        unfold runLive at h
        split at h
        · rename_i hc
          rw [Option.bind_eq_some_iff] at h
          obtain ⟨⟨L1, ok⟩, h1, h2⟩ := h
          have hi := hS.linv
          have hx := ih _ _ _ _ _ (hS.step hc.1 hc.2.1 hc.2.2.1 hc.2.2.2 h1) h2
          rw [hx]
          have eff := Live.step_eff hi.reach.inv (fun hp => hi.stream_ne (by simp [hp])) h1
          cases eff with
          | over => rfl
          | refused m hm => exact ((MSB.step_eff hm).frame hi.reach.inv).1
          | back m a hm _ => exact ((MSB.step_eff hm).frame hi.reach.inv).1
          | saved m a path hm _ _ _ _ => exact ((MSB.step_eff hm).frame hi.reach.inv).1
        · cases h
    exact hb _ _ _ _ _ _ (Session.new gameSample_numbered) h1
  · exact
      { height_pos := by show 0 < L.height; omega
        height := by show L.height < 256; omega
        width := by show L.width < 256; omega
        mineNum := by show 2 < 2 ^ 16; omega
        mode := by show 0 < 2 ^ 16; omega
        bbbv := by show 5 < 2 ^ 16; omega
        rtime := by show L.rtimeMs < 2 ^ 24; omega
        strs := sampleRec_fits.strs
        events := fun e h => ⟨(he e h).1, (he e h).2.1, (he e h).2.2.1, (he e h).2.2.2⟩
        checksum := rfl }

/-! ### what breaks the agreement -/

/-- Counters survive a return to the initial state: flag a mine and remove the flag before the first cell is opened;
the counter `ce` of the next recording starts at 1, that of its replay at 0. -/
theorem C50_ce_carried_over : ∃ t L A, Session taxi true t L ∧ L.gstate = .playing ∧ L.msb.ce = 2 ∧
    analyse taxi L.msb.board L.height L.width L.pix (L.recs.map Rec.raw) = some A ∧ A.msb.ce = 1 := by
  have hs : ((runLive taxi 0 (Live.new gameSample.view 10 0) [(1000, .rc, (15, 5)), (2000, .rr, (15, 5)),
      (3000, .rc, (15, 5)), (4000, .rr, (15, 5)), (5000, .lc, (5, 35)), (6000, .lr, (5, 35))]).bind fun r =>
        (analyse taxi r.2.msb.board r.2.height r.2.width r.2.pix (r.2.recs.map Rec.raw)).map fun A =>
          (r.2.gstate, r.2.msb.ce, A.msb.ce)) = some (.playing, 2, 1) := by decide +kernel
  rw [Option.bind_eq_some_iff] at hs
  obtain ⟨⟨t, L⟩, h1, h2⟩ := hs
  rw [Option.map_eq_some_iff] at h2
  obtain ⟨A, h3, h4⟩ := h2
  simp only [Prod.mk.injEq] at h4
  exact ⟨t, L, A, session_run (Session.new gameSample_numbered) h1, h4.1, h4.2.1, h3, h4.2.2⟩

/-- The pixel size may be changed after the game is over; replaying with the new size panics. -/
theorem C50_pix_after_end : ∃ t L, Session taxi true t L ∧ L.gstate = .win ∧ (L.setPix 5).2 = true ∧
    analyse taxi L.msb.board L.height L.width (L.setPix 5).1.pix (L.recs.map Rec.raw) = none := by
  have hs : (sampleLive.map fun r => ((r.2.setPix 5).2, (analyse taxi r.2.msb.board r.2.height r.2.width
      (r.2.setPix 5).1.pix (r.2.recs.map Rec.raw)).isNone)) = some (true, true) := by decide +kernel
  obtain ⟨t, L, h1, h2, h3⟩ := sampleLive_session
  rw [h1] at hs
  simp only [Option.map_some, Option.some.injEq, Prod.mk.injEq] at hs
  exact ⟨t, L, h2, h3, hs.1, by simpa using hs.2⟩

/-- After a reset without a new board the game is played on the empty board but the board that is saved and
analysed is still the old one, of another size. -/
theorem C50_stale_board (L : Live) (row column pix : Nat) : (L.reset row column pix).board = L.board ∧
    (L.reset row column pix).msb.board = (Board.build row column fun _ _ => 0).view := ⟨rfl, rfl⟩

/-- `analyse` panics (a failed `unwrap`) on events a machine refuses. -/
theorem C50_analyse_panics : analyse taxi gameSample.view 3 4 10 [⟨0, .rr, 5, 5⟩] = none := by decide +kernel

/-! ## C51 recording does not panic -/

/-- **C51** (partial) `step` on a recording panics only if the game machine does, except for a game that ends with
its first click sooner than the previous game (before a reset) had begun: then the subtraction of the start
time underflows (`C51_refuted`). -/
theorem C51_no_panic_partial {b : Bool} {t now : Nat} {L : Live} {e : Ev} {pos : Pos} (h : Session dist b t L)
    (hle : t ≤ now) (hpix : 0 < L.pix)
    (hm : L.msb.step e (pos.1 / L.pix, pos.2 / L.pix) ≠ none)
    (hstale : L.gstate = .preFlaging → L.gameStart ≤ (now - L.videoStart + 500) / 1000) :
    L.step dist now e pos ≠ none := by
  have hi := h.linv
  have hg := hi.reach.inv
  by_cases ho : L.msb.state = .loss ∨ L.msb.state = .win ∨ L.msb.state = .display
  · unfold Live.step; simp [if_pos ho]
  have ho' : L.msb.state = .ready ∨ L.msb.state = .preFlaging ∨ L.msb.state = .playing := by
    cases hh : L.msb.state <;> simp_all
  rcases hms : L.msb.step e (pos.1 / L.pix, pos.2 / L.pix) with _ | ⟨m, _ | a⟩
  · exact absurd hms hm
  · unfold Live.step
    simp [if_neg ho, hms]; omega
  by_cases hs : m.state = .ready
  · unfold Live.step
    simp [if_neg ho, hms, hs]; omega
  rw [Live.step_saved hg (fun hp => hi.stream_ne (by simp [hp])) (by omega) ho' hms hs]
  rw [if_neg]
  · split
    · rename_i hp
      have hne : L.msb.state ≠ .ready := by simp [hp]
      obtain ⟨r, r1, r2, -⟩ := hi.head hne
      unfold Live.pathFrom
      cases hf : L.recs.reverse.find? L.inside with
      | some q => simp
      | none =>
        rw [List.find?_eq_none] at hf
        have hx := hf r (by rw [List.mem_reverse]; exact List.mem_of_head? r1)
        have r3 : r.y < L.height * L.pix ∧ r.x < L.width * L.pix := r2
        simp only [Live.inside, Bool.not_eq_true', Bool.or_eq_false_iff, decide_eq_false_iff_not] at hx
        omega
    · simp
  · rintro ⟨hw, hlt⟩
    rcases ho' with x | x | x
    · have := (MSB.step_state hg hms).1 x
      rcases hw with y | y <;> rw [y] at this <;> simp at this
    · have := hstale (hi.gst.trans x)
      unfold Live.stamp timeMsBetween at hlt
      rw [if_neg (by simp [x])] at hlt
      omega
    · have hne : L.msb.state ≠ .ready := by simp [x]
      obtain ⟨l, r, l', e1, -, -, e4⟩ := hi.start x
      obtain ⟨u, hu, hu'⟩ := (hi.mono hle).line hne
      obtain ⟨-, -, -, t4⟩ := timeline_index hu
      have := (t4 l.length r (by rw [e1]; simp)).2.2.1
      unfold Live.stamp at hlt
      rw [if_neg hne] at hlt
      omega

/-- **C51** A first game begins to be timed 5 s after its first event; after a reset and a new board, a game won by
its first click 0.3 s after the press: `step` underflows (a debug build panics, a release build records a duration of
more than 49 days). -/
theorem C51_refuted : ∃ t L, Session taxi true t L ∧ L.gstate = .preFlaging ∧
    L.step taxi (t + 300000) .lr (1, 1) = none ∧ L.msb.step .lr (1 / L.pix, 1 / L.pix) ≠ none := by
  let run1 := runLive taxi 0 (Live.new gameSample.view 10 0) [(1000, .rc, (25, 25)), (2000, .rr, (25, 25)),
    (5001000, .lc, (5, 35)), (5002000, .lr, (5, 35))]
  have hs : ((run1.bind fun r => runLive taxi r.1 ((r.2.reset 3 3 10).setBoard firstClickBoard.view).1
      [(6000000, .lc, (1, 1))]).map fun r => (r.1, r.2.gstate, (r.2.step taxi 6300000 .lr (1, 1)).isNone,
        (r.2.msb.step .lr (1 / r.2.pix, 1 / r.2.pix)).isSome)) = some (6000000, .preFlaging, true, true) := by
    decide +kernel
  have hb : ∀ L : Live, ((L.reset 3 3 10).setBoard firstClickBoard.view).2 = true := by
    intro L
    unfold Live.setBoard
    have e1 : firstClickBoard.view.col = 3 := by decide
    have e2 : firstClickBoard.view.row = 3 := by decide
    simp [Live.reset, e1, e2]
  rw [Option.map_eq_some_iff] at hs
  obtain ⟨⟨t, L⟩, h1, h2⟩ := hs
  rw [Option.bind_eq_some_iff] at h1
  obtain ⟨⟨t0, L0⟩, h3, h4⟩ := h1
  simp only [Prod.mk.injEq] at h2
  obtain ⟨rfl, h5, h6, h7⟩ := h2
  have s0 : Session taxi true t0 L0 := session_run (Session.new gameSample_numbered) h3
  have s1 : Session taxi true t0 ((L0.reset 3 3 10).setBoard firstClickBoard.view).1 := by
    refine Session.fresh (Session.board (s0.reset (row := 3) (column := 3) (pix := 10) (by omega))
      (v := firstClickBoard.view) (by unfold Numbered; decide) (.inl rfl) (Prod.ext rfl (hb L0))) ?_
    have key : ∀ L' : Live, (L0.reset 3 3 10).setBoard firstClickBoard.view = (L', true) → L'.gstate = .ready := by
      intro L' h
      obtain ⟨-, -, rfl⟩ := Live.setBoard_eq h
      rfl
    exact key _ (Prod.ext rfl (hb L0))
  refine ⟨_, L, session_run s1 h4, h5, by simpa using h6, ?_⟩
  intro hn
  rw [hn] at h7
  simp at h7

/-! ### the clock shown while playing -/

/-- **C51** (partial) The running time of a game can be asked for from half a millisecond after its last event on;
it is then never more than the time since the recording began. -/
theorem C51_get_time_partial {b : Bool} {t now : Nat} {L : Live} (h : Session dist b t L) (hle : t + 500 ≤ now) :
    ∃ ms, L.getTimeMs now = some ms ∧ (L.gstate = .playing → ms + L.gameStart = (now - L.videoStart) / 1000) := by
  have hi := h.linv
  have hg := hi.reach.inv
  unfold Live.getTimeMs
  cases hs : L.gstate with
  | playing =>
    rw [hi.gst] at hs
    have hne : L.msb.state ≠ .ready := by simp [hs]
    obtain ⟨l, r, l', e1, -, -, e4⟩ := hi.start hs
    obtain ⟨u, hu, hu'⟩ := hi.line hne
    obtain ⟨-, -, -, t4⟩ := timeline_index hu
    have h3 := (t4 l.length r (by rw [e1]; simp)).2.2.1
    unfold timeMsBetween at hu'
    have h4 : L.gameStart ≤ (now - L.videoStart) / 1000 := by omega
    simp only
    rw [if_neg (by omega)]
    exact ⟨_, rfl, fun _ => by omega⟩
  | display => rw [hi.gst] at hs; exact absurd hs hg.nd
  | ready => exact ⟨_, rfl, by simp⟩
  | preFlaging => exact ⟨_, rfl, by simp⟩
  | win => exact ⟨_, rfl, by simp⟩
  | loss => exact ⟨_, rfl, by simp⟩

/-- **C51** is refuted for the running time: the game starts 1.6 ms after the press (rounded to 2 ms); asked 0.1 ms
later, 1.7 ms are cut to 1 ms and the subtraction underflows. -/
theorem C51_get_time_refuted : ∃ t L, Session taxi true t L ∧ L.gstate = .playing ∧ L.getTimeMs (t + 100) = none := by
  have hs : ((runLive taxi 0 (Live.new gameSample.view 10 0) [(1000, .lc, (5, 35)), (2600, .lr, (5, 35))]).map
      fun r => (r.1, r.2.gstate, (r.2.getTimeMs 2700).isNone)) = some (2600, .playing, true) := by decide +kernel
  rw [Option.map_eq_some_iff] at hs
  obtain ⟨⟨t, L⟩, h1, h2⟩ := hs
  simp only [Prod.mk.injEq] at h2
  obtain ⟨rfl, h3, h4⟩ := h2
  exact ⟨_, L, session_run (Session.new gameSample_numbered) h1, h3, by simpa using h4⟩

end Ms.Properties
