import Verif.Lemmas.ReplayAny
import Verif.Lemmas.Player
import Verif.Properties.Video
import Verif.Properties.GameBoard

/-! # C38, C39, C52: analysing and playing a video -/

namespace Ms.Properties
open Ms Ms.Spec

variable {dist : Pos → Pos → ℚ}

/-! ## C52 what `analyse` makes of the events of a file -/

/-- **C52** On a board with correct numbers, whatever the events, in whatever order and with whatever times: if `analyse`
returns, then it has kept the stored part of every event; every event carries the level and the counters of the game
machine that was driven by the events up to it; its two board ids are valid indices into the stream of boards, the first
event starts at the covered board, each event starts at the board the previous one ended with; an event of level 0 ends
with the board it started with, any other with the next one, which is the game board after the event; and every board of
the stream is a position of a game on this board: it shows only correct numbers, and no mine as a number. -/
theorem C52_analyse {v : View} {h w pix : Nat} (hv : Numbered v) {evs : List RawEv} {A : Replay}
    (hA : analyse dist v h w pix evs = some A) :
    A.recs.map Rec.raw = evs ∧ play pix v evs = some A.msb ∧
    A.stream[0]? = some (coveredBoard h w) ∧
    (∀ g ∈ A.stream, Faithful v g ∨ g = coveredBoard h w) ∧
    ∀ i r, A.recs[i]? = some r → ∃ m0 m, play pix v (evs.take i) = some m0 ∧
      m0.step r.ev (r.y / pix, r.x / pix) = some (m, some r.useful) ∧
      (r.mouseSt, r.left, r.right, r.double, r.ce, r.flag, r.bbbvSolved) =
        (m.mouse, m.left, m.right, m.double, m.ce, m.flag, m.bbbvSolved) ∧
      r.next < A.stream.length ∧ r.next = r.prior + (if r.useful = 0 then 0 else 1) ∧
      (r.useful ≠ 0 → A.stream[r.next]? = some m.gameBoard) ∧
      (i = 0 → r.prior = 0) ∧ (∀ r', A.recs[i + 1]? = some r' → r'.prior = r.next) := by
  have I := analyse_inv hv hA
  refine ⟨I.raw, I.plays, I.first, I.faithful, fun i r hr => ?_⟩
  obtain ⟨m0, m, e1, e2, e3, e4, e5, e6, e7, e8, e9, e10, e11, e12, e13, e14⟩ := I.events i r hr
  exact ⟨m0, m, e1, e2, by rw [e3, e4, e5, e6, e7, e8, e9], e11, e10, e12, e13, e14⟩

/-- **C52** The zero of the video's clock is the event that opened the first cell: if there is one, `delta_time` is its
time. -/
theorem C52_delta {v : View} {h w pix : Nat} (hv : Numbered v) {evs : List RawEv} {A : Replay}
    (hA : analyse dist v h w pix evs = some A) (ho : ∃ r ∈ A.recs, 2 ≤ r.useful) :
    ∃ l r l', A.recs = l ++ r :: l' ∧ (∀ q ∈ l, q.useful ≤ 1) ∧ 2 ≤ r.useful ∧ A.delta = r.time :=
  (analyse_inv hv hA).delta ho

/-! ## playing -/

/-- A player of the analysed video `A` after any calls of `set_current_time`, `set_current_event_id` and
`get_game_board_poss`. -/
inductive Playing (A : Replay) (h w mines : Nat) : Player → Prop
  | start : Playing A h w mines (A.player h w mines)
  | seek {P P' : Player} {t : ℚ} : Playing A h w mines P → P.setTime t = some P' → Playing A h w mines P'
  | jump {P P' : Player} {id : Nat} {ok : Bool} : Playing A h w mines P → P.setEvent id = some (P', ok) →
      Playing A h w mines P'
  | poss {P P' : Player} {M : List (List (Option ℚ))} : Playing A h w mines P → P.gameBoardPoss = some (P', M) →
      Playing A h w mines P'

structure PlayInv (A : Replay) (h w mines : Nat) (P : Player) : Prop where
  state : P.state = .display
  recs : P.recs = A.recs
  delta : P.delta = (A.delta : ℚ)
  height : P.height = h
  width : P.width = w
  mineNum : P.mineNum = mines
  cur : A.recs ≠ [] → P.cur < A.recs.length
  stream : List.Forall₂ (Asked mines) A.stream P.stream

theorem forall₂_set_at {α β : Type} {R : α → β → Prop} : ∀ {l : List α} {l' : List β}, List.Forall₂ R l l' → ∀ {i : Nat} {a : α} {b : β},
    l[i]? = some a → R a b → List.Forall₂ R l (l'.set i b)
  | _, _, .nil, _, _, _, h, _ => by simp at h
  | _, _, .cons h1 h2, 0, a, b, h, hr => by
    simp only [List.getElem?_cons_zero, Option.some.injEq] at h
    subst h
    exact .cons hr h2
  | _, _, .cons h1 h2, i + 1, a, b, h, hr => by
    simp only [List.getElem?_cons_succ] at h
    exact .cons h1 (forall₂_set_at h2 h hr)

theorem forall₂_get {α β : Type} {R : α → β → Prop} {l : List α} {l' : List β} (h : List.Forall₂ R l l') {i : Nat} {a : α}
    (ha : l[i]? = some a) : ∃ b, l'[i]? = some b ∧ R a b := by
  induction h generalizing i with
  | nil => simp at ha
  | cons h1 h2 ih =>
    cases i with
    | zero =>
      simp only [List.getElem?_cons_zero, Option.some.injEq] at ha
      subst ha
      exact ⟨_, rfl, h1⟩
    | succ i => exact ih (by simpa using ha)

theorem Playing.inv {A : Replay} {h w mines : Nat} {P : Player} (hP : Playing A h w mines P) : PlayInv A h w mines P := by
  induction hP with
  | start =>
    refine ⟨rfl, rfl, rfl, rfl, rfl, rfl, fun hne => List.length_pos_iff.mpr hne, ?_⟩
    show List.Forall₂ (Asked mines) A.stream (A.stream.map _)
    rw [List.forall₂_map_right_iff]
    exact List.forall₂_same.mpr fun g _ => .set
  | @seek P P' t _ hs ih =>
    by_cases hne : A.recs = []
    · exfalso
      unfold Player.setTime Player.endTime at hs
      simp [ih.recs, hne, ih.state] at hs
    · have hcur := ih.cur hne
      have hrec : P.recs[P.cur]? = some (A.recs[P.cur]'hcur) := by rw [ih.recs]; exact List.getElem?_eq_getElem hcur
      obtain ⟨l, hl⟩ : ∃ l, P.recs.getLast? = some l := by
        rw [ih.recs]
        exact ⟨_, List.getLast?_eq_some_getLast hne⟩
      rw [setTime_eq ih.state hrec hl, Option.map_eq_some_iff] at hs
      obtain ⟨k, hk, rfl⟩ := hs
      refine ⟨ih.state, ih.recs, ih.delta, ih.height, ih.width, ih.mineNum, fun _ => ?_, ih.stream⟩
      show k < A.recs.length
      rw [ih.recs] at hk
      split at hk
      · obtain ⟨k', k1, -, k3⟩ := seekFwd_total (t := t + P.delta) (rs := A.recs) (A.recs.length + 1) P.cur hcur (by omega)
        rw [hk, Option.some.injEq] at k1
        omega
      · obtain ⟨k', k1, k3⟩ := seekBack_total (t := t + P.delta) (rs := A.recs) P.cur hcur
        rw [hk, Option.some.injEq] at k1
        omega
  | @jump P P' id ok _ hs ih =>
    unfold Player.setEvent at hs
    rw [if_neg (by simp [ih.state]), Option.map_eq_some_iff] at hs
    obtain ⟨r, hr, he⟩ := hs
    simp only [Prod.mk.injEq] at he
    rw [← he.1]
    refine ⟨ih.state, ih.recs, ih.delta, ih.height, ih.width, ih.mineNum, fun _ => ?_, ih.stream⟩
    rw [ih.recs] at hr
    exact (List.getElem?_eq_some_iff.mp hr).1
  | @poss P P' M _ hs ih =>
    unfold Player.gameBoardPoss at hs
    cases hb : Player.possSearch P.recs P.cur with
    | none => rw [hb] at hs; simp at hs
    | some b =>
      rw [hb] at hs
      cases b with
      | false =>
        simp only [Option.bind_eq_bind, Option.bind_some, Bool.false_eq_true, if_false, Option.pure_def, Option.some.injEq,
          Prod.mk.injEq] at hs
        rw [← hs.1]
        exact ih
      | true =>
        simp only [Option.bind_eq_bind, Option.bind_some, if_true] at hs
        rw [Option.bind_eq_some_iff] at hs
        obtain ⟨r, -, hs⟩ := hs
        rw [Option.bind_eq_some_iff] at hs
        obtain ⟨G, hG, hs⟩ := hs
        rw [Option.bind_eq_some_iff] at hs
        obtain ⟨⟨G', M'⟩, hG', hs⟩ := hs
        simp only [Option.pure_def, Option.some.injEq, Prod.mk.injEq] at hs
        rw [← hs.1]
        refine ⟨ih.state, ih.recs, ih.delta, ih.height, ih.width, ih.mineNum, ih.cur, ?_⟩
        show List.Forall₂ (Asked mines) A.stream (P.stream.set r.next G')
        have hlen := ih.stream.length_eq
        obtain ⟨hi, -⟩ := List.getElem?_eq_some_iff.mp hG
        have hg : A.stream[r.next]? = some (A.stream[r.next]'(by omega)) := List.getElem?_eq_getElem (by omega)
        refine forall₂_set_at ih.stream hg ?_
        obtain ⟨G2, h2, h3⟩ := forall₂_get ih.stream hg
        rw [hG, Option.some.injEq] at h2
        subst h2
        refine .ask (a := .poss) h3 ?_
        simp [GameBoard.ask, hG']

/-! ## C38 seeking -/

/-- **C38** Seeking never panics and shows the wanted time, kept within the video. -/
theorem C38_total {A : Replay} {h w mines : Nat} {P : Player} (hP : Playing A h w mines P) (last : Rec)
    (hl : A.recs.getLast? = some last) (time : ℚ) :
    ∃ P', P.setTime time = some P' ∧ P'.curTime = min (max time (-(A.delta : ℚ))) (last.time - A.delta) ∧
      P'.cur < A.recs.length := by
  have I := hP.inv
  have hne : A.recs ≠ [] := by rintro hh; rw [hh] at hl; simp at hl
  have hcur := I.cur hne
  have hrec : P.recs[P.cur]? = some (A.recs[P.cur]'hcur) := by rw [I.recs]; exact List.getElem?_eq_getElem hcur
  rw [setTime_eq I.state hrec (by rw [I.recs]; exact hl), I.recs, I.delta]
  split
  · obtain ⟨k', k1, -, k3⟩ := seekFwd_total (t := time + A.delta) (rs := A.recs) (A.recs.length + 1) P.cur hcur (by omega)
    rw [k1]
    exact ⟨_, rfl, rfl, k3⟩
  · obtain ⟨k', k1, k3⟩ := seekBack_total (t := time + A.delta) (rs := A.recs) P.cur hcur
    rw [k1]
    exact ⟨_, rfl, rfl, lt_of_le_of_lt k3 hcur⟩

/-- **C38** (partial) With events in order of time, seeking goes to the last event not after the wanted time (the first
event if there is none), provided the current event is not at exactly that time. -/
theorem C38_seek_partial {A : Replay} {h w mines : Nat} {P P' : Player} (hP : Playing A h w mines P)
    (hs : SortedRecs A.recs) {time : ℚ} (r : Rec) (hr : A.recs[P.cur]? = some r) (hne : time + A.delta ≠ r.time)
    (h' : P.setTime time = some P') : EventAt A.recs (time + A.delta) P'.cur := by
  have I := hP.inv
  have hrne : A.recs ≠ [] := by rintro hh; rw [hh] at hr; simp at hr
  rw [setTime_eq I.state (by rw [I.recs]; exact hr) (by rw [I.recs]; exact List.getLast?_eq_some_getLast hrne), I.recs,
    I.delta, Option.map_eq_some_iff] at h'
  obtain ⟨k, hk, rfl⟩ := h'
  split at hk
  · rename_i hgt
    refine seekFwd_spec hs _ _ _ (I.cur hrne) (fun j q hj hq => ?_) hk
    have := hs.le hj hq hr
    linarith
  · rename_i hle
    refine seekBack_spec hs _ _ (I.cur hrne) (fun j q hj hq => ?_) hk
    have := hs.le hj hr hq
    have h2 : time + A.delta < r.time := lt_of_le_of_ne (not_lt.mp hle) hne
    linarith

/-- **C38** (partial) Where seeking ends depends on the wanted time only, not on what was played before, provided neither
current event is at exactly that time. -/
theorem C38_history_partial {A : Replay} {h w mines : Nat} {P P' Q Q' : Player} (hP : Playing A h w mines P)
    (hQ : Playing A h w mines Q) (hs : SortedRecs A.recs) {time : ℚ} (r q : Rec) (hr : A.recs[P.cur]? = some r)
    (hq : A.recs[Q.cur]? = some q) (h1 : time + A.delta ≠ r.time) (h2 : time + A.delta ≠ q.time)
    (hP' : P.setTime time = some P') (hQ' : Q.setTime time = some Q') :
    P'.cur = Q'.cur ∧ P'.curTime = Q'.curTime := by
  refine ⟨(C38_seek_partial hP hs r hr h1 hP').unique (C38_seek_partial hQ hs q hq h2 hQ'), ?_⟩
  have hrne : A.recs ≠ [] := by rintro hh; rw [hh] at hr; simp at hr
  obtain ⟨P1, p1, p2, -⟩ := C38_total hP _ (List.getLast?_eq_some_getLast hrne) time
  obtain ⟨Q1, q1, q2, -⟩ := C38_total hQ _ (List.getLast?_eq_some_getLast hrne) time
  rw [hP', Option.some.injEq] at p1
  rw [hQ', Option.some.injEq] at q1
  rw [p1, q1, p2, q2]

/-- **C38** Otherwise it goes one event too far back: seeking to the time of the current event shows the previous one. -/
theorem C38_tie {A : Replay} {h w mines : Nat} {P : Player} (hP : Playing A h w mines P)
    (hs : SortedRecs A.recs) {time : ℚ} {k : Nat} (hk : P.cur = k + 1) (r : Rec) (hr : A.recs[k + 1]? = some r)
    (he : time + A.delta = r.time) : ∃ P', P.setTime time = some P' ∧ P'.cur = k := by
  have I := hP.inv
  have hrne : A.recs ≠ [] := by rintro hh; rw [hh] at hr; simp at hr
  have hkl : k < A.recs.length := by
    have := (List.getElem?_eq_some_iff.mp hr).1
    omega
  rw [setTime_eq I.state (by rw [I.recs, hk]; exact hr) (by rw [I.recs]; exact List.getLast?_eq_some_getLast hrne), I.recs,
    I.delta, if_neg (by rw [he]; simp), hk]
  unfold Player.seekBack
  have := hs.le (Nat.le_succ k) (List.getElem?_eq_getElem hkl) hr
  rw [List.getElem?_eq_getElem hkl]
  simp only
  rw [if_neg (by rw [he]; exact not_lt.mpr this)]
  exact ⟨_, rfl, rfl⟩

/-- **C38** Jumping to an event shows it at its time; an id out of range panics. -/
theorem C38_jump {A : Replay} {h w mines : Nat} {P : Player} (hP : Playing A h w mines P) (id : Nat) :
    (∀ r, A.recs[id]? = some r → ∃ P', P.setEvent id = some (P', true) ∧ P'.cur = id ∧ P'.curTime = r.time - A.delta) ∧
    (A.recs.length ≤ id → P.setEvent id = none) := by
  have I := hP.inv
  unfold Player.setEvent
  rw [if_neg (by simp [I.state]), I.recs, I.delta]
  refine ⟨fun r hr => ⟨_, by rw [hr]; rfl, rfl, rfl⟩, fun hle => by rw [List.getElem?_eq_none hle]; rfl⟩

/-! ## C52 the board shown -/

/-- **C52** A player of an analysed video with events always shows a board, without panicking: the board after the
current event. -/
theorem C52_shows {v : View} {h w pix mines : Nat} (hv : Numbered v) {evs : List RawEv} {A : Replay}
    (hA : analyse dist v h w pix evs = some A) (hne : evs ≠ []) {P : Player} (hP : Playing A h w mines P) :
    ∃ r g, A.recs[P.cur]? = some r ∧ A.stream[r.next]? = some g ∧ P.gameBoard = some g := by
  have I := hP.inv
  have J := analyse_inv hv hA
  have hne : A.recs ≠ [] := by rintro hh; rw [← J.raw, hh] at hne; simp at hne
  have hr : A.recs[P.cur]? = some (A.recs[P.cur]'(I.cur hne)) := List.getElem?_eq_getElem (I.cur hne)
  obtain ⟨_, _, -, -, -, -, -, -, -, -, -, -, hlt, -⟩ := J.events _ _ hr
  have hg := List.getElem?_eq_getElem hlt
  refine ⟨_, _, hr, hg, ?_⟩
  obtain ⟨G, g1, g2⟩ := forall₂_get I.stream hg
  unfold Player.gameBoard
  simp only [I.recs, hr, g1, Option.bind_eq_bind, Option.bind_some, Option.pure_def]
  have : ∀ {g : Board} {G : GameBoard}, Asked mines g G → G.board = g := by
    intro g G hG
    induction hG with
    | set => rfl
    | @ask G G' a _ ha ih =>
      have hmark : ∀ {G G' : GameBoard}, G.mark = some G' → G'.board = G.board := by
        intro G G' hm
        unfold GameBoard.mark at hm
        split at hm
        · rw [Option.some.injEq] at hm; rw [hm]
        · simp only [Option.bind_eq_bind] at hm
          rw [Option.bind_eq_some_iff] at hm
          obtain ⟨S, -, hm⟩ := hm
          rw [Option.bind_eq_some_iff] at hm
          obtain ⟨o, -, hm⟩ := hm
          split at hm
          · cases hm
          · rw [Option.bind_eq_some_iff] at hm
            obtain ⟨o2, -, hm⟩ := hm
            split at hm
            · cases hm
            · rw [Option.bind_eq_some_iff] at hm
              obtain ⟨n3, -, hm⟩ := hm
              simp only [Option.pure_def, Option.some.injEq] at hm
              rw [← hm]
      rw [← ih]
      cases a with
      | poss =>
        simp only [GameBoard.ask, GameBoard.getPoss] at ha
        split at ha
        · simp only [Option.map_some, Option.some.injEq] at ha; rw [ha]
        · rw [Option.map_eq_some_iff] at ha
          obtain ⟨⟨G1, M⟩, ha, rfl⟩ := ha
          simp only [Option.bind_eq_bind] at ha
          rw [Option.bind_eq_some_iff] at ha
          obtain ⟨G2, h2, ha⟩ := ha
          rw [Option.bind_eq_some_iff] at ha
          obtain ⟨x, -, ha⟩ := ha
          cases x with
          | error e => cases ha
          | ok x =>
            simp only [Option.pure_def, Option.some.injEq, Prod.mk.injEq] at ha
            have h3 := hmark h2
            rw [← ha.1]
            exact h3
      | _ =>
        simp only [GameBoard.ask, GameBoard.getBasicNot, GameBoard.getBasicIs, GameBoard.getEnumNot, GameBoard.getEnumIs,
          Option.map_map, Option.map_eq_some_iff] at ha
        obtain ⟨G2, h2, rfl⟩ := ha
        exact hmark h2
  rw [this g2]

/-! ## C39 probabilities while playing -/

/-- The board of mines explains every position of a game on it. -/
theorem faithful_consistent {v : View} (hv : Numbered v) {g : Board} (hg : Faithful v g) (h0 : 0 < v.row) :
    Consistent (unmark g) fun p => decide (p ∈ mines v) := by
  obtain ⟨hR, hf⟩ := hg
  obtain ⟨hu, hug⟩ := unmark_spec g v.row v.col hR
  have hd := rect_dims hu h0
  rintro p ⟨hp, hp0, hp10⟩
  rw [hd.1, hd.2] at hp
  have hp' := mem_grid.mp hp
  rw [hug p hp'.1 hp'.2] at hp0 hp10 ⊢
  have hlt : g.get p.1 p.2 < 10 := by split at hp10 <;> omega
  rcases hf p hp with h1 | ⟨h1, h2⟩
  · omega
  rw [if_neg (by omega), h1, hv p hp h2]
  unfold adjCount minesNear
  rw [hd.1, hd.2]
  congr 2
  ext q
  unfold mines vcells
  simp only [Finset.mem_filter, decide_eq_true_eq]
  constructor
  · rintro ⟨⟨hq, hm⟩, ha⟩
    have hq' := mem_grid.mp hq
    refine ⟨hq, ha.1, .inr ⟨?_, hq, hm⟩⟩
    rw [hug q hq'.1 hq'.2]
    rcases hf q hq with h3 | h3
    · split <;> omega
    · exact absurd hm h3.2
  · rintro ⟨hq, hn, h3⟩
    have hq' := mem_grid.mp hq
    rw [hug q hq'.1 hq'.2] at h3
    rcases h3 with h3 | ⟨-, -, hm⟩
    · exfalso; split at h3 <;> omega
    · refine ⟨⟨hq, hm⟩, hn, ?_⟩
      rintro rfl
      exact h2 hm

theorem faithful_covered (v : View) : Faithful v (coveredBoard v.row v.col) := by
  refine ⟨?_, fun p hp => ?_⟩
  · unfold coveredBoard; exact rect_build _ _ _
  · have := mem_grid.mp hp
    left
    unfold coveredBoard
    rw [get_build _ this.1 this.2]

open Classical in
/-- **C39** (partial) Once a cell has been opened (by an event other than the first), `get_game_board_poss` on a video of a game
with correct numbers and the right number of mines returns exactly the probabilities of the position shown: for each cell
without a number the share of the layouts with that many mines that have a mine there, 0 for the cells with a number -
whatever was shown or asked before. -/
theorem C39_exact_partial {v : View} {pix : Nat} (hv : Numbered v) (h0 : 0 < v.row) (hm : 1 ≤ (mines v).card)
    {evs : List RawEv} {A : Replay} (hA : analyse dist v v.row v.col pix evs = some A) {P : Player}
    (hP : Playing A v.row v.col (mines v).card P)
    (ho : ∃ i r, 1 ≤ i ∧ i ≤ P.cur ∧ A.recs[i]? = some r ∧ 2 ≤ r.useful) {g : Board} (hg : P.gameBoard = some g)
    (hre : ∀ p, IsNumber (unmark g) p → InReach (unmark g) p) :
    ∃ P' M, P.gameBoardPoss = some (P', M) ∧ M.length = v.row ∧ (∀ l ∈ M, l.length = v.col) ∧
      ∀ i j, i < v.row → j < v.col → (M.getD i []).getD j none =
        if g.get i j < 10 then some 0
        else some ((((layouts (unmark g) (mines v).card).filter fun B => (i, j) ∈ B).card : ℚ) /
          ((layouts (unmark g) (mines v).card).card : ℚ)) := by
  have I := hP.inv
  have J := analyse_inv hv hA
  obtain ⟨i, r, hi1, hi2, hir, hiu⟩ := ho
  have hne : A.recs ≠ [] := by rintro hh; rw [hh] at hir; simp at hir
  have hevs : evs ≠ [] := by rintro hh; rw [hh] at J; exact hne (by simpa using J.raw)
  obtain ⟨r1, g', h1, h2, h3⟩ := C52_shows hv hA hevs hP
  rw [hg, Option.some.injEq] at h3
  subst h3
  have hf : Faithful v g := by
    rcases J.faithful g (List.mem_of_getElem? h2) with h4 | h4
    · exact h4
    · rw [h4]; exact faithful_covered v
  have hcons := faithful_consistent hv hf h0
  obtain ⟨hu, hug⟩ := unmark_spec g v.row v.col hf.1
  have hd := rect_dims hu h0
  have hl : (layouts (unmark g) (mines v).card).Nonempty := by
    refine ⟨mines v, (layouts_mem hre ⟨_, hcons⟩ _ _).mpr ⟨fun q hq => ?_, rfl, hcons⟩⟩
    unfold mines at hq
    rw [Finset.mem_filter] at hq
    have hq' := mem_grid.mp hq.1
    refine ⟨by rw [hd.1, hd.2]; exact hq.1, ?_⟩
    rw [hug q hq'.1 hq'.2]
    rcases hf.2 q hq.1 with h4 | h4
    · split <;> omega
    · exact absurd hq.2 h4.2
  have hshown : Shown g := by
    intro p hp
    have hd' := rect_dims hf.1 h0
    rw [hd'.1, hd'.2] at hp
    rcases hf.2 p hp with h4 | h4
    · omega
    · have := numbered_range hv hp
      omega
  obtain ⟨M, m1, m2, m3, m4⟩ := C53_poss g v.row v.col (mines v).card hf.1 h0 hshown hm hre hl ⟨_, hcons⟩
  obtain ⟨G, g1, g2⟩ := forall₂_get I.stream h2
  have hG := m4 G g2
  rw [Option.map_eq_some_iff] at hG
  obtain ⟨⟨G', M'⟩, hG, rfl⟩ := hG
  refine ⟨{ P with stream := P.stream.set r1.next G' }, M', ?_, m1, m2, m3⟩
  have hsearch := (possSearch_spec (rs := A.recs) P.cur (I.cur hne)).1 ⟨i, r, hi1, hi2, hir, hiu⟩
  unfold Player.gameBoardPoss
  simp only [I.recs, hsearch, Option.bind_eq_bind, Option.bind_some, if_true, h1, g1, hG, Option.pure_def]

/-- **C39** Before that, from the second event on, every cell gets the share of mines on the whole board; the matrix has
the wrong shape, with as many rows as the board has columns. -/
theorem C39_uniform {A : Replay} {h w mines : Nat} {P : Player} (hP : Playing A h w mines P) (h1 : 1 ≤ P.cur)
    (hne : A.recs ≠ []) (hw : 0 < h * w) (ho : ∀ i r, 1 ≤ i → i ≤ P.cur → A.recs[i]? = some r → r.useful < 2) :
    P.gameBoardPoss = some (P, List.replicate w (List.replicate h (some ((mines : ℚ) / ((h * w : Nat) : ℚ))))) := by
  have I := hP.inv
  have hsearch := (possSearch_spec (rs := A.recs) P.cur (I.cur hne)).2 ho h1
  unfold Player.gameBoardPoss
  simp only [I.recs, hsearch, Option.bind_eq_bind, Option.bind_some, Bool.false_eq_true, if_false, Option.pure_def, I.height,
    I.width, I.mineNum]
  rw [if_neg (by omega)]

/-- **C39** Finding: at the first event - where every video starts - it panics, unless that event opens a cell. -/
theorem C39_first_panics {A : Replay} {h w mines : Nat} {P : Player} (hP : Playing A h w mines P) (h0 : P.cur = 0)
    (r : Rec) (hr : A.recs[0]? = some r) (hu : r.useful < 2) : P.gameBoardPoss = none := by
  have I := hP.inv
  unfold Player.gameBoardPoss
  rw [h0, I.recs]
  simp [Player.possSearch, hr, hu]

/-! ### the sample game, analysed and played -/

/-- the sample game of `Properties/Video.lean`, saved and analysed -/
def sampleVideo : Option Replay := sampleLive.bind fun r => analyse taxi gameSample.view 3 4 10 (r.2.recs.map Rec.raw)

/-- The sample video meets the hypotheses of the theorems above. -/
theorem sampleVideo_analysed : ∃ A evs, sampleVideo = some A ∧ evs ≠ [] ∧ analyse taxi gameSample.view 3 4 10 evs = some A ∧
    SortedRecs A.recs ∧ A.delta = 51 ∧ (∃ r ∈ A.recs, 2 ≤ r.useful) ∧ (mines gameSample.view).card = 2 := by
  have hd : (sampleVideo.map fun A => (A.delta, A.recs.map (·.time), decide (∃ r ∈ A.recs, 2 ≤ r.useful))) =
      some (51, [0, 51, 58, 68, 78, 88, 89, 98, 99, 108, 108, 138, 139, 148, 159], true) := by decide +kernel
  rw [Option.map_eq_some_iff] at hd
  obtain ⟨A, hA, h2⟩ := hd
  simp only [Prod.mk.injEq, decide_eq_true_eq] at h2
  obtain ⟨h2, h3, h4⟩ := h2
  have hA' := hA
  unfold sampleVideo at hA'
  rw [Option.bind_eq_some_iff] at hA'
  obtain ⟨r, hr, hr2⟩ := hA'
  refine ⟨A, _, hA, fun h => ?_, hr2, ?_, h2, h4, by decide +kernel⟩
  · have := (analyse_inv gameSample_numbered hr2).raw
    rw [h] at this
    rw [List.map_eq_nil_iff.mp this] at h3
    cases h3
  · have hs : List.Pairwise (· ≤ ·) (A.recs.map (·.time)) := by rw [h3]; decide
    exact List.pairwise_map.mp hs

/-- Events met on the way, and the probabilities at the event that opened the first cell. -/
example : (sampleVideo.bind fun A => ((A.player 3 4 2).setTime 20).map fun P => (P.cur, P.curTime)) = some (3, 20) := by
  decide +kernel
example : (sampleVideo.bind fun A => ((A.player 3 4 2).setTime 20).bind fun P => P.gameBoardPoss.map (·.2)) =
    some [[some (1 / 2), some 0, some 0, some 0], [some (1 / 2), some 0, some 0, some 0], [some 0, some 0, some 1, some 0]] := by
  decide +kernel
example : (sampleVideo.bind fun A => ((A.player 3 4 2).setTime 20).bind fun P => P.gameBoard) =
    some [[10, 1, 0, 0], [10, 2, 1, 1], [10, 10, 11, 10]] := by decide +kernel

/-- **C38** is refuted at the times of the events themselves: seeking to 0, the moment of the first opening, shows the
second event; doing the same once more shows the first. -/
theorem C38_refuted : ∃ A P Q, sampleVideo = some A ∧ Playing A 3 4 2 P ∧ P.setTime 0 = some Q ∧
    (A.player 3 4 2).setTime 0 = some P ∧ P.cur = 1 ∧ Q.cur = 0 ∧ P.curTime = Q.curTime := by
  have hd : (sampleVideo.bind fun A => ((A.player 3 4 2).setTime 0).bind fun P => (P.setTime 0).map fun Q =>
      (P.cur, Q.cur, decide (P.curTime = Q.curTime))) = some (1, 0, true) := by decide +kernel
  rw [Option.bind_eq_some_iff] at hd
  obtain ⟨A, hA, hd⟩ := hd
  rw [Option.bind_eq_some_iff] at hd
  obtain ⟨P, hP, hd⟩ := hd
  rw [Option.map_eq_some_iff] at hd
  obtain ⟨Q, hQ, hd⟩ := hd
  simp only [Prod.mk.injEq, decide_eq_true_eq] at hd
  exact ⟨A, P, Q, hA, .seek .start hP, hQ, hP, hd.1, hd.2.1, hd.2.2⟩

/-- **C38** Finding: a video opens at time 0 - the moment of the first opening - but at its first event, 51 ms before. -/
theorem C38_start : ∃ A, sampleVideo = some A ∧ (A.player 3 4 2).curTime = 0 ∧ (A.player 3 4 2).cur = 0 ∧ A.delta = 51 := by
  obtain ⟨A, -, h, -, -, -, h2, -⟩ := sampleVideo_analysed
  exact ⟨A, h, rfl, rfl, h2⟩

/-- **C39** Finding: `get_game_board_poss` of the freshly opened sample video panics. -/
theorem C39_refuted : ∃ A, sampleVideo = some A ∧ (A.player 3 4 2).gameBoardPoss = none := by
  have hd : (sampleVideo.map fun A => ((A.player 3 4 2).gameBoardPoss).isNone) = some true := by decide +kernel
  rw [Option.map_eq_some_iff] at hd
  obtain ⟨A, hA, hd⟩ := hd
  exact ⟨A, hA, by simpa using hd⟩

/-- **C39**, **C52** Findings: on the 3 x 4 board the matrix before the first opening has 4 rows of 3; and taking away the
only flag before the first opening - reported with level 0 - is not shown: the video still shows the flag. -/
theorem C39_shape : ∃ A P, analyse taxi gameSample.view 3 4 10 [⟨0, .rc, 5, 15⟩, ⟨8, .rr, 5, 15⟩, ⟨9, .rc, 5, 15⟩, ⟨10, .rr, 5, 15⟩] =
      some A ∧ Playing A 3 4 2 P ∧ P.cur = 3 ∧
    P.gameBoardPoss.map (·.2) = some (List.replicate 4 (List.replicate 3 (some (1 / 6)))) ∧
    A.msb.gameBoard = coveredBoard 3 4 ∧ P.gameBoard = some [[10, 10, 10, 10], [11, 10, 10, 10], [10, 10, 10, 10]] := by
  have hd : ((analyse taxi gameSample.view 3 4 10 [⟨0, .rc, 5, 15⟩, ⟨8, .rr, 5, 15⟩, ⟨9, .rc, 5, 15⟩, ⟨10, .rr, 5, 15⟩]).bind
      fun A => ((A.player 3 4 2).setEvent 3).map fun P => (P.1.cur,
        decide (P.1.gameBoardPoss.map (·.2) = some (List.replicate 4 (List.replicate 3 (some (1 / 6))))),
        decide (A.msb.gameBoard = coveredBoard 3 4),
        decide (P.1.gameBoard = some [[10, 10, 10, 10], [11, 10, 10, 10], [10, 10, 10, 10]]))) =
      some (3, true, true, true) := by decide +kernel
  rw [Option.bind_eq_some_iff] at hd
  obtain ⟨A, hA, hd⟩ := hd
  rw [Option.map_eq_some_iff] at hd
  obtain ⟨⟨P, ok⟩, hP, hd⟩ := hd
  simp only [Prod.mk.injEq, decide_eq_true_eq] at hd
  exact ⟨A, P, hA, .jump .start hP, hd.1, hd.2.1, hd.2.2.1, hd.2.2.2⟩

/-- **C39_exact_partial** is met by the sample video sought to 20 ms. -/
example : ∃ A P g evs, analyse taxi gameSample.view gameSample.view.row gameSample.view.col 10 evs = some A ∧
    Playing A gameSample.view.row gameSample.view.col (mines gameSample.view).card P ∧
    (∃ i r, 1 ≤ i ∧ i ≤ P.cur ∧ A.recs[i]? = some r ∧ 2 ≤ r.useful) ∧ P.gameBoard = some g ∧
    (∀ p, IsNumber (unmark g) p → InReach (unmark g) p) ∧ 0 < gameSample.view.row ∧ 1 ≤ (mines gameSample.view).card := by
  have hc : (mines gameSample.view).card = 2 := by decide +kernel
  have hd : (sampleVideo.bind fun A => ((A.player 3 4 2).setTime 20).map fun P =>
      (P.cur, (A.recs[1]?).map (·.useful), P.gameBoard)) =
      some (3, some 2, some [[10, 1, 0, 0], [10, 2, 1, 1], [10, 10, 11, 10]]) := by decide +kernel
  rw [Option.bind_eq_some_iff] at hd
  obtain ⟨A, hA, hd⟩ := hd
  rw [Option.map_eq_some_iff] at hd
  obtain ⟨P, hP, hd⟩ := hd
  simp only [Prod.mk.injEq] at hd
  obtain ⟨h1, h2, h3⟩ := hd
  rw [Option.map_eq_some_iff] at h2
  obtain ⟨r, hr, h2⟩ := h2
  unfold sampleVideo at hA
  rw [Option.bind_eq_some_iff] at hA
  obtain ⟨s, -, hA⟩ := hA
  rw [hc]
  refine ⟨A, P, _, _, hA, .seek .start hP, ⟨1, r, by omega, by omega, hr, by omega⟩, h3,
    fun p _ => inReach_small _ (by decide +kernel) p, by decide, by decide⟩

end Ms.Properties
