import Verif.Lemmas.Stats
import Verif.Properties.Player
import Verif.Properties.GameStats
import Verif.Properties.Metrics
import Mathlib.Algebra.Order.Floor.Semifield

/-! # C59 the statistics of a video, C60 `is_valid` -/

namespace Ms.Properties
open Ms Ms.Spec

variable {dist : Pos → Pos → ℚ}

/-! ## C59 while a video is played -/

/-- The event a player is at, and the game up to it. -/
theorem player_at {v : View} {h w pix mines : Nat} (hv : Numbered v) {evs : List RawEv} {A : Replay}
    (hA : analyse dist v h w pix evs = some A) (hne : evs ≠ []) {P : Player} (hP : Playing A h w mines P) (base : Stats) :
    ∃ r m, A.recs[P.cur]? = some r ∧ (P.stats base).current = some r ∧ play pix v (evs.take (P.cur + 1)) = some m ∧
      r.mouseSt = m.mouse ∧ r.left = m.left ∧ r.right = m.right ∧ r.double = m.double ∧ r.ce = m.ce ∧ r.flag = m.flag ∧
      r.bbbvSolved = m.bbbvSolved := by
  have I := hP.inv
  have J := analyse_inv hv hA
  have hrne : A.recs ≠ [] := by rintro hh; rw [← J.raw, hh] at hne; simp at hne
  have hr : A.recs[P.cur]? = some (A.recs[P.cur]'(I.cur hrne)) := List.getElem?_eq_getElem (I.cur hrne)
  obtain ⟨m0, m, e1, e2, e3, e4, e5, e6, e7, e8, e9, -⟩ := J.events _ _ hr
  refine ⟨_, m, hr, ?_, ?_, e3, e4, e5, e6, e7, e8, e9⟩
  · show P.recs[P.cur]? = _
    rw [I.recs, hr]
  · have hq : evs[P.cur]? = some (Rec.raw (A.recs[P.cur]'(I.cur hrne))) := by
      rw [← J.raw, List.getElem?_map, hr]; rfl
    rw [List.take_add_one, hq]
    show play pix v (_ ++ [_]) = _
    rw [play_snoc, e1]
    show (match MSB.step m0 _ _ with | some (m', some _) => some m' | _ => none) = some m
    rw [show (Rec.raw (A.recs[P.cur]'(I.cur hrne))).ev = (A.recs[P.cur]'(I.cur hrne)).ev from rfl,
      show (Rec.raw (A.recs[P.cur]'(I.cur hrne))).y = (A.recs[P.cur]'(I.cur hrne)).y from rfl,
      show (Rec.raw (A.recs[P.cur]'(I.cur hrne))).x = (A.recs[P.cur]'(I.cur hrne)).x from rfl, e2]

/-- The getters of the counters, once the current event is known. -/
theorem stats_at {S : Stats} {r : Rec} (hs : S.state = .display) (hc : S.current = some r) :
    S.getLeft = some r.left ∧ S.getRight = some r.right ∧ S.getDouble = some r.double ∧
    S.getCl = some (r.left + r.right + r.double) ∧ S.getFlag = some r.flag ∧ S.getCe = .ok r.ce ∧
    S.getSolved = .ok r.bbbvSolved ∧ S.getMouse = some (Stats.mouseCode r.mouseSt) := by
  have h1 : S.getLeft = some r.left := by simp [Stats.getLeft, hs, hc]
  have h2 : S.getRight = some r.right := by simp [Stats.getRight, hs, hc]
  have h3 : S.getDouble = some r.double := by simp [Stats.getDouble, hs, hc]
  refine ⟨h1, h2, h3, by simp [Stats.getCl, h1, h2, h3], by simp [Stats.getFlag, hs, hc], ?_, ?_,
    by simp [Stats.getMouse, hs, hc]⟩
  · simp [Stats.getCe, hs, hc, Res.get]
  · simp [Stats.getSolved, hs, hc, Res.get]

/-- **C59** After any seeking, jumping and asking for probabilities, in a video with any events: the counters shown are
those of the game driven by the events up to and including the current one. -/
theorem C59_counts {v : View} {h w pix mines : Nat} (hv : Numbered v) {evs : List RawEv} {A : Replay}
    (hA : analyse dist v h w pix evs = some A) (hne : evs ≠ []) {P : Player} (hP : Playing A h w mines P) (base : Stats) :
    ∃ m, play pix v (evs.take (P.cur + 1)) = some m ∧
      (P.stats base).getLeft = some m.left ∧ (P.stats base).getRight = some m.right ∧
      (P.stats base).getDouble = some m.double ∧ (P.stats base).getCl = some (clicks m) ∧
      (P.stats base).getFlag = some m.flag ∧ (P.stats base).getCe = .ok m.ce ∧
      (P.stats base).getSolved = .ok m.bbbvSolved ∧ (P.stats base).getMouse = some (Stats.mouseCode m.mouse) ∧
      (P.stats base).getOpSolved = .ok 0 := by
  obtain ⟨r, m, hr, hc, hm, e1, e2, e3, e4, e5, e6, e7⟩ := player_at hv hA hne hP base
  have hs : (P.stats base).state = .display := hP.inv.state
  obtain ⟨a1, a2, a3, a4, a5, a6, a7, a8⟩ := stats_at hs hc
  rw [e2] at a1 a4; rw [e3] at a2 a4; rw [e4] at a3 a4; rw [e6] at a5; rw [e5] at a6; rw [e7] at a7; rw [e1] at a8
  exact ⟨m, hm, a1, a2, a3, a4, a5, a6, a7, a8, by simp [Stats.getOpSolved, hs, hc, Res.get]⟩

/-- The numbers of the eight states of the mouse are different. -/
theorem C59_mouse_code (a b : Mouse) (h : Stats.mouseCode a = Stats.mouseCode b) : a = b := by
  cases a <;> cases b <;> first | rfl | (exfalso; revert h; decide)

theorem rate_display {S : Stats} (hs : S.state = .display) (f : Option ℚ) (n now : Nat) :
    S.rate (some n) f now = some (some (perSecond n (S.curTime * 1000))) := by
  unfold Stats.rate perSecond
  rw [hs]
  simp only
  by_cases h : S.curTime < 99 / 100000
  · rw [if_pos h, if_pos (by linarith)]
  · have h0 : S.curTime ≠ 0 := by intro h0; rw [h0] at h; norm_num at h
    rw [if_neg h, if_neg (by linarith)]
    show some (fdiv n S.curTime) = _
    rw [fdiv, if_neg h0]
    congr 2
    field_simp

/-- **C59** The rates shown are the counters per second of the time shown, and 0 before the first millisecond: never
infinite, never a panic. -/
theorem C59_rates {v : View} {h w pix mines : Nat} (hv : Numbered v) {evs : List RawEv} {A : Replay}
    (hA : analyse dist v h w pix evs = some A) (hne : evs ≠ []) {P : Player} (hP : Playing A h w mines P) (base : Stats)
    (now : Nat) :
    ∃ m, play pix v (evs.take (P.cur + 1)) = some m ∧
      (P.stats base).getLeftS now = some (some (perSecond m.left P.curTime)) ∧
      (P.stats base).getRightS now = some (some (perSecond m.right P.curTime)) ∧
      (P.stats base).getDoubleS now = some (some (perSecond m.double P.curTime)) ∧
      (P.stats base).getClS now = some (some (perSecond (clicks m) P.curTime)) ∧
      (P.stats base).getFlagS now = some (some (perSecond m.flag P.curTime)) ∧
      (P.stats base).getCeS = .ok (some (perSecond m.ce P.curTime)) ∧
      (P.stats base).getBbbvS = .ok (some (perSecond m.bbbvSolved P.curTime)) := by
  obtain ⟨m, hm, a1, a2, a3, a4, a5, a6, a7, -⟩ := C59_counts hv hA hne hP base
  have hs : (P.stats base).state = .display := hP.inv.state
  have ht : (P.stats base).curTime * 1000 = P.curTime := by
    show P.curTime / 1000 * 1000 = P.curTime
    ring
  have key := fun f n now => ht ▸ rate_display hs f n now
  have hp : ∀ n : Nat, (if (P.stats base).curTime < 99 / 100000 then Res.ok (some (0 : ℚ)) else .ok (fdiv n (P.stats base).curTime)) =
      Res.ok (some (perSecond n P.curTime)) := by
    intro n
    rw [← ht]
    unfold perSecond
    by_cases h : (P.stats base).curTime < 99 / 100000
    · rw [if_pos h, if_pos (by linarith)]
    · have h0 : (P.stats base).curTime ≠ 0 := by intro h0; rw [h0] at h; norm_num at h
      rw [if_neg h, if_neg (by linarith), fdiv, if_neg h0]
      congr 2
      field_simp
  refine ⟨m, hm, ?_, ?_, ?_, ?_, ?_, ?_, ?_⟩
  · rw [Stats.getLeftS, a1]; exact key _ _ _
  · rw [Stats.getRightS, a2]; exact key _ _ _
  · rw [Stats.getDoubleS, a3]; exact key _ _ _
  · rw [Stats.getClS, a4]; exact key _ _ _
  · rw [Stats.getFlagS, a5]; exact key _ _ _
  · rw [Stats.getCeS, a6]; exact hp _
  · rw [Stats.getBbbvS, a7]
    simp only [Res.bind, hs, if_true]
    exact hp _

theorem fdiv_share (a b : Nat) : (if b = 0 then Res.ok (some (0 : ℚ)) else .ok (fdiv a b)) = .ok (some (per a b)) := by
  unfold per fdiv
  by_cases h : b = 0
  · simp [h]
  · have : (b : ℚ) ≠ 0 := by exact_mod_cast h
    simp [h]

/-- **C59** The quotients shown are those of the counters, 0 where the divisor is 0; `rqp` and `etime` are made from the
time shown, the 3BV solved so far and, for `etime`, the 3BV of the video; none is ever infinite or a panic. -/
theorem C59_quotients {v : View} {h w pix mines : Nat} (hv : Numbered v) {evs : List RawEv} {A : Replay}
    (hA : analyse dist v h w pix evs = some A) (hne : evs ≠ []) {P : Player} (hP : Playing A h w mines P) (base : Stats) :
    ∃ m, play pix v (evs.take (P.cur + 1)) = some m ∧
      (P.stats base).getCorr = .ok (some (per m.ce (clicks m))) ∧
      (P.stats base).getThrp = .ok (some (per m.bbbvSolved m.ce)) ∧
      (P.stats base).getIoe = .ok (some (per m.bbbvSolved (clicks m))) ∧
      (P.stats base).getRqp =
        .ok (some (if m.bbbvSolved = 0 then 0 else (P.curTime / 1000) ^ 2 / m.bbbvSolved)) ∧
      (P.stats base).getEtime =
        .ok (some (if m.bbbvSolved = 0 then 0 else P.curTime / 1000 * base.bbbv / m.bbbvSolved)) := by
  obtain ⟨m, hm, a1, a2, a3, a4, a5, a6, a7, -⟩ := C59_counts hv hA hne hP base
  have hs : (P.stats base).state = .display := hP.inv.state
  have ht : (P.stats base).curTime = P.curTime / 1000 := rfl
  refine ⟨m, hm, ?_, ?_, ?_, ?_, ?_⟩
  · rw [Stats.getCorr, a6, a4]; exact fdiv_share _ _
  · rw [Stats.getThrp, a6, a7]; exact fdiv_share _ _
  · rw [Stats.getIoe, a7, a4]; exact fdiv_share _ _
  · rw [Stats.getRqp, a7]
    simp only [Res.bind]
    by_cases h0 : m.bbbvSolved = 0
    · simp [h0]
    · have : (m.bbbvSolved : ℚ) ≠ 0 := by exact_mod_cast h0
      simp [h0, fdiv, ht]
  · rw [Stats.getEtime, a7]
    simp only [Res.bind, hs, if_true]
    by_cases h0 : m.bbbvSolved = 0
    · simp [h0]
    · have : (m.bbbvSolved : ℚ) ≠ 0 := by exact_mod_cast h0
      simp only [h0, if_false, fdiv, if_neg this, fmul, Option.bind_some, Option.map_some, ht]
      show Res.ok (some (P.curTime / 1000 / m.bbbvSolved * base.bbbv)) = _
      congr 2
      ring

/-- **C59** `stnb` is 0 before the first millisecond and on boards that are not one of the three standard ones. -/
theorem C59_stnb_zero {v : View} {h w pix mines : Nat} (hv : Numbered v) {evs : List RawEv} {A : Replay}
    (hA : analyse dist v h w pix evs = some A) (hne : evs ≠ []) {P : Player} (hP : Playing A h w mines P) (base : Stats)
    (W : Pow) (hz : P.curTime < 99 / 100 ∨
      (h, w, mines) ∉ [(8, 8, 10), (16, 16, 40), (16, 30, 99)]) : (P.stats base).getStnb W = .ok (some 0) := by
  obtain ⟨m, hm, a1, a2, a3, a4, a5, a6, a7, -⟩ := C59_counts hv hA hne hP base
  have I := hP.inv
  have hs : (P.stats base).state = .display := I.state
  have ht : (P.stats base).curTime = P.curTime / 1000 := rfl
  rw [Stats.getStnb, a7]
  simp only [Res.bind]
  split
  · rfl
  · rename_i hc
    have h1 : ¬ P.curTime < 99 / 100 := fun h1 => hc ⟨hs, by rw [ht]; linarith⟩
    have h2 := hz.resolve_left h1
    have : Stats.stnbCoeff (P.stats base).height (P.stats base).width (P.stats base).mineNum = none := by
      show Stats.stnbCoeff P.height P.width P.mineNum = none
      rw [I.height, I.width, I.mineNum]
      simp only [List.mem_cons, Prod.mk.injEq, List.not_mem_nil, or_false, not_or] at h2
      unfold Stats.stnbCoeff
      rw [if_neg h2.1, if_neg h2.2.1, if_neg h2.2.2]
    rw [this]

/-- **C59** On a standard board, from the first millisecond on, `stnb` is `c * bbbv / t^1.7 * (solved / bbbv)^0.5` - a
finite number that is not negative - unless the video claims a 3BV of 0. -/
theorem C59_stnb {v : View} {h w pix mines : Nat} (hv : Numbered v) {evs : List RawEv} {A : Replay}
    (hA : analyse dist v h w pix evs = some A) (hne : evs ≠ []) {P : Player} (hP : Playing A h w mines P) (base : Stats)
    (W : Pow) (c : ℚ) (ht : 99 / 100 ≤ P.curTime)
    (hc : (h, w, mines, c) ∈ [(8, 8, 10, (47299 / 1000 : ℚ)), (16, 16, 40, 15373 / 100), (16, 30, 99, 435001 / 1000)]) :
    ∃ m, play pix v (evs.take (P.cur + 1)) = some m ∧
      (base.bbbv = 0 → (P.stats base).getStnb W = .ok none) ∧
      (base.bbbv ≠ 0 → (P.stats base).getStnb W =
          .ok (some (c * base.bbbv / W.p17 (P.curTime / 1000) * W.sqrt (m.bbbvSolved / base.bbbv))) ∧
        0 ≤ c * base.bbbv / W.p17 (P.curTime / 1000) * W.sqrt (m.bbbvSolved / base.bbbv)) := by
  obtain ⟨m, hm, a1, a2, a3, a4, a5, a6, a7, -⟩ := C59_counts hv hA hne hP base
  have I := hP.inv
  have hs : (P.stats base).state = .display := I.state
  have ht' : (P.stats base).curTime = P.curTime / 1000 := rfl
  have hpos : 0 < P.curTime / 1000 := by linarith
  have hp := W.p17_pos _ hpos
  have hco : Stats.stnbCoeff (P.stats base).height (P.stats base).width (P.stats base).mineNum = some c ∧ 0 ≤ c := by
    show Stats.stnbCoeff P.height P.width P.mineNum = some c ∧ 0 ≤ c
    rw [I.height, I.width, I.mineNum]
    simp only [List.mem_cons, Prod.mk.injEq, List.not_mem_nil, or_false] at hc
    rcases hc with ⟨rfl, rfl, rfl, rfl⟩ | ⟨rfl, rfl, rfl, rfl⟩ | ⟨rfl, rfl, rfl, rfl⟩ <;> norm_num [Stats.stnbCoeff]
  have hg : (P.stats base).getStnb W = .ok (Stats.stnbOf W c (P.curTime / 1000) base.bbbv m.bbbvSolved) := by
    rw [Stats.getStnb, a7]
    simp only [Res.bind]
    rw [if_neg (by rintro ⟨-, h2⟩; rw [ht'] at h2; linarith), hco.1]
    simp only [hs, if_true, ht']
    rfl
  refine ⟨m, hm, fun h0 => ?_, fun h0 => ?_⟩
  · rw [hg, h0]
    simp [Stats.stnbOf, fdiv, fmul]
  · have hb : (base.bbbv : ℚ) ≠ 0 := by exact_mod_cast h0
    refine ⟨?_, ?_⟩
    · rw [hg]
      simp [Stats.stnbOf, fdiv, fdiv', fmul, hb, Pow.pow17, not_lt.mpr hpos.le, hp.ne']
    · have h1 : 0 ≤ W.sqrt ((m.bbbvSolved : ℚ) / base.bbbv) := W.sqrt_nonneg _ (by positivity)
      have h2 : 0 ≤ c * base.bbbv / W.p17 (P.curTime / 1000) :=
        div_nonneg (mul_nonneg hco.2 (by positivity)) hp.le
      exact mul_nonneg h2 h1

/-- **C59** With no events at all, asking for a counter panics. -/
theorem C59_empty {v : View} {h w pix mines : Nat} {A : Replay}
    (hA : analyse dist v h w pix [] = some A) {P : Player} (hP : Playing A h w mines P) (base : Stats) :
    (P.stats base).getLeft = none ∧ (P.stats base).getCe = .panic ∧ (P.stats base).getSolved = .panic := by
  have I := hP.inv
  have hr : A.recs = [] := by
    simp only [analyse, List.foldlM_nil, Option.pure_def, Option.some.injEq] at hA
    rw [← hA]
  have hs : (P.stats base).state = .display := I.state
  have hc : (P.stats base).current = none := by
    show P.recs[P.cur]? = none
    rw [I.recs, hr]; rfl
  simp [Stats.getLeft, Stats.getCe, Stats.getSolved, hs, hc, Res.get]

/-- **C59** In a video with events in order of time, the time shown is never before the current event, unless that is the
first event; so whenever some 3BV is solved, the time shown is not negative. -/
theorem C59_time {v : View} {h w pix mines : Nat} (hv : Numbered v) {evs : List RawEv} {A : Replay}
    (hA : analyse dist v h w pix evs = some A) (hs : SortedRecs A.recs) {P : Player} (hP : Playing A h w mines P) :
    (P.cur = 0 ∨ ∃ r, A.recs[P.cur]? = some r ∧ (r.time : ℚ) - A.delta ≤ P.curTime) ∧
    ∀ m, play pix v (evs.take (P.cur + 1)) = some m → 0 < m.bbbvSolved → 0 ≤ P.curTime := by
  have hne : ∀ {P : Player}, Playing A h w mines P → P.cur = 0 ∨ ∃ r, A.recs[P.cur]? = some r ∧ (r.time : ℚ) - A.delta ≤ P.curTime := by
    intro P hP
    induction hP with
    | start => exact .inl rfl
    | @seek P P' t hP hk ih =>
      have I := hP.inv
      by_cases hne : A.recs = []
      · exfalso
        unfold Player.setTime Player.endTime at hk
        simp [I.recs, hne, I.state] at hk
      · have hcur := I.cur hne
        have hrec : P.recs[P.cur]? = some (A.recs[P.cur]'hcur) := by rw [I.recs]; exact List.getElem?_eq_getElem hcur
        have hl : A.recs.getLast? = some (A.recs.getLast hne) := List.getLast?_eq_some_getLast hne
        rw [setTime_eq I.state hrec (by rw [I.recs]; exact hl), I.recs, I.delta, Option.map_eq_some_iff] at hk
        obtain ⟨k, hk, rfl⟩ := hk
        show k = 0 ∨ ∃ r, A.recs[k]? = some r ∧ (r.time : ℚ) - A.delta ≤ min (max t (-(A.delta : ℚ))) (_ - (A.delta : ℚ))
        have key : k = 0 ∨ ∃ r, A.recs[k]? = some r ∧ (r.time : ℚ) ≤ t + A.delta := by
          split at hk
          · rename_i hgt
            have := seekFwd_spec hs _ _ _ hcur (fun j q hj hq => by
              have := hs.le hj hq (List.getElem?_eq_getElem hcur)
              linarith) hk
            rcases this.before with h0 | h0
            · exact .inl h0
            · exact .inr ⟨_, List.getElem?_eq_getElem this.lt, h0 k _ (le_refl _) (List.getElem?_eq_getElem this.lt)⟩
          · exact seekBack_le _ _ hk
        rcases key with h0 | ⟨r, h1, h2⟩
        · exact .inl h0
        · refine .inr ⟨r, h1, le_min (le_trans (by linarith) (le_max_left _ _)) ?_⟩
          have h3 : A.recs[A.recs.length - 1]? = some (A.recs.getLast hne) := by
            rw [← List.getLast?_eq_getElem?]; exact hl
          have hklt := (List.getElem?_eq_some_iff.mp h1).1
          have := hs.le (show k ≤ A.recs.length - 1 by omega) h1 h3
          linarith
    | @jump P P' id ok hP hk ih =>
      have I := hP.inv
      unfold Player.setEvent at hk
      rw [if_neg (by simp [I.state]), Option.map_eq_some_iff] at hk
      obtain ⟨r, hr, he⟩ := hk
      simp only [Prod.mk.injEq] at he
      rw [← he.1]
      rw [I.recs] at hr
      exact .inr ⟨r, hr, by rw [I.delta]⟩
    | @poss P P' M hP hk ih =>
      have : P'.cur = P.cur ∧ P'.curTime = P.curTime := by
        unfold Player.gameBoardPoss at hk
        cases hb : Player.possSearch P.recs P.cur with
        | none => rw [hb] at hk; simp at hk
        | some b =>
          rw [hb] at hk
          cases b with
          | false =>
            simp only [Option.bind_eq_bind, Option.bind_some, Bool.false_eq_true, if_false, Option.pure_def,
              Option.some.injEq, Prod.mk.injEq] at hk
            rw [← hk.1]
            exact ⟨rfl, rfl⟩
          | true =>
            simp only [Option.bind_eq_bind, Option.bind_some, if_true] at hk
            rw [Option.bind_eq_some_iff] at hk
            obtain ⟨r, -, hk⟩ := hk
            rw [Option.bind_eq_some_iff] at hk
            obtain ⟨G, hG, hk⟩ := hk
            rw [Option.bind_eq_some_iff] at hk
            obtain ⟨⟨G', M'⟩, hG', hk⟩ := hk
            simp only [Option.pure_def, Option.some.injEq, Prod.mk.injEq] at hk
            rw [← hk.1]
            exact ⟨rfl, rfl⟩
      rw [this.1, this.2]
      exact ih
  refine ⟨hne hP, fun m hm h0 => ?_⟩
  by_cases he : evs = []
  · subst he
    exfalso
    simp only [play, List.take_nil, List.foldlM_nil, Option.pure_def, Option.some.injEq] at hm
    rw [← hm] at h0
    exact absurd h0 (by simp [MSB.new])
  have base : Stats := ⟨.ready, [], 0, 0, 0, 0, 0, 0, .upUp, 0, none, none, none, none, none, 0, 0, 0, 0, 0, 0, 0, none⟩
  obtain ⟨r, m', hr, -, hm', -, -, -, -, -, -, e7⟩ := player_at hv hA he hP base
  rw [hm, Option.some.injEq] at hm'
  subst hm'
  rw [← e7] at h0
  obtain ⟨hi, j, q, hj, hq, hu⟩ := solved_opened hv hA _ _ hr h0
  obtain ⟨r', hr', ht⟩ := (hne hP).resolve_left (by omega)
  rw [hr, Option.some.injEq] at hr'
  subst hr'
  have hmem : q ∈ A.recs := List.mem_of_getElem? hq
  obtain ⟨l, r1, l', d1, d2, d3, d4⟩ := C52_delta hv hA ⟨q, hmem, hu⟩
  have hl : A.recs[l.length]? = some r1 := by rw [d1]; simp
  have hlj : l.length ≤ j := by
    by_contra hlt
    have : A.recs[j]? = l[j]? := by rw [d1, List.getElem?_append_left (by omega)]
    rw [this] at hq
    have := d2 q (List.mem_of_getElem? hq)
    omega
  have := hs.le (show l.length ≤ P.cur by omega) hl hr
  rw [d4] at ht
  linarith

/-- **C59** With events in order of time `qg` is never NaN: it is `t^1.7` per 3BV solved, 0 when none is. -/
theorem C59_qg_partial {v : View} {h w pix mines : Nat} (hv : Numbered v) {evs : List RawEv} {A : Replay}
    (hA : analyse dist v h w pix evs = some A) (hne : evs ≠ []) (hs : SortedRecs A.recs) {P : Player}
    (hP : Playing A h w mines P) (base : Stats) (W : Pow) :
    ∃ m, play pix v (evs.take (P.cur + 1)) = some m ∧
      (P.stats base).getQg W =
        .ok (some (if m.bbbvSolved = 0 then 0 else W.p17 (P.curTime / 1000) / m.bbbvSolved)) := by
  obtain ⟨m, hm, a1, a2, a3, a4, a5, a6, a7, -⟩ := C59_counts hv hA hne hP base
  refine ⟨m, hm, ?_⟩
  rw [Stats.getQg, a7]
  simp only [Res.bind]
  by_cases h0 : m.bbbvSolved = 0
  · simp [h0]
  · have hb : (m.bbbvSolved : ℚ) ≠ 0 := by exact_mod_cast h0
    have ht := (C59_time hv hA hs hP).2 m hm (by omega)
    have ht' : ¬ P.curTime / 1000 < 0 := by linarith
    have ht2 : (P.stats base).curTime = P.curTime / 1000 := rfl
    rw [if_neg h0, if_neg h0, ht2, Pow.pow17, if_neg ht']
    simp [fdiv', fdiv, hb]

/-! ### the mouse -/

theorem walkBack_some {recs : List Rec} {edge : Nat} {r : Rec} : ∀ {i : Nat}, Stats.walkBack recs edge i = some r →
    LastLeftOf recs edge i r
  | 0, h => by
    unfold Stats.walkBack at h
    rw [Option.bind_eq_some_iff] at h
    obtain ⟨q, hq, h⟩ := h
    split at h
    · rw [Option.some.injEq] at h
      subst h
      exact ⟨0, le_refl _, hq, ‹_›, fun k q' h1 h2 => by omega⟩
    · cases h
  | i + 1, h => by
    unfold Stats.walkBack at h
    rw [Option.bind_eq_some_iff] at h
    obtain ⟨q, hq, h⟩ := h
    split at h
    · rw [Option.some.injEq] at h
      subst h
      exact ⟨i + 1, le_refl _, hq, ‹_›, fun k q' h1 h2 => by omega⟩
    · rename_i hlt
      obtain ⟨j, hj, h1, h2, h3⟩ := walkBack_some h
      refine ⟨j, by omega, h1, h2, fun k q' hk1 hk2 hk3 => ?_⟩
      by_cases hk : k = i + 1
      · subst hk
        rw [hq, Option.some.injEq] at hk3
        subst hk3
        omega
      · exact h3 k q' hk1 (by omega) hk3

theorem walkBack_none {recs : List Rec} {edge : Nat} : ∀ {i : Nat}, i < recs.length → Stats.walkBack recs edge i = none →
    ∀ j r, j ≤ i → recs[j]? = some r → edge ≤ r.x
  | 0, hi, h, j, r, hj, hr => by
    obtain rfl : j = 0 := by omega
    unfold Stats.walkBack at h
    rw [hr, Option.bind_some] at h
    split at h
    · cases h
    · omega
  | i + 1, hi, h, j, r, hj, hr => by
    unfold Stats.walkBack at h
    rw [List.getElem?_eq_getElem hi, Option.bind_some] at h
    split at h
    · cases h
    · by_cases hk : j = i + 1
      · subst hk
        rw [List.getElem?_eq_getElem hi, Option.some.injEq] at hr
        subst hr
        omega
      · exact walkBack_none (by omega) h j r (by omega) hr

/-- **C59** The position of the mouse in a player with cells of `n` pixels is that of the last event, up to the current
one, to the left of the right edge of the board, scaled and cut to whole pixels (at most 65535); its column is on the
board.  If all those events are at or beyond the right edge, the call panics. -/
theorem C59_position_partial {v : View} {h w pix mines : Nat} (hv : Numbered v) {evs : List RawEv} {A : Replay}
    (hA : analyse dist v h w pix evs = some A) (hne : evs ≠ []) {P : Player} (hP : Playing A h w mines P) (base : Stats)
    (hw : w < 65536) (hpw : base.pix * w < 65536) (n : Nat) :
    ∃ S, (P.stats base).setPlayPix n = some S ∧ S.getPix = .ok base.pix ∧
      (∀ r, LastLeftOf A.recs (base.pix * w) P.cur r →
        S.getXY = .ok (min (r.x * n / base.pix) 65535, min (r.y * n / base.pix) 65535) ∧
        (0 < n → r.x * n / base.pix < n * w)) ∧
      ((∀ i r, i ≤ P.cur → A.recs[i]? = some r → base.pix * w ≤ r.x) → S.getXY = .panic) := by
  have I := hP.inv
  have J := analyse_inv hv hA
  have hrne : A.recs ≠ [] := by rintro hh; rw [← J.raw, hh] at hne; simp at hne
  have hcur := I.cur hrne
  have hs : (P.stats base).state = .display := I.state
  refine ⟨_, by rw [Stats.setPlayPix, if_neg (by simp [hs])], by rw [Stats.getPix, if_neg (by simp [hs])]; rfl, ?_⟩
  have hg : ({ (P.stats base) with playK := fdiv n (P.stats base).pix } : Stats).getXY =
      (Res.get (Stats.walkBack A.recs (base.pix * w) P.cur)).bind fun r =>
        match fdiv n base.pix with
        | some k => .ok (Stats.toU16 (r.x * k), Stats.toU16 (r.y * k))
        | none => .ok (if r.x = 0 then 0 else 65535, if r.y = 0 then 0 else 65535) := by
    unfold Stats.getXY
    simp only
    rw [if_neg (by simp [hs])]
    have e1 : (P.stats base).pix * ((P.stats base).width % 65536) = base.pix * w := by
      show base.pix * (P.width % 65536) = base.pix * w
      rw [I.width, Nat.mod_eq_of_lt hw]
    have e2 : (P.stats base).recs = A.recs := I.recs
    have e3 : (P.stats base).cur = P.cur := rfl
    rw [e1, if_neg (by omega), e2, e3]
    rfl
  rw [hg]
  refine ⟨fun r hr => ?_, fun hall => ?_⟩
  · have hpix : base.pix ≠ 0 := by
      intro h0
      obtain ⟨j, -, -, h2, -⟩ := hr
      rw [h0] at h2
      omega
    have hwb : Stats.walkBack A.recs (base.pix * w) P.cur = some r := by
      obtain ⟨j, hj, h1, h2, h3⟩ := hr
      cases hb : Stats.walkBack A.recs (base.pix * w) P.cur with
      | none =>
        have := walkBack_none hcur hb j r hj h1
        omega
      | some q =>
        obtain ⟨j', hj', h1', h2', h3'⟩ := walkBack_some hb
        have : j = j' := by
          rcases Nat.lt_trichotomy j j' with hlt | heq | hlt
          · have := h3 j' q hlt hj' h1'
            omega
          · exact heq
          · have := h3' j r hlt hj h1
            omega
        subst this
        rw [← h1, h1']
    have hq : (base.pix : ℚ) ≠ 0 := by exact_mod_cast hpix
    have hf : ∀ x : Nat, Stats.toU16 (x * ((n : ℚ) / base.pix)) = min (x * n / base.pix) 65535 := by
      intro x
      have hx : (x : ℚ) * ((n : ℚ) / base.pix) = ((x * n : Nat) : ℚ) / (base.pix : ℚ) := by push_cast; ring
      rw [Stats.toU16, hx, Nat.floor_div_eq_div]
    rw [hwb]
    simp only [Res.get, Res.bind, fdiv, if_neg hq, hf]
    refine ⟨trivial, fun hn => ?_⟩
    obtain ⟨j, -, -, h2, -⟩ := hr
    rw [Nat.div_lt_iff_lt_mul (by omega)]
    calc r.x * n < base.pix * w * n := Nat.mul_lt_mul_of_pos_right h2 hn
      _ = n * w * base.pix := by ring
  · cases hb : Stats.walkBack A.recs (base.pix * w) P.cur with
    | none => rfl
    | some q =>
      obtain ⟨j', hj', h1', h2', h3'⟩ := walkBack_some hb
      have := hall j' q hj' h1'
      omega

/-! ## C59 in a live game -/

/-- The last event of a recording carries the counters of the machine. -/
theorem session_last {b : Bool} {t : Nat} {L : Live} (h : Session dist b t L) : L.gstate ≠ .ready →
    ∃ r, L.recs.getLast? = some r ∧ r.mouseSt = L.msb.mouse ∧ r.left = L.msb.left ∧ r.right = L.msb.right ∧
      r.double = L.msb.double ∧ r.ce = L.msb.ce ∧ r.flag = L.msb.flag ∧ r.bbbvSolved = L.msb.bbbvSolved := by
  induction h with
  | new => intro h; exact absurd rfl h
  | @step b t now L L' e pos ok h hle he h1 h2 hs ih =>
    intro hr
    obtain ⟨c1, c2, c3⟩ := C48_step h hle he h1 h2 hs
    by_cases hend : L.gstate = .win ∨ L.gstate = .loss
    · rw [c2 hend] at hr ⊢
      exact ih hr
    · cases ok with
      | false =>
        rw [c1 rfl] at hr ⊢
        exact ih hr
      | true =>
        rw [not_or] at hend
        obtain ⟨a, -, c4⟩ := c3 rfl hend.1 hend.2
        rcases c4 with ⟨c4, -⟩ | ⟨r, new, d1, -, -, -, -, -, d7, d8, -⟩
        · exact absurd c4 hr
        · simp only [Prod.mk.injEq] at d7 d8
          exact ⟨r, by rw [d1]; simp, d7.1, d7.2.1, d7.2.2.1, d7.2.2.2, d8.1, d8.2.1, d8.2.2⟩
  | @board b t L L' v h hv hst hs ih =>
    intro hr
    have : L'.gstate = L.gstate ∧ L'.recs = L.recs ∧ L'.msb = { L.msb with board := v } := by
      unfold Live.setBoard at hs
      rcases hst with hst | hst <;> rw [hst] at hs <;> simp only at hs <;> split at hs
      all_goals first
        | (simp only [Prod.mk.injEq] at hs; exact absurd hs.2 (by decide))
        | (simp only [Prod.mk.injEq, and_true] at hs; rw [← hs]; exact ⟨hst.symm, rfl, rfl⟩)
    rw [this.1] at hr
    rw [this.2.1, this.2.2]
    exact ih hr
  | fresh _ _ ih => exact ih
  | reset => intro h; exact absurd rfl h
  | pix _ hst ih =>
    intro hr
    unfold Live.setPix at hr ⊢
    split at hr
    · split
      · exact ih hr
      · exact ih hr
    · exact absurd hst hr

theorem live_stats (L : Live) (mn : Nat) : (L.stats mn).state = L.gstate ∧ (L.stats mn).recs = L.recs ∧
    (L.stats mn).cur = 0 ∧ (L.stats mn).curTime = 0 ∧ (L.stats mn).left = L.msb.left ∧ (L.stats mn).right = L.msb.right ∧
    (L.stats mn).double = L.msb.double ∧ (L.stats mn).flag = L.msb.flag ∧ (L.stats mn).mouse = L.msb.mouse ∧
    (L.stats mn).rtime = (L.rtimeMs : ℚ) / 1000 ∧ (L.stats mn).bbbv = calBbbv L.board ∧
    (L.stats mn).videoStart = L.videoStart ∧ (L.stats mn).gameStart = L.gameStart := by
  unfold Live.stats
  simp only
  split <;> exact ⟨rfl, rfl, rfl, rfl, rfl, rfl, rfl, rfl, rfl, rfl, rfl, rfl, rfl⟩

/-- **C59** In every live session: the click counters are those of the machine; `ce`, `bbbv_solved` and what is made of
them cannot be asked for before the end of the game; at its end they are those of the machine. -/
theorem C59_live_counts {b : Bool} {t : Nat} {L : Live} (h : Session dist b t L) (mn : Nat) :
    (L.stats mn).getLeft = some L.msb.left ∧ (L.stats mn).getRight = some L.msb.right ∧
    (L.stats mn).getDouble = some L.msb.double ∧ (L.stats mn).getCl = some (clicks L.msb) ∧
    (L.stats mn).getFlag = some L.msb.flag ∧ (L.stats mn).getMouse = some (Stats.mouseCode L.msb.mouse) ∧
    (L.gstate ≠ .win → L.gstate ≠ .loss →
      (L.stats mn).getCe = .err ∧ (L.stats mn).getSolved = .err ∧ (L.stats mn).getOpSolved = .err) ∧
    (L.gstate = .win ∨ L.gstate = .loss →
      (L.stats mn).getCe = .ok L.msb.ce ∧ (L.stats mn).getSolved = .ok L.msb.bbbvSolved ∧
      (L.stats mn).getOpSolved = .ok 0) := by
  obtain ⟨s1, s2, s3, s4, s5, s6, s7, s8, s9, s10, s11, s12, s13⟩ := live_stats L mn
  have hnd : L.gstate ≠ .display := by rw [h.linv.gst]; exact h.linv.reach.inv.nd
  have h1 : (L.stats mn).getLeft = some L.msb.left := by simp [Stats.getLeft, s1, hnd, s5]
  have h2 : (L.stats mn).getRight = some L.msb.right := by simp [Stats.getRight, s1, hnd, s6]
  have h3 : (L.stats mn).getDouble = some L.msb.double := by simp [Stats.getDouble, s1, hnd, s7]
  refine ⟨h1, h2, h3, by simp [Stats.getCl, h1, h2, h3, clicks], by simp [Stats.getFlag, s1, hnd, s8],
    by simp [Stats.getMouse, s1, hnd, s9], fun w1 w2 => ?_, fun hend => ?_⟩
  · refine ⟨?_, ?_, ?_⟩
    · unfold Stats.getCe
      rw [s1]
      cases hg : L.gstate <;> first | rfl | exact absurd hg w1 | exact absurd hg w2 | exact absurd hg hnd
    · unfold Stats.getSolved
      rw [s1]
      cases hg : L.gstate <;> first | rfl | exact absurd hg w1 | exact absurd hg w2 | exact absurd hg hnd
    · rw [Stats.getOpSolved, if_pos (by rw [s1]; exact ⟨hnd, w1, w2⟩)]
  · have hnr : L.gstate ≠ .ready := by rcases hend with h | h <;> simp [h]
    obtain ⟨r, r1, -, -, -, -, r6, -, r8⟩ := session_last h hnr
    have hne : L.recs ≠ [] := by rintro h0; rw [h0] at r1; simp at r1
    refine ⟨?_, ?_, ?_⟩
    · unfold Stats.getCe
      rcases hend with hg | hg <;> rw [s1, hg] <;> simp [s2, r1, r6, Res.get]
    · unfold Stats.getSolved
      rcases hend with hg | hg <;> rw [s1, hg] <;> simp [s2, r1, r8, Res.get]
    · rw [Stats.getOpSolved, if_neg (by rw [s1]; rintro ⟨-, a, b⟩; exact hend.elim a b)]
      have : (L.stats mn).current = some (L.recs[0]'(List.length_pos_iff.mpr hne)) := by
        unfold Stats.current
        rw [s2, s3]
        exact List.getElem?_eq_getElem _
      rw [this]; rfl

/-- **C59** At the end of a live game the quotients are those of the counters and the rates are the counters per second of
the duration of the game; with a duration of 0 they are infinite or NaN. -/
theorem C59_live_end {b : Bool} {t : Nat} {L : Live} (h : Session dist b t L) (mn : Nat)
    (hend : L.gstate = .win ∨ L.gstate = .loss) (now : Nat) :
    (L.stats mn).getCorr = .ok (some (per L.msb.ce (clicks L.msb))) ∧
    (L.stats mn).getThrp = .ok (some (per L.msb.bbbvSolved L.msb.ce)) ∧
    (L.stats mn).getIoe = .ok (some (per L.msb.bbbvSolved (clicks L.msb))) ∧
    (L.stats mn).getEtime = .ok (some (if L.msb.bbbvSolved = 0 then 0 else
      (L.rtimeMs : ℚ) / 1000 * calBbbv L.board / L.msb.bbbvSolved)) ∧
    (L.rtimeMs ≠ 0 →
      (L.stats mn).getLeftS now = some (some (perSecond L.msb.left L.rtimeMs)) ∧
      (L.stats mn).getRightS now = some (some (perSecond L.msb.right L.rtimeMs)) ∧
      (L.stats mn).getDoubleS now = some (some (perSecond L.msb.double L.rtimeMs)) ∧
      (L.stats mn).getClS now = some (some (perSecond (clicks L.msb) L.rtimeMs)) ∧
      (L.stats mn).getFlagS now = some (some (perSecond L.msb.flag L.rtimeMs)) ∧
      (L.stats mn).getBbbvS = .ok (some (perSecond L.msb.bbbvSolved L.rtimeMs))) ∧
    (L.rtimeMs = 0 →
      (L.stats mn).getLeftS now = some none ∧ (L.stats mn).getRightS now = some none ∧
      (L.stats mn).getDoubleS now = some none ∧ (L.stats mn).getClS now = some none ∧
      (L.stats mn).getFlagS now = some none ∧ (L.stats mn).getBbbvS = .ok none) := by
  obtain ⟨s1, s2, s3, s4, s5, s6, s7, s8, s9, s10, s11, s12, s13⟩ := live_stats L mn
  obtain ⟨c1, c2, c3, c4, c5, c6, -, c8⟩ := C59_live_counts h mn
  obtain ⟨d1, d2, d3⟩ := c8 hend
  have hnd : (L.stats mn).state ≠ .display := by rw [s1]; rcases hend with h | h <;> simp [h]
  have hrate : ∀ n f, (L.stats mn).rate n f now = some f := by
    intro n f
    unfold Stats.rate
    rcases hend with hg | hg <;> rw [s1, hg]
  have hstore : (L.stats mn).leftS = fdiv L.msb.left ((L.rtimeMs : ℚ) / 1000) ∧
      (L.stats mn).rightS = fdiv L.msb.right ((L.rtimeMs : ℚ) / 1000) ∧
      (L.stats mn).doubleS = fdiv L.msb.double ((L.rtimeMs : ℚ) / 1000) ∧
      (L.stats mn).clS = fdiv (clicks L.msb) ((L.rtimeMs : ℚ) / 1000) ∧
      (L.stats mn).flagS = fdiv L.msb.flag ((L.rtimeMs : ℚ) / 1000) := by
    unfold Live.stats
    simp only
    rw [if_pos hend]
    exact ⟨rfl, rfl, rfl, rfl, rfl⟩
  have hper : L.rtimeMs ≠ 0 → ∀ n : Nat, fdiv n ((L.rtimeMs : ℚ) / 1000) = some (perSecond n L.rtimeMs) := by
    intro h0 n
    have h1 : (1 : ℚ) ≤ L.rtimeMs := by exact_mod_cast Nat.one_le_iff_ne_zero.mpr h0
    have h2 : (L.rtimeMs : ℚ) ≠ 0 := by linarith
    rw [fdiv, if_neg (div_ne_zero h2 (by norm_num)), perSecond, if_neg (by linarith)]
    congr 1
    field_simp
  have hper0 : L.rtimeMs = 0 → ∀ n : Nat, fdiv n ((L.rtimeMs : ℚ) / 1000) = none := by
    intro h0 n
    rw [fdiv, if_pos (by rw [h0]; simp)]
  refine ⟨?_, ?_, ?_, ?_, fun h0 => ⟨?_, ?_, ?_, ?_, ?_, ?_⟩, fun h0 => ⟨?_, ?_, ?_, ?_, ?_, ?_⟩⟩
  · rw [Stats.getCorr, d1, c4]; exact fdiv_share _ _
  · rw [Stats.getThrp, d1, d2]; exact fdiv_share _ _
  · rw [Stats.getIoe, d2, c4]; exact fdiv_share _ _
  · rw [Stats.getEtime, d2]
    simp only [Res.bind, if_neg hnd]
    by_cases h0 : L.msb.bbbvSolved = 0
    · simp [h0]
    · have : (L.msb.bbbvSolved : ℚ) ≠ 0 := by exact_mod_cast h0
      simp only [h0, if_false, fdiv, if_neg this, fmul, Option.bind_some, Option.map_some, s10, s11]
      congr 2
      ring
  · rw [Stats.getLeftS, hrate, hstore.1, hper h0]
  · rw [Stats.getRightS, hrate, hstore.2.1, hper h0]
  · rw [Stats.getDoubleS, hrate, hstore.2.2.1, hper h0]
  · rw [Stats.getClS, hrate, hstore.2.2.2.1, hper h0]
  · rw [Stats.getFlagS, hrate, hstore.2.2.2.2, hper h0]
  · rw [Stats.getBbbvS, d2]
    simp only [Res.bind, if_neg hnd, s10, hper h0]
  · rw [Stats.getLeftS, hrate, hstore.1, hper0 h0]
  · rw [Stats.getRightS, hrate, hstore.2.1, hper0 h0]
  · rw [Stats.getDoubleS, hrate, hstore.2.2.1, hper0 h0]
  · rw [Stats.getClS, hrate, hstore.2.2.2.1, hper0 h0]
  · rw [Stats.getFlagS, hrate, hstore.2.2.2.2, hper0 h0]
  · rw [Stats.getBbbvS, d2]
    simp only [Res.bind, if_neg hnd, s10, hper0 h0]

/-- **C59** Finding: at the end of every live game, `ce_s`, `rqp` and `qg` are 0: they are computed from the time of the
player, which a live game never sets. -/
theorem C59_live_zero {b : Bool} {t : Nat} {L : Live} (h : Session dist b t L) (mn : Nat) (W : Pow)
    (hend : L.gstate = .win ∨ L.gstate = .loss) :
    (L.stats mn).getCeS = .ok (some 0) ∧ (L.stats mn).getRqp = .ok (some 0) ∧ (L.stats mn).getQg W = .ok (some 0) := by
  obtain ⟨s1, s2, s3, s4, -⟩ := live_stats L mn
  obtain ⟨-, -, -, -, -, -, -, c8⟩ := C59_live_counts h mn
  obtain ⟨d1, d2, -⟩ := c8 hend
  refine ⟨?_, ?_, ?_⟩
  · rw [Stats.getCeS, d1]
    simp only [Res.bind, s4]
    norm_num
  · rw [Stats.getRqp, d2]
    simp only [Res.bind, s4]
    by_cases h0 : L.msb.bbbvSolved = 0
    · simp [h0]
    · simp [h0, fdiv]
  · rw [Stats.getQg, d2]
    simp only [Res.bind, s4]
    by_cases h0 : L.msb.bbbvSolved = 0
    · simp [h0]
    · simp [h0, fdiv, fdiv', Pow.pow17, W.p17_zero]

/-- **C59** While a live game is played its rates are the counters per second of the running time (see `C51` for when that
panics), and infinite or NaN in the first millisecond. -/
theorem C59_live_playing {b : Bool} {t : Nat} {L : Live} (h : Session dist b t L) (mn now : Nat)
    (hp : L.gstate = .playing) :
    (L.stats mn).getLeftS now = (L.getTimeMs now).map (fun ms => fdiv (L.msb.left * 1000) ms) ∧
    (L.stats mn).getRightS now = (L.getTimeMs now).map (fun ms => fdiv (L.msb.right * 1000) ms) ∧
    (L.stats mn).getDoubleS now = (L.getTimeMs now).map (fun ms => fdiv (L.msb.double * 1000) ms) ∧
    (L.stats mn).getClS now = (L.getTimeMs now).map (fun ms => fdiv ((clicks L.msb : Nat) * 1000) ms) ∧
    (L.stats mn).getFlagS now = (L.getTimeMs now).map (fun ms => fdiv (L.msb.flag * 1000) ms) := by
  obtain ⟨s1, s2, s3, s4, s5, s6, s7, s8, s9, s10, s11, s12, s13⟩ := live_stats L mn
  obtain ⟨c1, c2, c3, c4, c5, -⟩ := C59_live_counts h mn
  have hrate : ∀ (n : Nat) f, (L.stats mn).rate (some n) f now = (L.getTimeMs now).map (fun ms => fdiv (n * 1000) ms) := by
    intro n f
    unfold Stats.rate Live.getTimeMs
    rw [s1, hp, s12, s13]
    simp only [Option.bind_some]
    split <;> rfl
  refine ⟨?_, ?_, ?_, ?_, ?_⟩
  · rw [Stats.getLeftS, c1, hrate]
  · rw [Stats.getRightS, c2, hrate]
  · rw [Stats.getDoubleS, c3, hrate]
  · rw [Stats.getClS, c4, hrate]
  · rw [Stats.getFlagS, c5, hrate]

/-! ## C59 what `analyse` stores -/

/-- **C59** `analyse` stores the totals of the game driven by all the events: the video is completed exactly if that game
is won; the quotients are NaN or infinite when nothing was clicked; the numbers of cells, openings and islands are those of
the board. -/
theorem C59_totals {v : View} {h w pix : Nat} (hv : Numbered v) {evs : List RawEv} {A : Replay}
    (hA : analyse dist v h w pix evs = some A) :
    ∃ m T, play pix v evs = some m ∧ totals A.msb v = some T ∧ (T.completed = true ↔ m.state = .win) ∧
      (T.left, T.right, T.double, T.flag, T.ce, T.solved) = (m.left, m.right, m.double, m.flag, m.ce, m.bbbvSolved) ∧
      T.cl = clicks m ∧
      T.corr = (if clicks m = 0 then none else some (per m.ce (clicks m))) ∧
      T.ioe = (if clicks m = 0 then none else some (per m.bbbvSolved (clicks m))) ∧
      T.thrp = (if m.ce = 0 then none else some (per m.bbbvSolved m.ce)) ∧
      T.cells = (List.range 9).map (fun k => ((vcells v).filter fun p => val v p = (k : Int)).card) ∧
      T.op = components (zeros v) ∧ T.isl = components (isolated v) := by
  have J := analyse_inv hv hA
  have h8 : ∀ p ∈ vcells v, val v p ≤ 8 := by
    intro p hp
    have hc := J.reach.inv.core
    rw [← J.board] at hp
    have := hc.bd_range (hc.vcells ▸ hp)
    rw [MSB.bd_val, J.board] at this
    omega
  have hd : ∀ a b : Nat, fdiv a b = if b = 0 then none else some (per a b) := by
    intro a b
    unfold fdiv per
    by_cases h : b = 0
    · simp [h]
    · have : (b : ℚ) ≠ 0 := by exact_mod_cast h
      simp [h]
  have hop := C04_cal_op v
  refine ⟨A.msb, _, J.plays, by rw [totals, C06_cal_cell_nums v h8]; rfl, by simp, rfl, rfl, hd _ _, hd _ _, hd _ _, rfl, ?_, C05_cal_isl v⟩
  show (calOp? v).getD 0 = _
  rw [hop]; rfl

/-- **C59** The player, put at the last event, shows these totals. -/
theorem C59_totals_shown {v : View} {h w pix mines : Nat} (hv : Numbered v) {evs : List RawEv} {A : Replay}
    (hA : analyse dist v h w pix evs = some A) (hne : evs ≠ []) {P : Player} (hP : Playing A h w mines P)
    (hlast : P.cur + 1 = evs.length) (base : Stats) :
    ∃ T, totals A.msb v = some T ∧ (P.stats base).getLeft = some T.left ∧ (P.stats base).getRight = some T.right ∧
      (P.stats base).getDouble = some T.double ∧ (P.stats base).getCl = some T.cl ∧ (P.stats base).getFlag = some T.flag ∧
      (P.stats base).getCe = .ok T.ce ∧ (P.stats base).getSolved = .ok T.solved := by
  obtain ⟨m, T, h1, h2, -, h3, h4, -⟩ := C59_totals hv hA
  obtain ⟨m', hm, a1, a2, a3, a4, a5, a6, a7, -⟩ := C59_counts hv hA hne hP base
  rw [hlast, List.take_length, h1, Option.some.injEq] at hm
  subst hm
  simp only [Prod.mk.injEq] at h3
  obtain ⟨e1, e2, e3, e4, e5, e6⟩ := h3
  refine ⟨T, h2, ?_, ?_, ?_, ?_, ?_, ?_, ?_⟩
  · rw [e1]; exact a1
  · rw [e2]; exact a2
  · rw [e3]; exact a3
  · rw [h4]; exact a4
  · rw [e4]; exact a5
  · rw [e5]; exact a6
  · rw [e6]; exact a7

/-! ## C60 `is_valid` -/

theorem tenDigits_eq (s : List Nat) : tenDigits s =
    if ∀ i < 10, ∃ d, s[i]? = some d ∧ 48 ≤ d then
      some (∑ i ∈ Finset.range 10, (s.getD i 0 - 48) * 10 ^ (9 - i)) else none := by
  have key : ∀ n, (List.range n).foldlM (m := Option) (fun acc i =>
      s[i]?.bind fun c => if c < 48 then none else some (acc + (c - 48) * 10 ^ (9 - i))) 0 =
      if ∀ i < n, ∃ d, s[i]? = some d ∧ 48 ≤ d then
        some (∑ i ∈ Finset.range n, (s.getD i 0 - 48) * 10 ^ (9 - i)) else none := by
    intro n
    induction n with
    | zero => simp
    | succ n ih =>
      rw [List.range_succ, List.foldlM_append, ih]
      by_cases h : ∀ i < n, ∃ d, s[i]? = some d ∧ 48 ≤ d
      · rw [if_pos h]
        simp only [List.foldlM_cons, List.foldlM_nil, Option.bind_eq_bind, Option.bind_some, Option.pure_def,
          Option.bind_fun_some]
        cases hs : s[n]? with
        | none =>
          rw [if_neg]
          · rfl
          · intro h'
            obtain ⟨d, h1, -⟩ := h' n (by omega)
            rw [hs] at h1; cases h1
        | some d =>
          simp only [Option.bind_some]
          by_cases hd : d < 48
          · rw [if_pos hd, if_neg]
            intro h'
            obtain ⟨d', h1, h2⟩ := h' n (by omega)
            rw [hs, Option.some.injEq] at h1
            omega
          · rw [if_neg hd, if_pos, Finset.sum_range_succ]
            · congr 2
              simp [List.getD, hs]
            · intro i hi
              rcases Nat.lt_succ_iff_lt_or_eq.mp hi with h1 | h1
              · exact h i h1
              · exact ⟨d, by rw [h1]; exact hs, by omega⟩
      · rw [if_neg h, if_neg]
        · rfl
        · intro h'
          exact h fun i hi => h' i (by omega)
  exact key 10

theorem done_eq (c : Claim) : c.done = if c.events < 10 * c.bbbv then 3 else if c.completed then 0 else 1 := by
  unfold Claim.done
  have : (c.bbbv ≠ 0 ∧ (c.events : ℚ) / c.bbbv < 10) ↔ c.events < 10 * c.bbbv := by
    by_cases h0 : c.bbbv = 0
    · simp [h0]
    · have hp : (0 : ℚ) < c.bbbv := by exact_mod_cast Nat.pos_of_ne_zero h0
      rw [div_lt_iff₀ hp]
      constructor
      · rintro ⟨-, h⟩
        exact_mod_cast h
      · intro h
        exact ⟨h0, by exact_mod_cast h⟩
  simp only [this]

/-- **C60** What `is_valid` answers, in full: it panics exactly for a Viennasweeper video whose start time has fewer than
ten bytes or a byte below `'0'` among the first ten; otherwise it answers 3 for a video by allowed software with fewer than
ten events per 3BV, 0 for one that has enough and is completed, and 1 for all others. -/
theorem C60_is_valid (c : Claim) :
    (c.isValid = none ↔ c.software = vienna ∧ ¬ ∀ i < 10, ∃ d, c.startTime[i]? = some d ∧ 48 ≤ d) ∧
    (c.isValid = some 3 ↔ Allowed c ∧ Sparse c) ∧
    (c.isValid = some 0 ↔ Allowed c ∧ ¬ Sparse c ∧ c.completed = true) ∧
    (c.isValid ≠ none → c.isValid ≠ some 0 → c.isValid ≠ some 3 → c.isValid = some 1) := by
  have hd : c.done = (if Sparse c then 3 else if c.completed then 0 else 1) := done_eq c
  have hn : vienna ≠ arbiter := by decide
  have hm1 : meta32 ≠ arbiter := by decide
  have hm2 : meta317 ≠ arbiter := by decide
  have hm3 : meta32 ≠ vienna := by decide
  have hm4 : meta317 ≠ vienna := by decide
  have fin : ∀ x : Option Nat, x = some c.done →
      (x = none ↔ False) ∧ (x = some 3 ↔ Sparse c) ∧ (x = some 0 ↔ ¬ Sparse c ∧ c.completed = true) ∧
      (x ≠ none → x ≠ some 0 → x ≠ some 3 → x = some 1) := by
    rintro x rfl
    rw [hd]
    by_cases hsp : Sparse c
    · simp [hsp]
    · cases hco : c.completed <;> simp [hsp]
  have one : ∀ x : Option Nat, x = some 1 → ¬ Allowed c →
      (x = none ↔ False) ∧ (x = some 3 ↔ Allowed c ∧ Sparse c) ∧ (x = some 0 ↔ Allowed c ∧ ¬ Sparse c ∧ c.completed = true) ∧
      (x ≠ none → x ≠ some 0 → x ≠ some 3 → x = some 1) := by
    rintro x rfl ha
    simp [ha]
  by_cases h1 : c.software = arbiter
  · have ha : Allowed c := .arbiter h1
    have hx : c.isValid = some c.done := by rw [Claim.isValid, if_pos h1]
    obtain ⟨f1, f2, f3, f4⟩ := fin _ hx
    refine ⟨f1.trans ⟨False.elim, fun hh => hn (hh.1 ▸ h1)⟩, ?_, ?_, f4⟩
    · rw [f2]; exact ⟨fun h => ⟨ha, h⟩, fun h => h.2⟩
    · rw [f3]; exact ⟨fun h => ⟨ha, h⟩, fun h => h.2⟩
  · by_cases h2 : c.software = vienna
    · by_cases hdig : ∀ i < 10, ∃ d, c.startTime[i]? = some d ∧ 48 ≤ d
      · by_cases hle : ∑ i ∈ Finset.range 10, (c.startTime.getD i 0 - 48) * 10 ^ (9 - i) ≤ 1682265600
        · have ha : Allowed c := .vienna h2 hdig hle
          have hx : c.isValid = some c.done := by
            rw [Claim.isValid, if_neg h1, if_pos h2, tenDigits_eq, if_pos hdig, Option.map_some, if_neg (by omega)]
          obtain ⟨f1, f2, f3, f4⟩ := fin _ hx
          refine ⟨f1.trans ⟨False.elim, fun hh => hh.2 hdig⟩, ?_, ?_, f4⟩
          · rw [f2]; exact ⟨fun h => ⟨ha, h⟩, fun h => h.2⟩
          · rw [f3]; exact ⟨fun h => ⟨ha, h⟩, fun h => h.2⟩
        · have ha : ¬ Allowed c := by
            rintro (h | ⟨-, -, h⟩ | ⟨h | h, -⟩)
            · exact h1 h
            · exact hle h
            · exact hm3 (h ▸ h2)
            · exact hm4 (h ▸ h2)
          have hx : c.isValid = some 1 := by
            rw [Claim.isValid, if_neg h1, if_pos h2, tenDigits_eq, if_pos hdig, Option.map_some, if_pos (by omega)]
          obtain ⟨f1, f2, f3, f4⟩ := one _ hx ha
          exact ⟨f1.trans ⟨False.elim, fun hh => hh.2 hdig⟩, f2, f3, f4⟩
      · have hx : c.isValid = none := by
          rw [Claim.isValid, if_neg h1, if_pos h2, tenDigits_eq, if_neg hdig, Option.map_none]
        have ha : ¬ Allowed c := by
          rintro (h | ⟨-, h, -⟩ | ⟨h | h, -⟩)
          · exact h1 h
          · exact hdig h
          · exact hm3 (h ▸ h2)
          · exact hm4 (h ▸ h2)
        rw [hx]
        refine ⟨⟨fun _ => ⟨h2, hdig⟩, fun _ => rfl⟩, ?_, ?_, fun h => absurd rfl h⟩
        · simp [ha]
        · simp [ha]
    · by_cases h3 : c.software = meta32 ∨ c.software = meta317
      · have hcs : (∀ e ∈ c.checksum, c.checksum[0]? = some e) ↔ ¬ ∃ a ∈ c.checksum, ∃ b ∈ c.checksum, a ≠ b := by
          constructor
          · rintro h ⟨a, ha, b, hb, hab⟩
            have := (h a ha).symm.trans (h b hb)
            exact hab (by simpa using this)
          · intro h e he
            push Not at h
            cases hc : c.checksum with
            | nil => rw [hc] at he; cases he
            | cons x l =>
              have := h x (by rw [hc]; simp) e he
              simp [this]
        by_cases hck : ∀ e ∈ c.checksum, c.checksum[0]? = some e
        · have hx : c.isValid = some 1 := by rw [Claim.isValid, if_neg h1, if_neg h2, if_pos h3, if_pos hck]
          have ha : ¬ Allowed c := by
            rintro (h | ⟨h, -⟩ | ⟨-, -, h⟩)
            · exact h1 h
            · exact h2 h
            · exact hcs.mp hck h
          obtain ⟨f1, f2, f3, f4⟩ := one _ hx ha
          exact ⟨f1.trans ⟨False.elim, fun hh => h2 hh.1⟩, f2, f3, f4⟩
        · by_cases hf : c.fair = true
          · have hx : c.isValid = some c.done := by
              rw [Claim.isValid, if_neg h1, if_neg h2, if_pos h3, if_neg hck, if_neg (by simp [hf])]
            have ha : Allowed c := .metaSweeper h3 hf (by
              by_contra h
              exact hck (hcs.mpr h))
            obtain ⟨f1, f2, f3, f4⟩ := fin _ hx
            refine ⟨f1.trans ⟨False.elim, fun hh => h2 hh.1⟩, ?_, ?_, f4⟩
            · rw [f2]; exact ⟨fun h => ⟨ha, h⟩, fun h => h.2⟩
            · rw [f3]; exact ⟨fun h => ⟨ha, h⟩, fun h => h.2⟩
          · have hx : c.isValid = some 1 := by
              rw [Claim.isValid, if_neg h1, if_neg h2, if_pos h3, if_neg hck, if_pos (by simpa using hf)]
            have ha : ¬ Allowed c := by
              rintro (h | ⟨h, -⟩ | ⟨-, h, -⟩)
              · exact h1 h
              · exact h2 h
              · exact hf h
            obtain ⟨f1, f2, f3, f4⟩ := one _ hx ha
            exact ⟨f1.trans ⟨False.elim, fun hh => h2 hh.1⟩, f2, f3, f4⟩
      · have hx : c.isValid = some 1 := by rw [Claim.isValid, if_neg h1, if_neg h2, if_neg h3]
        have ha : ¬ Allowed c := by
          rintro (h | ⟨h, -⟩ | ⟨h, -⟩)
          · exact h1 h
          · exact h2 h
          · exact h3 h
        obtain ⟨f1, f2, f3, f4⟩ := one _ hx ha
        exact ⟨f1.trans ⟨False.elim, fun hh => h2 hh.1⟩, f2, f3, f4⟩

/-- **C60** The events of a video that `is_valid` accepts after `analyse` win the game: played on the board of the video
they open every safe cell, and no mine. -/
theorem C60_won {v : View} {h w pix : Nat} (hv : Numbered v) {evs : List RawEv} {A : Replay}
    (hA : analyse dist v h w pix evs = some A) {T : Totals} (hT : totals A.msb v = some T) (c : Claim)
    (hc : c.completed = T.completed) (hok : c.isValid = some 0) :
    ∃ m, play pix v evs = some m ∧ m.state = .win ∧
      ∀ p ∈ vcells v, val v p ≠ -1 → m.gameBoard.get p.1 p.2 = val v p := by
  obtain ⟨m, T', h1, h2, h3, -⟩ := C59_totals hv hA
  rw [hT, Option.some.injEq] at h2
  subst h2
  have hw := h3.mp (hc ▸ ((C60_is_valid c).2.2.1.mp hok).2.2)
  refine ⟨m, h1, hw, fun p hp hb => ?_⟩
  have J := analyse_inv hv hA
  rw [J.plays, Option.some.injEq] at h1
  subst h1
  have hi := J.reach.inv
  rw [← J.board] at hp
  have hp' := hi.core.vcells ▸ hp
  have := hi.win hw p hp' (by rw [MSB.bd_val, J.board]; exact hb)
  rw [MSB.bd_val, J.board] at this
  exact this

end Ms.Properties
