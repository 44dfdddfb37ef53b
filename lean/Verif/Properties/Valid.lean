import Verif.Properties.Stats
import Verif.Properties.Parsers
import Verif.Properties.Evf

/-! # C59, C60: examples and refutations; `is_valid` after the readers -/

namespace Ms.Properties
open Ms Ms.Spec Ms.Vid

/-! ## C60 after the readers -/

/-- What `is_valid` sees of a video read from an AVF, RMV or MVF file: the checksum is 32 zeros (base_video.rs 373, 420),
the events and the 3BV are those of the file, `done` says whether the game was completed (set by `analyse`; false before);
`is_fair` (avf_video.rs 78) is looked at for no such file. -/
def fileClaim (v : FileVideo) (fair done : Bool) : Claim :=
  { software := v.software, startTime := v.startTime, checksum := List.replicate 32 0, fair := fair
    events := v.events.length, bbbv := v.bbbv, completed := done }

/-- The same for an EVF file. -/
def evfClaim (v : Evf.Parsed) (done : Bool) : Claim :=
  { software := v.strs.software, startTime := v.strs.startTime, checksum := v.checksum, fair := v.hdr.fair
    events := v.events.length, bbbv := v.hdr.bbbv, completed := done }

theorem arbiter_text : "Arbiter".toList.map Char.toNat = arbiter := by decide
theorem vienna_text : "Viennasweeper".toList.map Char.toNat = vienna := by decide

/-- **C60** Of an AVF file that the reader accepts, `is_valid` never panics and looks at nothing but the number of events,
the 3BV written in the file and whether the game was completed. -/
theorem C60_avf (parseF64 : Bytes → Option (Option ℚ)) (l r : Bytes) (v : FileVideo) (hl : ∀ b ∈ l, b < 256)
    (h : parseAvf parseF64 l = .ok (v, r)) (fair done : Bool) :
    (fileClaim v fair done).isValid =
      some (if v.events.length < 10 * v.bbbv then 3 else if done then 0 else 1) := by
  obtain ⟨f, -, -, hv⟩ := (C55_avf parseF64 l r v hl).mp h
  have hs : (fileClaim v fair done).software = arbiter := hv.others.1.trans arbiter_text
  unfold Claim.isValid
  rw [if_pos hs, done_eq]
  rfl

/-- **C60** No MVF file is ever valid, and none makes `is_valid` panic. -/
theorem C60_mvf (magic : Nat → Fin 40 → Fin 10) (l r : Bytes) (v : FileVideo) (hl : ∀ b ∈ l, b < 256)
    (h : parseMvf magic l = .ok (v, r)) (fair done : Bool) : (fileClaim v fair done).isValid = some 1 := by
  have hs : v.software = "0.97 beta".toList.map Char.toNat ∨ v.software = [] := by
    rcases (C55_mvf magic l r v hl).mp h with ⟨f, -, -, hv⟩ | ⟨rfl, -⟩
    · exact .inl hv.others.1
    · exact .inr rfl
  have h1 : ∀ s ∈ [arbiter, vienna, meta32, meta317],
      ¬ (s = "0.97 beta".toList.map Char.toNat ∨ s = []) := by decide
  have h2 : ∀ s ∈ [arbiter, vienna, meta32, meta317], (fileClaim v fair done).software ≠ s := by
    rintro s hs' rfl
    exact h1 _ hs' hs
  unfold Claim.isValid
  rw [if_neg (h2 _ (by simp)), if_neg (h2 _ (by simp)),
    if_neg (not_or.mpr ⟨h2 _ (by simp), h2 _ (by simp)⟩)]

/-- **C60** Of an RMV file that the reader accepts: with a result text of up to 32 bytes (announced as up to 35)
`is_valid` panics; with a longer one it panics if one of the last ten bytes of the text is below 48 (`0`), answers 1 if
the number they form is above 1682265600, and otherwise looks at the events, the 3BV of the text and whether the game was
completed. -/
theorem C60_rmv (l r : Bytes) (v : FileVideo) (hl : ∀ b ∈ l, b < 256) (h : parseRmv l = .ok (v, r)) (fair done : Bool) :
    ∃ f : RmvFile, f.Valid ∧ l = f.bytes ++ r ∧
      ((fileClaim v fair done).isValid = none ↔
        f.result.length ≤ 32 ∨ ∃ c ∈ f.result.drop (f.result.length - 10), c < 48) ∧
      (∀ t, (fileClaim v fair done).isValid = some t →
        t = if 1682265600 < ∑ i ∈ Finset.range 10,
              ((f.result.drop (f.result.length - 10)).getD i 0 - 48) * 10 ^ (9 - i) then 1
            else if v.events.length < 10 * v.bbbv then 3 else if done then 0 else 1) := by
  obtain ⟨f, hf, hb, hv⟩ := (C55_rmv l r v hl).mp h
  refine ⟨f, hf, hb, ?_⟩
  have hs : (fileClaim v fair done).software = vienna := hv.others.1.trans vienna_text
  have hn : vienna ≠ arbiter := by decide
  have hval : (fileClaim v fair done).isValid =
      (tenDigits v.startTime).map fun t => if t > 1682265600 then 1 else (fileClaim v fair done).done := by
    unfold Claim.isValid
    rw [if_neg (by rw [hs]; exact hn), if_pos hs]
    rfl
  rw [hval, tenDigits_eq, done_eq]
  have hr := hv.result
  unfold RmvFile.Result at hr
  by_cases h35 : 35 < f.result.length + 3
  · rw [if_pos h35] at hr
    obtain ⟨-, hst⟩ := hr
    have hlen : v.startTime.length = 10 := by rw [hst, List.length_drop]; omega
    rw [← hst]
    have hiff : (∀ i < 10, ∃ d, v.startTime[i]? = some d ∧ 48 ≤ d) ↔ ¬ ∃ c ∈ v.startTime, c < 48 := by
      constructor
      · rintro h1 ⟨c, hc, hlt⟩
        obtain ⟨i, hi, rfl⟩ := List.getElem_of_mem hc
        obtain ⟨d, hd, hle⟩ := h1 i (by omega)
        rw [List.getElem?_eq_getElem hi, Option.some.injEq] at hd
        omega
      · intro h1 i hi
        have hi' : i < v.startTime.length := by omega
        refine ⟨v.startTime[i], List.getElem?_eq_getElem hi', ?_⟩
        by_contra hlt
        exact h1 ⟨v.startTime[i], List.getElem_mem hi', by omega⟩
    by_cases hc : ∀ i < 10, ∃ d, v.startTime[i]? = some d ∧ 48 ≤ d
    · rw [if_pos hc]
      refine ⟨?_, ?_⟩
      · simp only [Option.map_some, reduceCtorEq, false_iff, not_or]
        exact ⟨by omega, hiff.mp hc⟩
      · intro t ht
        simp only [Option.map_some, Option.some.injEq] at ht
        rw [← ht]
        rfl
    · rw [if_neg hc]
      refine ⟨?_, fun t ht => by cases ht⟩
      simp only [Option.map_none, true_iff]
      right
      by_contra hh
      exact hc (hiff.mpr hh)
  · rw [if_neg h35] at hr
    obtain ⟨-, hst⟩ := hr
    have hc : ¬ ∀ i < 10, ∃ d, v.startTime[i]? = some d ∧ 48 ≤ d := by
      intro h1
      obtain ⟨d, hd, -⟩ := h1 0 (by omega)
      rw [hst] at hd
      cases hd
    rw [if_neg hc]
    refine ⟨?_, fun t ht => by cases ht⟩
    simp only [Option.map_none, true_iff]
    left
    omega

/-- **C60 (refuted)** that `is_valid` gives an answer for every accepted file -/
theorem C60_refuted : ∃ l r v, (∀ b ∈ l, b < 256) ∧ parseRmv l = .ok (v, r) ∧ ∀ fair done,
    (fileClaim v fair done).isValid = none := by
  have h := sampleRmv_ok
  obtain ⟨v, r, h1, -⟩ := toOption_some h
  refine ⟨sampleRmv, r, v, sampleRmv_bytes, h1, fun fair done => ?_⟩
  have hst : ((parseRmv sampleRmv).toOption.map fun p => (p.1.software, p.1.startTime)) = some (vienna, []) := by decide +kernel
  rw [h1] at hst
  simp only [Except.toOption, Option.map_some, Option.some.injEq, Prod.mk.injEq] at hst
  rw [(C60_is_valid _).1]
  refine ⟨hst.1, fun h1 => ?_⟩
  obtain ⟨d, hd, -⟩ := h1 0 (by omega)
  rw [show (fileClaim v fair done).startTime = [] from hst.2] at hd
  cases hd

/-- **C60** Saved to EVF and read back, a recording is judged as the recording itself is. -/
theorem C60_evf (v : Evf.Rec) (hv : FitsEvf v) (done : Bool) :
    ∃ bs out, Evf.generate v = some bs ∧ (∀ r, Evf.parseVideo (bs ++ r) = .ok (out, r)) ∧
      evfClaim out done =
        { software := v.strs.software, startTime := v.strs.startTime
          checksum := if v.hasChecksum then v.checksum else List.replicate 32 0
          fair := v.hdr.fair, events := v.events.length, bbbv := v.hdr.bbbv, completed := done } := by
  obtain ⟨bs, out, h1, h2, h3, h4, h5, h6, -⟩ := C23_evf_roundtrip v hv
  refine ⟨bs, out, h1, h2, ?_⟩
  unfold evfClaim
  rw [h3, h4, h5, h6]

/-- **C60** An EVF recording of the Metasweeper that was saved without a checksum is never valid. -/
theorem C60_evf_unsigned (v : Evf.Rec) (hv : FitsEvf v) (hc : v.hasChecksum = false)
    (hsoft : v.strs.software = meta32 ∨ v.strs.software = meta317) (done : Bool) :
    ∃ bs out, Evf.generate v = some bs ∧ (∀ r, Evf.parseVideo (bs ++ r) = .ok (out, r)) ∧
      (evfClaim out done).isValid = some 1 := by
  obtain ⟨bs, out, h1, h2, h3⟩ := C60_evf v hv done
  refine ⟨bs, out, h1, h2, ?_⟩
  rw [hc] at h3
  have hs : (evfClaim out done).software = v.strs.software := by rw [h3]
  have hsum : (evfClaim out done).checksum = List.replicate 32 0 := by rw [h3]; rfl
  have hm : ∀ s, s = meta32 ∨ s = meta317 → s ≠ arbiter ∧ s ≠ vienna := by
    rintro s (rfl | rfl) <;> decide
  obtain ⟨n1, n2⟩ := hm _ hsoft
  unfold Claim.isValid
  rw [hs, if_neg n1, if_neg n2, if_pos hsoft, if_pos (by rw [hsum]; decide)]

/-! ### examples -/

/-- powers that meet the assumptions, for the examples -/
def samplePow : Pow := ⟨id, id, rfl, fun _ h => h, fun _ h => h⟩

/-- the other fields of the video in the examples -/
def sampleBase : Stats :=
  { state := .display, recs := [], cur := 0, curTime := 0, left := 0, right := 0, double := 0, flag := 0, mouse := .upUp
    rtime := 0, leftS := some 0, rightS := some 0, doubleS := some 0, clS := some 0, flagS := some 0, bbbv := 4
    height := 0, width := 0, mineNum := 0, pix := 10, videoStart := 0, gameStart := 0, playK := some 1 }

set_option synthInstance.maxSize 1000 in
/-- The sample video, sought to 57 ms after the start of the game (the fourth opening), is in the range of the theorems
of C59, and shows these numbers. -/
example : ∃ A evs P, sampleVideo = some A ∧ evs ≠ [] ∧ analyse taxi gameSample.view 3 4 10 evs = some A ∧
    Playing A 3 4 2 P ∧ P.curTime = 57 ∧
    ((P.stats sampleBase).getLeft, (P.stats sampleBase).getRight, (P.stats sampleBase).getCl, (P.stats sampleBase).getFlag,
      (P.stats sampleBase).getCe, (P.stats sampleBase).getSolved) = (some 3, some 2, some 5, some 2, .ok 5, .ok 3) ∧
    ((P.stats sampleBase).getLeftS 0, (P.stats sampleBase).getBbbvS, (P.stats sampleBase).getIoe) =
      (some (some (3000 / 57)), .ok (some (3000 / 57)), .ok (some (3 / 5))) ∧
    (P.stats sampleBase).getXY = .ok (15, 25) := by
  obtain ⟨A, evs, h1, h2, h3, -⟩ := sampleVideo_analysed
  have hd : (sampleVideo.bind fun A => ((A.player 3 4 2).setTime 57).map fun P =>
      (P.curTime, ((P.stats sampleBase).getLeft, (P.stats sampleBase).getRight, (P.stats sampleBase).getCl,
        (P.stats sampleBase).getFlag, (P.stats sampleBase).getCe, (P.stats sampleBase).getSolved))) =
      some (57, (some 3, some 2, some 5, some 2, .ok 5, .ok 3)) := by decide +kernel
  have hd2 : (sampleVideo.bind fun A => ((A.player 3 4 2).setTime 57).map fun P =>
      (((P.stats sampleBase).getLeftS 0, (P.stats sampleBase).getBbbvS, (P.stats sampleBase).getIoe),
       (P.stats sampleBase).getXY)) =
      some ((some (some (3000 / 57)), .ok (some (3000 / 57)), .ok (some (3 / 5))), .ok (15, 25)) := by decide +kernel
  rw [h1, Option.bind_some, Option.map_eq_some_iff] at hd
  obtain ⟨P, hP, e⟩ := hd
  rw [h1, Option.bind_some, hP, Option.map_some, Option.some.injEq, Prod.mk.injEq] at hd2
  rw [Prod.mk.injEq] at e
  exact ⟨A, evs, P, h1, h2, h3, .seek .start hP, e.1, e.2, hd2.1, hd2.2⟩

/-- **C59 (refuted)** that `get_qg` is a number: in a file whose times go back, the time shown may be negative. -/
theorem C59_qg_refuted : ∃ evs A P, analyse taxi gameSample.view 3 4 10 evs = some A ∧ Playing A 3 4 2 P ∧
    (P.stats sampleBase).getSolved = .ok 1 ∧ (P.stats sampleBase).getQg samplePow = .ok none := by
  have hd : ((analyse taxi gameSample.view 3 4 10 [⟨10, .lc, 35, 5⟩, ⟨10, .lr, 35, 5⟩, ⟨0, .mv, 35, 5⟩]).bind fun A =>
      ((A.player 3 4 2).setEvent 2).map fun P =>
        ((P.1.stats sampleBase).getSolved, (P.1.stats sampleBase).getQg samplePow)) = some (.ok 1, .ok none) := by
    decide +kernel
  rw [Option.bind_eq_some_iff] at hd
  obtain ⟨A, hA, h2⟩ := hd
  rw [Option.map_eq_some_iff] at h2
  obtain ⟨⟨P, ok⟩, hP, e⟩ := h2
  simp only [Prod.mk.injEq] at e
  exact ⟨_, A, P, hA, .jump .start hP, e.1, e.2⟩

/-- **C59 (refuted)** that `get_x_y` answers: if no event so far lies to the left of the right edge, it panics. -/
theorem C59_position_refuted : ∃ evs A, evs ≠ [] ∧ analyse taxi gameSample.view 3 4 10 evs = some A ∧
    ((A.player 3 4 2).stats sampleBase).getXY = .panic := by
  have hd : ((analyse taxi gameSample.view 3 4 10 [⟨0, .mv, 40, 5⟩]).map fun A =>
      ((A.player 3 4 2).stats sampleBase).getXY) = some .panic := by decide +kernel
  rw [Option.map_eq_some_iff] at hd
  obtain ⟨A, hA, e⟩ := hd
  exact ⟨_, A, by simp, hA, e⟩

/-- **C59 (refuted)** that the correctness is at most 1: marks set and removed before the game count as effective clicks
(C21). -/
theorem C59_corr_refuted : ∃ evs A P q, analyse taxi gameSample.view 3 4 10 evs = some A ∧ Playing A 3 4 2 P ∧
    (P.stats sampleBase).getCorr = .ok (some q) ∧ 1 < q := by
  have hd : ((analyse taxi gameSample.view 3 4 10 [⟨0, .rc, 5, 15⟩, ⟨1, .rr, 5, 15⟩, ⟨2, .rc, 5, 15⟩, ⟨3, .rr, 5, 15⟩,
      ⟨10, .lc, 35, 5⟩, ⟨11, .lr, 35, 5⟩]).bind fun A =>
      ((A.player 3 4 2).setEvent 5).map fun P => (P.1.stats sampleBase).getCorr) = some (.ok (some 2)) := by
    decide +kernel
  rw [Option.bind_eq_some_iff] at hd
  obtain ⟨A, hA, h2⟩ := hd
  rw [Option.map_eq_some_iff] at h2
  obtain ⟨⟨P, ok⟩, hP, e⟩ := h2
  exact ⟨_, A, P, 2, hA, .jump .start hP, e, by norm_num⟩

/-- **C59 (refuted)** that at the end of a live game `ce_s`, `rqp` and `qg` are those of the game: they are 0. -/
theorem C59_live_refuted : ∃ t L, Session taxi true t L ∧ L.gstate = .win ∧ L.msb.ce ≠ 0 ∧ L.rtimeMs = 108 ∧
    (L.stats 2).getCeS = .ok (some 0) ∧ (L.stats 2).getRqp = .ok (some 0) ∧
    (L.stats 2).getQg samplePow = .ok (some 0) := by
  have hd : (sampleLive.map fun r => (decide (r.2.msb.ce ≠ 0), r.2.rtimeMs)) = some (true, 108) := by decide +kernel
  obtain ⟨t, L, h1, h2, h3⟩ := sampleLive_session
  rw [h1] at hd
  simp only [Option.map_some, Option.some.injEq, Prod.mk.injEq, decide_eq_true_eq] at hd
  obtain ⟨a, b, c⟩ := C59_live_zero h2 2 samplePow (.inl h3)
  exact ⟨t, L, h2, h3, hd.1, hd.2, a, b, c⟩

/-- The sample game meets the hypotheses of `C59_live_end`: the rates are those of 108 ms. -/
example : ∃ t L, Session taxi true t L ∧ L.gstate = .win ∧ L.rtimeMs ≠ 0 ∧
    (L.stats 2).getLeftS 0 = some (some (5000 / 108)) := by
  have hd : (sampleLive.map fun r => (r.2.rtimeMs, (r.2.stats 2).getLeftS 0)) = some (108, some (some (5000 / 108))) := by
    decide +kernel
  obtain ⟨t, L, h1, h2, h3⟩ := sampleLive_session
  rw [h1] at hd
  simp only [Option.map_some, Option.some.injEq, Prod.mk.injEq] at hd
  exact ⟨t, L, h2, h3, by omega, hd.2⟩

/-- **C59 (refuted)** that the rates of a game are numbers: one that is over within half a millisecond has lasted 0 seconds. -/
theorem C59_live_end_refuted : ∃ t L, Session taxi true t L ∧ L.gstate = .loss ∧ (L.stats 2).getLeftS t = some none := by
  have hd : ((runLive taxi 0 (Live.new gameSample.view 10 0) [(1000, .lc, (15, 5)), (1300, .lr, (15, 5))]).map
      fun r => (r.2.gstate, (r.2.stats 2).getLeftS r.1)) = some (.loss, some none) := by decide +kernel
  rw [Option.map_eq_some_iff] at hd
  obtain ⟨⟨t, L⟩, h1, h2⟩ := hd
  simp only [Prod.mk.injEq] at h2
  exact ⟨t, L, session_run (Session.new gameSample_numbered) h1, h2.1, h2.2⟩

/-- **C59 (refuted)** that the rates can be asked for during a game: just after its start they panic. -/
theorem C59_live_rate_refuted : ∃ t L, Session taxi true t L ∧ L.gstate = .playing ∧ (L.stats 2).getLeftS (t + 100) = none := by
  obtain ⟨t, L, h1, h2, h3⟩ := C51_get_time_refuted
  refine ⟨t, L, h1, h2, ?_⟩
  rw [(C59_live_playing h1 2 (t + 100) h2).1, h3]
  rfl

example : Claim.isValid ⟨meta317, [], [1, 2], true, 40, 4, true⟩ = some 0 := by decide +kernel
example : Claim.isValid ⟨meta317, [], [1, 1], true, 40, 4, true⟩ = some 1 := by decide +kernel
example : Claim.isValid ⟨vienna, [49, 54, 56, 50, 50, 54, 53, 54, 48, 48], [], true, 40, 4, true⟩ = some 0 := by decide +kernel
example : Claim.isValid ⟨vienna, [49, 54, 56, 50, 50, 54, 53, 54, 48, 49], [], true, 40, 4, true⟩ = some 1 := by decide +kernel
example : Claim.isValid ⟨vienna, [49, 54, 56, 50, 50, 54, 53, 54, 48, 32], [], true, 40, 4, true⟩ = none := by decide +kernel
/-- A game that was not completed, with too few events, is answered 3 (needs a human), not 1. -/
example : Claim.isValid ⟨arbiter, [], [], true, 39, 4, false⟩ = some 3 := by decide +kernel
/-- A file that states a 3BV of 0 passes with no event. -/
theorem C60_bbbv_zero : Claim.isValid ⟨arbiter, [], [], true, 0, 0, true⟩ = some 0 := by decide +kernel

end Ms.Properties
