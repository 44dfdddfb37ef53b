import Verif.SpecWhole
import Verif.Properties.Video
import Verif.Properties.Metrics

/-! # C67 the life of a video object -/

namespace Ms.Properties
open Ms Ms.Spec Ms.Whole

variable {dist : Pos → Pos → ℚ}

theorem countMines_eq (v : View) : countMines v = (mines v).card := by
  unfold countMines mines
  have h := foldl_count (fun p : Pos => decide (v.get p.1 p.2 = -1)) (cells v.row v.col) 0
  simp only [decide_eq_true_eq] at h
  rw [h, Nat.zero_add]
  exact filter_cells_card _ _ _

theorem mines_le (v : View) : (mines v).card ≤ v.row * v.col := by
  refine le_trans (Finset.card_filter_le _ _) ?_
  simp [vcells, grid]

theorem calBbbv_le {v : View} (hv : Numbered v) : calBbbv v ≤ v.row * v.col := by
  have h := (C07_cal_bbbv_least v hv).2
  have hm : ((vcells v).filter fun p => val v p ≠ -1).toList.length ∈ {n | ∃ clicks : List Pos, clicks.length = n ∧ ClearsBoard v clicks} := by
    refine ⟨_, rfl, ?_, ?_⟩
    · intro p hp
      simpa using hp
    · intro q hq hn
      exact ⟨q, by simpa using ⟨hq, hn⟩, .self⟩
  refine le_trans (h hm) ?_
  rw [Finset.length_toList]
  refine le_trans (Finset.card_filter_le _ _) ?_
  simp [vcells, grid]

/-- What always holds of a video object. -/
structure LifeInv (dist : Pos → Pos → ℚ) (placed : Bool) (t : Nat) (W : Whole) : Prop where
  ses : ∃ b L, Session dist b t L ∧ W.live = { L with pix := W.live.pix } ∧
    (W.live.pix = L.pix ∨ L.gstate = .win ∨ L.gstate = .loss)
  same : placed = true → W.live.board = W.live.msb.board
  mine : W.mineNum = countMines W.live.board
  bbbv : W.over = true → W.bbbv = calBbbv W.live.board
  events : ∀ r ∈ W.live.recs, r.ev ∈ mouseEvents ∧ r.x < 65536 ∧ r.y < 65536
  texts : W.strs.NoNul
  mode : W.mode < 65536
  pix : W.live.pix < 256
  sum : W.checksum.length = 32
  row : 0 < W.live.height
  level : W.level = 0 ∨ W.level = Evf.levelOf W.live.board.row W.live.board.col W.mineNum

theorem put_noNul {s : Evf.Strs} (h : s.NoNul) {b : Evf.Bytes} (hb : TextOk b) (f : Text) : (f.put s b).NoNul := by
  obtain ⟨h1, h2, h3, h4, h5, h6, h7, h8⟩ := h
  cases f <;> constructor <;> assumption

theorem LifeInv.gst {placed : Bool} {t : Nat} {W : Whole} (h : LifeInv dist placed t W) : W.live.gstate = W.live.msb.state := by
  obtain ⟨b, L, h1, h2, -⟩ := h.ses
  rw [h2]
  exact h1.linv.gst

theorem LifeInv.ginv {placed : Bool} {t : Nat} {W : Whole} (h : LifeInv dist placed t W) : W.live.msb.GInv := by
  obtain ⟨b, L, h1, h2, -⟩ := h.ses
  rw [h2]
  exact h1.linv.reach.inv

theorem over_iff {W : Whole} : W.over = true ↔ W.live.gstate = .win ∨ W.live.gstate = .loss := by
  unfold over; simp

/-- a step of the recording, seen from outside -/
structure LiveFrame (L : Live) (e : Ev) (pos : Pos) (L' : Live) : Prop where
  board : L'.board = L.board
  msb : L'.msb.board = L.msb.board
  pix : L'.pix = L.pix
  height : L'.height = L.height
  recs : L'.recs = L.recs ∨ L'.recs = [] ∨ ∃ r : Rec, L'.recs = L.recs ++ [r] ∧ r.ev = e ∧ r.x < 65536 ∧ r.y < 65536

theorem live_frame {L L' : Live} {now : Nat} {e : Ev} {pos : Pos} {ok : Bool} (hg : L.msb.GInv)
    (hst : L.msb.state = .playing → L.stream ≠ []) (h : L.step dist now e pos = some (L', ok)) : LiveFrame L e pos L' := by
  have eff := Live.step_eff hg hst h
  cases eff with
  | over _ => exact ⟨rfl, rfl, rfl, rfl, .inl rfl⟩
  | refused m hm => exact ⟨rfl, ((MSB.step_eff hm).frame hg).1, rfl, rfl, .inl rfl⟩
  | back m a hm _ => exact ⟨rfl, ((MSB.step_eff hm).frame hg).1, rfl, rfl, .inr (.inl rfl)⟩
  | saved m a path hm _ _ _ _ =>
    exact ⟨rfl, ((MSB.step_eff hm).frame hg).1, rfl, rfl, .inr (.inr ⟨_, rfl, rfl, Nat.mod_lt _ (by norm_num), Nat.mod_lt _ (by norm_num)⟩)⟩

/-- a step of the object: the recording goes on, the time stamps are taken when play starts and ends, 3BV is computed at the end,
nothing else changes -/
theorem whole_step {placed : Bool} {t now : Nat} {W W' : Whole} {e : Ev} {pos : Pos} {stamp : Evf.Bytes} {ok : Bool}
    (h : LifeInv dist placed t W) (hs : W.step dist now e pos stamp = some (W', ok)) :
    ∃ L, W.live.step dist now e pos = some (L, ok) ∧
      W' = { W with
        live := L
        strs := if W.live.gstate ≠ .playing ∧ L.gstate = .playing then { W.strs with startTime := stamp }
          else if ¬ (W.live.gstate = .win ∨ W.live.gstate = .loss) ∧ (L.gstate = .win ∨ L.gstate = .loss) then { W.strs with endTime := stamp }
          else W.strs
        bbbv := if ¬ (W.live.gstate = .win ∨ W.live.gstate = .loss) ∧ (L.gstate = .win ∨ L.gstate = .loss) then calBbbv L.board else W.bbbv } := by
  have hst : W.live.msb.state = .playing → W.live.stream ≠ [] := by
    obtain ⟨b, L, h1, h2, -⟩ := h.ses
    rw [h2]
    exact fun hp => h1.linv.stream_ne (by rw [hp]; decide)
  have hg := h.gst
  unfold Whole.step at hs
  cases hl : W.live.step dist now e pos with
  | none => rw [hl] at hs; cases hs
  | some x =>
    obtain ⟨L, ok'⟩ := x
    rw [hl] at hs
    simp only at hs
    have eff := Live.step_eff h.ginv hst hl
    cases eff with
    | over ho =>
      rw [if_pos (by rcases ho with ho | ho | ho <;> simp [ho])] at hs
      simp only [Option.some.injEq, Prod.mk.injEq] at hs
      obtain ⟨rfl, rfl⟩ := hs
      refine ⟨_, rfl, ?_⟩
      rw [if_neg (fun hc => hc.1 hc.2), if_neg (fun hc => hc.1 hc.2), if_neg (fun hc => hc.1 hc.2)]
    | refused m hm =>
      rw [if_pos (by simp)] at hs
      simp only [Option.some.injEq, Prod.mk.injEq] at hs
      obtain ⟨rfl, rfl⟩ := hs
      refine ⟨_, rfl, ?_⟩
      rw [if_neg (fun hc => hc.1 hc.2), if_neg (fun hc => hc.1 hc.2), if_neg (fun hc => hc.1 hc.2)]
    | back m a hm hr =>
      have hno : ¬ (W.live.msb.state = .loss ∨ W.live.msb.state = .win ∨ W.live.msb.state = .display ∨ true = false) := by
        intro hc
        have hidle : ¬ (W.live.msb.state = .loss ∨ W.live.msb.state = .win ∨ W.live.msb.state = .display) := by
          intro ho
          unfold Live.step at hl
          simp only [if_pos ho, Option.some.injEq, Prod.mk.injEq] at hl
          have e1 := congrArg Live.gstate hl.1
          simp only at e1
          rw [hr, hg] at e1
          rw [e1] at ho
          simp at ho
        rcases hc with hc | hc | hc | hc
        · exact hidle (.inl hc)
        · exact hidle (.inr (.inl hc))
        · exact hidle (.inr (.inr hc))
        · cases hc
      rw [if_neg hno] at hs
      simp only [hr, Option.some.injEq, Prod.mk.injEq] at hs
      obtain ⟨rfl, rfl⟩ := hs
      refine ⟨_, rfl, ?_⟩
      simp [hr]
    | saved m a path hm hnr ho hp ht =>
      have hno : ¬ (W.live.msb.state = .loss ∨ W.live.msb.state = .win ∨ W.live.msb.state = .display ∨ true = false) := by
        rcases ho with ho | ho | ho <;> simp [ho]
      have hnw : ¬ (W.live.gstate = .win ∨ W.live.gstate = .loss) := by
        rw [hg]; rcases ho with ho | ho | ho <;> simp [ho]
      have hgs : (W.live.recorded now e pos m a path).gstate = m.state := rfl
      rw [if_neg hno] at hs
      refine ⟨W.live.recorded now e pos m a path, ?_, ?_⟩
      rotate_left
      · simp only [hgs] at hs ⊢
        have hnd := (MSB.step_state h.ginv hm).2.2
        cases hms : m.state with
        | ready => exact absurd hms hnr
        | display => exact absurd hms hnd
        | preFlaging =>
          rw [hms] at hs
          simp only [Option.some.injEq, Prod.mk.injEq] at hs
          simp [← hs.1]
        | playing =>
          rw [hms] at hs
          simp only [Option.some.injEq, Prod.mk.injEq] at hs
          rw [← hs.1, hg]
          by_cases hpl : W.live.msb.state = .playing <;> simp [hpl]
        | win =>
          rw [hms] at hs
          simp only [Option.some.injEq, Prod.mk.injEq] at hs
          simp only [not_or] at hnw
          rw [← hs.1]
          simp [hnw]
        | loss =>
          rw [hms] at hs
          simp only [Option.some.injEq, Prod.mk.injEq] at hs
          simp only [not_or] at hnw
          rw [← hs.1]
          simp [hnw]
      · have : ok = true := by
          simp only [hgs] at hs
          split at hs <;> simp only [Option.some.injEq, Prod.mk.injEq] at hs <;> exact hs.2.symm
        rw [this]

theorem LifeInv.of_session {t : Nat} {placed : Bool} {W : Whole} (h : LifeInv dist placed t W) (ho : W.over = false) :
    ∃ b, Session dist b t W.live := by
  obtain ⟨b, L, h1, h2, h3⟩ := h.ses
  have hg : W.live.gstate = L.gstate := by rw [h2]
  have : W.live.pix = L.pix := by
    rcases h3 with h3 | h3
    · exact h3
    · rw [← hg] at h3
      rw [over_iff.mpr h3] at ho
      cases ho
  refine ⟨b, ?_⟩
  rw [h2, this]
  exact h1

/-- the same marks, other bytes, texts, flags -/
theorem LifeInv.marks {placed : Bool} {t : Nat} {W W' : Whole} (h : LifeInv dist placed t W) (h1 : W'.live = W.live)
    (h2 : W'.mineNum = W.mineNum) (h3 : W'.bbbv = W.bbbv) (h4 : W'.level = W.level) (h5 : W'.strs.NoNul) (h6 : W'.mode < 65536)
    (h7 : W'.checksum.length = 32) : LifeInv dist placed t W' where
  ses := by rw [h1]; exact h.ses
  same := by rw [h1]; exact h.same
  mine := by rw [h1, h2]; exact h.mine
  bbbv := by unfold over; rw [h1, h3]; exact h.bbbv
  events := by rw [h1]; exact h.events
  texts := h5
  mode := h6
  pix := by rw [h1]; exact h.pix
  sum := h7
  row := by rw [h1]; exact h.row
  level := by rw [h1, h2, h4]; exact h.level

theorem LifeInv.step {placed : Bool} {t now : Nat} {W W' : Whole} {e : Ev} {pos : Pos} {stamp : Evf.Bytes} {ok : Bool}
    (h : LifeInv dist placed t W) (hle : t ≤ now) (he : e ∈ mouseEvents) (p1 : pos.1 < 65536) (p2 : pos.2 < 65536)
    (hst : TextOk stamp) (hs : W.step dist now e pos stamp = some (W', ok)) : LifeInv dist placed now W' := by
  obtain ⟨L, hL, hW⟩ := whole_step h hs
  have hstr : W.live.msb.state = .playing → W.live.stream ≠ [] := by
    obtain ⟨b, L, h1, h2, -⟩ := h.ses
    rw [h2]
    exact fun hp => h1.linv.stream_ne (by rw [hp]; decide)
  have fr := live_frame h.ginv hstr hL
  have hepf : e ≠ .pf := by rintro rfl; revert he; decide
  rw [hW]
  refine ⟨?_, ?_, ?_, ?_, ?_, ?_, h.mode, ?_, h.sum, ?_, ?_⟩
  · simp only
    cases ho : W.over with
    | false =>
      obtain ⟨b, hb⟩ := h.of_session ho
      exact ⟨b, L, .step hb hle hepf p1 p2 hL, rfl, .inl rfl⟩
    | true =>
      obtain ⟨b, L0, h1, h2, h3⟩ := h.ses
      have ho' := over_iff.mp ho
      have hsame : ∀ M : Live, M.msb.state = W.live.msb.state → M.step dist now e pos = some (M, true) := by
        intro M hM
        unfold Live.step
        rw [h.gst, ← hM] at ho'
        simp only
        rw [if_pos (by rcases ho' with ho' | ho' <;> simp [ho'])]
      rw [hsame _ rfl] at hL
      simp only [Option.some.injEq, Prod.mk.injEq] at hL
      obtain ⟨rfl, -⟩ := hL
      exact ⟨b, L0, .step h1 hle hepf p1 p2 (hsame L0 (by rw [h2])), h2, h3⟩
  · intro hp
    simp only
    rw [fr.board, fr.msb]
    exact h.same hp
  · simp only
    rw [fr.board]; exact h.mine
  · intro ho
    have ho2 := over_iff.mp ho
    simp only at ho2 ⊢
    rw [fr.board]
    split
    · rfl
    · rename_i hc
      refine h.bbbv (over_iff.mpr ?_)
      by_contra hn
      exact hc ⟨hn, ho2⟩
  · simp only
    intro r hr
    rcases fr.recs with hrec | hrec | ⟨q, hrec, q1, q2, q3⟩
    · rw [hrec] at hr; exact h.events r hr
    · rw [hrec] at hr; cases hr
    · rw [hrec, List.mem_append, List.mem_singleton] at hr
      rcases hr with hr | rfl
      · exact h.events r hr
      · exact ⟨q1 ▸ he, q2, q3⟩
  · simp only
    split
    · exact put_noNul h.texts hst .startTime
    · split
      · exact put_noNul h.texts hst .endTime
      · exact h.texts
  · simp only
    rw [fr.pix]; exact h.pix
  · simp only
    rw [fr.height]; exact h.row
  · simp only
    rw [fr.board]; exact h.level

theorem life_inv {placed : Bool} {t : Nat} {W : Whole} (h : Life dist placed t W) : LifeInv dist placed t W := by
  induction h with
  | @new v pix now hv hr hp =>
    refine ⟨⟨true, _, .new hv, rfl, .inl rfl⟩, fun _ => rfl, rfl, fun _ => rfl, ?_, ?_, (by show 0 < 65536; decide), hp, List.length_replicate, hr, .inl rfl⟩
    · intro r hr; cases hr
    · constructor <;> intro b hb <;> cases hb
  | @call placed t W W' c ok _ hsound hc ih =>
    cases c with
    | step now e pos stamp =>
      obtain ⟨a1, a2, a3, a4, a5⟩ := hsound
      exact ih.step a1 a2 a3 a4 a5 hc
    | reset row column pix =>
      obtain ⟨a1, a2⟩ := hsound
      simp only [Whole.call, Option.some.injEq, Prod.mk.injEq] at hc
      obtain ⟨rfl, rfl⟩ := hc
      obtain ⟨b, L, h1, h2, h3⟩ := ih.ses
      refine ⟨⟨true, L.reset row column pix, .reset h1 a1, ?_, .inl rfl⟩, fun hp => (by cases hp), ih.mine, fun ho => ?_, ?_, ih.texts, ih.mode,
        a2, ih.sum, a1, ih.level⟩
      · show W.live.reset row column pix = _
        rw [h2]; rfl
      · have := over_iff.mp ho
        rcases this with h | h <;> cases h
      · intro r hr; cases hr
    | setBoard v =>
      obtain ⟨a1, a2⟩ := hsound
      simp only [Whole.call, Option.some.injEq] at hc
      unfold Whole.setBoard at hc
      cases hb : W.live.setBoard v with
      | mk L ok' =>
        rw [hb] at hc
        cases ok' with
        | false =>
          simp only [Prod.mk.injEq] at hc
          obtain ⟨rfl, rfl⟩ := hc
          exact ih
        | true =>
          simp only [Prod.mk.injEq] at hc
          obtain ⟨rfl, rfl⟩ := hc
          have hb2 := hb
          unfold Live.setBoard at hb
          have hst : W.live.gstate = .ready ∨ W.live.gstate = .preFlaging := by
            cases hg : W.live.gstate with
            | ready => exact .inl rfl
            | preFlaging => exact .inr rfl
            | playing => exact absurd hg a2
            | win => simp [hg] at hb
            | loss => simp [hg] at hb
            | display => simp [hg] at hb
          have hno : W.over = false := by
            unfold over
            rcases hst with h | h <;> simp [h]
          obtain ⟨b, hses⟩ := ih.of_session hno
          have hL : L.height = v.row ∧ L.board = v ∧ L.msb.board = v ∧ L.recs = W.live.recs ∧ L.pix = W.live.pix ∧ L.gstate = W.live.gstate ∧ v.row = W.live.height := by
            have hsz : ¬ (W.live.width ≠ v.col ∨ W.live.height ≠ v.row) := by
              intro hn
              rcases hst with h | h <;> simp [h, hn] at hb
            rcases hst with h | h <;> simp only [h, if_neg hsz, Prod.mk.injEq, and_true] at hb <;> subst hb <;>
              exact ⟨rfl, rfl, rfl, rfl, rfl, h.symm, by push Not at hsz; exact hsz.2.symm⟩
          obtain ⟨l1, l2, l3, l4, l5, l6, l7⟩ := hL
          refine ⟨⟨false, L, .board hses a1 hst hb2, rfl, .inl rfl⟩, fun _ => ?_, ?_, fun ho => ?_, ?_, ih.texts, ih.mode, ?_, ih.sum, ?_, .inr ?_⟩
          · show L.board = L.msb.board
            rw [l2, l3]
          · show countMines v = countMines L.board
            rw [l2]
          · have := over_iff.mp ho
            simp only [l6] at this
            rcases hst with h | h <;> rw [h] at this <;> simp at this
          · show ∀ r ∈ L.recs, _
            rw [l4]; exact ih.events
          · show L.pix < 256
            rw [l5]; exact ih.pix
          · show 0 < L.height
            rw [l1, l7]; exact ih.row
          · show Evf.levelOf v.row v.col (countMines v) = Evf.levelOf L.board.row L.board.col (countMines v)
            rw [l2]
    | setPix pix =>
      simp only [Whole.call, Option.some.injEq, Whole.setPix, Prod.mk.injEq] at hc
      obtain ⟨rfl, rfl⟩ := hc
      have hp : (W.live.setPix pix).1 = W.live ∨ ((W.live.setPix pix).1 = { W.live with pix := pix } ∧
          (W.live.gstate = .ready ∨ W.live.gstate = .win ∨ W.live.gstate = .loss)) := by
        unfold Live.setPix
        split
        · exact .inl rfl
        · rename_i hc
          refine .inr ⟨rfl, ?_⟩
          cases hg : W.live.gstate <;> simp_all
      rcases hp with hp | ⟨hp, hg⟩
      · exact ih.marks hp rfl rfl rfl ih.texts ih.mode ih.sum
      · have hses : ∃ b L, Session dist b t L ∧ ({ W.live with pix := pix } : Live) = { L with pix := pix } ∧
            (pix = L.pix ∨ L.gstate = .win ∨ L.gstate = .loss) := by
          obtain ⟨b, L, h1, h2, h3⟩ := ih.ses
          have hgg : W.live.gstate = L.gstate := by rw [h2]
          rcases hg with hg | hg
          · rw [hgg] at hg
            refine ⟨b, (L.setPix pix).1, .pix h1 hg, ?_, .inl ?_⟩
            · unfold Live.setPix
              rw [if_neg (by simp [hg]), h2]
            · unfold Live.setPix
              rw [if_neg (by simp [hg])]
          · rw [hgg] at hg
            exact ⟨b, L, h1, by rw [h2], .inr hg⟩
        show LifeInv dist placed t { W with live := (W.live.setPix pix).1 }
        rw [hp]
        exact ⟨hses, ih.same, ih.mine, ih.bbbv, ih.events, ih.texts, ih.mode, hsound, ih.sum, ih.row, ih.level⟩
    | setOffical b =>
      simp only [Whole.call, Option.some.injEq, Whole.setOffical] at hc
      split at hc <;> (simp only [Prod.mk.injEq] at hc; obtain ⟨rfl, rfl⟩ := hc)
      · exact ih.marks rfl rfl rfl rfl ih.texts ih.mode ih.sum
      · exact ih
    | setFair b =>
      simp only [Whole.call, Option.some.injEq, Whole.setFair] at hc
      split at hc <;> (simp only [Prod.mk.injEq] at hc; obtain ⟨rfl, rfl⟩ := hc)
      · exact ih.marks rfl rfl rfl rfl ih.texts ih.mode ih.sum
      · exact ih
    | setMode n =>
      simp only [Whole.call, Option.some.injEq, Whole.setMode] at hc
      split at hc <;> (simp only [Prod.mk.injEq] at hc; obtain ⟨rfl, rfl⟩ := hc)
      · exact ih.marks rfl rfl rfl rfl ih.texts hsound ih.sum
      · exact ih
    | setText f s =>
      simp only [Whole.call, Option.some.injEq, Whole.setText] at hc
      split at hc <;> (simp only [Prod.mk.injEq] at hc; obtain ⟨rfl, rfl⟩ := hc)
      · exact ih.marks rfl rfl rfl rfl (put_noNul ih.texts hsound f) ih.mode ih.sum
      · exact ih
    | generate =>
      simp only [Whole.call, Whole.generate, Option.map_eq_some_iff, Prod.mk.injEq] at hc
      obtain ⟨W1, h1, rfl, rfl⟩ := hc
      split at h1
      · simp only [Option.map_eq_some_iff] at h1
        obtain ⟨bs, -, rfl⟩ := h1
        exact ih.marks rfl rfl rfl rfl ih.texts ih.mode ih.sum
      · cases h1
    | setChecksum s =>
      simp only [Whole.call, Whole.setChecksum] at hc
      split at hc
      · simp only [Option.some.injEq, Prod.mk.injEq] at hc
        obtain ⟨rfl, rfl⟩ := hc
        exact ih
      · split at hc
        · split at hc
          · cases hc
          · simp only [Option.some.injEq, Prod.mk.injEq] at hc
            obtain ⟨rfl, rfl⟩ := hc
            exact ih.marks rfl rfl rfl rfl ih.texts ih.mode hsound
        · split at hc
          · cases hc
          · simp only [Option.some.injEq, Prod.mk.injEq] at hc
            obtain ⟨rfl, rfl⟩ := hc
            exact ih.marks rfl rfl rfl rfl ih.texts ih.mode ih.sum

/-! ## the marks -/

/-- **C67** The setters of flags, mode and texts are accepted exactly when the game is over (`set_software` also before a game);
then they change their own field to the value given and nothing else, otherwise nothing at all. -/
theorem C67_setters (W : Whole) :
    (∀ b, W.call dist (.setOffical b) = some (if W.live.gstate = .win ∨ W.live.gstate = .loss then ({ W with offical := b }, true) else (W, false))) ∧
    (∀ b, W.call dist (.setFair b) = some (if W.live.gstate = .win ∨ W.live.gstate = .loss then ({ W with fair := b }, true) else (W, false))) ∧
    (∀ n, W.call dist (.setMode n) = some (if W.live.gstate = .win ∨ W.live.gstate = .loss then ({ W with mode := n }, true) else (W, false))) ∧
    (∀ f s, ∃ T : Evf.Strs, (f.get T = s ∧ ∀ g, g ≠ f → g.get T = g.get W.strs) ∧
      W.call dist (.setText f s) =
        some (if W.live.gstate = .win ∨ W.live.gstate = .loss ∨ (f = .software ∧ W.live.gstate = .ready) then ({ W with strs := T }, true) else (W, false))) := by
  refine ⟨fun b => ?_, fun b => ?_, fun b => ?_, fun f s => ⟨f.put W.strs s, ⟨by cases f <;> rfl, fun g hg => ?_⟩, ?_⟩⟩
  · simp only [Whole.call, setOffical, over_iff]
  · simp only [Whole.call, setFair, over_iff]
  · simp only [Whole.call, setMode, over_iff]
  · cases f <;> cases g <;> first | rfl | exact absurd rfl hg
  · simp only [Whole.call, setText, Bool.or_eq_true, Bool.and_eq_true, decide_eq_true_eq, over_iff, or_assoc]

/-- **C67** A mouse event changes no mark, no byte of the file and no checksum; the start time is taken when play starts, the end
time when it ends, and at no other moment. -/
theorem C67_step {placed : Bool} {t now : Nat} {W W' : Whole} {e : Ev} {pos : Pos} {stamp : Evf.Bytes} {ok : Bool}
    (h : Life dist placed t W) (hs : W.call dist (.step now e pos stamp) = some (W', ok)) :
    W.live.step dist now e pos = some (W'.live, ok) ∧
    W'.offical = W.offical ∧ W'.fair = W.fair ∧ W'.mode = W.mode ∧ W'.hasChecksum = W.hasChecksum ∧ W'.checksum = W.checksum ∧
    W'.raw = W.raw ∧ W'.mineNum = W.mineNum ∧ W'.level = W.level ∧
    (∀ f : Text, f.get W'.strs =
      if f = .startTime ∧ W.live.gstate ≠ .playing ∧ W'.live.gstate = .playing then stamp
      else if f = .endTime ∧ ¬ (W.live.gstate = .win ∨ W.live.gstate = .loss) ∧ (W'.live.gstate = .win ∨ W'.live.gstate = .loss) then stamp
      else f.get W.strs) := by
  obtain ⟨L, hL, rfl⟩ := whole_step (life_inv h) hs
  refine ⟨hL, rfl, rfl, rfl, rfl, rfl, rfl, rfl, rfl, fun f => ?_⟩
  simp only
  by_cases h1 : W.live.gstate ≠ .playing ∧ L.gstate = .playing
  · have h2 : ¬ (L.gstate = .win ∨ L.gstate = .loss) := by rw [h1.2]; simp
    rw [if_pos h1]
    cases f <;> simp [h1, h2, Text.get]
  · rw [if_neg h1]
    by_cases h2 : ¬ (W.live.gstate = .win ∨ W.live.gstate = .loss) ∧ (L.gstate = .win ∨ L.gstate = .loss)
    · rw [if_pos h2, if_neg (fun hc => h1 hc.2)]
      cases f <;> simp [h2, Text.get]
    · rw [if_neg h2, if_neg (fun hc => h1 hc.2), if_neg (fun hc => h2 hc.2)]

/-- **C67** A reset empties the recording and the bytes, and keeps every mark. -/
theorem C67_reset (W : Whole) (row column pix : Nat) : ∃ W', W.call dist (.reset row column pix) = some (W', true) ∧
    W'.live.recs = [] ∧ W'.raw = [] ∧ W'.live.gstate = .ready ∧ W'.live.height = row ∧ W'.live.width = column ∧ W'.live.pix = pix ∧
    W'.offical = W.offical ∧ W'.fair = W.fair ∧ W'.mode = W.mode ∧ W'.strs = W.strs ∧ W'.hasChecksum = W.hasChecksum ∧ W'.checksum = W.checksum :=
  ⟨_, rfl, rfl, rfl, rfl, rfl, rfl, rfl, rfl, rfl, rfl, rfl, rfl, rfl⟩

/-! ## the file -/

theorem life_times {placed : Bool} {t : Nat} {W : Whole} (h : Life dist placed t W) (ho : W.live.gstate = .win ∨ W.live.gstate = .loss) :
    ∃ r ∈ W.live.recs, W.live.rtimeMs ≤ r.time := by
  obtain ⟨b, L, h1, h2, -⟩ := (life_inv h).ses
  rw [h2] at ho ⊢
  have li := h1.linv
  obtain ⟨l, r, e1, -, -, e2⟩ := li.fin (by rw [← li.gst]; exact ho)
  refine ⟨r, by show r ∈ L.recs; rw [e1]; simp, ?_⟩
  show L.rtimeMs ≤ r.time
  rcases e2 with ⟨l1, r1, l2, -, -, -, e3⟩ | ⟨-, -, -, e3⟩ <;> omega

theorem evName_file {e : Ev} (h : e ∈ mouseEvents) : evName e ∈ ["mv", "lc", "lr", "rc", "rr", "mc", "mr", "pf", "cc"] := by
  revert h
  cases e <;> decide

theorem life_shape {t : Nat} {W : Whole} (h : Life dist true t W) : W.live.board = W.live.msb.board ∧
    W.live.board.row = W.live.height ∧ W.live.board.col = W.live.width ∧ Numbered W.live.board := by
  have li := life_inv h
  have hb := li.same rfl
  obtain ⟨b, L, h1, h2, -⟩ := li.ses
  have ll := h1.linv
  have c := ll.reach.inv.core
  have hm : W.live.msb = L.msb := by rw [h2]
  have hh : W.live.height = L.height := by rw [h2]
  have hw : W.live.width = L.width := by rw [h2]
  rw [hb, hm, hh, hw]
  exact ⟨rfl, by rw [c.hrow, ll.hrow], by rw [c.hcol, ll.hcol], c.num⟩

theorem life_fits {t : Nat} {W : Whole} (h : Life dist true t W) (ho : W.live.gstate = .win ∨ W.live.gstate = .loss)
    (hh : W.live.height < 256) (hw : W.live.width < 256) (ht : ∀ r ∈ W.live.recs, r.time < 2 ^ 24) : FitsEvf W.content := by
  have li := life_inv h
  obtain ⟨-, s2, s3, s4⟩ := life_shape h
  have harea : W.live.board.row * W.live.board.col ≤ 255 * 255 := by
    rw [s2, s3]
    exact Nat.mul_le_mul (by omega) (by omega)
  refine ⟨li.row, hh, hw, ?_, li.mode, ?_, ?_, li.texts, ?_, li.sum⟩
  · show W.mineNum < _
    have := mines_le W.live.board
    rw [li.mine, countMines_eq]
    omega
  · show W.bbbv < _
    rw [li.bbbv (over_iff.mpr ho)]
    have := calBbbv_le s4
    omega
  · obtain ⟨r, hr, hle⟩ := life_times h ho
    exact lt_of_le_of_lt hle (ht r hr)
  · intro e he
    obtain ⟨r, hr, rfl⟩ := List.mem_map.mp he
    obtain ⟨a1, a2, a3⟩ := li.events r hr
    exact ⟨evName_file a1, ht r hr, a2, a3⟩

theorem life_boardFits {t : Nat} {W : Whole} (h : Life dist true t W) : W.boardFits = true := by
  obtain ⟨-, s2, s3, -⟩ := life_shape h
  unfold boardFits
  simp [s2, s3]

/-- **C67** A finished game, whatever happened before in the life of the object, on a board of at most 255 × 255 cells and with
less than 2²⁴ ms of recording: the file can be written, and reading it gives back whether the game was won, its time, the marks and
texts as they are, the number of mines and the 3BV of the board played, every recorded event in order, the board, and the
checksum the object holds. -/
theorem C67_file {t : Nat} {W : Whole} (h : Life dist true t W) (ho : W.live.gstate = .win ∨ W.live.gstate = .loss)
    (hh : W.live.height < 256) (hw : W.live.width < 256) (ht : ∀ r ∈ W.live.recs, r.time < 2 ^ 24) :
    ∃ W' out, W.call dist .generate = some (W', true) ∧ W' = { W with raw := W'.raw } ∧ W'.getRaw = some W'.raw ∧
      Evf.parseVideo W'.raw = .ok (out, []) ∧
      (out.hdr.completed = true ↔ W.live.gstate = .win) ∧ out.hdr.rtimeMs = W.live.rtimeMs ∧
      out.hdr.offical = W.offical ∧ out.hdr.fair = W.fair ∧ out.hdr.mode = W.mode ∧ out.strs = W.strs ∧
      out.hdr.height = W.live.height ∧ out.hdr.width = W.live.width ∧ out.hdr.cellPixel = W.live.pix ∧
      out.hdr.mineNum = (mines W.live.msb.board).card ∧
      IsLeast {n | ∃ clicks : List Pos, clicks.length = n ∧ ClearsBoard W.live.msb.board clicks} out.hdr.bbbv ∧
      out.events.map fromFile = W.live.recs.map Rec.raw ∧
      Rect out.board W.live.height W.live.width ∧
      (∀ i j, i < W.live.height → j < W.live.width → out.board.get i j = W.live.msb.board.get i j) ∧
      out.checksum = (if W.hasChecksum then W.checksum else List.replicate 32 0) := by
  have li := life_inv h
  have hf := life_fits h ho hh hw ht
  obtain ⟨s1, s2, s3, s4⟩ := life_shape h
  obtain ⟨bs, out, g1, g2, g3, g4, g5, g6, g7, -, -, g8⟩ := C23_evf_roundtrip W.content hf
  have hover := over_iff.mpr ho
  refine ⟨{ W with raw := bs }, out, ?_, rfl, ?_, by simpa using g2 [], ?_, by rw [g3]; rfl, by rw [g3]; rfl, by rw [g3]; rfl, by rw [g3]; rfl,
    by rw [g4]; rfl, by rw [g3]; rfl, by rw [g3]; rfl, by rw [g3]; rfl, ?_, ?_, ?_, g7, ?_, g6⟩
  · simp only [Whole.call, Whole.generate, life_boardFits h, if_true, g1, Option.map_some]
  · show (if W.over = true then _ else _) = _
    rw [if_pos hover]
  · rw [g3]
    show W.live.completed = true ↔ _
    obtain ⟨b, L, h1, h2, -⟩ := li.ses
    have ll := h1.linv
    have e1 : W.live.completed = L.completed := by rw [h2]
    have e2 : W.live.gstate = L.msb.state := by rw [h2]; exact ll.gst
    rw [e1, e2]
    rw [e2] at ho
    rcases ho with ho | ho
    · simp [ho, ll.done ho]
    · simp [ho, ll.lost ho]
  · rw [g3]
    show W.mineNum = _
    rw [li.mine, countMines_eq, s1]
  · rw [g3, ← s1]
    show IsLeast _ W.bbbv
    rw [li.bbbv hover]
    exact C07_cal_bbbv_least _ s4
  · rw [g5]
    show (W.live.recs.map Rec.toFile).map fromFile = _
    rw [List.map_map]
    refine List.map_congr_left fun r _ => ?_
    show (⟨r.time, evOf (evName r.ev), r.x, r.y⟩ : RawEv) = _
    rw [evOf_evName]; rfl
  · intro i j hi hj
    have hnum : Numbered ⟨W.content.hdr.height, W.content.hdr.width, W.content.board⟩ := by
      show Numbered ⟨W.live.height, W.live.width, W.live.board.get⟩
      rw [← s2, ← s3]
      exact s4
    rw [g8 hnum i j hi hj]
    show W.live.board.get i j = _
    rw [s1]

/-- **C67** Under the same conditions writing the file panics exactly when some event is 2²⁴ ms (4 h 39 min) or more after the first. -/
theorem C67_generate_panics {t : Nat} {W : Whole} (h : Life dist true t W) (ho : W.live.gstate = .win ∨ W.live.gstate = .loss)
    (hh : W.live.height < 256) (hw : W.live.width < 256) :
    W.call dist .generate = none ↔ ∃ r ∈ W.live.recs, 2 ^ 24 ≤ r.time := by
  constructor
  · intro hn
    by_contra hc
    push Not at hc
    obtain ⟨W', _, h1, -⟩ := C67_file h ho hh hw hc
    rw [hn] at h1
    cases h1
  · rintro ⟨r, hr, hle⟩
    have li := life_inv h
    have : Evf.generate W.content = none := by
      rw [C23_generate_panics_iff W.content li.mode]
      · exact .inr (.inr (.inr ⟨r.toFile, List.mem_map.mpr ⟨r, hr, rfl⟩, hle⟩))
      · intro e he
        obtain ⟨q, hq, rfl⟩ := List.mem_map.mp he
        exact (li.events q hq).2
    simp [Whole.call, Whole.generate, life_boardFits h, this]

/-! ## a life in full, and what goes wrong -/

instance (W : Whole) (t : Nat) (c : Call) : Decidable (Sound W t c) := by
  cases c <;> unfold Sound <;> (try unfold TextOk) <;> (try unfold Numbered) <;> infer_instance

/-- calls one after the other -/
def runCalls (dist : Pos → Pos → ℚ) : Bool → Nat → Whole → List Call → Option (Bool × Nat × Whole)
  | p, t, W, [] => some (p, t, W)
  | p, t, W, c :: cs =>
    if Sound W t c then (W.call dist c).bind fun r => runCalls dist (placedAfter p c r.2) (clockAfter t c) r.1 cs else none

theorem life_run : ∀ {cs : List Call} {p : Bool} {t : Nat} {W : Whole} {p' : Bool} {t' : Nat} {W' : Whole}, Life dist p t W →
    runCalls dist p t W cs = some (p', t', W') → Life dist p' t' W'
  | [], _, _, _, _, _, _, h, hr => by
    simp only [runCalls, Option.some.injEq, Prod.mk.injEq] at hr
    obtain ⟨rfl, rfl, rfl⟩ := hr
    exact h
  | c :: cs, _, _, _, _, _, _, h, hr => by
    unfold runCalls at hr
    split at hr
    · rename_i hs
      obtain ⟨⟨W1, ok⟩, h1, h2⟩ := Option.bind_eq_some_iff.mp hr
      exact life_run (.call h hs h1) h2
    · cases hr

/-- the sample game of C48 as calls; the system clock shows `1` at the start, `2` at the end -/
def playCalls : List Call := liveEvents.map fun x => .step x.1 x.2.1 x.2.2 [49]

/-- a game, its marks and its file with a checksum -/
def firstGame : List Call := playCalls ++ [.setOffical true, .setText .player [65, 66], .generate, .setChecksum (List.replicate 32 7)]

def wholeSample : Option (Bool × Nat × Whole) := runCalls taxi true 7 (Whole.new gameSample.view 10 7) firstGame

theorem wholeSample_life : ∃ t W, wholeSample = some (true, t, W) ∧ Life taxi true t W ∧ W.live.gstate = .win ∧ W.live.height < 256 ∧
    W.live.width < 256 ∧ (∀ r ∈ W.live.recs, r.time < 2 ^ 24) ∧ W.offical = true ∧ W.hasChecksum = true := by
  have hs : (wholeSample.map fun r => (r.1, r.2.2.live.gstate, r.2.2.live.height, r.2.2.live.width, r.2.2.offical, r.2.2.hasChecksum)) =
    some (true, .win, 3, 4, true, true) := by decide +kernel
  have hr : (wholeSample.map fun r => decide (∀ q ∈ r.2.2.live.recs, q.time < 2 ^ 24)) = some true := by decide +kernel
  cases hw : wholeSample with
  | none => rw [hw] at hs; cases hs
  | some x =>
    obtain ⟨p, t, W⟩ := x
    rw [hw] at hs hr
    simp only [Option.map_some, Option.some.injEq, Prod.mk.injEq] at hs
    obtain ⟨rfl, a2, a3, a4, a5, a6⟩ := hs
    simp only [Option.map_some, Option.some.injEq, decide_eq_true_eq] at hr
    refine ⟨t, W, rfl, life_run (.new ?_ (by decide) (by decide)) hw, a2, by omega, by omega, hr, a5, a6⟩
    exact gameSample_numbered

set_option synthInstance.maxSize 1000 in
/-- **C67** The checksum outlives a reset: the file of the second game of an object carries the checksum that was set for the
first, although none was set since. -/
theorem C67_stale_checksum : ∃ t W t' W' W'' out, wholeSample = some (true, t, W) ∧ Life taxi true t W ∧
    runCalls taxi true t W ([.reset 3 4 10, .setBoard gameSample.view] ++
      (liveEvents.map fun x => .step (x.1 + 10000000) x.2.1 x.2.2 [49])) = some (true, t', W') ∧
    W'.live.gstate = .win ∧ W'.call taxi .generate = some (W'', true) ∧
    Evf.parseVideo W''.raw = .ok (out, []) ∧ out.checksum = List.replicate 32 7 := by
  obtain ⟨t, W, h1, h2, -⟩ := wholeSample_life
  have hs : ((wholeSample.bind fun r => runCalls taxi r.1 r.2.1 r.2.2 ([.reset 3 4 10, .setBoard gameSample.view] ++
      (liveEvents.map fun x => .step (x.1 + 10000000) x.2.1 x.2.2 [49]))).map fun r =>
        (r.1, r.2.2.live.gstate, r.2.2.live.height, r.2.2.live.width, decide (∀ q ∈ r.2.2.live.recs, q.time < 2 ^ 24), r.2.2.hasChecksum, r.2.2.checksum)) =
      some (true, .win, 3, 4, true, true, List.replicate 32 7) := by decide +kernel
  rw [h1, Option.bind_some] at hs
  simp only at hs
  cases hw : runCalls taxi true t W ([.reset 3 4 10, .setBoard gameSample.view] ++
      (liveEvents.map fun x => .step (x.1 + 10000000) x.2.1 x.2.2 [49])) with
  | none => rw [hw] at hs; cases hs
  | some x =>
    obtain ⟨p, t', W'⟩ := x
    rw [hw] at hs
    simp only [Option.map_some, Option.some.injEq, Prod.mk.injEq] at hs
    obtain ⟨rfl, a2, a3, a4, a5, a6, a7⟩ := hs
    rw [decide_eq_true_eq] at a5
    obtain ⟨W'', out, b1, -, -, b2, -, -, -, -, -, -, -, -, -, -, -, -, -, -, b3⟩ := C67_file (life_run h2 hw) (.inl a2) (by omega) (by omega) a5
    refine ⟨t, W, t', W', W'', out, h1, h2, hw, a2, b1, b2, ?_⟩
    rw [b3, a6, if_pos rfl, a7]

/-- **C67** Why only the eight kinds of mouse events: the event `l` (press or release the left button, whatever is the case) is
accepted and recorded, but written with a code that no reader knows. -/
theorem C67_toggle_lost : ∃ t L L', Session taxi true t L ∧ Session taxi true 60000 L' ∧ L.step taxi 60000 .l (5, 5) = some (L', true) ∧
    ∃ r, L'.recs.getLast? = some r ∧ r.ev = .l ∧ Evf.mouseOf (Evf.codeOf r.toFile.mouse) = "ub" := by
  have hs : ((runLive taxi 7 (Live.new gameSample.view 10 7) (liveEvents.take 3)).map fun r =>
      (r.1, (r.2.step taxi 60000 .l (5, 5)).map fun q => (q.2, q.1.recs.getLast?.map (·.ev)))) = some (52600, some (true, some .l)) := by decide +kernel
  cases hl : runLive taxi 7 (Live.new gameSample.view 10 7) (liveEvents.take 3) with
  | none => rw [hl] at hs; cases hs
  | some x =>
    obtain ⟨t, L⟩ := x
    rw [hl] at hs
    simp only [Option.map_some, Option.some.injEq, Prod.mk.injEq] at hs
    obtain ⟨rfl, hs⟩ := hs
    have hses := session_run (Session.new gameSample_numbered) hl
    cases hst : L.step taxi 60000 .l (5, 5) with
    | none => rw [hst] at hs; cases hs
    | some q =>
      obtain ⟨L', ok⟩ := q
      rw [hst] at hs
      simp only [Option.map_some, Option.some.injEq, Prod.mk.injEq, Option.map_eq_some_iff] at hs
      obtain ⟨rfl, r, r1, r2⟩ := hs
      refine ⟨_, L, L', hses, hses.step (by decide) (by decide) (by decide) (by decide) hst, hst, r, r1, r2, ?_⟩
      show Evf.mouseOf (Evf.codeOf (evName r.ev)) = _
      rw [r2]; decide

/-- **C67** Play goes on after a reset without a new board: the object then writes the board of the game before. -/
theorem C67_stale_board : ∃ t W t' W', wholeSample = some (true, t, W) ∧ Life taxi true t W ∧
    runCalls taxi true t W [.reset 3 4 10, .step (t + 1000) .lc (5, 5) [49], .step (t + 900000) .lr (5, 5) [49]] = some (false, t', W') ∧
    W'.live.gstate = .win ∧ (∀ p ∈ vcells W'.live.msb.board, val W'.live.msb.board p = 0) ∧ W'.content.board 0 0 = gameSample.get 0 0 ∧
    W'.mineNum = 2 := by
  obtain ⟨t, W, h1, h2, -⟩ := wholeSample_life
  have hs : ((wholeSample.bind fun r => runCalls taxi r.1 r.2.1 r.2.2 [.reset 3 4 10, .step (r.2.1 + 1000) .lc (5, 5) [49],
      .step (r.2.1 + 900000) .lr (5, 5) [49]]).map fun r : Bool × Nat × Whole =>
        (r.1, r.2.2.live.gstate, decide (∀ p ∈ vcells r.2.2.live.msb.board, val r.2.2.live.msb.board p = 0), r.2.2.content.board 0 0, r.2.2.mineNum)) =
      some (false, .win, true, gameSample.get 0 0, 2) := by decide +kernel
  rw [h1, Option.bind_some] at hs
  simp only at hs
  cases hw : runCalls taxi true t W [.reset 3 4 10, .step (t + 1000) .lc (5, 5) [49], .step (t + 900000) .lr (5, 5) [49]] with
  | none => rw [hw] at hs; cases hs
  | some x =>
    obtain ⟨p, t', W'⟩ := x
    rw [hw] at hs
    simp only [Option.map_some, Option.some.injEq, Prod.mk.injEq] at hs
    obtain ⟨rfl, a2, a3, a4, a5⟩ := hs
    rw [decide_eq_true_eq] at a3
    exact ⟨t, W, t', W', h1, h2, hw, a2, a3, a4, a5⟩

/-- **C67** The level an object shows is 0 (never classified) or that of its board; a `set_board` that is accepted classifies. -/
theorem C67_level {placed : Bool} {t : Nat} {W : Whole} (h : Life dist placed t W) :
    (W.level = 0 ∨ W.level = Evf.levelOf W.live.board.row W.live.board.col (mines W.live.board).card) ∧
    ∀ v W', W.call dist (.setBoard v) = some (W', true) → W'.level = Evf.levelOf v.row v.col (mines v).card ∧ W'.live.board = v := by
  have li := life_inv h
  refine ⟨?_, fun v W' hc => ?_⟩
  · have := li.level
    rwa [li.mine, countMines_eq] at this
  · simp only [Whole.call, Option.some.injEq] at hc
    unfold Whole.setBoard at hc
    cases hb : W.live.setBoard v with
    | mk L ok' =>
      rw [hb] at hc
      cases ok' with
      | false => simp at hc
      | true =>
        simp only [Prod.mk.injEq, and_true] at hc
        subst hc
        refine ⟨by rw [← countMines_eq], ?_⟩
        show L.board = v
        unfold Live.setBoard at hb
        split at hb
        all_goals first
          | (split at hb
             · simp at hb
             · simp only [Prod.mk.injEq, and_true] at hb
               rw [← hb])
          | simp at hb

/-- **C67** … and an object created for an expert board shows level 0 until a board is set. -/
theorem C67_level_new (v : View) (pix now : Nat) : (Whole.new v pix now).level = 0 := rfl

end Ms.Properties
