import Verif.SpecMoves
import Verif.Lemmas.Session
import Verif.Lemmas.ReplayAny
import Verif.Properties.Player

/-! # C95: movements of the mouse do not matter to the game -/

namespace Ms
open Spec MSB

namespace Live

variable {dist : Pos → Pos → ℚ}

/-- the same but for the events -/
def SameGameBut (L M : Live) : Prop := (∃ rs, M = { L with recs := rs }) ∧ buttons M.recs = buttons L.recs

theorem SameGameBut.refl (L : Live) : SameGameBut L L := ⟨⟨L.recs, rfl⟩, rfl⟩

theorem SameGameBut.symm {L M : Live} (h : SameGameBut L M) : SameGameBut M L := by
  obtain ⟨⟨rs, rfl⟩, h⟩ := h
  exact ⟨⟨L.recs, rfl⟩, h.symm⟩

theorem LInv.path {t : Nat} {L : Live} (hi : LInv t L) (hp : L.msb.state = .playing) (pos : Pos) :
    ∃ p, L.pathFrom dist pos = some p := by
  have hne : L.msb.state ≠ .ready := by simp [hp]
  obtain ⟨r, r1, r2, -⟩ := hi.head hne
  unfold Live.pathFrom
  cases hf : L.recs.reverse.find? L.inside with
  | some q => exact ⟨_, rfl⟩
  | none =>
    rw [List.find?_eq_none] at hf
    have hx := hf r (by rw [List.mem_reverse]; exact List.mem_of_head? r1)
    have r3 : r.y < L.height * L.pix ∧ r.x < L.width * L.pix := r2
    simp only [Live.inside, Bool.not_eq_true', Bool.or_eq_false_iff, decide_eq_false_iff_not] at hx
    omega

theorem LInv.path' {t : Nat} {L : Live} (hi : LInv t L) (pos : Pos) :
    ∃ p, (if L.msb.state = .playing then L.pathFrom dist pos else some 0) = some p := by
  by_cases hp : L.msb.state = .playing
  · rw [if_pos hp]; exact hi.path hp pos
  · rw [if_neg hp]; exact ⟨0, rfl⟩

theorem buttons_append (l l' : List Rec) : buttons (l ++ l') = buttons l ++ buttons l' := by
  unfold buttons
  rw [List.filter_append, List.map_append]

theorem same_recorded {L M : Live} (h : SameGameBut L M) (now : Nat) (e : Ev) (pos : Pos) (m : MSB) (a : Nat) (p p' : ℚ) :
    SameGameBut (L.recorded now e pos m a p) (M.recorded now e pos m a p') := by
  obtain ⟨⟨rs, rfl⟩, h⟩ := h
  refine ⟨⟨_, rfl⟩, ?_⟩
  show buttons (rs ++ [_]) = buttons (L.recs ++ [_])
  rw [buttons_append, buttons_append]
  congr 1
  by_cases he : e = .mv
  · simp [buttons, newRec, he]
  · have h1 : ({ L with recs := rs } : Live).newStream m a = L.newStream m a := rfl
    have h2 : ({ L with recs := rs } : Live).stamp now = L.stamp now := rfl
    rw [h1, h2]
    simp [buttons, newRec, he]

/-- the same call of both -/
theorem same_step {t now : Nat} {L M : Live} (hL : LInv t L) (hM : LInv t M) (h : SameGameBut L M) (e : Ev) (pos : Pos) :
    (L.step dist now e pos = none ∧ M.step dist now e pos = none) ∨
    ∃ L' M' ok, L.step dist now e pos = some (L', ok) ∧ M.step dist now e pos = some (M', ok) ∧ SameGameBut L' M' := by
  have hc := h
  obtain ⟨⟨rs, rfl⟩, h⟩ := h
  have hg := hL.reach.inv
  by_cases ho : L.msb.state = .loss ∨ L.msb.state = .win ∨ L.msb.state = .display
  · refine .inr ⟨L, { L with recs := rs }, true, ?_, ?_, hc⟩
    · unfold Live.step; simp only [if_pos ho]
    · unfold Live.step; simp only [if_pos ho]
  have ho' : L.msb.state = .ready ∨ L.msb.state = .preFlaging ∨ L.msb.state = .playing := by
    cases hh : L.msb.state <;> simp_all
  by_cases hp : L.pix = 0
  · refine .inl ⟨?_, ?_⟩
    · unfold Live.step; simp only [if_neg ho, if_pos hp]
    · unfold Live.step; simp only [if_neg ho, if_pos hp]
  rcases hms : L.msb.step e (pos.1 / L.pix, pos.2 / L.pix) with _ | ⟨m, _ | a⟩
  · refine .inl ⟨?_, ?_⟩
    · unfold Live.step; simp only [if_neg ho, if_neg hp, hms]
    · unfold Live.step; simp only [if_neg ho, if_neg hp, hms]
  · refine .inr ⟨{ L with msb := m }, { L with msb := m, recs := rs }, false, ?_, ?_, ⟨rs, rfl⟩, h⟩
    · unfold Live.step; simp only [if_neg ho, if_neg hp, hms]
    · unfold Live.step; simp only [if_neg ho, if_neg hp, hms]
  by_cases hs : m.state = .ready
  · refine .inr ⟨{ L with msb := m, gstate := m.state, stream := [], recs := [] },
      { L with msb := m, gstate := m.state, stream := [], recs := [] }, true, ?_, ?_, .refl _⟩
    · unfold Live.step; simp only [if_neg ho, if_neg hp, hms, hs]
    · unfold Live.step; simp only [if_neg ho, if_neg hp, hms, hs]
  have sL := Live.step_saved (dist := dist) (now := now) hg (fun hp => hL.stream_ne (by simp [hp])) hp ho' hms hs
  have sM := Live.step_saved (L := { L with recs := rs }) (dist := dist) (now := now) hg
    (fun hp => hL.stream_ne (by simp only at hp; simp [hp])) hp ho' hms hs
  rw [sL, sM]
  by_cases hlt : (m.state = .win ∨ m.state = .loss) ∧ L.stamp now < L.gameStart
  · exact .inl ⟨if_pos hlt, if_pos hlt⟩
  obtain ⟨p, hp1⟩ := hL.path' (dist := dist) pos
  obtain ⟨p', hp2⟩ := hM.path' (dist := dist) pos
  refine .inr ⟨L.recorded now e pos m a p, ({ L with recs := rs } : Live).recorded now e pos m a p', true, ?_, ?_, same_recorded hc now e pos m a p p'⟩
  · rw [if_neg hlt, hp1]; rfl
  · rw [if_neg (show ¬ ((m.state = .win ∨ m.state = .loss) ∧
      ({ L with recs := rs } : Live).stamp now < ({ L with recs := rs } : Live).gameStart) from hlt), hp2]
    rfl

/-- a movement -/
theorem same_move {t now : Nat} {L : Live} (hL : LInv t L) (pos : Pos) (hpix : 0 < L.pix ∨ L.gstate ≠ .ready) :
    ∃ L', L.step dist now .mv pos = some (L', true) ∧ SameGameBut L L' := by
  have hg := hL.reach.inv
  by_cases ho : L.msb.state = .loss ∨ L.msb.state = .win ∨ L.msb.state = .display
  · refine ⟨L, ?_, .refl L⟩
    unfold Live.step; simp only [if_pos ho]
  have ho' : L.msb.state = .ready ∨ L.msb.state = .preFlaging ∨ L.msb.state = .playing := by
    cases hh : L.msb.state <;> simp_all
  have hp : L.pix ≠ 0 := by
    rcases hpix with h | h
    · omega
    · have := hL.pix (by rw [← hL.gst]; exact h); omega
  have hms := step_mv (s := L.msb) (pos.1 / L.pix, pos.2 / L.pix)
  by_cases hs : L.msb.state = .ready
  · obtain ⟨h1, h2⟩ := hL.ready hs
    refine ⟨L, ?_, .refl L⟩
    have h3 := hL.gst
    unfold Live.step
    simp only [if_neg ho, if_neg hp, hms, hs]
    rw [hs] at h3
    obtain ⟨⟩ := L
    simp only at h1 h2 h3
    subst h1 h2 h3
    rfl
  rw [Live.step_saved (dist := dist) (now := now) hg (fun hp => hL.stream_ne (by simp [hp])) hp ho' hms hs]
  have hw : ¬ ((L.msb.state = .win ∨ L.msb.state = .loss) ∧ L.stamp now < L.gameStart) := fun h => ho (by tauto)
  obtain ⟨p, hp1⟩ := hL.path' (dist := dist) pos
  refine ⟨L.recorded now .mv pos L.msb 0 p, by rw [if_neg hw, hp1]; rfl, ⟨L.recs ++ [L.newRec L.stream L.msb 0 (L.stamp now) .mv pos p], ?_⟩, ?_⟩
  · have h1 : L.newStream L.msb 0 = L.stream := by
      unfold newStream
      rw [if_neg (hL.stream_ne hs)]
      simp
    have h2 : ¬ (L.msb.state = .playing ∧ L.msb.state ≠ .playing) := fun h => h.2 h.1
    have h3 : ¬ (L.msb.state = .win ∨ L.msb.state = .loss) := fun h => ho (by tauto)
    have h4 : ¬ L.msb.state = .win := fun h => h3 (.inl h)
    have h5 : ¬ L.msb.state = .loss := fun h => h3 (.inr h)
    unfold recorded
    rw [h1, if_neg hs, if_neg h2, if_neg h3, if_neg h4, if_neg h5, ← hL.gst]
  · show buttons (L.recs ++ [_]) = _
    rw [buttons_append]
    simp [buttons, newRec]

end Live

theorem Spec.Twins.both {dist : Pos → Pos → ℚ} {t : Nat} {L M : Live} (h : Twins dist t L M) :
    Live.LInv t L ∧ Live.LInv t M ∧ Live.SameGameBut L M := by
  -- a movement of one of them
  have move : ∀ {t now : Nat} {L L' M : Live} {pos : Pos} {ok : Bool}, Live.LInv t L → Live.LInv t M → Live.SameGameBut L M → t ≤ now →
      pos.1 < 65536 → pos.2 < 65536 → L.step dist now .mv pos = some (L', ok) →
      Live.LInv now L' ∧ Live.LInv now M ∧ Live.SameGameBut L' M := by
    intro t now L L' M pos ok iL iM hh hle h1 h2 hs
    have hs' := hs
    have hp : 0 < L.pix ∨ L.gstate ≠ .ready := by
      by_contra hc
      push Not at hc
      have := (iL.gst.symm.trans hc.2)
      unfold Live.step at hs
      simp [this, show L.pix = 0 by omega] at hs
    obtain ⟨L1, e1, e2⟩ := Live.same_move (dist := dist) (now := now) iL pos hp
    rw [e1] at hs
    obtain ⟨rfl, rfl⟩ : L1 = L' ∧ true = ok := by simpa using hs
    refine ⟨Live.step_inv iL hle (by simp) h1 h2 hs', iM.mono hle, ?_⟩
    obtain ⟨⟨rs, rfl⟩, c1⟩ := hh
    obtain ⟨⟨rs', rfl⟩, c2⟩ := e2
    exact ⟨⟨rs, rfl⟩, c1.trans c2.symm⟩
  induction h with
  | new hv => exact ⟨(Session.new (dist := dist) hv).linv, (Session.new (dist := dist) hv).linv, .refl _⟩
  | left _ hle h1 h2 hs ih => exact move ih.1 ih.2.1 ih.2.2 hle h1 h2 hs
  | right _ hle h1 h2 hs ih =>
    obtain ⟨a, b, c⟩ := move ih.2.1 ih.1 ih.2.2.symm hle h1 h2 hs
    exact ⟨b, a, c.symm⟩
  | step _ hle he h1 h2 hs hs' ih =>
    obtain ⟨iL, iM, hh⟩ := ih
    refine ⟨Live.step_inv iL hle he h1 h2 hs, Live.step_inv iM hle he h1 h2 hs', ?_⟩
    rcases Live.same_step (dist := dist) iL iM hh _ _ with ⟨e1, -⟩ | ⟨L1, M1, ok, e1, e2, e3⟩
    · rw [hs] at e1; cases e1
    · rw [hs] at e1; rw [hs'] at e2
      cases e1; cases e2
      exact e3
  | board _ hv hst hs hs' ih =>
    obtain ⟨iL, iM, hh⟩ := ih
    refine ⟨Live.setBoard_inv iL hv hst hs, Live.setBoard_inv iM hv ?_ hs', ?_⟩
    · obtain ⟨⟨rs, rfl⟩, -⟩ := hh; exact hst
    · obtain ⟨⟨rs, rfl⟩, c⟩ := hh
      obtain ⟨-, -, rfl⟩ := Live.setBoard_eq hs
      obtain ⟨-, -, rfl⟩ := Live.setBoard_eq hs'
      exact ⟨⟨rs, rfl⟩, c⟩
  | @reset t L M row column px _ h0 ih =>
    obtain ⟨iL, iM, hh⟩ := ih
    refine ⟨Live.reset_inv h0, Live.reset_inv h0, ?_⟩
    obtain ⟨⟨rs, rfl⟩, c⟩ := hh
    exact ⟨⟨[], rfl⟩, rfl⟩
  | @pix t L M px _ hst ih =>
    obtain ⟨iL, iM, hh⟩ := ih
    have key : ∀ {L : Live}, Live.LInv t L → L.gstate = .ready → Live.LInv t (L.setPix px).1 := by
      intro L ih hst
      have hr := ih.gst.symm.trans hst
      unfold Live.setPix
      split
      · exact ih
      · exact Live.fresh_inv ih.reach ih.wait hst hr ih.hrow ih.hcol (ih.ready hr).1 (ih.ready hr).2
    obtain ⟨⟨rs, rfl⟩, c⟩ := hh
    refine ⟨key iL hst, key iM hst, ?_⟩
    unfold Live.setPix
    simp only [hst, ne_eq, not_true_eq_false, false_and, if_false]
    exact ⟨⟨rs, rfl⟩, c⟩

/-! ## when `analyse` panics -/

theorem MSB.step_leave {s s' : MSB} {e : Ev} {p : Pos} {r : Option Nat} (hs : s.step e p = some (s', r)) (hst : s.state = .ready)
    (hne : s'.state ≠ .ready) : p ∈ grid s.row s.column := by
  have he := step_eff hs
  cases he with
  | idle => exact absurd hst hne
  | start _ hp => exact hp
  | back => exact absurd rfl hne
  | backClear => exact absurd rfl hne
  | unflagLast => exact absurd rfl hne
  | preFlag m k _ _ hst' _ hp hk h10 hc => exact hp
  | preUnflag m k _ _ hst' _ hp hk hk' h10 hc => exact hp
  | right m _ _ hst' => rw [hst] at hst'; exact absurd hst' (by decide)
  | left m _ _ hst' =>
    rw [hst] at hst'
    rcases hst' with h | h
    · exact absurd h (by decide)
    · exact absurd h.1 (by decide)
  | chord m mh dec _ _ hst' hm hm' hc =>
    rw [hst] at hst'
    rcases hst' with h | h <;> exact absurd h (by decide)
  | miss => exact absurd hst hne

/-- the board fits 16 bits: `analyse` panics only where the game does -/
theorem analyse_play {dist : Pos → Pos → ℚ} {v : View} {pix : Nat} (hv : Numbered v) (hp : 0 < pix) (hr : v.row * pix < 65536)
    (hc : v.col * pix < 65536) : ∀ (evs : List RawEv),
    (play pix v evs = none → analyse dist v v.row v.col pix evs = none) ∧
    ∀ m, play pix v evs = some m → ∃ A, analyse dist v v.row v.col pix evs = some A ∧
      (m.state ≠ .ready → ∃ q ∈ A.recs, q.y < v.row * pix ∧ q.x < v.col * pix) := by
  have er : v.row % 65536 = v.row := Nat.mod_eq_of_lt (Nat.lt_of_le_of_lt (Nat.le_mul_of_pos_right _ hp) hr)
  have ec : v.col % 65536 = v.col := Nat.mod_eq_of_lt (Nat.lt_of_le_of_lt (Nat.le_mul_of_pos_right _ hp) hc)
  intro evs
  induction evs using List.reverseRecOn with
  | nil =>
    refine ⟨fun h => by simp [play] at h, fun m hm => ⟨_, rfl, fun h => ?_⟩⟩
    simp only [play, List.foldlM_nil, Option.pure_def, Option.some.injEq] at hm
    subst hm
    exact absurd rfl h
  | append_singleton evs e ih =>
    obtain ⟨ih1, ih2⟩ := ih
    rw [play_snoc, analyse_snoc]
    cases hpl : play pix v evs with
    | none => exact ⟨fun _ => by rw [ih1 hpl]; rfl, fun m hm => by cases hm⟩
    | some m =>
      obtain ⟨A, hA, hon⟩ := ih2 m hpl
      have I := analyse_inv hv hA
      have hmA : A.msb = m := Option.some.inj (I.plays.symm.trans hpl)
      rw [hA]
      simp only [Option.bind_some]
      -- the event on the machine
      rcases hst : m.step e.ev (e.y / pix, e.x / pix) with _ | ⟨m', _ | a⟩
      · refine ⟨fun _ => ?_, fun m hm => by cases hm⟩
        cases hn : A.next dist v.row v.col pix e with
        | none => rfl
        | some B =>
          obtain ⟨m1, a1, path, n1, -⟩ := next_eff hn
          rw [hmA, hst] at n1; cases n1
      · refine ⟨fun _ => ?_, fun m hm => by cases hm⟩
        cases hn : A.next dist v.row v.col pix e with
        | none => rfl
        | some B =>
          obtain ⟨m1, a1, path, n1, -⟩ := next_eff hn
          rw [hmA, hst] at n1; cases n1
      · refine ⟨fun h => (by cases h), fun m1 hm1 => ?_⟩
        cases hm1
        -- an event on the board, among those before or this one
        have here : m'.state ≠ .ready → (∃ q ∈ A.recs, q.y < v.row * pix ∧ q.x < v.col * pix) ∨
            (e.y < v.row * pix ∧ e.x < v.col * pix) := by
          intro hne
          by_cases hrd : m.state = .ready
          · have := MSB.step_leave hst hrd hne
            rw [← hmA] at this
            have g := I.reach.inv
            have d := mem_grid.1 this
            have d1 : A.msb.row = v.row := by rw [← I.board]; exact g.core.hrow.symm
            have d2 : A.msb.column = v.col := by rw [← I.board]; exact g.core.hcol.symm
            rw [d1, d2] at d
            exact .inr ⟨(Nat.div_lt_iff_lt_mul hp).1 d.1, (Nat.div_lt_iff_lt_mul hp).1 d.2⟩
          · exact .inl (hon hrd)
        have path : ∀ st, (st = .playing ∨ st = .win ∨ st = .loss → m.state ≠ .ready) →
            ∃ x, replayPath dist v.row v.col pix st A.recs e = some x := by
          intro st hs
          unfold replayPath
          by_cases hpl : st = .playing ∨ st = .win ∨ st = .loss
          · obtain ⟨q, hq, q1, q2⟩ := hon (hs hpl)
            rw [if_pos hpl, er, ec, if_neg (by push Not; exact ⟨hr, fun h => by omega⟩)]
            split
            · cases hl : A.recs.getLast? with
              | none => rw [List.getLast?_eq_none_iff] at hl; rw [hl] at hq; cases hq
              | some r => exact ⟨_, rfl⟩
            · cases hf : A.recs.reverse.find? fun q => !offBoth v.row v.col pix q.y q.x with
              | some r => exact ⟨_, rfl⟩
              | none =>
                rw [List.find?_eq_none] at hf
                have hx := hf q (List.mem_reverse.2 hq)
                simp only [offBoth, Bool.not_eq_true', Bool.not_eq_false, Bool.and_eq_true, decide_eq_true_eq] at hx
                omega
          · exact ⟨0, if_neg hpl⟩
        have hstate : m'.state = .playing ∨ m'.state = .win ∨ m'.state = .loss → m.state ≠ .ready := by
          intro h hrd
          have := (MSB.step_state (hmA ▸ I.reach.inv) hst).1 hrd
          rcases h with h | h | h <;> rw [h] at this <;> simp at this
        obtain ⟨B, hB⟩ : ∃ B, A.next dist v.row v.col pix e = some B := by
          unfold Replay.next
          simp only
          by_cases hmv : e.ev = .mv
          · rw [if_pos hmv]
            rw [hmv, step_mv] at hst
            have hmm : m' = m := by simpa using (congrArg (fun o => o.map Prod.fst) hst).symm
            obtain ⟨x, hx⟩ := path m'.state hstate
            rw [hmm] at hx
            rw [hmA, hx]
            exact ⟨_, rfl⟩
          · obtain ⟨x, hx⟩ := path m'.state hstate
            rw [if_neg hmv, if_neg (by omega), hmA, hst]
            simp only
            split
            · simp only [hx]; exact ⟨_, rfl⟩
            · simp only [hx]; exact ⟨_, rfl⟩
        refine ⟨B, hB, fun hne => ?_⟩
        obtain ⟨m1, a1, x, n1, n2, n3, n4, n5⟩ := next_eff hB
        rw [n5]
        rcases here hne with ⟨q, hq, hh⟩ | hh
        · exact ⟨q, List.mem_append_left _ hq, hh⟩
        · exact ⟨_, List.mem_append_right _ (List.mem_singleton.2 rfl), hh⟩

/-! ## files -/

/-- what an event of the buttons does, the way of the mouse left aside -/
def clickCore (pix : Nat) (c : MSB × List Board × Nat × List Rec) (r : RawEv) : Option (MSB × List Board × Nat × List Rec) :=
  match c.1.step r.ev (r.y / pix, r.x / pix) with
  | some (m, some a) =>
    let S := c.2.1 ++ (if a ≥ 1 then [m.gameBoard] else [])
    some (m, S, (if a ≥ 1 ∧ c.1.state ≠ .playing then r.time else c.2.2.1), c.2.2.2 ++ [{
        time := r.time, ev := r.ev, x := r.x, y := r.y, useful := a, prior := c.2.1.length - 1,
        next := S.length - 1, mouseSt := m.mouse, left := m.left, right := m.right,
        double := m.double, ce := m.ce, flag := m.flag, bbbvSolved := m.bbbvSolved, path := 0 }])
  | _ => none

theorem analyse_clicks {dist : Pos → Pos → ℚ} {v : View} {h w pix : Nat} : ∀ {evs : List RawEv} {A : Replay},
    analyse dist v h w pix evs = some A →
    (rawClicks evs).foldlM (m := Option) (clickCore pix) (MSB.new v, [coveredBoard h w], 0, []) =
      some (A.msb, A.stream, A.delta, buttons A.recs) := by
  intro evs
  induction evs using List.reverseRecOn with
  | nil =>
    intro A hA
    simp only [analyse, List.foldlM_nil, Option.pure_def, Option.some.injEq] at hA
    subst hA
    rfl
  | append_singleton evs e ih =>
    intro A' hA
    rw [analyse_snoc, Option.bind_eq_some_iff] at hA
    obtain ⟨A, hA, hn⟩ := hA
    have I := ih hA
    obtain ⟨m, a, path, n1, n2, n3, n4, n5⟩ := next_eff hn
    unfold rawClicks at I ⊢
    rw [List.filter_append]
    by_cases he : e.ev = .mv
    · rw [List.filter_cons_of_neg (by simp [he]), List.filter_nil, List.append_nil, I]
      rw [he, step_mv] at n1
      simp only [Option.some.injEq, Prod.mk.injEq] at n1
      obtain ⟨rfl, rfl⟩ := n1
      rw [n2, n3, n4, n5, Live.buttons_append]
      simp [buttons, he]
    · rw [List.filter_cons_of_pos (by simp [he]), List.filter_nil, List.foldlM_append, I]
      simp only [Option.bind_eq_bind, Option.bind_some, List.foldlM_cons, List.foldlM_nil]
      unfold clickCore
      simp only [n1, n2, n4, n5, n3, Live.buttons_append]
      simp [buttons, he]

namespace Properties

variable {dist : Pos → Pos → ℚ}

/-! ## the game -/

/-- **C95** `step_flow` does the same - the same game afterwards, or the same panic - whether the movements are left out or not. -/
theorem C95_machine (s : MSB) (ops : List (Ev × Pos)) : s.stepFlow (ops.filter fun op => op.1 ≠ .mv) = s.stepFlow ops := by
  induction ops generalizing s with
  | nil => rfl
  | cons op ops ih =>
    by_cases he : op.1 = .mv
    · rw [List.filter_cons_of_neg (by simp [he]), ih, MSB.stepFlow, he, step_mv]
    · rw [List.filter_cons_of_pos (by simp [he]), MSB.stepFlow, MSB.stepFlow]
      rcases s.step op.1 op.2 with _ | ⟨s', _ | k⟩
      · rfl
      · rfl
      · exact ih s'

/-! ## recording -/

/-- **C95** Two live videos that differ in the movements reported have the same game, boards, times and result, and the same
events of the buttons but for the path. -/
theorem C95_live {t : Nat} {L M : Live} (h : Twins dist t L M) :
    M.msb = L.msb ∧ M.stream = L.stream ∧ M.gstate = L.gstate ∧ M.rtimeMs = L.rtimeMs ∧ M.completed = L.completed ∧
    (∀ now, M.getTimeMs now = L.getTimeMs now) ∧ buttons M.recs = buttons L.recs := by
  obtain ⟨-, -, ⟨rs, rfl⟩, c⟩ := h.both
  exact ⟨rfl, rfl, rfl, rfl, rfl, fun _ => rfl, c⟩

/-- **C95** The next event of the buttons is answered alike: accepted by both, refused by both or a panic of both. -/
theorem C95_live_next {t now : Nat} {L M : Live} (h : Twins dist t L M) (e : Ev) (pos : Pos) :
    (L.step dist now e pos).map (·.2) = (M.step dist now e pos).map (·.2) := by
  obtain ⟨iL, iM, hh⟩ := h.both
  rcases Live.same_step (dist := dist) (now := now) iL iM hh e pos with ⟨e1, e2⟩ | ⟨L1, M1, ok, e1, e2, -⟩ 
  · rw [e1, e2]
  · rw [e1, e2]; rfl

/-- **C95** A movement is always accepted, once the pixel size is set. -/
theorem C95_live_move {t now : Nat} {L M : Live} (h : Twins dist t L M) (hp : 0 < L.pix) (pos : Pos) :
    ∃ L', L.step dist now .mv pos = some (L', true) := by
  obtain ⟨L', h1, -⟩ := Live.same_move (dist := dist) (now := now) h.both.1 pos (.inl hp)
  exact ⟨L', h1⟩

/-! ## files -/

/-- **C95** Two files with the same events of the buttons, and whatever movements, are - if they are analysed at all -
analysed to the same game, boards, beginning and events of the buttons, the path apart. -/
theorem C95_analyse {dist dist' : Pos → Pos → ℚ} {v : View} {h w pix : Nat} {evs evs' : List RawEv} {A A' : Replay}
    (hA : analyse dist v h w pix evs = some A) (hA' : analyse dist' v h w pix evs' = some A')
    (he : rawClicks evs' = rawClicks evs) :
    A'.msb = A.msb ∧ A'.stream = A.stream ∧ A'.delta = A.delta ∧ buttons A'.recs = buttons A.recs := by
  have h1 := analyse_clicks hA
  have h2 := analyse_clicks hA'
  rw [he, h1] at h2
  simp only [Option.some.injEq, Prod.mk.injEq] at h2
  exact ⟨h2.1.symm, h2.2.1.symm, h2.2.2.1.symm, h2.2.2.2.symm⟩

/-- **C52** When does `analyse` panic?  On a file with correct numbers whose board fits 16 bits: exactly if the game machine,
driven by the events, panics or refuses one of them. -/
theorem C52_panics_iff {v : View} {pix : Nat} (hv : Numbered v) (hp : 0 < pix) (hr : v.row * pix < 65536) (hc : v.col * pix < 65536)
    (evs : List RawEv) : analyse dist v v.row v.col pix evs = none ↔ play pix v evs = none := by
  obtain ⟨h1, h2⟩ := analyse_play (dist := dist) hv hp hr hc evs
  refine ⟨fun h => ?_, h1⟩
  cases hm : play pix v evs with
  | none => rfl
  | some m =>
    obtain ⟨A, hA, -⟩ := h2 m hm
    rw [h] at hA; cases hA

theorem play_rawClicks (pix : Nat) (v : View) (evs : List RawEv) : play pix v (rawClicks evs) = play pix v evs := by
  unfold play rawClicks
  generalize MSB.new v = s
  induction evs generalizing s with
  | nil => rfl
  | cons e evs ih =>
    by_cases he : e.ev = .mv
    · rw [List.filter_cons_of_neg (by simp [he]), ih, List.foldlM_cons, he, step_mv]
      rfl
    · rw [List.filter_cons_of_pos (by simp [he]), List.foldlM_cons, List.foldlM_cons]
      rcases s.step e.ev (e.y / pix, e.x / pix) with _ | ⟨s', _ | a⟩
      · rfl
      · rfl
      · exact ih s'

/-- **C95** If the board fits 16 bits, both are analysed or neither is. -/
theorem C95_analyse_panics {dist dist' : Pos → Pos → ℚ} {v : View} {pix : Nat} (hv : Numbered v) (hp : 0 < pix)
    (hr : v.row * pix < 65536) (hc : v.col * pix < 65536) {evs evs' : List RawEv} (he : rawClicks evs' = rawClicks evs) :
    analyse dist v v.row v.col pix evs = none ↔ analyse dist' v v.row v.col pix evs' = none := by
  rw [C52_panics_iff hv hp hr hc, C52_panics_iff hv hp hr hc, ← play_rawClicks, ← play_rawClicks pix v evs', he]

/-! ## the theorems apply -/

theorem twins_run : ∀ (l : List (Nat × Ev × Pos)) {t t' t'' : Nat} {L M L' M' : Live}, Twins dist t L M →
    runLive dist t L l = some (t', L') → (∃ u, u ≤ t ∧ runLive dist u M (l.filter fun e => e.2.1 ≠ .mv) = some (t'', M')) →
    Twins dist t' L' M' := by
  intro l
  induction l with
  | nil =>
    rintro t t' t'' L M L' M' h h1 ⟨u, -, h2⟩
    simp only [runLive, List.filter_nil, Option.some.injEq, Prod.mk.injEq] at h1 h2
    obtain ⟨rfl, rfl⟩ := h1
    obtain ⟨-, rfl⟩ := h2
    exact h
  | cons x l ih =>
    obtain ⟨now, e, pos⟩ := x
    rintro t t' t'' L M L' M' h h1 ⟨u, hu, h2⟩
    unfold runLive at h1
    by_cases hc : t ≤ now ∧ e ≠ .pf ∧ pos.1 < 65536 ∧ pos.2 < 65536
    · rw [if_pos hc, Option.bind_eq_some_iff] at h1
      obtain ⟨⟨L1, ok⟩, s1, h1⟩ := h1
      by_cases he : e = .mv
      · subst he
        rw [List.filter_cons_of_neg (by simp)] at h2
        exact ih (.left h hc.1 hc.2.2.1 hc.2.2.2 s1) h1 ⟨u, hu.trans hc.1, h2⟩
      · rw [List.filter_cons_of_pos (by simp [he])] at h2
        unfold runLive at h2
        rw [if_pos ⟨hu.trans hc.1, hc.2⟩, Option.bind_eq_some_iff] at h2
        obtain ⟨⟨M1, ok'⟩, s2, h2⟩ := h2
        exact ih (.step h hc.1 hc.2.1 hc.2.2.1 hc.2.2.2 s1 s2) h1 ⟨now, le_rfl, h2⟩
    · rw [if_neg hc] at h1; cases h1

/-- The sample game with and without its movements: both are won. -/
example : ∃ t L M, Twins taxi t L M ∧ L.gstate = .win ∧ L.recs.length = 15 ∧ M.recs.length = 14 := by
  have h1 : (sampleLive.map fun r => (r.2.gstate, r.2.recs.length)) = some (.win, 15) := by decide +kernel
  have h2 : ((runLive taxi 7 (Live.new gameSample.view 10 7) (liveEvents.filter fun e => e.2.1 ≠ .mv)).map fun r => r.2.recs.length) =
      some 14 := by decide +kernel
  rw [Option.map_eq_some_iff] at h1 h2
  obtain ⟨⟨t, L⟩, a1, a2⟩ := h1
  obtain ⟨⟨t', M⟩, b1, b2⟩ := h2
  simp only [Prod.mk.injEq] at a2
  exact ⟨t, L, M, twins_run liveEvents (.new gameSample_numbered) a1 ⟨7, le_rfl, b1⟩, a2.1, a2.2, b2⟩

end Properties
end Ms
