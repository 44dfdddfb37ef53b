import Verif.SpecAgain

/-! # Lemmas for C90 -/

namespace Ms
open Spec

variable {dist : Pos → Pos → ℚ} {h w pix : Nat}

/-- what `analyse` reads of an event -/
structure SameInput (r q : Rec) : Prop where
  time : q.time = r.time
  ev : q.ev = r.ev
  x : q.x = r.x
  y : q.y = r.y
  useful : q.useful = r.useful
  path : q.path = r.path

theorem moved_input (k : Nat) (r : Rec) : SameInput r (r.moved k) := ⟨rfl, rfl, rfl, rfl, rfl, rfl⟩

theorem input_moved {k : Nat} {r q : Rec} (h : SameInput r q) : SameInput r (q.moved k) :=
  ⟨h.time, h.ev, h.x, h.y, h.useful, h.path⟩

/-- the first call is the general one on what the parsers leave -/
theorem next_rework (A : Replay) (r : RawEv) : A.next dist h w pix r = A.rework dist h w pix r.parsed := rfl

theorem analyse_reanalyse (v : View) (evs : List RawEv) :
    analyse dist v h w pix evs = reanalyse dist v h w pix (evs.map RawEv.parsed) [] 0 := by
  unfold analyse reanalyse
  rw [List.foldlM_map]
  rfl

/-- the video as it is after `A`, with the boards `S` before its boards and the start time `d` -/
def Replay.behind (A : Replay) (S : List Board) (d : Nat) : Replay :=
  { A with stream := S ++ A.stream, recs := A.recs.map (Rec.moved S.length), delta := d }

theorem find_moved (k : Nat) (p : Nat → Nat → Bool) (recs : List Rec) :
    (recs.map (Rec.moved k)).reverse.find? (fun q => p q.y q.x) = (recs.reverse.find? fun q => p q.y q.x).map (Rec.moved k) := by
  rw [← List.map_reverse, List.find?_map]
  rfl

theorem reworkPath_again {st : GState} {recs : List Rec} {r : RawEv} {old : Rec} {p : ℚ} (k : Nat)
    (hp : replayPath dist h w pix st recs r = some p) (hx : old.x = r.x) (hy : old.y = r.y) (ho : old.path = p) :
    reworkPath dist h w pix st (recs.map (Rec.moved k)) old = some p := by
  unfold replayPath at hp
  unfold reworkPath
  split at hp
  · rename_i h1
    rw [if_pos h1]
    have hl : (recs.map (Rec.moved k)).getLast? = recs.getLast?.map (Rec.moved k) := List.getLast?_map
    rw [hl, hx, hy, Option.any_map]
    split at hp
    · exact absurd hp (by simp)
    · rename_i h2
      rw [if_neg (show ¬ (h % 65536 * pix ≥ 65536 ∨ w % 65536 * pix ≥ 65536 ∧ (r.y ≥ h % 65536 * pix ∨
        Option.any (fun a => decide ((Rec.moved k a).y ≥ h % 65536 * pix)) recs.getLast? = true)) from h2)]
      split at hp
      · rename_i h3
        rw [if_pos h3, Option.map_map]
        exact hp
      · rename_i h3
        rw [if_neg h3, find_moved k (fun y x => !offBoth (h % 65536) (w % 65536) pix y x), Option.map_map]
        exact hp
  · rename_i h1
    rw [if_neg h1, ho]

/-- one event of a second call, over an event of the first -/
theorem rework_again {A B : Replay} {r : RawEv} {S : List Board} {d : Nat} (hA : A.next dist h w pix r = some B)
    (hs : A.stream ≠ []) : B.stream ≠ [] ∧ ∃ R, B.recs = A.recs ++ [R] ∧
      ∀ old, SameInput R old → ∃ d', (A.behind S d).rework dist h w pix old = some (B.behind S d') ∧
        (d = A.delta → d' = B.delta) ∧ (d' = d ∨ d' = B.delta) := by
  have hlen : (S ++ A.stream).length - 1 = A.stream.length - 1 + S.length := by
    have := List.length_pos_of_ne_nil hs
    rw [List.length_append]
    omega
  unfold Replay.next at hA
  simp only at hA
  split at hA
  · rename_i hm
    obtain ⟨p, hp, rfl⟩ := Option.map_eq_some_iff.mp hA
    refine ⟨hs, _, rfl, fun old ho => ⟨d, ?_, fun e => e, .inl rfl⟩⟩
    have he : old.ev = .mv := by rw [ho.ev]; exact hm
    unfold Replay.rework
    simp only
    rw [if_pos he]
    have := reworkPath_again S.length hp ho.x ho.y ho.path
    rw [show reworkPath dist h w pix (A.behind S d).msb.state (A.behind S d).recs old = some p from this]
    show some _ = some _
    refine congrArg some ?_
    unfold Replay.behind
    rw [List.map_append]
    simp only [Replay.mk.injEq, true_and, and_true]
    refine congrArg (fun l => List.map (Rec.moved S.length) A.recs ++ l) ?_
    simp only [List.map_cons, List.map_nil, Rec.moved, List.cons.injEq, and_true, Rec.mk.injEq, hlen]
    exact ⟨ho.time, ho.ev, ho.x, ho.y, ho.useful⟩
  · rename_i hm
    split at hA
    · exact absurd hA (by simp)
    · rename_i hpix
      split at hA
      · exact absurd hA (by simp)
      · exact absurd hA (by simp)
      · rename_i m a hstep
        split at hA
        · rename_i ha
          obtain ⟨p, hp, rfl⟩ := Option.map_eq_some_iff.mp hA
          refine ⟨by simp, _, rfl, fun old ho => ⟨if A.msb.state ≠ .playing then r.time else d, ?_, fun e => by rw [e], ?_⟩⟩
          · have he : ¬ old.ev = .mv := by rw [ho.ev]; exact hm
            unfold Replay.rework
            simp only
            rw [if_neg he, if_neg hpix]
            have hst : (A.behind S d).msb.step old.ev (old.y / pix, old.x / pix) = some (m, some a) := by
              rw [ho.ev, ho.x, ho.y]; exact hstep
            rw [hst]
            simp only
            rw [if_pos ha]
            have := reworkPath_again S.length hp ho.x ho.y ho.path
            rw [show reworkPath dist h w pix m.state (A.behind S d).recs old = some p from this]
            show some _ = some _
            refine congrArg some ?_
            unfold Replay.behind
            rw [List.map_append]
            simp only [Replay.mk.injEq, true_and, List.append_assoc]
            refine ⟨congrArg (fun l => List.map (Rec.moved S.length) A.recs ++ l) ?_, ?_⟩
            · have hlen2 : (S ++ (A.stream ++ [m.gameBoard])).length - 1 = (A.stream ++ [m.gameBoard]).length - 1 + S.length := by
                simp only [List.length_append, List.length_cons, List.length_nil]; omega
              simp only [List.map_cons, List.map_nil, Rec.moved, List.cons.injEq, and_true, Rec.mk.injEq, hlen, hlen2]
              exact ⟨ho.time, ho.ev, ho.x, ho.y⟩
            · rw [show old.time = r.time from ho.time]
          · by_cases hst : A.msb.state ≠ .playing
            · right; simp [hst]
            · left; simp [hst]
        · rename_i ha
          obtain ⟨p, hp, rfl⟩ := Option.map_eq_some_iff.mp hA
          refine ⟨hs, _, rfl, fun old ho => ⟨d, ?_, fun e => e, .inl rfl⟩⟩
          have he : ¬ old.ev = .mv := by rw [ho.ev]; exact hm
          unfold Replay.rework
          simp only
          rw [if_neg he, if_neg hpix]
          have hst : (A.behind S d).msb.step old.ev (old.y / pix, old.x / pix) = some (m, some a) := by
            rw [ho.ev, ho.x, ho.y]; exact hstep
          rw [hst]
          simp only
          rw [if_neg ha]
          have := reworkPath_again S.length hp ho.x ho.y ho.path
          rw [show reworkPath dist h w pix m.state (A.behind S d).recs old = some p from this]
          show some _ = some _
          refine congrArg some ?_
          unfold Replay.behind
          rw [List.map_append]
          simp only [Replay.mk.injEq, true_and, and_true]
          refine congrArg (fun l => List.map (Rec.moved S.length) A.recs ++ l) ?_
          simp only [List.map_cons, List.map_nil, Rec.moved, List.cons.injEq, and_true, Rec.mk.injEq, hlen]
          exact ⟨ho.time, ho.ev, ho.x, ho.y⟩

theorem fold_again {S : List Board} : ∀ (evs : List RawEv) (A B : Replay), A.stream ≠ [] →
    evs.foldlM (m := Option) (Replay.next dist h w pix) A = some B →
    ∃ Rs, B.recs = A.recs ++ Rs ∧ ∀ olds d, List.Forall₂ SameInput Rs olds → ∃ d',
      olds.foldlM (m := Option) (Replay.rework dist h w pix) (A.behind S d) = some (B.behind S d') ∧
      (d = A.delta → d' = B.delta) ∧ (d' = d ∨ d' = B.delta) := by
  intro evs
  induction evs with
  | nil =>
    intro A B _ hB
    obtain rfl : A = B := by simpa using hB
    refine ⟨[], by simp, fun olds d ho => ?_⟩
    cases ho
    exact ⟨d, rfl, id, .inl rfl⟩
  | cons r evs ih =>
    intro A B hs hB
    rw [List.foldlM_cons] at hB
    obtain ⟨C, hC, hB⟩ := Option.bind_eq_some_iff.mp hB
    obtain ⟨hs', R, hR, hstep⟩ := rework_again (S := S) (d := 0) hC hs
    obtain ⟨Rs, hRs, hrest⟩ := ih C B hs' hB
    refine ⟨R :: Rs, by rw [hRs, hR, List.append_assoc]; rfl, fun olds d ho => ?_⟩
    cases ho with
    | cons h1 h2 =>
      obtain ⟨_, R', hR', hstep'⟩ := rework_again (S := S) (d := d) hC hs
      have : R' = R := by
        rw [hR] at hR'
        simpa using hR'.symm
      subst this
      obtain ⟨d1, e1, e2, e3⟩ := hstep' _ h1
      obtain ⟨d2, f1, f2, f3⟩ := hrest _ d1 h2
      rw [List.foldlM_cons, e1]
      refine ⟨d2, f1, fun e => f2 (e2 e), ?_⟩
      rcases f3 with f3 | f3
      · rcases e3 with e3 | e3
        · left; rw [f3, e3]
        · right; exact f2 e3
      · exact .inr f3

end Ms

namespace Ms
open Spec

/-! ### the player -/

/-- the player of a video with the boards `S` before the others -/
def Player.behind (S : List GameBoard) (P : Player) : Player :=
  { P with recs := P.recs.map (Rec.moved S.length), stream := S ++ P.stream }

theorem seekFwd_moved (k : Nat) (rs : List Rec) (t : ℚ) : ∀ n i, Player.seekFwd (rs.map (Rec.moved k)) t n i = Player.seekFwd rs t n i := by
  intro n
  induction n with
  | zero => intro i; rfl
  | succ n ih =>
    intro i
    unfold Player.seekFwd
    rw [List.length_map]
    split
    · rfl
    · rw [List.getElem?_map]
      cases rs[i + 1]? with
      | none => rfl
      | some r =>
        simp only [Option.map_some]
        rw [ih]
        rfl

theorem seekBack_moved (k : Nat) (rs : List Rec) (t : ℚ) : ∀ i, Player.seekBack (rs.map (Rec.moved k)) t i = Player.seekBack rs t i := by
  intro i
  induction i with
  | zero => rfl
  | succ i ih =>
    unfold Player.seekBack
    rw [List.getElem?_map]
    cases rs[i]? with
    | none => rfl
    | some r =>
      simp only [Option.map_some]
      rw [ih]
      rfl

theorem possSearch_moved (k : Nat) (rs : List Rec) : ∀ i, Player.possSearch (rs.map (Rec.moved k)) i = Player.possSearch rs i := by
  intro i
  induction i with
  | zero =>
    unfold Player.possSearch
    rw [List.getElem?_map]
    cases rs[0]? <;> rfl
  | succ i ih =>
    unfold Player.possSearch
    rw [List.getElem?_map, ih]
    cases rs[i + 1]? <;> rfl

theorem endTime_behind (S : List GameBoard) (P : Player) : (P.behind S).endTime = P.endTime := by
  unfold Player.endTime Player.behind
  simp only
  rw [List.getLast?_map, Option.map_map]
  rfl

theorem setTime_behind (S : List GameBoard) (P : Player) (t : ℚ) : (P.behind S).setTime t = (P.setTime t).map (Player.behind S) := by
  unfold Player.setTime
  rw [endTime_behind]
  show (P.startTime.bind _) = (P.startTime.bind _).map _
  cases P.startTime with
  | none => rfl
  | some s =>
    simp only [Option.bind_some, Option.bind_eq_bind, Option.pure_def]
    cases P.endTime with
    | none => rfl
    | some e =>
      simp only [Option.bind_some]
      have h1 : (P.behind S).recs[(P.behind S).cur]? = P.recs[P.cur]?.map (Rec.moved S.length) := List.getElem?_map
      rw [h1]
      cases P.recs[P.cur]? with
      | none => rfl
      | some r =>
        simp only [Option.map_some, Option.bind_some]
        have h2 : (P.behind S).recs.length = P.recs.length := List.length_map _
        rw [h2, show (P.behind S).recs = P.recs.map (Rec.moved S.length) from rfl, seekFwd_moved, seekBack_moved]
        show (if t + P.delta > (r.time : ℚ) then _ else _) = _
        split
        · rw [Option.map_bind]; rfl
        · rw [Option.map_bind]; rfl

theorem setEvent_behind (S : List GameBoard) (P : Player) (i : Nat) :
    (P.behind S).setEvent i = (P.setEvent i).map fun q => (q.1.behind S, q.2) := by
  unfold Player.setEvent
  show (if P.state ≠ .display then _ else _) = _
  split
  · rfl
  · have h1 : (P.behind S).recs[i]? = P.recs[i]?.map (Rec.moved S.length) := List.getElem?_map
    rw [h1, Option.map_map, Option.map_map]
    rfl

theorem behind_get {α : Type} (S l : List α) (i : Nat) : (S ++ l)[i + S.length]? = l[i]? := by
  rw [List.getElem?_append_right (by omega), Nat.add_sub_cancel]

theorem gameBoard_behind (S : List GameBoard) (P : Player) : (P.behind S).gameBoard = P.gameBoard := by
  unfold Player.gameBoard
  have h1 : (P.behind S).recs[(P.behind S).cur]? = P.recs[P.cur]?.map (Rec.moved S.length) := List.getElem?_map
  rw [h1]
  cases P.recs[P.cur]? with
  | none => rfl
  | some r =>
    show ((S ++ P.stream)[r.next + S.length]?.bind _) = _
    rw [behind_get]
    rfl

theorem gameBoardPoss_behind (S : List GameBoard) (P : Player) :
    (P.behind S).gameBoardPoss = P.gameBoardPoss.map fun q => (q.1.behind S, q.2) := by
  unfold Player.gameBoardPoss
  rw [show (P.behind S).recs = P.recs.map (Rec.moved S.length) from rfl, possSearch_moved]
  show (Player.possSearch P.recs P.cur).bind _ = ((Player.possSearch P.recs P.cur).bind _).map _
  cases Player.possSearch P.recs P.cur with
  | none => rfl
  | some b =>
    cases b with
    | false => rfl
    | true =>
      simp only [Option.bind_some, if_true, Option.bind_eq_bind, Option.pure_def]
      have h1 : (P.recs.map (Rec.moved S.length))[(P.behind S).cur]? = P.recs[P.cur]?.map (Rec.moved S.length) := List.getElem?_map
      rw [h1]
      cases P.recs[P.cur]? with
      | none => rfl
      | some r =>
        simp only [Option.map_some, Option.bind_some]
        show ((S ++ P.stream)[r.next + S.length]?.bind _) = _
        rw [behind_get]
        cases P.stream[r.next]? with
        | none => rfl
        | some G =>
          simp only [Option.bind_some]
          cases G.getPoss with
          | none => rfl
          | some GM =>
            simp only [Option.bind_some, Option.map_some]
            refine congrArg some (congrArg (·, GM.2) ?_)
            unfold Player.behind
            simp only [Rec.moved, List.set_append, Player.mk.injEq, true_and, and_true]
            rw [if_neg (by omega), Nat.add_sub_cancel]

/-! ### the features -/

/-- the comments of a video with the boards `S` before the others -/
def Feat.behind (S : List GameBoard) (F : Feat) : Feat :=
  { F with recs := F.recs.map (Rec.moved S.length), stream := S ++ F.stream }

namespace Feat

/-- the same with a second result -/
def behind' {α : Type} (S : List GameBoard) (T : Feat × α) : Feat × α := (T.1.behind S, T.2)

theorem rec_behind (S : List GameBoard) (F : Feat) (i : Nat) : (F.behind S).recs[i]? = F.recs[i]?.map (Rec.moved S.length) :=
  List.getElem?_map

theorem len_behind (S : List GameBoard) (F : Feat) : (F.behind S).recs.length = F.recs.length := List.length_map _

theorem say_behind (S : List GameBoard) (F : Feat) (i : Nat) (c : Comment) : (F.behind S).say i c = (F.say i c).map (behind S) := by
  unfold say
  rw [Option.map_map]
  rfl

theorem sayIf_behind (S : List GameBoard) (F : Feat) (i : Nat) (c : Option Comment) :
    (F.behind S).sayIf i c = (F.sayIf i c).map (behind S) := by
  cases c with
  | none => rfl
  | some c => exact say_behind S F i c

theorem ask_behind {α : Type} (S : List GameBoard) (F : Feat) (id : Nat) (q : GameBoard → Option (GameBoard × α)) :
    (F.behind S).ask (id + S.length) q = (F.ask id q).map (behind' S) := by
  unfold ask
  show ((S ++ F.stream)[id + S.length]?.bind _) = (F.stream[id]?.bind _).map _
  rw [behind_get]
  cases F.stream[id]? with
  | none => rfl
  | some G =>
    simp only [Option.bind_some, Option.bind_eq_bind, Option.pure_def]
    cases q G with
    | none => rfl
    | some GA =>
      simp only [Option.bind_some, Option.map_some]
      refine congrArg some ?_
      unfold behind' behind
      simp only [List.set_append, Prod.mk.injEq, Feat.mk.injEq, true_and, and_true]
      rw [if_neg (by omega), Nat.add_sub_cancel]

theorem possAt_behind (S : List GameBoard) (F : Feat) (id x y : Nat) :
    (F.behind S).possAt (id + S.length) x y = (F.possAt id x y).map (behind' S) := by
  unfold possAt
  rw [ask_behind]
  cases F.ask id GameBoard.getPoss with
  | none => rfl
  | some FM =>
    simp only [Option.map_some, Option.bind_some, Option.bind_eq_bind, Option.pure_def, behind']
    cases FM.2[x]? with
    | none => rfl
    | some l =>
      simp only [Option.bind_some]
      cases l[y]? <;> rfl

theorem onlySecond_behind (S : List GameBoard) (F : Feat) (id : Nat) (q1 q2 : GameBoard → Option (GameBoard × List Pos)) (p : Pos) :
    (F.behind S).onlySecond (id + S.length) q1 q2 p = (F.onlySecond id q1 q2 p).map (behind' S) := by
  unfold onlySecond
  rw [ask_behind]
  cases F.ask id q1 with
  | none => rfl
  | some FM =>
    simp only [Option.map_some, Option.bind_some, Option.bind_eq_bind, Option.pure_def, behind']
    split
    · rfl
    · rw [ask_behind]
      cases FM.1.ask id q2 <;> rfl

theorem inNeither_behind (S : List GameBoard) (F : Feat) (id : Nat) (p : Pos) :
    (F.behind S).inNeither (id + S.length) p = (F.inNeither id p).map (behind' S) := by
  unfold inNeither
  rw [ask_behind]
  cases F.ask id GameBoard.getBasicNot with
  | none => rfl
  | some FM =>
    simp only [Option.map_some, Option.bind_some, Option.bind_eq_bind, Option.pure_def, behind']
    split
    · rfl
    · rw [ask_behind]
      cases FM.1.ask id GameBoard.getEnumNot <;> rfl

theorem safeNear_behind (S : List GameBoard) (F : Feat) (id : Nat) (l : Pos) :
    (F.behind S).safeNear (id + S.length) l = (F.safeNear id l).map (behind' S) := by
  unfold safeNear
  rw [ask_behind]
  cases F.ask id GameBoard.getBasicNot with
  | none => rfl
  | some FM =>
    simp only [Option.map_some, Option.bind_some, Option.bind_eq_bind, Option.pure_def, behind']
    rw [ask_behind]
    cases FM.1.ask id GameBoard.getEnumNot <;> rfl

theorem fold_behind {σ : Type} (f : σ → σ) (step : σ → Nat → Option σ) (h : ∀ s i, step (f s) i = (step s i).map f) :
    ∀ (l : List Nat) (s : σ), l.foldlM (m := Option) step (f s) = (l.foldlM (m := Option) step s).map f := by
  intro l
  induction l with
  | nil => intro s; rfl
  | cons a l ih =>
    intro s
    rw [List.foldlM_cons, List.foldlM_cons, h]
    cases step s a with
    | none => rfl
    | some t => exact ih t

theorem loop_behind (S : List GameBoard) (step : Feat → Nat → Rec → Option Feat) (lo : Nat)
    (h : ∀ F i r, step (F.behind S) i (r.moved S.length) = (step F i r).map (behind S)) (F : Feat) :
    loop step lo (F.behind S) = (loop step lo F).map (behind S) := by
  unfold loop
  rw [len_behind]
  refine fold_behind _ _ (fun F i => ?_) _ _
  rw [rec_behind]
  cases F.recs[i]? with
  | none => rfl
  | some r => exact h F i r

theorem riskyStep_behind (S : List GameBoard) (F : Feat) (i : Nat) (r : Rec) :
    riskyStep (F.behind S) i (r.moved S.length) = (riskyStep F i r).map (behind S) := by
  unfold riskyStep
  show (if F.pix = 0 then none else if r.useful ≥ 2 then ((F.behind S).possAt (r.prior + S.length) (r.y / F.pix) (r.x / F.pix)).bind _ else _) = _
  rw [possAt_behind]
  split
  · rfl
  · split
    · cases F.possAt r.prior (r.y / F.pix) (r.x / F.pix) with
      | none => rfl
      | some T => exact sayIf_behind S T.1 i _
    · rfl

theorem jumpStep_behind (S : List GameBoard) (F : Feat) (i : Nat) (r : Rec) :
    jumpStep (F.behind S) i (r.moved S.length) = (jumpStep F i r).map (behind S) := by
  unfold jumpStep
  show (if F.pix = 0 then none else if r.useful ≥ 2 ∧ r.ev = .lr then
      ((F.behind S).onlySecond (r.prior + S.length) _ _ (r.y / F.pix, r.x / F.pix)).bind _
    else if r.useful = 1 ∧ r.ev = .rc then ((F.behind S).onlySecond (r.prior + S.length) _ _ (r.y / F.pix, r.x / F.pix)).bind _
    else _) = _
  rw [onlySecond_behind, onlySecond_behind]
  split
  · rfl
  · split
    · cases F.onlySecond r.prior GameBoard.getBasicNot GameBoard.getEnumNot (r.y / F.pix, r.x / F.pix) with
      | none => rfl
      | some T => exact sayIf_behind S T.1 i _
    · split
      · cases F.onlySecond r.prior GameBoard.getBasicIs GameBoard.getEnumIs (r.y / F.pix, r.x / F.pix) with
        | none => rfl
        | some T => exact sayIf_behind S T.1 i _
      · rfl

theorem needlessStep_behind (S : List GameBoard) (F : Feat) (i : Nat) (r : Rec) :
    needlessStep (F.behind S) i (r.moved S.length) = (needlessStep F i r).map (behind S) := by
  unfold needlessStep
  show (if r.useful ≥ 2 ∧ r.ev = .lr then if F.pix = 0 then none else
      ((F.behind S).possAt (r.prior + S.length) (r.y / F.pix) (r.x / F.pix)).bind _ else _) = _
  rw [possAt_behind]
  split
  · split
    · rfl
    · cases F.possAt r.prior (r.y / F.pix) (r.x / F.pix) with
      | none => rfl
      | some T =>
        simp only [Option.map_some, Option.bind_some, behind']
        split
        · show ((T.1.behind S).inNeither (r.prior + S.length) (r.y / T.1.pix, r.x / T.1.pix)).bind _ = _
          rw [inNeither_behind]
          cases T.1.inNeither r.prior (r.y / T.1.pix, r.x / T.1.pix) with
          | none => rfl
          | some U => exact sayIf_behind S U.1 i _
        · rfl
  · rfl

theorem traceStep_behind (dist : Pos → Pos → ℚ) (S : List GameBoard) (T : Feat × Trace) (i : Nat) :
    traceStep dist (behind' S T) i = (traceStep dist T i).map (behind' S) := by
  unfold traceStep
  rw [show (behind' S T).1 = T.1.behind S from rfl, rec_behind]
  cases T.1.recs[i]? with
  | none => rfl
  | some r =>
    simp only [Option.map_some, Option.bind_some]
    rw [sayIf_behind]
    show (if r.ev = .lr ∨ r.ev = .rc ∨ r.ev = .rr then _ else _) = _
    split
    · rw [Option.map_map, Option.map_map]
      rfl
    · rfl

theorem lookSay_behind (S : List GameBoard) (F : Feat) (t : Look) (id : Nat) (p : Pos) :
    (F.behind S).lookSay t (id + S.length) p = (F.lookSay t id p).map (behind S) := by
  unfold lookSay
  split
  · rw [safeNear_behind]
    cases F.safeNear id t.cell with
    | none => rfl
    | some T => exact sayIf_behind S T.1 _ _
  · rfl

theorem lookStep_behind (S : List GameBoard) (T : Feat × Look) (i : Nat) :
    lookStep (behind' S T) i = (lookStep T i).map (behind' S) := by
  unfold lookStep
  rw [show (behind' S T).1 = T.1.behind S from rfl, rec_behind]
  cases T.1.recs[i]? with
  | none => rfl
  | some r =>
    simp only [Option.map_some, Option.bind_some]
    show (if r.useful ≥ 2 then ((T.1.behind S).lookSay T.2 (r.prior + S.length) (r.y, r.x)).map _ else _) = _
    rw [lookSay_behind]
    split
    · rw [Option.map_map, Option.map_map]
      rfl
    · rfl

theorem luckStep_behind (S : List GameBoard) (T : Feat × List ℚ × Bool) (i : Nat) :
    luckStep (behind' S T) i = (luckStep T i).map (behind' S) := by
  unfold luckStep
  rw [show (behind' S T).1 = T.1.behind S from rfl, rec_behind]
  cases T.1.recs[i]? with
  | none => rfl
  | some r =>
    simp only [Option.map_some, Option.bind_some]
    show (if r.ev = .lr ∧ r.useful > 0 then if T.2.2 = false then _ else if T.1.pix = 0 then none else
      ((T.1.behind S).possAt (r.prior + S.length) (r.y / T.1.pix) (r.x / T.1.pix)).map _ else _) = _
    rw [possAt_behind]
    split
    · split
      · rfl
      · split
        · rfl
        · rw [Option.map_map, Option.map_map]
          rfl
    · rfl

theorem flAfter_behind (S : List GameBoard) (F : Feat) (t : FL) (far : Bool) (i : Nat) :
    flAfter (F.behind S) t far i = (flAfter F t far i).map (behind' S) := by
  unfold flAfter
  simp only
  generalize (if far then t.jump else t).enough = u
  rw [say_behind]
  split
  · rw [Option.map_map, Option.map_map]
    rfl
  · rfl

theorem flStep_behind (S : List GameBoard) (T : Feat × FL) (i : Nat) :
    flStep (behind' S T) i = (flStep T i).map (behind' S) := by
  unfold flStep
  rw [show (behind' S T).1 = T.1.behind S from rfl, show (behind' S T).2 = T.2 from rfl, rec_behind, rec_behind]
  cases T.1.recs[i]? with
  | none => rfl
  | some r =>
    simp only [Option.map_some, Option.bind_some]
    show (if r.ev = .mv then _ else if T.1.pix = 0 then none else _) = _
    split
    · rfl
    · split
      · rfl
      · cases T.1.recs[T.2.last]? with
        | none => rfl
        | some q =>
          simp only [Option.map_some, Option.bind_some]
          show ((S ++ T.1.stream)[r.prior + S.length]?.bind _) = _
          rw [behind_get]
          cases T.1.stream[r.prior]? with
          | none => rfl
          | some G =>
            simp only [Option.bind_some]
            show ((flMove T.2 i G.board r q (r.y / T.1.pix, r.x / T.1.pix)).bind _) = _
            cases flMove T.2 i G.board r q (r.y / T.1.pix, r.x / T.1.pix) with
            | none => rfl
            | some t =>
              simp only [Option.bind_some]
              show (if dist2 (r.y / T.1.pix, r.x / T.1.pix) (q.y / T.1.pix, q.x / T.1.pix) ≥ 2 ^ 31 then none else
                flAfter (T.1.behind S) t (decide (dist2 (r.y / T.1.pix, r.x / T.1.pix) (q.y / T.1.pix, q.x / T.1.pix) > 16)) i) = _
              rw [flAfter_behind]
              split <;> rfl

theorem run_behind (dist : Pos → Pos → ℚ) (S : List GameBoard) (F : Feat) (f : Feature) :
    (F.behind S).run dist f = (F.run dist f).map (behind S) := by
  cases f with
  | highRiskGuess => exact loop_behind S _ _ (riskyStep_behind S) F
  | jumpJudge => exact loop_behind S _ _ (jumpStep_behind S) F
  | needlessGuess => exact loop_behind S _ _ (needlessStep_behind S) F
  | mouseTrace =>
    show mouseTrace dist (F.behind S) = (mouseTrace dist F).map _
    unfold mouseTrace
    rw [rec_behind, len_behind]
    cases F.recs[0]? with
    | none => rfl
    | some r =>
      simp only [Option.map_some, Option.bind_some, Option.bind_eq_bind, Option.pure_def]
      have := fold_behind (behind' S) (traceStep dist) (traceStep_behind dist S) (rng 0 F.recs.length)
        (F, ⟨(r.x, r.y), 0, (r.x, r.y), 0⟩)
      rw [show ((F.behind S, (⟨((Rec.moved S.length r).x, (Rec.moved S.length r).y), 0, ((Rec.moved S.length r).x, (Rec.moved S.length r).y), 0⟩ : Trace)) : Feat × Trace) =
        behind' S (F, ⟨(r.x, r.y), 0, (r.x, r.y), 0⟩) from rfl, this]
      cases (rng 0 F.recs.length).foldlM (m := Option) (traceStep dist) (F, ⟨(r.x, r.y), 0, (r.x, r.y), 0⟩) <;> rfl
  | visionTransfer =>
    show visionTransfer (F.behind S) = (visionTransfer F).map _
    unfold visionTransfer
    rw [rec_behind, len_behind]
    cases F.recs[0]? with
    | none => rfl
    | some r =>
      simp only [Option.map_some, Option.bind_some, Option.bind_eq_bind, Option.pure_def]
      show (if F.pix = 0 then none else _) = _
      split
      · rfl
      · have := fold_behind (behind' S) lookStep (lookStep_behind S) (rng 0 F.recs.length)
          (F, ⟨(r.y, r.x), (r.y / F.pix, r.x / F.pix), 0⟩)
        show ((rng 0 F.recs.length).foldlM (m := Option) lookStep (behind' S (F, ⟨(r.y, r.x), (r.y / F.pix, r.x / F.pix), 0⟩))).bind _ = _
        rw [this]
        cases (rng 0 F.recs.length).foldlM (m := Option) lookStep (F, ⟨(r.y, r.x), (r.y / F.pix, r.x / F.pix), 0⟩) <;> rfl
  | survivePoss =>
    show survive (F.behind S) = (survive F).map _
    unfold survive
    rw [len_behind]
    have := fold_behind (behind' S) luckStep (luckStep_behind S) (rng 0 F.recs.length) (F, [], false)
    rw [show ((F.behind S, ([], false)) : Feat × List ℚ × Bool) = behind' S (F, [], false) from rfl, this]
    cases (rng 0 F.recs.length).foldlM (m := Option) luckStep (F, [], false) with
    | none => rfl
    | some T =>
      simp only [Option.map_some, Option.bind_some, Option.bind_eq_bind, Option.pure_def]
      show (if T.1.comments.length = 0 then none else _) = _
      split <;> rfl
  | superFLLocal =>
    show superFLLocal (F.behind S) = (superFLLocal F).map _
    unfold superFLLocal
    rw [len_behind]
    have := fold_behind (behind' S) flStep (flStep_behind S) (rng 1 F.recs.length) (F, ⟨0, 0, .notStart, 0, 0⟩)
    rw [show ((F.behind S, (⟨0, 0, .notStart, 0, 0⟩ : FL)) : Feat × FL) = behind' S (F, ⟨0, 0, .notStart, 0, 0⟩) from rfl, this]
    cases (rng 1 F.recs.length).foldlM (m := Option) flStep (F, ⟨0, 0, .notStart, 0, 0⟩) <;> rfl
  | unknown => rfl

end Feat
end Ms
