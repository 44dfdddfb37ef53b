import Verif.Lemmas.Again
import Verif.Properties.Features

/-! # C90: analysing a video again -/

namespace Ms.Properties
open Ms Ms.Spec

variable {dist : Pos → Pos → ℚ} {v : View} {h w pix : Nat} {evs : List RawEv} {A : Replay}

/-- The first call of `analyse` is the general one, on the events as the parsers leave them. -/
theorem C90_first : analyse dist v h w pix evs = reanalyse dist v h w pix (evs.map RawEv.parsed) [] 0 := analyse_reanalyse v evs

/-- a further call, on events that differ from those of the first only in what `analyse` does not read -/
theorem reanalyse_behind (hA : analyse dist v h w pix evs = some A) (S : List Board) (R : List Rec)
    (hR : List.Forall₂ SameInput A.recs R) : reanalyse dist v h w pix R S A.delta = some (A.behind S A.delta) := by
  obtain ⟨Rs, e1, e2⟩ := fold_again (S := S) evs _ A (by simp) hA
  simp only [List.nil_append] at e1
  rw [← e1] at e2
  obtain ⟨d', f1, -, f3⟩ := e2 R A.delta hR
  have hd : d' = A.delta := by rcases f3 with f | f <;> exact f
  rw [hd] at f1
  exact f1

theorem analyseTimes_behind (hA : analyse dist v h w pix evs = some A) : ∀ (n : Nat) (S : List Board) (R : List Rec),
    List.Forall₂ SameInput A.recs R → ∃ S', S'.length = S.length + n * A.stream.length ∧
      analyseTimes dist v h w pix (n + 1) { A with stream := S, recs := R } = some (A.behind S' A.delta) := by
  intro n
  induction n with
  | zero =>
    intro S R hR
    refine ⟨S, by simp, ?_⟩
    unfold analyseTimes
    rw [show reanalyse dist v h w pix R S A.delta = _ from reanalyse_behind hA S R hR]
    rfl
  | succ n ih =>
    intro S R hR
    obtain ⟨S', h1, h2⟩ := ih (S ++ A.stream) (A.recs.map (Rec.moved S.length)) (by
      rw [List.forall₂_map_right_iff, List.forall₂_same]
      exact fun r _ => moved_input _ r)
    refine ⟨S', by rw [h1, List.length_append, Nat.add_mul]; omega, ?_⟩
    unfold analyseTimes
    rw [show reanalyse dist v h w pix R S A.delta = _ from reanalyse_behind hA S R hR]
    exact h2

/-- after any number of further calls the video is the one of the first call with further boards before its boards -/
theorem times_behind (hA : analyse dist v h w pix evs = some A) (n : Nat) : ∃ S, S.length = n * A.stream.length ∧
    analyseTimes dist v h w pix n A = some (A.behind S A.delta) := by
  cases n with
  | zero =>
    refine ⟨[], by simp, ?_⟩
    unfold analyseTimes Replay.behind
    have : A.recs.map (Rec.moved 0) = A.recs := (List.map_congr_left fun r _ => by simp [Rec.moved]).trans (List.map_id _)
    simp only [List.length_nil, List.nil_append, this]
  | succ n =>
    obtain ⟨S', h1, h2⟩ := analyseTimes_behind hA n A.stream A.recs (List.forall₂_same.mpr fun r _ => ⟨rfl, rfl, rfl, rfl, rfl, rfl⟩)
    exact ⟨S', by rw [h1, Nat.add_mul]; omega, h2⟩

/-- **C90** calling `analyse` again, any number of times, succeeds and changes nothing one can see: the machine, the start time,
every event with its counters, its path and the boards before and after it.  (The stream of boards grows each time.) -/
theorem C90_again (hA : analyse dist v h w pix evs = some A) (n : Nat) :
    ∃ A', analyseTimes dist v h w pix n A = some A' ∧ LooksSame A A' ∧ A'.stream.length = (n + 1) * A.stream.length := by
  obtain ⟨S, h1, h2⟩ := times_behind hA n
  refine ⟨_, h2, ⟨rfl, rfl, by simp [Replay.behind], fun i r hr => ⟨r.moved S.length, ?_, rfl, ?_, ?_⟩⟩, ?_⟩
  · show (A.recs.map (Rec.moved S.length))[i]? = _
    rw [List.getElem?_map, hr]
    rfl
  · exact behind_get S A.stream r.prior
  · exact behind_get S A.stream r.next
  · show (S ++ A.stream).length = _
    rw [List.length_append, h1, Nat.add_mul]
    omega

/-! ### playing -/

theorem run_call_behind (S : List GameBoard) (P : Player) (c : PlayCall) :
    c.run (P.behind S) = (c.run P).map fun q => (q.1.behind S, q.2) := by
  cases c with
  | time t =>
    unfold PlayCall.run
    simp only
    rw [setTime_behind, Option.map_map, Option.map_map]
    rfl
  | event i =>
    unfold PlayCall.run
    simp only
    rw [setEvent_behind, Option.map_map, Option.map_map]
    rfl
  | poss =>
    unfold PlayCall.run
    simp only
    rw [gameBoardPoss_behind, Option.map_map, Option.map_map]
    rfl

theorem playAll_behind (S : List GameBoard) : ∀ (cs : List PlayCall) (P : Player), playAll (P.behind S) cs = playAll P cs := by
  intro cs
  induction cs with
  | nil => intro P; rfl
  | cons c cs ih =>
    intro P
    unfold playAll
    rw [run_call_behind]
    cases c.run P with
    | none => rfl
    | some q =>
      simp only [Option.map_some, Option.bind_some]
      rw [ih, gameBoard_behind]
      rfl

/-- **C90** a video analysed again plays as before: every series of jumps to times and to events and of requests for
probabilities gives the same answers, boards, positions and times (or panics in both). -/
theorem C90_player (hA : analyse dist v h w pix evs = some A) (n : Nat) {A' : Replay}
    (hA' : analyseTimes dist v h w pix n A = some A') (mines : Nat) (cs : List PlayCall) :
    playAll (A'.player h w mines) cs = playAll (A.player h w mines) cs ∧
      (A'.player h w mines).gameBoard = (A.player h w mines).gameBoard ∧
      (A'.player h w mines).endTime = (A.player h w mines).endTime := by
  obtain ⟨S, -, h2⟩ := times_behind hA n
  obtain rfl : A.behind S A.delta = A' := by rw [h2] at hA'; exact Option.some.inj hA'
  have e : (A.behind S A.delta).player h w mines = (A.player h w mines).behind (S.map fun g => (GameBoard.new mines).setBoard g) := by
    unfold Replay.player Player.behind Replay.behind
    simp only [List.map_append, List.length_map]
  rw [e]
  exact ⟨playAll_behind _ _ _, gameBoard_behind _ _, endTime_behind _ _⟩

/-! ### features -/

theorem features_behind (S : List GameBoard) : ∀ (fs : List Feature) (F : Feat),
    features dist (F.behind S) fs = (features dist F fs).map (Feat.behind S) := by
  intro fs
  induction fs with
  | nil => intro F; rfl
  | cons f fs ih =>
    intro F
    unfold features at ih ⊢
    rw [List.foldlM_cons, List.foldlM_cons, Feat.run_behind]
    cases F.run dist f with
    | none => rfl
    | some F' => exact ih F'

/-- **C90** a video analysed again gets the same comments from every series of features (or all panic as before). -/
theorem C90_features (hA : analyse dist v h w pix evs = some A) (n : Nat) {A' : Replay}
    (hA' : analyseTimes dist v h w pix n A = some A') (mines : Nat) (fs : List Feature) :
    (features dist (A'.feat mines pix) fs).map (·.comments) = (features dist (A.feat mines pix) fs).map (·.comments) := by
  obtain ⟨S, -, h2⟩ := times_behind hA n
  obtain rfl : A.behind S A.delta = A' := by rw [h2] at hA'; exact Option.some.inj hA'
  have e : (A.behind S A.delta).feat mines pix = (A.feat mines pix).behind (S.map fun g => (GameBoard.new mines).setBoard g) := by
    unfold Replay.feat Feat.behind Replay.behind
    simp only [List.map_append, List.length_map, List.map_map]
    rfl
  rw [e, features_behind, Option.map_map]
  rfl

/-- not void: a video of three events, analysed three more times -/
example : ((analyse taxi guessBoard.view 1 2 10 (clicksAt [(.mv, 0, 1), (.lc, 0, 1), (.lr, 0, 1)])).bind fun A =>
    (analyseTimes taxi guessBoard.view 1 2 10 3 A).map fun A' => (A.stream.length, A'.stream.length, A.recs.map (·.next), A'.recs.map (·.next))) =
    some (2, 8, [0, 0, 1], [6, 6, 7]) := by
  decide +kernel

end Ms.Properties
