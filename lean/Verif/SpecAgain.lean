import Verif.Model.Again

/-! # Two videos that look the same

`r.moved k` is the record `r` with its two board ids moved by `k`: it refers to the same boards if `k` boards have been put
before the others. -/

namespace Ms.Spec

/-- the record with its board ids moved by `k` -/
def _root_.Ms.Rec.moved (k : Nat) (r : Rec) : Rec := { r with prior := r.prior + k, next := r.next + k }

/-- Two analysed videos between which no getter tells apart: the same machine, the same start time, and for every event the
same data (time, place, level, counters, path, state of the mouse) and the same boards before and after it. -/
structure LooksSame (A A' : Replay) : Prop where
  machine : A'.msb = A.msb
  start : A'.delta = A.delta
  count : A'.recs.length = A.recs.length
  events : ∀ (i : Nat) (r : Rec), A.recs[i]? = some r → ∃ r' : Rec, A'.recs[i]? = some r' ∧ ({ r' with prior := r.prior, next := r.next } : Rec) = r ∧
    A'.stream[r'.prior]? = A.stream[r.prior]? ∧ A'.stream[r'.next]? = A.stream[r.next]?

/-- what a program can do with the player of a video -/
inductive PlayCall
  | time (t : ℚ)
  | event (i : Nat)
  | poss

/-- what it gets -/
inductive PlayAnswer
  | done (ok : Bool)
  | table (M : List (List (Option ℚ)))
deriving DecidableEq

/-- `set_current_time`, `set_current_event_id`, `get_game_board_poss`; `none` is a panic -/
def PlayCall.run (P : Player) : PlayCall → Option (Player × PlayAnswer)
  | .time t => (P.setTime t).map (·, .done true)
  | .event i => (P.setEvent i).map fun q => (q.1, .done q.2)
  | .poss => P.gameBoardPoss.map fun q => (q.1, .table q.2)

/-- a series of calls: after each one, the answer, the board shown and the time -/
def playAll : Player → List PlayCall → Option (List (PlayAnswer × Option Board × Nat × ℚ))
  | _, [] => some []
  | P, c :: cs => (c.run P).bind fun q => (playAll q.1 cs).map ((q.2, q.1.gameBoard, q.1.cur, q.1.curTime) :: ·)

/-- several features, one after the other -/
def features (dist : Pos → Pos → ℚ) (F : Feat) (fs : List Feature) : Option Feat := fs.foldlM (m := Option) (fun F f => F.run dist f) F

end Ms.Spec
