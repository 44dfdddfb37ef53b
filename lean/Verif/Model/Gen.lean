import Verif.Model.Laymine
import Verif.Model.Solvable

/-!
# Laying solvable boards by trial: `laymine_solvable` and `laymine_solvable_thread`
-/

namespace Ms

/-- The loop of `laymine_solvable`, algorithms.rs 776-784, with `fuel = max_times - times` tries left.  `sh k` is the
random shuffle of the `k`-th call of `laymine_op`.  `none`: panic. -/
def laymineSolvableLoop (sh : Nat → List Int → List Int) (row col minenum x0 y0 : Nat) (times : Nat) :
    Nat → Option (Board × Bool)
  | 0 => do
    let b ← laymineOp (sh times) row col minenum x0 y0
    return (b, false)
  | fuel + 1 => do
    let b ← laymineOp (sh times) row col minenum x0 y0
    if ← isSolvable b x0 y0 then return (b, true)
    laymineSolvableLoop sh row col minenum x0 y0 (times + 1) fuel

/-- `laymine_solvable`, algorithms.rs 766-785. -/
def laymineSolvable (sh : Nat → List Int → List Int) (row col minenum x0 y0 maxTimes : Nat) : Option (Board × Bool) :=
  laymineSolvableLoop sh row col minenum x0 y0 0 maxTimes

/-! ## the eight threads -/

/-- `max_time` of the threads, algorithms.rs 708-711: for `ii = 8, …, 1` a thread gets `max_times / ii` tries and
`max_times` is lowered by as many. -/
def budgetsFrom : Nat → Nat → List Nat
  | 0, _ => []
  | ii + 1, m => m / (ii + 1) :: budgetsFrom ii (m - m / (ii + 1))

def budget (maxTimes : Nat) (i : Fin 8) : Nat := (budgetsFrom 8 maxTimes).getD i 0

/-- Where a thread is, algorithms.rs 714-742. -/
inductive Phase
  /-- at the head of the `while` loop (718) -/
  | loop (counter : Nat)
  /-- the flag was seen 0, about to lay a board (725) -/
  | attempt (counter : Nat)
  /-- a solvable board was found, about to lock the flag (733) -/
  | won (board : Board)
  /-- the flag is locked and set, about to send the board (735) -/
  | locked (board : Board)
  /-- after the loop (739) -/
  | final
  | done
  | panicked

/-- The shared state: `flag_exit`, who holds its lock, the messages sent so far (oldest first), where the threads are;
`tried` counts the boards laid by the loops (not part of the code). -/
structure Par where
  flag : Bool
  lock : Option (Fin 8)
  chan : List (Board × Bool)
  ph : Fin 8 → Phase
  tried : Nat

/-- All threads at the head of their loops (a thread that is not spawned yet is one that is not scheduled yet). -/
def Par.init : Par := ⟨false, none, [], fun _ => .loop 0, 0⟩

def Par.move (s : Par) (i : Fin 8) (p : Phase) : Par := { s with ph := fun j => if j = i then p else s.ph j }

/-- One step of one thread, algorithms.rs 714-742.  Everything between two accesses to shared state is one step; the
random shuffle is any permutation. -/
inductive ParStep (row col minenum x0 y0 maxTimes : Nat) : Par → Par → Prop
  /-- 718: `counter < max_time` fails -/
  | exhausted {s i k} : s.ph i = .loop k → budget maxTimes i ≤ k → ParStep _ _ _ _ _ _ s (s.move i .final)
  /-- 720-723: the flag is set, `break` -/
  | stop {s i k} : s.ph i = .loop k → k < budget maxTimes i → s.lock = none → s.flag = true →
      ParStep _ _ _ _ _ _ s (s.move i .final)
  /-- 720: the flag is not set -/
  | go {s i k} : s.ph i = .loop k → k < budget maxTimes i → s.lock = none → s.flag = false →
      ParStep _ _ _ _ _ _ s (s.move i (.attempt k))
  /-- 725: `laymine_op` panics -/
  | layPanic {s i k sh} : s.ph i = .attempt k → (∀ l, (sh l).Perm l) → laymineOp sh row col minenum x0 y0 = none →
      ParStep _ _ _ _ _ _ s (s.move i .panicked)
  /-- 727: `is_solvable` panics -/
  | checkPanic {s i k sh b} : s.ph i = .attempt k → (∀ l, (sh l).Perm l) →
      laymineOp sh row col minenum x0 y0 = some b → isSolvable b x0 y0 = none →
      ParStep _ _ _ _ _ _ s (s.move i .panicked)
  /-- 727: not solvable, next round -/
  | lose {s i k sh b} : s.ph i = .attempt k → (∀ l, (sh l).Perm l) →
      laymineOp sh row col minenum x0 y0 = some b → isSolvable b x0 y0 = some false →
      ParStep _ _ _ _ _ _ s { s.move i (.loop (k + 1)) with tried := s.tried + 1 }
  /-- 727-732: solvable -/
  | win {s i k sh b} : s.ph i = .attempt k → (∀ l, (sh l).Perm l) →
      laymineOp sh row col minenum x0 y0 = some b → isSolvable b x0 y0 = some true →
      ParStep _ _ _ _ _ _ s { s.move i (.won b) with tried := s.tried + 1 }
  /-- 733-734: lock and set the flag -/
  | set {s i b} : s.ph i = .won b → s.lock = none →
      ParStep _ _ _ _ _ _ s { s.move i (.locked b) with flag := true, lock := some i }
  /-- 735-736: send, `break` (which releases the lock) -/
  | send {s i b} : s.ph i = .locked b →
      ParStep _ _ _ _ _ _ s { s.move i .final with lock := none, chan := s.chan ++ [(b, true)] }
  /-- 739-741: lay another board and send it -/
  | last {s i sh b} : s.ph i = .final → (∀ l, (sh l).Perm l) → laymineOp sh row col minenum x0 y0 = some b →
      ParStep _ _ _ _ _ _ s { s.move i .done with chan := s.chan ++ [(b, false)] }
  /-- 739: `laymine_op` panics -/
  | lastPanic {s i sh} : s.ph i = .final → (∀ l, (sh l).Perm l) → laymineOp sh row col minenum x0 y0 = none →
      ParStep _ _ _ _ _ _ s (s.move i .panicked)

/-- `n` steps, in any order of the threads. -/
inductive ParSteps (row col minenum x0 y0 maxTimes : Nat) : Nat → Par → Par → Prop
  | refl {s} : ParSteps _ _ _ _ _ _ 0 s s
  | step {n s t u} : ParSteps row col minenum x0 y0 maxTimes n s t →
      ParStep row col minenum x0 y0 maxTimes t u → ParSteps _ _ _ _ _ _ (n + 1) s u

/-- `laymine_solvable_thread` returns `(b, f)` in the state `s`, algorithms.rs 745-754: all threads are joined and the
first message received is `(b, f)`. -/
def Par.Returns (s : Par) (b : Board) (f : Bool) : Prop := (∀ i, s.ph i = .done) ∧ s.chan.head? = some (b, f)

end Ms
