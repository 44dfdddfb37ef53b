import Verif.Model.Video
import Verif.Lemmas.GameWait

/-! # What one call of `BaseVideo::step` does -/

namespace Ms
open Spec MSB

namespace Live
variable {dist : Pos → Pos → ℚ}

/-- milliseconds of an event in a recording that started in state `old` -/
def stamp (L : Live) (now : Nat) : Nat := if L.msb.state = .ready then 0 else timeMsBetween now L.videoStart

/-- the event appended by a recorded step -/
def newRec (L : Live) (S : List Board) (m : MSB) (a t : Nat) (e : Ev) (pos : Pos) (path : ℚ) : Rec :=
  { time := t, ev := e, x := pos.2 % 65536, y := pos.1 % 65536, useful := a,
    prior := S.length - (if a ≥ 1 then 2 else 1), next := S.length - 1, mouseSt := m.mouse,
    left := m.left, right := m.right, double := m.double, ce := m.ce,
    flag := m.flag, bbbvSolved := m.bbbvSolved, path := path }

/-- the stream after a recorded step -/
def newStream (L : Live) (m : MSB) (a : Nat) : List Board :=
  (if L.stream = [] then [coveredBoard L.height L.width] else L.stream) ++ if a ≥ 1 then [m.gameBoard] else []

/-- the state after a recorded step -/
def recorded (L : Live) (now : Nat) (e : Ev) (pos : Pos) (m : MSB) (a : Nat) (path : ℚ) : Live :=
  { L with
    msb := m, gstate := m.state
    stream := L.newStream m a
    recs := L.recs ++ [L.newRec (L.newStream m a) m a (L.stamp now) e pos path]
    videoStart := if L.msb.state = .ready then now else L.videoStart
    gameStart := if m.state = .playing ∧ L.msb.state ≠ .playing then L.stamp now else L.gameStart
    rtimeMs := if m.state = .win ∨ m.state = .loss then L.stamp now - L.gameStart else L.rtimeMs
    completed := if m.state = .win then true else if m.state = .loss then false else L.completed }

/-- the possible outcomes of `step` that are not panics -/
inductive LiveEff (dist : Pos → Pos → ℚ) (L : Live) (now : Nat) (e : Ev) (pos : Pos) : Live → Bool → Prop
  | over (h : L.msb.state = .loss ∨ L.msb.state = .win ∨ L.msb.state = .display) : LiveEff dist L now e pos L true
  | refused (m : MSB) (h : L.msb.step e (pos.1 / L.pix, pos.2 / L.pix) = some (m, none)) :
      LiveEff dist L now e pos { L with msb := m } false
  | back (m : MSB) (a : Nat) (h : L.msb.step e (pos.1 / L.pix, pos.2 / L.pix) = some (m, some a))
      (hm : m.state = .ready) :
      LiveEff dist L now e pos { L with msb := m, gstate := m.state, stream := [], recs := [] } true
  | saved (m : MSB) (a : Nat) (path : ℚ)
      (h : L.msb.step e (pos.1 / L.pix, pos.2 / L.pix) = some (m, some a)) (hm : m.state ≠ .ready)
      (ho : L.msb.state = .ready ∨ L.msb.state = .preFlaging ∨ L.msb.state = .playing)
      (hp : (if L.msb.state = .playing then L.pathFrom dist pos else some 0) = some path)
      (ht : m.state = .win ∨ m.state = .loss → L.gameStart ≤ L.stamp now) :
      LiveEff dist L now e pos (L.recorded now e pos m a path) true

theorem timeMsBetween_self (t : Nat) : timeMsBetween t t = 0 := by simp [timeMsBetween]

theorem record_eq {L : Live} {old : GState} {a t : Nat} {e : Ev} {pos : Pos}
    (hst : old = .playing → L.stream ≠ []) (hm : L.msb.state ≠ .ready) (hd : L.msb.state ≠ .display) :
    L.record dist old a t e pos =
      (if old = .playing then L.pathFrom dist pos else some 0).map fun path =>
        { L with stream := L.newStream L.msb a,
                 recs := L.recs ++ [L.newRec (L.newStream L.msb a) L.msb a t e pos path] } := by
  have hc : (if old ≠ .playing ∧ L.stream = [] ∧ (L.msb.state = .preFlaging ∨ L.msb.state = .playing ∨
        L.msb.state = .win ∨ L.msb.state = .loss) then [coveredBoard L.height L.width] else L.stream) =
      if L.stream = [] then [coveredBoard L.height L.width] else L.stream := by
    by_cases hs : L.stream = []
    · rw [if_pos hs, if_pos]
      refine ⟨fun h => hst h hs, hs, ?_⟩
      cases h : L.msb.state <;> simp_all
    · rw [if_neg hs, if_neg (fun h => hs h.2.1)]
  unfold record
  simp only [hc]
  cases hp : (if old = GState.playing then L.pathFrom dist pos else some 0) with
  | none => rfl
  | some path =>
    simp only [Option.bind_some, Option.map_some]
    have hl : 1 ≤ (if L.stream = [] then [coveredBoard L.height L.width] else L.stream).length := by
      split
      · simp
      · rename_i h; exact List.length_pos_iff.mpr h
    have hS : (if a ≥ 1 then (if L.stream = [] then [coveredBoard L.height L.width] else L.stream) ++ [L.msb.gameBoard]
        else (if L.stream = [] then [coveredBoard L.height L.width] else L.stream)) = L.newStream L.msb a := by
      unfold newStream; split <;> simp
    rw [hS]
    have hlen : ¬ (L.newStream L.msb a).length < (if a ≥ 1 then 2 else 1) := by
      unfold newStream
      rw [List.length_append]
      by_cases ha : a ≥ 1
      · simp only [if_pos ha, List.length_cons, List.length_nil]; omega
      · simp only [if_neg ha]; omega
    rw [if_neg hlen]
    rfl

theorem step_saved {L : Live} {now : Nat} {e : Ev} {pos : Pos} {m : MSB} {a : Nat} (hg : L.msb.GInv)
    (hst : L.msb.state = .playing → L.stream ≠ []) (hpix : L.pix ≠ 0)
    (ho : L.msb.state = .ready ∨ L.msb.state = .preFlaging ∨ L.msb.state = .playing)
    (h : L.msb.step e (pos.1 / L.pix, pos.2 / L.pix) = some (m, some a)) (hm : m.state ≠ .ready) :
    L.step dist now e pos =
      if (m.state = .win ∨ m.state = .loss) ∧ L.stamp now < L.gameStart then none
      else (if L.msb.state = .playing then L.pathFrom dist pos else some 0).map fun path =>
        (L.recorded now e pos m a path, true) := by
  obtain ⟨g1, g2, g3⟩ := MSB.step_state hg h
  have hold : ¬ (L.msb.state = .loss ∨ L.msb.state = .win ∨ L.msb.state = .display) := by
    rcases ho with h | h | h <;> simp [h]
  unfold step
  simp only [if_neg hold, if_neg hpix, h]
  cases hs : m.state with
  | display => exact absurd hs g3
  | ready => exact absurd hs hm
  | preFlaging =>
    have hnp : L.msb.state ≠ .playing := fun hp => by rcases g2 hp with h | h | h <;> rw [hs] at h <;> cases h
    have hc : ¬ ((GState.preFlaging = .win ∨ GState.preFlaging = .loss) ∧ L.stamp now < L.gameStart) := by simp
    rw [if_neg hc]
    simp only
    rw [record_eq (by intro hp; exact absurd hp hnp) (by split <;> simp [hs]) (by split <;> simp [hs])]
    rw [if_neg hnp, if_neg hnp]
    rcases ho with h | h | h
    · simp [recorded, newStream, newRec, hs, h, timeMsBetween_self, stamp]
    · simp [recorded, newStream, newRec, hs, h, stamp]
    · exact absurd h hnp
  | playing =>
    have hnr : L.msb.state ≠ .ready := fun hp => by rcases g1 hp with h | h <;> rw [hs] at h <;> cases h
    have hc : ¬ ((GState.playing = .win ∨ GState.playing = .loss) ∧ L.stamp now < L.gameStart) := by simp
    rw [if_neg hc]
    simp only [if_neg hnr]
    rcases ho with h | h | h
    · exact absurd h hnr
    · rw [record_eq (by simp [h]) (by simp [h, hs]) (by simp [h, hs])]
      simp [recorded, newStream, newRec, hs, h, stamp]
    · rw [record_eq (by simpa [h] using hst h) (by simp [h, hs]) (by simp [h, hs])]
      simp [recorded, newStream, newRec, hs, h, stamp, Option.map_map, Function.comp_def]
      rfl
  | loss =>
    have hnr : L.msb.state ≠ .ready := fun hp => by rcases g1 hp with h | h <;> rw [hs] at h <;> cases h
    have hstamp : L.stamp now = timeMsBetween now L.videoStart := by unfold stamp; rw [if_neg hnr]
    simp only [hstamp]
    by_cases ht : timeMsBetween now L.videoStart < L.gameStart
    · simp [ht]
    · simp only [ht, if_false, and_false]
      rw [record_eq (by intro hp; simpa [hp] using hst hp) (by simp [hs]) (by simp [hs])]
      simp [recorded, newStream, newRec, hs, hnr, stamp, Option.map_map, Function.comp_def]
      rfl
  | win =>
    have hnr : L.msb.state ≠ .ready := fun hp => by rcases g1 hp with h | h <;> rw [hs] at h <;> cases h
    have hstamp : L.stamp now = timeMsBetween now L.videoStart := by unfold stamp; rw [if_neg hnr]
    simp only [hstamp]
    by_cases ht : timeMsBetween now L.videoStart < L.gameStart
    · simp [ht]
    · simp only [ht, if_false, and_false]
      rw [record_eq (by intro hp; simpa [hp] using hst hp) (by simp [hs]) (by simp [hs])]
      simp [recorded, newStream, newRec, hs, hnr, stamp, Option.map_map, Function.comp_def]
      rfl

theorem step_eff {L : Live} {now : Nat} {e : Ev} {pos : Pos} (hg : L.msb.GInv)
    (hst : L.msb.state = .playing → L.stream ≠ []) {L' : Live} {ok : Bool}
    (h : L.step dist now e pos = some (L', ok)) : LiveEff dist L now e pos L' ok := by
  by_cases ho : L.msb.state = .loss ∨ L.msb.state = .win ∨ L.msb.state = .display
  · unfold step at h
    simp only [if_pos ho, Option.some.injEq, Prod.mk.injEq] at h
    obtain ⟨rfl, rfl⟩ := h
    exact .over ho
  by_cases hpix : L.pix = 0
  · unfold step at h
    simp [if_neg ho, hpix] at h
  have ho' : L.msb.state = .ready ∨ L.msb.state = .preFlaging ∨ L.msb.state = .playing := by
    cases hh : L.msb.state <;> simp_all
  cases hm : L.msb.step e (pos.1 / L.pix, pos.2 / L.pix) with
  | none =>
    unfold step at h
    simp [if_neg ho, hpix, hm] at h
  | some x =>
    obtain ⟨m, r⟩ := x
    cases r with
    | none =>
      unfold step at h
      simp only [if_neg ho, hpix, if_false, hm, Option.some.injEq, Prod.mk.injEq] at h
      obtain ⟨rfl, rfl⟩ := h
      exact .refused m hm
    | some a =>
      by_cases hs : m.state = .ready
      · unfold step at h
        simp only [if_neg ho, hpix, if_false, hm, hs, Option.some.injEq, Prod.mk.injEq] at h
        obtain ⟨rfl, rfl⟩ := h
        have h' := LiveEff.back (dist := dist) (now := now) m a hm hs
        rw [hs] at h'
        exact h'
      · rw [step_saved hg hst hpix ho' hm hs] at h
        split at h
        · simp at h
        rename_i ht
        simp only [Option.map_eq_some_iff, Prod.mk.injEq] at h
        obtain ⟨path, hp, rfl, rfl⟩ := h
        exact .saved m a path hm hs ho' hp (fun hw => by
          by_contra hlt; exact ht ⟨hw, by omega⟩)

end Live
end Ms
