import Verif.Lemmas.Hand
import Verif.Properties.Game
import Verif.Model.Bindings

/-! # C69: a hand on a mouse with two buttons -/

namespace Ms.Properties
open Ms Ms.Spec

theorem _root_.Ms.Spec.HandRun.reach {s : MSB} {b : Buttons} (h : HandRun s b) : Reach s := by
  induction h with
  | new hv => exact .new hv
  | move _ _ hs ih => exact .step ih hs
  | reset _ h0 ih => exact .reset ih h0
  | load _ a b c d ih => exact .load ih a b c d

/-- the game is not over -/
def Open (s : MSB) : Prop := s.state = .ready ∨ s.state = .preFlaging ∨ s.state = .playing

/-- one event, without the assumption that the left button was pressed on the board -/
theorem hand_step {s s' : MSB} {b b' : Buttons} {e : Ev} {p : Pos} {a : Option Nat} (hr : Reach s)
    (hf : Open s → Agrees s.mouse b) (hb : HandMove b e b') (h : s.step e p = some (s', a)) :
    (a = none ↔ s.state = .ready ∧ s.mouse = .downUp ∧ e = .rc) ∧ (a ≠ none → Open s' → Agrees s'.mouse b') := by
  by_cases hd : s.state = .ready ∧ s.mouse = .downUp
  · have hm := hf (.inl hd.1)
    unfold MSB.step at h
    simp only [hd.1] at h
    unfold MSB.stepReady at h
    rw [hd.2] at hm
    cases hb with
    | lc => simp [Agrees] at hm
    | rr => simp [Agrees] at hm
    | lr =>
      simp only [hd.2, Agrees, Buttons.mk.injEq, true_and, MSB.ok0, Option.some.injEq, Prod.mk.injEq] at hm h
      obtain ⟨rfl, rfl⟩ := h
      simp [Agrees, hm]
    | rc =>
      simp only [hd.2, Option.some.injEq, Prod.mk.injEq] at h
      obtain ⟨rfl, rfl⟩ := h
      simp [hd]
    | mv =>
      simp only [MSB.ok0, Option.some.injEq, Prod.mk.injEq] at h
      obtain ⟨rfl, rfl⟩ := h
      rw [← hd.2] at hm
      simp [hm]
  · have hfo : MSB.Follows s b := ⟨hf, fun h1 h2 => hd ⟨h1, h2⟩⟩
    rcases MSB.good_step hr hfo hb h with ⟨h1, h2⟩ | ⟨-, -, -, -, h1, h2, h3⟩
    · exact ⟨⟨fun h => absurd h h1, fun h => absurd ⟨h.1, h.2.1⟩ hd⟩, fun _ => h2.agrees⟩
    · exact ⟨⟨fun h => absurd h h1, fun h => absurd ⟨h.1, h.2.1⟩ hd⟩, fun _ _ => h3⟩

theorem _root_.Ms.Spec.HandRun.agrees {s : MSB} {b : Buttons} (h : HandRun s b) : Open s → Agrees s.mouse b := by
  induction h with
  | new _ => intro _; simp [MSB.new, Agrees]
  | move hr hm hs ih => exact (hand_step hr.reach ih hm hs).2 (by simp)
  | reset _ _ _ => intro _; simp [MSB.reset, Agrees]
  | load _ _ _ _ _ ih => exact ih

/-- **C69 (partial)** A hand on a mouse with two buttons - it presses a button that is up, lets go a button that is down, or
moves - on any board and anywhere, with `reset` and new boards only while both buttons are up: as long as the game is not over
the mouse state shown agrees with the buttons, and `step` refuses an event (returns `Err`) in exactly one case: a right press
before the game while the state shows a left press that the game did not take for the start (one made outside the board).
Missing with respect to the property: that no event is refused, which is false (`C69_press_outside_refused`,
`C69_reset_refused`). -/
theorem C69_hand_partial {s : MSB} {b : Buttons} (h : HandRun s b) :
    (s.state = .ready ∨ s.state = .preFlaging ∨ s.state = .playing → Agrees s.mouse b) ∧
      ∀ {e : Ev} {b' : Buttons} {p : Pos} {s' : MSB} {a : Option Nat}, HandMove b e b' → s.step e p = some (s', a) →
        (a = none ↔ s.state = .ready ∧ s.mouse = .downUp ∧ e = .rc) :=
  ⟨h.agrees, fun hb hs => (hand_step h.reach h.agrees hb hs).1⟩

theorem _root_.Ms.Spec.CarefulRun.hand {s : MSB} {b : Buttons} (h : CarefulRun s b) : HandRun s b := by
  induction h with
  | new hv => exact .new hv
  | move _ hm _ _ hs ih => exact .move ih hm hs
  | reset _ h0 ih => exact .reset ih h0
  | load _ a b c d ih => exact .load ih a b c d

theorem _root_.Ms.Spec.CarefulRun.clean {s : MSB} {b : Buttons} (h : CarefulRun s b) : CleanRun s := by
  induction h with
  | new hv => exact .new hv
  | move _ hm _ hc hs ih => exact .step ih hs fun h1 h2 => hc (.inr ⟨h2, h1⟩)
  | reset _ h0 ih => exact .reset ih h0
  | load _ a b c d ih => exact .load ih a b c d

theorem _root_.Ms.Spec.CarefulRun.follows {s : MSB} {b : Buttons} (h : CarefulRun s b) : MSB.Follows s b := by
  refine ⟨h.hand.agrees, ?_⟩
  induction h with
  | new hv => intro _; simp [MSB.new]
  | @move s s' b b' e p k hr hm hp hc hs ih =>
    rcases MSB.good_step hr.hand.reach ⟨hr.hand.agrees, ih⟩ hm hs with ⟨-, h2⟩ | ⟨h1, h2, -, h4, -⟩
    · exact h2.ready
    · have := hc (.inl ⟨h2, h1⟩)
      rw [hr.hand.reach.inv.core.vcells, ← MSB.inRange_iff, h4] at this
      simp at this
  | reset _ _ _ => intro _; simp [MSB.reset]
  | load _ _ _ _ _ ih => exact ih

/-- **C69 (partial, the Python and wasm classes)** there a refused event is a panic, as is a panic of the game.  If the left
button is pressed on the board before the game and the right button on the board during the game, no event of a hand panics. -/
theorem C69_no_panic_partial {s : MSB} {b : Buttons} (h : CarefulRun s b) {e : Ev} {b' : Buttons} {p : Pos}
    (hb : HandMove b e b') (hp : Pointed s p) (hc : Careful s e p) :
    ∃ s' k, s.step e p = some (s', some k) ∧ s.pyStep e p = some s' := by
  have hne := C17_no_panic_partial s h.clean e p hp
    (by rintro (rfl | rfl | rfl) <;> cases hb) (by rintro rfl; cases hb)
  cases hs : s.step e p with
  | none => exact absurd hs hne
  | some x =>
    obtain ⟨s', a⟩ := x
    have h1 := (hand_step h.hand.reach h.hand.agrees hb hs).1
    cases a with
    | none =>
      have h2 := h1.mp rfl
      exact absurd h2.2.1 (h.follows.ready h2.1)
    | some k => exact ⟨s', k, rfl, by simp [MSB.pyStep, hs]⟩

theorem careful_flow {s : MSB} {b b' : Buttons} {ops : List (Ev × Pos)} (h : CarefulRun s b) (hb : HandMoves b ops b')
    (hp : ∀ op ∈ ops, Pointed s op.2 ∧ (op.1 = .lc ∨ op.1 = .rc → op.2 ∈ vcells s.board)) :
    ∃ s', s.pyStepFlow ops = some s' ∧ CarefulRun s' b' := by
  induction hb generalizing s with
  | nil => exact ⟨s, rfl, h⟩
  | @cons b b1 b2 e p l hm _ ih =>
    obtain ⟨h1, h2⟩ := hp _ List.mem_cons_self
    have hc : Careful s e p := fun hh => h2 (by rcases hh with hh | hh <;> simp [hh.1])
    obtain ⟨s1, k, e1, -⟩ := C69_no_panic_partial h hm h1 hc
    have hcr := CarefulRun.move h hm h1 hc e1
    have hfr : s1.board = s.board := ((MSB.step_eff e1).frame h.hand.reach.inv).1
    obtain ⟨s2, e2, e3⟩ := ih hcr fun op hop => by
      obtain ⟨a1, a2⟩ := hp op (List.mem_cons_of_mem _ hop)
      exact ⟨by unfold Pointed at *; rw [hfr]; exact a1, by rw [hfr]; exact a2⟩
    refine ⟨s2, ?_, e3⟩
    unfold MSB.pyStepFlow at *
    simp only [MSB.stepFlow, e1]
    exact e2

/-- **C69 (partial, whole sequences)** `step_flow` of the Python and wasm board classes: for every correctly numbered board
and every sequence of events a hand can make from both buttons up, at cells of the board or at the point outside, with presses
on the board only: no panic, and afterwards the mouse state shown agrees with the buttons unless the game is over. -/
theorem C69_flow_partial {v : View} (hv : Numbered v) {ops : List (Ev × Pos)} {b : Buttons} (hb : HandMoves released ops b)
    (hp : ∀ op ∈ ops, (op.2 ∈ vcells v ∨ op.2 = (v.row, v.col)) ∧ (op.1 = .lc ∨ op.1 = .rc → op.2 ∈ vcells v)) :
    ∃ s, (MSB.new v).pyStepFlow ops = some s ∧
      (s.state = .ready ∨ s.state = .preFlaging ∨ s.state = .playing → Agrees s.mouse b) := by
  obtain ⟨s, e1, e2⟩ := careful_flow (.new hv) hb fun op hop => ⟨(hp op hop).1, (hp op hop).2⟩
  exact ⟨s, e1, e2.hand.agrees⟩

/-- a game with a flag, a chord and a drag out of the board -/
def handSample : List (Ev × Pos) :=
  [(.lc, (0, 0)), (.mv, (0, 1)), (.lr, (3, 4)), (.rc, (1, 2)), (.lc, (1, 2)), (.rr, (1, 2)), (.lr, (0, 0)), (.lc, (0, 0)),
   (.lr, (0, 0)), (.rc, (0, 0)), (.lc, (0, 0)), (.lr, (3, 4)), (.rr, (0, 0)), (.lc, (2, 3))]

/-- the hypotheses of the three theorems are met by a concrete sequence -/
example : HandMoves released handSample ⟨true, false⟩ :=
  .cons .lc <| .cons .mv <| .cons .lr <| .cons .rc <| .cons .lc <| .cons .rr <| .cons .lr <| .cons .lc <| .cons .lr <|
    .cons .rc <| .cons .lc <| .cons .lr <| .cons .rr <| .cons .lc .nil

example : ∀ op ∈ handSample, (op.2 ∈ vcells gameSample.view ∨ op.2 = (gameSample.view.row, gameSample.view.col)) ∧
    (op.1 = .lc ∨ op.1 = .rc → op.2 ∈ vcells gameSample.view) := by decide +kernel

/-- what that sequence does: the game runs, with the left button down -/
example : ((MSB.new gameSample.view).pyStepFlow handSample).map (fun s => (s.state, s.mouse, s.flag, s.left, s.right, s.double)) =
    some (.playing, .downUp, 1, 1, 1, 1) := by decide +kernel

/-- **C69** `step_flow` of the Python and wasm classes is one `step` after the other, each of which must be accepted: it panics
as soon as one of them does. -/
theorem C69_flow_steps (s : MSB) (ops : List (Ev × Pos)) :
    s.pyStepFlow ops = ops.foldlM (m := Option) (fun t op => t.pyStep op.1 op.2) s := by
  induction ops generalizing s with
  | nil => rfl
  | cons op l ih =>
    rw [List.foldlM_cons]
    unfold MSB.pyStepFlow MSB.stepFlow
    cases hs : s.step op.1 op.2 with
    | none => simp [MSB.pyStep, hs]
    | some x =>
      obtain ⟨s', a⟩ := x
      cases a with
      | none => simp [MSB.pyStep, hs]
      | some k =>
        have := ih s'
        unfold MSB.pyStepFlow at this
        simpa [MSB.pyStep, hs] using this

/-- **C69 (refuted, first)** the left button is pressed outside the board before the game and held, then the right one is
pressed: the second event is refused (a panic in the Python class), and the state stays `DownUp` with both buttons down. -/
theorem C69_press_outside_refused {v : View} (hv : Numbered v) : ∃ s, HandRun s ⟨true, false⟩ ∧
    (MSB.new v).step .lc (v.row, v.col) = some (s, some 0) ∧ ∀ p, s.step .rc p = some (s, none) ∧ s.pyStep .rc p = none := by
  have h1 : (MSB.new v).step .lc (v.row, v.col) = some ({ MSB.new v with mouse := .downUp }, some 0) := by
    simp [MSB.step, MSB.new, MSB.stepReady, MSB.inRange]
  refine ⟨_, .move (.new hv) .lc h1, h1, fun p => ?_⟩
  have h2 : ({ MSB.new v with mouse := .downUp } : MSB).step .rc p = some ({ MSB.new v with mouse := .downUp }, none) := by
    simp [MSB.step, MSB.new, MSB.stepReady]
  exact ⟨h2, by simp [MSB.pyStep, h2]⟩

/-- **C69 (refuted, second)** `reset` forgets the buttons: after a reset, in any state, the release of a right button that
was held is refused. -/
theorem C69_reset_refused (s : MSB) (p : Pos) : s.reset.step .rr p = some (s.reset, none) ∧ s.reset.pyStep .rr p = none := by
  have h : s.reset.step .rr p = some (s.reset, none) := by
    simp [MSB.step, MSB.reset, MSB.stepReady]
  exact ⟨h, by simp [MSB.pyStep, h]⟩

end Ms.Properties
