import Verif.Lemmas.Gen

/-! # C34: boards laid until one is solvable -/

namespace Ms.Properties
open Ms Ms.Spec

/-! ## the single thread -/

/-- C34, single thread: `laymine_solvable` returns for all shuffles; the board has the size, the mines and right
numbers and the start shows 0; if the flag is true `is_solvable` accepts the board, and it can be solved without
guessing; if the flag is false none of the `max_times` boards laid before the last was accepted. -/
theorem laymine_solvable_spec (sh : Nat → List Int → List Int) (hsh : ∀ k l, (sh k l).Perm l) (r c m x0 y0 maxTimes : Nat)
    (hr : 3 ≤ r) (hc : 3 ≤ c) (hx : x0 < r) (hy : y0 < c) (hm : m ≤ r * c - (startBlock r c x0 y0).card) :
    ∃ b f, laymineSolvable sh r c m x0 y0 maxTimes = some (b, f) ∧ Ordered r c m x0 y0 b ∧
      (f = true → isSolvable b x0 y0 = some true ∧ NoGuess r c b (x0, y0)) ∧
      (f = false → ∀ k < maxTimes, ∃ b', laymineOp (sh k) r c m x0 y0 = some b' ∧ isSolvable b' x0 y0 = some false) := by
  unfold laymineSolvable
  have main : ∀ fuel times, ∃ b f, laymineSolvableLoop sh r c m x0 y0 times fuel = some (b, f) ∧ Ordered r c m x0 y0 b ∧
      (f = true → isSolvable b x0 y0 = some true ∧ NoGuess r c b (x0, y0)) ∧
      (f = false → ∀ k, times ≤ k → k < times + fuel →
        ∃ b', laymineOp (sh k) r c m x0 y0 = some b' ∧ isSolvable b' x0 y0 = some false) := by
    intro fuel
    induction fuel with
    | zero =>
      intro times
      obtain ⟨b, h1, h2⟩ := laymineOp_ordered (hsh times) hr hc hx hy hm
      exact ⟨b, false, by unfold laymineSolvableLoop; rw [h1]; rfl, h2, by simp, fun _ k h3 h4 => by omega⟩
    | succ fuel ih =>
      intro times
      obtain ⟨b, h1, h2⟩ := laymineOp_ordered (hsh times) hr hc hx hy hm
      obtain ⟨v, h3, h4⟩ := ordered_total h2 hr hc hx hy
      unfold laymineSolvableLoop
      rw [h1]
      simp only [Option.bind_eq_bind, Option.bind_some, h3]
      cases v with
      | true => exact ⟨b, true, rfl, h2, fun _ => ⟨h3, h4 rfl⟩, by simp⟩
      | false =>
        obtain ⟨b', f, g1, g2, g3, g4⟩ := ih (times + 1)
        refine ⟨b', f, by simpa using g1, g2, g3, fun hf k hk1 hk2 => ?_⟩
        rcases Nat.eq_or_lt_of_le hk1 with rfl | hk
        · exact ⟨b, h1, h3⟩
        · exact g4 hf k hk (by omega)
  obtain ⟨b, f, h1, h2, h3, h4⟩ := main maxTimes 0
  exact ⟨b, f, h1, h2, h3, fun hf k hk => h4 hf k (by omega) (by omega)⟩

/-- A case that meets the hypotheses: an expert board. -/
example : (3 ≤ 16 ∧ 3 ≤ 30 ∧ 3 < 16 ∧ 20 < 30) ∧ 99 ≤ 16 * 30 - (startBlock 16 30 3 20).card := by
  refine ⟨by decide, ?_⟩
  have : (startBlock 16 30 3 20).card ≤ 9 := by rw [startBlock_card]; decide
  omega

/-! ## the eight threads -/

/-- C34: whatever the schedule of the eight threads and the shuffles, `laymine_solvable_thread` never panics, and when
all threads are joined it returns a board with the size, the mines, right numbers and a start showing 0; if the flag is
true `is_solvable` accepts the board, so it can be solved without guessing. -/
theorem laymine_solvable_thread_sound (r c m x0 y0 maxTimes : Nat)
    (hr : 3 ≤ r) (hc : 3 ≤ c) (hx : x0 < r) (hy : y0 < c) (hm : m ≤ r * c - (startBlock r c x0 y0).card)
    (n : Nat) (s : Par) (hs : ParSteps r c m x0 y0 maxTimes n Par.init s) :
    (∀ i, s.ph i ≠ .panicked) ∧
    ((∀ i, s.ph i = .done) → ∃ b f, s.Returns b f ∧ Ordered r c m x0 y0 b ∧
      (f = true → isSolvable b x0 y0 = some true ∧ NoGuess r c b (x0, y0))) := by
  obtain ⟨h, -, -⟩ := parSteps_inv hr hc hx hy hm parInv_init hs
  refine ⟨h.alive, fun hd => ?_⟩
  have hne := h.done 0 (hd 0)
  obtain ⟨⟨b, f⟩, l, hl⟩ := List.exists_cons_of_ne_nil hne
  have hmsg := h.msg (b, f) (by rw [hl]; simp)
  refine ⟨b, f, ⟨hd, by rw [hl]; rfl⟩, hmsg.1, fun hf => ⟨hmsg.2 hf, ?_⟩⟩
  obtain ⟨v, h1, h2⟩ := ordered_total hmsg.1 hr hc hx hy
  rw [hmsg.2 hf] at h1
  exact h2 (by simpa using h1.symm)

/-- C34: no schedule runs forever, none gets stuck before all threads are done, and at most `max_times` boards are
tried. -/
theorem laymine_solvable_thread_terminates (r c m x0 y0 maxTimes : Nat)
    (hr : 3 ≤ r) (hc : 3 ≤ c) (hx : x0 < r) (hy : y0 < c) (hm : m ≤ r * c - (startBlock r c x0 y0).card)
    (n : Nat) (s : Par) (hs : ParSteps r c m x0 y0 maxTimes n Par.init s) :
    n ≤ 2 * maxTimes + 40 ∧ s.tried ≤ maxTimes ∧
      ((¬ ∀ i, s.ph i = .done) → ∃ t, ParStep r c m x0 y0 maxTimes s t) := by
  obtain ⟨h, h1, -⟩ := parSteps_inv hr hc hx hy hm parInv_init hs
  rw [todo_init] at h1
  have := h.tried
  exact ⟨by omega, by omega, fun hn => par_progress hr hc hx hy hm h hn⟩

/-- A flaw: a thread that has run out of tries sends its last, untested board with the flag `false`, and the caller
takes the *first* message.  So whenever a solvable board can be laid at all there is a schedule in which a solvable
board is found and sent, and `laymine_solvable_thread` nevertheless returns another board with the flag `false`. -/
theorem laymine_solvable_thread_loses (r c m x0 y0 : Nat)
    (hr : 3 ≤ r) (hc : 3 ≤ c) (hx : x0 < r) (hy : y0 < c) (hm : m ≤ r * c - (startBlock r c x0 y0).card)
    (sh : List Int → List Int) (hsh : ∀ l, (sh l).Perm l) (b : Board)
    (hb : laymineOp sh r c m x0 y0 = some b) (hsol : isSolvable b x0 y0 = some true) :
    ∃ n s b', ParSteps r c m x0 y0 1 n Par.init s ∧ s.Returns b' false ∧ (b, true) ∈ s.chan := by
  let s1 := Par.init.move 0 .final
  let s2 : Par := { s1.move 0 .done with chan := s1.chan ++ [(b, false)] }
  let s3 := s2.move 7 (.attempt 0)
  let s4 : Par := { s3.move 7 (.won b) with tried := s3.tried + 1 }
  let s5 : Par := { s4.move 7 (.locked b) with flag := true, lock := some 7 }
  let s6 : Par := { s5.move 7 .final with lock := none, chan := s5.chan ++ [(b, true)] }
  have e1 : ParStep r c m x0 y0 1 Par.init s1 := .exhausted (i := 0) (k := 0) rfl (by decide)
  have e2 : ParStep r c m x0 y0 1 s1 s2 := .last (i := 0) rfl hsh hb
  have e3 : ParStep r c m x0 y0 1 s2 s3 := .go (i := 7) (k := 0) rfl (by decide) rfl rfl
  have e4 : ParStep r c m x0 y0 1 s3 s4 := .win (i := 7) (k := 0) rfl hsh hb hsol
  have e5 : ParStep r c m x0 y0 1 s4 s5 := .set (i := 7) rfl rfl
  have e6 : ParStep r c m x0 y0 1 s5 s6 := .send (i := 7) rfl
  have hs : ParSteps r c m x0 y0 1 6 Par.init s6 := (((((ParSteps.refl.step e1).step e2).step e3).step e4).step e5).step e6
  obtain ⟨n, t, g1, g2, l, g3⟩ := par_finish hr hc hx hy hm parInv_init hs
  have hc6 : s6.chan = [(b, false), (b, true)] := rfl
  rw [hc6] at g3
  exact ⟨n, t, b, g1, ⟨g2, by rw [← g3]; rfl⟩, by rw [← g3]; simp⟩

/-- The hypotheses are met: a solvable board can be laid. -/
example : ∃ b, laymineOp id 5 4 2 0 0 = some b ∧ isSolvable b 0 0 = some true := by
  refine ⟨_, rfl, by decide +kernel⟩

end Ms.Properties
