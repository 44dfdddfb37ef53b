import Verif.Lemmas.GameStep

/-! # Which events begin and end a game -/

namespace Ms.MSB
open Ms

theorem rightClick_state {s s' : MSB} {p : Pos} {r : Option Nat} (h : s.rightClick p = some (s', r)) : s'.state = s.state := by
  unfold rightClick at h
  simp only at h
  repeat' split at h
  all_goals first
    | (cases h; done)
    | (simp only [Option.some.injEq, Prod.mk.injEq] at h
       obtain ⟨rfl, -⟩ := h
       first | rfl | (split <;> rfl))

theorem step_begins {s m : MSB} {e : Ev} {p : Pos} {a : Nat} (hs : s.state = .ready) (he : e ≠ .pf)
    (h : s.step e p = some (m, some a)) (hm : m.state ≠ .ready) : e = .lc ∨ e = .rc := by
  rw [step_eq, hs] at h
  simp only at h
  cases e <;> simp only [reduceCtorEq, or_true, true_or, or_false, or_self, ne_eq, not_true_eq_false] at he ⊢ <;>
    (unfold stepReady at h; cases hmo : s.mouse <;> rw [hmo] at h <;>
      simp only [Flow.run, ok0, Option.some.injEq, Prod.mk.injEq, reduceCtorEq, and_false] at h <;>
      (obtain ⟨rfl, -⟩ := h; exact hm hs))

theorem step_quiet {s m : MSB} {e : Ev} {p : Pos} {r : Option Nat} (hs : s.state ≠ .win ∧ s.state ≠ .loss)
    (he : e ∈ [Ev.mv, .lc, .rc, .mc, .cc]) (h : s.step e p = some (m, r)) : m.state ≠ .win ∧ m.state ≠ .loss := by
  have hplay : ∀ {s : MSB}, (s.state ≠ .win ∧ s.state ≠ .loss) → s.stepPlaying e p = some (m, r) →
      m.state ≠ .win ∧ m.state ≠ .loss := by
    intro s hs h
    unfold stepPlaying at h
    simp only [List.mem_cons, List.not_mem_nil, or_false] at he
    rcases he with rfl | rfl | rfl | rfl | rfl <;> simp only at h <;> (repeat' split at h) <;>
      first
      | (cases h; done)
      | (simp only [Option.some.injEq, Prod.mk.injEq] at h; obtain ⟨rfl, -⟩ := h; exact hs)
      | (rw [rightClick_state h]; exact hs)
  rw [step_eq] at h
  cases hst : s.state with
  | ready =>
    rw [hst] at h
    simp only at h
    unfold stepReady at h
    simp only [List.mem_cons, List.not_mem_nil, or_false] at he
    rcases he with rfl | rfl | rfl | rfl | rfl <;> simp only at h <;> (repeat' split at h) <;>
      first
      | (rw [run_ofClick] at h; rw [rightClick_state h]; exact ⟨by simp, by simp⟩)
      | (simp only [Flow.run, ok0, Option.some.injEq, Prod.mk.injEq] at h; obtain ⟨rfl, -⟩ := h
         first | exact hs | exact ⟨by simp, by simp⟩ | (simp [hst]))
      | (cases h; done)
  | preFlaging =>
    rw [hst] at h
    simp only at h
    unfold stepPreFlaging at h
    simp only [List.mem_cons, List.not_mem_nil, or_false] at he
    rcases he with rfl | rfl | rfl | rfl | rfl <;> simp only at h <;> (repeat' split at h) <;>
      first
      | (rw [run_ofClick] at h; rw [rightClick_state h]; first | exact hs | exact ⟨by simp, by simp⟩)
      | (simp only [Flow.run, ok0, Option.some.injEq, Prod.mk.injEq] at h; obtain ⟨rfl, -⟩ := h
         first | exact hs | exact ⟨by simp, by simp⟩ | (split <;> simp [hst]))
      | (cases h; done)
      | (simp only [Flow.run] at h; exact hplay (by simp [hst]) h)
      | (simp only [Flow.run] at h; exact hplay hs h)
  | playing =>
    rw [hst] at h
    exact hplay hs h
  | win => exact absurd hst hs.1
  | loss => exact absurd hst hs.2
  | display =>
    rw [hst] at h
    simp only [Flow.run, Option.some.injEq, Prod.mk.injEq] at h
    obtain ⟨rfl, -⟩ := h
    exact hs

end Ms.MSB
