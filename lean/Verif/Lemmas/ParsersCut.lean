import Verif.Lemmas.ParsersPanic

/-! # Which error a cut file gives -/

namespace Ms.Vid

theorem never_rmvEvents' {e : Fail} (h1 : e ≠ .tooShort) (h2 : e ≠ .invalidParams) (w h : Nat) (first : Bool) :
    Never e (rmvEvents w h first) := by
  have c1 : ∀ {α : Type}, (Except.error Fail.tooShort : Except Fail α) ≠ .error e := fun hh => h1 (by injection hh with hh; exact hh.symm)
  have c2 : ∀ {α : Type}, (Except.error Fail.invalidParams : Except Fail α) ≠ .error e := fun hh => h2 (by injection hh with hh; exact hh.symm)
  intro l
  induction hn : l.length using Nat.strong_induction_on generalizing first l with
  | _ n ih =>
    intro hl
    match l with
    | [] => rw [rmvEvents_nil] at hl; exact c1 hl
    | c :: r =>
      rw [rmvEvents_cons w h first c r] at hl
      split at hl
      · split at hl
        · exact ih _ (by subst hn; simp only [List.length_cons]; omega) first _ rfl hl
        · exact c1 hl
      split at hl
      · split at hl
        · split at hl
          · cases hl
          · rename_i e' he
            simp only [Except.error.injEq] at hl
            rw [hl] at he
            exact ih _ (by subst hn; simp only [List.length_cons]; omega) false _ rfl he
        · exact c1 hl
      split at hl
      · exact c2 hl
      split at hl
      · split at hl
        · exact ih _ (by subst hn; simp only [List.length_cons]; omega) first _ rfl hl
        · exact c1 hl
      split at hl
      · cases hl
      · exact c2 hl

theorem never_mines {e : Fail} (h1 : e ≠ .tooShort) (h2 : e ≠ .panic) (h3 : e ≠ .invalidMine) (h w n : Nat) (b : Board) :
    Never e (avfMines h w n b) ∧ Never e (rmvMines h w n b) ∧ Never e (mvfMines h w n b) := by
  rw [avfMines_eq, rmvMines_eq, mvfMines_eq]
  exact ⟨readMines_never h1 h2 _ _, readMines_never h1 h3 _ _, readMines_never h1 h2 _ _⟩

/-- the closure of `Never .empty` and `Never .notRmv` -/
macro "never'" : tactic => `(tactic| repeat' first
  | exact never_pure _ _ | exact never_fail (by decide) | exact never_u8 (by decide) | exact never_u16 (by decide)
  | exact never_u24 (by decide) | exact never_skip (by decide) _ | exact never_take (by decide) _ | exact never_upTo (by decide) _
  | exact never_avfMark (by decide) _ _ | exact never_avfB (by decide) _ _ | exact never_avfStart (by decide) _ _ _
  | exact never_avfToB (by decide) | exact never_avfEvents (by decide) (by decide) _ | exact never_avfSize (by decide) (by decide)
  | exact never_expect (by decide) _ | exact never_rmvFlags (by decide) _ | exact never_rmvEvents' (by decide) (by decide) _ _ _
  | exact never_mvfEvents (by decide) _ _ _ | exact (never_mines (by decide) (by decide) (by decide) _ _ _ _).1
  | exact (never_mines (by decide) (by decide) (by decide) _ _ _ _).2.1
  | exact (never_mines (by decide) (by decide) (by decide) _ _ _ _).2.2 | assumption
  | refine never_bind ?_ fun _ => ?_ | split)

theorem parseMvf_errors (magic : Nat → Fin 40 → Fin 10) : Never .empty (parseMvf magic) ∧ Never .notRmv (parseMvf magic) := by
  constructor <;> (unfold parseMvf mvf097 mvfBoard; never')

theorem parseAvf_errors (P : Bytes → Option (Option ℚ)) {l : Bytes} (hl : l ≠ []) :
    parseAvf P l ≠ .error .empty ∧ parseAvf P l ≠ .error .notRmv := by
  unfold parseAvf
  simp only [hl, if_false]
  constructor
  · refine (?_ : Never .empty _) l
    never'
  · refine (?_ : Never .notRmv _) l
    never'

theorem rmvMagic_ok6 (x : Bytes) : rmvMagic (42 :: 114 :: 109 :: 118 :: 0 :: 1 :: x) = .ok ((), x) := rfl

theorem parseRmv_errors (x : Bytes) : parseRmv (42 :: 114 :: 109 :: 118 :: 0 :: 1 :: x) ≠ .error .empty ∧
    parseRmv (42 :: 114 :: 109 :: 118 :: 0 :: 1 :: x) ≠ .error .notRmv := by
  unfold parseRmv
  constructor
  · intro h
    rcases bind_error.mp h with h | ⟨a, r, h1, h2⟩
    · rw [rmvMagic_ok6] at h; cases h
    · revert h2
      refine (?_ : Never .empty _) r
      unfold rmvResult rmvStr rmvTail rmvPre
      never'
  · intro h
    rcases bind_error.mp h with h | ⟨a, r, h1, h2⟩
    · rw [rmvMagic_ok6] at h; cases h
    · revert h2
      refine (?_ : Never .notRmv _) r
      unfold rmvResult rmvStr rmvTail rmvPre
      never'

end Ms.Vid
