import Verif.Lemmas.Parsers

/-! # More bytes at the end: the parsers of AVF, RMV and MVF files -/

namespace Ms.Vid

variable {α β : Type}

theorem stable_guard {p : Rd α} {e : Fail} (he : e.short) (hp : Stable p) : Stable (fun l => if l = [] then .error e else p l) := by
  intro l x
  by_cases hl : l = []
  · simp only [hl, if_true]
    refine ⟨fun a r h => (by cases h), fun e' he' h => ?_⟩
    simp only [Except.error.injEq] at h
    exact absurd (h ▸ he) he'
  · have : l ++ x ≠ [] := by simp [hl]
    simp only [if_neg hl, if_neg this]
    exact hp l x

theorem stable_expect (c : Nat) : Stable (expect c) := by
  intro l x
  cases l with
  | nil =>
    refine ⟨fun a r h => (by cases h), fun e he h => ?_⟩
    simp only [expect, Except.error.injEq] at h
    exact absurd (.inr (.inr h.symm)) he
  | cons b r =>
    simp only [expect, List.cons_append]
    split
    · refine ⟨fun a r' h => ?_, fun e he h => by cases h⟩
      simp only [Except.ok.injEq, Prod.mk.injEq] at h ⊢
      exact ⟨h.1, by rw [h.2]⟩
    · exact ⟨fun a r' h => (by cases h), fun e he h => h⟩

theorem stable_avfMines (h w n : Nat) (b : Board) : Stable (avfMines h w n b) := by
  rw [avfMines_eq]; exact stable_readMines _ _

theorem stable_rmvMines (h w n : Nat) (b : Board) : Stable (rmvMines h w n b) := by
  rw [rmvMines_eq]; exact stable_readMines _ _

theorem stable_mvfMines (h w n : Nat) (b : Board) : Stable (mvfMines h w n b) := by
  rw [mvfMines_eq]; exact stable_readMines _ _

theorem stable_rmvFlags : ∀ n, Stable (rmvFlags n)
  | 0 => stable_pure _
  | n + 1 => stable_bind stable_u8 fun _ => stable_bind stable_u8 fun _ => stable_bind (stable_rmvFlags n) fun _ =>
    stable_pure _

/-- one round of `rmvEvents` -/
theorem rmvEvents_cons (w h : Nat) (first : Bool) (c : Nat) (r : Bytes) : rmvEvents w h first (c :: r) =
    if c = 0 then
      match r with
      | _ :: _ :: _ :: _ :: r => rmvEvents w h first r
      | _ => .error .tooShort
    else if c ≤ 7 then
      match r with
      | t1 :: t2 :: t3 :: _ :: x1 :: x2 :: y1 :: y2 :: r =>
        match rmvEvents w h false r with
        | .ok (es, r') =>
          .ok ((if first then [⟨((t1 * 65536 + t2 * 256 + t3 : Nat) : Int), "lc",
                (rmvPoint w h (x1 * 256 + x2) (y1 * 256 + y2)).1, (rmvPoint w h (x1 * 256 + x2) (y1 * 256 + y2)).2⟩] else []) ++
            ⟨((t1 * 65536 + t2 * 256 + t3 : Nat) : Int), rmvName c,
              (rmvPoint w h (x1 * 256 + x2) (y1 * 256 + y2)).1, (rmvPoint w h (x1 * 256 + x2) (y1 * 256 + y2)).2⟩ :: es, r')
        | .error e => .error e
      | _ => .error .tooShort
    else if c = 8 then .error .invalidParams
    else if c ≤ 14 ∨ 18 ≤ c ∧ c ≤ 27 then
      match r with
      | _ :: _ :: r => rmvEvents w h first r
      | _ => .error .tooShort
    else if c ≤ 17 then .ok ([], r)
    else .error .invalidParams := by
  rw [rmvEvents.eq_def]
  rfl

theorem rmvEvents_nil (w h : Nat) (first : Bool) : rmvEvents w h first [] = .error .tooShort := by rw [rmvEvents.eq_def]

theorem stable_rmvEvents (w h : Nat) (first : Bool) : Stable (rmvEvents w h first) := by
  intro l x
  induction hn : l.length using Nat.strong_induction_on generalizing first l with
  | _ n ih =>
    match l with
    | [] =>
      rw [rmvEvents_nil]
      exact ⟨fun a r h => (by cases h), fun e he h => (not_short_error he h).elim⟩
    | c :: r =>
      rw [List.cons_append, rmvEvents_cons w h first c r, rmvEvents_cons w h first c (r ++ x)]
      split
      · match r with
        | t1 :: t2 :: t3 :: t4 :: r =>
          exact ih _ (by subst hn; simp only [List.length_cons]; omega) first r rfl
        | [] | [_] | [_, _] | [_, _, _] =>
          exact ⟨fun a r h => (by cases h), fun e he h => (not_short_error he h).elim⟩
      split
      · match r with
        | t1 :: t2 :: t3 :: t4 :: x1 :: x2 :: y1 :: y2 :: r =>
          have := ih _ (by subst hn; simp only [List.length_cons]; omega) false r rfl
          simp only [List.cons_append]
          cases hr : rmvEvents w h false r with
          | ok y =>
            obtain ⟨es, r'⟩ := y
            rw [this.1 _ _ hr]
            refine ⟨fun a r'' h => ?_, fun e _ h => by cases h⟩
            simp only [Except.ok.injEq, Prod.mk.injEq] at h ⊢
            exact ⟨h.1, by rw [h.2]⟩
          | error e' =>
            refine ⟨fun a r'' h => (by cases h), fun e he h => ?_⟩
            simp only [Except.error.injEq] at h
            subst h
            rw [this.2 _ he hr]
        | [] | [_] | [_, _] | [_, _, _] | [_, _, _, _] | [_, _, _, _, _] | [_, _, _, _, _, _] | [_, _, _, _, _, _, _] =>
          exact ⟨fun a r h => (by cases h), fun e he h => (not_short_error he h).elim⟩
      split
      · exact ⟨fun a r h => (by cases h), fun e he h => h⟩
      split
      · match r with
        | t1 :: t2 :: r =>
          exact ih _ (by subst hn; simp only [List.length_cons]; omega) first r rfl
        | [] | [_] =>
          exact ⟨fun a r h => (by cases h), fun e he h => (not_short_error he h).elim⟩
      split
      · refine ⟨fun a r' h => ?_, fun e he h => by cases h⟩
        simp only [Except.ok.injEq, Prod.mk.injEq] at h ⊢
        exact ⟨h.1, by rw [h.2]⟩
      · exact ⟨fun a r h => (by cases h), fun e he h => h⟩

theorem stable_mvfEvents (s : Fin 40 → Fin 10) : ∀ n p, Stable (mvfEvents s n p)
  | 0, _ => stable_pure _
  | n + 1, _ => stable_bind (stable_take 5) fun _ => stable_bind (stable_mvfEvents s n _) fun _ => stable_pure _

theorem stable_avfToB : Stable avfToB := by
  refine stable_bind stable_u8 fun v => ?_
  split
  · exact stable_avfB _ _
  split
  · exact stable_avfB _ _
  · exact stable_avfB _ _

/-- the closure of `Stable` under everything the parsers do -/
macro "stable" : tactic => `(tactic| repeat' first
  | exact stable_pure _ | exact stable_fail _ | exact stable_u8 | exact stable_u16 | exact stable_u24 | exact stable_skip _
  | exact stable_take _ | exact stable_upTo _ | exact stable_avfMark _ _ | exact stable_avfB _ _ | exact stable_avfStart _ _ _
  | exact stable_avfToB
  | exact stable_avfEvents _ | exact stable_avfSize | exact stable_avfMines _ _ _ _ | exact stable_rmvMines _ _ _ _
  | exact stable_mvfMines _ _ _ _ | exact stable_expect _ | exact stable_rmvFlags _ | exact stable_rmvEvents _ _ _
  | exact stable_mvfEvents _ _ _ | assumption
  | refine stable_bind ?_ fun _ => ?_ | split)

theorem stable_rmvMagic : Stable rmvMagic := by
  refine stable_guard (.inr (.inl rfl)) ?_
  stable

theorem stable_rmvResult (n : Nat) : Stable (rmvResult n) := by
  unfold rmvResult
  stable

theorem stable_rmvStr (b : Bool) : Stable (rmvStr b) := by
  unfold rmvStr
  stable

theorem stable_rmvPre (n : Nat) : Stable (rmvPre n) := by
  unfold rmvPre
  stable

theorem stable_mvfBoard : Stable mvfBoard := by
  unfold mvfBoard
  stable

theorem stable_mvf097 (magic : Nat → Fin 40 → Fin 10) : Stable (mvf097 magic) := by
  have := stable_mvfBoard
  unfold mvf097
  stable

theorem stable_parseAvf (p : Bytes → Option (Option ℚ)) : Stable (parseAvf p) := by
  refine stable_guard (.inr (.inl rfl)) ?_
  stable

theorem stable_rmvTail (a b c : Nat) (d e f : Bytes) : Stable (rmvTail a b c d e f) := by
  unfold rmvTail
  stable
  all_goals first | exact stable_rmvPre _ | skip
  all_goals stable

theorem stable_parseRmv : Stable parseRmv := by
  have := stable_rmvMagic
  have := stable_rmvResult
  have := stable_rmvStr
  unfold parseRmv
  stable
  all_goals first | exact stable_rmvResult _ | exact stable_rmvStr _ | exact stable_rmvPre _ | skip
  all_goals stable

theorem stable_parseMvf (magic : Nat → Fin 40 → Fin 10) : Stable (parseMvf magic) := by
  have := stable_mvf097 magic
  unfold parseMvf
  stable

/-! ## the same for failures -/

theorem never_guard {p : Rd α} {e e' : Fail} (he : e ≠ e') (hp : Never e' p) :
    Never e' (fun l => if l = [] then .error e else p l) := by
  intro l h
  by_cases hl : l = []
  · simp only [hl, if_true, Except.error.injEq] at h; exact he h
  · simp only [if_neg hl] at h; exact hp l h

theorem never_expect {e : Fail} (h : e ≠ .notRmv) (c : Nat) : Never e (expect c) := by
  intro l hl
  cases l with
  | nil => simp only [expect, Except.error.injEq] at hl; exact h hl.symm
  | cons b r =>
    simp only [expect] at hl
    split at hl
    · cases hl
    · simp only [Except.error.injEq] at hl; exact h hl.symm

theorem never_rmvFlags {e : Fail} (h : e ≠ .tooShort) : ∀ n, Never e (rmvFlags n)
  | 0 => never_pure _ _
  | n + 1 => never_bind (never_u8 h) fun _ => never_bind (never_u8 h) fun _ => never_bind (never_rmvFlags h n) fun _ =>
    never_pure _ _

theorem never_rmvEvents (w h : Nat) (first : Bool) : Never .panic (rmvEvents w h first) := by
  intro l
  induction hn : l.length using Nat.strong_induction_on generalizing first l with
  | _ n ih =>
    intro hl
    match l with
    | [] => rw [rmvEvents_nil] at hl; cases hl
    | c :: r =>
      rw [rmvEvents_cons w h first c r] at hl
      split at hl
      · split at hl
        · exact ih _ (by subst hn; simp only [List.length_cons]; omega) first _ rfl hl
        · cases hl
      split at hl
      · split at hl
        · split at hl
          · cases hl
          · rename_i e' he
            simp only [Except.error.injEq] at hl
            rw [hl] at he
            exact ih _ (by subst hn; simp only [List.length_cons]; omega) false _ rfl he
        · cases hl
      split at hl
      · cases hl
      split at hl
      · split at hl
        · exact ih _ (by subst hn; simp only [List.length_cons]; omega) first _ rfl hl
        · cases hl
      split at hl <;> cases hl

theorem never_mvfEvents {e : Fail} (h : e ≠ .tooShort) (s : Fin 40 → Fin 10) : ∀ n p, Never e (mvfEvents s n p)
  | 0, _ => never_pure _ _
  | n + 1, _ => never_bind (never_take h 5) fun _ => never_bind (never_mvfEvents h s n _) fun _ => never_pure _ _

end Ms.Vid
