import Verif.Model.Parsers
import Verif.Lemmas.Laymine
import Verif.Properties.Laymine

/-! # Lemmas about the readers of video files -/

namespace Ms.Vid
open Ms.Spec

variable {α β : Type}

theorem bind_eq (p : Rd α) (f : α → Rd β) (l : Bytes) : (p >>= f) l = match p l with
  | .ok (a, r) => f a r
  | .error e => .error e := rfl

theorem pure_eq (a : α) (l : Bytes) : (pure a : Rd α) l = .ok (a, l) := rfl

theorem bind_ok {p : Rd α} {f : α → Rd β} {l : Bytes} {b : β} {r : Bytes} :
    (p >>= f) l = .ok (b, r) ↔ ∃ a r', p l = .ok (a, r') ∧ f a r' = .ok (b, r) := by
  rw [bind_eq]
  cases h : p l with
  | error e => simp
  | ok x =>
    obtain ⟨a, r'⟩ := x
    constructor
    · intro h2; exact ⟨a, r', rfl, h2⟩
    · rintro ⟨a', r'', h1, h2⟩
      simp only [Except.ok.injEq, Prod.mk.injEq] at h1
      obtain ⟨rfl, rfl⟩ := h1
      exact h2

theorem bind_error {p : Rd α} {f : α → Rd β} {l : Bytes} {e : Fail} :
    (p >>= f) l = .error e ↔ p l = .error e ∨ ∃ a r', p l = .ok (a, r') ∧ f a r' = .error e := by
  rw [bind_eq]
  cases h : p l with
  | error e => simp
  | ok x =>
    obtain ⟨a, r'⟩ := x
    constructor
    · intro h2; exact .inr ⟨a, r', rfl, h2⟩
    · rintro (h1 | ⟨a', r'', h1, h2⟩)
      · cases h1
      · simp only [Except.ok.injEq, Prod.mk.injEq] at h1
        obtain ⟨rfl, rfl⟩ := h1
        exact h2

/-! ## readers that never fail with a given error -/

/-- `p` never fails with `e` -/
def Never (e : Fail) (p : Rd α) : Prop := ∀ l, p l ≠ .error e

theorem never_bind {e : Fail} {p : Rd α} {f : α → Rd β} (hp : Never e p) (hf : ∀ a, Never e (f a)) : Never e (p >>= f) := by
  intro l h
  rcases bind_error.mp h with h | ⟨a, r, -, h⟩
  · exact hp l h
  · exact hf a r h

theorem never_pure (e : Fail) (a : α) : Never e (pure a : Rd α) := by intro l h; cases h

theorem never_fail {e e' : Fail} (h : e' ≠ e) : Never e (Rd.fail e' : Rd α) := by
  intro l hl
  simp only [Rd.fail, Except.error.injEq] at hl
  exact h hl

theorem never_u8 {e : Fail} (h : e ≠ .tooShort) : Never e u8 := by
  intro l hl
  cases l with
  | nil => simp only [u8, Except.error.injEq] at hl; exact h hl.symm
  | cons b r => cases hl

theorem never_skip {e : Fail} (h : e ≠ .tooShort) (k : Nat) : Never e (skip k) := by
  intro l hl
  unfold skip at hl
  split at hl
  · simp only [Except.error.injEq] at hl; exact h hl.symm
  · cases hl

theorem never_u16 {e : Fail} (h : e ≠ .tooShort) : Never e u16 :=
  never_bind (never_u8 h) fun _ => never_bind (never_u8 h) fun _ => never_pure _ _

theorem never_u24 {e : Fail} (h : e ≠ .tooShort) : Never e u24 :=
  never_bind (never_u8 h) fun _ => never_bind (never_u8 h) fun _ => never_bind (never_u8 h) fun _ => never_pure _ _

theorem never_take {e : Fail} (h : e ≠ .tooShort) : ∀ n, Never e (take n)
  | 0 => never_pure _ _
  | n + 1 => never_bind (never_u8 h) fun _ => never_bind (never_take h n) fun _ => never_pure _ _

theorem never_upTo {e : Fail} (h : e ≠ .tooShort) (c : Nat) : Never e (upTo c) := by
  intro l
  induction l with
  | nil => intro hl; simp only [upTo, Except.error.injEq] at hl; exact h hl.symm
  | cons b r ih =>
    intro hl
    simp only [upTo] at hl
    split at hl
    · cases hl
    · split at hl
      · cases hl
      · rename_i e' he
        simp only [Except.error.injEq] at hl
        rw [hl] at he
        exact ih he

theorem never_avfMark {e : Fail} (h : e ≠ .tooShort) (b1 b2 : Nat) : Never e (avfMark b1 b2) := by
  intro l
  induction l generalizing b1 b2 with
  | nil => intro hl; simp only [avfMark, Except.error.injEq] at hl; exact h hl.symm
  | cons b r ih =>
    intro hl
    simp only [avfMark] at hl
    split at hl
    · cases hl
    · exact ih _ _ hl

theorem never_avfB {e : Fail} (h : e ≠ .tooShort) (b0 b1 : Nat) : Never e (avfB b0 b1) := by
  intro l
  induction l generalizing b0 b1 with
  | nil =>
    intro hl
    unfold avfB at hl
    split at hl
    · cases hl
    · simp only [Except.error.injEq] at hl; exact h hl.symm
  | cons b r ih =>
    intro hl
    unfold avfB at hl
    split at hl
    · cases hl
    · exact ih _ _ hl

theorem never_avfStart {e : Fail} (h : e ≠ .tooShort) (b0 b1 b2 : Nat) : Never e (avfStart b0 b1 b2) := by
  intro l
  induction l generalizing b0 b1 b2 with
  | nil =>
    intro hl
    unfold avfStart at hl
    split at hl
    · cases hl
    · simp only [Except.error.injEq] at hl; exact h hl.symm
  | cons b r ih =>
    intro hl
    unfold avfStart at hl
    split at hl
    · cases hl
    · exact ih _ _ _ hl

/-- one round of `avfEvents` -/
theorem avfEvents_eq (b : Buf8) (l : Bytes) : avfEvents b l =
    match avfEvent b with
    | none => .error .invalidEvent
    | some e =>
      match l with
      | c0 :: c1 :: c2 :: c3 :: c4 :: c5 :: c6 :: c7 :: r =>
        if c2 = 0 ∧ c6 = 0 then .ok ([e], r)
        else
          match avfEvents ⟨c0, c1, c2, c3, c4, c5, c6, c7⟩ r with
          | .ok (es, r') => .ok (e :: es, r')
          | .error e => .error e
      | _ => .error .tooShort := by
  rw [avfEvents]
  rfl

theorem never_avfEvents {e : Fail} (h : e ≠ .tooShort) (h2 : e ≠ .invalidEvent) (b : Buf8) : Never e (avfEvents b) := by
  intro l
  induction hn : l.length using Nat.strong_induction_on generalizing b l with
  | _ n ih =>
    intro hl
    rw [avfEvents_eq] at hl
    split at hl
    · simp only [Except.error.injEq] at hl; exact h2 hl.symm
    · split at hl
      · split at hl
        · cases hl
        · split at hl
          · cases hl
          · rename_i e' he
            simp only [Except.error.injEq] at hl
            rw [hl] at he
            exact ih _ (by subst hn; simp only [List.length_cons]; omega) _ _ rfl he
      · simp only [Except.error.injEq] at hl; exact h hl.symm

theorem never_avfSize {e : Fail} (h : e ≠ .tooShort) (h2 : e ≠ .invalidLevel) : Never e avfSize := by
  refine never_bind (never_u8 h) fun level => ?_
  split
  · exact never_pure _ _
  split
  · exact never_pure _ _
  split
  · exact never_pure _ _
  split
  · exact never_bind (never_u8 h) fun _ => never_bind (never_u8 h) fun _ => never_bind (never_u16 h) fun _ => never_pure _ _
  · exact never_fail (Ne.symm h2)

/-! ## the mines -/

/-- The common shape of the three loops that read mines. -/
def readMines (bad : Nat → Nat → Bool) (e : Fail) (cell : Nat → Nat → Pos) : Nat → Board → Rd Board
  | 0, b => pure b
  | n + 1, b => do
    let c ← u8
    let d ← u8
    if bad c d then Rd.fail e
    else readMines bad e cell n (b.set (cell c d).1 (cell c d).2 (-1))

theorem avfMines_eq (h w : Nat) : avfMines h w = readMines (fun c d => decide (c = 0 ∨ h < c ∨ d = 0 ∨ w < d)) .panic
    (fun c d => (c - 1, d - 1)) := by
  funext n
  induction n with
  | zero => rfl
  | succ n ih =>
    funext b
    unfold avfMines readMines
    simp only [ih, decide_eq_true_eq]

theorem rmvMines_eq (h w : Nat) : rmvMines h w = readMines (fun c d => decide (w ≤ c ∨ h ≤ d)) .invalidMine
    (fun c d => (d, c)) := by
  funext n
  induction n with
  | zero => rfl
  | succ n ih =>
    funext b
    unfold rmvMines readMines
    simp only [ih, decide_eq_true_eq]

theorem mvfMines_eq (h w : Nat) : mvfMines h w = readMines (fun c d => decide (c = 0 ∨ w < c ∨ d = 0 ∨ h < d)) .panic
    (fun c d => (d - 1, c - 1)) := by
  funext n
  induction n with
  | zero => rfl
  | succ n ih =>
    funext b
    unfold mvfMines readMines
    simp only [ih, decide_eq_true_eq]

section mines
variable {bad : Nat → Nat → Bool} {e : Fail} {cell : Nat → Nat → Pos}

theorem readMines_two (n : Nat) (b : Board) (c d : Nat) (r : Bytes) : readMines bad e cell (n + 1) b (c :: d :: r) =
    if bad c d then .error e else readMines bad e cell n (b.set (cell c d).1 (cell c d).2 (-1)) r := by
  rw [readMines]
  show (if bad c d then Rd.fail e else _ : Rd Board) r = _
  split <;> rfl

theorem two_le {l : Bytes} (h : ¬ l.length < 2) : ∃ c d r, l = c :: d :: r := by
  match l with
  | [] => simp at h
  | [_] => simp at h
  | c :: d :: r => exact ⟨c, d, r, rfl⟩

theorem readMines_short (n : Nat) (b : Board) (l : Bytes) (h : l.length < 2) :
    readMines bad e cell (n + 1) b l = .error .tooShort := by
  match l, h with
  | [], _ => rfl
  | [_], _ => rfl

/-- It fails with `e` exactly if one of the first `n` pairs that are there is bad. -/
theorem readMines_bad (he : e ≠ .tooShort) (n : Nat) (b : Board) (l : Bytes) : readMines bad e cell n b l = .error e ↔
    ∃ k c d, k < n ∧ l[2 * k]? = some c ∧ l[2 * k + 1]? = some d ∧ bad c d = true := by
  induction n generalizing b l with
  | zero =>
    constructor
    · intro h; cases h
    · rintro ⟨k, _, _, h, _⟩; omega
  | succ n ih =>
    by_cases hl : l.length < 2
    · rw [readMines_short n b l hl]
      constructor
      · intro h; simp only [Except.error.injEq] at h; exact absurd h.symm he
      · rintro ⟨k, c, d, -, -, h2, -⟩
        have := (List.getElem?_eq_some_iff.mp h2).1
        omega
    · obtain ⟨c, d, r, rfl⟩ := two_le hl
      · skip
        rw [readMines_two]
        by_cases hb : bad c d = true
        · rw [if_pos hb]
          simp only [true_iff]
          exact ⟨0, c, d, by omega, rfl, rfl, hb⟩
        · rw [if_neg hb, ih]
          constructor
          · rintro ⟨k, c', d', h1, h2, h3, h4⟩
            refine ⟨k + 1, c', d', by omega, ?_, ?_, h4⟩
            · rw [show 2 * (k + 1) = 2 * k + 1 + 1 from by omega]; simpa using h2
            · rw [show 2 * (k + 1) + 1 = 2 * k + 1 + 1 + 1 from by omega]; simpa using h3
          · rintro ⟨k, c', d', h1, h2, h3, h4⟩
            cases k with
            | zero =>
              simp only [Nat.mul_zero, List.getElem?_cons_zero, Option.some.injEq, Nat.zero_add, List.getElem?_cons_succ] at h2 h3
              subst h2 h3
              exact absurd h4 hb
            | succ k =>
              rw [show 2 * (k + 1) = 2 * k + 1 + 1 from by omega] at h2
              rw [show 2 * (k + 1) + 1 = 2 * k + 1 + 1 + 1 from by omega] at h3
              exact ⟨k, c', d', by omega, by simpa using h2, by simpa using h3, h4⟩

theorem readMines_never {e' : Fail} (h1 : e' ≠ .tooShort) (h2 : e' ≠ e) (n : Nat) (b : Board) :
    Never e' (readMines bad e cell n b) := by
  induction n generalizing b with
  | zero => exact never_pure _ _
  | succ n ih =>
    unfold readMines
    refine never_bind (never_u8 h1) fun c => never_bind (never_u8 h1) fun d => ?_
    split
    · exact never_fail (Ne.symm h2)
    · exact ih _

/-- If it succeeds, `2 n` bytes were read, none of the pairs was bad, and exactly their cells have become mines. -/
theorem readMines_ok {h w : Nat} (hc : ∀ c d, bad c d = false → (cell c d).1 < h ∧ (cell c d).2 < w) (n : Nat) (b b' : Board)
    (l r : Bytes) (hR : Rect b h w) (hok : readMines bad e cell n b l = .ok (b', r)) :
    2 * n ≤ l.length ∧ r = l.drop (2 * n) ∧ Rect b' h w ∧
    (∀ k, k < n → ∃ c d, l[2 * k]? = some c ∧ l[2 * k + 1]? = some d ∧ bad c d = false) ∧
    (∀ i j, b'.get i j = -1 ↔ b.get i j = -1 ∨ ∃ k c d, k < n ∧ l[2 * k]? = some c ∧ l[2 * k + 1]? = some d ∧ cell c d = (i, j)) ∧
    (∀ i j, b'.get i j = -1 ∨ b'.get i j = b.get i j) := by
  induction n generalizing b l with
  | zero =>
    rw [readMines, pure_eq] at hok
    simp only [Except.ok.injEq, Prod.mk.injEq] at hok
    obtain ⟨rfl, rfl⟩ := hok
    refine ⟨by omega, by simp, hR, fun k hk => by omega, fun i j => ⟨.inl, ?_⟩, fun i j => .inr rfl⟩
    rintro (h | ⟨k, _, _, hk, _⟩)
    · exact h
    · omega
  | succ n ih =>
    by_cases hl : l.length < 2
    · rw [readMines_short n b l hl] at hok; cases hok
    · obtain ⟨c, d, r0, rfl⟩ := two_le hl
      · skip
        rw [readMines_two] at hok
        split at hok
        · cases hok
        · rename_i hb
          have hb : bad c d = false := by simpa using hb
          obtain ⟨hc1, hc2⟩ := hc c d hb
          obtain ⟨i1, i2, i3, i4, i5, i6⟩ := ih _ r0 (rect_set hR _ _ _) hok
          have hs := fun i j => get_set hR hc1 hc2 i j (-1)
          refine ⟨by simp only [List.length_cons]; omega, ?_, i3, ?_, ?_, ?_⟩
          · rw [i2, show 2 * (n + 1) = 2 * n + 1 + 1 from by omega]; simp
          · intro k hk
            cases k with
            | zero => exact ⟨c, d, rfl, rfl, hb⟩
            | succ k =>
              obtain ⟨c', d', h1, h2, h3⟩ := i4 k (by omega)
              refine ⟨c', d', ?_, ?_, h3⟩
              · rw [show 2 * (k + 1) = 2 * k + 1 + 1 from by omega]; simpa using h1
              · rw [show 2 * (k + 1) + 1 = 2 * k + 1 + 1 + 1 from by omega]; simpa using h2
          · intro i j
            rw [i5, hs]
            constructor
            · rintro (h1 | ⟨k, c', d', h1, h2, h3, h4⟩)
              · split at h1
                · rename_i hij
                  exact .inr ⟨0, c, d, by omega, rfl, rfl, Prod.ext hij.1.symm hij.2.symm⟩
                · exact .inl h1
              · refine .inr ⟨k + 1, c', d', by omega, ?_, ?_, h4⟩
                · rw [show 2 * (k + 1) = 2 * k + 1 + 1 from by omega]; simpa using h2
                · rw [show 2 * (k + 1) + 1 = 2 * k + 1 + 1 + 1 from by omega]; simpa using h3
            · rintro (h1 | ⟨k, c', d', h1, h2, h3, h4⟩)
              · left; split
                · rfl
                · exact h1
              · cases k with
                | zero =>
                  simp only [Nat.mul_zero, List.getElem?_cons_zero, Option.some.injEq, Nat.zero_add, List.getElem?_cons_succ]
                    at h2 h3
                  subst h2 h3
                  left
                  rw [if_pos]
                  rw [h4]; exact ⟨rfl, rfl⟩
                | succ k =>
                  rw [show 2 * (k + 1) = 2 * k + 1 + 1 from by omega] at h2
                  rw [show 2 * (k + 1) + 1 = 2 * k + 1 + 1 + 1 from by omega] at h3
                  exact .inr ⟨k, c', d', by omega, by simpa using h2, by simpa using h3, h4⟩
          · intro i j
            rcases i6 i j with h1 | h1
            · exact .inl h1
            · rw [hs] at h1
              split at h1
              · exact .inl h1
              · exact .inr h1

end mines

/-! ## truncation -/

/-- Failures that more bytes may cure. -/
def Fail.short (e : Fail) : Prop := e = .tooShort ∨ e = .empty ∨ e = .notRmv

/-- More bytes change nothing but a failure for want of bytes. -/
def Stable (p : Rd α) : Prop := ∀ l x, (∀ a r, p l = .ok (a, r) → p (l ++ x) = .ok (a, r ++ x)) ∧
  (∀ e, ¬ e.short → p l = .error e → p (l ++ x) = .error e)

theorem stable_pure (a : α) : Stable (pure a : Rd α) := by
  intro l x
  refine ⟨fun a r h => ?_, fun e _ h => by cases h⟩
  rw [pure_eq] at h ⊢
  simp only [Except.ok.injEq, Prod.mk.injEq] at h ⊢
  exact ⟨h.1, by rw [h.2]⟩

theorem stable_fail (e : Fail) : Stable (Rd.fail e : Rd α) := by
  intro l x
  refine ⟨fun a r h => (by cases h), fun e _ h => h⟩

theorem stable_bind {p : Rd α} {f : α → Rd β} (hp : Stable p) (hf : ∀ a, Stable (f a)) : Stable (p >>= f) := by
  intro l x
  refine ⟨fun b r h => ?_, fun e he h => ?_⟩
  · obtain ⟨a, r', h1, h2⟩ := bind_ok.mp h
    exact bind_ok.mpr ⟨a, _, (hp l x).1 a r' h1, (hf a r' x).1 b r h2⟩
  · rcases bind_error.mp h with h | ⟨a, r', h1, h2⟩
    · exact bind_error.mpr (.inl ((hp l x).2 e he h))
    · exact bind_error.mpr (.inr ⟨a, _, (hp l x).1 a r' h1, (hf a r' x).2 e he h2⟩)

theorem not_short_error {e : Fail} (he : ¬ e.short) (h : (Except.error .tooShort : Except Fail (α × Bytes)) = .error e) :
    False := by
  simp only [Except.error.injEq] at h
  exact he (.inl h.symm)

theorem stable_u8 : Stable u8 := by
  intro l x
  cases l with
  | nil => exact ⟨fun a r h => (by cases h), fun e he h => (not_short_error he h).elim⟩
  | cons b r =>
    refine ⟨fun a r' h => ?_, fun e _ h => by cases h⟩
    simp only [u8, Except.ok.injEq, Prod.mk.injEq] at h
    obtain ⟨rfl, rfl⟩ := h
    rfl

theorem stable_skip (k : Nat) : Stable (skip k) := by
  intro l x
  unfold skip
  refine ⟨fun a r h => ?_, fun e he h => ?_⟩
  · split at h
    · cases h
    · rename_i hk
      simp only [Except.ok.injEq, Prod.mk.injEq] at h
      rw [if_neg (by simp; omega), ← h.2, List.drop_append_of_le_length (by omega)]
  · split at h
    · exact (not_short_error he h).elim
    · cases h

theorem stable_u16 : Stable u16 := stable_bind stable_u8 fun _ => stable_bind stable_u8 fun _ => stable_pure _

theorem stable_u24 : Stable u24 :=
  stable_bind stable_u8 fun _ => stable_bind stable_u8 fun _ => stable_bind stable_u8 fun _ => stable_pure _

theorem stable_take : ∀ n, Stable (take n)
  | 0 => stable_pure _
  | n + 1 => stable_bind stable_u8 fun _ => stable_bind (stable_take n) fun _ => stable_pure _

theorem stable_upTo (c : Nat) : Stable (upTo c) := by
  intro l x
  induction l with
  | nil => exact ⟨fun a r h => (by cases h), fun e he h => (not_short_error he h).elim⟩
  | cons b r ih =>
    refine ⟨fun a r' h => ?_, fun e he h => absurd h (never_upTo (fun h => he (.inl h)) c _)⟩
    simp only [upTo, List.cons_append] at h ⊢
    split at h
    · rename_i hb
      rw [if_pos hb]
      simp only [Except.ok.injEq, Prod.mk.injEq] at h ⊢
      exact ⟨h.1, by rw [h.2]⟩
    · rename_i hb
      rw [if_neg hb]
      split at h
      · rename_i s r'' he
        rw [ih.1 _ _ he]
        simp only [Except.ok.injEq, Prod.mk.injEq] at h ⊢
        exact ⟨h.1, by rw [h.2]⟩
      · cases h

theorem stable_avfMark (b1 b2 : Nat) : Stable (avfMark b1 b2) := by
  intro l x
  refine ⟨?_, fun e he h => absurd h (never_avfMark (fun h => he (.inl h)) _ _ _)⟩
  induction l generalizing b1 b2 with
  | nil => exact fun a r h => by cases h
  | cons b r ih =>
    intro a r' h
    simp only [avfMark, List.cons_append] at h ⊢
    split at h
    · rename_i hb
      rw [if_pos hb]
      simp only [Except.ok.injEq, Prod.mk.injEq] at h ⊢
      exact ⟨trivial, by rw [h.2]⟩
    · rename_i hb
      rw [if_neg hb]
      exact ih _ _ _ _ h

theorem stable_avfB (b0 b1 : Nat) : Stable (avfB b0 b1) := by
  intro l x
  refine ⟨?_, fun e he h => absurd h (never_avfB (fun h => he (.inl h)) _ _ _)⟩
  induction l generalizing b0 b1 with
  | nil =>
    intro a r h
    unfold avfB at h ⊢
    split at h
    · rename_i hb
      rw [if_pos hb]
      simp only [Except.ok.injEq, Prod.mk.injEq] at h ⊢
      exact ⟨trivial, by rw [← h.2]⟩
    · cases h
  | cons b r ih =>
    intro a r' h
    unfold avfB at h ⊢
    split at h
    · rename_i hb
      rw [if_pos hb]
      simp only [Except.ok.injEq, Prod.mk.injEq] at h ⊢
      exact ⟨trivial, by rw [← h.2]⟩
    · rename_i hb
      rw [if_neg hb]
      exact ih _ _ _ _ h

theorem stable_avfStart (b0 b1 b2 : Nat) : Stable (avfStart b0 b1 b2) := by
  intro l x
  refine ⟨?_, fun e he h => absurd h (never_avfStart (fun h => he (.inl h)) _ _ _ _)⟩
  induction l generalizing b0 b1 b2 with
  | nil =>
    intro a r h
    unfold avfStart at h ⊢
    split at h
    · rename_i hb
      rw [if_pos hb]
      simp only [Except.ok.injEq, Prod.mk.injEq] at h ⊢
      exact ⟨h.1, by rw [← h.2]⟩
    · cases h
  | cons b r ih =>
    intro a r' h
    unfold avfStart at h ⊢
    split at h
    · rename_i hb
      rw [if_pos hb]
      simp only [Except.ok.injEq, Prod.mk.injEq] at h ⊢
      exact ⟨h.1, by rw [← h.2]⟩
    · rename_i hb
      rw [if_neg hb]
      exact ih _ _ _ _ _ h

theorem stable_avfEvents (b : Buf8) : Stable (avfEvents b) := by
  intro l x
  induction hn : l.length using Nat.strong_induction_on generalizing b l with
  | _ n ih =>
    rw [avfEvents_eq b l, avfEvents_eq b (l ++ x)]
    cases avfEvent b with
    | none => exact ⟨fun a r h => (by cases h), fun e _ h => h⟩
    | some ev =>
      match l with
      | c0 :: c1 :: c2 :: c3 :: c4 :: c5 :: c6 :: c7 :: r =>
        simp only [List.cons_append]
        by_cases hz : c2 = 0 ∧ c6 = 0
        · rw [if_pos hz, if_pos hz]
          refine ⟨fun a r' h => ?_, fun e _ h => by cases h⟩
          simp only [Except.ok.injEq, Prod.mk.injEq] at h ⊢
          exact ⟨h.1, by rw [h.2]⟩
        · rw [if_neg hz, if_neg hz]
          have := ih _ (by subst hn; simp only [List.length_cons]; omega) ⟨c0, c1, c2, c3, c4, c5, c6, c7⟩ r rfl
          cases hr : avfEvents ⟨c0, c1, c2, c3, c4, c5, c6, c7⟩ r with
          | ok y =>
            obtain ⟨es, r'⟩ := y
            rw [this.1 _ _ hr]
            refine ⟨fun a r'' h => ?_, fun e _ h => by cases h⟩
            simp only [Except.ok.injEq, Prod.mk.injEq] at h ⊢
            exact ⟨h.1, by rw [h.2]⟩
          | error e' =>
            refine ⟨fun a r'' h => (by cases h), fun e he h => ?_⟩
            simp only [Except.error.injEq] at h
            subst h
            rw [this.2 _ he hr]
      | [] | [_] | [_, _] | [_, _, _] | [_, _, _, _] | [_, _, _, _, _] | [_, _, _, _, _, _] | [_, _, _, _, _, _, _] =>
        exact ⟨fun a r h => (by cases h), fun e he h => (not_short_error he h).elim⟩

theorem stable_readMines {bad : Nat → Nat → Bool} {e : Fail} {cell : Nat → Nat → Pos} (n : Nat) (b : Board) :
    Stable (readMines bad e cell n b) := by
  induction n generalizing b with
  | zero => exact stable_pure _
  | succ n ih =>
    unfold readMines
    refine stable_bind stable_u8 fun c => stable_bind stable_u8 fun d => ?_
    split
    · exact stable_fail _
    · exact ih _

theorem stable_avfSize : Stable avfSize := by
  refine stable_bind stable_u8 fun level => ?_
  split
  · exact stable_pure _
  split
  · exact stable_pure _
  split
  · exact stable_pure _
  split
  · exact stable_bind stable_u8 fun _ => stable_bind stable_u8 fun _ => stable_bind stable_u16 fun _ => stable_pure _
  · exact stable_fail _

/-- What a prefix of the file gives. -/
theorem Stable.prefix {p : Rd α} (hp : Stable p) {l : Bytes} {a : α} {r : Bytes} (h : p l = .ok (a, r)) (n : Nat) :
    (∃ r', p (l.take n) = .ok (a, r') ∧ r = r' ++ l.drop n) ∨ ∃ e, e.short ∧ p (l.take n) = .error e := by
  have hl := List.take_append_drop n l
  cases hq : p (l.take n) with
  | ok y =>
    obtain ⟨a', r'⟩ := y
    have := (hp (l.take n) (l.drop n)).1 _ _ hq
    rw [hl, h] at this
    simp only [Except.ok.injEq, Prod.mk.injEq] at this
    exact .inl ⟨r', by rw [this.1], this.2⟩
  | error e =>
    right
    refine ⟨e, ?_, rfl⟩
    by_contra hs
    have := (hp (l.take n) (l.drop n)).2 _ hs hq
    rw [hl, h] at this
    cases this

/-- A file cut within the bytes that were read is refused. -/
theorem Stable.truncated {p : Rd α} (hp : Stable p) {l : Bytes} {a : α} {r : Bytes} (h : p l = .ok (a, r)) {n : Nat}
    (hn : n + r.length < l.length) : ∃ e, e.short ∧ p (l.take n) = .error e := by
  rcases hp.prefix h n with ⟨r', h1, h2⟩ | h
  · exfalso
    have := congrArg List.length h2
    simp at this
    omega
  · exact h

end Ms.Vid
