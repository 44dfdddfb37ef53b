import Verif.Model.Evf
import Verif.Lemmas.Basic
import Mathlib.Tactic.Linarith
import Mathlib.Tactic.NormNum

namespace Ms.Evf

theorem bind_def {α β : Type} (p : P α) (f : α → P β) (l : Bytes) :
    (p >>= f) l = match p l with
      | .ok (a, r) => f a r
      | .error e => .error e := rfl

theorem bind_ok {α β : Type} {p : P α} {f : α → P β} {l r : Bytes} {a : α} (h : p l = .ok (a, r)) :
    (p >>= f) l = f a r := by rw [bind_def, h]

theorem bind_err {α β : Type} {p : P α} {f : α → P β} {l : Bytes} {e : Fail} (h : p l = .error e) :
    (p >>= f) l = .error e := by rw [bind_def, h]

@[simp] theorem pure_def {α : Type} (a : α) (l : Bytes) : (pure a : P α) l = .ok (a, l) := rfl

/-! ## prefix behaviour -/

/-- A successful run consumed exactly a prefix, does not depend on what follows it, and fails with
`tooShort` on every proper prefix of it. -/
def Good {α : Type} (p : P α) : Prop :=
  ∀ l a r, p l = .ok (a, r) → ∃ c, l = c ++ r ∧ (∀ r', p (c ++ r') = .ok (a, r')) ∧
    ∀ d e, c = d ++ e → e ≠ [] → p d = .error .tooShort

theorem good_pure {α : Type} (a : α) : Good (pure a : P α) := by
  intro l b r h
  simp only [pure_def, Except.ok.injEq, Prod.mk.injEq] at h
  obtain ⟨rfl, rfl⟩ := h
  refine ⟨[], rfl, fun r' => rfl, ?_⟩
  intro d e h1 h2
  exact absurd (List.append_eq_nil_iff.mp h1.symm).2 h2

theorem good_bind {α β : Type} {p : P α} {f : α → P β} (hp : Good p) (hf : ∀ a, Good (f a)) :
    Good (p >>= f) := by
  intro l b r h
  rw [bind_def] at h
  cases h1 : p l with
  | error e => rw [h1] at h; exact absurd h (by simp)
  | ok x =>
    obtain ⟨a, r1⟩ := x
    rw [h1] at h
    obtain ⟨c1, rfl, g1, g2⟩ := hp l a r1 h1
    obtain ⟨c2, rfl, k1, k2⟩ := hf a r1 b r h
    refine ⟨c1 ++ c2, by simp, fun r' => ?_, ?_⟩
    · rw [List.append_assoc, bind_ok (g1 _)]; exact k1 r'
    · intro d e hde he
      rcases List.append_eq_append_iff.mp hde with ⟨m, hm1, hm2⟩ | ⟨m, hm1, hm2⟩
      · subst hm1
        rw [bind_ok (g1 m)]
        exact k2 m e hm2 he
      · by_cases hm : m = []
        · subst hm
          simp only [List.append_nil, List.nil_append] at hm1 hm2
          subst hm1
          have := g1 []
          rw [List.append_nil] at this
          rw [bind_ok this]
          exact k2 [] e (by simpa using hm2.symm) he
        · exact bind_err (g2 d m hm1 hm)

theorem good_fail {α : Type} (e : Fail) : Good (P.fail e : P α) := by
  intro l a r h; simp [P.fail] at h

theorem good_u8 : Good getU8 := by
  intro l a r h
  cases l with
  | nil => simp [getU8] at h
  | cons b l =>
    simp only [getU8, Except.ok.injEq, Prod.mk.injEq] at h
    obtain ⟨rfl, rfl⟩ := h
    refine ⟨[b], rfl, fun _ => rfl, ?_⟩
    intro d e h1 h2
    cases d with
    | nil => rfl
    | cons x d =>
      simp only [List.cons_append, List.cons.injEq] at h1
      exact absurd (List.append_eq_nil_iff.mp h1.2.symm).2 h2

theorem good_str : Good getStr := by
  intro l
  induction l with
  | nil => intro a r h; simp [getStr] at h
  | cons b l ih =>
    intro a r h
    rw [getStr] at h
    by_cases hb : b = 0
    · subst hb
      simp only [if_true, Except.ok.injEq, Prod.mk.injEq] at h
      obtain ⟨rfl, rfl⟩ := h
      refine ⟨[0], rfl, fun _ => rfl, ?_⟩
      intro d e h1 h2
      cases d with
      | nil => rfl
      | cons x d =>
        simp only [List.cons_append, List.cons.injEq] at h1
        exact absurd (List.append_eq_nil_iff.mp h1.2.symm).2 h2
    · rw [if_neg hb] at h
      cases h1 : getStr l with
      | error e => rw [h1] at h; simp at h
      | ok x =>
        obtain ⟨s, r1⟩ := x
        rw [h1] at h
        simp only [Except.ok.injEq, Prod.mk.injEq] at h
        obtain ⟨rfl, rfl⟩ := h
        obtain ⟨c, rfl, g1, g2⟩ := ih _ _ h1
        refine ⟨b :: c, rfl, fun r' => ?_, ?_⟩
        · rw [List.cons_append, getStr, if_neg hb, g1]
        · intro d e h1 h2
          cases d with
          | nil => rfl
          | cons x d =>
            simp only [List.cons_append, List.cons.injEq] at h1
            obtain ⟨rfl, h1⟩ := h1
            rw [getStr, if_neg hb, g2 d e h1 h2]

theorem good_u16 : Good getU16 :=
  good_bind good_u8 fun _ => good_bind good_u8 fun _ => good_pure _

theorem good_u24 : Good getU24 :=
  good_bind good_u8 fun _ => good_bind good_u8 fun _ => good_bind good_u8 fun _ => good_pure _

theorem good_hdr : Good getHdr :=
  good_bind good_u8 fun _ => good_bind good_u8 fun _ => good_bind good_u8 fun _ =>
  good_bind good_u8 fun _ => good_bind good_u16 fun _ => good_bind good_u8 fun _ =>
  good_bind good_u16 fun _ => good_bind good_u16 fun _ => good_bind good_u24 fun _ => good_pure _

theorem good_strs : Good getStrs :=
  good_bind good_str fun _ => good_bind good_str fun _ => good_bind good_str fun _ =>
  good_bind good_str fun _ => good_bind good_str fun _ => good_bind good_str fun _ =>
  good_bind good_str fun _ => good_bind good_str fun _ => good_pure _

theorem good_readCell (st : Board × Nat × Nat) (p : Pos) : Good (readCell st p) := by
  unfold readCell
  apply good_bind
  · split
    · exact good_bind good_u8 fun _ => good_pure _
    · exact good_pure _
  · intro _; exact good_pure _

theorem good_foldP {α β : Type} {f : β → α → P β} (hf : ∀ b a, Good (f b a)) (b : β) (l : List α) :
    Good (foldP f b l) := by
  induction l generalizing b with
  | nil => exact good_pure _
  | cons a l ih => exact good_bind (hf _ _) fun _ => ih _

theorem good_board (h w : Nat) : Good (getBoard h w) := by
  unfold getBoard
  apply good_bind (good_foldP good_readCell _ _)
  intro st
  cases calBoardNumbers st.1 with
  | none => exact good_fail _
  | some b => exact good_pure _

theorem good_events (n : Nat) : Good (getEvents n) := by
  induction n with
  | zero => exact good_fail _
  | succ n ih =>
    unfold getEvents
    apply good_bind good_u8
    intro c
    split
    · exact good_pure _
    · split
      · exact good_pure _
      · exact good_bind good_u24 fun _ => good_bind good_u16 fun _ => good_bind good_u16 fun _ =>
          good_bind ih fun _ => good_pure _

theorem good_bytes (n : Nat) : Good (getBytes n) := by
  induction n with
  | zero => exact good_pure _
  | succ n ih => exact good_bind good_u8 fun _ => good_bind ih fun _ => good_pure _

/-! ## fuel -/

theorem getEvents_fuel_le (n : Nat) : ∀ (m : Nat) (l : Bytes), n ≤ m → getEvents n l ≠ .error .fuel →
    getEvents m l = getEvents n l := by
  induction n with
  | zero => intro m l _ h; exact absurd rfl h
  | succ n ih =>
    intro m l hm h
    obtain ⟨m, rfl⟩ : ∃ k, m = k + 1 := ⟨m - 1, by omega⟩
    rw [getEvents] at h ⊢
    rw [getEvents]
    cases l with
    | nil => rfl
    | cons c l =>
      have hu : getU8 (c :: l) = .ok (c, l) := rfl
      rw [bind_ok hu] at h ⊢
      rw [bind_ok hu]
      by_cases h0 : c = 0
      · simp [h0]
      by_cases h1 : c = 255
      · simp [h1]
      rw [if_neg h0, if_neg h1] at h ⊢
      rw [if_neg h0, if_neg h1]
      cases e1 : getU24 l with
      | error e => rw [bind_err e1, bind_err e1]
      | ok x =>
        rw [bind_ok e1, bind_ok e1]
        rw [bind_ok e1] at h
        cases e2 : getU16 x.2 with
        | error e => rw [bind_err e2, bind_err e2]
        | ok y =>
          rw [bind_ok e2, bind_ok e2]
          rw [bind_ok e2] at h
          cases e3 : getU16 y.2 with
          | error e => rw [bind_err e3, bind_err e3]
          | ok z =>
            rw [bind_ok e3, bind_ok e3]
            rw [bind_ok e3] at h
            have : getEvents n z.2 ≠ .error .fuel := fun hh => h (bind_err hh)
            rw [bind_def, bind_def, ih m z.2 (by omega) this]

/-- A result that is neither a panic nor lack of fuel. -/
def Clean {α : Type} (x : Except Fail α) : Prop := x ≠ .error .panic ∧ x ≠ .error .fuel

theorem clean_ok {α : Type} (a : α) : Clean (.ok a : Except Fail α) := ⟨by simp, by simp⟩

theorem clean_short {α : Type} : Clean (.error .tooShort : Except Fail α) := ⟨by simp, by simp⟩

theorem clean_bind {α β : Type} {p : P α} {f : α → P β} {l : Bytes} (hp : Clean (p l))
    (hf : ∀ a r, p l = .ok (a, r) → Clean (f a r)) : Clean ((p >>= f) l) := by
  rw [bind_def]
  cases h : p l with
  | ok x => exact hf x.1 x.2 h
  | error e =>
    rw [h] at hp
    cases e with
    | tooShort => exact clean_short
    | panic => exact absurd rfl hp.1
    | fuel => exact absurd rfl hp.2

theorem clean_u8 (l : Bytes) : Clean (getU8 l) := by
  cases l with
  | nil => exact clean_short
  | cons _ _ => exact clean_ok _

theorem clean_u16 (l : Bytes) : Clean (getU16 l) :=
  clean_bind (clean_u8 _) fun _ _ _ => clean_bind (clean_u8 _) fun _ _ _ => clean_ok _

theorem clean_u24 (l : Bytes) : Clean (getU24 l) :=
  clean_bind (clean_u8 _) fun _ _ _ => clean_bind (clean_u8 _) fun _ _ _ =>
  clean_bind (clean_u8 _) fun _ _ _ => clean_ok _

theorem clean_hdr (l : Bytes) : Clean (getHdr l) :=
  clean_bind (clean_u8 _) fun _ _ _ => clean_bind (clean_u8 _) fun _ _ _ =>
  clean_bind (clean_u8 _) fun _ _ _ => clean_bind (clean_u8 _) fun _ _ _ =>
  clean_bind (clean_u16 _) fun _ _ _ => clean_bind (clean_u8 _) fun _ _ _ =>
  clean_bind (clean_u16 _) fun _ _ _ => clean_bind (clean_u16 _) fun _ _ _ =>
  clean_bind (clean_u24 _) fun _ _ _ => clean_ok _

theorem clean_str (l : Bytes) : Clean (getStr l) := by
  induction l with
  | nil => exact clean_short
  | cons b l ih =>
    rw [getStr]
    split
    · exact clean_ok _
    · cases h : getStr l with
      | ok x => exact clean_ok _
      | error e =>
        rw [h] at ih
        cases e with
        | tooShort => exact clean_short
        | panic => exact absurd rfl ih.1
        | fuel => exact absurd rfl ih.2

theorem clean_strs (l : Bytes) : Clean (getStrs l) :=
  clean_bind (clean_str _) fun _ _ _ => clean_bind (clean_str _) fun _ _ _ =>
  clean_bind (clean_str _) fun _ _ _ => clean_bind (clean_str _) fun _ _ _ =>
  clean_bind (clean_str _) fun _ _ _ => clean_bind (clean_str _) fun _ _ _ =>
  clean_bind (clean_str _) fun _ _ _ => clean_bind (clean_str _) fun _ _ _ => clean_ok _

theorem clean_readCell (st : Board × Nat × Nat) (p : Pos) (l : Bytes) : Clean (readCell st p l) := by
  unfold readCell
  apply clean_bind
  · split
    · exact clean_bind (clean_u8 _) fun _ _ _ => clean_ok _
    · exact clean_ok _
  · intro _ _ _; exact clean_ok _

theorem clean_foldP {α β : Type} {f : β → α → P β} (hf : ∀ b a l, Clean (f b a l)) (b : β) (xs : List α)
    (l : Bytes) : Clean (foldP f b xs l) := by
  induction xs generalizing b l with
  | nil => exact clean_ok _
  | cons a xs ih => exact clean_bind (hf _ _ _) fun _ _ _ => ih _ _

theorem u8_len {l r : Bytes} {a : Nat} (h : getU8 l = .ok (a, r)) : r.length < l.length := by
  cases l with
  | nil => simp [getU8] at h
  | cons b l => simp only [getU8, Except.ok.injEq, Prod.mk.injEq] at h; rw [← h.2]; simp

theorem good_len {α : Type} {p : P α} (hp : Good p) {l r : Bytes} {a : α} (h : p l = .ok (a, r)) :
    r.length ≤ l.length := by
  obtain ⟨c, rfl, -⟩ := hp l a r h; simp

theorem clean_events (n : Nat) : ∀ l : Bytes, l.length < n → Clean (getEvents n l) := by
  induction n with
  | zero => intro l h; omega
  | succ n ih =>
    intro l hl
    unfold getEvents
    refine clean_bind (clean_u8 _) fun c r h1 => ?_
    split
    · exact clean_ok _
    · split
      · exact clean_ok _
      · refine clean_bind (clean_u24 _) fun t r2 h2 => clean_bind (clean_u16 _) fun x r3 h3 =>
          clean_bind (clean_u16 _) fun y r4 h4 => clean_bind (ih _ ?_) fun _ _ _ => clean_ok _
        have a1 := u8_len h1
        have a2 := good_len good_u24 h2
        have a3 := good_len good_u16 h3
        have a4 := good_len good_u16 h4
        omega

theorem clean_bytes (n : Nat) (l : Bytes) : Clean (getBytes n l) := by
  induction n generalizing l with
  | zero => exact clean_ok _
  | succ n ih => exact clean_bind (clean_u8 _) fun _ _ _ => clean_bind (ih _) fun _ _ _ => clean_ok _

/-- the event reader with enough fuel -/
theorem getEvents_eq (n : Nat) (l : Bytes) (h : l.length < n) : getEvents n l = getEvents (l.length + 1) l :=
  getEvents_fuel_le _ _ _ (by omega) (clean_events _ _ (by omega)).2

theorem good_tail (h : Hdr) (s : Strs) (b : Board) : Good (getTail h s b) := by
  let q : Nat → P Parsed := fun n => do
    let (es, cs) ← getEvents n
    let sum ← if cs then getBytes 32 else pure (List.replicate 32 0)
    pure ⟨h, levelOf h.height h.width h.mineNum, s, b, es, sum⟩
  have hq : ∀ n l, l.length < n → getTail h s b l = q n l := by
    intro n l hl
    show q (l.length + 1) l = q n l
    show P.bind _ _ _ = P.bind _ _ _
    unfold P.bind
    rw [getEvents_eq n l hl]
  have hg : ∀ n, Good (q n) := by
    intro n
    refine good_bind (good_events n) fun a => ?_
    obtain ⟨es, cs⟩ := a
    cases cs
    · exact good_bind (good_pure _) fun _ => good_pure _
    · exact good_bind (good_bytes _) fun _ => good_pure _
  intro l a r hl
  rw [hq (l.length + 1) l (by omega)] at hl
  obtain ⟨c, rfl, -, g2⟩ := hg _ _ _ _ hl
  refine ⟨c, rfl, ?_, ?_⟩
  · intro r'
    let N := (c ++ r).length + (c ++ r').length + 1
    have e1 : q N (c ++ r) = .ok (a, r) := by
      rw [← hq N _ (by omega), hq ((c ++ r).length + 1) _ (by omega)]; exact hl
    obtain ⟨c', hc', k1, -⟩ := hg _ _ _ _ e1
    have : c' = c := List.append_cancel_right hc'.symm
    subst this
    rw [hq N _ (by omega)]
    exact k1 r'
  · intro d e hde he
    rw [hq ((c ++ r).length + 1) d (by rw [hde]; simp; omega)]
    exact g2 d e hde he

theorem clean_tail (h : Hdr) (s : Strs) (b : Board) (l : Bytes) : Clean (getTail h s b l) := by
  unfold getTail
  refine clean_bind (clean_events _ _ (by omega)) fun a r _ => ?_
  obtain ⟨es, cs⟩ := a
  cases cs
  · exact clean_ok _
  · exact clean_bind (clean_bytes _ _) fun _ _ _ => clean_ok _

theorem good_parse : Good parseVideo :=
  good_bind good_hdr fun _ => good_bind good_strs fun _ => good_bind (good_board _ _) fun _ =>
    good_tail _ _ _

end Ms.Evf
