import Verif.Lemmas.ParsersStable
import Verif.SpecFormat

/-! # What each reader accepts -/

namespace Ms.Vid
open Ms.Spec

theorem ok_pair {α : Type} {a b : α} {r s : Bytes} :
    (Except.ok (a, r) : Except Fail (α × Bytes)) = .ok (b, s) ↔ a = b ∧ r = s := by
  simp only [Except.ok.injEq, Prod.mk.injEq]

theorem pure_ok {α : Type} {a b : α} {l r : Bytes} : (pure a : Rd α) l = .ok (b, r) ↔ a = b ∧ l = r := by
  rw [pure_eq, ok_pair]

theorem fail_ok {α : Type} {b : α} {l r : Bytes} {e : Fail} : (Rd.fail e : Rd α) l = .ok (b, r) ↔ False := by
  simp [Rd.fail]

theorem u8_ok {l r : Bytes} {b : Nat} : u8 l = .ok (b, r) ↔ l = b :: r := by
  cases l with
  | nil => simp [u8]
  | cons c s => simp only [u8, ok_pair, List.cons.injEq]

theorem u16_ok {l r : Bytes} {n : Nat} : u16 l = .ok (n, r) ↔ ∃ a b, l = a :: b :: r ∧ n = a * 256 + b := by
  simp only [u16, bind_ok, u8_ok, pure_ok]
  constructor
  · rintro ⟨a, r1, rfl, b, r2, rfl, rfl, rfl⟩; exact ⟨a, b, rfl, rfl⟩
  · rintro ⟨a, b, rfl, rfl⟩; exact ⟨a, _, rfl, b, _, rfl, rfl, rfl⟩

theorem u24_ok {l r : Bytes} {n : Nat} :
    u24 l = .ok (n, r) ↔ ∃ a b c, l = a :: b :: c :: r ∧ n = a * 65536 + b * 256 + c := by
  simp only [u24, bind_ok, u8_ok, pure_ok]
  constructor
  · rintro ⟨a, r1, rfl, b, r2, rfl, c, r3, rfl, rfl, rfl⟩; exact ⟨a, b, c, rfl, rfl⟩
  · rintro ⟨a, b, c, rfl, rfl⟩; exact ⟨a, _, rfl, b, _, rfl, c, _, rfl, rfl, rfl⟩

theorem u16_two {l r : Bytes} {n : Nat} (hl : ∀ b ∈ l, b < 256) : u16 l = .ok (n, r) ↔ l = two n ++ r := by
  rw [u16_ok]
  constructor
  · rintro ⟨a, b, rfl, rfl⟩
    have ha := hl a (by simp)
    have hb := hl b (by simp)
    have h1 : (a * 256 + b) / 256 = a := by omega
    have h2 : (a * 256 + b) % 256 = b := by omega
    simp [two, h1, h2]
  · rintro rfl
    refine ⟨n / 256, n % 256, rfl, by omega⟩

theorem u16_run (n : Nat) (r : Bytes) : u16 (two n ++ r) = .ok (n, r) :=
  u16_ok.mpr ⟨n / 256, n % 256, rfl, by omega⟩

theorem skip_ok {l r : Bytes} {k : Nat} {u : Unit} : skip k l = .ok (u, r) ↔ ∃ s, s.length = k ∧ l = s ++ r := by
  unfold skip
  constructor
  · intro h
    split at h
    · cases h
    · rename_i hk
      rw [ok_pair] at h
      exact ⟨l.take k, by simp; omega, by rw [← h.2, List.take_append_drop]⟩
  · rintro ⟨s, rfl, rfl⟩
    simp

theorem take_ok {l r s : Bytes} {n : Nat} : take n l = .ok (s, r) ↔ s.length = n ∧ l = s ++ r := by
  induction n generalizing l s r with
  | zero =>
    simp only [take, pure_ok, List.length_eq_zero_iff]
    constructor
    · rintro ⟨rfl, rfl⟩; exact ⟨rfl, rfl⟩
    · rintro ⟨rfl, rfl⟩; exact ⟨rfl, rfl⟩
  | succ n ih =>
    simp only [take, bind_ok, u8_ok, pure_ok, ih]
    constructor
    · rintro ⟨a, r1, rfl, s', r2, ⟨h1, rfl⟩, rfl, rfl⟩
      exact ⟨by simp [h1], rfl⟩
    · rintro ⟨h, rfl⟩
      cases s with
      | nil => simp at h
      | cons a s' => exact ⟨a, _, rfl, s', _, ⟨by simpa using h, rfl⟩, rfl, rfl⟩

theorem upTo_ok {l r s : Bytes} {c : Nat} : upTo c l = .ok (s, r) ↔ c ∉ s ∧ l = s ++ c :: r := by
  induction l generalizing s with
  | nil => simp [upTo]
  | cons b l ih =>
    simp only [upTo]
    by_cases hb : b = c
    · rw [if_pos hb, ok_pair]
      constructor
      · rintro ⟨rfl, rfl⟩; simp [hb]
      · rintro ⟨h1, h2⟩
        cases s with
        | nil => simp at h2; exact ⟨rfl, h2.2⟩
        | cons x s => simp at h1 h2; exact absurd (hb.symm.trans h2.1) h1.1
    · rw [if_neg hb]
      constructor
      · intro h
        split at h
        · rename_i s' r' hs
          rw [ok_pair] at h
          obtain ⟨rfl, rfl⟩ := h
          obtain ⟨h1, rfl⟩ := ih.mp hs
          exact ⟨by simp [h1, Ne.symm hb], rfl⟩
        · cases h
      · rintro ⟨h1, h2⟩
        cases s with
        | nil => simp at h2; exact absurd h2.1 hb
        | cons x s =>
          simp at h1 h2
          rw [ih.mpr ⟨h1.2, h2.2⟩, h2.1]

/-! ## the scanners of AVF files -/

/-- ends with the mark -/
def EndsMark (t : Bytes) : Prop := ∃ j d, t = j ++ [91, d, 124] ∧ 48 ≤ d ∧ d ≤ 51

theorem endsMark_cons {a : Nat} {t : Bytes} (h : 3 ≤ t.length) : EndsMark (a :: t) ↔ EndsMark t := by
  constructor
  · rintro ⟨j, d, h1, h2⟩
    cases j with
    | nil => have := congrArg List.length h1; simp at this; omega
    | cons x j => simp only [List.cons_append, List.cons.injEq] at h1; exact ⟨j, d, h1.2, h2⟩
  · rintro ⟨j, d, rfl, h2⟩; exact ⟨a :: j, d, rfl, h2⟩

theorem endsMark_three {a b c : Nat} : EndsMark [a, b, c] ↔ a = 91 ∧ 48 ≤ b ∧ b ≤ 51 ∧ c = 124 := by
  constructor
  · rintro ⟨j, d, h1, h2⟩
    cases j with
    | nil => simp at h1; obtain ⟨rfl, rfl, rfl⟩ := h1; exact ⟨rfl, h2.1, h2.2, rfl⟩
    | cons x j => have := congrArg List.length h1; simp at this
  · rintro ⟨rfl, h1, h2, rfl⟩; exact ⟨[], b, rfl, h1, h2⟩

theorem avfMark_ok (b1 b2 : Nat) (l r : Bytes) (u : Unit) : avfMark b1 b2 l = .ok (u, r) ↔
    ∃ s, l = s ++ r ∧ s ≠ [] ∧ EndsMark (b1 :: b2 :: s) ∧ ∀ n, 0 < n → n < s.length → ¬ EndsMark (b1 :: b2 :: s.take n) := by
  induction l generalizing b1 b2 with
  | nil =>
    simp only [avfMark]
    constructor
    · intro h; cases h
    · rintro ⟨s, h1, h2, -⟩
      simp only [List.nil_eq, List.append_eq_nil_iff] at h1
      exact absurd h1.1 h2
  | cons b l ih =>
    simp only [avfMark]
    split
    · rename_i ht
      have hE : EndsMark [b1, b2, b] := endsMark_three.mpr ht
      rw [ok_pair]
      constructor
      · rintro ⟨-, rfl⟩
        refine ⟨[b], rfl, by simp, hE, fun n h1 h2 => ?_⟩
        simp at h2; omega
      · rintro ⟨s, h1, h2, h3, h4⟩
        refine ⟨rfl, ?_⟩
        cases s with
        | nil => exact absurd rfl h2
        | cons x s =>
          simp only [List.cons_append, List.cons.injEq] at h1
          obtain ⟨rfl, h1⟩ := h1
          cases s with
          | nil => simpa using h1
          | cons y s => exact absurd hE (by simpa using h4 1 (by omega) (by simp))
    · rename_i ht
      have hE : ¬ EndsMark [b1, b2, b] := fun h => ht (endsMark_three.mp h)
      rw [ih]
      constructor
      · rintro ⟨s, rfl, h2, h3, h4⟩
        refine ⟨b :: s, rfl, by simp, ?_, fun n h5 h6 => ?_⟩
        · refine (endsMark_cons ?_).mpr h3
          have := List.length_pos_iff.mpr h2
          simp; omega
        · obtain ⟨n, rfl⟩ : ∃ k, n = k + 1 := ⟨n - 1, by omega⟩
          by_cases hn : n = 0
          · subst hn; simpa using hE
          · simp only [List.length_cons] at h6
            rw [List.take_succ_cons, endsMark_cons (by simp; omega)]
            exact h4 n (by omega) (by omega)
      · rintro ⟨s, h1, h2, h3, h4⟩
        cases s with
        | nil => exact absurd rfl h2
        | cons x s =>
          simp only [List.cons_append, List.cons.injEq] at h1
          obtain ⟨rfl, rfl⟩ := h1
          have hs : s ≠ [] := by
            rintro rfl
            exact hE h3
          have hpos := List.length_pos_iff.mpr hs
          refine ⟨s, rfl, hs, (endsMark_cons (by simp; omega)).mp h3, fun n h5 h6 => ?_⟩
          have := h4 (n + 1) (by omega) (by simp; omega)
          rw [List.take_succ_cons, endsMark_cons (by simp; omega)] at this
          exact this

theorem avfMark_shortest {l r : Bytes} {u : Unit} : avfMark 0 0 l = .ok (u, r) ↔
    ∃ s, l = s ++ r ∧ Shortest (fun s => ∃ j d, s = j ++ [91, d, 124] ∧ 48 ≤ d ∧ d ≤ 51) s := by
  have key : ∀ s, EndsMark (0 :: 0 :: s) ↔ EndsMark s := by
    intro s
    constructor
    · rintro ⟨j, d, h1, h2⟩
      match j with
      | [] => simp at h1
      | [_] => simp at h1
      | x :: y :: j => simp only [List.cons_append, List.cons.injEq] at h1; exact ⟨j, d, h1.2.2, h2⟩
    · rintro ⟨j, d, rfl, h2⟩; exact ⟨0 :: 0 :: j, d, rfl, h2⟩
  have hnil : ¬ EndsMark [] := by rintro ⟨j, d, h1, -⟩; simp at h1
  rw [avfMark_ok]
  simp only [key]
  constructor
  · rintro ⟨s, h1, h2, h3, h4⟩
    refine ⟨s, h1, h3, fun n hn => ?_⟩
    by_cases h0 : n = 0
    · subst h0; exact hnil
    · exact h4 n (by omega) hn
  · rintro ⟨s, h1, h3, h4⟩
    exact ⟨s, h1, fun h => hnil (h ▸ h3), h3, fun n _ hn => h4 n hn⟩

/-- ends with `|B` -/
def EndsB (t : Bytes) : Prop := ∃ j, t = j ++ [124, 66]

theorem endsB_cons {a : Nat} {t : Bytes} (h : 2 ≤ t.length) : EndsB (a :: t) ↔ EndsB t := by
  constructor
  · rintro ⟨j, h1⟩
    cases j with
    | nil => have := congrArg List.length h1; simp at this; omega
    | cons x j => simp only [List.cons_append, List.cons.injEq] at h1; exact ⟨j, h1.2⟩
  · rintro ⟨j, rfl⟩; exact ⟨a :: j, rfl⟩

theorem endsB_two {a b : Nat} : EndsB [a, b] ↔ a = 124 ∧ b = 66 := by
  constructor
  · rintro ⟨j, h1⟩
    cases j with
    | nil => simpa using h1
    | cons x j => have := congrArg List.length h1; simp at this
  · rintro ⟨rfl, rfl⟩; exact ⟨[], rfl⟩

theorem avfB_ok (b0 b1 : Nat) (l r : Bytes) (u : Unit) : avfB b0 b1 l = .ok (u, r) ↔
    ∃ s, l = s ++ r ∧ EndsB (b0 :: b1 :: s) ∧ ∀ n < s.length, ¬ EndsB (b0 :: b1 :: s.take n) := by
  induction l generalizing b0 b1 with
  | nil =>
    unfold avfB
    split
    · rename_i h
      rw [ok_pair]
      constructor
      · rintro ⟨-, rfl⟩; exact ⟨[], rfl, endsB_two.mpr h, fun n hn => by simp at hn⟩
      · rintro ⟨s, h1, -⟩
        simp only [List.nil_eq, List.append_eq_nil_iff] at h1
        exact ⟨rfl, h1.2.symm⟩
    · rename_i h
      constructor
      · intro h; cases h
      · rintro ⟨s, h1, h2, -⟩
        simp only [List.nil_eq, List.append_eq_nil_iff] at h1
        rw [h1.1] at h2
        exact absurd (endsB_two.mp h2) h
  | cons b l ih =>
    unfold avfB
    split
    · rename_i ht
      rw [ok_pair]
      constructor
      · rintro ⟨-, rfl⟩; exact ⟨[], rfl, endsB_two.mpr ht, fun n hn => by simp at hn⟩
      · rintro ⟨s, h1, h2, h3⟩
        cases s with
        | nil => exact ⟨rfl, h1⟩
        | cons x s => exact absurd (endsB_two.mpr ht) (by simpa using h3 0 (by simp))
    · rename_i ht
      have hE : ¬ EndsB [b0, b1] := fun h => ht (endsB_two.mp h)
      show avfB b1 b l = _ ↔ _
      rw [ih]
      constructor
      · rintro ⟨s, rfl, h2, h3⟩
        refine ⟨b :: s, rfl, (endsB_cons (by simp)).mpr h2, fun n hn => ?_⟩
        cases n with
        | zero => simpa using hE
        | succ n => rw [List.take_succ_cons, endsB_cons (by simp)]; exact h3 n (by simpa using hn)
      · rintro ⟨s, h1, h2, h3⟩
        cases s with
        | nil => exact absurd h2 hE
        | cons x s =>
          simp only [List.cons_append, List.cons.injEq] at h1
          obtain ⟨rfl, rfl⟩ := h1
          refine ⟨s, rfl, (endsB_cons (by simp)).mp h2, fun n hn => ?_⟩
          have := h3 (n + 1) (by simp; omega)
          rwa [List.take_succ_cons, endsB_cons (by simp)] at this

/-- the byte `v` and what follows -/
theorem avfB_entry (v : Nat) (l : Bytes) :
    (if v = 124 then avfB 0 124 else if v = 66 then avfB 124 66 else avfB 0 0) l = avfB 124 v l := by
  by_cases h1 : v = 124
  · subst h1
    rw [if_pos rfl]
    cases l with
    | nil => simp [avfB]
    | cons b r => rw [avfB, avfB]; simp
  · rw [if_neg h1]
    by_cases h2 : v = 66
    · rw [if_pos h2, h2]
    · rw [if_neg h2]
      cases l with
      | nil => simp [avfB, h2]
      | cons b r =>
        rw [avfB, avfB.eq_def 124 v]
        simp only [h2, and_false, if_false, show ¬ ((0 : Nat) = 124 ∧ (0 : Nat) = 66) from by omega]
        cases r with
        | nil => simp [avfB, h1]
        | cons c r => rw [avfB, avfB.eq_def v b]; simp [h1]

theorem avfB_shortest {l r : Bytes} {u : Unit} :
    avfToB l = .ok (u, r) ↔
    ∃ s, l = s ++ r ∧ Shortest (fun s => ∃ j, 124 :: s = j ++ [124, 66]) s := by
  have hnil : ¬ EndsB [124] := by rintro ⟨j, h⟩; have := congrArg List.length h; simp at this
  simp only [avfToB, bind_ok, u8_ok, avfB_entry, avfB_ok]
  constructor
  · rintro ⟨v, r', rfl, s, rfl, h1, h2⟩
    refine ⟨v :: s, rfl, h1, fun n hn => ?_⟩
    cases n with
    | zero => exact hnil
    | succ n => exact h2 n (by simpa using hn)
  · rintro ⟨s, rfl, h1, h2⟩
    cases s with
    | nil => exact absurd h1 hnil
    | cons v s => exact ⟨v, _, rfl, s, rfl, h1, fun n hn => h2 (n + 1) (by simp; omega)⟩

/-- ends with a byte at most 1 and the byte 1 -/
def EndsStart (t : Bytes) : Prop := ∃ j b c, t = j ++ [c, b, 1] ∧ b ≤ 1

theorem endsStart_cons {a : Nat} {t : Bytes} (h : 3 ≤ t.length) : EndsStart (a :: t) ↔ EndsStart t := by
  constructor
  · rintro ⟨j, b, c, h1, h2⟩
    cases j with
    | nil => have := congrArg List.length h1; simp at this; omega
    | cons x j => simp only [List.cons_append, List.cons.injEq] at h1; exact ⟨j, b, c, h1.2, h2⟩
  · rintro ⟨j, b, c, rfl, h2⟩; exact ⟨a :: j, b, c, rfl, h2⟩

theorem endsStart_three {a b c : Nat} : EndsStart [a, b, c] ↔ c = 1 ∧ b ≤ 1 := by
  constructor
  · rintro ⟨j, d, e, h1, h2⟩
    cases j with
    | nil => simp at h1; obtain ⟨rfl, rfl, rfl⟩ := h1; exact ⟨rfl, h2⟩
    | cons x j => have := congrArg List.length h1; simp at this
  · rintro ⟨rfl, h1⟩; exact ⟨[], b, a, rfl, h1⟩

theorem ends_cons_iff {a : Nat} {t e : Bytes} (h : e.length ≤ t.length) : (∃ j, a :: t = j ++ e) ↔ ∃ j, t = j ++ e := by
  constructor
  · rintro ⟨j, h1⟩
    cases j with
    | nil => have := congrArg List.length h1; simp at this; omega
    | cons x j => simp only [List.cons_append, List.cons.injEq] at h1; exact ⟨j, h1.2⟩
  · rintro ⟨j, rfl⟩; exact ⟨a :: j, rfl⟩

theorem avfStart_ok (b0 b1 b2 : Nat) (l r : Bytes) (p q : Nat) : avfStart b0 b1 b2 l = .ok ((p, q), r) ↔
    ∃ s, l = s ++ r ∧ q ≤ 1 ∧ (∃ j, b0 :: b1 :: b2 :: s = j ++ [p, q, 1]) ∧
      ∀ n < s.length, ¬ EndsStart (b0 :: b1 :: b2 :: s.take n) := by
  have three : ∀ {x y z : Nat}, (∃ j, [x, y, z] = j ++ [p, q, 1]) ↔ x = p ∧ y = q ∧ z = 1 := by
    intro x y z
    constructor
    · rintro ⟨j, h⟩
      cases j with
      | nil => simpa using h
      | cons x j => have := congrArg List.length h; simp at this
    · rintro ⟨rfl, rfl, rfl⟩; exact ⟨[], rfl⟩
  induction l generalizing b0 b1 b2 with
  | nil =>
    unfold avfStart
    split
    · rename_i h
      simp only [Except.ok.injEq, Prod.mk.injEq]
      constructor
      · rintro ⟨⟨rfl, rfl⟩, rfl⟩
        exact ⟨[], rfl, h.2, three.mpr ⟨rfl, rfl, h.1⟩, fun n hn => by simp at hn⟩
      · rintro ⟨s, h1, h2, h3, -⟩
        simp only [List.nil_eq, List.append_eq_nil_iff] at h1
        rw [h1.1] at h3
        obtain ⟨rfl, rfl, -⟩ := three.mp h3
        exact ⟨⟨rfl, rfl⟩, h1.2.symm⟩
    · rename_i h
      constructor
      · intro h; cases h
      · rintro ⟨s, h1, h2, h3, -⟩
        simp only [List.nil_eq, List.append_eq_nil_iff] at h1
        rw [h1.1] at h3
        obtain ⟨rfl, rfl, h4⟩ := three.mp h3
        exact absurd ⟨h4, h2⟩ h
  | cons b l ih =>
    unfold avfStart
    split
    · rename_i ht
      simp only [Except.ok.injEq, Prod.mk.injEq]
      constructor
      · rintro ⟨⟨rfl, rfl⟩, rfl⟩
        exact ⟨[], rfl, ht.2, three.mpr ⟨rfl, rfl, ht.1⟩, fun n hn => by simp at hn⟩
      · rintro ⟨s, h1, h2, h3, h4⟩
        cases s with
        | nil =>
          obtain ⟨rfl, rfl, -⟩ := three.mp h3
          exact ⟨⟨rfl, rfl⟩, h1⟩
        | cons x s => exact absurd (endsStart_three.mpr ht) (by simpa using h4 0 (by simp))
    · rename_i ht
      have hE : ¬ EndsStart [b0, b1, b2] := fun h => ht (endsStart_three.mp h)
      refine Iff.trans (ih b1 b2 b) ?_
      constructor
      · rintro ⟨s, rfl, h1, h2, h3⟩
        refine ⟨b :: s, rfl, h1, (ends_cons_iff (by simp)).mpr h2, fun n hn => ?_⟩
        cases n with
        | zero => simpa using hE
        | succ n => rw [List.take_succ_cons, endsStart_cons (by simp)]; exact h3 n (by simpa using hn)
      · rintro ⟨s, h1, h2, h3, h4⟩
        cases s with
        | nil =>
          obtain ⟨rfl, rfl, h5⟩ := three.mp h3
          exact absurd ⟨h5, h2⟩ ht
        | cons x s =>
          simp only [List.cons_append, List.cons.injEq] at h1
          obtain ⟨rfl, rfl⟩ := h1
          refine ⟨s, rfl, h2, (ends_cons_iff (by simp)).mp h3, fun n hn => ?_⟩
          have := h4 (n + 1) (by simp; omega)
          rwa [List.take_succ_cons, endsStart_cons (by simp)] at this

theorem avfStart_shortest {l r : Bytes} {p q : Nat} : avfStart 0 0 0 l = .ok ((p, q), r) ↔
    ∃ s, l = s ++ r ∧ Shortest (fun s => ∃ j b c, [0, 0] ++ s = j ++ [c, b, 1] ∧ b ≤ 1) s ∧
      ∃ j, [0, 0] ++ s = j ++ [p, q, 1] := by
  have key : ∀ s, EndsStart (0 :: 0 :: 0 :: s) ↔ EndsStart ([0, 0] ++ s) := by
    intro s
    cases s with
    | nil =>
      rw [endsStart_three]
      constructor
      · intro h; omega
      · rintro ⟨j, b, c, h, -⟩
        have := congrArg List.length h
        simp at this
    | cons x s => exact endsStart_cons (by simp)
  rw [avfStart_ok]
  simp only [key]
  constructor
  · rintro ⟨s, h1, h2, ⟨j, h3⟩, h4⟩
    have hs : ∃ j, [0, 0] ++ s = j ++ [p, q, 1] := by
      cases s with
      | nil =>
        match j with
        | [] => simp at h3
        | x :: j => have := congrArg List.length h3; simp at this
      | cons x s => exact (ends_cons_iff (by simp)).mp ⟨j, h3⟩
    obtain ⟨j', h5⟩ := hs
    exact ⟨s, h1, ⟨⟨j', q, p, h5, h2⟩, fun n hn => h4 n hn⟩, j', h5⟩
  · rintro ⟨s, h1, ⟨⟨j, b, c, h2, h3⟩, h4⟩, j', h5⟩
    have : j = j' ∧ [c, b, 1] = [p, q, 1] := List.append_inj' (h2.symm.trans h5) rfl
    simp only [List.cons.injEq, and_true] at this
    obtain ⟨rfl, rfl, rfl⟩ := this
    exact ⟨s, h1, h3, ⟨0 :: j, by simpa using h5⟩, fun n hn => h4 n hn⟩

/-! ## the mines -/

theorem readMines_layout {bad : Nat → Nat → Bool} {e : Fail} {cell : Nat → Nat → Pos} (n : Nat) (b b' : Board)
    (l r : Bytes) : readMines bad e cell n b l = .ok (b', r) ↔
    ∃ ps : List (Nat × Nat), ps.length = n ∧ (∀ q ∈ ps, bad q.1 q.2 = false) ∧ l = flat2 ps ++ r ∧
      b' = ps.foldl (fun b q => b.set (cell q.1 q.2).1 (cell q.1 q.2).2 (-1)) b := by
  induction n generalizing b l with
  | zero =>
    rw [readMines, pure_ok]
    constructor
    · rintro ⟨rfl, rfl⟩; exact ⟨[], rfl, by simp, rfl, rfl⟩
    · rintro ⟨ps, h1, -, h3, h4⟩
      obtain rfl := List.length_eq_zero_iff.mp h1
      exact ⟨h4.symm, h3⟩
  | succ n ih =>
    simp only [readMines, bind_ok, u8_ok]
    constructor
    · rintro ⟨c, r1, rfl, d, r2, rfl, h⟩
      split at h
      · cases h
      · rename_i hb
        obtain ⟨ps, h1, h2, rfl, rfl⟩ := (ih _ _).mp h
        refine ⟨(c, d) :: ps, by simp [h1], ?_, rfl, rfl⟩
        intro q hq
        rcases List.mem_cons.mp hq with rfl | hq
        · simpa using hb
        · exact h2 q hq
    · rintro ⟨ps, h1, h2, rfl, rfl⟩
      cases ps with
      | nil => simp at h1
      | cons q ps =>
        refine ⟨q.1, _, rfl, q.2, _, rfl, ?_⟩
        rw [if_neg (by simp [h2 q (by simp)])]
        exact (ih _ _).mpr ⟨ps, by simpa using h1, fun q hq => h2 q (by simp [hq]), rfl, rfl⟩

/-- marking cells -/
theorem setMines_spec {h w : Nat} (M : List Pos) (b : Board) (hR : Rect b h w) (hM : ∀ p ∈ M, p.1 < h ∧ p.2 < w) :
    Rect (M.foldl (fun b q => b.set q.1 q.2 (-1)) b) h w ∧
    ∀ i j, (M.foldl (fun b q => b.set q.1 q.2 (-1)) b).get i j = if (i, j) ∈ M then -1 else b.get i j := by
  induction M generalizing b with
  | nil => exact ⟨hR, fun i j => by simp⟩
  | cons p M ih =>
    obtain ⟨h1, h2⟩ := ih (b.set p.1 p.2 (-1)) (rect_set hR _ _ _) (fun q hq => hM q (by simp [hq]))
    refine ⟨h1, fun i j => ?_⟩
    have hp := hM p (by simp)
    rw [List.foldl_cons, h2, get_set hR hp.1 hp.2]
    by_cases hm : (i, j) ∈ M
    · simp [hm]
    · by_cases hq : i = p.1 ∧ j = p.2
      · obtain ⟨rfl, rfl⟩ := hq; simp
      · have : (i, j) ≠ p := by
          intro h; subst h; exact hq ⟨rfl, rfl⟩
        simp [hm, hq, this]

theorem boardOf_unique {h w : Nat} (hh : 0 < h) {M : List Pos} {b b' : Board} (hb : BoardOf h w M b) (hb' : BoardOf h w M b') :
    b = b' := by
  obtain ⟨r1, n1, m1⟩ := hb
  obtain ⟨r2, n2, m2⟩ := hb'
  have hv : ∀ {x : Board}, Rect x h w → vcells x.view = grid h w := by
    intro x hx
    show grid x.row x.col = _
    rw [hx.row_eq, hx.col_eq hh]
  have e1 : mines b.view = mines b'.view := by
    ext p
    simp only [mines, Finset.mem_filter, hv r1, hv r2]
    refine and_congr_right fun hp => ?_
    have := mem_grid.mp hp
    exact (m1 p.1 p.2 this.1 this.2).trans (m2 p.1 p.2 this.1 this.2).symm
  refine Board.ext_get r1 r2 fun i j hi hj => ?_
  have hp : (i, j) ∈ grid h w := mem_grid.mpr ⟨hi, hj⟩
  by_cases hm : (i, j) ∈ M
  · rw [(m1 i j hi hj).mpr hm, (m2 i j hi hj).mpr hm]
  · have q1 : val b.view (i, j) ≠ -1 := fun h => hm ((m1 i j hi hj).mp h)
    have q2 : val b'.view (i, j) ≠ -1 := fun h => hm ((m2 i j hi hj).mp h)
    have a1 := n1 (i, j) (by rw [hv r1]; exact hp) q1
    have a2 := n2 (i, j) (by rw [hv r2]; exact hp) q2
    rw [e1] at a1
    exact a1.trans a2.symm

/-- the board of a file, in the three parsers -/
theorem calBoardNumbers_boardOf {h w : Nat} (hh : 0 < h) (M : List Pos) (hM : ∀ p ∈ M, p.1 < h ∧ p.2 < w) (b : Board) :
    calBoardNumbers (M.foldl (fun b q => b.set q.1 q.2 (-1)) (Board.build h w fun _ _ => 0)) = some b ↔ BoardOf h w M b := by
  have hR := rect_build h w (fun _ _ => (0 : Int))
  obtain ⟨h1, h2⟩ := setMines_spec M _ hR hM
  set b0 := M.foldl (fun b q => b.set q.1 q.2 (-1)) (Board.build h w fun _ _ => 0) with hb0
  have hv : ∀ {x : Board}, Rect x h w → vcells x.view = grid h w := by
    intro x hx
    show grid x.row x.col = _
    rw [hx.row_eq, hx.col_eq hh]
  have hval : ∀ p ∈ grid h w, val b0.view p = if p ∈ M then -1 else 0 := by
    intro p hp
    have := mem_grid.mp hp
    show b0.get p.1 p.2 = _
    rw [h2, get_build _ this.1 this.2]
  obtain ⟨b', c1, c2, c3, c4, -⟩ := Ms.Properties.C03_cal_board_numbers b0 h w hh h1 (by
    intro p hp
    rw [hv h1] at hp
    rw [hval p hp]
    split
    · exact .inr rfl
    · exact .inl rfl)
  have hB : BoardOf h w M b' := by
    refine ⟨c2, c4, fun i j hi hj => ?_⟩
    have hp : (i, j) ∈ grid h w := mem_grid.mpr ⟨hi, hj⟩
    have : (i, j) ∈ mines b'.view ↔ (i, j) ∈ mines b0.view := by rw [c3]
    simp only [mines, Finset.mem_filter, hv c2, hv h1, hp, true_and, hval _ hp] at this
    constructor
    · intro hx
      have := this.mp hx
      by_contra hm
      simp [hm] at this
    · intro hx
      exact this.mpr (by simp [hx])
  rw [c1]
  constructor
  · intro h; cases h; exact hB
  · intro h; rw [boardOf_unique hh hB h]

end Ms.Vid
