import Verif.Lemmas.Features

/-! # `analyse_super_fl_local` -/

namespace Ms
open Spec MSB Properties

namespace Feat

variable {v : View} {A : Replay} {pix : Nat}

/-- The previous event that is no movement (0 before the first). -/
def LastOf (A : Replay) (l i : Nat) : Prop :=
  (l = 0 ∨ NoMove A.recs l) ∧ l < i ∧ ∀ m, l < m → m < i → ¬ NoMove A.recs m

/-- a flag or a chord -/
def IsStep (A : Replay) (pix i : Nat) : Prop := FlagStep A pix i ∨ ChordStep A pix i

open Classical in
/-- the number of flags and chords from `a` to before `i` -/
noncomputable def cntSteps (A : Replay) (pix a i : Nat) : Nat := ((Finset.Ico a i).filter (IsStep A pix)).card

theorem stepCount_eq (a e : Nat) : stepCount A pix a e = cntSteps A pix a (e + 1) := by
  unfold stepCount cntSteps
  congr 1
  ext l
  simp [IsStep, Nat.lt_succ_iff]

theorem cntSteps_succ_of {a i : Nat} (ha : a ≤ i) (h : IsStep A pix i) : cntSteps A pix a (i + 1) = cntSteps A pix a i + 1 := by
  classical
  unfold cntSteps
  rw [← Finset.insert_Ico_right_eq_Ico_add_one ha, Finset.filter_insert, if_pos h, Finset.card_insert_of_notMem (by simp)]

theorem cntSteps_succ_not {a i : Nat} (h : ¬ IsStep A pix i) : cntSteps A pix a (i + 1) = cntSteps A pix a i := by
  classical
  unfold cntSteps
  rcases Nat.lt_or_ge i a with ha | ha
  · rw [Finset.Ico_eq_empty (by omega), Finset.Ico_eq_empty (by omega)]
  · rw [← Finset.insert_Ico_right_eq_Ico_add_one ha, Finset.filter_insert, if_neg h]

theorem cntSteps_self {a : Nat} : cntSteps A pix a a = 0 := by simp [cntSteps]

theorem cntSteps_mono {a i j : Nat} (h : i ≤ j) : cntSteps A pix a i ≤ cntSteps A pix a j := by
  classical
  unfold cntSteps
  exact Finset.card_le_card (Finset.filter_subset_filter _ (Finset.Ico_subset_Ico (le_refl _) h))

/-- A run going on: the events before `i` are dealt with, those before `f` did not end it. -/
structure Running (A : Replay) (pix : Nat) (t : FL) (i f : Nat) : Prop where
  le : f ≤ i
  pos : 1 ≤ t.anchor
  lt : t.anchor < i
  begins : RunBegins A pix t.anchor
  flag : FlagStep A pix t.anchor
  unbroken : ∀ l, t.anchor < l → l < i → ¬ BreakStep A pix l
  going : ∀ l, t.anchor < l → l < f → ¬ EndAt A pix t.anchor l
  count : t.counter = cntSteps A pix t.anchor i
  now : t.state = .startNow ↔ ∀ l, t.anchor < l → l < i → ¬ IsStep A pix l
  chord : (t.counter = t.lastRc ∧ ∀ l, t.anchor < l → l < i → ¬ ChordStep A pix l) ∨
    ∃ e, t.anchor < e ∧ e < i ∧ ChordStep A pix e ∧ (∀ l, e < l → l < i → ¬ ChordStep A pix l) ∧
      t.counter - t.lastRc = stepCount A pix t.anchor e
  ok : t.state = .isOk ↔ ∃ e, t.anchor < e ∧ e < f ∧ ChordStep A pix e ∧ 5 ≤ stepCount A pix t.anchor e
  state : t.state = .startNow ∨ t.state = .startNotOk ∨ t.state = .isOk

section
variable {t : FL} {i : Nat}

theorem upto {P : Nat → Prop} {a : Nat} (h : ∀ l, a < l → l < i → P l) (hi : P i) : ∀ l, a < l → l < i + 1 → P l := by
  intro l l1 l2
  rcases Nat.lt_or_ge l i with hl | hl
  · exact h l l1 hl
  · rw [show l = i by omega]; exact hi

/-- an event that is no step and does not break the run -/
theorem Running.idle (h : Running A pix t i i) (hs : ¬ IsStep A pix i) (hb : ¬ BreakStep A pix i) :
    Running A pix t (i + 1) i := by
  have hlt := h.lt
  refine ⟨by omega, h.pos, by omega, h.begins, h.flag, upto h.unbroken hb, h.going, by rw [cntSteps_succ_not hs]; exact h.count,
    h.now.trans ⟨fun hh => upto hh hs, fun hh l l1 l2 => hh l l1 (by omega)⟩, ?_, h.ok, h.state⟩
  rcases h.chord with hc | ⟨e, e1, e2, e3, e4, e5⟩
  · exact .inl ⟨hc.1, upto hc.2 fun hh => hs (.inr hh)⟩
  · exact .inr ⟨e, e1, by omega, e3, upto e4 fun hh => hs (.inr hh), e5⟩

/-- `i` does not end the run -/
theorem Running.near (h : Running A pix t (i + 1) i) (hn : ¬ EndAt A pix t.anchor i) : Running A pix t.enough (i + 1) (i + 1) := by
  have hok : t.counter - t.lastRc ≥ 5 ↔ ∃ e, t.anchor < e ∧ e < i + 1 ∧ ChordStep A pix e ∧ 5 ≤ stepCount A pix t.anchor e := by
    rcases h.chord with hc | ⟨e, e1, e2, e3, e4, e5⟩
    · exact ⟨fun hh => by omega, fun ⟨e, e1, e2, e3, _⟩ => absurd e3 (hc.2 e e1 e2)⟩
    · refine ⟨fun hh => ⟨e, e1, e2, e3, by omega⟩, fun ⟨e', f1, f2, f3, f4⟩ => ?_⟩
      have : e' ≤ e := by
        by_contra hlt
        exact e4 e' (by omega) f2 f3
      have := cntSteps_mono (A := A) (pix := pix) (a := t.anchor) (show e' + 1 ≤ e + 1 by omega)
      rw [← stepCount_eq, ← stepCount_eq] at this
      omega
  have hgo := upto h.going hn
  unfold FL.enough
  by_cases hc : t.counter - t.lastRc ≥ 5 ∧ (t.state = .startNow ∨ t.state = .startNotOk)
  · rw [if_pos hc]
    refine ⟨le_refl _, h.pos, h.lt, h.begins, h.flag, h.unbroken, hgo, h.count, ⟨fun hh => by simp at hh, fun hh => ?_⟩, h.chord,
      ⟨fun _ => hok.mp hc.1, fun _ => rfl⟩, .inr (.inr rfl)⟩
    obtain ⟨e, e1, e2, e3, -⟩ := hok.mp hc.1
    exact absurd (.inr e3) (hh e e1 e2)
  · rw [if_neg hc]
    refine ⟨le_refl _, h.pos, h.lt, h.begins, h.flag, h.unbroken, hgo, h.count, h.now, h.chord, ?_, h.state⟩
    rw [← hok]
    constructor
    · intro hh
      obtain ⟨e, e1, e2, e3, e4⟩ := h.ok.mp hh
      exact hok.mpr ⟨e, e1, by omega, e3, e4⟩
    · intro hh
      rcases h.state with h2 | h2 | h2
      · exact absurd ⟨hh, .inl h2⟩ hc
      · exact absurd ⟨hh, .inr h2⟩ hc
      · exact h2

/-- a flag begins a run -/
theorem Running.begin (hi : 1 ≤ i) (hf : FlagStep A pix i) (hb : RunBegins A pix i) :
    Running A pix { t with state := .startNow, counter := 1, lastRc := 1, anchor := i } (i + 1) i := by
  refine ⟨by omega, hi, by simp, hb, hf, fun l l1 l2 => by simp only at l1; omega, fun l l1 l2 => by simp only at l1; omega, ?_,
    ⟨fun _ l l1 l2 => by simp only at l1; omega, fun _ => rfl⟩, .inl ⟨rfl, fun l l1 l2 => by simp only at l1; omega⟩,
    ⟨fun hs => by simp at hs, fun ⟨e, e1, e2, _⟩ => by simp only at e1; omega⟩, by simp⟩
  rw [cntSteps_succ_of (le_refl _) (.inl hf), cntSteps_self]
  rfl

theorem Running.flagStep (h : Running A pix t i i) (hf : FlagStep A pix i) (hnc : ¬ ChordStep A pix i) (hb : ¬ BreakStep A pix i) :
    Running A pix (t.flag i) (i + 1) i := by
  have hcnt := cntSteps_succ_of (A := A) (pix := pix) (a := t.anchor) (by have := h.lt; omega) (.inl hf)
  have hun := upto h.unbroken hb
  have hnow : ¬ ∀ l, t.anchor < l → l < i + 1 → ¬ IsStep A pix l := fun hh => hh i h.lt (by omega) (.inl hf)
  have hch : (t.counter + 1 = t.lastRc + 1 ∧ ∀ l, t.anchor < l → l < i + 1 → ¬ ChordStep A pix l) ∨
      ∃ e, t.anchor < e ∧ e < i + 1 ∧ ChordStep A pix e ∧ (∀ l, e < l → l < i + 1 → ¬ ChordStep A pix l) ∧
      t.counter + 1 - (t.lastRc + 1) = stepCount A pix t.anchor e := by
    rcases h.chord with hc | ⟨e, e1, e2, e3, e4, e5⟩
    · exact .inl ⟨by omega, upto hc.2 hnc⟩
    · exact .inr ⟨e, e1, by omega, e3, upto e4 hnc, by omega⟩
  have hc := h.count
  have hlt := h.lt
  have hok := h.ok
  unfold FL.flag
  rcases h.state with hs | hs | hs
  · rw [hs] at hok ⊢
    exact ⟨by omega, h.pos, by simp only; omega, h.begins, h.flag, hun, h.going, by simp only; omega,
      ⟨fun hn => by simp at hn, fun hh => absurd hh hnow⟩, hch, by simpa using hok, by simp⟩
  · rw [hs] at hok ⊢
    exact ⟨by omega, h.pos, by simp only; omega, h.begins, h.flag, hun, h.going, by simp only; omega,
      ⟨fun hn => by simp [hs] at hn, fun hh => absurd hh hnow⟩, hch, by simpa [hs] using hok, by simp [hs]⟩
  · rw [hs] at hok ⊢
    exact ⟨by omega, h.pos, by simp only; omega, h.begins, h.flag, hun, h.going, by simp only; omega,
      ⟨fun hn => by simp [hs] at hn, fun hh => absurd hh hnow⟩, hch, by simpa [hs] using hok, by simp [hs]⟩

theorem Running.chordStep (h : Running A pix t i i) (hf : ChordStep A pix i) (hb : ¬ BreakStep A pix i) :
    Running A pix t.chord (i + 1) i := by
  have hcnt := cntSteps_succ_of (A := A) (pix := pix) (a := t.anchor) (by have := h.lt; omega) (.inr hf)
  have hun := upto h.unbroken hb
  have hnow : ¬ ∀ l, t.anchor < l → l < i + 1 → ¬ IsStep A pix l := fun hh => hh i h.lt (by omega) (.inr hf)
  have hc := h.count
  have hlt := h.lt
  have hok := h.ok
  have hch : (t.counter + 1 = 0 ∧ ∀ l, t.anchor < l → l < i + 1 → ¬ ChordStep A pix l) ∨
      ∃ e, t.anchor < e ∧ e < i + 1 ∧ ChordStep A pix e ∧ (∀ l, e < l → l < i + 1 → ¬ ChordStep A pix l) ∧
      t.counter + 1 - 0 = stepCount A pix t.anchor e :=
    .inr ⟨i, hlt, by omega, hf, fun l l1 l2 => by omega, by rw [stepCount_eq, hcnt]; omega⟩
  unfold FL.chord
  rcases h.state with hs | hs | hs
  · rw [hs] at hok ⊢
    exact ⟨by omega, h.pos, by simp only; omega, h.begins, h.flag, hun, h.going, by simp only; omega,
      ⟨fun hn => by simp at hn, fun hh => absurd hh hnow⟩, hch, by simpa using hok, by simp⟩
  · rw [hs] at hok ⊢
    exact ⟨by omega, h.pos, by simp only; omega, h.begins, h.flag, hun, h.going, by simp only; omega,
      ⟨fun hn => by simp [hs] at hn, fun hh => absurd hh hnow⟩, hch, by simpa [hs] using hok, by simp [hs]⟩
  · rw [hs] at hok ⊢
    exact ⟨by omega, h.pos, by simp only; omega, h.begins, h.flag, hun, h.going, by simp only; omega,
      ⟨fun hn => by simp [hs] at hn, fun hh => absurd hh hnow⟩, hch, by simpa [hs] using hok, by simp [hs]⟩

theorem runEnds_unique {a i j : Nat} (h : RunEnds A pix a i) (h' : RunEnds A pix a j) : i = j := by
  rcases Nat.lt_trichotomy i j with hl | hl | hl
  · exact absurd h.2.1 (h'.2.2 i h.1 hl)
  · exact hl
  · exact absurd h'.2.1 (h.2.2 j h'.1 hl)

/-- the run ends here, with a comment -/
theorem Running.ended {f : Nat} (h : Running A pix t f i) (hf : f = i ∨ f = i + 1) (hx : f = i → ¬ ChordStep A pix i)
    (he : RunEnds A pix t.anchor i) (hok : t.state = .isOk) :
    ∃ n : Nat, t.counter - t.lastRc = n ∧ FLRun A pix t.anchor n := by
  rcases h.chord with hc | ⟨e, e1, e2, e3, e4, e5⟩
  · obtain ⟨e, e1, e2, e3, e4⟩ := h.ok.mp hok
    exact absurd e3 (hc.2 e e1 (by omega))
  · refine ⟨_, e5, h.begins, i, e, he, h.ok.mp hok, e1, by omega, e3, fun l l1 l2 => ?_, rfl⟩
    rcases hf with hf | hf
    · rcases Nat.lt_or_ge l i with hl | hl
      · exact e4 l l1 (by omega)
      · rw [show l = i by omega]; exact hx hf
    · exact e4 l l1 (by omega)

/-- ... without one -/
theorem Running.silent {f : Nat} (h : Running A pix t f i) (he : RunEnds A pix t.anchor i) (hok : t.state ≠ .isOk) (n : Nat) :
    ¬ FLRun A pix t.anchor n := by
  rintro ⟨-, i', e, h1, h2, -⟩
  rw [runEnds_unique h1 he] at h2
  exact hok (h.ok.mpr h2)

theorem flRun_unique {a n m : Nat} (h : FLRun A pix a n) (h' : FLRun A pix a m) : n = m := by
  obtain ⟨-, i, e, h1, -, h2, h3, h4, h5, h6⟩ := h
  obtain ⟨-, i', e', g1, -, g2, g3, g4, g5, g6⟩ := h'
  have := runEnds_unique h1 g1
  subst this
  rw [h6, g6]
  rcases Nat.lt_trichotomy e e' with hl | hl | hl
  · exact absurd g4 (h5 e' hl g3)
  · rw [hl]
  · exact absurd h4 (g5 e hl h3)

end

theorem lastOf_unique {l m i : Nat} (h : LastOf A m i) (hc : Consecutive (NoMove A.recs) l i) : l = m := by
  obtain ⟨c1, c2, c3, c4⟩ := hc
  obtain ⟨m1, m2, m3⟩ := h
  rcases Nat.lt_trichotomy l m with h1 | h1 | h1
  · rcases m1 with m1 | m1
    · omega
    · exact absurd m1 (c4 m h1 m2)
  · exact h1
  · rcases c1 with c1 | c1
    · omega
    · exact absurd c1 (m3 l h1 c2)

theorem board_look {b : Board} {p : Pos} : (b[p.1]?.bind fun l => l[p.2]?) = some 10 ↔ b.get p.1 p.2 = 10 := by
  unfold Board.get
  rw [List.getD_eq_getElem?_getD, List.getD_eq_getElem?_getD]
  cases h : b[p.1]? with
  | none => simp
  | some l =>
    simp only [Option.bind_some, Option.getD_some]
    cases h2 : l[p.2]? <;> simp

theorem board_off {b : Board} {r c : Nat} (hb : Rect b r c) {p : Pos} :
    (b[p.1]?.bind fun l => l[p.2]?) = none ↔ p ∉ grid r c := by
  rw [mem_grid]
  cases h : b[p.1]? with
  | none =>
    have := List.getElem?_eq_none_iff.mp h
    rw [hb.1] at this
    simp; omega
  | some l =>
    obtain ⟨h1, h2⟩ := List.getElem?_eq_some_iff.mp h
    have := hb.2 l (h2 ▸ List.getElem_mem _)
    rw [hb.1] at h1
    simp only [Option.bind_some, List.getElem?_eq_none_iff]
    omega

/-- the facts about the step at event `i` -/
structure At (A : Replay) (pix i : Nat) (r q : Rec) (b : Board) (last : Nat) : Prop where
  atRec : A.recs[i]? = some r
  ev : r.ev ≠ .mv
  prev : A.recs[last]? = some q
  isLast : LastOf A last i
  board : A.stream.getD r.prior [] = b

variable {i : Nat} {r q : Rec} {b : Board} {last : Nat}

theorem At.cons (h : At A pix i r q b last) : Consecutive (NoMove A.recs) last i :=
  ⟨h.isLast.1, h.isLast.2.1, ⟨r, h.atRec, h.ev⟩, h.isLast.2.2⟩

theorem At.flag_iff (h : At A pix i r q b last) : FlagStep A pix i ↔
    r.ev = .rc ∧ r.useful = 1 ∧ b.get (r.cell pix).1 (r.cell pix).2 = 10 := by
  unfold FlagStep
  rw [h.atRec]
  constructor
  · rintro ⟨r', h1, h2⟩
    simp only [Option.some.injEq] at h1
    subst h1
    rwa [h.board] at h2
  · intro h2
    exact ⟨r, rfl, by rwa [h.board]⟩

theorem At.chord_iff (h : At A pix i r q b last) : ChordStep A pix i ↔
    r.useful = 3 ∧ isGoodChording b (r.cell pix) = some true := by
  unfold ChordStep
  rw [h.atRec]
  constructor
  · rintro ⟨r', h1, -, h2⟩
    simp only [Option.some.injEq] at h1
    subst h1
    rwa [h.board] at h2
  · intro h2
    exact ⟨r, rfl, h.ev, by rwa [h.board]⟩

theorem At.break_iff (h : At A pix i r q b last) : BreakStep A pix i ↔
    ((r.useful = 3 ∧ isGoodChording b (r.cell pix) = some false) ∨
     (r.useful ≠ 3 ∧ (r.ev = .lr ∧ (q.mouseSt = .downUp ∨ q.mouseSt = .chording) ∨ r.ev = .rr ∧ q.mouseSt = .chording))) := by
  constructor
  · rintro ⟨l, r', q', h1, h2, h3, h4⟩
    have := lastOf_unique h.isLast h1
    subst this
    rw [h.atRec, Option.some.injEq] at h2
    rw [h.prev, Option.some.injEq] at h3
    subst h2 h3
    rwa [h.board] at h4
  · intro h4
    exact ⟨last, r, q, h.cons, h.atRec, h.prev, by rwa [h.board]⟩

theorem At.far_iff (h : At A pix i r q b last) : FarStep A pix i ↔ dist2 (r.cell pix) (q.cell pix) > 16 := by
  constructor
  · rintro ⟨l, r', q', h1, h2, h3, h4⟩
    have := lastOf_unique h.isLast h1
    subst this
    rw [h.atRec, Option.some.injEq] at h2
    rw [h.prev, Option.some.injEq] at h3
    subst h2 h3
    exact h4
  · intro h4
    exact ⟨last, r, q, h.cons, h.atRec, h.prev, h4⟩

theorem At.tooFar_iff (h : At A pix i r q b last) : TooFar A pix i ↔ dist2 (r.cell pix) (q.cell pix) ≥ 2 ^ 31 := by
  constructor
  · rintro ⟨l, r', q', h1, h2, h3, h4⟩
    have := lastOf_unique h.isLast h1
    subst this
    rw [h.atRec, Option.some.injEq] at h2
    rw [h.prev, Option.some.injEq] at h3
    subst h2 h3
    exact h4
  · intro h4
    exact ⟨last, r, q, h.cons, h.atRec, h.prev, h4⟩

/-- Events that end the analysis with a panic. -/
def BadStep (r c : Nat) (A : Replay) (pix : Nat) (e : Rec) : Prop :=
  (e.ev = .rc ∧ e.cell pix ∉ grid r c) ∨
  (e.ev ≠ .mv ∧ e.useful = 3 ∧ isGoodChording (A.stream.getD e.prior []) (e.cell pix) = none)

theorem At.move {rr cc : Nat} (h : At A pix i r q b last) (hb : Rect b rr cc) (t : FL) :
    (BadStep rr cc A pix r ∧ flMove t i b r q (r.cell pix) = none) ∨
    ¬ BadStep rr cc A pix r ∧ ∃ t', flMove t i b r q (r.cell pix) = some t' ∧
     ((FlagStep A pix i ∧ ¬ BreakStep A pix i ∧ t' = t.flag i) ∨ (ChordStep A pix i ∧ ¬ BreakStep A pix i ∧ t' = t.chord) ∨
      (BreakStep A pix i ∧ t' = t.break) ∨ (¬ IsStep A pix i ∧ ¬ BreakStep A pix i ∧ t' = t)) := by
  unfold flMove BadStep IsStep
  rw [h.flag_iff, h.chord_iff, h.break_iff, h.board]
  simp only [board_off hb, board_look]
  have hev := h.ev
  by_cases h1 : r.ev = .rc ∧ r.cell pix ∉ grid rr cc
  · rw [if_pos h1]; exact .inl ⟨.inl h1, rfl⟩
  rw [if_neg h1]
  by_cases h2 : r.ev = .rc ∧ b.get (r.cell pix).1 (r.cell pix).2 = 10 ∧ r.useful = 1
  · rw [if_pos h2]
    right
    refine ⟨?_, _, rfl, .inl ⟨⟨h2.1, h2.2.2, h2.2.1⟩, ?_, rfl⟩⟩
    · rintro (h3 | h3)
      · exact h1 h3
      · omega
    · rintro (h3 | h3)
      · omega
      · simp [h2.1] at h3
  rw [if_neg h2]
  by_cases h3 : r.useful = 3
  · rw [if_pos h3]
    cases hgc : isGoodChording b (r.cell pix) with
    | none => exact .inl ⟨.inr ⟨hev, h3, rfl⟩, rfl⟩
    | some g =>
      right
      refine ⟨?_, _, rfl, ?_⟩
      · rintro (h4 | h4)
        · exact h1 h4
        · simp at h4
      · cases g
        · exact .inr (.inr (.inl ⟨.inl ⟨h3, rfl⟩, rfl⟩))
        · refine .inr (.inl ⟨⟨h3, rfl⟩, ?_, rfl⟩)
          rintro (h4 | h4)
          · simp at h4
          · exact h4.1 h3
  rw [if_neg h3]
  have hnb : ¬ ((r.ev = .rc ∧ r.cell pix ∉ grid rr cc) ∨ (r.ev ≠ .mv ∧ r.useful = 3 ∧ isGoodChording b (r.cell pix) = none)) := by
    rintro (h4 | h4)
    · exact h1 h4
    · exact h3 h4.2.1
  right
  refine ⟨hnb, ?_⟩
  split
  · rename_i h5
    exact ⟨_, rfl, .inr (.inr (.inl ⟨.inr ⟨h3, h5⟩, rfl⟩))⟩
  · rename_i h5
    refine ⟨_, rfl, .inr (.inr (.inr ⟨?_, ?_, rfl⟩))⟩
    · rintro (h6 | h6)
      · exact h2 ⟨h6.1, h6.2.2, h6.2.1⟩
      · exact h3 h6.1
    · rintro (h6 | h6)
      · exact h3 h6.1
      · exact h5 h6.2

/-- a run that is over before `i` -/
def Over (A : Replay) (pix j i : Nat) : Prop := RunBegins A pix j ∧ ∃ i', i' < i ∧ RunEnds A pix j i'

/-- the comments, and which runs there are, before event `i` -/
structure Done (A : Replay) (pix : Nat) (F0 F : Feat) (i : Nat) (anchor : Option Nat) : Prop where
  unsaid : ∀ j, ¬ Over A pix j i → F.comments[j]? = F0.comments[j]?
  said : ∀ j n, Over A pix j i → FLRun A pix j n → F.comments[j]? = (F0.comments[j]?).map (· ++ [.superFL n])
  silent : ∀ j, Over A pix j i → (∀ n, ¬ FLRun A pix j n) → F.comments[j]? = F0.comments[j]?
  begun : ∀ j, RunBegins A pix j → j < i →
    (∃ i', RunEnds A pix j i' ∧ i' < i ∧ ∀ a ∈ anchor, i' < a) ∨ anchor = some j

/-- no run is going on -/
def IdleFL (A : Replay) (pix i : Nat) : Prop :=
  (∀ l, 1 ≤ l → l < i → ¬ FlagStep A pix l) ∨
  ∃ a i', RunBegins A pix a ∧ RunEnds A pix a i' ∧ i' < i ∧ ∀ l, i' < l → l < i → ¬ FlagStep A pix l

theorem runBegins_flag {a : Nat} (h : RunBegins A pix a) : 1 ≤ a ∧ FlagStep A pix a := by
  cases h with
  | first h1 h2 _ => exact ⟨h1, h2⟩
  | next _ h1 h2 h3 _ => exact ⟨by omega, h3⟩

variable {F0 F F' : Feat}

/-- nothing ends at `i` -/
theorem Done.skip {anchor : Option Nat} (h : Done A pix F0 F i anchor) (ha : ∀ a ∈ anchor, ¬ RunEnds A pix a i)
    (hb : ¬ RunBegins A pix i) : Done A pix F0 F (i + 1) anchor := by
  have hover : ∀ j, Over A pix j (i + 1) ↔ Over A pix j i := by
    intro j
    constructor
    · rintro ⟨h1, i', h2, h3⟩
      refine ⟨h1, i', ?_, h3⟩
      rcases Nat.lt_or_ge i' i with hl | hl
      · exact hl
      exfalso
      have hii : i' = i := by omega
      rw [hii] at h3
      rcases h.begun j h1 h3.1 with ⟨i'', g1, g2, -⟩ | g
      · have := runEnds_unique g1 h3; omega
      · exact ha j g h3
    · rintro ⟨h1, i', h2, h3⟩
      exact ⟨h1, i', by omega, h3⟩
  refine ⟨fun j => by rw [hover]; exact h.unsaid j, fun j n => by rw [hover]; exact h.said j n, fun j => by rw [hover]; exact h.silent j,
    fun j hj hji => ?_⟩
  have hji' : j < i := by
    rcases Nat.lt_or_ge j i with hl | hl
    · exact hl
    · exact absurd (show j = i by omega) (fun he => hb (he ▸ hj))
  rcases h.begun j hj hji' with ⟨i', g1, g2, g3⟩ | g
  · exact .inl ⟨i', g1, by omega, g3⟩
  · exact .inr g

/-- a run begins at `i` -/
theorem Done.begin (h : Done A pix F0 F i none) : Done A pix F0 F (i + 1) (some i) := by
  have hover : ∀ j, Over A pix j (i + 1) ↔ Over A pix j i := by
    intro j
    constructor
    · rintro ⟨h1, i', h2, h3⟩
      refine ⟨h1, i', ?_, h3⟩
      rcases Nat.lt_or_ge i' i with hl | hl
      · exact hl
      exfalso
      have hii : i' = i := by omega
      rw [hii] at h3
      rcases h.begun j h1 h3.1 with ⟨i'', g1, g2, -⟩ | g
      · have := runEnds_unique g1 h3; omega
      · cases g
    · rintro ⟨h1, i', h2, h3⟩
      exact ⟨h1, i', by omega, h3⟩
  refine ⟨fun j => by rw [hover]; exact h.unsaid j, fun j n => by rw [hover]; exact h.said j n, fun j => by rw [hover]; exact h.silent j,
    fun j hj hji => ?_⟩
  rcases Nat.lt_or_ge j i with hl | hl
  · rcases h.begun j hj hl with ⟨i', g1, g2, -⟩ | g
    · exact .inl ⟨i', g1, by omega, fun a ha => by simp at ha; omega⟩
    · cases g
  · exact .inr (by rw [show j = i by omega])

/-- the run begun at `a` ends at `i` -/
theorem Done.stop {a : Nat} (h : Done A pix F0 F i (some a)) (ha : RunBegins A pix a) (he : RunEnds A pix a i) (hb : ¬ RunBegins A pix i)
    (hother : ∀ j, j ≠ a → F'.comments[j]? = F.comments[j]?)
    (hsome : ∀ n, FLRun A pix a n → F'.comments[a]? = (F.comments[a]?).map (· ++ [.superFL n]))
    (hnone : (∀ n, ¬ FLRun A pix a n) → F'.comments[a]? = F.comments[a]?) : Done A pix F0 F' (i + 1) none := by
  have hnot : ¬ Over A pix a i := by
    rintro ⟨-, i', h1, h2⟩
    have := runEnds_unique h2 he
    omega
  have hover : ∀ j, j ≠ a → (Over A pix j (i + 1) ↔ Over A pix j i) := by
    intro j hja
    constructor
    · rintro ⟨h1, i', h2, h3⟩
      refine ⟨h1, i', ?_, h3⟩
      rcases Nat.lt_or_ge i' i with hl | hl
      · exact hl
      exfalso
      have hii : i' = i := by omega
      rw [hii] at h3
      rcases h.begun j h1 h3.1 with ⟨i'', g1, g2, -⟩ | g
      · have := runEnds_unique g1 h3; omega
      · simp at g; omega
    · rintro ⟨h1, i', h2, h3⟩
      exact ⟨h1, i', by omega, h3⟩
  refine ⟨fun j hj => ?_, fun j n hj hn => ?_, fun j hj hn => ?_, fun j hj hji => ?_⟩
  · have hja : j ≠ a := by
      rintro rfl
      exact hj ⟨ha, i, by omega, he⟩
    rw [hother j hja]
    exact h.unsaid j (fun hh => hj ((hover j hja).mpr hh))
  · by_cases hja : j = a
    · subst hja
      rw [hsome n hn, h.unsaid j hnot]
    · rw [hother j hja]
      exact h.said j n ((hover j hja).mp hj) hn
  · by_cases hja : j = a
    · subst hja
      rw [hnone hn, h.unsaid j hnot]
    · rw [hother j hja]
      exact h.silent j ((hover j hja).mp hj) hn
  · have hji' : j < i := by
      rcases Nat.lt_or_ge j i with hl | hl
      · exact hl
      · exact absurd (show j = i by omega) (fun he => hb (he ▸ hj))
    rcases h.begun j hj hji' with ⟨i', g1, g2, -⟩ | g
    · exact .inl ⟨i', g1, by omega, fun a ha => by cases ha⟩
    · simp at g
      subst g
      exact .inl ⟨i, he, by omega, fun a ha => by cases ha⟩

/-- while a run is going on, none begins -/
theorem Done.notBegin {a f : Nat} {t : FL} (h : Done A pix F0 F i (some a)) (ha : 1 ≤ a) (hai : a < i) (hf : FlagStep A pix a)
    (hgo : ∀ l, a < l → l < i → ¬ EndAt A pix a l) : ¬ RunBegins A pix i := by
  intro hb
  cases hb with
  | first h1 h2 h3 => exact h3 a ha hai hf
  | @next a' i' _ h1 h2 h3 h4 h5 =>
    have := h2.1
    rcases h.begun a' h1 (by omega) with ⟨i'', g1, g2, g3⟩ | g
    · have := runEnds_unique g1 h2
      have := g3 a rfl
      exact h5 a (by omega) hai hf
    · simp at g
      subst g
      exact hgo i' h2.1 h3 h2.2.1

/-- the invariant of the loop -/
structure FLInv (A : Replay) (k pix : Nat) (F0 : Feat) (i : Nat) (T : Feat × FL) : Prop where
  feat : FInv A k pix T.1
  last : LastOf A T.2.last i
  state : (T.2.state = .notStart ∧ IdleFL A pix i ∧ Done A pix F0 T.1 i none) ∨
    (Running A pix T.2 i i ∧ Done A pix F0 T.1 i (some T.2.anchor))

theorem say_comments {k a : Nat} {c : Comment} (hI : FInv A k pix F) (ha : a < A.recs.length) :
    ∃ F', F.say a c = some F' ∧ FInv A k pix F' ∧
      ∀ j, F'.comments[j]? = (F.comments[j]?).map fun cs => if j = a then cs ++ [c] else cs := by
  obtain ⟨F2, e1⟩ := sayIf_some (o := some c) (i := a) hI ha
  obtain ⟨e2, e3⟩ := sayIf_inv hI e1
  exact ⟨F2, e1, e2, by simpa using e3⟩

theorem Running.last_irrel {t : FL} {f n : Nat} (h : Running A pix t i f) : Running A pix { t with last := n } i f :=
  ⟨h.le, h.pos, h.lt, h.begins, h.flag, h.unbroken, h.going, h.count, h.now, h.chord, h.ok, h.state⟩

/-- after the event -/
theorem flAfter_inv {k : Nat} {t : FL} {far : Bool} (hfar : far = true ↔ FarStep A pix i) (hi : i < A.recs.length)
    (hI : FInv A k pix F) (hlast : LastOf A i (i + 1))
    (h : (t.state = .notStart ∧ IdleFL A pix (i + 1) ∧ Done A pix F0 F (i + 1) none) ∨
      (t.state = .finish ∧ IdleFL A pix (i + 1) ∧ t.anchor < i ∧ ∀ F', (∀ j, F'.comments[j]? = (F.comments[j]?).map fun cs =>
          if j = t.anchor then cs ++ [.superFL t.counter] else cs) → Done A pix F0 F' (i + 1) none) ∨
      (Running A pix t (i + 1) i ∧ t.anchor = i ∧ Done A pix F0 F (i + 1) (some i)) ∨
      (Running A pix t (i + 1) i ∧ t.anchor < i ∧ ¬ RunBegins A pix i ∧ Done A pix F0 F i (some t.anchor))) :
    ∃ T', flAfter F t far i = some T' ∧ FLInv A k pix F0 (i + 1) T' := by
  unfold flAfter
  rcases h with ⟨h1, h2, h3⟩ | ⟨h1, h2, hai, h3⟩ | ⟨h1, h2, h3⟩ | ⟨h1, h2, h3, h4⟩
  · have : (if far then t.jump else t).enough = t := by
      unfold FL.jump FL.enough
      split <;> simp [h1]
    simp only [this]
    rw [if_neg (by rw [h1]; simp)]
    exact ⟨_, rfl, hI, hlast, .inl ⟨h1, h2, h3⟩⟩
  · have : (if far then t.jump else t).enough = t := by
      unfold FL.jump FL.enough
      split <;> simp [h1]
    simp only [this]
    obtain ⟨F', f1, f2, f3⟩ := say_comments (a := t.anchor) (c := .superFL t.counter) hI (by omega)
    rw [if_pos h1, f1]
    exact ⟨_, rfl, f2, hlast, .inl ⟨rfl, h2, h3 F' f3⟩⟩
  · -- the run has just begun
    have hnow : t.state = .startNow := h1.now.mpr fun l l1 l2 => by omega
    have hj : (if far then t.jump else t) = t := by
      unfold FL.jump
      split <;> simp [hnow]
    simp only [hj]
    have hR := h1.near (by
      rintro (hb | ⟨-, b, b1, b2, -⟩)
      · obtain ⟨l, r, q, hc, hr, -, hh⟩ := hb
        obtain ⟨r', hr', hrc, hu, -⟩ := h2 ▸ h1.flag
        rw [hr, Option.some.injEq] at hr'
        subst hr'
        rcases hh with hh | hh
        · omega
        · simp [hrc] at hh
      · omega)
    have hs : t.enough.state ≠ .finish := by
      intro hh
      rcases hR.state with h | h | h <;> rw [hh] at h <;> cases h
    have ha : t.enough.anchor = i := by unfold FL.enough; split <;> exact h2
    rw [if_neg hs]
    exact ⟨_, rfl, hI, hlast, .inr ⟨hR.last_irrel, by simpa [ha] using h3⟩⟩
  · -- the run goes on
    have hun := h1.unbroken i h2 (by omega)
    by_cases hend : EndAt A pix t.anchor i
    · have hends : RunEnds A pix t.anchor i := ⟨h2, hend, h1.going⟩
      have hf : far = true := by
        rcases hend with hh | hh
        · exact absurd hh hun
        · exact hfar.mpr hh.1
      have hidle : IdleFL A pix (i + 1) := .inr ⟨_, i, h1.begins, hends, by omega, fun l l1 l2 => by omega⟩
      have hnn : t.state ≠ .startNow := by
        intro hn
        rcases hend with hh | ⟨-, b, b1, b2, b3⟩
        · exact hun hh
        · exact h1.now.mp hn b b1 (by omega) b3
      rw [hf]
      rcases h1.state with hs | hs | hs
      · exact absurd hs hnn
      · have this : t.jump.enough = { t with state := .notStart, counter := 0, lastRc := 0 } := by
          simp [FL.jump, FL.enough, hs]
        simp only [if_true, this]
        rw [if_neg (by simp)]
        refine ⟨_, rfl, hI, hlast, .inl ⟨rfl, hidle, h4.stop (F' := F) h1.begins hends h3 (fun _ _ => rfl) (fun n hn => ?_) fun _ => rfl⟩⟩
        exact absurd hn (h1.silent hends (by rw [hs]; simp) n)
      · have this : t.jump.enough = { t with counter := t.counter - t.lastRc, state := .finish } := by
          simp [FL.jump, FL.enough, hs]
        simp only [if_true, this]
        obtain ⟨n, n1, n2⟩ := h1.ended (.inr rfl) (fun hh => by omega) hends hs
        obtain ⟨F', f1, f2, f3⟩ := say_comments (a := t.anchor) (c := .superFL (t.counter - t.lastRc)) hI (by omega)
        rw [f1]
        refine ⟨_, rfl, f2, hlast, .inl ⟨rfl, hidle, h4.stop h1.begins hends h3 (fun j hj => ?_) (fun m hm => ?_) fun hh => ?_⟩⟩
        · rw [f3]; simp [hj]
        · rw [f3, flRun_unique hm n2, n1]; simp
        · exact absurd n2 (hh n)
    · have hj : (if far then t.jump else t) = t := by
        by_cases hf : far = true
        · rw [if_pos hf]
          have hn : t.state = .startNow := h1.now.mpr fun l l1 l2 hl =>
            hend (.inr ⟨hfar.mp hf, l, l1, by omega, hl⟩)
          simp [FL.jump, hn]
        · rw [if_neg hf]
      simp only [hj]
      have hR := h1.near hend
      have hs : t.enough.state ≠ .finish := by
        intro hh
        rcases hR.state with h | h | h <;> rw [hh] at h <;> cases h
      have ha : t.enough.anchor = t.anchor := by unfold FL.enough; split <;> rfl
      rw [if_neg hs]
      refine ⟨_, rfl, hI, hlast, .inr ⟨hR.last_irrel, ?_⟩⟩
      simp only [ha]
      exact h4.skip (fun a h => by simp at h; subst h; exact fun hh => hend hh.2.1) h3

theorem lastOf_next {l : Nat} (h : LastOf A l i) (hi : ¬ NoMove A.recs i) : LastOf A l (i + 1) :=
  ⟨h.1, by have := h.2.1; omega, upto h.2.2 hi⟩

theorem flStep_inv {k rr cc : Nat} {T : Feat × FL} (hi : 1 ≤ i) (hlt : i < A.recs.length) (hpix : 0 < pix)
    (hstream : ∀ (i : Nat) (r : Rec), A.recs[i]? = some r → ∃ g, A.stream[r.prior]? = some g ∧ Rect g rr cc ∧ ∀ G, Asked k g G → G.board = g)
    (h : FLInv A k pix F0 i T) :
    ((BadStep rr cc A pix A.recs[i] ∨ TooFar A pix i) ∧ flStep T i = none) ∨
    ¬ (BadStep rr cc A pix A.recs[i] ∨ TooFar A pix i) ∧ ∃ T', flStep T i = some T' ∧ FLInv A k pix F0 (i + 1) T' := by
  obtain ⟨F, t⟩ := T
  have hI := h.feat
  simp only at hI
  have hr := List.getElem?_eq_getElem hlt
  set r := A.recs[i] with hrdef
  have hlast : LastOf A t.last i := h.last
  have hq := List.getElem?_eq_getElem (show t.last < A.recs.length by have := hlast.2.1; omega)
  set q := A.recs[t.last]'(by have := hlast.2.1; omega) with hqdef
  obtain ⟨g, hg, hrect, hGg⟩ := hstream i r hr
  obtain ⟨G, g1, g2⟩ := forall₂_get hI.stream hg
  unfold flStep
  simp only [hI.recs, hr, Option.bind_some]
  by_cases hmv : r.ev = .mv
  · right
    rw [if_pos hmv]
    have hnm : ¬ NoMove A.recs i := by
      rintro ⟨r', h1, h2⟩
      rw [hr, Option.some.injEq] at h1
      exact h2 (h1 ▸ hmv)
    have hnf : ¬ FlagStep A pix i := by
      rintro ⟨r', h1, h2, -⟩
      rw [hr, Option.some.injEq] at h1
      rw [← h1, hmv] at h2
      cases h2
    have hns : ¬ IsStep A pix i := by
      rintro (h1 | ⟨r', h1, h2, -⟩)
      · exact hnf h1
      · rw [hr, Option.some.injEq] at h1
        exact h2 (h1 ▸ hmv)
    have hnb : ¬ BreakStep A pix i := fun ⟨_, _, _, hc, _⟩ => hnm hc.2.2.1
    have hnfar : ¬ FarStep A pix i := fun ⟨_, _, _, hc, _⟩ => hnm hc.2.2.1
    have hne : ∀ a, ¬ EndAt A pix a i := by
      rintro a (h1 | h1)
      · exact hnb h1
      · exact hnfar h1.1
    have hnbeg : ¬ RunBegins A pix i := fun hb => hnf (runBegins_flag hb).2
    have hntf : ¬ TooFar A pix i := fun ⟨_, _, _, hc, _⟩ => hnm hc.2.2.1
    refine ⟨?_, _, rfl, hI, lastOf_next hlast hnm, ?_⟩
    · rintro ((h1 | h1) | h1)
      · rw [hmv] at h1; simp at h1
      · exact h1.1 hmv
      · exact hntf h1
    · rcases h.state with ⟨s1, s2, s3⟩ | ⟨s1, s2⟩
      · refine .inl ⟨s1, ?_, s3.skip (fun a ha => by cases ha) hnbeg⟩
        rcases s2 with s2 | ⟨a, i', a1, a2, a3, a4⟩
        · exact .inl fun l l1 l2 => upto (a := 0) (P := fun l => ¬ FlagStep A pix l) (fun l l1 l2 => s2 l l1 l2) hnf l l1 l2
        · exact .inr ⟨a, i', a1, a2, by omega, upto a4 hnf⟩
      · simp only at s1 s2
        have hR := (s1.idle hns hnb).near (hne _)
        have hen : t.enough = t := by
          unfold FL.enough
          split
          · rename_i hc
            exfalso
            rcases s1.chord with hc' | ⟨e, e1, e2, e3, -, e5⟩
            · omega
            · have := s1.ok.mpr ⟨e, e1, e2, e3, by have := hc.1; omega⟩
              rcases hc.2 with h2 | h2 <;> rw [this] at h2 <;> cases h2
          · rfl
        rw [hen] at hR
        exact .inr ⟨hR, s2.skip (fun a ha => by
          simp at ha; subst ha; exact fun hh => hne _ hh.2.1) hnbeg⟩
  rw [if_neg hmv, if_neg (by rw [hI.pixEq]; omega)]
  simp only [hq, g1, Option.bind_some, hGg G g2, hI.pixEq]
  have hAt : At A pix i r q g t.last :=
    ⟨hr, hmv, hq, hlast, by rw [List.getD_eq_getElem?_getD, hg]; rfl⟩
  have hlast' : LastOf A i (i + 1) := ⟨.inr ⟨r, hr, hmv⟩, by omega, fun m m1 m2 => by omega⟩
  have hfar : decide (dist2 (r.cell pix) (q.cell pix) > 16) = true ↔ FarStep A pix i := by rw [hAt.far_iff, decide_eq_true_eq]
  change ((BadStep rr cc A pix r ∨ TooFar A pix i) ∧ ((flMove t i g r q (r.cell pix)).bind fun t =>
      if dist2 (r.cell pix) (q.cell pix) ≥ 2 ^ 31 then none else flAfter F t (decide (dist2 (r.cell pix) (q.cell pix) > 16)) i) = none) ∨
    ¬ (BadStep rr cc A pix r ∨ TooFar A pix i) ∧ ∃ T', ((flMove t i g r q (r.cell pix)).bind fun t =>
      if dist2 (r.cell pix) (q.cell pix) ≥ 2 ^ 31 then none else flAfter F t (decide (dist2 (r.cell pix) (q.cell pix) > 16)) i) = some T' ∧ _
  have hdisj : FlagStep A pix i → ¬ ChordStep A pix i := by
    rw [hAt.flag_iff, hAt.chord_iff]
    rintro h1 h2
    omega
  rcases hAt.move hrect t with ⟨b1, b2⟩ | ⟨b1, t', b2, b3⟩
  · exact .inl ⟨.inl b1, by rw [b2]; rfl⟩
  rw [b2, Option.bind_some, hAt.tooFar_iff]
  by_cases htf : dist2 (r.cell pix) (q.cell pix) ≥ 2 ^ 31
  · exact .inl ⟨.inr htf, if_pos htf⟩
  right
  refine ⟨fun hh => hh.elim b1 htf, ?_⟩
  rw [if_neg htf]
  refine flAfter_inv hfar hlt hI hlast' ?_
  have hidle : ¬ FlagStep A pix i → IdleFL A pix i → IdleFL A pix (i + 1) := by
    intro hnf s2
    rcases s2 with s2 | ⟨a, i', a1, a2, a3, a4⟩
    · exact .inl fun l l1 l2 => upto (a := 0) (P := fun l => ¬ FlagStep A pix l) (fun l l1 l2 => s2 l l1 l2) hnf l l1 l2
    · exact .inr ⟨a, i', a1, a2, by omega, upto a4 hnf⟩
  rcases h.state with ⟨s1, s2, s3⟩ | ⟨s1, s2⟩
  · simp only at s1 s3
    rcases b3 with ⟨c1, c2, rfl⟩ | ⟨c1, c2, rfl⟩ | ⟨c1, rfl⟩ | ⟨c1, c2, rfl⟩
    · have hbeg : RunBegins A pix i := by
        rcases s2 with s2 | ⟨a, i', a1, a2, a3, a4⟩
        · exact .first hi c1 s2
        · exact .next a1 a2 a3 c1 a4
      refine .inr (.inr (.inl ?_))
      unfold FL.flag
      rw [s1]
      exact ⟨.begin hi c1 hbeg, rfl, s3.begin⟩
    · have hnf : ¬ FlagStep A pix i := fun hh => hdisj hh c1
      refine .inl ⟨?_, hidle hnf s2, s3.skip (fun a ha => by cases ha) fun hb => hnf (runBegins_flag hb).2⟩
      simp [FL.chord, s1]
    · have hnf : ¬ FlagStep A pix i := by
        rw [hAt.flag_iff]
        rw [hAt.break_iff] at c1
        rintro ⟨h1, h2, h3⟩
        rcases c1 with c1 | c1
        · omega
        · simp [h1] at c1
      refine .inl ⟨?_, hidle hnf s2, s3.skip (fun a ha => by cases ha) fun hb => hnf (runBegins_flag hb).2⟩
      simp [FL.break, s1]
    · have hnf : ¬ FlagStep A pix i := fun hh => c1 (.inl hh)
      exact .inl ⟨s1, hidle hnf s2, s3.skip (fun a ha => by cases ha) fun hb => hnf (runBegins_flag hb).2⟩
  · simp only at s1 s2
    have hai := s1.lt
    have hnb : ¬ RunBegins A pix i := s2.notBegin (f := i) (t := t) s1.pos hai s1.flag s1.going
    rcases b3 with ⟨c1, c2, rfl⟩ | ⟨c1, c2, rfl⟩ | ⟨c1, rfl⟩ | ⟨c1, c2, rfl⟩
    · have hanc : (t.flag i).anchor = t.anchor := by
        unfold FL.flag
        rcases s1.state with hs | hs | hs <;> rw [hs]
      refine .inr (.inr (.inr ⟨s1.flagStep c1 (hdisj c1) c2, ?_, hnb, ?_⟩))
      · rw [hanc]; exact hai
      · rw [hanc]; exact s2
    · have hanc : t.chord.anchor = t.anchor := by
        unfold FL.chord
        rcases s1.state with hs | hs | hs <;> rw [hs]
      refine .inr (.inr (.inr ⟨s1.chordStep c1 c2, ?_, hnb, ?_⟩))
      · rw [hanc]; exact hai
      · rw [hanc]; exact s2
    · have hends : RunEnds A pix t.anchor i := ⟨hai, .inl c1, s1.going⟩
      have hidle : IdleFL A pix (i + 1) := .inr ⟨_, i, s1.begins, hends, by omega, fun l l1 l2 => by omega⟩
      have hnc : ¬ ChordStep A pix i := by
        rw [hAt.chord_iff]
        rw [hAt.break_iff] at c1
        rintro ⟨h1, h2⟩
        rcases c1 with c1 | c1
        · rw [h2] at c1; simp at c1
        · exact c1.1 h1
      unfold FL.break
      by_cases hok : t.state = .isOk
      · rw [if_pos hok]
        obtain ⟨n, n1, n2⟩ := s1.ended (.inl rfl) (fun _ => hnc) hends hok
        refine .inr (.inl ⟨rfl, hidle, hai, fun F' f3 => ?_⟩)
        refine s2.stop s1.begins hends hnb (fun j hj => ?_) (fun m hm => ?_) fun hh => ?_
        · rw [f3]; simp [hj]
        · rw [f3, flRun_unique hm n2, n1]; simp
        · exact absurd n2 (hh n)
      · rw [if_neg hok]
        refine .inl ⟨rfl, hidle, s2.stop s1.begins hends hnb (fun _ _ => rfl) (fun n hn => ?_) fun _ => rfl⟩
        exact absurd hn (s1.silent hends hok n)
    · exact .inr (.inr (.inr ⟨s1.idle c1 c2, hai, hnb, s2⟩))

end Feat
end Ms
