import Verif.Lemmas.GameInv

namespace Ms
open Spec

namespace MSB

/-! ### `right_click` -/

/-- the effect of `right_click` while the game is not lost -/
inductive RightEff (s : MSB) (p : Pos) : MSB → Option Nat → Prop
  | none (h : s.gb p < 10) : RightEff s p { s with right := s.right + 1 } (some 0)
  | flag (h : s.gb p = 10) : RightEff s p { s with
      right := s.right + 1, gameBoard := s.gameBoard.set p.1 p.2 11, flag := s.flag + 1,
      ce := s.ce + (if s.bd p = -1 ∧ p ∉ s.flagedList then 1 else 0),
      flagedList := if s.bd p = -1 then s.flagedList ++ [p] else s.flagedList } (some 1)
  | unflag (h : s.gb p = 11) (hf : 0 < s.flag) : RightEff s p { s with
      right := s.right + 1, gameBoard := s.gameBoard.set p.1 p.2 10, flag := s.flag - 1 } (some 1)

theorem rightClick_eff {s : MSB} (h : s.Core) (hst : s.state ≠ .loss) {p : Pos}
    (hp : p ∈ grid s.row s.column) :
    ∃ s' r, s.rightClick p = some (s', r) ∧ RightEff s p s' r := by
  unfold rightClick
  rw [if_neg (by rw [inRange_iff]; simpa using hp)]
  simp only
  have hmk := h.marks p hp
  have hbd := h.bd_range hp
  simp only [hst, false_and, or_false] at hmk
  by_cases h1 : s.gb p < 10
  · exact ⟨_, _, if_pos h1, .none h1⟩
  · rw [if_neg (by exact h1)]
    by_cases h2 : s.gb p = 10
    · rw [if_pos (by exact h2)]
      refine ⟨_, _, ?_, .flag h2⟩
      by_cases hm : s.bd p = -1
      · rw [if_neg (by simpa using (by exact hm : MSB.bd { s with right := s.right + 1 } p = -1))]
        by_cases hl : p ∈ s.flagedList
        · simp [hm, hl]
        · simp [hm, hl]
      · rw [if_pos (by exact hm)]
        simp [hm]
    · rw [if_neg (by exact h2)]
      have h3 : s.gb p = 11 := by omega
      have hf : 0 < s.flag := by
        rw [h.flag]
        exact Finset.card_pos.mpr ⟨p, Finset.mem_filter.mpr ⟨hp, .inl h3⟩⟩
      rw [if_pos (by exact h3), if_neg (by change ¬ s.flag = 0; omega)]
      exact ⟨_, _, rfl, .unflag h3 hf⟩

theorem rightClick_none {s : MSB} {p : Pos} (hp : p ∉ grid s.row s.column) : s.rightClick p = none := by
  unfold rightClick; rw [if_pos]; rw [inRange_iff]; exact hp

theorem flags_insert {s : MSB} (hr : Rect s.gameBoard s.row s.column) {p : Pos}
    (hp : p ∈ grid s.row s.column) (h10 : s.gb p = 10) :
    ((grid s.row s.column).filter fun q => bval (s.gameBoard.set p.1 p.2 11) q = 11 ∨
      bval (s.gameBoard.set p.1 p.2 11) q = 14).card = s.flags.card + 1 := by
  have hn : p ∉ s.flags := by
    unfold flags; rw [Finset.mem_filter, ← gb_bval]; omega
  rw [← Finset.card_insert_of_notMem hn]
  congr 1
  ext q
  rw [Finset.mem_insert, Finset.mem_filter, bval_set hr hp]
  unfold flags
  rw [Finset.mem_filter]
  by_cases hq : q = p
  · subst hq; simp [hp]
  · simp [hq]

theorem flags_erase {s : MSB} (hr : Rect s.gameBoard s.row s.column) {p : Pos}
    (hp : p ∈ grid s.row s.column) (h11 : s.gb p = 11) :
    ((grid s.row s.column).filter fun q => bval (s.gameBoard.set p.1 p.2 10) q = 11 ∨
      bval (s.gameBoard.set p.1 p.2 10) q = 14).card = s.flags.card - 1 := by
  have hn : p ∈ s.flags := by
    unfold flags; rw [Finset.mem_filter, ← gb_bval]; exact ⟨hp, .inl h11⟩
  rw [← Finset.card_erase_of_mem hn]
  congr 1
  ext q
  rw [Finset.mem_erase, Finset.mem_filter, bval_set hr hp]
  unfold flags
  rw [Finset.mem_filter]
  by_cases hq : q = p
  · subst hq; simp
  · simp [hq]

/-- setting or removing a flag keeps the core invariant -/
theorem Core.setMark {s : MSB} (h : s.Core) {p : Pos} (hp : p ∈ grid s.row s.column)
    (h1 : s.gb p = 10 ∨ s.gb p = 11) (x : Int) (f : Nat)
    (hx : (x = 11 ∧ s.gb p = 10 ∧ f = s.flag + 1) ∨ (x = 10 ∧ s.gb p = 11 ∧ f = s.flag - 1)) :
    Core { s with gameBoard := s.gameBoard.set p.1 p.2 x, flag := f } := by
  have hb : ∀ q, MSB.gb { s with gameBoard := s.gameBoard.set p.1 p.2 x, flag := f } q =
      if q = p then x else s.gb q := fun q => bval_set h.rect hp q x
  refine ⟨h.hrow, h.hcol, rect_set h.rect _ _ _, h.num, ?_, ?_, ?_, h.ptrRow⟩
  · intro q hq
    rw [hb]
    by_cases e : q = p
    · rw [if_pos e]; omega
    · rw [if_neg e]; exact h.marks q hq
  · change f = ((grid s.row s.column).filter fun q => bval (s.gameBoard.set p.1 p.2 x) q = 11 ∨
      bval (s.gameBoard.set p.1 p.2 x) q = 14).card
    rcases hx with ⟨rfl, hx, rfl⟩ | ⟨rfl, hx, rfl⟩
    · rw [flags_insert h.rect hp hx, h.flag]
    · rw [flags_erase h.rect hp hx, h.flag]
  · intro q hq hq'
    rw [hb]
    by_cases e : q = p
    · subst e
      rcases h.ptr q hq hq' with h2 | h2
      · exact .inl h2
      · exfalso
        have := h.bd_range hq
        omega
    · rw [if_neg e]; exact h.ptr q hq hq'

theorem RightEff.core {s s' : MSB} {p : Pos} {r : Option Nat} (h : s.Core) (hp : p ∈ grid s.row s.column)
    (e : RightEff s p s' r) : s'.Core := by
  cases e with
  | none _ => exact h.congr rfl rfl rfl rfl rfl rfl rfl (.inl rfl)
  | flag h10 =>
    exact (h.setMark hp (.inl h10) 11 _ (.inl ⟨rfl, h10, rfl⟩)).congr rfl rfl rfl rfl rfl rfl rfl (.inl rfl)
  | unflag h11 hf =>
    exact (h.setMark hp (.inr h11) 10 _ (.inr ⟨rfl, h11, rfl⟩)).congr rfl rfl rfl rfl rfl rfl rfl (.inl rfl)

/-- fields a right click leaves alone -/
theorem RightEff.frame {s s' : MSB} {p : Pos} {r : Option Nat} (e : RightEff s p s' r) :
    s'.board = s.board ∧ s'.row = s.row ∧ s'.column = s.column ∧ s'.state = s.state ∧
    s'.pointerX = s.pointerX ∧ s'.pointerY = s.pointerY ∧ s'.preFlagNum = s.preFlagNum ∧
    s'.mouse = s.mouse ∧ s'.left = s.left ∧ s'.double = s.double ∧ s'.right = s.right + 1 ∧
    s'.bbbvSolved = s.bbbvSolved ∧ s'.middleHold = s.middleHold := by
  cases e <;> simp

theorem RightEff.gb {s s' : MSB} {p : Pos} {r : Option Nat} (h : s.Core) (hp : p ∈ grid s.row s.column)
    (e : RightEff s p s' r) (q : Pos) :
    (q ≠ p → s'.gb q = s.gb q) ∧ (q = p → s'.gb q = if s.gb p = 10 then 11 else if s.gb p = 11 then 10 else s.gb p) := by
  cases e with
  | none hh =>
    refine ⟨fun _ => rfl, fun e => ?_⟩
    subst e
    rw [if_neg (by omega), if_neg (by omega)]; rfl
  | flag h10 =>
    have := bval_set h.rect hp q 11
    refine ⟨fun e => ?_, fun e => ?_⟩
    · rw [if_neg e] at this; exact this
    · rw [if_pos e] at this; rw [if_pos h10]; exact this
  | unflag h11 _ =>
    have := bval_set h.rect hp q 10
    refine ⟨fun e => ?_, fun e => ?_⟩
    · rw [if_neg e] at this; exact this
    · rw [if_pos e] at this; rw [if_neg (by omega), if_pos h11]; exact this

/-! ### one `step` -/

/-- the two mouse states that remember an ineffective right press -/
def NF (m : Mouse) : Prop := m = .upDownNotFlag ∨ m = .chordingNotFlag

instance (m : Mouse) : Decidable (NF m) := by unfold NF; infer_instance

/-- everything `step` can do -/
inductive Eff (s : MSB) (e : Ev) (p : Pos) : MSB → Option Nat → Prop
  /-- only the mouse changes -/
  | idle (m : Mouse) (mh : Bool) (r : Option Nat) (hr : r = none ∨ r = some 0)
      (hnf : NF m → NF s.mouse ∨ (s.state = .playing ∧ e = .rc ∧ p ∉ grid s.row s.column)) :
      Eff s e p { s with mouse := m, middleHold := mh } r
  /-- left button pressed on the board before the game starts -/
  | start (h : s.state = .ready) (hp : p ∈ grid s.row s.column) :
      Eff s e p { s with mouse := .downUp, state := .preFlaging } (some 0)
  /-- back to the initial state, nothing flagged -/
  | back (m : Mouse) (h : s.state = .preFlaging) (h0 : s.preFlagNum = 0) (hm : ¬ NF m) :
      Eff s e p { s with mouse := m, state := .ready } (some 0)
  | backClear (m : Mouse) (h : s.state = .preFlaging) (h0 : s.preFlagNum = 0) (hm : ¬ NF m) :
      Eff s e p (clearClickNum { s with mouse := m, state := .ready }) (some 0)
  /-- removing the last flag set before the game started -/
  | unflagLast (h : s.state = .preFlaging) (hp : p ∈ grid s.row s.column) (h10 : s.gb p ≠ 10)
      (h0 : s.preFlagNum = 1) :
      Eff s e p { s with mouse := .upDown, state := .ready, preFlagNum := 0, flag := 0, flagedList := [],
                         double := 0, left := 0, right := 0, gameBoard := s.gameBoard.set p.1 p.2 10 } (some 0)
  /-- a right click before the game: sets a flag -/
  | preFlag (m : Mouse) (k : Nat) (s' : MSB) (r : Option Nat) (h : s.state = .ready ∨ s.state = .preFlaging)
      (hm : NF m → NF s.mouse)
      (hp : p ∈ grid s.row s.column) (hk : k = s.preFlagNum + 1 ∨ (s.state = .ready ∧ k = 1))
      (h10 : s.gb p = 10 ∨ s.state = .ready)
      (hc : rightClick { s with mouse := m, preFlagNum := k, state := .preFlaging } p = some (s', r)) :
      Eff s e p s' r
  /-- a right click before the game: removes a flag, others remain -/
  | preUnflag (m : Mouse) (k : Nat) (s' : MSB) (r : Option Nat) (h : s.state = .preFlaging) (hm : ¬ NF m)
      (hp : p ∈ grid s.row s.column) (hk : k + 1 = s.preFlagNum) (hk' : 0 < k) (h10 : s.gb p ≠ 10)
      (hc : rightClick { s with mouse := m, preFlagNum := k } p = some (s', r)) : Eff s e p s' r
  /-- a right click during the game -/
  | right (m : Mouse) (s' : MSB) (r : Option Nat) (h : s.state = .playing) (hm : NF m → s.gb p < 10)
      (hp : p ∈ grid s.row s.column)
      (hc : rightClick { s with mouse := m } p = some (s', r)) : Eff s e p s' r
  /-- a left click -/
  | left (m : Mouse) (s' : MSB) (r : Option Nat)
      (h : s.state = .playing ∨ (s.state = .preFlaging ∧ s.gb p = 10)) (hm : ¬ NF m) (hm' : s.mouse = .downUp)
      (hc : leftClick { s with mouse := m, state := .playing } p = some (s', r)) : Eff s e p s' r
  /-- a chord; `dec`: the right press had been counted without effect and is discounted -/
  | chord (m : Mouse) (mh : Bool) (dec : Bool) (s' : MSB) (r : Option Nat)
      (h : s.state = .playing ∨ s.state = .preFlaging)
      (hm : dec = true → ¬ NF m ∧ NF s.mouse ∧ 0 < s.right) (hm' : dec = false → NF m → NF s.mouse)
      (hc : chordingClick { s with
              mouse := m, middleHold := mh, right := if dec then s.right - 1 else s.right } p = some (s', r)) :
      Eff s e p s' r
  /-- the same outside the board -/
  | miss (m : Mouse) (h : s.state = .playing ∨ s.state = .preFlaging) (hm : ¬ NF m) (hm' : NF s.mouse)
      (hr : 0 < s.right) : Eff s e p { s with mouse := m, right := s.right - 1 } (some 0)

theorem inRange_false {s : MSB} {p : Pos} : s.inRange p = false ↔ p ∉ grid s.row s.column := by
  rw [← inRange_iff]; simp

theorem eff_releaseLeft {s : MSB} {e : Ev} {p : Pos} {s' : MSB} {r : Option Nat} {m : Mouse}
    (h : s.state = .playing) (hm : ¬ NF m) (hm' : s.mouse = .downUp)
    (hs : releaseLeft { s with mouse := m } p = some (s', r)) : Eff s e p s' r := by
  unfold releaseLeft at hs
  split at hs
  · simp only [Option.some.injEq, Prod.mk.injEq] at hs
    obtain ⟨rfl, rfl⟩ := hs
    exact .idle m s.middleHold _ (.inr rfl) (fun h => absurd h hm)
  · refine .left m s' r (.inl h) hm hm' ?_
    rw [← h]; exact hs

theorem eff_releaseChord {s : MSB} {e : Ev} {p : Pos} {s' : MSB} {r : Option Nat} {m : Mouse}
    (h : s.state = .playing ∨ s.state = .preFlaging) (hm : ¬ NF m)
    (hs : releaseChord { s with mouse := m } p = some (s', r)) : Eff s e p s' r := by
  unfold releaseChord at hs
  split at hs
  · simp only [Option.some.injEq, Prod.mk.injEq] at hs
    obtain ⟨rfl, rfl⟩ := hs
    exact .idle m s.middleHold _ (.inr rfl) (fun h => absurd h hm)
  · exact .chord m s.middleHold false s' r h (by simp) (fun _ h => absurd h hm) hs

theorem eff_releaseNotFlag {s : MSB} {e : Ev} {p : Pos} {s' : MSB} {r : Option Nat} {m : Mouse}
    (h : s.state = .playing ∨ s.state = .preFlaging) (hm : ¬ NF m) (hm' : NF s.mouse)
    (hs : releaseNotFlag { s with mouse := m } p = some (s', r)) : Eff s e p s' r := by
  unfold releaseNotFlag at hs
  split at hs
  · simp at hs
  · next hr =>
    have hr : 0 < s.right := Nat.pos_of_ne_zero hr
    simp only at hs
    split at hs
    · simp only [Option.some.injEq, Prod.mk.injEq] at hs
      obtain ⟨rfl, rfl⟩ := hs
      exact .miss m h hm hm' hr
    · exact .chord m s.middleHold true s' r h (fun _ => ⟨hm, hm', hr⟩) (by simp) hs

theorem not_nf_upUp : ¬ NF .upUp := by decide
theorem not_nf_upDown : ¬ NF .upDown := by decide
theorem not_nf_dc : ¬ NF .downUpAfterChording := by decide

/-- changing only the mouse state -/
theorem eff_mouse {s : MSB} {e : Ev} {p : Pos} {s' : MSB} {r r0 : Option Nat} (m : Mouse)
    (hr0 : r0 = none ∨ r0 = some 0) (hnf : NF m → NF s.mouse)
    (hs : some (({ s with mouse := m } : MSB), r0) = some (s', r)) : Eff s e p s' r := by
  simp only [Option.some.injEq, Prod.mk.injEq] at hs
  obtain ⟨rfl, rfl⟩ := hs
  exact .idle m s.middleHold _ hr0 (fun h => .inl (hnf h))

theorem eff_same {s : MSB} {e : Ev} {p : Pos} {s' : MSB} {r r0 : Option Nat}
    (hr0 : r0 = none ∨ r0 = some 0)
    (hs : some (s, r0) = some (s', r)) : Eff s e p s' r := by
  simp only [Option.some.injEq, Prod.mk.injEq] at hs
  obtain ⟨rfl, rfl⟩ := hs
  exact .idle s.mouse s.middleHold _ hr0 (fun h => .inl h)

theorem stepPlaying_eff {s : MSB} {e : Ev} {p : Pos} {s' : MSB} {r : Option Nat}
    (h : s.state = .playing) (hs : s.stepPlaying e p = some (s', r)) : Eff s e p s' r := by
  unfold stepPlaying at hs
  split at hs
  -- lc
  · split at hs
    all_goals first
      | exact eff_mouse _ (.inr rfl) (by simp [NF, *]) hs
      | exact eff_same (.inr rfl) hs
  -- lr
  · split at hs
    · exact eff_releaseLeft h not_nf_upUp ‹_› hs
    · exact eff_releaseChord (.inl h) not_nf_upDown hs
    · exact eff_mouse _ (.inr rfl) (by simp [NF, *]) hs
    · exact eff_releaseNotFlag (.inl h) not_nf_upDown (by simp [NF, *]) hs
    all_goals first
      | exact eff_same (.inr rfl) hs
      | exact eff_mouse _ (.inr rfl) (by simp [NF, *]) hs
  -- l
  · split at hs
    · exact eff_releaseLeft h not_nf_upUp ‹_› hs
    · exact eff_releaseChord (.inl h) not_nf_upDown hs
    · exact eff_mouse _ (.inr rfl) (by simp [NF, *]) hs
    · exact eff_releaseNotFlag (.inl h) not_nf_upDown (by simp [NF, *]) hs
    all_goals exact eff_mouse _ (.inr rfl) (by simp [NF, *]) hs
  -- rc
  · split at hs
    · split at hs
      · next hin =>
        have hp := inRange_iff.mp hin
        split at hs
        · next hg => exact .right _ s' r h (fun _ => hg) hp hs
        · exact .right _ s' r h (by simp [NF]) hp hs
      · next hin =>
        have hp : p ∉ grid s.row s.column := inRange_false.mp (by simpa using hin)
        simp only [Option.some.injEq, Prod.mk.injEq] at hs
        obtain ⟨rfl, rfl⟩ := hs
        exact .idle _ s.middleHold _ (.inr rfl) (fun _ => .inr ⟨h, rfl, hp⟩)
    all_goals first
      | exact eff_same (.inr rfl) hs
      | exact eff_mouse _ (.inr rfl) (by simp [NF, *]) hs
  -- rr
  · split at hs
    · exact eff_mouse _ (.inr rfl) (by simp [NF, *]) hs
    · exact eff_mouse _ (.inr rfl) (by simp [NF, *]) hs
    · exact eff_releaseChord (.inl h) not_nf_dc hs
    · exact eff_releaseNotFlag (.inl h) not_nf_dc (by simp [NF, *]) hs
    all_goals first
      | exact eff_same (.inr rfl) hs
      | exact eff_mouse _ (.inr rfl) (by simp [NF, *]) hs
  -- r
  · split at hs
    · exact eff_mouse _ (.inr rfl) (by simp [NF, *]) hs
    · exact eff_mouse _ (.inr rfl) (by simp [NF, *]) hs
    · exact eff_releaseChord (.inl h) not_nf_dc hs
    · exact eff_releaseNotFlag (.inl h) not_nf_dc (by simp [NF, *]) hs
    · split at hs
      · next hin =>
        have hp := inRange_iff.mp hin
        split at hs
        · next hg => exact .right _ s' r h (fun _ => hg) hp hs
        · exact .right _ s' r h (by simp [NF]) hp hs
      · simp at hs
    all_goals exact eff_mouse _ (.inr rfl) (by simp [NF, *]) hs
  -- mv
  · exact eff_same (.inr rfl) hs
  -- mc
  · simp only [Option.some.injEq, Prod.mk.injEq] at hs
    obtain ⟨rfl, rfl⟩ := hs
    exact .idle s.mouse true _ (.inr rfl) .inl
  -- mr
  · exact .chord s.mouse false false s' r (.inl h) (by simp) (fun _ h => h) hs
  -- m
  · simp only at hs
    split at hs
    · exact .chord s.mouse _ false s' r (.inl h) (by simp) (fun _ h => h) hs
    · simp only [Option.some.injEq, Prod.mk.injEq] at hs
      obtain ⟨rfl, rfl⟩ := hs
      exact .idle s.mouse _ _ (.inr rfl) .inl
  -- cc
  · split at hs
    all_goals first
      | exact eff_same (.inl rfl) hs
      | exact eff_mouse _ (.inr rfl) (by simp [NF, *]) hs
  -- crl
  · split at hs
    · exact eff_releaseChord (.inl h) not_nf_upDown hs
    · exact eff_releaseNotFlag (.inl h) not_nf_upDown (by simp [NF, *]) hs
    · exact eff_same (.inl rfl) hs
  -- crr
  · split at hs
    · exact eff_releaseChord (.inl h) not_nf_dc hs
    · exact eff_releaseNotFlag (.inl h) not_nf_dc (by simp [NF, *]) hs
    · exact eff_same (.inl rfl) hs
  -- pf, other
  all_goals exact eff_same (.inl rfl) hs

/-- what a `Flow` amounts to once the second `match` has run -/
def Flow.run (e : Ev) (p : Pos) : Flow → Option (MSB × Option Nat)
  | .panic => none
  | .ret s r => some (s, r)
  | .go s => s.stepPlaying e p

theorem step_eq (s : MSB) (e : Ev) (p : Pos) : s.step e p =
    Flow.run e p (match s.state with
      | .ready => s.stepReady e p
      | .preFlaging => s.stepPreFlaging e p
      | .playing => .go s
      | _ => .ret s (some 0)) := by
  unfold step Flow.run
  rfl

theorem run_ofClick (e : Ev) (p : Pos) (o : Option (MSB × Option Nat)) :
    Flow.run e p (.ofClick o) = o := by
  cases o with
  | none => rfl
  | some x => rfl

theorem stepReady_eff {s : MSB} {e : Ev} {p : Pos} {s' : MSB} {r : Option Nat}
    (h : s.state = .ready) (hs : Flow.run e p (s.stepReady e p) = some (s', r)) : Eff s e p s' r := by
  unfold stepReady at hs
  split at hs
  · exact eff_same (.inr rfl) hs
  · split at hs
    · simp only at hs
      split at hs
      · next hin =>
        simp only [ok0, Flow.run, Option.some.injEq, Prod.mk.injEq] at hs
        obtain ⟨rfl, rfl⟩ := hs
        exact .start h (inRange_iff.mp hin)
      · exact eff_mouse _ (.inr rfl) (by simp [NF]) hs
    · exact eff_mouse _ (.inr rfl) (by simp [NF]) hs
    · exact eff_mouse _ (.inr rfl) (by simp [NF, *]) hs
    · exact eff_same (.inl rfl) hs
  · split at hs
    · next hin =>
      split at hs
      · next hg =>
        rw [run_ofClick] at hs
        exact .preFlag s.mouse _ s' r (.inl h) id (inRange_iff.mp hin) (.inl rfl) (.inl hg) hs
      · simp [Flow.run] at hs
    · simp [Flow.run] at hs
  · split at hs
    · simp only at hs
      split at hs
      · next hin =>
        rw [run_ofClick] at hs
        exact .preFlag _ _ s' r (.inl h) (by simp [NF]) (inRange_iff.mp hin) (.inr ⟨h, rfl⟩) (.inr h) hs
      · exact eff_mouse _ (.inr rfl) (by simp [NF]) hs
    · exact eff_mouse _ (.inr rfl) (by simp [NF]) hs
    · exact eff_same (.inl rfl) hs
  · split at hs
    all_goals first
      | exact eff_same (.inl rfl) hs
      | exact eff_mouse _ (.inr rfl) (by simp [NF]) hs
  · split at hs
    all_goals first
      | exact eff_same (.inl rfl) hs
      | exact eff_mouse _ (.inr rfl) (by simp [NF]) hs
  · split at hs
    all_goals first
      | exact eff_same (.inl rfl) hs
      | exact eff_mouse _ (.inr rfl) (by simp [NF, *]) hs
  · exact eff_same (.inl rfl) hs

theorem stepPreFlaging_eff {s : MSB} {e : Ev} {p : Pos} {s' : MSB} {r : Option Nat}
    (h : s.state = .preFlaging) (hs : Flow.run e p (s.stepPreFlaging e p) = some (s', r)) :
    Eff s e p s' r := by
  unfold stepPreFlaging at hs
  split at hs
  -- lc
  · change s.stepPlaying .lc p = _ at hs
    unfold stepPlaying at hs
    simp only at hs
    split at hs
    all_goals first
      | exact eff_same (.inr rfl) hs
      | exact eff_mouse _ (.inr rfl) (by simp [NF, *]) hs
  -- rr
  · change s.stepPlaying .rr p = _ at hs
    unfold stepPlaying at hs
    simp only at hs
    split at hs
    · exact eff_mouse _ (.inr rfl) (by simp [NF, *]) hs
    · exact eff_mouse _ (.inr rfl) (by simp [NF, *]) hs
    · exact eff_releaseChord (.inr h) not_nf_dc hs
    · exact eff_releaseNotFlag (.inr h) not_nf_dc (by simp [NF, *]) hs
    all_goals first
      | exact eff_same (.inr rfl) hs
      | exact eff_mouse _ (.inr rfl) (by simp [NF, *]) hs
  -- mv
  · exact eff_same (.inr rfl) hs
  -- lr
  · split at hs
    · next hmo =>
      split at hs
      · simp only at hs
        split at hs
        · next h0 =>
          simp only [ok0, Flow.run, Option.some.injEq, Prod.mk.injEq] at hs
          obtain ⟨rfl, rfl⟩ := hs
          exact .backClear _ h h0 not_nf_upUp
        · exact eff_mouse _ (.inr rfl) (by simp [NF]) hs
      · next hout =>
        split at hs
        · split at hs
          · next h10 =>
            change MSB.stepPlaying { s with state := .playing } .lr p = _ at hs
            unfold stepPlaying at hs
            simp only [hmo, releaseLeft] at hs
            rw [if_neg (by exact hout)] at hs
            exact .left _ s' r (.inr ⟨h, h10⟩) not_nf_upUp hmo hs
          · exact eff_mouse .upUp (.inr rfl) (by simp [NF]) hs
        · simp [Flow.run] at hs
    · next hmo =>
      change s.stepPlaying .lr p = _ at hs
      unfold stepPlaying at hs
      simp only [hmo] at hs
      exact eff_releaseChord (.inr h) not_nf_upDown hs
    · next hmo =>
      change s.stepPlaying .lr p = _ at hs
      unfold stepPlaying at hs
      simp only [hmo] at hs
      exact eff_mouse _ (.inr rfl) (by simp [NF, *]) hs
    · next hmo =>
      change s.stepPlaying .lr p = _ at hs
      unfold stepPlaying at hs
      simp only [hmo] at hs
      exact eff_releaseNotFlag (.inr h) not_nf_upDown (by simp [NF, *]) hs
    · next hmo =>
      change s.stepPlaying .lr p = _ at hs
      unfold stepPlaying at hs
      simp only [hmo] at hs
      exact eff_mouse _ (.inr rfl) (by simp [NF, *]) hs
    · next hmo =>
      change s.stepPlaying .lr p = _ at hs
      unfold stepPlaying at hs
      simp only [hmo] at hs
      exact eff_mouse _ (.inr rfl) (by simp [NF, *]) hs
    · exact eff_same (.inl rfl) hs
  -- pf
  · split at hs
    · next hin =>
      split at hs
      · next hg =>
        rw [run_ofClick] at hs
        refine .preFlag s.mouse _ s' r (.inr h) id (inRange_iff.mp hin) (.inl rfl) (.inl hg) ?_
        rw [← h]; exact hs
      · simp [Flow.run] at hs
    · simp [Flow.run] at hs
  -- rc
  · split at hs
    · simp only at hs
      split at hs
      · next hin =>
        split at hs
        · next hg =>
          rw [run_ofClick] at hs
          exact .preFlag _ _ s' r (.inr h) (by simp [NF]) (inRange_iff.mp hin) (.inl rfl) (.inl hg) hs
        · next hg =>
          split at hs
          · simp [Flow.run] at hs
          · next hn0 =>
            split at hs
            · next h1 =>
              simp only [ok0, Flow.run, Option.some.injEq, Prod.mk.injEq] at hs
              obtain ⟨rfl, rfl⟩ := hs
              have hn0 : s.preFlagNum ≠ 0 := hn0
              have he : s.preFlagNum - 1 = 0 := h1
              have h11 : s.preFlagNum = 1 := by omega
              have := Eff.unflagLast (e := .rc) h (inRange_iff.mp hin) hg h11
              rw [he]; exact this
            · next h1 =>
              rw [run_ofClick] at hs
              have hn0 : s.preFlagNum ≠ 0 := hn0
              have he : s.preFlagNum - 1 ≠ 0 := h1
              exact .preUnflag _ _ s' r h not_nf_upDown (inRange_iff.mp hin) (by omega) (by omega) hg hs
      · exact eff_mouse .upDown (.inr rfl) (by simp [NF]) hs
    · simp only at hs
      split at hs
      · next h0 =>
        have hs : some (({ s with mouse := .chording, state := .ready } : MSB), some 0) = some (s', r) := hs
        simp only [Option.some.injEq, Prod.mk.injEq] at hs
        obtain ⟨rfl, rfl⟩ := hs
        exact .back _ h h0.2 (by simp [NF])
      · exact eff_mouse .chording (.inr rfl) (by simp [NF]) hs
    · exact eff_mouse .chording (.inr rfl) (by simp [NF]) hs
    · exact eff_same (.inl rfl) hs
  -- cc
  · split at hs
    · simp only at hs
      split at hs
      · next h0 =>
        have hs : some (({ s with mouse := .chording, state := .ready } : MSB), some 0) = some (s', r) := hs
        simp only [Option.some.injEq, Prod.mk.injEq] at hs
        obtain ⟨rfl, rfl⟩ := hs
        exact .back _ h h0.2 (by simp [NF])
      · exact eff_mouse .chording (.inr rfl) (by simp [NF]) hs
    · exact eff_mouse .chording (.inr rfl) (by simp [NF]) hs
    · exact eff_mouse .chording (.inr rfl) (by simp [NF]) hs
    · exact eff_mouse .chordingNotFlag (.inr rfl) (by simp [NF, *]) hs
    · exact eff_same (.inl rfl) hs
  -- the others
  · exact eff_same (.inl rfl) hs

theorem step_eff {s : MSB} {e : Ev} {p : Pos} {s' : MSB} {r : Option Nat}
    (hs : s.step e p = some (s', r)) : Eff s e p s' r := by
  rw [step_eq] at hs
  split at hs
  · exact stepReady_eff ‹_› hs
  · exact stepPreFlaging_eff ‹_› hs
  · exact stepPlaying_eff ‹_› hs
  · exact eff_same (.inr rfl) hs

/-! ### the invariant is preserved -/

theorem Eff.inv {s : MSB} {e : Ev} {p : Pos} {s' : MSB} {r : Option Nat} (h : s.GInv)
    (he : Eff s e p s' r) : s'.GInv := by
  cases he with
  | idle m mh r _ _ =>
    exact ⟨h.core.congr rfl rfl rfl rfl rfl rfl rfl (.inl rfl), h.ready, h.pre, h.preNum, h.playing, h.win,
      h.loss, h.lossOpen, h.nd⟩
  | start hst hp =>
    refine ⟨h.core.congr rfl rfl rfl rfl rfl rfl rfl (.inr (by rw [hst]; decide)), ?_,
      fun _ => h.pre (.inl hst), fun _ => ?_, ?_, ?_, ?_, ?_, ?_⟩
    rotate_left 1
    · change s.flag ≤ s.preFlagNum
      have : s.flag = 0 := by
        rw [h.core.flag]
        apply Finset.card_eq_zero.mpr
        apply Finset.filter_eq_empty_iff.mpr
        intro q hq
        have := h.ready hst q hq
        rw [gb_bval] at this; omega
      omega
    all_goals simp
  | back m hst h0 _ =>
    have hf : s.flag = 0 := by have := h.preNum hst; omega
    have hall : ∀ q ∈ grid s.row s.column, s.gb q = 10 := by
      intro q hq
      rcases (h.pre (.inr hst)).1 q hq with h1 | h1
      · exact h1
      · exfalso
        have := h.core.flag
        rw [hf] at this
        have := Finset.card_eq_zero.mp this.symm
        have hq' : q ∈ s.flags := Finset.mem_filter.mpr ⟨hq, .inl h1⟩
        rw [this] at hq'; simp at hq'
    refine ⟨h.core.congr rfl rfl rfl rfl rfl rfl rfl (.inr (by rw [hst]; decide)), fun _ => hall,
      fun _ => h.pre (.inr hst), ?_, ?_, ?_, ?_, ?_, ?_⟩
    all_goals simp
  | backClear m hst h0 _ =>
    have hf : s.flag = 0 := by have := h.preNum hst; omega
    have hall : ∀ q ∈ grid s.row s.column, s.gb q = 10 := by
      intro q hq
      rcases (h.pre (.inr hst)).1 q hq with h1 | h1
      · exact h1
      · exfalso
        have := h.core.flag
        rw [hf] at this
        have := Finset.card_eq_zero.mp this.symm
        have hq' : q ∈ s.flags := Finset.mem_filter.mpr ⟨hq, .inl h1⟩
        rw [this] at hq'; simp at hq'
    refine ⟨h.core.congr rfl rfl rfl rfl (show 0 = s.flag from hf.symm) rfl rfl
      (.inr (by rw [hst]; decide)), fun _ => hall, fun _ => h.pre (.inr hst), ?_, ?_, ?_, ?_, ?_, ?_⟩
    all_goals simp [clearClickNum]
  | unflagLast hst hp h10 h0 =>
    have h11 : s.gb p = 11 := by
      rcases (h.pre (.inr hst)).1 p hp with h | h
      · exact absurd h h10
      · exact h
    have hc := h.core.setMark hp (.inr h11) 10 (s.flag - 1) (.inr ⟨rfl, h11, rfl⟩)
    have hpn := h.preNum hst
    have hall : ∀ q ∈ grid s.row s.column, bval (s.gameBoard.set p.1 p.2 10) q = 10 := by
      intro q hq
      rw [bval_set h.core.rect hp]
      split
      · rfl
      · next hne =>
        rcases (h.pre (.inr hst)).1 q hq with h1 | h1
        · exact h1
        · exfalso
          have hfl := h.core.flag
          have : ({p, q} : Finset Pos) ⊆ s.flags := by
            intro a ha
            simp only [Finset.mem_insert, Finset.mem_singleton] at ha
            rcases ha with rfl | rfl
            · exact Finset.mem_filter.mpr ⟨hp, .inl h11⟩
            · exact Finset.mem_filter.mpr ⟨hq, .inl h1⟩
          have := Finset.card_le_card this
          rw [Finset.card_pair (Ne.symm hne)] at this
          omega
    refine ⟨hc.congr rfl rfl rfl rfl (show 0 = s.flag - 1 by omega) rfl rfl (.inr (by rw [hst]; decide)),
      fun _ => hall, fun _ => ⟨fun q hq => .inl (hall q hq), (h.pre (.inr hst)).2⟩, ?_, ?_, ?_, ?_, ?_, ?_⟩
    all_goals simp
  | preFlag m k _ _ hst _ hp hk h10 hc =>
    have hnl : s.state ≠ .loss := by rcases hst with h | h <;> rw [h] <;> decide
    have h10 : s.gb p = 10 := by
      rcases h10 with h1 | h1
      · exact h1
      · exact h.ready h1 p hp
    have hcore : Core { s with mouse := m, preFlagNum := k, state := .preFlaging } :=
      h.core.congr rfl rfl rfl rfl rfl rfl rfl (.inr hnl)
    obtain ⟨s1, r1, e1, e2⟩ := rightClick_eff hcore (by simp) hp
    rw [hc] at e1
    simp only [Option.some.injEq, Prod.mk.injEq] at e1
    obtain ⟨rfl, rfl⟩ := e1
    have hf := e2.frame
    have hg := e2.gb hcore hp
    have hflag : s'.flag = s.flag + 1 := by
      cases e2 with
      | none h' => exfalso; have : s.gb p < 10 := h'; omega
      | flag _ => rfl
      | unflag h' _ => exfalso; have : s.gb p = 11 := h'; omega
    refine ⟨e2.core hcore hp, ?_, fun _ => ⟨?_, ?_, ?_⟩, fun _ => ?_, ?_, ?_, ?_, ?_, ?_⟩
    · rw [hf.2.2.2.1]; simp
    · intro q hq
      rw [hf.2.1, hf.2.2.1] at hq
      by_cases e : q = p
      · right
        rw [(hg q).2 e]
        exact if_pos h10
      · rw [(hg q).1 e]; exact (h.pre hst).1 q hq
    · rw [hf.2.2.2.2.1]; exact (h.pre hst).2.1
    · rw [hf.2.2.2.2.2.1]; exact (h.pre hst).2.2
    · rw [hf.2.2.2.2.2.2.1, hflag]
      change s.flag + 1 ≤ k
      have hready : s.state = .ready → s.flag = 0 := by
        intro hst
        rw [h.core.flag]
        apply Finset.card_eq_zero.mpr
        apply Finset.filter_eq_empty_iff.mpr
        intro q hq
        have := h.ready hst q hq
        rw [gb_bval] at this; omega
      rcases hst with hst | hst
      · have := hready hst
        rcases hk with hk | hk <;> omega
      · have := h.preNum hst
        rcases hk with hk | hk
        · omega
        · rw [hst] at hk; simp at hk
    all_goals rw [hf.2.2.2.1]; simp
  | preUnflag m k _ _ hst _ hp hk hk' h10 hc =>
    have hnl : s.state ≠ .loss := by rw [hst]; decide
    have h11 : s.gb p = 11 := by
      rcases (h.pre (.inr hst)).1 p hp with h | h
      · exact absurd h h10
      · exact h
    have hcore : Core { s with mouse := m, preFlagNum := k } :=
      h.core.congr rfl rfl rfl rfl rfl rfl rfl (.inl rfl)
    obtain ⟨s1, r1, e1, e2⟩ := rightClick_eff hcore hnl hp
    rw [hc] at e1
    simp only [Option.some.injEq, Prod.mk.injEq] at e1
    obtain ⟨rfl, rfl⟩ := e1
    have hf := e2.frame
    have hg := e2.gb hcore hp
    have hflag : s'.flag = s.flag - 1 := by
      cases e2 with
      | none h' => exfalso; have : s.gb p < 10 := h'; omega
      | flag h' => exfalso; have : s.gb p = 10 := h'; omega
      | unflag _ _ => rfl
    have hs' : s'.state = .preFlaging := by rw [hf.2.2.2.1]; exact hst
    refine ⟨e2.core hcore hp, ?_, fun _ => ⟨?_, ?_, ?_⟩, fun _ => ?_, ?_, ?_, ?_, ?_, ?_⟩
    · rw [hs']; simp
    · intro q hq
      rw [hf.2.1, hf.2.2.1] at hq
      by_cases e : q = p
      · left
        rw [(hg q).2 e, if_neg (by exact h10), if_pos (by exact h11)]
      · rw [(hg q).1 e]; exact (h.pre (.inr hst)).1 q hq
    · rw [hf.2.2.2.2.1]; exact (h.pre (.inr hst)).2.1
    · rw [hf.2.2.2.2.2.1]; exact (h.pre (.inr hst)).2.2
    · rw [hf.2.2.2.2.2.2.1, hflag]
      change s.flag - 1 ≤ k
      have := h.preNum hst
      omega
    all_goals rw [hs']; simp
  | right m _ _ hst _ hp hc =>
    have hnl : s.state ≠ .loss := by rw [hst]; decide
    have hcore : Core { s with mouse := m } := h.core.congr rfl rfl rfl rfl rfl rfl rfl (.inl rfl)
    obtain ⟨s1, r1, e1, e2⟩ := rightClick_eff hcore hnl hp
    rw [hc] at e1
    simp only [Option.some.injEq, Prod.mk.injEq] at e1
    obtain ⟨rfl, rfl⟩ := e1
    have hf := e2.frame
    have hg := e2.gb hcore hp
    have hs' : s'.state = .playing := by rw [hf.2.2.2.1]; exact hst
    refine ⟨e2.core hcore hp, ?_, ?_, ?_, fun _ => ?_, ?_, ?_, ?_, ?_⟩
    rotate_left 3
    · obtain ⟨q, h1, h2, h3⟩ := h.playing hst
      refine ⟨q, by rw [hf.2.1, hf.2.2.1]; exact h1, ?_, ?_⟩
      · unfold bd; rw [hf.1]; exact h2
      · have hbd : s'.bd q = s.bd q := by unfold bd; rw [hf.1]
        rw [hbd]
        have hmk := h.core.marks q h1
        have hb := h.core.bd_range h1
        by_cases e : q = p
        · rw [(hg q).2 e]
          change (if s.gb p = 10 then 11 else if s.gb p = 11 then 10 else s.gb p) ≠ s.bd q
          subst e
          split
          · omega
          · split <;> omega
        · rw [(hg q).1 e]; exact h3
    all_goals rw [hs']; simp
  | left m _ _ hst _ _ hc =>
    by_cases hp : p ∈ grid s.row s.column
    · have hnl : s.state ≠ .loss := by rcases hst with h | h <;> simp [h]
      have hcore : Core { s with mouse := m, state := .playing } :=
        h.core.congr rfl rfl rfl rfl rfl rfl rfl (.inr hnl)
      obtain ⟨s1, r1, e1, e2⟩ := leftClick_eff hcore hp
      rw [hc] at e1
      simp only [Option.some.injEq, Prod.mk.injEq] at e1
      obtain ⟨rfl, rfl⟩ := e1
      have hcov : s.state = .preFlaging → ∀ q ∈ grid s.row s.column, s.bd q ≠ -1 → s.gb q ≠ s.bd q := by
        intro h1 q hq _
        have := (h.pre (.inr h1)).1 q hq
        have := h.core.bd_range hq
        omega
      refine e2.inv hcore rfl ?_ ?_ hp
      · rintro ⟨q, hq, hq1⟩
        rcases hst with h1 | h1
        · exact h.playing h1
        · exact ⟨q, hq, hq1, hcov h1.1 q hq hq1⟩
      intro hne
      rcases hst with h1 | h1
      · exact h.playing h1
      · exact absurd h1.2 hne
    · have hn : leftClick { s with mouse := m, state := .playing } p = none := leftClick_none hp
      rw [hn] at hc; simp at hc
  | chord m mh dec _ _ hst _ _ hc =>
    by_cases hp : p ∈ grid s.row s.column
    · have hg : GInv { s with mouse := m, middleHold := mh, right := if dec then s.right - 1 else s.right } :=
        ⟨h.core.congr rfl rfl rfl rfl rfl rfl rfl (.inl rfl), h.ready, h.pre, h.preNum, h.playing, h.win,
          h.loss, h.lossOpen, h.nd⟩
      obtain ⟨s1, r1, e1, e2⟩ := chordingClick_eff hg.core hp
      rw [hc] at e1
      simp only [Option.some.injEq, Prod.mk.injEq] at e1
      obtain ⟨rfl, rfl⟩ := e1
      exact e2.inv hg hst hp
    · have hn : chordingClick { s with
          mouse := m, middleHold := mh, right := if dec then s.right - 1 else s.right } p = none :=
        chordingClick_none hp
      rw [hn] at hc; simp at hc
  | miss m _ _ _ _ =>
    exact ⟨h.core.congr rfl rfl rfl rfl rfl rfl rfl (.inl rfl), h.ready, h.pre, h.preNum, h.playing, h.win,
      h.loss, h.lossOpen, h.nd⟩

end MSB
end Ms
