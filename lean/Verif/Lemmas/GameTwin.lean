import Verif.Lemmas.Swap
import Verif.Lemmas.GameEff

/-! # Two machines on different boards that show the same -/

namespace Ms.MSB
open Spec

/-- `t` plays on `v` and looks like `s`: the solution counters, the list of flagged mines, the pointer of `is_win` and the state
may differ -/
structure Same2 (v : View) (s t : MSB) : Prop where
  board : t.board = v
  gameBoard : t.gameBoard = s.gameBoard
  left : t.left = s.left
  right : t.right = s.right
  double : t.double = s.double
  flag : t.flag = s.flag
  row : t.row = s.row
  column : t.column = s.column
  mouse : t.mouse = s.mouse
  preFlagNum : t.preFlagNum = s.preFlagNum
  middleHold : t.middleHold = s.middleHold

/-- everything shown is right on `v` too, and nothing that ends a game is shown; or `v` is the board -/
def Final2 (v : View) (s : MSB) : Prop :=
  v = s.board ∨ ((∀ q ∈ grid s.row s.column, s.gb q < 12) ∧
    ∀ q ∈ grid s.row s.column, s.gb q < 10 → val v q = s.bd q)

/-- equal, or one of the games claims to have won -/
def Near2 (a b : GState) : Prop :=
  a = b ∨ (a = .win ∧ (b = .playing ∨ b = .loss)) ∨ (b = .win ∧ (a = .playing ∨ a = .loss))

/-- if the first ends in a state that fits `v`, the second ends in the same way -/
def Follow2 (v : View) (o o' : Option (MSB × Option Nat)) : Prop :=
  ∀ s' r, o = some (s', r) → Final2 v s' → ∃ t', o' = some (t', r) ∧ Same2 v s' t' ∧ Near2 s'.state t'.state

theorem Follow2.some {v : View} {s t : MSB} (r : Option Nat) (h : Same2 v s t) (hs : t.state = s.state) :
    Follow2 v (some (s, r)) (some (t, r)) := by
  intro s' r' e _
  simp only [Option.some.injEq, Prod.mk.injEq] at e
  obtain ⟨rfl, rfl⟩ := e
  exact ⟨t, rfl, h, .inl hs.symm⟩

theorem Follow2.none {v : View} {o' : Option (MSB × Option Nat)} : Follow2 v none o' := fun _ _ e => by simp at e

theorem Same2.gb {v : View} {s t : MSB} (h : Same2 v s t) (p : Pos) : t.gb p = s.gb p := by unfold MSB.gb; rw [h.gameBoard]
theorem Same2.bd {v : View} {s t : MSB} (h : Same2 v s t) (p : Pos) : t.bd p = val v p := by rw [bd_val, h.board]
theorem Same2.grid {v : View} {s t : MSB} (h : Same2 v s t) : Spec.grid t.row t.column = Spec.grid s.row s.column := by
  rw [h.row, h.column]
theorem Same2.inRange {v : View} {s t : MSB} (h : Same2 v s t) (p : Pos) : t.inRange p = s.inRange p := by
  unfold MSB.inRange; rw [h.row, h.column]
theorem Same2.atOutside {v : View} {s t : MSB} (h : Same2 v s t) (p : Pos) : t.atOutside p = s.atOutside p := by
  unfold MSB.atOutside; rw [h.row, h.column]
theorem Same2.chordCells {v : View} {s t : MSB} (h : Same2 v s t) (p : Pos) : t.chordCells p = s.chordCells p := by
  unfold MSB.chordCells ring; simp only [h.row, h.column, h.gb]
theorem Same2.chordable {v : View} {s t : MSB} (h : Same2 v s t) (p : Pos) : t.Chordable p ↔ s.Chordable p := by
  unfold MSB.Chordable flagsAround ring; rw [h.chordCells]; simp only [h.row, h.column, h.gb]

/-- opening the same cells -/
theorem refresh_same {v : View} {s t : MSB} (hs : s.Core) (ht : t.Core) (h : Same2 v s t) {start : List Pos}
    (hst : ∀ p ∈ start, p ∈ grid s.row s.column ∧ s.gb p = 10) {g' : Board}
    (hg : refreshBoard s.board s.gameBoard start = some g')
    (hf : v = s.board ∨ ((∀ q ∈ grid s.row s.column, bval g' q < 12) ∧
      ∀ q ∈ grid s.row s.column, bval g' q < 10 → val v q = s.bd q)) :
    refreshBoard t.board t.gameBoard start = some g' ∧ ∀ q ∈ start, t.bd q = s.bd q := by
  rcases hf with rfl | ⟨hlow, hag⟩
  · refine ⟨by rw [h.board, h.gameBoard]; exact hg, fun q _ => by rw [h.bd, bd_val]⟩
  obtain ⟨g1, e1, r1, d1⟩ := refresh_core hs hst
  rw [hg] at e1
  obtain rfl : g' = g1 := by simpa using e1
  obtain ⟨g2, e2, r2, d2⟩ := refresh_core ht (start := start) (fun p hp => by rw [h.grid, h.gb]; exact hst p hp)
  have hopen : ∀ q, Opens s.board s.gameBoard start q → s.bd q ≠ -1 ∧ val v q = s.bd q := by
    intro q ho
    have hq := (opens_covered hs hst ho).1
    have h1 := d1 q hq
    rw [if_pos ho] at h1
    have h2 := hlow q hq
    have hb : s.bd q ≠ -1 := by
      intro hb
      rw [if_pos hb] at h1
      omega
    rw [if_neg hb] at h1
    have := hs.bd_range hq
    exact ⟨hb, hag q hq (by omega)⟩
  have hvc : Spec.vcells t.board = Spec.vcells s.board := by rw [ht.vcells, hs.vcells, h.grid]
  have h12 : ∀ q, Opens s.board s.gameBoard start q → Opens t.board t.gameBoard start q := by
    intro q ho
    induction ho with
    | click hq => exact .click hq
    | spread hp h0 hm ha hc ih =>
      refine .spread ih ?_ (hvc ▸ hm) ha (by rw [h.gameBoard]; exact hc)
      rw [h.board, (hopen _ hp).2]; exact h0
  have h21 : ∀ q, Opens t.board t.gameBoard start q → Opens s.board s.gameBoard start q := by
    intro q ho
    induction ho with
    | click hq => exact .click hq
    | spread hp h0 hm ha hc ih =>
      refine .spread ih ?_ (hvc ▸ hm) ha (by rw [← h.gameBoard]; exact hc)
      rw [h.board, (hopen _ ih).2] at h0; exact h0
  have hsafe : ∀ q ∈ start, s.bd q ≠ -1 ∧ t.bd q = s.bd q := fun q hq => by
    rw [h.bd]; exact hopen q (.click hq)
  refine ⟨?_, fun q hq => (hsafe q hq).2⟩
  rw [e2]
  refine congrArg Option.some (rect_ext (r := s.row) (c := s.column) (by rw [← h.row, ← h.column]; exact r2) r1 fun q hq => ?_)
  rw [d1 q hq, d2 q (by rw [h.grid]; exact hq)]
  by_cases ho : Opens s.board s.gameBoard start q
  · rw [if_pos ho, if_pos (h12 q ho), h.bd, (hopen q ho).2]
  · rw [if_neg ho, if_neg (fun hh => ho (h21 q hh)), if_neg, if_neg, h.gb]
    · rintro ⟨⟨m, hm, hb⟩, -⟩
      exact (hsafe m hm).1 hb
    · rintro ⟨⟨m, hm, hb⟩, -⟩
      rw [(hsafe m hm).2] at hb
      exact (hsafe m hm).1 hb

theorem checkWin_eq (u : MSB) : u.checkWin = { u with
    pointerX := (u.winScan u.winCells).2.1, pointerY := (u.winScan u.winCells).2.2,
    state := if (u.winScan u.winCells).1 then .win else u.state } := by
  unfold MSB.checkWin
  simp only
  split <;> simp_all

theorem Same2.checkWin {v : View} {s t : MSB} (h : Same2 v s t) (hst : t.state = s.state)
    (hp : s.state = .playing ∨ s.state = .loss) :
    Same2 v s.checkWin t.checkWin ∧ Near2 s.checkWin.state t.checkWin.state := by
  rw [checkWin_eq s, checkWin_eq t]
  refine ⟨⟨h.board, h.gameBoard, h.left, h.right, h.double, h.flag, h.row, h.column, h.mouse, h.preFlagNum, h.middleHold⟩, ?_⟩
  simp only [hst]
  unfold Near2
  cases (s.winScan s.winCells).1 <;> cases (t.winScan t.winCells).1 <;> simp [hp]

theorem Final2.checkWin {v : View} {s : MSB} (h : Final2 v s.checkWin) : Final2 v s := by
  rw [checkWin_eq s] at h; exact h

theorem leftClick_same {v : View} {s t : MSB} (hs : s.Core) (ht : t.Core) (h : Same2 v s t)
    (hst : t.state = s.state) (hpl : s.state = .playing) (p : Pos) :
    Follow2 v (s.leftClick p) (t.leftClick p) := by
  by_cases hp : p ∈ grid s.row s.column
  swap
  · rw [leftClick_none hp]; exact Follow2.none
  intro s1 r1 e1 hf
  obtain ⟨s', r, e, eff⟩ := leftClick_eff hs hp
  rw [e] at e1
  simp only [Option.some.injEq, Prod.mk.injEq] at e1
  obtain ⟨rfl, rfl⟩ := e1
  obtain ⟨t', r', e', eff'⟩ := leftClick_eff ht (p := p) (by rw [h.grid]; exact hp)
  cases eff with
  | none h10 =>
    cases eff' with
    | none h10' => 
      exact ⟨_, e', ⟨h.board, h.gameBoard, congrArg (· + 1) h.left, h.right, h.double, h.flag, h.row, h.column, h.mouse, h.preFlagNum, h.middleHold⟩, .inl hst.symm⟩
    | mine h10' => rw [h.gb] at h10'; exact absurd h10' h10
    | safe h10' => rw [h.gb] at h10'; exact absurd h10' h10
  | mine h10 hb hg =>
    have hh := refresh_same hs ht h (start := [p]) (by simpa using ⟨hp, h10⟩) hg hf
    have hb' : t.bd p = s.bd p := hh.2 p (by simp)
    cases eff' with
    | none h10' => rw [h.gb] at h10'; exact absurd h10 h10'
    | mine h10' hbt hg' =>
      rw [hh.1] at hg'
      simp only [Option.some.injEq] at hg'
      subst hg'
      exact ⟨_, e', ⟨h.board, rfl, congrArg (· + 1) h.left, h.right, h.double, h.flag, h.row, h.column, h.mouse, h.preFlagNum, h.middleHold⟩, .inl rfl⟩
    | safe h10' hbt => rw [hb'] at hbt; exact absurd hb hbt
  | safe h10 hb hg =>
    have hf := hf.checkWin
    have hh := refresh_same hs ht h (start := [p]) (by simpa using ⟨hp, h10⟩) hg hf
    have hb' : t.bd p = s.bd p := hh.2 p (by simp)
    cases eff' with
    | none h10' => rw [h.gb] at h10'; exact absurd h10 h10'
    | mine h10' hbt => rw [hb'] at hbt; exact absurd hbt hb
    | safe h10' hbt hg' =>
      rw [hh.1] at hg'
      simp only [Option.some.injEq] at hg'
      subst hg'
      refine ⟨_, e', Same2.checkWin ⟨h.board, rfl, congrArg (· + 1) h.left, h.right, h.double, h.flag, h.row, h.column, h.mouse, h.preFlagNum, h.middleHold⟩ hst (.inl hpl)⟩

theorem rightClick_same {v : View} {s t : MSB} (hs : s.Core) (ht : t.Core) (h : Same2 v s t)
    (hst : t.state = s.state) (hnl : s.state ≠ .loss) (p : Pos) :
    Follow2 v (s.rightClick p) (t.rightClick p) := by
  by_cases hp : p ∈ grid s.row s.column
  swap
  · rw [rightClick_none hp]; exact Follow2.none
  intro s1 r1 e1 _
  obtain ⟨s', r, e, eff⟩ := rightClick_eff hs hnl hp
  rw [e] at e1
  simp only [Option.some.injEq, Prod.mk.injEq] at e1
  obtain ⟨rfl, rfl⟩ := e1
  obtain ⟨t', r', e', eff'⟩ := rightClick_eff ht (by rw [hst]; exact hnl) (p := p) (by rw [h.grid]; exact hp)
  have hgb := h.gb p
  cases eff with
  | none h1 =>
    cases eff' with
    | none h2 => exact ⟨_, e', ⟨h.board, h.gameBoard, h.left, congrArg (· + 1) h.right, h.double, h.flag, h.row, h.column, h.mouse, h.preFlagNum, h.middleHold⟩, .inl hst.symm⟩
    | flag h2 => omega
    | unflag h2 => omega
  | flag h1 =>
    cases eff' with
    | none h2 => omega
    | flag h2 => exact ⟨_, e', ⟨h.board, by simp only [h.gameBoard], h.left, congrArg (· + 1) h.right, h.double, congrArg (· + 1) h.flag, h.row, h.column, h.mouse, h.preFlagNum, h.middleHold⟩, .inl hst.symm⟩
    | unflag h2 => omega
  | unflag h1 =>
    cases eff' with
    | none h2 => omega
    | flag h2 => omega
    | unflag h2 => exact ⟨_, e', ⟨h.board, by simp only [h.gameBoard], h.left, congrArg (· + 1) h.right, h.double, congrArg (· - 1) h.flag, h.row, h.column, h.mouse, h.preFlagNum, h.middleHold⟩, .inl hst.symm⟩

theorem chordingClick_same {v : View} {s t : MSB} (hs : s.Core) (ht : t.Core) (h : Same2 v s t)
    (hst : t.state = s.state) (hpl : s.state = .playing ∨ ∀ q ∈ grid s.row s.column, 10 ≤ s.gb q) (p : Pos) :
    Follow2 v (s.chordingClick p) (t.chordingClick p) := by
  by_cases hp : p ∈ grid s.row s.column
  swap
  · rw [chordingClick_none hp]; exact Follow2.none
  intro s1 r1 e1 hf
  obtain ⟨s', r, e, eff⟩ := chordingClick_eff hs hp
  rw [e] at e1
  simp only [Option.some.injEq, Prod.mk.injEq] at e1
  obtain ⟨rfl, rfl⟩ := e1
  obtain ⟨t', r', e', eff'⟩ := chordingClick_eff ht (p := p) (by rw [h.grid]; exact hp)
  have hch := h.chordable p
  cases eff with
  | none h1 =>
    cases eff' with
    | none h2 => exact ⟨_, e', ⟨h.board, h.gameBoard, h.left, h.right, congrArg (· + 1) h.double, h.flag, h.row, h.column, h.mouse, h.preFlagNum, h.middleHold⟩, .inl hst.symm⟩
    | opens h2 => exact absurd (hch.mp h2) h1
  | opens h1 hn hg =>
    have hf := hf.checkWin
    have hpl : s.state = .playing := by
      rcases hpl with hpl | hpl
      · exact hpl
      · have := hpl p hp
        have := h1.2.1
        omega
    have hh := refresh_same hs ht h (start := s.chordCells p)
      (fun q hq => ⟨(mem_chordCells.mp hq).1, (mem_chordCells.mp hq).2.2⟩) hg hf
    cases eff' with
    | none h2 => exact absurd (hch.mpr h1) h2
    | opens h2 hn' hg' =>
      rw [h.chordCells, hh.1] at hg'
      simp only [Option.some.injEq] at hg'
      subst hg'
      have hany : ((t.chordCells p).any fun q => decide (t.bd q = -1)) = (s.chordCells p).any fun q => decide (s.bd q = -1) := by
        rw [h.chordCells, Bool.eq_iff_iff, List.any_eq_true, List.any_eq_true]
        constructor
        · rintro ⟨q, hq, hb⟩
          exact ⟨q, hq, by rw [← hh.2 q hq]; exact hb⟩
        · rintro ⟨q, hq, hb⟩
          exact ⟨q, hq, by rw [hh.2 q hq]; exact hb⟩
      refine ⟨_, e', Same2.checkWin ⟨h.board, rfl, h.left, h.right, congrArg (· + 1) h.double, h.flag, h.row, h.column, h.mouse, h.preFlagNum, h.middleHold⟩ ?_ ?_⟩
      · show (if _ then GState.loss else t.state) = if _ then GState.loss else s.state
        rw [hany, hst]
      · show (if _ then GState.loss else s.state) = _ ∨ (if _ then GState.loss else s.state) = _
        split
        · exact .inr rfl
        · exact .inl hpl

/-- both machines are in order, look alike and are in the same state, which is not a lost one -/
structure Pair2 (v : View) (s t : MSB) : Prop where
  hs : s.Core
  ht : t.Core
  same : Same2 v s t
  st : t.state = s.state
  ok : s.state ≠ .loss
  play : s.state = .playing ∨ ∀ q ∈ grid s.row s.column, 10 ≤ s.gb q

theorem Pair2.follows {v : View} {s t : MSB} (h : Pair2 v s t) (r : Option Nat) : Follow2 v (some (s, r)) (some (t, r)) :=
  Follow2.some r h.same h.st

/-- other clicks, mouse, state -/
theorem Pair2.set {v : View} {s t : MSB} (h : Pair2 v s t) (m : Mouse) (mh : Bool) (k : Nat) (st : GState) (hst : st ≠ .loss)
    (hp : st = .playing ∨ st = s.state ∨ ∀ q ∈ grid s.row s.column, 10 ≤ s.gb q) :
    Pair2 v { s with mouse := m, middleHold := mh, preFlagNum := k, state := st }
      { t with mouse := m, middleHold := mh, preFlagNum := k, state := st } := by
  refine ⟨h.hs.congr rfl rfl rfl rfl rfl rfl rfl (.inr h.ok), h.ht.congr rfl rfl rfl rfl rfl rfl rfl (.inr (by rw [h.st]; exact h.ok)),
    ⟨h.same.board, h.same.gameBoard, h.same.left, h.same.right, h.same.double, h.same.flag, h.same.row, h.same.column, rfl, rfl, rfl⟩,
    rfl, hst, ?_⟩
  rcases hp with hp | hp | hp
  · exact .inl hp
  · rcases h.play with h | h
    · exact .inl (hp.trans h)
    · exact .inr h
  · exact .inr hp

theorem Pair2.setMouse {v : View} {s t : MSB} (h : Pair2 v s t) (m : Mouse) :
    Pair2 v { s with mouse := m } { t with mouse := m } := by
  have := h.set m s.middleHold s.preFlagNum s.state h.ok (.inr (.inl rfl))
  rw [← h.same.middleHold, ← h.same.preFlagNum, ← h.st] at this
  have e1 : ({ s with mouse := m, middleHold := t.middleHold, preFlagNum := t.preFlagNum, state := t.state } : MSB) = { s with mouse := m } := by
    rw [h.same.middleHold, h.same.preFlagNum, h.st]
  rw [e1] at this
  exact this

theorem Pair2.setMiddle {v : View} {s t : MSB} (h : Pair2 v s t) (m : Bool) :
    Pair2 v { s with middleHold := m } { t with middleHold := m } := by
  have := h.set s.mouse m s.preFlagNum s.state h.ok (.inr (.inl rfl))
  rw [← h.same.mouse, ← h.same.preFlagNum, ← h.st] at this
  have e1 : ({ s with mouse := t.mouse, middleHold := m, preFlagNum := t.preFlagNum, state := t.state } : MSB) = { s with middleHold := m } := by
    rw [h.same.mouse, h.same.preFlagNum, h.st]
  rw [e1] at this
  exact this

theorem Pair2.setState {v : View} {s t : MSB} (h : Pair2 v s t) (m : Mouse) (st : GState) (hst : st ≠ .loss)
    (hp : st = .playing ∨ st = s.state ∨ ∀ q ∈ grid s.row s.column, 10 ≤ s.gb q) :
    Pair2 v { s with mouse := m, state := st } { t with mouse := m, state := st } := by
  have := h.set m s.middleHold s.preFlagNum st hst hp
  rw [← h.same.middleHold, ← h.same.preFlagNum] at this
  have e1 : ({ s with mouse := m, middleHold := t.middleHold, preFlagNum := t.preFlagNum, state := st } : MSB) = { s with mouse := m, state := st } := by
    rw [h.same.middleHold, h.same.preFlagNum]
  rw [e1] at this
  exact this

theorem Pair2.setFlags {v : View} {s t : MSB} (h : Pair2 v s t) (m : Mouse) (k : Nat) (st : GState) (hst : st ≠ .loss)
    (hp : st = .playing ∨ st = s.state ∨ ∀ q ∈ grid s.row s.column, 10 ≤ s.gb q) :
    Pair2 v { s with mouse := m, preFlagNum := k, state := st } { t with mouse := m, preFlagNum := k, state := st } := by
  have := h.set m s.middleHold k st hst hp
  rw [← h.same.middleHold] at this
  have e1 : ({ s with mouse := m, middleHold := t.middleHold, preFlagNum := k, state := st } : MSB) = { s with mouse := m, preFlagNum := k, state := st } := by
    rw [h.same.middleHold]
  rw [e1] at this
  exact this

theorem Pair2.exact {v : View} {s t : MSB} (h : Pair2 v s t) : ∃ a b c x y,
    t = { s with board := v, ce := a, flagedList := b, bbbvSolved := c, pointerX := x, pointerY := y } := by
  refine ⟨t.ce, t.flagedList, t.bbbvSolved, t.pointerX, t.pointerY, ?_⟩
  have h1 := h.same
  have h2 := h.st
  obtain ⟨a1, a2, a3, a4, a5, a6, a7, a8, a9, a10, a11⟩ := h1
  clear h
  cases t
  cases s
  simp_all

theorem Pair2.right {v : View} {s t : MSB} (h : Pair2 v s t) (p : Pos) : Follow2 v (s.rightClick p) (t.rightClick p) :=
  rightClick_same h.hs h.ht h.same h.st h.ok p

theorem Pair2.chord {v : View} {s t : MSB} (h : Pair2 v s t) (p : Pos) : Follow2 v (s.chordingClick p) (t.chordingClick p) :=
  chordingClick_same h.hs h.ht h.same h.st h.play p

theorem Pair2.releaseChord {v : View} {s t : MSB} (h : Pair2 v s t) (p : Pos) : Follow2 v (s.releaseChord p) (t.releaseChord p) := by
  unfold MSB.releaseChord
  rw [h.same.atOutside]
  split
  · exact h.follows _
  · exact h.chord p

theorem Pair2.releaseNotFlag {v : View} {s t : MSB} (h : Pair2 v s t) (p : Pos) : Follow2 v (s.releaseNotFlag p) (t.releaseNotFlag p) := by
  have h' : Pair2 v { s with right := s.right - 1 } { t with right := t.right - 1 } :=
    ⟨h.hs.congr rfl rfl rfl rfl rfl rfl rfl (.inl rfl), h.ht.congr rfl rfl rfl rfl rfl rfl rfl (.inl rfl),
      ⟨h.same.board, h.same.gameBoard, h.same.left, congrArg (· - 1) h.same.right, h.same.double, h.same.flag, h.same.row, h.same.column,
        h.same.mouse, h.same.preFlagNum, h.same.middleHold⟩, h.st, h.ok, h.play⟩
  unfold MSB.releaseNotFlag
  by_cases h0 : s.right = 0
  · rw [if_pos h0]; exact Follow2.none
  · have h1 : t.right ≠ 0 := by rw [h.same.right]; exact h0
    rw [if_neg h0, if_neg h1]
    simp only
    rw [h'.same.atOutside]
    split
    · exact h'.follows _
    · exact h'.chord p

theorem Pair2.releaseLeft {v : View} {s t : MSB} (h : Pair2 v s t) (hpl : s.state = .playing) (p : Pos) :
    Follow2 v (s.releaseLeft p) (t.releaseLeft p) := by
  unfold MSB.releaseLeft
  rw [h.same.atOutside]
  split
  · exact h.follows _
  · exact leftClick_same h.hs h.ht h.same h.st hpl p

theorem stepPlaying_same {v : View} {s t : MSB} (h : Pair2 v s t) (e : Ev) (p : Pos)
    (hpl : s.state = .playing ∨ ¬ ((e = .lr ∨ e = .l) ∧ s.mouse = .downUp)) :
    Follow2 v (s.stepPlaying e p) (t.stepPlaying e p) := by
  have hm := h.same.mouse
  have hin := h.same.inRange p
  have hgb := h.same.gb p
  have hmh := h.same.middleHold
  unfold stepPlaying
  cases e <;> simp only
  case m =>
    rw [hmh]
    split
    · exact (h.setMiddle _).chord p
    · exact (h.setMiddle _).follows _
  case mc => exact (h.setMiddle _).follows _
  case mr => exact (h.setMiddle _).chord p
  all_goals try exact h.follows _
  all_goals
    rw [hm]
    cases hsm : s.mouse <;> simp only
  all_goals first
    | exact h.follows _
    | exact (h.setMouse _).follows _
    | exact (h.setMouse _).releaseChord p
    | exact (h.setMouse _).releaseNotFlag p
    | (refine (h.setMouse _).releaseLeft ?_ p
       rcases hpl with hpl | hpl
       · exact hpl
       · exact absurd ⟨by simp, hsm⟩ hpl)
    | skip
  all_goals
    rw [hin, hgb]
    split
    · split
      · exact (h.setMouse _).right p
      · exact (h.setMouse _).right p
    · first | exact (h.setMouse _).follows _ | exact Follow2.none

/-- nothing shown -/
theorem GInv.covered {s : MSB} (h : s.GInv) (hst : s.state = .ready ∨ s.state = .preFlaging) :
    ∀ q ∈ grid s.row s.column, 10 ≤ s.gb q := fun q hq => by
  have := (h.pre hst).1 q hq
  omega

theorem Follow2.ofClick {v : View} {o o' : Option (MSB × Option Nat)} (h : Follow2 v o o') (e : Ev) (p : Pos) :
    Follow2 v (Flow.run e p (.ofClick o)) (Flow.run e p (.ofClick o')) := by
  rw [run_ofClick, run_ofClick]; exact h

theorem Pair2.ret {v : View} {s t : MSB} (h : Pair2 v s t) (r : Option Nat) (e : Ev) (p : Pos) :
    Follow2 v (Flow.run e p (.ret s r)) (Flow.run e p (.ret t r)) := h.follows r

theorem stepReady_same {v : View} {s t : MSB} (h : Pair2 v s t) (hc : ∀ q ∈ grid s.row s.column, 10 ≤ s.gb q) (e : Ev) (p : Pos) :
    Follow2 v (Flow.run e p (s.stepReady e p)) (Flow.run e p (t.stepReady e p)) := by
  have hm := h.same.mouse
  have hin := h.same.inRange p
  have hgb := h.same.gb p
  have hpn := h.same.preFlagNum
  unfold stepReady
  cases e <;> simp only
  case lc =>
    rw [hm]
    cases hsm : s.mouse <;> simp only
    case upUp =>
      have h1 : ({ t with mouse := .downUp } : MSB).inRange p = ({ s with mouse := .downUp } : MSB).inRange p := hin
      rw [h1]
      split
      · exact (h.setState .downUp .preFlaging (by decide) (.inr (.inr hc))).ret _ _ _
      · exact (h.setMouse _).ret _ _ _
    all_goals first
      | exact h.ret _ _ _
      | exact (h.setMouse _).ret _ _ _
  case pf =>
    rw [hin]
    split
    · rw [hgb]
      split
      · refine Follow2.ofClick ?_ _ _
        have := h.setFlags s.mouse (s.preFlagNum + 1) .preFlaging (by decide) (.inr (.inr hc))
        have e1 : ({ t with preFlagNum := t.preFlagNum + 1, state := .preFlaging } : MSB) =
          { t with mouse := s.mouse, preFlagNum := s.preFlagNum + 1, state := .preFlaging } := by rw [hpn, ← hm]
        rw [e1]
        exact this.right p
      · exact Follow2.none
    · exact Follow2.none
  case rc =>
    rw [hm]
    cases hsm : s.mouse <;> simp only
    case upUp =>
      have h1 : ({ t with mouse := .upDown } : MSB).inRange p = ({ s with mouse := .upDown } : MSB).inRange p := hin
      rw [h1]
      split
      · exact Follow2.ofClick ((h.setFlags .upDown 1 .preFlaging (by decide) (.inr (.inr hc))).right p) _ _
      · exact (h.setMouse _).ret _ _ _
    all_goals first
      | exact h.ret _ _ _
      | exact (h.setMouse _).ret _ _ _
  case lr =>
    rw [hm]
    cases hsm : s.mouse <;> simp only
    all_goals first
      | exact h.ret _ _ _
      | exact (h.setMouse _).ret _ _ _
  case rr =>
    rw [hm]
    cases hsm : s.mouse <;> simp only
    all_goals first
      | exact h.ret _ _ _
      | exact (h.setMouse _).ret _ _ _
  case cc =>
    rw [hm]
    cases hsm : s.mouse <;> simp only
    all_goals first
      | exact h.ret _ _ _
      | exact (h.setMouse _).ret _ _ _
  all_goals exact h.ret _ _ _

theorem stepPreFlaging_same {v : View} {s t : MSB} (h : Pair2 v s t) (hc : ∀ q ∈ grid s.row s.column, 10 ≤ s.gb q)
    (hst : s.state = .preFlaging) (e : Ev) (p : Pos) :
    Follow2 v (Flow.run e p (s.stepPreFlaging e p)) (Flow.run e p (t.stepPreFlaging e p)) := by
  obtain ⟨a, b, c, x, y, rfl⟩ := h.exact
  set t : MSB := { s with board := v, ce := a, flagedList := b, bbbvSolved := c, pointerX := x, pointerY := y } with ht
  have hm := h.same.mouse
  have hin := h.same.inRange p
  have hgb := h.same.gb p
  have hpn := h.same.preFlagNum
  have hout := h.same.atOutside p
  have go : ∀ {s t : MSB}, Pair2 v s t → s.state = .playing ∨ ¬ ((e = .lr ∨ e = .l) ∧ s.mouse = .downUp) →
      Follow2 v (Flow.run e p (.go s)) (Flow.run e p (.go t)) := fun h he => stepPlaying_same h e p he
  unfold stepPreFlaging
  cases e <;> simp only
  case lr =>
    rw [hm]
    cases hsm : s.mouse <;> simp only
    case downUp =>
      rw [hout]
      split
      · have hpn' : ({ t with mouse := .upUp } : MSB).preFlagNum = ({ s with mouse := .upUp } : MSB).preFlagNum := rfl
        rw [hpn']
        split
        · have h1 := h.setState .upUp .ready (by decide) (.inr (.inr hc))
          refine Follow2.some _ ⟨h1.same.board, h1.same.gameBoard, rfl, rfl, rfl, rfl, h1.same.row, h1.same.column, rfl, h1.same.preFlagNum, h1.same.middleHold⟩ rfl
        · exact (h.setMouse _).ret _ _ _
      · rw [hin]
        split
        · rw [hgb]
          split
          · have h1 := h.setState .downUp .playing (by decide) (.inl rfl)
            exact go h1 (.inl rfl)
          · exact go (h.setMouse _) (.inr (fun hh => by simp at hh))
        · exact Follow2.none
    all_goals first
      | exact h.ret _ _ _
      | exact go h (.inr (fun hh => by simp [hsm] at hh))
  case pf =>
    rw [hin]
    split
    · rw [hgb]
      split
      · refine Follow2.ofClick ?_ _ _
        have := h.setFlags s.mouse (s.preFlagNum + 1) s.state h.ok (.inr (.inl rfl))
        have e1 : ({ t with preFlagNum := t.preFlagNum + 1 } : MSB) =
          { t with mouse := s.mouse, preFlagNum := s.preFlagNum + 1, state := s.state } := by rw [hpn, ← hm, ← h.st]
        rw [e1]
        exact this.right p
      · exact Follow2.none
    · exact Follow2.none
  case rc =>
    rw [hm]
    cases hsm : s.mouse <;> simp only
    case upUp =>
      have hin' : ({ t with mouse := .upDown } : MSB).inRange p = ({ s with mouse := .upDown } : MSB).inRange p := hin
      have hgb' : ({ t with mouse := .upDown } : MSB).gb p = ({ s with mouse := .upDown } : MSB).gb p := hgb
      rw [hin', hgb', hpn]
      split
      · split
        · exact Follow2.ofClick ((h.setFlags .upDown _ .preFlaging (by decide) (.inr (.inr hc))).right p) _ _
        · split
          · exact Follow2.none
          · split
            · refine Follow2.some _ ⟨h.same.board, by simp only [h.same.gameBoard], rfl, rfl, rfl, rfl, h.same.row, h.same.column, rfl, rfl, h.same.middleHold⟩ rfl
            · refine Follow2.ofClick ?_ _ _
              have := h.setFlags .upDown (s.preFlagNum - 1) s.state h.ok (.inr (.inl rfl))
              have e1 : ({ t with mouse := .upDown, preFlagNum := s.preFlagNum - 1 } : MSB) =
                { t with mouse := .upDown, preFlagNum := s.preFlagNum - 1, state := s.state } := by rw [← h.st]
              rw [e1]
              exact this.right p
      · exact go (h.setMouse _) (.inr (fun hh => by simp at hh))
    case downUp =>
      have hin' : ({ t with mouse := .chording } : MSB).inRange p = ({ s with mouse := .chording } : MSB).inRange p := hin
      rw [hin', hpn]
      split
      · exact go (h.setState .chording .ready (by decide) (.inr (.inr hc))) (.inr (fun hh => by simp at hh))
      · exact go (h.setMouse _) (.inr (fun hh => by simp at hh))
    case downUpAfterChording => exact go (h.setMouse _) (.inr (fun hh => by simp at hh))
    all_goals exact h.ret _ _ _
  case cc =>
    rw [hm]
    cases hsm : s.mouse <;> simp only
    case downUp =>
      rw [hin, hpn]
      split
      · exact (h.setState .chording .ready (by decide) (.inr (.inr hc))).ret _ _ _
      · exact (h.setMouse _).ret _ _ _
    all_goals first
      | exact h.ret _ _ _
      | exact (h.setMouse _).ret _ _ _
  all_goals first
    | exact h.ret _ _ _
    | exact go h (.inr (fun hh => by simp at hh))

/-- one step of both machines -/
theorem step_same {v : View} {s t : MSB} (hs : s.GInv) (ht : t.GInv) (h : Same2 v s t) (hst : t.state = s.state) (e : Ev) (p : Pos) :
    Follow2 v (s.step e p) (t.step e p) := by
  rw [step_eq, step_eq, hst]
  cases hh : s.state with
  | ready =>
    have hc := hs.covered (.inl hh)
    exact stepReady_same ⟨hs.core, ht.core, h, hst, by rw [hh]; decide, .inr hc⟩ hc e p
  | preFlaging =>
    have hc := hs.covered (.inr hh)
    exact stepPreFlaging_same ⟨hs.core, ht.core, h, hst, by rw [hh]; decide, .inr hc⟩ hc hh e p
  | playing => exact stepPlaying_same ⟨hs.core, ht.core, h, hst, by rw [hh]; decide, .inl hh⟩ e p (.inl hh)
  | loss => exact Follow2.some _ h hst
  | win => exact Follow2.some _ h hst
  | display => exact Follow2.some _ h hst

/-- cells that are not mines -/
theorem card_safe {r c : Nat} (f : Pos → Int) : ((grid r c).filter (fun p => f p ≠ -1)).card +
    ((grid r c).filter (fun p => f p = -1)).card = (grid r c).card := by
  rw [← Finset.card_filter_add_card_filter_not (s := grid r c) (p := fun p => f p = -1), Nat.add_comm]

/-- two games in order that look alike on boards with as many mines are not one won and the other unfinished -/
theorem win_same {v : View} {s t : MSB} (hs : s.GInv) (ht : t.GInv) (h : Same2 v s t)
    (hc : (mines v).card = (mines s.board).card) (hw : s.state = .win) : t.state ≠ .playing := by
  intro hp
  obtain ⟨q, hq, q1, q2⟩ := ht.playing hp
  have hvc : vcells v = grid s.row s.column := by rw [← h.board, ht.core.vcells, h.grid]
  unfold mines at hc
  rw [hvc, hs.core.vcells] at hc
  have c1 := card_safe (r := s.row) (c := s.column) (val v)
  have c2 := card_safe (r := s.row) (c := s.column) (val s.board)
  rw [h.grid] at hq
  have hlt : ((grid s.row s.column).filter (fun p => val s.board p ≠ -1)).card < ((grid s.row s.column).filter (fun p => val v p ≠ -1)).card := by
    apply Finset.card_lt_card
    constructor
    · intro p hp'
      rw [Finset.mem_filter] at hp' ⊢
      refine ⟨hp'.1, ?_⟩
      have h1 := hs.win hw p hp'.1 hp'.2
      have h2 := ht.core.marks p (by rw [h.grid]; exact hp'.1)
      have h3 := hs.core.bd_range hp'.1
      have h4 : s.bd p ≠ -1 := hp'.2
      rw [h.gb, h.bd] at h2
      simp only [hp, reduceCtorEq, false_and, or_false] at h2
      omega
    · intro hh
      have h1 := hh (Finset.mem_filter.mpr ⟨hq, by rw [← h.bd]; exact q1⟩)
      have h2 := hs.win hw q hq (Finset.mem_filter.mp h1).2
      have h3 := ht.core.marks q (by rw [h.grid]; exact hq)
      have h4 := hs.core.bd_range hq
      have h5 : s.bd q ≠ -1 := (Finset.mem_filter.mp h1).2
      have h6 := h.gb q
      simp only [hp, reduceCtorEq, false_and, or_false] at h3
      omega
  omega

/-- and the other way round -/
theorem win_same' {v : View} {s t : MSB} (hs : s.GInv) (ht : t.GInv) (h : Same2 v s t)
    (hc : (mines v).card = (mines s.board).card) (hw : t.state = .win) : s.state ≠ .playing := by
  intro hp
  refine win_same (v := s.board) (s := t) (t := s) ht hs ⟨rfl, h.gameBoard.symm, h.left.symm, h.right.symm, h.double.symm, h.flag.symm,
    h.row.symm, h.column.symm, h.mouse.symm, h.preFlagNum.symm, h.middleHold.symm⟩ ?_ hw hp
  rw [h.board]; exact hc.symm

theorem sn_eq {v : View} {s t : MSB} (hs : s.GInv) (ht : t.GInv) (h : Same2 v s t) (hn : Near2 s.state t.state)
    (hc : s.state = .playing ∨ s.state = .win → (mines v).card = (mines s.board).card) : t.state = s.state := by
  have hl : t.state = .loss ↔ s.state = .loss := by
    constructor
    · intro hh
      obtain ⟨p, hp, h1⟩ := ht.loss hh
      rw [h.grid] at hp
      rw [h.gb] at h1
      by_contra hne
      have h2 := hs.core.marks p hp
      have h3 := hs.core.bd_range hp
      simp only [hne, false_and, or_false] at h2
      omega
    · intro hh
      obtain ⟨p, hp, h1⟩ := hs.loss hh
      rw [← h.grid] at hp
      rw [← h.gb] at h1
      by_contra hne
      have h2 := ht.core.marks p hp
      have h3 := ht.core.bd_range hp
      simp only [hne, false_and, or_false] at h2
      omega
  rcases hn with hn | ⟨hn, hn' | hn'⟩ | ⟨hn, hn' | hn'⟩
  · exact hn.symm
  · exact absurd hn' (win_same hs ht h (hc (.inr hn)) hn)
  · rw [hn', hl.mp hn']
  · exact absurd hn' (win_same' hs ht h (hc (.inl hn')) hn)
  · rw [hn', hl.mpr hn']

end Ms.MSB
