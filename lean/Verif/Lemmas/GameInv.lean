import Verif.Lemmas.GameOp

namespace Ms
open Spec

namespace MSB

theorem mem_ring {s : MSB} {p q : Pos} : q ∈ s.ring p ↔ q ∈ grid s.row s.column ∧ Adj p q := by
  unfold ring
  simp only [List.mem_filter, mem_block_near, decide_eq_true_eq, Adj, Ne]
  have : (q.1 = p.1 ∧ q.2 = p.2) ↔ p = q := by
    rw [Prod.ext_iff]; constructor <;> rintro ⟨a, b⟩ <;> exact ⟨a.symm, b.symm⟩
  rw [this]
  tauto

theorem nodup_ring (s : MSB) (p : Pos) : (s.ring p).Nodup := (nodup_block _ _ _ _).filter _

/-- the covered neighbours that a chord opens -/
def chordCells (s : MSB) (p : Pos) : List Pos := (s.ring p).filter fun q => decide (s.gb q = 10)

/-- the number of flagged neighbours -/
def flagsAround (s : MSB) (p : Pos) : Nat := ((s.ring p).filter fun q => decide (s.gb q = 11)).length

theorem mem_chordCells {s : MSB} {p q : Pos} :
    q ∈ s.chordCells p ↔ q ∈ grid s.row s.column ∧ Adj p q ∧ s.gb q = 10 := by
  unfold chordCells
  simp only [List.mem_filter, mem_ring, decide_eq_true_eq]
  tauto

theorem flagsAround_eq (s : MSB) (p : Pos) : s.flagsAround p =
    ((grid s.row s.column).filter fun q => Adj p q ∧ s.gb q = 11).card := by
  unfold flagsAround
  rw [← List.toFinset_card_of_nodup ((nodup_ring s p).filter _)]
  congr 1
  ext q
  simp only [List.mem_toFinset, List.mem_filter, mem_ring, decide_eq_true_eq, Finset.mem_filter]
  tauto

/-- chording on a number with the right number of flags hits a mine only if some flag is wrong -/
theorem wrong_flag {s : MSB} (h : s.Core) {p m : Pos} (hp : p ∈ grid s.row s.column)
    (hb : s.gb p = s.bd p) (hb' : s.bd p ≠ -1) (hf : (s.flagsAround p : Int) = s.gb p)
    (hm : m ∈ s.chordCells p) (hmine : s.bd m = -1) :
    ∃ q ∈ grid s.row s.column, s.gb q = 11 ∧ s.bd q ≠ -1 := by
  by_contra hno
  push Not at hno
  have hn := h.num p (h.vcells ▸ hp) hb'
  rw [← bd_val, ← hb, ← hf] at hn
  have hn : s.flagsAround p = adjCount (mines s.board) p := by exact_mod_cast hn
  rw [flagsAround_eq] at hn
  unfold adjCount at hn
  have hsub : ((grid s.row s.column).filter fun q => Adj p q ∧ s.gb q = 11) ⊆
      ((mines s.board).filter fun q => Adj p q) := by
    intro q hq
    obtain ⟨h1, h2, h3⟩ := Finset.mem_filter.mp hq
    exact Finset.mem_filter.mpr ⟨Finset.mem_filter.mpr ⟨h.vcells ▸ h1, hno q h1 h3⟩, h2⟩
  have heq := Finset.eq_of_subset_of_card_le hsub (le_of_eq hn.symm)
  obtain ⟨m1, m2, m3⟩ := mem_chordCells.mp hm
  have : m ∈ ((mines s.board).filter fun q => Adj p q) :=
    Finset.mem_filter.mpr ⟨Finset.mem_filter.mpr ⟨h.vcells ▸ m1, hmine⟩, m2⟩
  rw [← heq] at this
  have := (Finset.mem_filter.mp this).2.2
  omega

/-- the invariant of every reachable state -/
structure GInv (s : MSB) : Prop where
  core : s.Core
  ready : s.state = .ready → ∀ p ∈ grid s.row s.column, s.gb p = 10
  pre : s.state = .ready ∨ s.state = .preFlaging →
    (∀ p ∈ grid s.row s.column, s.gb p = 10 ∨ s.gb p = 11) ∧ s.pointerX = 0 ∧ s.pointerY = 0
  preNum : s.state = .preFlaging → s.flag ≤ s.preFlagNum
  playing : s.state = .playing → ∃ p ∈ grid s.row s.column, s.bd p ≠ -1 ∧ s.gb p ≠ s.bd p
  win : s.state = .win → ∀ p ∈ grid s.row s.column, s.bd p ≠ -1 → s.gb p = s.bd p
  loss : s.state = .loss → ∃ p ∈ grid s.row s.column, s.gb p = 15
  lossOpen : s.state = .loss → (∃ p ∈ grid s.row s.column, s.bd p ≠ -1) →
    ∃ p ∈ grid s.row s.column, s.bd p ≠ -1 ∧ s.gb p ≠ s.bd p
  nd : s.state ≠ .display

/-- `Core` only looks at these fields -/
theorem Core.congr {s t : MSB} (h : s.Core) (h1 : t.board = s.board) (h2 : t.gameBoard = s.gameBoard)
    (h3 : t.row = s.row) (h4 : t.column = s.column) (h5 : t.flag = s.flag) (h6 : t.pointerX = s.pointerX)
    (h7 : t.pointerY = s.pointerY) (h8 : t.state = s.state ∨ s.state ≠ .loss) : t.Core := by
  refine ⟨?_, ?_, ?_, ?_, ?_, ?_, ?_, ?_⟩
  · rw [h1, h3]; exact h.hrow
  · rw [h1, h4]; exact h.hcol
  · rw [h2, h3, h4]; exact h.rect
  · rw [h1]; exact h.num
  · unfold gb bd
    rw [h1, h2, h3, h4]
    intro p hp
    rcases h.marks p hp with a | a | a | a
    · exact .inl a
    · exact .inr (.inl a)
    · exact .inr (.inr (.inl a))
    · rcases h8 with h8 | h8
      · rw [h8]; exact .inr (.inr (.inr a))
      · exact absurd a.1 h8
  · unfold flags; rw [h5, h3, h4, h2]; exact h.flag
  · unfold gb bd; rw [h1, h2, h3, h4, h6, h7]; exact h.ptr
  · rw [h3, h6]; exact h.ptrRow

theorem checkWin_cases {t : MSB} (h : t.Core) (hr : 0 < t.row) :
    (t.checkWin = { t with state := .win } ∧ ∀ p ∈ grid t.row t.column, t.bd p ≠ -1 → t.gb p = t.bd p) ∨
    ∃ q ∈ grid t.row t.column, t.checkWin = { t with pointerX := q.1, pointerY := q.2 } ∧
      t.bd q ≠ -1 ∧ t.gb q ≠ t.bd q ∧ Core { t with pointerX := q.1, pointerY := q.2 } := by
  rcases winScan_core h hr with ⟨h1, h2⟩ | ⟨q, hq, h1, h2, h3, h4⟩
  · left
    refine ⟨?_, h2⟩
    unfold checkWin
    rw [h1]
    simp
  · right
    refine ⟨q, hq, ?_, h2, ?_, ?_⟩
    · unfold checkWin
      rw [h3]
      simp
    · have := h.bd_range hq; omega
    · exact ⟨h.hrow, h.hcol, h.rect, h.num, h.marks, h.flag, h4, fun _ => (mem_grid.mp hq).1⟩

/-- after opening safe cells and checking for a win, the invariant holds -/
theorem checkWin_inv {t : MSB} (h : t.Core) (hr : 0 < t.row) (hs : t.state = .playing) :
    t.checkWin.GInv := by
  rcases checkWin_cases h hr with ⟨e, h2⟩ | ⟨q, hq, e, h2, h3, h4⟩
  · rw [e]
    refine ⟨h.congr rfl rfl rfl rfl rfl rfl rfl (.inr (by rw [hs]; decide)), ?_, ?_, ?_, ?_, fun _ => h2, ?_, ?_, ?_⟩
    all_goals simp
  · rw [e]
    refine ⟨h4, ?_, ?_, ?_, fun _ => ⟨q, hq, h2, h3⟩, ?_, ?_, ?_, ?_⟩
    all_goals simp [hs]

/-- after opening a mine by chording, `is_win` answers no -/
theorem checkWin_loss {t : MSB} (h : t.Core) (hr : 0 < t.row) (hs : t.state = .loss)
    (h15 : ∃ p ∈ grid t.row t.column, t.gb p = 15) (hw : ∃ p ∈ grid t.row t.column, t.gb p = 14) :
    t.checkWin.GInv ∧ t.checkWin.state = .loss := by
  rcases checkWin_cases h hr with ⟨e, h2⟩ | ⟨q, hq, e, h2, h3, h4⟩
  · exfalso
    obtain ⟨p, hp, h14⟩ := hw
    have hm := h.marks p hp
    have hb := h.bd_range hp
    have := h2 p hp (by omega)
    omega
  · rw [e]
    refine ⟨⟨h4, ?_, ?_, ?_, ?_, ?_, fun _ => h15, fun _ _ => ⟨q, hq, h2, h3⟩, ?_⟩, hs⟩
    all_goals simp [hs]

/-! ### `left_click` -/

/-- how much `bbbv_solved` grows at an effective left click (`s` with `left` already incremented) -/
def leftGain (s : MSB) (p : Pos) : Nat :=
  if s.bd p = 0 then (match s.cellIsOpCompleted p [] with | some (true, _) => 1 | _ => 0)
  else if s.cellIsBbbv p then 1 else 0

/-- the effect of `left_click` -/
inductive LeftEff (s : MSB) (p : Pos) : MSB → Option Nat → Prop
  | none (h : s.gb p ≠ 10) : LeftEff s p { s with left := s.left + 1 } (some 0)
  | mine {g' : Board} (h : s.gb p = 10) (hb : s.bd p = -1)
      (hg : refreshBoard s.board s.gameBoard [p] = some g') :
      LeftEff s p { s with left := s.left + 1, gameBoard := g', state := .loss } (some 0)
  | safe {g' : Board} (h : s.gb p = 10) (hb : s.bd p ≠ -1)
      (hg : refreshBoard s.board s.gameBoard [p] = some g') :
      LeftEff s p (checkWin { s with
        left := s.left + 1, gameBoard := g', ce := s.ce + 1,
        bbbvSolved := s.bbbvSolved + leftGain { s with left := s.left + 1 } p }) (some 2)

theorem cellIsBbbv_congr {s t : MSB} (h1 : t.board = s.board) (h3 : t.row = s.row)
    (h4 : t.column = s.column) (p : Pos) : t.cellIsBbbv p = s.cellIsBbbv p := by
  unfold cellIsBbbv bd; rw [h1, h3, h4]

theorem leftClick_eff {s : MSB} (h : s.Core) {p : Pos} (hp : p ∈ grid s.row s.column) :
    ∃ s' r, s.leftClick p = some (s', r) ∧ LeftEff s p s' r := by
  unfold leftClick
  rw [if_neg (by rw [inRange_iff]; simpa using hp)]
  simp only
  by_cases h10 : s.gb p = 10
  · have h10' : MSB.gb { s with left := s.left + 1 } p = 10 := h10
    obtain ⟨g', hg, -⟩ := refresh_core h (start := [p]) (by simpa using ⟨hp, h10⟩)
    rw [if_neg (by simpa using h10')]
    by_cases h0 : s.bd p = 0
    · have h0' : MSB.bd { s with left := s.left + 1 } p = 0 := h0
      rw [if_pos h0']
      have hz : p ∈ zeros s.board := Finset.mem_filter.mpr ⟨h.vcells ▸ hp, h0⟩
      obtain ⟨b, M, e, -⟩ := cellIsOpCompleted_spec (s := { s with left := s.left + 1 }) h.vcells hz []
      refine ⟨_, _, ?_, .safe h10 (by omega) hg⟩
      rw [e]
      cases b <;> simp [hg, leftGain, h0', e]
    · have h0' : MSB.bd { s with left := s.left + 1 } p ≠ 0 := h0
      rw [if_neg h0']
      by_cases hm : s.bd p = -1
      · have hm' : MSB.bd { s with left := s.left + 1 } p = -1 := hm
        rw [if_pos hm']
        refine ⟨_, _, ?_, .mine h10 hm hg⟩
        simp [hg]
      · have hm' : MSB.bd { s with left := s.left + 1 } p ≠ -1 := hm
        rw [if_neg hm']
        refine ⟨_, _, ?_, .safe h10 hm hg⟩
        simp only [hg, Option.map_some, leftGain, if_neg h0']
        have hc : cellIsBbbv { s with left := s.left + 1, gameBoard := g' } p =
            cellIsBbbv { s with left := s.left + 1 } p := cellIsBbbv_congr rfl rfl rfl p
        rw [hc]
        cases cellIsBbbv { s with left := s.left + 1 } p <;> simp
  · have h10' : MSB.gb { s with left := s.left + 1 } p ≠ 10 := h10
    rw [if_pos h10']
    exact ⟨_, _, rfl, .none h10⟩

theorem leftClick_none {s : MSB} {p : Pos} (hp : p ∉ grid s.row s.column) : s.leftClick p = none := by
  unfold leftClick; rw [if_pos]; rw [inRange_iff]; exact hp

theorem LeftEff.inv {s s' : MSB} {p : Pos} {r : Option Nat} (h : s.Core) (hst : s.state = .playing)
    (hopen : (∃ p ∈ grid s.row s.column, s.bd p ≠ -1) →
      ∃ p ∈ grid s.row s.column, s.bd p ≠ -1 ∧ s.gb p ≠ s.bd p)
    (hpl : s.gb p ≠ 10 → ∃ p ∈ grid s.row s.column, s.bd p ≠ -1 ∧ s.gb p ≠ s.bd p)
    (hp : p ∈ grid s.row s.column) (e : LeftEff s p s' r) : s'.GInv := by
  have hr : 0 < s.row := by have := (mem_grid.mp hp).1; omega
  have hnl : s.state ≠ .loss := by rw [hst]; decide
  cases e with
  | none h10 =>
    refine ⟨h.congr rfl rfl rfl rfl rfl rfl rfl (.inl rfl), ?_, ?_, ?_, fun _ => hpl h10, ?_, ?_, ?_, ?_⟩
    all_goals simp [hst]
  | mine h10 hb hg =>
    rename_i g'
    have hc := h.open hnl (start := [p]) (by simpa using ⟨hp, h10⟩) .loss (.inl rfl) hg
    obtain ⟨g'', h1, h2, h3⟩ := refresh_core h (start := [p]) (by simpa using ⟨hp, h10⟩)
    rw [hg] at h1
    obtain rfl : g' = g'' := by simpa using h1
    refine ⟨hc.congr rfl rfl rfl rfl rfl rfl rfl (.inl rfl), ?_, ?_, ?_, ?_, ?_, fun _ => ?_,
      fun _ hsafe => ?_, ?_⟩
    rotate_right 3
    · refine ⟨p, hp, ?_⟩
      have := h3 p hp
      rw [if_pos (.click (by simp)), if_pos hb] at this
      exact this
    · obtain ⟨q, hq, hq1, hq2⟩ := hopen hsafe
      refine ⟨q, hq, hq1, ?_⟩
      change bval g' q ≠ s.bd q
      rw [h3 q hq]
      have hno : ¬ Opens s.board s.gameBoard [p] q := by
        intro ho
        have key : ∀ q, Opens s.board s.gameBoard [p] q → q = p := by
          intro q ho
          induction ho with
          | click h => simpa using h
          | spread _ h0 _ _ _ ih =>
            subst ih
            rw [← bd_val] at h0
            omega
        have := key q ho
        subst this
        exact hq1 hb
      rw [if_neg hno]
      have hbd := h.bd_range hq
      split
      · omega
      · exact hq2
    all_goals simp
  | safe h10 hb hg =>
    apply checkWin_inv
    · have hc := h.open hnl (start := [p]) (by simpa using ⟨hp, h10⟩) .playing (.inr (by simpa using hb)) hg
      exact hc.congr rfl rfl rfl rfl rfl rfl rfl (.inl hst)
    · exact hr
    · exact hst

/-! ### `chording_click` -/

/-- how much `bbbv_solved` grows at an effective chord -/
def chordGain (s : MSB) (p : Pos) : Nat :=
  ((s.chordCells p).filter fun q => decide (s.bd q > 0) && s.cellIsBbbv q).length +
    (s.opNumAroundCell p).getD 0

/-- a chord opens something -/
def Chordable (s : MSB) (p : Pos) : Prop :=
  0 < s.gb p ∧ s.gb p < 8 ∧ (s.flagsAround p : Int) = s.gb p ∧ s.chordCells p ≠ []

/-- the counters and the state as they are when `chording_click` opens the cells -/
def preChord (s : MSB) (p : Pos) : MSB :=
  { s with
    double := s.double + 1
    state := if (s.chordCells p).any (fun q => decide (s.bd q = -1)) then .loss else s.state
    ce := s.ce + 1
    bbbvSolved := s.bbbvSolved +
      ((s.chordCells p).filter fun q => decide (s.bd q > 0) && s.cellIsBbbv q).length }

/-- the effect of `chording_click` -/
inductive ChordEff (s : MSB) (p : Pos) : MSB → Option Nat → Prop
  | none (h : ¬ s.Chordable p) : ChordEff s p { s with double := s.double + 1 } (some 0)
  | opens {g' : Board} {n : Nat} (h : s.Chordable p)
      (hn : (s.preChord p).opNumAroundCell p = some n)
      (hg : refreshBoard s.board s.gameBoard (s.chordCells p) = some g') :
      ChordEff s p (checkWin { s.preChord p with
        bbbvSolved := (s.preChord p).bbbvSolved + n, gameBoard := g' }) (some 3)

theorem chordingClick_eff {s : MSB} (h : s.Core) {p : Pos} (hp : p ∈ grid s.row s.column) :
    ∃ s' r, s.chordingClick p = some (s', r) ∧ ChordEff s p s' r := by
  obtain ⟨g', hg, -⟩ := refresh_core h (start := s.chordCells p)
    (fun q hq => ⟨(mem_chordCells.mp hq).1, (mem_chordCells.mp hq).2.2⟩)
  obtain ⟨n, hn⟩ := opNum_total (s := s.preChord p) h.vcells p
  have hge : 0 ≤ s.gb p := by
    have := h.marks p hp; have := h.bd_range hp; omega
  by_cases hc : s.Chordable p
  · refine ⟨_, _, ?_, .opens hc hn hg⟩
    unfold chordingClick
    rw [if_neg (by rw [inRange_iff]; simpa using hp)]
    simp only
    obtain ⟨c1, c2, c3, c4⟩ := hc
    have e1 : ¬ (MSB.gb { s with double := s.double + 1 } p = 0 ∨
      MSB.gb { s with double := s.double + 1 } p ≥ 8) := by
      change ¬ (s.gb p = 0 ∨ s.gb p ≥ 8); omega
    rw [if_neg e1, if_pos ⟨c3, c4⟩]
    change ((s.preChord p).opNumAroundCell p).bind _ = _
    rw [hn]
    change (refreshBoard s.board s.gameBoard (s.chordCells p)).map _ = _
    rw [hg]
    rfl
  · refine ⟨_, _, ?_, .none hc⟩
    unfold chordingClick
    rw [if_neg (by rw [inRange_iff]; simpa using hp)]
    simp only
    by_cases e1 : MSB.gb { s with double := s.double + 1 } p = 0 ∨
      MSB.gb { s with double := s.double + 1 } p ≥ 8
    · rw [if_pos e1]
    · rw [if_neg e1, if_neg]
      intro h
      apply hc
      have e1' : ¬ (s.gb p = 0 ∨ s.gb p ≥ 8) := e1
      exact ⟨by omega, by omega, h.1, h.2⟩

theorem chordingClick_none {s : MSB} {p : Pos} (hp : p ∉ grid s.row s.column) :
    s.chordingClick p = none := by
  unfold chordingClick; rw [if_pos]; rw [inRange_iff]; exact hp

theorem ChordEff.inv {s s' : MSB} {p : Pos} {r : Option Nat} (h : s.GInv)
    (hst : s.state = .playing ∨ s.state = .preFlaging)
    (hp : p ∈ grid s.row s.column) (e : ChordEff s p s' r) : s'.GInv := by
  have hr : 0 < s.row := by have := (mem_grid.mp hp).1; omega
  have hnl : s.state ≠ .loss := by rcases hst with h | h <;> rw [h] <;> decide
  cases e with
  | none _ =>
    exact ⟨h.core.congr rfl rfl rfl rfl rfl rfl rfl (.inl rfl), h.ready, h.pre, h.preNum, h.playing, h.win,
      h.loss, h.lossOpen, h.nd⟩
  | opens hc hn hg =>
    rename_i g' n
    have hst : s.state = .playing := by
      rcases hst with hst | hst
      · exact hst
      · obtain ⟨c1, c2, -⟩ := hc
        have := (h.pre (.inr hst)).1 p hp
        omega
    have hcov : ∀ q ∈ s.chordCells p, q ∈ grid s.row s.column ∧ s.gb q = 10 :=
      fun q hq => ⟨(mem_chordCells.mp hq).1, (mem_chordCells.mp hq).2.2⟩
    obtain ⟨c1, c2, c3, c4⟩ := hc
    have hmk := h.core.marks p hp
    have hbd := h.core.bd_range hp
    by_cases hm : ∃ m ∈ s.chordCells p, s.bd m = -1
    · have hany : (s.chordCells p).any (fun q => decide (s.bd q = -1)) = true := by
        rw [List.any_eq_true]
        obtain ⟨m, h1, h2⟩ := hm
        exact ⟨m, h1, by simpa using h2⟩
      have hpc : (s.preChord p).state = .loss := by unfold preChord; simp [hany]
      have hcore := h.core.open hnl hcov .loss (.inl rfl) hg
      obtain ⟨g'', h1, h2, h3⟩ := refresh_core h.core hcov
      rw [hg] at h1
      obtain rfl : g' = g'' := by simpa using h1
      obtain ⟨m, hm1, hm2⟩ := hm
      apply And.left
      apply checkWin_loss
      · exact hcore.congr rfl rfl rfl rfl rfl rfl rfl (.inl hpc)
      · exact hr
      · exact hpc
      · refine ⟨m, (hcov m hm1).1, ?_⟩
        have := h3 m (hcov m hm1).1
        rw [if_pos (.click hm1), if_pos hm2] at this
        exact this
      · obtain ⟨q, hq, hq1, hq2⟩ := wrong_flag h.core hp (by omega) (by omega) c3 hm1 hm2
        refine ⟨q, hq, ?_⟩
        have := h3 q hq
        rw [if_neg, if_pos ⟨⟨m, hm1, hm2⟩, hq1, hq2⟩] at this
        · exact this
        · intro ho
          have := (opens_covered h.core hcov ho).2
          omega
    · push Not at hm
      have hany : (s.chordCells p).any (fun q => decide (s.bd q = -1)) = false := by
        rw [List.any_eq_false]
        intro m h1
        simpa using hm m h1
      have hpc : (s.preChord p).state = .playing := by unfold preChord; simp [hany, hst]
      have hcore := h.core.open hnl hcov .playing (.inr hm) hg
      apply checkWin_inv
      · exact hcore.congr rfl rfl rfl rfl rfl rfl rfl (.inl hpc)
      · exact hr
      · exact hpc

end MSB
end Ms
