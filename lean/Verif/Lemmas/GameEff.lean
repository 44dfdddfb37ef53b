import Verif.Lemmas.GameReach

namespace Ms
open Spec

namespace MSB

/-! ### C20: what the returned level says -/

/-- the board after an opening that does not end in a loss -/
theorem opened_board {s : MSB} (h : s.Core) {start : List Pos}
    (hs : ∀ p ∈ start, p ∈ grid s.row s.column ∧ s.gb p = 10) {g' : Board}
    (hg : refreshBoard s.board s.gameBoard start = some g') :
    (∀ p ∈ start, bval g' p = if s.bd p = -1 then 15 else s.bd p) ∧
    ((∀ p ∈ start, s.bd p ≠ -1) → ∀ q ∈ grid s.row s.column,
      bval g' q = s.gb q ∨ (s.gb q = 10 ∧ bval g' q = s.bd q ∧ s.bd q ≠ -1)) := by
  obtain ⟨g'', h1, h2, h3⟩ := refresh_core h hs
  rw [hg] at h1
  obtain rfl : g' = g'' := by simpa using h1
  constructor
  · intro p hp
    rw [h3 p (hs p hp).1, if_pos (.click hp)]
  · intro hsafe q hq
    have h4 := h3 q hq
    by_cases ho : Opens s.board s.gameBoard start q
    · right
      rw [if_pos ho] at h4
      have hb : s.bd q ≠ -1 := fun hb => hsafe q (opens_mine h hs ho hb) hb
      rw [if_neg hb] at h4
      exact ⟨(opens_covered h hs ho).2, h4, hb⟩
    · left
      rw [if_neg ho, if_neg] at h4
      · exact h4
      · rintro ⟨⟨m, hm, hb⟩, -⟩
        exact hsafe m hm hb

/-- what the level returned during play says about the game board -/
def LevelOk (s : MSB) (p : Pos) (s' : MSB) : Option Nat → Prop
  | none => s'.gameBoard = s.gameBoard
  | some 0 => s'.gameBoard = s.gameBoard ∨ s'.state = .loss
  | some 1 => (s.gb p = 10 ∧ s'.gb p = 11 ∨ s.gb p = 11 ∧ s'.gb p = 10) ∧ ∀ q, q ≠ p → s'.gb q = s.gb q
  | some 2 => s.gb p = 10 ∧ s'.gb p = s.bd p ∧ s'.state ≠ .loss ∧ ∀ q ∈ grid s.row s.column,
      s'.gb q = s.gb q ∨ (s.gb q = 10 ∧ s'.gb q = s.bd q ∧ s.bd q ≠ -1)
  | some 3 => (∃ q ∈ grid s.row s.column, Adj p q ∧ s.gb q = 10 ∧ s'.gb q ≠ 10) ∧
      (s'.state ≠ .loss → ∀ q ∈ grid s.row s.column,
        s'.gb q = s.gb q ∨ (s.gb q = 10 ∧ s'.gb q = s.bd q ∧ s.bd q ≠ -1))
  | some _ => False

theorem RightEff.level {s s' : MSB} {p : Pos} {r : Option Nat} (h : s.Core) (hp : p ∈ grid s.row s.column)
    (e : RightEff s p s' r) : LevelOk s p s' r := by
  have hg := e.gb h hp
  cases e with
  | none _ => exact .inl rfl
  | flag h10 =>
    refine ⟨.inl ⟨h10, ?_⟩, fun q hq => (hg q).1 hq⟩
    rw [(hg p).2 rfl, if_pos h10]
  | unflag h11 _ =>
    refine ⟨.inr ⟨h11, ?_⟩, fun q hq => (hg q).1 hq⟩
    rw [(hg p).2 rfl, if_neg (by omega), if_pos h11]

theorem LeftEff.level {s s' : MSB} {p : Pos} {r : Option Nat} (h : s.Core) (hp : p ∈ grid s.row s.column)
    (hst : s.state = .playing) (e : LeftEff s p s' r) : LevelOk s p s' r := by
  cases e with
  | none _ => exact .inl rfl
  | mine _ _ _ => exact .inr rfl
  | safe h10 hb hg =>
    rename_i g'
    set t : MSB := { s with
        left := s.left + 1, gameBoard := g', ce := s.ce + 1,
        bbbvSolved := s.bbbvSolved + leftGain { s with left := s.left + 1 } p } with ht
    obtain ⟨o1, o2⟩ := opened_board h (start := [p]) (by simpa using ⟨hp, h10⟩) hg
    have hgb : ∀ q, t.checkWin.gb q = bval g' q := by
      intro q; unfold gb; rw [(checkWin_frame t).2.1]; rfl
    refine ⟨h10, ?_, ?_, fun q hq => ?_⟩
    · rw [hgb, o1 p (by simp), if_neg hb]
    · rcases checkWin_state t with h | h
      · rw [h]; decide
      · rw [h]; simp [ht, hst]
    · rw [hgb]; exact o2 (by simpa using hb) q hq

theorem ChordEff.level {s s' : MSB} {p : Pos} {r : Option Nat} (hI : s.GInv)
    (hst : s.state = .playing) (hp : p ∈ grid s.row s.column)
    (e : ChordEff s p s' r) : LevelOk s p s' r := by
  have hI' := e.inv hI (.inl hst) hp
  have h := hI.core
  cases e with
  | none _ => exact .inl rfl
  | opens hc hn hg =>
    rename_i g' n
    set t : MSB := { s.preChord p with
        bbbvSolved := (s.preChord p).bbbvSolved + n, gameBoard := g' } with ht
    have hcov : ∀ q ∈ s.chordCells p, q ∈ grid s.row s.column ∧ s.gb q = 10 :=
      fun q hq => ⟨(mem_chordCells.mp hq).1, (mem_chordCells.mp hq).2.2⟩
    obtain ⟨o1, o2⟩ := opened_board h hcov hg
    have hgb : ∀ q, t.checkWin.gb q = bval g' q := by
      intro q; unfold gb; rw [(checkWin_frame t).2.1]; rfl
    constructor
    · obtain ⟨q, hq⟩ := List.exists_mem_of_ne_nil _ hc.2.2.2
      obtain ⟨m1, m2, m3⟩ := mem_chordCells.mp hq
      refine ⟨q, m1, m2, m3, ?_⟩
      rw [hgb, o1 q hq]
      have := h.bd_range m1
      split <;> omega
    · intro hl q hq
      rw [hgb]
      refine o2 ?_ q hq
      intro m hm hb
      apply hl
      have hmg := (mem_chordCells.mp hm).1
      have hm' : m ∈ grid t.checkWin.row t.checkWin.column := by
        rw [(checkWin_frame t).2.2.1, (checkWin_frame t).2.2.2.1]; exact hmg
      have h15 : t.checkWin.gb m = 15 := by rw [hgb, o1 m hm, if_pos hb]
      have hmk := hI'.core.marks m hm'
      have hbd := hI'.core.bd_range hm'
      rcases hmk with h | h | h | h
      · omega
      · omega
      · omega
      · exact h.1

theorem Eff.level {s : MSB} {e : Ev} {p : Pos} {s' : MSB} {r : Option Nat} (h : s.GInv)
    (hst : s.state = .playing) (he : Eff s e p s' r) : LevelOk s p s' r := by
  cases he with
  | idle m mh r hr _ =>
    rcases hr with rfl | rfl
    · rfl
    · exact .inl rfl
  | start h' _ => simp [hst] at h'
  | back _ h' _ _ => simp [hst] at h'
  | backClear _ h' _ _ => simp [hst] at h'
  | unflagLast h' _ _ _ => simp [hst] at h'
  | preFlag _ _ _ _ h' => simp [hst] at h'
  | preUnflag _ _ _ _ h' => simp [hst] at h'
  | right m _ _ _ _ hp hc =>
    have := right_eff (k := s.preFlagNum) (st := s.state) h (by simp [hst]) (by simp [hst]) hc
    have h2 := RightEff.level this.2.1 hp this.2.2
    exact h2
  | left m _ _ hst' _ _ hc =>
    obtain ⟨hp, hcore, e2⟩ := left_eff h hst' hc
    have h2 := LeftEff.level hcore hp rfl e2
    exact h2
  | chord m mh dec _ _ _ _ _ hc =>
    obtain ⟨hp, hg, e2⟩ := chord_eff h hc
    have h2 := ChordEff.level hg hst hp e2
    exact h2
  | miss m _ _ _ _ => exact .inl rfl

/-! ### C21: `ce` -/

/-- the invariant behind `ce ≤ clicks` -/
def CeOk (s : MSB) : Prop :=
  s.ce + (if NF s.mouse then 1 else 0) ≤ s.left + s.right + s.double

theorem RightEff.ce {s s' : MSB} {p : Pos} {r : Option Nat} (e : RightEff s p s' r) :
    s'.ce ≤ s.ce + 1 ∧ (s.gb p < 10 → s'.ce = s.ce) := by
  cases e with
  | none _ => simp
  | flag h => refine ⟨?_, fun h' => by omega⟩; simp only; split <;> omega
  | unflag h _ => exact ⟨by simp, fun _ => rfl⟩

theorem Eff.ceOk {s : MSB} {e : Ev} {p : Pos} {s' : MSB} {r : Option Nat} (h : s.GInv)
    (hr : s.CeOk) (hw : s.state = .playing → e = .rc → p ∈ grid s.row s.column)
    (hback : s'.state = .ready → s'.ce = 0) (hnf : s.state = .preFlaging ∨ s.state = .ready → ¬ NF s.mouse)
    (he : Eff s e p s' r) : s'.CeOk := by
  unfold CeOk at *
  cases he with
  | idle m mh r _ hnf' =>
    simp only
    by_cases hm : NF m
    · rcases hnf' hm with h1 | ⟨h1, h2, h3⟩
      · rw [if_pos h1] at hr; rw [if_pos hm]; exact hr
      · exact absurd (hw h1 h2) h3
    · rw [if_neg hm]; omega
  | start hs _ =>
    have : ¬ NF Mouse.downUp := by decide
    simp only
    rw [if_neg this]; omega
  | back m hs h0 hm =>
    simp only
    rw [if_neg hm]; omega
  | backClear m hs h0 hm =>
    have hb : s.ce = 0 := hback rfl
    have hm' : ¬ NF (clearClickNum { s with mouse := m, state := .ready }).mouse := hm
    rw [if_neg hm']
    change s.ce + 0 ≤ _
    rw [hb]; omega
  | unflagLast hs hp h10 h0 =>
    have hb : s.ce = 0 := hback rfl
    have : ¬ NF Mouse.upDown := by decide
    simp only
    rw [if_neg this, hb]
  | preFlag m k _ _ hst hm hp hk h10 hc =>
    have e2 := (right_eff h (by rcases hst with h | h <;> simp [h]) (by simp) hc).2.2
    have hf := e2.frame
    have hce := e2.ce.1
    have hnm : ¬ NF m := fun hn => hnf (Or.symm hst) (hm hn)
    rw [hf.2.2.2.2.2.2.2.1, hf.2.2.2.2.2.2.2.2.1, hf.2.2.2.2.2.2.2.2.2.1, hf.2.2.2.2.2.2.2.2.2.2.1]
    simp only at hce ⊢
    rw [if_neg hnm]
    omega
  | preUnflag m k _ _ hst hm hp hk hk' h10 hc =>
    have e2 := (right_eff (st := s.state) h (by simp [hst]) (by simp [hst]) hc).2.2
    have hf := e2.frame
    have hce := e2.ce.1
    rw [hf.2.2.2.2.2.2.2.1, hf.2.2.2.2.2.2.2.2.1, hf.2.2.2.2.2.2.2.2.2.1, hf.2.2.2.2.2.2.2.2.2.2.1]
    simp only at hce ⊢
    rw [if_neg hm]
    omega
  | right m _ _ hst hm hp hc =>
    have e2 := (right_eff (k := s.preFlagNum) (st := s.state) h (by simp [hst]) (by simp [hst]) hc).2.2
    have hf := e2.frame
    have hce := e2.ce
    rw [hf.2.2.2.2.2.2.2.1, hf.2.2.2.2.2.2.2.2.1, hf.2.2.2.2.2.2.2.2.2.1, hf.2.2.2.2.2.2.2.2.2.2.1]
    simp only at hce ⊢
    by_cases hn : NF m
    · have := hce.2 (hm hn)
      rw [if_pos hn]; omega
    · have := hce.1
      rw [if_neg hn]; omega
  | left m _ _ hst hm _ hc =>
    have hf := (left_eff h hst hc).2.2.frame
    rw [hf.2.2.2.1, hf.2.2.2.2.1, hf.2.2.2.2.2.1, hf.2.2.2.2.2.2.1]
    have hce := hf.2.2.2.2.2.2.2.1
    simp only at hce ⊢
    rw [if_neg hm]
    omega
  | chord m mh dec _ _ hst hm hm' hc =>
    have hf := (chord_eff h hc).2.2.frame
    rw [hf.2.2.2.1, hf.2.2.2.2.1, hf.2.2.2.2.2.1, hf.2.2.2.2.2.2.1]
    have hce := hf.2.2.2.2.2.2.2.1
    simp only at hce ⊢
    cases dec with
    | true =>
      obtain ⟨h1, h2, h3⟩ := hm rfl
      rw [if_pos h2] at hr
      rw [if_neg h1, if_pos rfl]
      omega
    | false =>
      simp only [Bool.false_eq_true, if_false]
      by_cases hn : NF m
      · rw [if_pos (hm' rfl hn)] at hr
        rw [if_pos hn]; omega
      · rw [if_neg hn]; omega
  | miss m _ hm hm' hr' =>
    rw [if_pos hm'] at hr
    simp only
    rw [if_neg hm]; omega

theorem preChord_state (s : MSB) (p : Pos) : (s.preChord p).state = .loss ∨ (s.preChord p).state = s.state := by
  unfold preChord
  simp only
  split <;> simp

/-- the two mouse states occur during play only -/
theorem Eff.nfPlaying {s : MSB} {e : Ev} {p : Pos} {s' : MSB} {r : Option Nat} (h : s.GInv)
    (hnf : s.state = .preFlaging ∨ s.state = .ready → ¬ NF s.mouse)
    (he : Eff s e p s' r) : s'.state = .preFlaging ∨ s'.state = .ready → ¬ NF s'.mouse := by
  cases he with
  | idle m mh r _ hnf' =>
    intro hs hm
    rcases hnf' hm with h1 | ⟨h1, _, _⟩
    · exact hnf hs h1
    · rcases hs with hs | hs <;> simp [h1] at hs
  | start _ _ => intro _; change ¬ NF .downUp; decide
  | back m _ _ hm => exact fun _ => hm
  | backClear m _ _ hm => exact fun _ => hm
  | unflagLast _ _ _ _ => intro _; change ¬ NF .upDown; decide
  | preFlag m k _ _ hst hm hp hk h10 hc =>
    have hf := (right_eff h (by rcases hst with h | h <;> simp [h]) (by simp) hc).2.2.frame
    rw [hf.2.2.2.2.2.2.2.1]
    exact fun _ hn => hnf (Or.symm hst) (hm hn)
  | preUnflag m k _ _ hst hm hp hk hk' h10 hc =>
    have hf := (right_eff (st := s.state) h (by simp [hst]) (by simp [hst]) hc).2.2.frame
    rw [hf.2.2.2.2.2.2.2.1]
    exact fun _ => hm
  | right m _ _ hst hm hp hc =>
    have hf := (right_eff (k := s.preFlagNum) (st := s.state) h (by simp [hst]) (by simp [hst]) hc).2.2.frame
    rw [hf.2.2.2.1]
    rintro (h | h) <;> simp [hst] at h
  | left m _ _ hst hm _ hc =>
    have hf := (left_eff h hst hc).2.2.frame
    rw [hf.2.2.2.1]; exact fun _ => hm
  | chord m mh dec _ _ hst hm hm' hc =>
    obtain ⟨hp, hg, e2⟩ := chord_eff h hc
    have hf := e2.frame
    rw [hf.2.2.2.1]
    intro hs hn
    cases dec with
    | true => exact (hm rfl).1 hn
    | false =>
      rcases hst with hst | hst
      · exfalso
        cases e2 with
        | none _ => rcases hs with hs | hs <;> simp [hst] at hs
        | opens hc' hn' hg' =>
          rename_i g' n
          rcases checkWin_state { preChord { s with mouse := m, middleHold := mh, right := if (false = true) then s.right - 1 else s.right } p with
            bbbvSolved := (preChord { s with mouse := m, middleHold := mh, right := if (false = true) then s.right - 1 else s.right } p).bbbvSolved + n, gameBoard := g' } with h1 | h1
          · rw [h1] at hs; simp at hs
          · rw [h1] at hs
            have hpc := preChord_state
              { s with mouse := m, middleHold := mh, right := if (false = true) then s.right - 1 else s.right } p
            simp only [hst] at hpc
            rcases hpc with hpc | hpc <;> rcases hs with hs | hs <;> simp only [hst, hpc] at hs <;>
              simp at hs
      · exact hnf (.inl hst) (hm' rfl hn)
  | miss m _ hm _ _ => exact fun _ => hm

theorem Reach.nfPlaying {s : MSB} (h : Reach s) : s.state = .preFlaging ∨ s.state = .ready → ¬ NF s.mouse := by
  induction h with
  | new _ => intro _; simp [NF, MSB.new]
  | step hr hs ih => exact (step_eff hs).nfPlaying hr.inv ih
  | reset _ _ _ => intro _; simp [NF, MSB.reset]
  | load _ _ _ _ _ ih => exact ih

end MSB
end Ms

namespace Ms.MSB
open Spec

/-! ### the list of mines ever flagged -/

/-- during play a step keeps the list of flagged mines, and never returns to the time before the game -/
theorem Eff.flaged {s : MSB} {e : Ev} {p : Pos} {s' : MSB} {r : Option Nat} (h : s.GInv)
    (hst : s.state = .playing) (he : Eff s e p s' r) :
    (∀ q ∈ s.flagedList, q ∈ s'.flagedList) ∧ s'.state ≠ .ready ∧ s'.state ≠ .preFlaging := by
  cases he with
  | idle m mh r _ _ => exact ⟨fun _ h => h, by simp [hst], by simp [hst]⟩
  | start h' _ => simp [hst] at h'
  | back _ h' _ _ => simp [hst] at h'
  | backClear _ h' _ _ => simp [hst] at h'
  | unflagLast h' _ _ _ => simp [hst] at h'
  | preFlag _ _ _ _ h' => simp [hst] at h'
  | preUnflag _ _ _ _ h' => simp [hst] at h'
  | right m _ _ _ _ hp hc =>
    have := (right_eff (k := s.preFlagNum) (st := s.state) h (by simp [hst]) (by simp [hst]) hc).2.2
    have hf := this.frame
    rw [hf.2.2.2.1]
    refine ⟨?_, by simp [hst], by simp [hst]⟩
    cases this with
    | none _ => exact fun _ h => h
    | flag _ =>
      intro q hq
      simp only
      split
      · exact List.mem_append_left _ hq
      · exact hq
    | unflag _ _ => exact fun _ h => h
  | left m _ _ hst' _ _ hc =>
    obtain ⟨hp, hcore, e2⟩ := left_eff h hst' hc
    cases e2 with
    | none _ => exact ⟨fun _ h => h, by simp, by simp⟩
    | mine _ _ _ => exact ⟨fun _ h => h, by simp, by simp⟩
    | safe h10 hb hg =>
      refine ⟨fun q hq => ?_, ?_⟩
      · rw [(checkWin_frame _).2.2.2.2.2.2.2.2.2.2.2.2.2]; exact hq
      · rcases checkWin_state _ with h1 | h1
        · rw [h1]; simp
        · rw [h1]; simp
  | chord m mh dec _ _ _ _ _ hc =>
    obtain ⟨hp, hg, e2⟩ := chord_eff h hc
    cases e2 with
    | none _ => exact ⟨fun _ h => h, by simp [hst], by simp [hst]⟩
    | opens hc' hn' hg' =>
      rename_i g' n
      refine ⟨fun q hq => ?_, ?_⟩
      · rw [(checkWin_frame _).2.2.2.2.2.2.2.2.2.2.2.2.2]; exact hq
      · rcases checkWin_state _ with h1 | h1
        · rw [h1]; simp
        · rw [h1]
          have hpc := preChord_state { s with mouse := m, middleHold := mh, right := if dec then s.right - 1 else s.right } p
          simp only [hst] at hpc ⊢
          rcases hpc with hpc | hpc <;> rw [hpc] <;> simp
  | miss m _ _ _ _ => exact ⟨fun _ h => h, by simp [hst], by simp [hst]⟩

/-- a step that answers `Ok(1)` during play is a right click -/
theorem Eff.level1 {s : MSB} {e : Ev} {p : Pos} {s' : MSB} (h : s.GInv)
    (hst : s.state = .playing) (he : Eff s e p s' (some 1)) :
    s'.ce = s.ce + (if s.gb p = 10 ∧ s.bd p = -1 ∧ p ∉ s.flagedList then 1 else 0) ∧
    (s.gb p = 10 → s.bd p = -1 → p ∈ s'.flagedList) := by
  generalize hr : some 1 = r at he
  cases he with
  | idle m mh r hr' _ => subst hr; simp at hr'
  | start h' _ => simp [hst] at h'
  | back _ h' _ _ => simp [hst] at h'
  | backClear _ h' _ _ => simp [hst] at h'
  | unflagLast h' _ _ _ => simp [hst] at h'
  | preFlag _ _ _ _ h' => simp [hst] at h'
  | preUnflag _ _ _ _ h' => simp [hst] at h'
  | right m _ _ _ _ hp hc =>
    have := (right_eff (k := s.preFlagNum) (st := s.state) h (by simp [hst]) (by simp [hst]) hc).2.2
    subst hr
    cases this with
    | flag h10 =>
      have h10' : s.gb p = 10 := h10
      refine ⟨?_, fun _ hb => ?_⟩
      · simp only [h10', true_and]; rfl
      · have hb' : MSB.bd { s with mouse := m, preFlagNum := s.preFlagNum, state := s.state } p = -1 := hb
        simp [hb']
    | unflag h11 _ =>
      have h11' : s.gb p = 11 := h11
      refine ⟨?_, fun h => by omega⟩
      simp [h11']
  | left m _ _ hst' _ _ hc =>
    obtain ⟨hp, hcore, e2⟩ := left_eff h hst' hc
    subst hr
    cases e2
  | chord m mh dec _ _ _ _ _ hc =>
    obtain ⟨hp, hg, e2⟩ := chord_eff h hc
    subst hr
    cases e2
  | miss m _ _ _ _ => simp at hr

end Ms.MSB
