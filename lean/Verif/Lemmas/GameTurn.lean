import Verif.Lemmas.Turn
import Verif.Lemmas.GameTwin
import Verif.SpecGameTurn

/-! # The game on a turned board -/

namespace Ms.MSB
open Spec

variable {σ τ : Pos → Pos}

theorem _root_.Ms.Spec.SameGame.bd' {s t : MSB} (h : SameGame σ τ s t) {p : Pos} (hp : p ∈ grid s.row s.column) : t.bd (σ p) = s.bd p := h.bd p hp
theorem _root_.Ms.Spec.SameGame.gb' {s t : MSB} (h : SameGame σ τ s t) {p : Pos} (hp : p ∈ grid s.row s.column) : t.gb (σ p) = s.gb p := h.gb p hp

theorem turn_adj {r c r' c' : Nat} (h : Turn r c r' c' σ τ) {p q : Pos} (hp : p ∈ grid r c) (hq : q ∈ grid r c) :
    Adj (σ p) (σ q) ↔ Adj p q := by
  unfold Adj
  rw [h.near p hp q hq, Ne, Ne, turn_inj h hp hq]

theorem turn_forall {r c r' c' : Nat} (h : Turn r c r' c' σ τ) {P Q : Pos → Prop} (hk : ∀ p ∈ grid r c, (P (σ p) ↔ Q p)) :
    (∀ p ∈ grid r' c', P p) ↔ ∀ p ∈ grid r c, Q p := by
  constructor
  · intro hh p hp
    exact (hk p hp).mp (hh _ (h.there p hp).1)
  · intro hh p hp
    have hb := h.back p hp
    rw [← hb.2]
    exact (hk _ hb.1).mpr (hh _ hb.1)

/-- opening corresponding cells -/
theorem refresh_turn {s t : MSB} (hs : s.Core) (ht : t.Core) (h : SameGame σ τ s t) {start start' : List Pos}
    (hst : ∀ p ∈ start, p ∈ grid s.row s.column ∧ s.gb p = 10)
    (hst' : ∀ p ∈ start', p ∈ grid t.row t.column ∧ t.gb p = 10)
    (hiff : ∀ p ∈ grid s.row s.column, σ p ∈ start' ↔ p ∈ start) {g g' : Board}
    (hg : refreshBoard s.board s.gameBoard start = some g) (hg' : refreshBoard t.board t.gameBoard start' = some g') :
    ∀ p ∈ grid s.row s.column, bval g' (σ p) = bval g p := by
  obtain ⟨g1, e1, r1, d1⟩ := refresh_core hs hst
  rw [hg] at e1
  obtain rfl : g = g1 := by simpa using e1
  obtain ⟨g2, e2, r2, d2⟩ := refresh_core ht hst'
  rw [hg'] at e2
  obtain rfl : g' = g2 := by simpa using e2
  have h12 : ∀ q, Opens s.board s.gameBoard start q → Opens t.board t.gameBoard start' (σ q) := by
    intro q ho
    induction ho with
    | click hq => exact .click ((hiff _ (hst _ hq).1).mpr hq)
    | @spread a b hp h0 hm ha hc ih =>
      have hpg := (opens_covered hs hst hp).1
      have hqg : b ∈ grid s.row s.column := hs.vcells ▸ hm
      refine .spread ih ?_ (ht.vcells ▸ (h.turn.there b hqg).1) ((turn_adj h.turn hpg hqg).mpr ha) ?_
      · exact (h.bd a hpg).trans h0
      · have : shown t.gameBoard (σ b) = shown s.gameBoard b := h.gb b hqg
        rw [this]; exact hc
  have h21 : ∀ q, Opens t.board t.gameBoard start' q → Opens s.board s.gameBoard start (τ q) := by
    intro q ho
    induction ho with
    | click hq =>
      have hb := h.turn.back _ (hst' _ hq).1
      exact .click ((hiff _ hb.1).mp (by rw [hb.2]; exact hq))
    | @spread a b hp h0 hm ha hc ih =>
      have hpg := h.turn.back _ (opens_covered ht hst' hp).1
      have hqg := h.turn.back b (ht.vcells ▸ hm)
      refine .spread ih ?_ (hs.vcells ▸ hqg.1) ?_ ?_
      · have := h.bd _ hpg.1
        rw [hpg.2] at this
        exact this.symm.trans h0
      · have := turn_adj h.turn hpg.1 hqg.1
        rw [hpg.2, hqg.2] at this
        exact this.mp ha
      · have : shown t.gameBoard (σ (τ b)) = shown s.gameBoard (τ b) := h.gb _ hqg.1
        rw [hqg.2] at this
        rw [← this]; exact hc
  intro p hp
  have ho : Opens t.board t.gameBoard start' (σ p) ↔ Opens s.board s.gameBoard start p := by
    refine ⟨fun k => ?_, h12 p⟩
    have := h21 _ k
    rwa [(h.turn.there p hp).2] at this
  have hm : (∃ m ∈ start', t.bd m = -1) ↔ ∃ m ∈ start, s.bd m = -1 := by
    constructor
    · rintro ⟨m, hm, hb⟩
      have hk := h.turn.back m (hst' m hm).1
      refine ⟨τ m, (hiff _ hk.1).mp (by rw [hk.2]; exact hm), ?_⟩
      rw [← h.bd' hk.1, hk.2]; exact hb
    · rintro ⟨m, hm, hb⟩
      have hk := (hst m hm).1
      exact ⟨σ m, (hiff m hk).mpr hm, by rw [h.bd' hk]; exact hb⟩
  rw [d1 p hp, d2 (σ p) (h.turn.there p hp).1, h.bd' hp, h.gb' hp]
  by_cases hop : Opens s.board s.gameBoard start p
  · rw [if_pos hop, if_pos (ho.mpr hop)]
  · rw [if_neg hop, if_neg (fun k => hop (ho.mp k))]
    by_cases hx : (∃ m ∈ start, s.bd m = -1) ∧ s.gb p = 11 ∧ s.bd p ≠ -1
    · rw [if_pos hx, if_pos ⟨hm.mpr hx.1, hx.2⟩]
    · rw [if_neg hx, if_neg (fun k => hx ⟨hm.mp k.1, k.2⟩)]

theorem winScan_iff {s : MSB} (h : s.Core) (hr : 0 < s.row) :
    (s.winScan s.winCells).1 = true ↔ ∀ p ∈ grid s.row s.column, s.bd p ≠ -1 → s.gb p = s.bd p := by
  rcases winScan_core h hr with ⟨e, hh⟩ | ⟨p, hp, h1, h2, e, _⟩
  · rw [e]; exact ⟨fun _ => hh, fun _ => rfl⟩
  · rw [e]
    refine ⟨fun k => by simp at k, fun k => ?_⟩
    have := k p hp h2
    have := h.bd_range hp
    omega

theorem _root_.Ms.Spec.SameGame.checkWin {s t : MSB} (hs : s.Core) (ht : t.Core) (h : SameGame σ τ s t) (hr : 0 < s.row) (hr' : 0 < t.row) :
    SameGame σ τ s.checkWin t.checkWin := by
  have hw : (t.winScan t.winCells).1 = (s.winScan s.winCells).1 := by
    rw [Bool.eq_iff_iff, winScan_iff hs hr, winScan_iff ht hr']
    refine turn_forall h.turn fun p hp => ?_
    rw [h.bd' hp, h.gb' hp]
  rw [checkWin_eq s, checkWin_eq t]
  refine ⟨h.turn, h.bd, h.gb, h.flaged, h.left, h.right, h.double, h.ce, h.flag, h.mouse, ?_, h.preFlagNum, h.middleHold⟩
  simp only [hw, h.state]

theorem _root_.Ms.Spec.SameStep.ok {s t : MSB} (h : SameGame σ τ s t) (r : Option Nat) : SameStep σ τ (some (s, r)) (some (t, r)) :=
  .inr ⟨s, t, r, rfl, rfl, h⟩

theorem _root_.Ms.Spec.SameStep.none : SameStep σ τ none none := .inl ⟨rfl, rfl⟩

theorem leftClick_turn {s t : MSB} (hs : s.Core) (ht : t.Core) (h : SameGame σ τ s t) (hpl : s.state = .playing) {p : Pos}
    (hp : p ∈ grid s.row s.column) : SameStep σ τ (s.leftClick p) (t.leftClick (σ p)) := by
  have hp' := (h.turn.there p hp).1
  have hgb := h.gb' hp
  have hbd := h.bd' hp
  have hr : 0 < s.row := by have := (mem_grid.mp hp).1; omega
  have hr' : 0 < t.row := by have := (mem_grid.mp hp').1; omega
  obtain ⟨s', r, e, eff⟩ := leftClick_eff hs hp
  obtain ⟨t', r', e', eff'⟩ := leftClick_eff ht hp'
  rw [e, e']
  have hiff : ∀ q ∈ grid s.row s.column, σ q ∈ [σ p] ↔ q ∈ [p] := fun q hq => by
    rw [List.mem_singleton, List.mem_singleton, turn_inj h.turn hq hp]
  cases eff with
  | none h10 =>
    cases eff' with
    | none _ =>
      refine SameStep.ok ?_ _
      exact ⟨h.turn, h.bd, h.gb, h.flaged, congrArg (· + 1) h.left, h.right, h.double, h.ce, h.flag, h.mouse, h.state,
        h.preFlagNum, h.middleHold⟩
    | mine k => omega
    | safe k => omega
  | mine h10 hb hg =>
    cases eff' with
    | none k => omega
    | mine k kb kg =>
      have := refresh_turn hs ht h (start := [p]) (start' := [σ p]) (by simpa using ⟨hp, h10⟩) (by simpa using ⟨hp', k⟩) hiff hg kg
      refine SameStep.ok ?_ _
      exact ⟨h.turn, h.bd, this, h.flaged, congrArg (· + 1) h.left, h.right, h.double, h.ce, h.flag, h.mouse, rfl,
        h.preFlagNum, h.middleHold⟩
    | safe k kb => omega
  | safe h10 hb hg =>
    cases eff' with
    | none k => omega
    | mine k kb => omega
    | safe k kb kg =>
      have hn : s.state ≠ .loss := by rw [hpl]; decide
      have hn' : t.state ≠ .loss := by rw [h.state]; exact hn
      have := refresh_turn hs ht h (start := [p]) (start' := [σ p]) (by simpa using ⟨hp, h10⟩) (by simpa using ⟨hp', k⟩) hiff hg kg
      refine SameStep.ok ?_ _
      refine SameGame.checkWin ?_ ?_ ?_ ?_ ?_
      · exact ((hs.open hn (start := [p]) (by simpa using ⟨hp, h10⟩) s.state (.inr (by simpa using hb)) hg).congr rfl rfl rfl rfl rfl rfl rfl (.inl rfl))
      · exact ((ht.open hn' (start := [σ p]) (by simpa using ⟨hp', k⟩) t.state (.inr (by simpa using kb)) kg).congr rfl rfl rfl rfl rfl rfl rfl (.inl rfl))
      · exact ⟨h.turn, h.bd, this, h.flaged, congrArg (· + 1) h.left, h.right, h.double, congrArg (· + 1) h.ce, h.flag, h.mouse, h.state,
        h.preFlagNum, h.middleHold⟩
      · exact hr
      · exact hr'

theorem set_turn {s t : MSB} (hs : s.Core) (ht : t.Core) (h : SameGame σ τ s t) {p : Pos} (hp : p ∈ grid s.row s.column) (x : Int) :
    ∀ q ∈ grid s.row s.column, (t.gameBoard.set (σ p).1 (σ p).2 x).get (σ q).1 (σ q).2 = (s.gameBoard.set p.1 p.2 x).get q.1 q.2 := by
  intro q hq
  have a := bval_set hs.rect hp q x
  have b := bval_set ht.rect (h.turn.there p hp).1 (σ q) x
  change (t.gameBoard.set (σ p).1 (σ p).2 x).get (σ q).1 (σ q).2 = _ at b
  change (s.gameBoard.set p.1 p.2 x).get q.1 q.2 = _ at a
  rw [a, b]
  have hi := turn_inj h.turn hq hp
  have hg := h.gb' hq
  by_cases hqp : q = p
  · rw [if_pos hqp, if_pos (hi.mpr hqp)]
  · rw [if_neg hqp, if_neg (fun k => hqp (hi.mp k))]
    exact hg

theorem rightClick_turn {s t : MSB} (hs : s.Core) (ht : t.Core) (h : SameGame σ τ s t) (hnl : s.state ≠ .loss) {p : Pos}
    (hp : p ∈ grid s.row s.column) : SameStep σ τ (s.rightClick p) (t.rightClick (σ p)) := by
  have hp' := (h.turn.there p hp).1
  have hgb := h.gb' hp
  have hbd := h.bd' hp
  have hfl := h.flaged p hp
  obtain ⟨s', r, e, eff⟩ := rightClick_eff hs hnl hp
  obtain ⟨t', r', e', eff'⟩ := rightClick_eff ht (by rw [h.state]; exact hnl) hp'
  rw [e, e']
  cases eff with
  | none h1 =>
    cases eff' with
    | none h2 =>
      refine SameStep.ok ?_ _
      exact ⟨h.turn, h.bd, h.gb, h.flaged, h.left, congrArg (· + 1) h.right, h.double, h.ce, h.flag, h.mouse, h.state,
        h.preFlagNum, h.middleHold⟩
    | flag h2 => omega
    | unflag h2 => omega
  | flag h1 =>
    cases eff' with
    | none h2 => omega
    | flag h2 =>
      refine SameStep.ok ?_ _
      refine ⟨h.turn, h.bd, set_turn hs ht h hp 11, ?_, h.left, congrArg (· + 1) h.right, h.double, ?_, congrArg (· + 1) h.flag, h.mouse, h.state,
        h.preFlagNum, h.middleHold⟩
      · intro q hq
        simp only [hbd]
        have := h.flaged q hq
        split
        · rw [List.mem_append, List.mem_append, List.mem_singleton, List.mem_singleton, this, turn_inj h.turn hq hp]
        · exact this
      · simp only [hbd, hfl, h.ce]
    | unflag h2 => omega
  | unflag h1 hf =>
    cases eff' with
    | none h2 => omega
    | flag h2 => omega
    | unflag h2 hf' =>
      refine SameStep.ok ?_ _
      exact ⟨h.turn, h.bd, set_turn hs ht h hp 10, h.flaged, h.left, congrArg (· + 1) h.right, h.double, h.ce, congrArg (· - 1) h.flag, h.mouse, h.state,
        h.preFlagNum, h.middleHold⟩

theorem chordCells_turn {s t : MSB} (h : SameGame σ τ s t) {p : Pos} (hp : p ∈ grid s.row s.column) :
    ∀ q ∈ grid s.row s.column, σ q ∈ t.chordCells (σ p) ↔ q ∈ s.chordCells p := by
  intro q hq
  rw [mem_chordCells, mem_chordCells, h.gb' hq, turn_adj h.turn hp hq]
  exact ⟨fun k => ⟨hq, k.2⟩, fun k => ⟨(h.turn.there q hq).1, k.2⟩⟩

theorem flagsAround_card (s : MSB) (p : Pos) :
    s.flagsAround p = ((grid s.row s.column).filter fun q => Adj p q ∧ s.gb q = 11).card := by
  unfold flagsAround
  rw [← List.toFinset_card_of_nodup ((nodup_ring s p).filter _)]
  congr 1
  ext q
  simp only [List.mem_toFinset, List.mem_filter, mem_ring, decide_eq_true_eq, Finset.mem_filter]
  tauto

theorem chordable_turn {s t : MSB} (h : SameGame σ τ s t) {p : Pos} (hp : p ∈ grid s.row s.column) :
    t.Chordable (σ p) ↔ s.Chordable p := by
  unfold Chordable
  rw [h.gb' hp]
  have h1 : t.flagsAround (σ p) = s.flagsAround p := by
    rw [flagsAround_card, flagsAround_card]
    refine Pair.card h.turn ((pair_grid h.turn).filter _ _ fun q hq => ?_)
    rw [turn_adj h.turn hp hq, h.gb' hq]
  have h2 : t.chordCells (σ p) ≠ [] ↔ s.chordCells p ≠ [] := by
    have ne : ∀ l : List Pos, l ≠ [] ↔ ∃ q, q ∈ l := fun l => by cases l <;> simp
    rw [ne, ne]
    constructor
    · rintro ⟨q, hq⟩
      have hk := h.turn.back q (mem_chordCells.mp hq).1
      exact ⟨τ q, (chordCells_turn h hp _ hk.1).mp (by rw [hk.2]; exact hq)⟩
    · rintro ⟨q, hq⟩
      exact ⟨σ q, (chordCells_turn h hp _ (mem_chordCells.mp hq).1).mpr hq⟩
  rw [h1, h2]

theorem chordingClick_turn {s t : MSB} (hs : s.Core) (ht : t.Core) (h : SameGame σ τ s t)
    (hnl : s.state ≠ .loss) {p : Pos} (hp : p ∈ grid s.row s.column) :
    SameStep σ τ (s.chordingClick p) (t.chordingClick (σ p)) := by
  have hp' := (h.turn.there p hp).1
  have hr : 0 < s.row := by have := (mem_grid.mp hp).1; omega
  have hr' : 0 < t.row := by have := (mem_grid.mp hp').1; omega
  obtain ⟨s', r, e, eff⟩ := chordingClick_eff hs hp
  obtain ⟨t', r', e', eff'⟩ := chordingClick_eff ht hp'
  rw [e, e']
  have hch := chordable_turn h hp
  cases eff with
  | none h1 =>
    cases eff' with
    | none h2 =>
      refine SameStep.ok ?_ _
      exact ⟨h.turn, h.bd, h.gb, h.flaged, h.left, h.right, congrArg (· + 1) h.double, h.ce, h.flag, h.mouse, h.state,
        h.preFlagNum, h.middleHold⟩
    | opens h2 => exact absurd (hch.mp h2) h1
  | opens h1 hn hg =>
    cases eff' with
    | none h2 => exact absurd (hch.mpr h1) h2
    | opens h2 hn' hg' =>
      have hnl' : t.state ≠ .loss := by rw [h.state]; exact hnl
      have hst : ∀ q ∈ s.chordCells p, q ∈ grid s.row s.column ∧ s.gb q = 10 := fun q hq => ⟨(mem_chordCells.mp hq).1, (mem_chordCells.mp hq).2.2⟩
      have hst' : ∀ q ∈ t.chordCells (σ p), q ∈ grid t.row t.column ∧ t.gb q = 10 := fun q hq => ⟨(mem_chordCells.mp hq).1, (mem_chordCells.mp hq).2.2⟩
      have hre := refresh_turn hs ht h hst hst' (chordCells_turn h hp) hg hg'
      have hany : ((t.chordCells (σ p)).any fun q => decide (t.bd q = -1)) = (s.chordCells p).any fun q => decide (s.bd q = -1) := by
        rw [Bool.eq_iff_iff, List.any_eq_true, List.any_eq_true]
        constructor
        · rintro ⟨q, hq, hb⟩
          have hk := h.turn.back q (hst' q hq).1
          refine ⟨τ q, (chordCells_turn h hp _ hk.1).mp (by rw [hk.2]; exact hq), ?_⟩
          rw [← h.bd' hk.1, hk.2]; exact hb
        · rintro ⟨q, hq, hb⟩
          exact ⟨σ q, (chordCells_turn h hp _ (hst q hq).1).mpr hq, by rw [h.bd' (hst q hq).1]; exact hb⟩
      have hloss : ∀ u : MSB, ∀ q : Pos, (u.preChord q).state = .loss ∨ ∀ m ∈ u.chordCells q, u.bd m ≠ -1 := by
        intro u q
        by_cases hx : (u.chordCells q).any (fun q => decide (u.bd q = -1)) = true
        · left
          unfold preChord
          simp only [hx, if_true]
        · right
          intro m hm hb
          exact hx (List.any_eq_true.mpr ⟨m, hm, by simpa using hb⟩)
      have c1 := hs.open hnl hst (s.preChord p).state (hloss s p) hg
      have c2 := ht.open hnl' hst' (t.preChord (σ p)).state (hloss t (σ p)) hg'
      refine SameStep.ok ?_ _
      refine SameGame.checkWin ?_ ?_ ?_ ?_ ?_
      · exact c1.congr rfl rfl rfl rfl rfl rfl rfl (.inl rfl)
      · exact c2.congr rfl rfl rfl rfl rfl rfl rfl (.inl rfl)
      rotate_left
      · exact hr
      · exact hr'
      refine ⟨h.turn, h.bd, hre, h.flaged, h.left, h.right, congrArg (· + 1) h.double, congrArg (· + 1) h.ce, h.flag, h.mouse, ?_,
        h.preFlagNum, h.middleHold⟩
      show (if _ then GState.loss else t.state) = if _ then GState.loss else s.state
      rw [hany, h.state]

/-! ### one step -/

/-- both machines are in order and look alike; the game is not lost -/
structure Pair3 (σ τ : Pos → Pos) (s t : MSB) : Prop where
  hs : s.Core
  ht : t.Core
  same : SameGame σ τ s t
  ok : s.state ≠ .loss

/-- what the steps of `step` leave alone -/
structure Keep3 (s s' : MSB) : Prop where
  board : s'.board = s.board
  gameBoard : s'.gameBoard = s.gameBoard
  row : s'.row = s.row
  column : s'.column = s.column
  flag : s'.flag = s.flag
  pointerX : s'.pointerX = s.pointerX
  pointerY : s'.pointerY = s.pointerY
  flaged : s'.flagedList = s.flagedList
  ce : s'.ce = s.ce

theorem Pair3.upd {s t s' t' : MSB} (h : Pair3 σ τ s t) (ks : Keep3 s s') (kt : Keep3 t t') (a1 : t'.left = s'.left) (a2 : t'.right = s'.right)
    (a3 : t'.double = s'.double) (a4 : t'.mouse = s'.mouse) (a5 : t'.state = s'.state) (a6 : t'.preFlagNum = s'.preFlagNum)
    (a7 : t'.middleHold = s'.middleHold) (hn : s'.state ≠ .loss) : Pair3 σ τ s' t' := by
  refine ⟨h.hs.congr ks.board ks.gameBoard ks.row ks.column ks.flag ks.pointerX ks.pointerY (.inr h.ok),
    h.ht.congr kt.board kt.gameBoard kt.row kt.column kt.flag kt.pointerX kt.pointerY (.inr (by rw [h.same.state]; exact h.ok)),
    ⟨?_, ?_, ?_, ?_, a1, a2, a3, ?_, ?_, a4, a5, a6, a7⟩, hn⟩
  · rw [ks.row, ks.column, kt.row, kt.column]; exact h.same.turn
  · rw [ks.row, ks.column, ks.board, kt.board]; exact h.same.bd
  · rw [ks.row, ks.column, ks.gameBoard, kt.gameBoard]; exact h.same.gb
  · rw [ks.row, ks.column, ks.flaged, kt.flaged]; exact h.same.flaged
  · rw [ks.ce, kt.ce]; exact h.same.ce
  · rw [ks.flag, kt.flag]; exact h.same.flag

macro "upd3 " h:term : tactic => `(tactic|
  exact Pair3.upd $h ⟨rfl, rfl, rfl, rfl, rfl, rfl, rfl, rfl, rfl⟩ ⟨rfl, rfl, rfl, rfl, rfl, rfl, rfl, rfl, rfl⟩
    (by first | rfl | exact (Pair3.same $h).left) (by first | rfl | exact (Pair3.same $h).right | exact congrArg (· - 1) (Pair3.same $h).right)
    (by first | rfl | exact (Pair3.same $h).double) (by first | rfl | exact (Pair3.same $h).mouse)
    (by first | rfl | exact (Pair3.same $h).state)
    (by first | rfl | exact (Pair3.same $h).preFlagNum | exact congrArg (· + 1) (Pair3.same $h).preFlagNum | exact congrArg (· - 1) (Pair3.same $h).preFlagNum)
    (by first | rfl | exact (Pair3.same $h).middleHold | exact congrArg (! ·) (Pair3.same $h).middleHold)
    (by first | exact fun k => Pair3.ok $h k | simp))

/-- the place of an event in both games -/
structure Place3 (σ : Pos → Pos) (s t : MSB) (p p' : Pos) : Prop where
  inR : t.inRange p' = s.inRange p
  out : t.atOutside p' = s.atOutside p
  cell : s.inRange p = true → p' = σ p

theorem Place3.grid {s t : MSB} {p p' : Pos} (h : Place3 σ s t p p') (hp : p ∈ grid s.row s.column) : p' = σ p :=
  h.cell (inRange_iff.mpr hp)

theorem Place3.not {s t : MSB} {p p' : Pos} (h : Place3 σ s t p p') (hp : p ∉ Spec.grid s.row s.column) : p' ∉ Spec.grid t.row t.column := by
  intro k
  have := h.inR
  rw [inRange_iff.mpr k] at this
  exact hp (inRange_iff.mp this.symm)

theorem Place3.congr {s t s' t' : MSB} {p p' : Pos} (h : Place3 σ s t p p') (h1 : s'.row = s.row) (h2 : s'.column = s.column)
    (h3 : t'.row = t.row) (h4 : t'.column = t.column) : Place3 σ s' t' p p' := by
  obtain ⟨a, b, c⟩ := h
  unfold inRange at a c
  unfold atOutside at b
  refine ⟨?_, ?_, ?_⟩
  · unfold inRange; rw [h1, h2, h3, h4]; exact a
  · unfold atOutside; rw [h1, h2, h3, h4]; exact b
  · unfold inRange; rw [h1, h2]; exact c

theorem _root_.Ms.Spec.SamePlace.place3 {s t : MSB} (h : Turn s.row s.column t.row t.column σ τ) {p p' : Pos}
    (hp : SamePlace s.row s.column t.row t.column σ p p') : Place3 σ s t p p' := by
  rcases hp with ⟨hp, rfl⟩ | ⟨rfl, rfl⟩ | ⟨h1, h2, h3, h4⟩
  · have hp' := (h.there p hp).1
    refine ⟨by rw [inRange_iff.mpr hp, inRange_iff.mpr hp'], ?_, fun _ => rfl⟩
    rw [mem_grid] at hp hp'
    unfold atOutside
    have e1 : ¬ (σ p).1 = t.row := by omega
    have e2 : ¬ p.1 = s.row := by omega
    simp [e1, e2]
  · refine ⟨by simp [inRange], by simp [atOutside], fun k => by simp [inRange] at k⟩
  · refine ⟨?_, ?_, fun k => absurd (inRange_iff.mp k) h1⟩
    · have e1 : s.inRange p = false := by rw [Bool.eq_false_iff]; exact fun k => h1 (inRange_iff.mp k)
      have e2 : t.inRange p' = false := by rw [Bool.eq_false_iff]; exact fun k => h3 (inRange_iff.mp k)
      rw [e1, e2]
    · unfold atOutside
      have e1 : ¬ (p.1 = s.row ∧ p.2 = s.column) := fun k => h2 (Prod.ext k.1 k.2)
      have e2 : ¬ (p'.1 = t.row ∧ p'.2 = t.column) := fun k => h4 (Prod.ext k.1 k.2)
      rw [Bool.eq_iff_iff]
      simp only [Bool.and_eq_true, decide_eq_true_eq]
      exact ⟨fun k => absurd k e2, fun k => absurd k e1⟩

section
variable {s t : MSB} {p p' : Pos}

theorem Pair3.stays (h : Pair3 σ τ s t) (r : Option Nat) : SameStep σ τ (some (s, r)) (some (t, r)) := SameStep.ok h.same r

theorem Pair3.right (h : Pair3 σ τ s t) (hp : Place3 σ s t p p') : SameStep σ τ (s.rightClick p) (t.rightClick p') := by
  by_cases hg : p ∈ grid s.row s.column
  · rw [hp.grid hg]; exact rightClick_turn h.hs h.ht h.same h.ok hg
  · rw [rightClick_none hg, rightClick_none (hp.not hg)]; exact SameStep.none

theorem Pair3.chord (h : Pair3 σ τ s t) (hp : Place3 σ s t p p') : SameStep σ τ (s.chordingClick p) (t.chordingClick p') := by
  by_cases hg : p ∈ grid s.row s.column
  · rw [hp.grid hg]; exact chordingClick_turn h.hs h.ht h.same h.ok hg
  · rw [chordingClick_none hg, chordingClick_none (hp.not hg)]; exact SameStep.none

theorem Pair3.releaseChord (h : Pair3 σ τ s t) (hp : Place3 σ s t p p') : SameStep σ τ (s.releaseChord p) (t.releaseChord p') := by
  unfold MSB.releaseChord
  rw [hp.out]
  split
  · exact h.stays _
  · exact h.chord hp

theorem Pair3.releaseNotFlag (h : Pair3 σ τ s t) (hp : Place3 σ s t p p') : SameStep σ τ (s.releaseNotFlag p) (t.releaseNotFlag p') := by
  have h' : Pair3 σ τ { s with right := s.right - 1 } { t with right := t.right - 1 } := by upd3 h
  have hp' : Place3 σ { s with right := s.right - 1 } { t with right := t.right - 1 } p p' := hp.congr rfl rfl rfl rfl
  unfold MSB.releaseNotFlag
  by_cases h0 : s.right = 0
  · have h1 : t.right = 0 := by rw [h.same.right]; exact h0
    rw [if_pos h0, if_pos h1]; exact SameStep.none
  · have h1 : t.right ≠ 0 := by rw [h.same.right]; exact h0
    rw [if_neg h0, if_neg h1]
    exact h'.releaseChord hp'

theorem Pair3.releaseLeft (h : Pair3 σ τ s t) (hpl : s.state = .playing) (hp : Place3 σ s t p p') :
    SameStep σ τ (s.releaseLeft p) (t.releaseLeft p') := by
  unfold MSB.releaseLeft
  rw [hp.out]
  split
  · exact h.stays _
  · by_cases hg : p ∈ grid s.row s.column
    · rw [hp.grid hg]; exact leftClick_turn h.hs h.ht h.same hpl hg
    · rw [leftClick_none hg, leftClick_none (hp.not hg)]; exact SameStep.none

theorem Pair3.mouse' (h : Pair3 σ τ s t) (m : Mouse) : Pair3 σ τ { s with mouse := m } { t with mouse := m } := by upd3 h

theorem stepPlaying_turn (h : Pair3 σ τ s t) (e : Ev) (hp : Place3 σ s t p p')
    (hpl : s.state = .playing ∨ ¬ ((e = .lr ∨ e = .l) ∧ s.mouse = .downUp)) :
    SameStep σ τ (s.stepPlaying e p) (t.stepPlaying e p') := by
  have hm := h.same.mouse
  have hin := hp.inR
  have hmh := h.same.middleHold
  have hgb : s.inRange p = true → t.gb p' = s.gb p := fun k => by
    rw [hp.cell k]; exact h.same.gb' (inRange_iff.mp k)
  have hpm : ∀ m : Mouse, Place3 σ { s with mouse := m } { t with mouse := m } p p' := fun m => hp.congr rfl rfl rfl rfl
  unfold stepPlaying
  cases e <;> simp only
  case m =>
    have hk : Pair3 σ τ { s with middleHold := !s.middleHold } { t with middleHold := !s.middleHold } := by upd3 h
    rw [hmh]
    split
    · exact hk.chord (hp.congr rfl rfl rfl rfl)
    · exact hk.stays _
  case mc =>
    have hk : Pair3 σ τ { s with middleHold := true } { t with middleHold := true } := by upd3 h
    exact hk.stays _
  case mr =>
    have hk : Pair3 σ τ { s with middleHold := false } { t with middleHold := false } := by upd3 h
    exact hk.chord (hp.congr rfl rfl rfl rfl)
  all_goals try exact h.stays _
  all_goals
    rw [hm]
    cases hsm : s.mouse <;> simp only
  all_goals first
    | exact h.stays _
    | exact (h.mouse' _).stays _
    | exact (h.mouse' _).releaseChord (hpm _)
    | exact (h.mouse' _).releaseNotFlag (hpm _)
    | (refine (h.mouse' _).releaseLeft ?_ (hpm _)
       rcases hpl with hpl | hpl
       · exact hpl
       · exact absurd ⟨by simp, hsm⟩ hpl)
    | skip
  all_goals
    rw [hin]
    split
    · next hr =>
      rw [hgb hr]
      split
      · exact (h.mouse' _).right (hpm _)
      · exact (h.mouse' _).right (hpm _)
    · first | exact (h.mouse' _).stays _ | exact SameStep.none

theorem _root_.Ms.Spec.SameStep.ofClick {o o' : Option (MSB × Option Nat)} (h : SameStep σ τ o o') (e : Ev) (p p' : Pos) :
    SameStep σ τ (Flow.run e p (.ofClick o)) (Flow.run e p' (.ofClick o')) := by
  rw [run_ofClick, run_ofClick]; exact h

theorem Pair3.ret (h : Pair3 σ τ s t) (r : Option Nat) (e : Ev) (p p' : Pos) :
    SameStep σ τ (Flow.run e p (.ret s r)) (Flow.run e p' (.ret t r)) := h.stays r

theorem stepReady_turn (h : Pair3 σ τ s t) (e : Ev) (hp : Place3 σ s t p p') :
    SameStep σ τ (Flow.run e p (s.stepReady e p)) (Flow.run e p' (t.stepReady e p')) := by
  have hm := h.same.mouse
  have hin := hp.inR
  have hgb : s.inRange p = true → t.gb p' = s.gb p := fun k => by
    rw [hp.cell k]; exact h.same.gb' (inRange_iff.mp k)
  unfold stepReady
  cases e <;> simp only
  case lc =>
    rw [hm]
    cases hsm : s.mouse <;> simp only
    case upUp =>
      have h1 : ({ t with mouse := .downUp } : MSB).inRange p' = ({ s with mouse := .downUp } : MSB).inRange p := hin
      rw [h1]
      split
      · have hk : Pair3 σ τ { s with mouse := .downUp, state := .preFlaging } { t with mouse := .downUp, state := .preFlaging } := by upd3 h
        exact hk.ret _ _ _ _
      · exact (h.mouse' _).ret _ _ _ _
    all_goals first
      | exact h.ret _ _ _ _
      | exact (h.mouse' _).ret _ _ _ _
  case pf =>
    rw [hin]
    split
    · next hr =>
      rw [hgb hr]
      split
      · refine Spec.SameStep.ofClick ?_ _ _ _
        have hk : Pair3 σ τ { s with preFlagNum := s.preFlagNum + 1, state := .preFlaging } { t with preFlagNum := t.preFlagNum + 1, state := .preFlaging } := by upd3 h
        exact hk.right (hp.congr rfl rfl rfl rfl)
      · exact SameStep.none
    · exact SameStep.none
  case rc =>
    rw [hm]
    cases hsm : s.mouse <;> simp only
    case upUp =>
      have h1 : ({ t with mouse := .upDown } : MSB).inRange p' = ({ s with mouse := .upDown } : MSB).inRange p := hin
      rw [h1]
      split
      · have hk : Pair3 σ τ { s with mouse := .upDown, preFlagNum := 1, state := .preFlaging } { t with mouse := .upDown, preFlagNum := 1, state := .preFlaging } := by upd3 h
        exact Spec.SameStep.ofClick (hk.right (hp.congr rfl rfl rfl rfl)) _ _ _
      · exact (h.mouse' _).ret _ _ _ _
    all_goals first
      | exact h.ret _ _ _ _
      | exact (h.mouse' _).ret _ _ _ _
  all_goals first
    | exact h.ret _ _ _ _
    | (rw [hm]
       cases hsm : s.mouse <;> simp only <;> first
        | exact h.ret _ _ _ _
        | exact (h.mouse' _).ret _ _ _ _)

theorem stepPreFlaging_turn (h : Pair3 σ τ s t) (e : Ev) (hp : Place3 σ s t p p') :
    SameStep σ τ (Flow.run e p (s.stepPreFlaging e p)) (Flow.run e p' (t.stepPreFlaging e p')) := by
  have hm := h.same.mouse
  have hin := hp.inR
  have hpn := h.same.preFlagNum
  have hout := hp.out
  have hgb : s.inRange p = true → t.gb p' = s.gb p := fun k => by
    rw [hp.cell k]; exact h.same.gb' (inRange_iff.mp k)
  have go : ∀ {s1 t1 : MSB}, Pair3 σ τ s1 t1 → Place3 σ s1 t1 p p' → s1.state = .playing ∨ ¬ ((e = .lr ∨ e = .l) ∧ s1.mouse = .downUp) →
      SameStep σ τ (Flow.run e p (.go s1)) (Flow.run e p' (.go t1)) := fun h hp he => stepPlaying_turn h e hp he
  have hpm : ∀ m : Mouse, Place3 σ { s with mouse := m } { t with mouse := m } p p' := fun m => hp.congr rfl rfl rfl rfl
  unfold stepPreFlaging
  cases e <;> simp only
  case lr =>
    rw [hm]
    cases hsm : s.mouse <;> simp only
    case downUp =>
      rw [hout, hpn]
      split
      · split
        · have hk : Pair3 σ τ { s with mouse := .upUp, state := .ready } { t with mouse := .upUp, state := .ready } := by upd3 h
          have h1 := hk.same
          refine SameStep.ok ?_ _
          exact ⟨h1.turn, h1.bd, h1.gb, fun q _ => by simp [clearClickNum], rfl, rfl, rfl, h1.ce, rfl, rfl, rfl, rfl, h1.middleHold⟩
        · refine Pair3.ret ?_ _ _ _ _
          upd3 h
      · rw [hin]
        split
        · next hr =>
          rw [hgb hr]
          split
          · refine go ?_ (hp.congr rfl rfl rfl rfl) (.inl rfl)
            upd3 h
          · refine go ?_ (hp.congr rfl rfl rfl rfl) (.inr (fun hh => by simp at hh))
            upd3 h
        · exact SameStep.none
    all_goals first
      | exact h.ret _ _ _ _
      | exact go h hp (.inr (fun hh => by simp [hsm] at hh))
  case pf =>
    rw [hin]
    split
    · next hr =>
      rw [hgb hr]
      split
      · refine Spec.SameStep.ofClick ?_ _ _ _
        have hk : Pair3 σ τ { s with preFlagNum := s.preFlagNum + 1 } { t with preFlagNum := t.preFlagNum + 1 } := by upd3 h
        exact hk.right (hp.congr rfl rfl rfl rfl)
      · exact SameStep.none
    · exact SameStep.none
  case rc =>
    rw [hm]
    cases hsm : s.mouse <;> simp only
    case upUp =>
      have hin' : ({ t with mouse := .upDown } : MSB).inRange p' = ({ s with mouse := .upDown } : MSB).inRange p := hin
      rw [hin', hpn]
      split
      · next hr =>
        have hgb' : ({ t with mouse := .upDown, preFlagNum := s.preFlagNum } : MSB).gb p' = ({ s with mouse := .upDown } : MSB).gb p := hgb hr
        rw [hgb']
        split
        · have hk : Pair3 σ τ { s with mouse := .upDown, preFlagNum := s.preFlagNum + 1, state := .preFlaging } { t with mouse := .upDown, preFlagNum := s.preFlagNum + 1, state := .preFlaging } := by upd3 h
          exact Spec.SameStep.ofClick (hk.right (hp.congr rfl rfl rfl rfl)) _ _ _
        · split
          · exact SameStep.none
          · split
            · have hk : Pair3 σ τ { s with mouse := .upDown, state := .ready, preFlagNum := s.preFlagNum - 1 } { t with mouse := .upDown, state := .ready, preFlagNum := s.preFlagNum - 1 } := by upd3 h
              have h1 := hk.same
              have hcell := hp.cell hr
              refine SameStep.ok ?_ _
              refine ⟨h1.turn, h1.bd, ?_, fun q _ => ⟨fun k => (List.not_mem_nil k).elim, fun k => (List.not_mem_nil k).elim⟩, rfl, rfl, rfl, h1.ce, rfl, rfl, rfl, rfl, h1.middleHold⟩
              subst hcell
              exact set_turn h.hs h.ht h.same (inRange_iff.mp hr) 10
            · refine Spec.SameStep.ofClick ?_ _ _ _
              have hk : Pair3 σ τ { s with mouse := .upDown, preFlagNum := s.preFlagNum - 1 } { t with mouse := .upDown, preFlagNum := s.preFlagNum - 1 } := by upd3 h
              exact hk.right (hp.congr rfl rfl rfl rfl)
      · refine go ?_ (hp.congr rfl rfl rfl rfl) (.inr (fun hh => by simp at hh))
        upd3 h
    case downUp =>
      have hin' : ({ t with mouse := .chording } : MSB).inRange p' = ({ s with mouse := .chording } : MSB).inRange p := hin
      rw [hin', hpn]
      split
      · refine go ?_ (hp.congr rfl rfl rfl rfl) (.inr (fun hh => by simp at hh))
        upd3 h
      · refine go ?_ (hp.congr rfl rfl rfl rfl) (.inr (fun hh => by simp at hh))
        upd3 h
    case downUpAfterChording => exact go (h.mouse' _) (hpm _) (.inr (fun hh => by simp at hh))
    all_goals exact h.ret _ _ _ _
  case cc =>
    rw [hm]
    cases hsm : s.mouse <;> simp only
    case downUp =>
      rw [hin, hpn]
      split
      · refine Pair3.ret ?_ _ _ _ _
        upd3 h
      · refine Pair3.ret ?_ _ _ _ _
        upd3 h
    all_goals first
      | exact h.ret _ _ _ _
      | exact (h.mouse' _).ret _ _ _ _
  all_goals first
    | exact h.ret _ _ _ _
    | exact go h hp (.inr (fun hh => by simp at hh))

/-- one step of both machines -/
theorem step_turn (hs : s.GInv) (ht : t.GInv) (h : SameGame σ τ s t) (e : Ev)
    (hp : SamePlace s.row s.column t.row t.column σ p p') : SameStep σ τ (s.step e p) (t.step e p') := by
  have hpl := SamePlace.place3 h.turn hp
  rw [step_eq, step_eq, h.state]
  cases hh : s.state with
  | ready => exact stepReady_turn ⟨hs.core, ht.core, h, by rw [hh]; decide⟩ e hpl
  | preFlaging => exact stepPreFlaging_turn ⟨hs.core, ht.core, h, by rw [hh]; decide⟩ e hpl
  | playing => exact stepPlaying_turn ⟨hs.core, ht.core, h, by rw [hh]; decide⟩ e hpl (.inl hh)
  | loss => exact SameStep.ok h _
  | win => exact SameStep.ok h _
  | display => exact SameStep.ok h _

end
end Ms.MSB
