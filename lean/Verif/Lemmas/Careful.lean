import Verif.SpecCareful
import Verif.Lemmas.Solvable
import Verif.Lemmas.GameReach
import Verif.Properties.Game

namespace Ms
open Spec MSB

variable {r c : Nat} {b : Board} {s : Pos}

/-- What holds at every moment of a careful game on the board `b` started at `s`. -/
structure CareInv (r c : Nat) (b : Board) (s : Pos) (t : MSB) : Prop where
  reach : Reach t
  bd : t.board = b.view
  row : t.row = r
  col : t.column = c
  st : (t.state = .playing ∧ t.mouse = .upUp) ∨ t.state = .win
  know : ∃ O, KInv r c b s O t.gameBoard

theorem CareInv.frozen {t t' : MSB} (h : CareInv r c b s t) (hw : t.state = .win) {ops : List (Ev × Pos)} {v : Bool}
    (hs : t.stepFlow ops = some (t', v)) : CareInv r c b s t' := by
  rw [Properties.C15_terminal_frozen_flow t ops (.inl hw)] at hs
  simp only [Option.some.injEq, Prod.mk.injEq] at hs
  obtain ⟨rfl, -⟩ := hs
  exact h

/-- running a list of events keeps the machine reachable -/
theorem reach_flow {ops : List (Ev × Pos)} : ∀ {t t' : MSB} {v : Bool}, Reach t → t.stepFlow ops = some (t', v) → Reach t' := by
  induction ops with
  | nil => intro t t' v h hs; simp only [stepFlow, Option.some.injEq, Prod.mk.injEq] at hs; obtain ⟨rfl, -⟩ := hs; exact h
  | cons op ops ih =>
    intro t t' v h hs
    unfold stepFlow at hs
    split at hs
    · cases hs
    · rename_i t1 e
      simp only [Option.some.injEq, Prod.mk.injEq] at hs
      obtain ⟨rfl, -⟩ := hs
      exact .step h e
    · rename_i t1 k e
      exact ih (.step h e) hs

/-- a left click during the game -/
theorem flow_left {t : MSB} {p : Pos} (hst : t.state = .playing) (hm : t.mouse = .upUp) (hp : p ∈ grid t.row t.column) :
    t.stepFlow (leftOn p) = match t.leftClick p with
      | none => none
      | some (t', none) => some (t', false)
      | some (t', some _) => some (t', true) := by
  have ho : MSB.atOutside { t with mouse := .upUp } p = false := by
    have := mem_grid.mp hp
    simp only [atOutside, Bool.and_eq_false_iff, decide_eq_false_iff_not]
    left; omega
  have hl : releaseLeft { t with mouse := .upUp } p = t.leftClick p := by
    unfold releaseLeft
    rw [ho]
    simp only [Bool.false_eq_true, if_false]
    rw [← hm]
  simp only [leftOn, stepFlow, step, hst, stepPlaying, hm]
  rw [show ({ t with mouse := Mouse.upUp, state := GState.playing } : MSB) = { t with mouse := .upUp } by rw [← hst]] 
  rw [hl]
  rcases t.leftClick p with _ | ⟨t', _ | k⟩ <;> rfl

/-- the first left click -/
theorem flow_first {t : MSB} {p : Pos} (hst : t.state = .ready) (hm : t.mouse = .upUp) (hp : p ∈ grid t.row t.column)
    (h10 : t.gb p = 10) :
    t.stepFlow (leftOn p) = match ({ t with state := .playing } : MSB).leftClick p with
      | none => none
      | some (t', none) => some (t', false)
      | some (t', some _) => some (t', true) := by
  have ho : ∀ m st, MSB.atOutside { t with mouse := m, state := st } p = false := by
    intro m st
    have := mem_grid.mp hp
    simp only [atOutside, Bool.and_eq_false_iff, decide_eq_false_iff_not]
    left; omega
  have hi : ∀ m st, MSB.inRange { t with mouse := m, state := st } p = true := fun m st => inRange_iff.mpr hp
  have hi' : ∀ m, MSB.inRange { t with mouse := m } p = true := fun m => inRange_iff.mpr hp
  have hg : ∀ m st, MSB.gb { t with mouse := m, state := st } p = 10 := fun _ _ => h10
  have hl : releaseLeft { t with mouse := .upUp, state := .playing } p = ({ t with state := .playing } : MSB).leftClick p := by
    unfold releaseLeft
    rw [ho]
    simp only [Bool.false_eq_true, if_false]
    rw [← hm]
  simp only [leftOn, stepFlow, step, hst, stepReady, hm, hi', ok0, if_true, stepPreFlaging, ho, hi, hg, stepPlaying,
    Bool.false_eq_true, if_false, hl]
  rcases ({ t with state := .playing } : MSB).leftClick p with _ | ⟨t', _ | k⟩ <;> rfl

/-- what a left click does on a covered cell that is surely safe (or where the game is started) -/
theorem leftClick_careful (hb : BoardOK r c b) (hs : layout b s = false) (hsg : s ∈ grid r c) {t : MSB} (hcore : t.Core)
    (hbd : t.board = b.view) (hrow : t.row = r) (hcol : t.column = c) (hst : t.state = .playing) (hm : t.mouse = .upUp)
    {p : Pos} (hp : p ∈ grid r c) (h10 : t.gb p = 10) (hsafe : layout b p = false)
    (hk : ∀ g', refreshBoard b.view t.gameBoard [p] = some g' → ∃ O, KInv r c b s O g') :
    ∃ t', t.leftClick p = some (t', some 2) ∧ t'.board = b.view ∧ t'.row = r ∧ t'.column = c ∧
      ((t'.state = .playing ∧ t'.mouse = .upUp) ∨ t'.state = .win) ∧ (∃ O, KInv r c b s O t'.gameBoard) ∧
      t'.gb p = bval b p := by
  have hp' : p ∈ grid t.row t.column := by rw [hrow, hcol]; exact hp
  have hbp : t.bd p = bval b p := by unfold MSB.bd; rw [hbd]; rfl
  obtain ⟨t', k, he, heff⟩ := leftClick_eff hcore hp'
  cases heff with
  | none h => exact absurd h10 h
  | mine _ hmine _ => exact absurd (hbp ▸ hmine) (layout_false.mp hsafe)
  | @safe g' _ _ hg =>
    refine ⟨_, he, ?_⟩
    obtain ⟨f1, f2, f3, f4, -, f6, -⟩ := checkWin_frame { t with
        left := t.left + 1, gameBoard := g', ce := t.ce + 1,
        bbbvSolved := t.bbbvSolved + leftGain { t with left := t.left + 1 } p }
    refine ⟨f1.trans hbd, f3.trans hrow, f4.trans hcol, ?_, ?_, ?_⟩
    · rcases checkWin_state { t with
        left := t.left + 1, gameBoard := g', ce := t.ce + 1,
        bbbvSolved := t.bbbvSolved + leftGain { t with left := t.left + 1 } p } with h | h
      · exact .inr h
      · exact .inl ⟨h.trans hst, f6.trans hm⟩
    · rw [f2]
      exact hk g' (hbd ▸ hg)
    · unfold MSB.gb
      rw [f2]
      obtain ⟨g'', h1, -, h3⟩ := refresh_core hcore (start := [p]) (by simpa using ⟨hp', h10⟩)
      rw [hg] at h1
      obtain rfl : g' = g'' := by simpa using h1
      have := h3 p hp'
      rw [if_pos (.click (by simp)), hbp, if_neg (layout_false.mp hsafe)] at this
      exact this

/-- the first click of a game on `b` -/
theorem careful_first (hb : BoardOK r c b) (hs : layout b s = false) (hsg : s ∈ grid r c) :
    ∃ t, (MSB.new b.view).stepFlow (leftOn s) = some (t, true) ∧ CareInv r c b s t := by
  have hv := hb.view
  have hre : Reach (MSB.new b.view) := .new hb.numbered
  have hcore := hre.inv.core
  have h10 : ∀ p ∈ grid r c, (MSB.new b.view).gb p = 10 := by
    have := hre.inv.ready rfl
    simp only [MSB.new, hv.1, hv.2] at this ⊢
    exact this
  have hcore' : Core { (MSB.new b.view) with state := GState.playing } :=
    hcore.congr rfl rfl rfl rfl rfl rfl rfl (.inr (by simp [MSB.new]))
  have hgr : Rect (MSB.new b.view).gameBoard r c := by
    have := hcore.rect
    simp only [MSB.new, hv.1, hv.2] at this ⊢
    exact this
  obtain ⟨t, h1, h2, h3, h4, h5, h6, -⟩ := leftClick_careful (t := { (MSB.new b.view) with state := GState.playing }) hb hs hsg
    hcore' rfl hv.1 hv.2 rfl rfl hsg (h10 s hsg) hs (fun g' hg' => by
      obtain ⟨g'', O', e1, e2, -⟩ := open_step (s := s) hb hs hsg hgr (n := [s]) (O := {s}) .start
        (by simpa using hsg) (by simp) (fun p hp _ _ => .inl (h10 p hp))
      have hg'' : refreshBoard b.view (MSB.new b.view).gameBoard [s] = some g' := hg'
      rw [e1, Option.some.injEq] at hg''
      exact ⟨O', hg'' ▸ e2⟩)
  have hp : s ∈ grid (MSB.new b.view).row (MSB.new b.view).column := by simp only [MSB.new, hv.1, hv.2]; exact hsg
  have hf : (MSB.new b.view).stepFlow (leftOn s) = some (t, true) := by
    rw [flow_first rfl rfl hp (h10 s hsg), h1]
  exact ⟨t, hf, reach_flow hre hf, h2, h3, h4, h5, h6⟩

theorem CareInv.dims {t : MSB} (hb : BoardOK r c b) (h : CareInv r c b s t) : t.gameBoard.row = r ∧ t.gameBoard.col = c := by
  obtain ⟨O, k⟩ := h.know
  exact rect_dims k.rect hb.rpos

/-- opening a surely safe cell -/
theorem CareInv.click (hb : BoardOK r c b) (hs : layout b s = false) (hsg : s ∈ grid r c) {t : MSB}
    (h : CareInv r c b s t) {p : Pos} (hp : SureSafe t.gameBoard p) :
    ∃ t', t.stepFlow (leftOn p) = some (t', true) ∧ CareInv r c b s t' ∧ (t.state = .playing → t'.gb p = bval b p) := by
  rcases h.st with ⟨hst, hm⟩ | hw
  · obtain ⟨O, k⟩ := h.know
    obtain ⟨hpg, hp10⟩ := (k.isCovered hb hs hsg).mp hp.1
    have hf : ∀ σ, Explains r c b O σ → σ p = false := fun σ hσ => hp.2 σ (k.consistent hb hs hsg hσ)
    have hsafe : layout b p = false := hf _ (layout_explains (openable_safe hs k.openable))
    have hno := k.not_open hb hs hsg (.inl hp10)
    obtain ⟨t', h1, h2, h3, h4, h5, h6, h7⟩ := leftClick_careful hb hs hsg h.reach.inv.core h.bd h.row h.col hst hm hpg hp10
      hsafe (fun g' hg' => by
        obtain ⟨g'', O', e1, e2, -⟩ := open_step (s := s) hb hs hsg k.rect (n := [p]) k.openable
          (by simpa using ⟨hpg, .inr hf⟩) (fun q hq _ => k.opened q hq) (fun q hq hqO _ => k.covered q hq hqO)
        rw [e1, Option.some.injEq] at hg'
        exact ⟨O', hg' ▸ e2⟩)
    have hflow : t.stepFlow (leftOn p) = some (t', true) := by
      rw [flow_left hst hm (by rw [h.row, h.col]; exact hpg), h1]
    refine ⟨t', hflow, ⟨reach_flow h.reach hflow, h2, h3, h4, h5, h6⟩, fun _ => h7⟩
  · exact ⟨t, Properties.C15_terminal_frozen_flow t _ (.inl hw), h, fun hc => by rw [hw] at hc; cases hc⟩

/-- a right click during the game, on a cell that is covered or flagged -/
theorem flow_right {t : MSB} (hcore : t.Core) {p : Pos} (hst : t.state = .playing) (hm : t.mouse = .upUp)
    (hp : p ∈ grid t.row t.column) (hg : 10 ≤ t.gb p) :
    ∃ t', t.stepFlow (rightOn p) = some (t', true) ∧ t'.board = t.board ∧ t'.row = t.row ∧ t'.column = t.column ∧
      t'.state = .playing ∧ t'.mouse = .upUp ∧
      ((t.gb p = 10 ∧ t'.gameBoard = t.gameBoard.set p.1 p.2 11) ∨
       (t.gb p = 11 ∧ t'.gameBoard = t.gameBoard.set p.1 p.2 10)) := by
  have hi' := inRange_iff.mpr hp
  have hlt : ¬ t.gb p < 10 := by omega
  have hcore' : Core { t with mouse := .upDown } :=
    hcore.congr rfl rfl rfl rfl rfl rfl rfl (.inl rfl)
  obtain ⟨t1, k, he, heff⟩ := rightClick_eff hcore' (p := p) (by rw [show ({ t with mouse := Mouse.upDown } : MSB).state = t.state from rfl, hst]; decide) hp
  have h1 : t.step .rc p = some (t1, k) := by
    unfold step
    simp only [hst, stepPlaying, hm, hi', if_true, if_neg hlt]
    rw [← hst]
    exact he
  have key : ∀ n, k = some n → t1.state = .playing → t1.mouse = .upDown →
      t.stepFlow (rightOn p) = some ({ t1 with mouse := .upUp }, true) := by
    rintro n rfl h2 h3
    have h4 : t1.step .rr p = some ({ t1 with mouse := .upUp }, some 0) := by
      unfold step
      simp only [h2, stepPlaying, h3]
    unfold rightOn
    simp only [stepFlow, h1, h4]
  cases heff with
  | none h => exact absurd h hlt
  | flag h => exact ⟨_, key 1 rfl hst rfl, rfl, rfl, rfl, hst, rfl, .inl ⟨h, rfl⟩⟩
  | unflag h => exact ⟨_, key 1 rfl hst rfl, rfl, rfl, rfl, hst, rfl, .inr ⟨h, rfl⟩⟩

/-- setting and removing flags on forced mines -/
theorem KInv.set {O : Finset Pos} {g : Board} (k : KInv r c b s O g) {p : Pos} (hp : p ∈ grid r c) (hpO : p ∉ O) {v : Int}
    (hv : v = 10 ∨ (v = 11 ∧ ∀ σ, Explains r c b O σ → σ p = true)) : KInv r c b s O (g.set p.1 p.2 v) := by
  refine ⟨rect_set k.rect _ _ _, k.openable, fun q hq => ?_, fun q hq hqO => ?_⟩
  · rw [bval_set k.rect hp q v, if_neg (fun e : q = p => hpO (e ▸ hq))]
    exact k.opened q hq
  · rw [bval_set k.rect hp]
    by_cases e : q = p
    · subst e
      rw [if_pos rfl]
      exact hv
    · rw [if_neg e]
      exact k.covered q hq hqO

/-- setting a flag on a sure mine, and removing any flag -/
theorem CareInv.flag (hb : BoardOK r c b) (hs : layout b s = false) (hsg : s ∈ grid r c) {t : MSB}
    (h : CareInv r c b s t) {p : Pos} (hp : SureMine t.gameBoard p ∨ (p ∈ grid r c ∧ t.gb p = 11)) :
    ∃ t', t.stepFlow (rightOn p) = some (t', true) ∧ CareInv r c b s t' := by
  rcases h.st with ⟨hst, hm⟩ | hw
  · obtain ⟨O, k⟩ := h.know
    have hpg : p ∈ grid r c := by
      rcases hp with hp | hp
      · exact ((k.isCovered hb hs hsg).mp hp.1).1
      · exact hp.1
    have hval : t.gb p = 10 ∨ t.gb p = 11 := by
      rcases hp with hp | hp
      · exact .inl ((k.isCovered hb hs hsg).mp hp.1).2
      · exact .inr hp.2
    have hno := k.not_open hb hs hsg hval
    obtain ⟨t', hf, f1, f2, f3, f4, f6, f5⟩ := flow_right h.reach.inv.core hst hm (by rw [h.row, h.col]; exact hpg) (by omega)
    refine ⟨t', hf, reach_flow h.reach hf, f1.trans h.bd, f2.trans h.row, f3.trans h.col, .inl ⟨f4, f6⟩, O, ?_⟩
    rcases f5 with ⟨h10, f5⟩ | ⟨h11, f5⟩
    · rw [f5]
      refine k.set hpg hno (.inr ⟨rfl, fun σ hσ => ?_⟩)
      rcases hp with hp | hp
      · exact hp.2 σ (k.consistent hb hs hsg hσ)
      · omega
    · rw [f5]
      exact k.set hpg hno (.inl rfl)
  · exact ⟨t, Properties.C15_terminal_frozen_flow t _ (.inl hw), h⟩

/-- the covered neighbours of a number with all its mines flagged hold no mine -/
theorem CareInv.around (hb : BoardOK r c b) (hs : layout b s = false) (hsg : s ∈ grid r c) {t : MSB} {O : Finset Pos}
    (hrow : t.row = r) (hcol : t.column = c) (k : KInv r c b s O t.gameBoard) {p : Pos} (hp : p ∈ grid r c)
    (hc : t.Chordable p) : ∀ q ∈ t.chordCells p, q ∈ grid r c ∧ ∀ σ, Explains r c b O σ → σ q = false := by
  intro q hq
  obtain ⟨hqg, ha, h10⟩ := mem_chordCells.mp hq
  rw [hrow, hcol] at hqg
  refine ⟨hqg, fun σ hσ => ?_⟩
  have hd := rect_dims k.rect hb.rpos
  have hnum : IsNumber t.gameBoard p := by
    refine ⟨by rw [hd.1, hd.2]; exact hp, ?_, ?_⟩
    · have := hc.1; unfold MSB.gb at this; omega
    · have := hc.2.1; unfold MSB.gb at this; omega
  have h1 := k.consistent hb hs hsg hσ p hnum
  have h2 := hc.2.2.1
  rw [flagsAround_eq, hrow, hcol] at h2
  change t.gb p = _ at h1
  rw [← h2] at h1
  unfold minesNear at h1
  rw [hd.1, hd.2] at h1
  have h1 : ((grid r c).filter fun q => Adj p q ∧ t.gb q = 11).card = ((grid r c).filter fun q =>
    Near p q ∧ (t.gameBoard.get q.1 q.2 = 11 ∨ (t.gameBoard.get q.1 q.2 = 10 ∧ σ q = true))).card := by exact_mod_cast h1
  have hsub : ((grid r c).filter fun q => Adj p q ∧ t.gb q = 11) ⊆ ((grid r c).filter fun q =>
    Near p q ∧ (t.gameBoard.get q.1 q.2 = 11 ∨ (t.gameBoard.get q.1 q.2 = 10 ∧ σ q = true))) := by
    intro x hx
    obtain ⟨x1, x2, x3⟩ := Finset.mem_filter.mp hx
    exact Finset.mem_filter.mpr ⟨x1, x2.1, .inl x3⟩
  have heq := Finset.eq_of_subset_of_card_le hsub h1.ge
  by_contra hne
  have hmem : q ∈ ((grid r c).filter fun q =>
    Near p q ∧ (t.gameBoard.get q.1 q.2 = 11 ∨ (t.gameBoard.get q.1 q.2 = 10 ∧ σ q = true))) :=
    Finset.mem_filter.mpr ⟨hqg, ha.1, .inr ⟨h10, by simpa using hne⟩⟩
  rw [← heq] at hmem
  have := (Finset.mem_filter.mp hmem).2.2
  omega

/-- a chord during the game -/
theorem flow_chord {t : MSB} {p : Pos} (hst : t.state = .playing) (hm : t.mouse = .upUp) (hp : p ∈ grid t.row t.column)
    {t1 : MSB} {k : Nat} (h : ({ t with mouse := .upDown } : MSB).chordingClick p = some (t1, some k))
    (h1 : t1.state = .playing ∨ t1.state = .win) (h2 : t1.mouse = .upDown) :
    t.stepFlow (chordOn p) = some (if t1.state = .playing then { t1 with mouse := .upUp } else t1, true) := by
  have ho : MSB.atOutside { t with mouse := .upDown } p = false := by
    have := mem_grid.mp hp
    simp only [atOutside, Bool.and_eq_false_iff, decide_eq_false_iff_not]
    left; omega
  have e1 : t.step .lc p = some ({ t with mouse := .downUp }, some 0) := by
    unfold step
    simp only [hst, stepPlaying, hm]
  have e2 : ({ t with mouse := .downUp } : MSB).step .rc p = some ({ t with mouse := .chording }, some 0) := by
    unfold step
    simp only [hst, stepPlaying]
  have e3 : ({ t with mouse := .chording } : MSB).step .lr p = some (t1, some k) := by
    unfold step
    simp only [hst, stepPlaying, releaseChord]
    have hh : ({ t with mouse := .upDown } : MSB) =
      { board := t.board, gameBoard := t.gameBoard, flagedList := t.flagedList, left := t.left,
        right := t.right, double := t.double, ce := t.ce, flag := t.flag, bbbvSolved := t.bbbvSolved, row := t.row,
        column := t.column, mouse := Mouse.upDown, state := GState.playing,
        pointerX := t.pointerX, pointerY := t.pointerY, preFlagNum := t.preFlagNum,
        middleHold := t.middleHold } := by rw [← hst]
    rw [← hh, ho]
    simpa using h
  unfold chordOn
  simp only [stepFlow, e1, e2, e3]
  rcases h1 with h1 | h1
  · have : t1.step .rr p = some ({ t1 with mouse := .upUp }, some 0) := by
      unfold step
      simp only [h1, stepPlaying, h2]
    rw [this, if_pos h1]
  · rw [Properties.C15_terminal_frozen t1 .rr p (.inl h1), if_neg (by rw [h1]; decide)]

/-- chording anywhere on the board -/
theorem CareInv.chord (hb : BoardOK r c b) (hs : layout b s = false) (hsg : s ∈ grid r c) {t : MSB}
    (h : CareInv r c b s t) {p : Pos} (hp : p ∈ grid r c) :
    ∃ t', t.stepFlow (chordOn p) = some (t', true) ∧ CareInv r c b s t' := by
  rcases h.st with ⟨hst, hm⟩ | hw
  · obtain ⟨O, k⟩ := h.know
    have hcore' : Core { t with mouse := .upDown } :=
      h.reach.inv.core.congr rfl rfl rfl rfl rfl rfl rfl (.inl rfl)
    have hp' : p ∈ grid t.row t.column := by rw [h.row, h.col]; exact hp
    obtain ⟨t1, r1, he, heff⟩ := chordingClick_eff hcore' hp'
    have key : ∃ kk, r1 = some kk ∧ (t1.state = .playing ∨ t1.state = .win) ∧ t1.mouse = .upDown ∧ t1.board = b.view ∧
        t1.row = r ∧ t1.column = c ∧ ∃ O, KInv r c b s O t1.gameBoard := by
      cases heff with
      | none _ => exact ⟨0, rfl, .inl hst, rfl, h.bd, h.row, h.col, O, k⟩
      | @opens g' n hc hn hg =>
        have hsafe := CareInv.around (t := { t with mouse := .upDown }) hb hs hsg h.row h.col k hp hc
        obtain ⟨g'', O', e1, e2, -⟩ := open_step (s := s) hb hs hsg k.rect (n := t.chordCells p) k.openable
          (fun q hq => ⟨(hsafe q hq).1, .inr (hsafe q hq).2⟩) (fun q hq _ => k.opened q hq)
          (fun q hq hqO _ => k.covered q hq hqO)
        have hg' : refreshBoard b.view t.gameBoard (t.chordCells p) = some g' := by rw [← h.bd]; exact hg
        rw [e1, Option.some.injEq] at hg'
        have hno : (t.chordCells p).any (fun q => decide (t.bd q = -1)) = false := by
          rw [List.any_eq_false]
          intro q hq
          have hl := (hsafe q hq).2 _ (layout_explains (openable_safe hs k.openable))
          have hbq : t.bd q = bval b q := by unfold MSB.bd; rw [h.bd]; rfl
          rw [decide_eq_true_eq, hbq]
          exact layout_false.mp hl
        obtain ⟨f1, f2, f3, f4, -, f6, -⟩ := checkWin_frame { ({ t with mouse := .upDown } : MSB).preChord p with
          bbbvSolved := (({ t with mouse := .upDown } : MSB).preChord p).bbbvSolved + n, gameBoard := g' }
        refine ⟨3, rfl, ?_, f6, f1.trans h.bd, f3.trans h.row, f4.trans h.col, O', ?_⟩
        · rcases checkWin_state { ({ t with mouse := .upDown } : MSB).preChord p with
            bbbvSolved := (({ t with mouse := .upDown } : MSB).preChord p).bbbvSolved + n, gameBoard := g' } with hh | hh
          · exact .inr hh
          · refine .inl (hh.trans ?_)
            change (if (t.chordCells p).any (fun q => decide (t.bd q = -1)) then GState.loss else t.state) = _
            rw [hno]
            exact hst
        · rw [f2]
          exact hg' ▸ e2
    obtain ⟨kk, rfl, g1, g2, g3, g4, g5, g6⟩ := key
    have hf := flow_chord hst hm hp' he g1 g2
    have hre := reach_flow h.reach hf
    refine ⟨_, hf, ?_⟩
    by_cases hpl : t1.state = .playing
    · rw [if_pos hpl] at hre ⊢
      exact ⟨hre, g3, g4, g5, .inl ⟨hpl, rfl⟩, g6⟩
    · rw [if_neg hpl] at hre ⊢
      exact ⟨hre, g3, g4, g5, .inr (g1.resolve_left hpl), g6⟩
  · exact ⟨t, Properties.C15_terminal_frozen_flow t _ (.inl hw), h⟩

end Ms
