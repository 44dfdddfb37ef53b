import Verif.Lemmas.GameEff

/-!
# Two machines that differ only in `ce`, `double` and the list of flagged cells behave alike

Used to compare a live game with its replay: the live machine may have carried over counts from attempts made
before the recording began.
-/

namespace Ms
open Spec
namespace MSB

/-- `t` with `d` more double clicks, and other values of `ce` and `flagedList` -/
abbrev sh (d x : Nat) (l : List Pos) (t : MSB) : MSB :=
  { t with double := t.double + d, ce := x, flagedList := l }

/-- `s` is `t` up to `d` double clicks and, if `ex`, `c` effective clicks; the flagged cells are then the
same -/
def Sim (ex : Prop) (d c : Nat) (s t : MSB) : Prop :=
  ∃ x l, s = sh d x l t ∧ (ex → x = t.ce + c ∧ l = t.flagedList)

/-- the same outcome, related states -/
def SimO (ex : Prop) (d c : Nat) : Option (MSB × Option Nat) → Option (MSB × Option Nat) → Prop
  | none, none => True
  | some (s, r), some (t, r') => r = r' ∧ Sim ex d c s t
  | _, _ => False

theorem winScan_congr {s t : MSB} (h1 : t.board = s.board) (h2 : t.gameBoard = s.gameBoard)
    (h3 : t.pointerX = s.pointerX) (h4 : t.pointerY = s.pointerY) : ∀ l, t.winScan l = s.winScan l
  | [] => by unfold winScan; rw [h3, h4]
  | p :: l => by
    have hc : t.winCheck p = s.winCheck p := by unfold winCheck gb bd; rw [h1, h2]
    unfold winScan
    rw [hc, winScan_congr h1 h2 h3 h4 l, h3, h4]

theorem checkWin_sh (d x : Nat) (l : List Pos) (t : MSB) : (sh d x l t).checkWin = sh d x l t.checkWin := by
  unfold checkWin
  have h := winScan_congr (s := t) (t := sh d x l t) rfl rfl rfl rfl (sh d x l t).winCells
  rw [h]
  have : (sh d x l t).winCells = t.winCells := rfl
  rw [this]
  simp only
  split <;> rfl

theorem opCompletedLoop_congr {s t : MSB} (h1 : t.board = s.board) (h2 : t.gameBoard = s.gameBoard)
    (h3 : t.row = s.row) (h4 : t.column = s.column) : ∀ (n : Nat) (st marks : List Pos),
    t.opCompletedLoop n st marks = s.opCompletedLoop n st marks
  | n, [], marks => by cases n <;> rfl
  | 0, _ :: _, marks => rfl
  | n + 1, p :: st, marks => by
    have hb : ∀ q, t.bd q = s.bd q := fun q => by unfold bd; rw [h1]
    have hg : ∀ q, t.gb q = s.gb q := fun q => by unfold gb; rw [h2]
    unfold opCompletedLoop
    simp only [hb, hg, h3, h4, opCompletedLoop_congr h1 h2 h3 h4 n]

theorem cellIsOpCompleted_sh (d x : Nat) (l : List Pos) (t : MSB) (p : Pos) (marks : List Pos) :
    (sh d x l t).cellIsOpCompleted p marks = t.cellIsOpCompleted p marks :=
  opCompletedLoop_congr (s := t) (t := sh d x l t) rfl rfl rfl rfl _ _ _

theorem opNumStep_congr {s t : MSB} (h1 : t.board = s.board) (h2 : t.gameBoard = s.gameBoard)
    (h3 : t.row = s.row) (h4 : t.column = s.column) : t.opNumStep = s.opNumStep := by
  funext st q
  unfold opNumStep cellIsOpCompleted
  rw [opCompletedLoop_congr h1 h2 h3 h4, h3, h4]
  unfold gb bd
  rw [h1, h2]

theorem opNum_congr {s t : MSB} (h1 : t.board = s.board) (h2 : t.gameBoard = s.gameBoard)
    (h3 : t.row = s.row) (h4 : t.column = s.column) (p : Pos) : t.opNumAroundCell p = s.opNumAroundCell p := by
  unfold opNumAroundCell
  rw [opNumStep_congr h1 h2 h3 h4, h3, h4]

variable {ex : Prop} {d c : Nat}

theorem Sim.checkWin {s t : MSB} (h : Sim ex d c s t) : Sim ex d c s.checkWin t.checkWin := by
  obtain ⟨x, l, rfl, he⟩ := h
  refine ⟨x, l, checkWin_sh d x l t, fun hx => ?_⟩
  have := checkWin_frame t
  have hce : t.checkWin.ce = t.ce ∧ t.checkWin.flagedList = t.flagedList := by
    unfold MSB.checkWin; simp only; split <;> exact ⟨rfl, rfl⟩
  rw [hce.1, hce.2]
  exact he hx

theorem SimO.some {s t : MSB} (r : Option Nat) (h : Sim ex d c s t) : SimO ex d c (some (s, r)) (some (t, r)) :=
  ⟨rfl, h⟩

theorem leftClick_sim {s t : MSB} (h : Sim ex d c s t) (p : Pos) : SimO ex d c (s.leftClick p) (t.leftClick p) := by
  obtain ⟨x, l, rfl, he⟩ := h
  unfold leftClick
  have hr : (sh d x l t).inRange p = t.inRange p := rfl
  rw [hr]
  split
  · trivial
  rename_i hin
  simp only
  have hg : ({ sh d x l t with left := (sh d x l t).left + 1 } : MSB).gb p = ({ t with left := t.left + 1 } : MSB).gb p := rfl
  have hb : ({ sh d x l t with left := (sh d x l t).left + 1 } : MSB).bd p = ({ t with left := t.left + 1 } : MSB).bd p := rfl
  rw [hg, hb]
  split
  · exact SimO.some _ ⟨x, l, rfl, he⟩
  split
  · have hc : ({ sh d x l t with left := (sh d x l t).left + 1 } : MSB).cellIsOpCompleted p [] =
      ({ t with left := t.left + 1 } : MSB).cellIsOpCompleted p [] :=
      opCompletedLoop_congr (by rfl) (by rfl) (by rfl) (by rfl) _ _ _
    rw [hc]
    cases ho : ({ t with left := t.left + 1 } : MSB).cellIsOpCompleted p [] with
    | none => trivial
    | some o =>
      simp only [Option.bind_some]
      have hbb : ∀ b : Bool, (refreshBoard (if b = true then ({ sh d x l t with left := (sh d x l t).left + 1, bbbvSolved := (sh d x l t).bbbvSolved + 1 } : MSB) else { sh d x l t with left := (sh d x l t).left + 1 }).board (if b = true then ({ sh d x l t with left := (sh d x l t).left + 1, bbbvSolved := (sh d x l t).bbbvSolved + 1 } : MSB) else { sh d x l t with left := (sh d x l t).left + 1 }).gameBoard [p]) = refreshBoard t.board t.gameBoard [p] := by
        intro b; cases b <;> rfl
      have hbb' : ∀ b : Bool, (refreshBoard (if b = true then ({ t with left := t.left + 1, bbbvSolved := t.bbbvSolved + 1 } : MSB) else { t with left := t.left + 1 }).board (if b = true then ({ t with left := t.left + 1, bbbvSolved := t.bbbvSolved + 1 } : MSB) else { t with left := t.left + 1 }).gameBoard [p]) = refreshBoard t.board t.gameBoard [p] := by
        intro b; cases b <;> rfl
      rw [hbb, hbb']
      cases refreshBoard t.board t.gameBoard [p] with
      | none => trivial
      | some g =>
        simp only [Option.map_some]
        refine SimO.some _ (Sim.checkWin ?_)
        cases o.1
        · exact ⟨x + 1, l, rfl, fun hx => ⟨by have := (he hx).1; show x + 1 = t.ce + 1 + c; omega, (he hx).2⟩⟩
        · exact ⟨x + 1, l, rfl, fun hx => ⟨by have := (he hx).1; show x + 1 = t.ce + 1 + c; omega, (he hx).2⟩⟩
  split
  · show SimO ex d c ((refreshBoard t.board t.gameBoard [p]).map _) ((refreshBoard t.board t.gameBoard [p]).map _)
    cases refreshBoard t.board t.gameBoard [p] with
    | none => trivial
    | some g => exact SimO.some _ ⟨x, l, rfl, he⟩
  · show SimO ex d c ((refreshBoard t.board t.gameBoard [p]).map _) ((refreshBoard t.board t.gameBoard [p]).map _)
    cases refreshBoard t.board t.gameBoard [p] with
    | none => trivial
    | some g =>
      simp only [Option.map_some]
      refine SimO.some _ (Sim.checkWin ?_)
      have hi : ({ sh d x l t with left := (sh d x l t).left + 1, gameBoard := g } : MSB).cellIsBbbv p =
        ({ t with left := t.left + 1, gameBoard := g } : MSB).cellIsBbbv p := cellIsBbbv_congr rfl rfl rfl p
      rw [hi]
      cases ({ t with left := t.left + 1, gameBoard := g } : MSB).cellIsBbbv p
      · exact ⟨x + 1, l, rfl, fun hx => ⟨by have := (he hx).1; show x + 1 = t.ce + 1 + c; omega, (he hx).2⟩⟩
      · exact ⟨x + 1, l, rfl, fun hx => ⟨by have := (he hx).1; show x + 1 = t.ce + 1 + c; omega, (he hx).2⟩⟩

theorem rightClick_sim {s t : MSB} (h : Sim ex d c s t) (p : Pos) :
    SimO ex d c (s.rightClick p) (t.rightClick p) := by
  obtain ⟨x, l, rfl, he⟩ := h
  unfold rightClick
  have hr : (sh d x l t).inRange p = t.inRange p := rfl
  rw [hr]
  split
  · trivial
  simp only
  have hg : ({ sh d x l t with right := (sh d x l t).right + 1 } : MSB).gb p = ({ t with right := t.right + 1 } : MSB).gb p := rfl
  have hb : ({ sh d x l t with right := (sh d x l t).right + 1 } : MSB).bd p = ({ t with right := t.right + 1 } : MSB).bd p := rfl
  rw [hg, hb]
  split
  · exact SimO.some _ ⟨x, l, rfl, he⟩
  split
  · split
    · exact SimO.some _ ⟨x, l, rfl, he⟩
    · refine SimO.some _ ?_
      by_cases h1 : p ∈ l <;> by_cases h2 : p ∈ t.flagedList
      · rw [if_neg (not_not_intro h1), if_neg (not_not_intro h2)]
        exact ⟨x, l ++ [p], rfl, fun hx => ⟨(he hx).1, by rw [(he hx).2]⟩⟩
      · rw [if_neg (not_not_intro h1), if_pos h2]
        exact ⟨x, l ++ [p], rfl, fun hx => absurd ((he hx).2 ▸ h1) h2⟩
      · rw [if_pos h1, if_neg (not_not_intro h2)]
        exact ⟨x + 1, l ++ [p], rfl, fun hx => absurd ((he hx).2 ▸ h2) h1⟩
      · rw [if_pos h1, if_pos h2]
        exact ⟨x + 1, l ++ [p], rfl, fun hx => ⟨by have := (he hx).1; show x + 1 = t.ce + 1 + c; omega, by rw [(he hx).2]⟩⟩
  split
  · split
    · trivial
    · exact SimO.some _ ⟨x, l, rfl, he⟩
  · exact SimO.some _ ⟨x, l, rfl, he⟩

theorem chordingClick_sim {s t : MSB} (h : Sim ex d c s t) (p : Pos) :
    SimO ex d c (s.chordingClick p) (t.chordingClick p) := by
  obtain ⟨x, l, rfl, he⟩ := h
  have hd : ∀ {x' : Nat} {l' : List Pos} {t' : MSB}, sh d x' l' { t' with double := t'.double + 1 } =
    { sh d x' l' t' with double := (sh d x' l' t').double + 1 } := by
    intro x' l' t'; show ({ t' with double := t'.double + 1 + d, ce := x', flagedList := l' } : MSB) = { t' with double := t'.double + d + 1, ce := x', flagedList := l' }
    rw [Nat.add_right_comm]
  unfold chordingClick
  have hr : (sh d x l t).inRange p = t.inRange p := rfl
  rw [hr]
  split
  · trivial
  rw [← hd]
  generalize hu : ({ t with double := t.double + 1 } : MSB) = u
  have hux : ex → x = u.ce + c ∧ l = u.flagedList := by rw [← hu]; exact he
  simp only
  have hg : (sh d x l u).gb = u.gb := rfl
  have hb : (sh d x l u).bd = u.bd := rfl
  have hri : (sh d x l u).ring p = u.ring p := rfl
  have hbb : ∀ q, (sh d x l u).cellIsBbbv q = u.cellIsBbbv q := fun q => cellIsBbbv_congr rfl rfl rfl q
  simp only [hg, hb, hri, hbb]
  split
  · exact SimO.some _ ⟨x, l, rfl, hux⟩
  split
  · have ho : ∀ (st : GState) (k : Nat), ({ sh d x l u with state := st, ce := (sh d x l u).ce + 1, bbbvSolved := k } : MSB).opNumAroundCell p = u.opNumAroundCell p :=
      fun st k => opNum_congr (by rfl) (by rfl) (by rfl) (by rfl) p
    have ho' : ∀ (st : GState) (k : Nat), ({ u with state := st, ce := u.ce + 1, bbbvSolved := k } : MSB).opNumAroundCell p = u.opNumAroundCell p :=
      fun st k => opNum_congr (by rfl) (by rfl) (by rfl) (by rfl) p
    rw [ho, ho']
    cases u.opNumAroundCell p with
    | none => trivial
    | some n =>
      simp only [Option.bind_some]
      cases refreshBoard u.board u.gameBoard ((u.ring p).filter fun q => decide (u.gb q = 10)) with
      | none => trivial
      | some g =>
        simp only [Option.map_some]
        refine SimO.some _ (Sim.checkWin ⟨x + 1, l, rfl, fun hx => ⟨?_, (hux hx).2⟩⟩)
        have := (hux hx).1
        show x + 1 = u.ce + 1 + c
        omega
  · exact SimO.some _ ⟨x, l, rfl, hux⟩

theorem releaseNotFlag_sim {s t : MSB} (h : Sim ex d c s t) (p : Pos) :
    SimO ex d c (s.releaseNotFlag p) (t.releaseNotFlag p) := by
  obtain ⟨x, l, rfl, he⟩ := h
  unfold releaseNotFlag
  have hr : (sh d x l t).right = t.right := rfl
  rw [hr]
  split
  · trivial
  have hsim : Sim ex d c ({ sh d x l t with right := t.right - 1 } : MSB) { t with right := t.right - 1 } :=
    ⟨x, l, rfl, he⟩
  simp only
  have ho : ({ sh d x l t with right := t.right - 1 } : MSB).atOutside p = ({ t with right := t.right - 1 } : MSB).atOutside p := rfl
  rw [ho]
  split
  · exact SimO.some _ hsim
  · exact chordingClick_sim hsim p

theorem releaseChord_sim {s t : MSB} (h : Sim ex d c s t) (p : Pos) :
    SimO ex d c (s.releaseChord p) (t.releaseChord p) := by
  have ho : s.atOutside p = t.atOutside p := by obtain ⟨x, l, rfl, he⟩ := h; rfl
  unfold releaseChord
  rw [ho]
  split
  · exact SimO.some _ h
  · exact chordingClick_sim h p

theorem releaseLeft_sim {s t : MSB} (h : Sim ex d c s t) (p : Pos) :
    SimO ex d c (s.releaseLeft p) (t.releaseLeft p) := by
  have ho : s.atOutside p = t.atOutside p := by obtain ⟨x, l, rfl, he⟩ := h; rfl
  unfold releaseLeft
  rw [ho]
  split
  · exact SimO.some _ h
  · exact leftClick_sim h p

theorem Sim.setMouse {s t : MSB} (h : Sim ex d c s t) (m : Mouse) :
    Sim ex d c { s with mouse := m } { t with mouse := m } := by
  obtain ⟨x, l, rfl, he⟩ := h; exact ⟨x, l, rfl, he⟩

theorem Sim.setMiddle {s t : MSB} (h : Sim ex d c s t) (m : Bool) :
    Sim ex d c { s with middleHold := m } { t with middleHold := m } := by
  obtain ⟨x, l, rfl, he⟩ := h; exact ⟨x, l, rfl, he⟩

theorem Sim.setState {s t : MSB} (h : Sim ex d c s t) (m : GState) :
    Sim ex d c { s with state := m } { t with state := m } := by
  obtain ⟨x, l, rfl, he⟩ := h; exact ⟨x, l, rfl, he⟩

theorem stepPlaying_sim {s t : MSB} (h : Sim ex d c s t) (e : Ev) (p : Pos) :
    SimO ex d c (s.stepPlaying e p) (t.stepPlaying e p) := by
  have hm : s.mouse = t.mouse := by obtain ⟨x, l, rfl, he⟩ := h; rfl
  have hmh : s.middleHold = t.middleHold := by obtain ⟨x, l, rfl, he⟩ := h; rfl
  have hin : s.inRange p = t.inRange p := by obtain ⟨x, l, rfl, he⟩ := h; rfl
  have hgb : s.gb p = t.gb p := by obtain ⟨x, l, rfl, he⟩ := h; rfl
  unfold stepPlaying
  cases e <;> simp only
  case m =>
    rw [hmh]
    split
    · exact chordingClick_sim (h.setMiddle _) p
    · exact SimO.some _ (h.setMiddle _)
  case mc => exact SimO.some _ (h.setMiddle _)
  case mr => exact chordingClick_sim (h.setMiddle _) p
  all_goals try exact SimO.some _ h
  all_goals
    rw [hm]
    cases t.mouse <;> simp only
  all_goals first
    | exact SimO.some _ h
    | exact SimO.some _ (h.setMouse _)
    | exact releaseLeft_sim (h.setMouse _) p
    | exact releaseChord_sim (h.setMouse _) p
    | exact releaseNotFlag_sim (h.setMouse _) p
    | skip
  all_goals
    rw [hin, hgb]
    split
    · split
      · exact rightClick_sim (h.setMouse _) p
      · exact rightClick_sim (h.setMouse _) p
    · first | exact SimO.some _ (h.setMouse _) | trivial

/-- the same outcome; related states, or both back in `Ready` -/
def SimR (ex : Prop) (d c : Nat) : Option (MSB × Option Nat) → Option (MSB × Option Nat) → Prop
  | none, none => True
  | some (s, r), some (t, r') => r = r' ∧ (Sim ex d c s t ∨ (s.state = .ready ∧ t.state = .ready))
  | _, _ => False

theorem SimO.weak {o o' : Option (MSB × Option Nat)} (h : SimO ex d c o o') : SimR ex d c o o' := by
  rcases o with _ | ⟨s, r⟩ <;> rcases o' with _ | ⟨t, r'⟩
  · trivial
  · exact h.elim
  · exact h.elim
  · exact ⟨h.1, .inl h.2⟩

theorem Sim.clicks {s t : MSB} (h : Sim ex d c s t) (k : Nat) (m : Mouse) :
    Sim ex d c { s with mouse := m, preFlagNum := k } { t with mouse := m, preFlagNum := k } := by
  obtain ⟨x, l, rfl, he⟩ := h; exact ⟨x, l, rfl, he⟩

theorem run_go_sim {s t : MSB} (h : Sim ex d c s t) (e : Ev) (p : Pos) :
    SimR ex d c (Flow.run e p (.go s)) (Flow.run e p (.go t)) := (stepPlaying_sim h e p).weak

theorem run_click_sim {o o' : Option (MSB × Option Nat)} (h : SimO ex d c o o') (e : Ev) (p : Pos) :
    SimR ex d c (Flow.run e p (.ofClick o)) (Flow.run e p (.ofClick o')) := by
  rw [run_ofClick, run_ofClick]; exact h.weak

theorem run_ret_sim {s t : MSB} (h : Sim ex d c s t) (e : Ev) (p : Pos) (r : Option Nat) :
    SimR ex d c (Flow.run e p (.ret s r)) (Flow.run e p (.ret t r)) := ⟨rfl, .inl h⟩

theorem run_back_sim {s t : MSB} (h1 : s.state = .ready) (h2 : t.state = .ready) (e : Ev) (p : Pos) (r : Option Nat) :
    SimR ex d c (Flow.run e p (.ret s r)) (Flow.run e p (.ret t r)) := ⟨rfl, .inr ⟨h1, h2⟩⟩

theorem stepPreFlaging_sim {s t : MSB} (h : Sim ex d c s t) (e : Ev) (p : Pos) :
    SimR ex d c (Flow.run e p (s.stepPreFlaging e p)) (Flow.run e p (t.stepPreFlaging e p)) := by
  have hm : s.mouse = t.mouse := by obtain ⟨x, l, rfl, he⟩ := h; rfl
  have hpn : s.preFlagNum = t.preFlagNum := by obtain ⟨x, l, rfl, he⟩ := h; rfl
  have hin : s.inRange p = t.inRange p := by obtain ⟨x, l, rfl, he⟩ := h; rfl
  have hout : s.atOutside p = t.atOutside p := by obtain ⟨x, l, rfl, he⟩ := h; rfl
  have hgb : s.gb p = t.gb p := by obtain ⟨x, l, rfl, he⟩ := h; rfl
  unfold stepPreFlaging
  cases e <;> simp only
  case lr =>
    rw [hm]
    cases t.mouse <;> simp only
    case downUp =>
      rw [hout]
      split
      · rw [hpn]
        split
        · exact run_back_sim rfl rfl _ _ _
        · (obtain ⟨x, l, rfl, he⟩ := h; refine run_ret_sim ?_ _ _ _; exact ⟨x, l, rfl, he⟩)
      · rw [hin]
        split
        · rw [hgb]
          split
          · obtain ⟨x, l, rfl, he⟩ := h; refine run_go_sim ?_ _ _; exact ⟨x, l, rfl, he⟩
          · obtain ⟨x, l, rfl, he⟩ := h; refine run_go_sim ?_ _ _; exact ⟨x, l, rfl, he⟩
        · trivial
    all_goals first
      | exact run_go_sim h _ _
      | exact run_ret_sim h _ _ _
  case pf =>
    rw [hin]
    split
    · rw [hgb]
      split
      · refine run_click_sim (rightClick_sim ?_ p) _ _
        rw [hpn]
        obtain ⟨x, l, rfl, he⟩ := h; exact ⟨x, l, rfl, he⟩
      · trivial
    · trivial
  case rc =>
    rw [hm]
    cases t.mouse <;> simp only
    case upUp =>
      have hin' : ({ s with mouse := .upDown } : MSB).inRange p = ({ t with mouse := .upDown } : MSB).inRange p := hin
      have hgb' : ({ s with mouse := .upDown } : MSB).gb p = ({ t with mouse := .upDown } : MSB).gb p := hgb
      rw [hin', hgb', hpn]
      split
      · split
        · refine run_click_sim (rightClick_sim ?_ p) _ _
          obtain ⟨x, l, rfl, he⟩ := h; exact ⟨x, l, rfl, he⟩
        · split
          · trivial
          · split
            · exact run_back_sim rfl rfl _ _ _
            · refine run_click_sim (rightClick_sim ?_ p) _ _
              obtain ⟨x, l, rfl, he⟩ := h; exact ⟨x, l, rfl, he⟩
      · obtain ⟨x, l, rfl, he⟩ := h; refine run_go_sim ?_ _ _; exact ⟨x, l, rfl, he⟩
    case downUp =>
      have hin' : ({ s with mouse := .chording } : MSB).inRange p = ({ t with mouse := .chording } : MSB).inRange p := hin
      rw [hin', hpn]
      split
      · obtain ⟨x, l, rfl, he⟩ := h; refine run_go_sim ?_ _ _; exact ⟨x, l, rfl, he⟩
      · obtain ⟨x, l, rfl, he⟩ := h; refine run_go_sim ?_ _ _; exact ⟨x, l, rfl, he⟩
    case downUpAfterChording => obtain ⟨x, l, rfl, he⟩ := h; refine run_go_sim ?_ _ _; exact ⟨x, l, rfl, he⟩
    all_goals exact run_ret_sim h _ _ _
  case cc =>
    rw [hm]
    cases t.mouse <;> simp only
    case downUp =>
      rw [hin, hpn]
      split
      · (obtain ⟨x, l, rfl, he⟩ := h; refine run_ret_sim ?_ _ _ _; exact ⟨x, l, rfl, he⟩)
      · (obtain ⟨x, l, rfl, he⟩ := h; refine run_ret_sim ?_ _ _ _; exact ⟨x, l, rfl, he⟩)
    all_goals first
      | (obtain ⟨x, l, rfl, he⟩ := h; refine run_ret_sim ?_ _ _ _; exact ⟨x, l, rfl, he⟩)
      | exact run_ret_sim h _ _ _
  all_goals first
    | exact run_go_sim h _ _
    | exact run_ret_sim h _ _ _

/-- a step of a game that has begun, or of the flagging before it -/
theorem step_sim {s t : MSB} (h : Sim ex d c s t) (hst : s.state ≠ .ready) (e : Ev) (p : Pos) :
    SimR ex d c (s.step e p) (t.step e p) := by
  have hs : s.state = t.state := by obtain ⟨x, l, rfl, he⟩ := h; rfl
  rw [step_eq, step_eq, ← hs]
  cases hst' : s.state <;> simp only
  · exact absurd hst' hst
  · exact stepPreFlaging_sim h e p
  · exact (stepPlaying_sim h e p).weak
  all_goals exact run_ret_sim h _ _ _

/-! ### before the game starts the board does not matter -/

/-- `s` is `t` on another board, up to double clicks, effective clicks and the flagged cells -/
def PSim (d : Nat) (s t : MSB) : Prop :=
  ∃ b x l, s = { t with board := b, double := t.double + d, ce := x, flagedList := l }

/-- if the first stays in the flagging phase, the second has the same outcome -/
def PSimR (d : Nat) (o o' : Option (MSB × Option Nat)) : Prop :=
  ∀ s' r, o = some (s', r) → s'.state = .preFlaging → ∃ t', o' = some (t', r) ∧ PSim d s' t'

theorem PSimR.some {s t : MSB} (r : Option Nat) (h : PSim d s t) : PSimR d (some (s, r)) (some (t, r)) := by
  intro s' r' e _
  obtain ⟨rfl, rfl⟩ := Prod.mk.inj (Option.some.inj e)
  exact ⟨t, rfl, h⟩

theorem PSimR.none (o' : Option (MSB × Option Nat)) : PSimR d none o' := fun _ _ e => by simp at e

theorem PSimR.other {o o' : Option (MSB × Option Nat)} (h : ∀ s' r, o = Option.some (s', r) → s'.state ≠ .preFlaging) :
    PSimR d o o' := fun s' r e hs => absurd hs (h s' r e)

theorem rightClick_psim {s t : MSB} (h : PSim d s t) (p : Pos) : PSimR d (s.rightClick p) (t.rightClick p) := by
  obtain ⟨b, x, l, rfl⟩ := h
  unfold rightClick
  have hr : ({ t with board := b, double := t.double + d, ce := x, flagedList := l } : MSB).inRange p = t.inRange p := rfl
  rw [hr]
  split
  · exact PSimR.none _
  simp only
  have hg : ({ t with board := b, right := t.right + 1, double := t.double + d, ce := x, flagedList := l } : MSB).gb p = ({ t with right := t.right + 1 } : MSB).gb p := rfl
  rw [hg]
  split
  · exact PSimR.some _ ⟨b, x, l, rfl⟩
  split
  · have key : ∀ u : MSB, ∃ x l, (if u.bd p ≠ -1 then some (u, some 1) else some
        ({ (if p ∉ u.flagedList then { u with ce := u.ce + 1 } else u) with
            flagedList := (if p ∉ u.flagedList then { u with ce := u.ce + 1 } else u).flagedList ++ [p] }, some 1)) =
        (some ({ u with ce := x, flagedList := l }, some 1) : Option (MSB × Option Nat)) := by
      intro u
      split
      · exact ⟨u.ce, u.flagedList, rfl⟩
      · split
        · exact ⟨u.ce + 1, u.flagedList ++ [p], rfl⟩
        · exact ⟨u.ce, u.flagedList ++ [p], rfl⟩
    obtain ⟨x1, l1, e1⟩ := key { t with board := b, right := t.right + 1, double := t.double + d, ce := x, flagedList := l,
                                         gameBoard := t.gameBoard.set p.1 p.2 11, flag := t.flag + 1 }
    obtain ⟨x2, l2, e2⟩ := key { t with right := t.right + 1, gameBoard := t.gameBoard.set p.1 p.2 11, flag := t.flag + 1 }
    intro s' r e hs
    have e := e1.symm.trans e
    obtain ⟨rfl, rfl⟩ := Prod.mk.inj (Option.some.inj e)
    exact ⟨_, e2, b, x1, l1, rfl⟩
  split
  · split
    · exact PSimR.none _
    · exact PSimR.some _ ⟨b, x, l, rfl⟩
  · exact PSimR.some _ ⟨b, x, l, rfl⟩

/-- nothing has been opened -/
def AllCovered (s : MSB) : Prop := ∀ p, s.inRange p = true → 10 ≤ s.gb p

theorem chordingClick_psim {s t : MSB} (h : PSim d s t) (hc : s.AllCovered) (p : Pos) :
    PSimR d (s.chordingClick p) (t.chordingClick p) := by
  obtain ⟨b, x, l, rfl⟩ := h
  unfold chordingClick
  have hr : ({ t with board := b, double := t.double + d, ce := x, flagedList := l } : MSB).inRange p = t.inRange p := rfl
  rw [hr]
  by_cases hin : t.inRange p = true
  · have h10 : 10 ≤ t.gb p := hc p hin
    rw [if_neg (not_not_intro hin), if_neg (not_not_intro hin)]
    simp only
    rw [if_pos (.inr (show t.gb p ≥ 8 by omega)), if_pos (.inr (show t.gb p ≥ 8 by omega))]
    refine PSimR.some _ ⟨b, x, l, ?_⟩
    simp only [Nat.add_right_comm]
  · rw [if_pos hin]
    exact PSimR.none _

theorem leftClick_state {s s' : MSB} {p : Pos} {r : Option Nat} (h : s.leftClick p = some (s', r)) :
    s'.state = s.state ∨ s'.state = .loss ∨ s'.state = .win := by
  unfold leftClick at h
  split at h
  · simp at h
  simp only at h
  split at h
  · simp only [Option.some.injEq, Prod.mk.injEq] at h; rw [← h.1]; exact .inl rfl
  split at h
  · obtain ⟨o, h1, h2⟩ := Option.bind_eq_some_iff.mp h
    obtain ⟨g, h3, h4⟩ := Option.map_eq_some_iff.mp h2
    obtain ⟨rfl, -⟩ := Prod.mk.inj h4
    rcases checkWin_state ({ (if o.1 = true then ({ s with left := s.left + 1, bbbvSolved := s.bbbvSolved + 1 } : MSB)
      else { s with left := s.left + 1 }) with ce := (if o.1 = true then ({ s with left := s.left + 1, bbbvSolved := s.bbbvSolved + 1 } : MSB)
      else { s with left := s.left + 1 }).ce + 1, gameBoard := g }) with e | e
    · exact .inr (.inr e)
    · refine .inl (e.trans ?_)
      cases o.1 <;> rfl
  split at h
  · obtain ⟨g, h3, h4⟩ := Option.map_eq_some_iff.mp h
    obtain ⟨rfl, -⟩ := Prod.mk.inj h4
    exact .inr (.inl rfl)
  · obtain ⟨g, h3, h4⟩ := Option.map_eq_some_iff.mp h
    obtain ⟨h4, -⟩ := Prod.mk.inj h4
    rw [← h4]
    rcases checkWin_state ({ (if ({ s with left := s.left + 1, gameBoard := g } : MSB).cellIsBbbv p = true then
      ({ s with left := s.left + 1, gameBoard := g, bbbvSolved := s.bbbvSolved + 1 } : MSB)
      else { s with left := s.left + 1, gameBoard := g }) with ce := (if ({ s with left := s.left + 1, gameBoard := g } : MSB).cellIsBbbv p = true then
      ({ s with left := s.left + 1, gameBoard := g, bbbvSolved := s.bbbvSolved + 1 } : MSB)
      else { s with left := s.left + 1, gameBoard := g }).ce + 1 }) with e | e
    · exact .inr (.inr e)
    · refine .inl (e.trans ?_)
      cases ({ s with left := s.left + 1, gameBoard := g } : MSB).cellIsBbbv p <;> rfl

theorem releaseNotFlag_psim {s t : MSB} (h : PSim d s t) (hc : s.AllCovered) (p : Pos) :
    PSimR d (s.releaseNotFlag p) (t.releaseNotFlag p) := by
  obtain ⟨b, x, l, rfl⟩ := h
  unfold releaseNotFlag
  simp only
  split
  · exact PSimR.none _
  have hsim : PSim d ({ t with board := b, right := t.right - 1, double := t.double + d, ce := x, flagedList := l } : MSB)
      { t with right := t.right - 1 } := ⟨b, x, l, rfl⟩
  have ho : ({ t with board := b, right := t.right - 1, double := t.double + d, ce := x, flagedList := l } : MSB).atOutside p =
    ({ t with right := t.right - 1 } : MSB).atOutside p := rfl
  rw [ho]
  split
  · exact PSimR.some _ hsim
  · exact chordingClick_psim hsim hc p

theorem releaseChord_psim {s t : MSB} (h : PSim d s t) (hc : s.AllCovered) (p : Pos) :
    PSimR d (s.releaseChord p) (t.releaseChord p) := by
  have ho : s.atOutside p = t.atOutside p := by obtain ⟨b, x, l, rfl⟩ := h; rfl
  unfold releaseChord
  rw [ho]
  split
  · exact PSimR.some _ h
  · exact chordingClick_psim h hc p

theorem PSim.setMouse {s t : MSB} (h : PSim d s t) (m : Mouse) :
    PSim d { s with mouse := m } { t with mouse := m } := by
  obtain ⟨b, x, l, rfl⟩ := h; exact ⟨b, x, l, rfl⟩

/-- the events and mouse states that reach the second `match` in the flagging phase -/
theorem stepPlaying_psim {s t : MSB} (h : PSim d s t) (hc : s.AllCovered) (e : Ev) (p : Pos)
    (he : e = .lc ∨ e = .rr ∨ e = .mv ∨ (e = .lr ∧ s.mouse ≠ .downUp) ∨ (e = .rc ∧ s.mouse ≠ .upUp)) :
    PSimR d (s.stepPlaying e p) (t.stepPlaying e p) := by
  have hm : s.mouse = t.mouse := by obtain ⟨b, x, l, rfl⟩ := h; rfl
  unfold stepPlaying
  rcases he with rfl | rfl | rfl | ⟨rfl, he⟩ | ⟨rfl, he⟩ <;> simp only
  case inr.inr.inl => exact PSimR.some _ h
  all_goals
    rw [hm]
    cases ht : t.mouse <;> simp only
  all_goals first
    | exact absurd (hm.trans ht) he
    | exact PSimR.some _ h
    | exact PSimR.some _ (h.setMouse _)
    | (refine releaseChord_psim (h.setMouse _) ?_ p; exact hc)
    | (refine releaseNotFlag_psim (h.setMouse _) ?_ p; exact hc)

theorem stepPreFlaging_psim {s t : MSB} (h : PSim d s t) (hc : s.AllCovered) (e : Ev) (p : Pos) :
    PSimR d (Flow.run e p (s.stepPreFlaging e p)) (Flow.run e p (t.stepPreFlaging e p)) := by
  have hm : s.mouse = t.mouse := by obtain ⟨b, x, l, rfl⟩ := h; rfl
  have hpn : s.preFlagNum = t.preFlagNum := by obtain ⟨b, x, l, rfl⟩ := h; rfl
  have hin : s.inRange p = t.inRange p := by obtain ⟨b, x, l, rfl⟩ := h; rfl
  have hout : s.atOutside p = t.atOutside p := by obtain ⟨b, x, l, rfl⟩ := h; rfl
  have hgb : s.gb p = t.gb p := by obtain ⟨b, x, l, rfl⟩ := h; rfl
  have go : ∀ {s t : MSB}, PSim d s t → s.AllCovered →
      (e = .lc ∨ e = .rr ∨ e = .mv ∨ (e = .lr ∧ s.mouse ≠ .downUp) ∨ (e = .rc ∧ s.mouse ≠ .upUp)) →
      PSimR d (Flow.run e p (.go s)) (Flow.run e p (.go t)) := fun h hc he => stepPlaying_psim h hc e p he
  have click : ∀ {o o' : Option (MSB × Option Nat)}, PSimR d o o' →
      PSimR d (Flow.run e p (.ofClick o)) (Flow.run e p (.ofClick o')) := by
    intro o o' h; rw [run_ofClick, run_ofClick]; exact h
  have ret : ∀ {s t : MSB} (r : Option Nat), PSim d s t →
      PSimR d (Flow.run e p (.ret s r)) (Flow.run e p (.ret t r)) := fun r h => PSimR.some r h
  have back : ∀ {s : MSB} {o' : Option (MSB × Option Nat)} (r : Option Nat), s.state ≠ .preFlaging →
      PSimR d (Flow.run e p (.ret s r)) o' := by
    intro s o' r hs
    refine PSimR.other fun s' r' e' => ?_
    obtain ⟨rfl, -⟩ := Prod.mk.inj (Option.some.inj e')
    exact hs
  unfold stepPreFlaging
  cases e <;> simp only
  case lr =>
    rw [hm]
    cases ht : t.mouse <;> simp only
    case downUp =>
      rw [hout]
      split
      · rw [hpn]
        split
        · exact back _ (show GState.ready ≠ _ by decide)
        · refine ret _ ?_
          obtain ⟨b, x, l, rfl⟩ := h; exact ⟨b, x, l, rfl⟩
      · rw [hin]
        split
        · rw [hgb]
          split
          · refine PSimR.other fun s' r e' => ?_
            have e' : ({ s with mouse := .downUp, state := .playing } : MSB).stepPlaying .lr p = some (s', r) := e'
            unfold stepPlaying at e'
            simp only at e'
            unfold releaseLeft at e'
            rw [show ({ s with mouse := Mouse.upUp, state := GState.playing } : MSB).atOutside p = s.atOutside p from rfl, hout,
              if_neg (by assumption)] at e'
            rcases leftClick_state e' with e | e | e <;> rw [e] <;> simp
          · refine go (h.setMouse _) hc (.inr (.inr (.inr (.inl ⟨rfl, ?_⟩))))
            exact (by decide : Mouse.upUp ≠ .downUp)
        · exact PSimR.none _
    all_goals first
      | exact ret _ h
      | exact go h hc (.inr (.inr (.inr (.inl ⟨rfl, by rw [hm, ht]; decide⟩))))
  case pf =>
    rw [hin]
    split
    · rw [hgb]
      split
      · refine click (rightClick_psim ?_ p)
        rw [hpn]
        obtain ⟨b, x, l, rfl⟩ := h; exact ⟨b, x, l, rfl⟩
      · exact PSimR.none _
    · exact PSimR.none _
  case rc =>
    rw [hm]
    cases ht : t.mouse <;> simp only
    case upUp =>
      have hin' : ({ s with mouse := .upDown } : MSB).inRange p = ({ t with mouse := .upDown } : MSB).inRange p := hin
      have hgb' : ({ s with mouse := .upDown } : MSB).gb p = ({ t with mouse := .upDown } : MSB).gb p := hgb
      rw [hin', hgb', hpn]
      split
      · split
        · refine click (rightClick_psim ?_ p)
          obtain ⟨b, x, l, rfl⟩ := h; exact ⟨b, x, l, rfl⟩
        · split
          · exact PSimR.none _
          · split
            · exact back _ (show GState.ready ≠ _ by decide)
            · refine click (rightClick_psim ?_ p)
              obtain ⟨b, x, l, rfl⟩ := h; exact ⟨b, x, l, rfl⟩
      · refine go ?_ ?_ ?_
        · obtain ⟨b, x, l, rfl⟩ := h; exact ⟨b, x, l, rfl⟩
        · exact hc
        · exact .inr (.inr (.inr (.inr ⟨rfl, (by decide : Mouse.upDown ≠ .upUp)⟩)))
    case downUp =>
      have hin' : ({ s with mouse := .chording } : MSB).inRange p = ({ t with mouse := .chording } : MSB).inRange p := hin
      rw [hin', hpn]
      split
      · refine go ?_ ?_ ?_
        · obtain ⟨b, x, l, rfl⟩ := h; exact ⟨b, x, l, rfl⟩
        · exact hc
        · exact .inr (.inr (.inr (.inr ⟨rfl, (by decide : Mouse.chording ≠ .upUp)⟩)))
      · refine go ?_ ?_ ?_
        · obtain ⟨b, x, l, rfl⟩ := h; exact ⟨b, x, l, rfl⟩
        · exact hc
        · exact .inr (.inr (.inr (.inr ⟨rfl, (by decide : Mouse.chording ≠ .upUp)⟩)))
    case downUpAfterChording =>
      refine go (h.setMouse _) hc ?_
      exact .inr (.inr (.inr (.inr ⟨rfl, (by decide : Mouse.chording ≠ .upUp)⟩)))
    all_goals exact ret _ h
  case cc =>
    rw [hm]
    cases t.mouse <;> simp only
    case downUp =>
      rw [hin, hpn]
      split
      · refine ret _ ?_
        obtain ⟨b, x, l, rfl⟩ := h; exact ⟨b, x, l, rfl⟩
      · refine ret _ ?_
        obtain ⟨b, x, l, rfl⟩ := h; exact ⟨b, x, l, rfl⟩
    all_goals first
      | exact ret _ (h.setMouse _)
      | exact ret _ h
  all_goals first
    | exact go h hc (.inl rfl)
    | exact go h hc (.inr (.inl rfl))
    | exact go h hc (.inr (.inr (.inl rfl)))
    | exact ret _ h

theorem step_psim {s t : MSB} (h : PSim d s t) (hst : s.state = .preFlaging) (hc : s.AllCovered) (e : Ev) (p : Pos) :
    PSimR d (s.step e p) (t.step e p) := by
  have hs : s.state = t.state := by obtain ⟨b, x, l, rfl⟩ := h; rfl
  rw [step_eq, step_eq, ← hs, hst]
  exact stepPreFlaging_psim h hc e p

end MSB
end Ms
