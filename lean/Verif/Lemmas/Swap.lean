import Verif.SpecSwap
import Verif.Lemmas.GameSim
import Verif.Lemmas.GameWait

/-! # Two machines that differ only in the pointer of `is_win` -/

namespace Ms.MSB
open Spec

/-- every cell passes the test of `is_win` -/
def AllOpen (t : MSB) : Prop := ∀ p ∈ grid t.row t.column, t.winCheck p = none

/-- `t` with another pointer -/
abbrev pt (x y : Nat) (t : MSB) : MSB := { t with pointerX := x, pointerY := y }

/-- `s` is `t` with another pointer -/
def Pt (s t : MSB) : Prop := ∃ x y, s = { t with pointerX := x, pointerY := y } ∧ (0 < t.row → x < t.row)

/-- `s` is `t` with another pointer, or `s` claims to have won -/
def Ghost (s t : MSB) : Prop :=
  ∃ x y st, s = { t with pointerX := x, pointerY := y, state := st } ∧ (st = t.state ∨ st = .win) ∧ (0 < t.row → x < t.row)

/-- the same outcome, related states -/
def GhostO : Option (MSB × Option Nat) → Option (MSB × Option Nat) → Prop
  | none, none => True
  | some (s, r), some (t, r') => r = r' ∧ ((t.state = .win → AllOpen t) → Ghost s t)
  | _, _ => False

theorem Pt.ghost {s t : MSB} (h : Pt s t) : Ghost s t := by
  obtain ⟨x, y, rfl, h⟩ := h
  exact ⟨x, y, t.state, rfl, .inl rfl, h⟩

theorem GhostO.some {s t : MSB} (r : Option Nat) (h : Pt s t) : GhostO (some (s, r)) (some (t, r)) :=
  ⟨rfl, fun _ => h.ghost⟩

theorem winScan_open (s : MSB) : ∀ l : List Pos, (∀ p ∈ l, s.winCheck p = none) → s.winScan l = (true, (s.pointerX, s.pointerY))
  | [], _ => rfl
  | p :: l, h => by
    unfold winScan
    rw [h p List.mem_cons_self]
    exact winScan_open s l fun q hq => h q (List.mem_cons_of_mem _ hq)

theorem winScan_snd (s : MSB) : ∀ l : List Pos, (s.winScan l).2 = (s.pointerX, s.pointerY) ∨ (s.winScan l).2 ∈ l
  | [] => .inl rfl
  | p :: l => by
    unfold winScan
    split
    · rcases winScan_snd s l with h | h
      · exact .inl h
      · exact .inr (List.mem_cons_of_mem _ h)
    · exact .inr List.mem_cons_self
    · exact .inl rfl

theorem winCells_grid {s : MSB} (hx : 0 < s.row → s.pointerX < s.row) (hr : 0 < s.row) {p : Pos} (hp : p ∈ s.winCells) :
    p ∈ grid s.row s.column := ((mem_winCells hx hr).mp hp).1

theorem Pt.checkWin {s t : MSB} (h : Pt s t) (hr : 0 < t.row) (r : Option Nat) : GhostO (some (s.checkWin, r)) (some (t.checkWin, r)) := by
  obtain ⟨x, y, rfl, hx⟩ := h
  refine ⟨rfl, fun hopen => ?_⟩
  set s : MSB := { t with pointerX := x, pointerY := y } with hs
  have hsx : 0 < s.row → s.pointerX < s.row := hx
  have e1 : ∀ u : MSB, u.checkWin = { u with
      pointerX := (u.winScan u.winCells).2.1, pointerY := (u.winScan u.winCells).2.2,
      state := if (u.winScan u.winCells).1 then .win else u.state } := by
    intro u
    unfold MSB.checkWin
    simp only
    split <;> simp_all
  have hx' : 0 < t.row → (s.winScan s.winCells).2.1 < t.row := by
    intro _
    rcases winScan_snd s s.winCells with h | h
    · rw [h]; exact hx hr
    · have := winCells_grid hsx hr h
      rw [mem_grid] at this
      exact this.1
  refine ⟨(s.winScan s.winCells).2.1, (s.winScan s.winCells).2.2, s.checkWin.state, ?_, ?_, ?_⟩
  · rw [e1 s, e1 t]
  · rw [e1 s]
    by_cases hw : (s.winScan s.winCells).1
    · right; simp [hw]
    · left
      simp only [hw]
      rw [e1 t] at hopen ⊢
      by_cases hw' : (t.winScan t.winCells).1
      · exfalso
        apply hw
        have h1 := hopen (by simp [hw'])
        have h2 : ∀ p ∈ s.winCells, s.winCheck p = none := fun p hp => h1 p (winCells_grid hsx hr hp)
        rw [winScan_open s _ h2]
      · simp only [hw']
        rfl
  · rw [e1 t]; exact hx'

theorem leftClick_pt {s t : MSB} (h : Pt s t) (hr0 : 0 < t.row) (p : Pos) : GhostO (s.leftClick p) (t.leftClick p) := by
  obtain ⟨x, y, rfl, hx⟩ := h
  unfold leftClick
  set s : MSB := { t with pointerX := x, pointerY := y } with hs
  have hr : s.inRange p = t.inRange p := rfl
  rw [hr]
  split
  · trivial
  simp only
  have hg : ({ s with left := s.left + 1 } : MSB).gb p = ({ t with left := t.left + 1 } : MSB).gb p := rfl
  have hb : ({ s with left := s.left + 1 } : MSB).bd p = ({ t with left := t.left + 1 } : MSB).bd p := rfl
  rw [hg, hb]
  split
  · exact GhostO.some _ ⟨x, y, rfl, hx⟩
  split
  · have hc : ({ s with left := s.left + 1 } : MSB).cellIsOpCompleted p [] =
      ({ t with left := t.left + 1 } : MSB).cellIsOpCompleted p [] :=
      opCompletedLoop_congr (by rfl) (by rfl) (by rfl) (by rfl) _ _ _
    rw [hc]
    cases ho : ({ t with left := t.left + 1 } : MSB).cellIsOpCompleted p [] with
    | none => trivial
    | some o =>
      simp only [Option.bind_some]
      cases o.1
      all_goals
        simp only [Bool.false_eq_true, if_false, if_true]
        show GhostO ((refreshBoard t.board t.gameBoard [p]).map _) ((refreshBoard t.board t.gameBoard [p]).map _)
        cases refreshBoard t.board t.gameBoard [p] with
        | none => trivial
        | some g =>
          simp only [Option.map_some]
          refine Pt.checkWin ?_ (by exact hr0) _
          exact ⟨x, y, rfl, hx⟩
  split
  · show GhostO ((refreshBoard t.board t.gameBoard [p]).map _) ((refreshBoard t.board t.gameBoard [p]).map _)
    cases refreshBoard t.board t.gameBoard [p] with
    | none => trivial
    | some g => exact GhostO.some _ ⟨x, y, rfl, hx⟩
  · show GhostO ((refreshBoard t.board t.gameBoard [p]).map _) ((refreshBoard t.board t.gameBoard [p]).map _)
    cases refreshBoard t.board t.gameBoard [p] with
    | none => trivial
    | some g =>
      simp only [Option.map_some]
      have hi : ({ s with left := s.left + 1, gameBoard := g } : MSB).cellIsBbbv p =
        ({ t with left := t.left + 1, gameBoard := g } : MSB).cellIsBbbv p := cellIsBbbv_congr rfl rfl rfl p
      rw [hi]
      cases ({ t with left := t.left + 1, gameBoard := g } : MSB).cellIsBbbv p
      all_goals
        refine Pt.checkWin ?_ (by exact hr0) _
        exact ⟨x, y, rfl, hx⟩

theorem rightClick_pt {s t : MSB} (h : Pt s t) (p : Pos) : GhostO (s.rightClick p) (t.rightClick p) := by
  obtain ⟨x, y, rfl, hx⟩ := h
  unfold rightClick
  set s : MSB := { t with pointerX := x, pointerY := y } with hs
  have hr : s.inRange p = t.inRange p := rfl
  rw [hr]
  split
  · trivial
  simp only
  have hg : ({ s with right := s.right + 1 } : MSB).gb p = ({ t with right := t.right + 1 } : MSB).gb p := rfl
  have hb : ({ s with right := s.right + 1 } : MSB).bd p = ({ t with right := t.right + 1 } : MSB).bd p := rfl
  rw [hg, hb]
  split
  · exact GhostO.some _ ⟨x, y, rfl, hx⟩
  split
  · split
    · exact GhostO.some _ ⟨x, y, rfl, hx⟩
    · by_cases h1 : p ∈ t.flagedList
      · have h2 : p ∈ s.flagedList := h1
        rw [if_neg (not_not_intro h1), if_neg (not_not_intro h2)]
        exact GhostO.some _ ⟨x, y, rfl, hx⟩
      · have h2 : p ∉ s.flagedList := h1
        rw [if_pos h1, if_pos h2]
        exact GhostO.some _ ⟨x, y, rfl, hx⟩
  split
  · show GhostO (if t.flag = 0 then none else _) (if t.flag = 0 then none else _)
    split
    · trivial
    · exact GhostO.some _ ⟨x, y, rfl, hx⟩
  · exact GhostO.some _ ⟨x, y, rfl, hx⟩

theorem chordingClick_pt {s t : MSB} (h : Pt s t) (hr0 : 0 < t.row) (p : Pos) :
    GhostO (s.chordingClick p) (t.chordingClick p) := by
  obtain ⟨x, y, rfl, hx⟩ := h
  unfold chordingClick
  have hr : ({ t with pointerX := x, pointerY := y } : MSB).inRange p = t.inRange p := rfl
  rw [hr]
  split
  · trivial
  have hd : ({ ({ t with pointerX := x, pointerY := y } : MSB) with double := ({ t with pointerX := x, pointerY := y } : MSB).double + 1 } : MSB) = pt x y { t with double := t.double + 1 } := rfl
  rw [hd]
  generalize hu : ({ t with double := t.double + 1 } : MSB) = u
  have hux : 0 < u.row → x < u.row := by rw [← hu]; exact hx
  have hu0 : 0 < u.row := by rw [← hu]; exact hr0
  simp only
  have hg : (pt x y u).gb = u.gb := rfl
  have hb : (pt x y u).bd = u.bd := rfl
  have hri : (pt x y u).ring p = u.ring p := rfl
  have hbb : ∀ q, (pt x y u).cellIsBbbv q = u.cellIsBbbv q := fun q => cellIsBbbv_congr rfl rfl rfl q
  simp only [hg, hb, hri, hbb]
  split
  · exact GhostO.some _ ⟨x, y, rfl, hux⟩
  split
  · have ho : ∀ (st : GState) (k : Nat), ({ pt x y u with state := st, ce := (pt x y u).ce + 1, bbbvSolved := k } : MSB).opNumAroundCell p = u.opNumAroundCell p :=
      fun st k => opNum_congr (by rfl) (by rfl) (by rfl) (by rfl) p
    have ho' : ∀ (st : GState) (k : Nat), ({ u with state := st, ce := u.ce + 1, bbbvSolved := k } : MSB).opNumAroundCell p = u.opNumAroundCell p :=
      fun st k => opNum_congr (by rfl) (by rfl) (by rfl) (by rfl) p
    rw [ho, ho']
    cases u.opNumAroundCell p with
    | none => trivial
    | some n =>
      simp only [Option.bind_some]
      cases refreshBoard u.board u.gameBoard ((u.ring p).filter fun q => decide (u.gb q = 10)) with
      | none => trivial
      | some g =>
        simp only [Option.map_some]
        refine Pt.checkWin ?_ (by exact hu0) _
        exact ⟨x, y, rfl, hux⟩
  · exact GhostO.some _ ⟨x, y, rfl, hux⟩

theorem Pt.setMouse {s t : MSB} (h : Pt s t) (m : Mouse) : Pt { s with mouse := m } { t with mouse := m } := by
  obtain ⟨x, y, rfl, he⟩ := h; exact ⟨x, y, rfl, he⟩

theorem Pt.setMiddle {s t : MSB} (h : Pt s t) (m : Bool) : Pt { s with middleHold := m } { t with middleHold := m } := by
  obtain ⟨x, y, rfl, he⟩ := h; exact ⟨x, y, rfl, he⟩

theorem releaseNotFlag_pt {s t : MSB} (h : Pt s t) (hr0 : 0 < t.row) (p : Pos) :
    GhostO (s.releaseNotFlag p) (t.releaseNotFlag p) := by
  obtain ⟨x, y, rfl, he⟩ := h
  unfold releaseNotFlag
  have hr : ({ t with pointerX := x, pointerY := y } : MSB).right = t.right := rfl
  rw [hr]
  split
  · trivial
  have hsim : Pt ({ t with pointerX := x, pointerY := y, right := t.right - 1 } : MSB) { t with right := t.right - 1 } :=
    ⟨x, y, rfl, he⟩
  simp only
  have ho : ({ t with pointerX := x, pointerY := y, right := t.right - 1 } : MSB).atOutside p = ({ t with right := t.right - 1 } : MSB).atOutside p := rfl
  rw [ho]
  split
  · exact GhostO.some _ hsim
  · exact chordingClick_pt hsim hr0 p

theorem releaseChord_pt {s t : MSB} (h : Pt s t) (hr0 : 0 < t.row) (p : Pos) :
    GhostO (s.releaseChord p) (t.releaseChord p) := by
  have ho : s.atOutside p = t.atOutside p := by obtain ⟨x, l, rfl, he⟩ := h; rfl
  unfold releaseChord
  rw [ho]
  split
  · exact GhostO.some _ h
  · exact chordingClick_pt h hr0 p

theorem releaseLeft_pt {s t : MSB} (h : Pt s t) (hr0 : 0 < t.row) (p : Pos) :
    GhostO (s.releaseLeft p) (t.releaseLeft p) := by
  have ho : s.atOutside p = t.atOutside p := by obtain ⟨x, l, rfl, he⟩ := h; rfl
  unfold releaseLeft
  rw [ho]
  split
  · exact GhostO.some _ h
  · exact leftClick_pt h hr0 p

theorem stepPlaying_pt {s t : MSB} (h : Pt s t) (hr0 : 0 < t.row) (e : Ev) (p : Pos) :
    GhostO (s.stepPlaying e p) (t.stepPlaying e p) := by
  have hm : s.mouse = t.mouse := by obtain ⟨x, l, rfl, he⟩ := h; rfl
  have hmh : s.middleHold = t.middleHold := by obtain ⟨x, l, rfl, he⟩ := h; rfl
  have hin : s.inRange p = t.inRange p := by obtain ⟨x, l, rfl, he⟩ := h; rfl
  have hgb : s.gb p = t.gb p := by obtain ⟨x, l, rfl, he⟩ := h; rfl
  unfold stepPlaying
  cases e <;> simp only
  case m =>
    rw [hmh]
    split
    · exact chordingClick_pt (h.setMiddle _) (by exact hr0) p
    · exact GhostO.some _ (h.setMiddle _)
  case mc => exact GhostO.some _ (h.setMiddle _)
  case mr => exact chordingClick_pt (h.setMiddle _) (by exact hr0) p
  all_goals try exact GhostO.some _ h
  all_goals
    rw [hm]
    cases t.mouse <;> simp only
  all_goals first
    | exact GhostO.some _ h
    | exact GhostO.some _ (h.setMouse _)
    | exact releaseLeft_pt (h.setMouse _) (by exact hr0) p
    | exact releaseChord_pt (h.setMouse _) (by exact hr0) p
    | exact releaseNotFlag_pt (h.setMouse _) (by exact hr0) p
    | skip
  all_goals
    rw [hin, hgb]
    split
    · split
      · exact rightClick_pt (h.setMouse _) p
      · exact rightClick_pt (h.setMouse _) p
    · first | exact GhostO.some _ (h.setMouse _) | trivial

/-- in a won game every cell passes the test -/
theorem GInv.allOpen {t : MSB} (h : t.GInv) (hw : t.state = .win) : AllOpen t := by
  intro p hp
  have h1 := h.win hw p hp
  have h2 := h.core.marks p hp
  have h3 := h.core.bd_range hp
  simp only [hw, reduceCtorEq, false_and, or_false] at h2
  unfold winCheck
  rw [if_neg (by omega), if_neg (by omega)]

/-- one step of a game and of its ghost -/
theorem Ghost.step {s t s' : MSB} {e : Ev} {p : Pos} {r : Option Nat} (h : Ghost s t) (ht : t.GInv)
    (hq : t.state = .ready ∨ t.state = .preFlaging → s = t) (hs : s.step e p = some (s', r)) :
    ∃ t', t'.GInv ∧ Ghost s' t' ∧ (t'.state = .ready ∨ t'.state = .preFlaging → s' = t') ∧
      (t' = t ∧ s' = s ∨ t.step e p = some (t', r)) := by
  by_cases hpre : t.state = .ready ∨ t.state = .preFlaging
  · rw [hq hpre] at hs
    have hi := (step_eff hs).inv ht
    exact ⟨s', hi, ⟨s'.pointerX, s'.pointerY, s'.state, rfl, .inl rfl, hi.core.ptrRow⟩, fun _ => rfl, .inr hs⟩
  · push Not at hpre
    obtain ⟨x, y, st, rfl, hst, hx⟩ := h
    by_cases hp : t.state = .playing ∧ st = .playing
    · have hr0 : 0 < t.row := by
        obtain ⟨q, hq, -⟩ := ht.playing hp.1
        rw [mem_grid] at hq
        omega
      have hpt : Pt ({ t with pointerX := x, pointerY := y, state := st } : MSB) t := ⟨x, y, by rw [hp.2, ← hp.1], hx⟩
      have h1 := stepPlaying_pt hpt hr0 e p
      have h2 : ∀ u : MSB, u.state = .playing → u.step e p = u.stepPlaying e p := by
        intro u hu
        unfold MSB.step
        simp only [hu]
      rw [h2 _ hp.2] at hs
      rw [hs] at h1
      cases h3 : t.stepPlaying e p with
      | none => rw [h3] at h1; exact h1.elim
      | some w =>
        obtain ⟨t', r'⟩ := w
        rw [h3] at h1
        have h4 : t.step e p = some (t', r') := by rw [h2 t hp.1]; exact h3
        have hi := (step_eff h4).inv ht
        obtain ⟨rfl, h5⟩ := h1
        refine ⟨t', hi, h5 hi.allOpen, fun hh => ?_, .inr h4⟩
        have := (step_state ht h4).2.1 hp.1
        rcases hh with hh | hh <;> simp [hh] at this
    · have hstop : st = .win ∨ st = .loss := by
        have := ht.nd
        rcases hst with hst | hst
        · rw [hst] at hp ⊢
          cases hh : t.state <;> simp [hh] at * 
        · exact .inl hst
      have : ({ t with pointerX := x, pointerY := y, state := st } : MSB).step e p =
          some ({ t with pointerX := x, pointerY := y, state := st }, some 0) := by
        unfold MSB.step
        rcases hstop with hh | hh <;> simp [hh]
      rw [this] at hs
      simp only [Option.some.injEq, Prod.mk.injEq] at hs
      obtain ⟨rfl, rfl⟩ := hs
      exact ⟨t, ht, ⟨x, y, st, rfl, hst, hx⟩, fun hh => by rcases hh with hh | hh <;> simp [hh] at hpre, .inl ⟨rfl, rfl⟩⟩

/-- the opened cells -/
theorem explains_playing {s : MSB} (h : s.GInv) (hst : s.state = .playing) {v : View} (hv : ExplainsShown s v) :
    ∃ p ∈ grid s.row s.column, val v p ≠ -1 ∧ s.gb p ≠ val v p := by
  by_contra hno
  push Not at hno
  obtain ⟨q, hq, hq1, hq2⟩ := h.playing hst
  have hvc : vcells v = grid s.row s.column := by
    rw [← h.core.vcells]; unfold Spec.vcells; rw [hv.row, hv.col]
  have hsub : (grid s.row s.column).filter (fun p => val v p ≠ -1) ⊆ (grid s.row s.column).filter (fun p => val s.board p ≠ -1) := by
    intro p hp
    rw [Finset.mem_filter] at hp ⊢
    refine ⟨hp.1, ?_⟩
    have h1 := hno p hp.1 hp.2
    have h2 := h.core.marks p hp.1
    have h3 := numbered_range hv.numbered (hvc ▸ hp.1)
    simp only [hst, reduceCtorEq, false_and, or_false] at h2
    rw [bd_val] at h2
    have := hp.2
    rcases h2 with h2 | h2 | h2
    · omega
    · omega
    · exact h2.2
  have hlt : ((grid s.row s.column).filter (fun p => val v p ≠ -1)).card < ((grid s.row s.column).filter (fun p => val s.board p ≠ -1)).card := by
    apply Finset.card_lt_card
    refine ⟨hsub, fun hh => ?_⟩
    have h1 := hh (Finset.mem_filter.mpr ⟨hq, hq1⟩)
    have h2 := hno q hq (Finset.mem_filter.mp h1).2
    have h3 := numbered_range hv.numbered (hvc ▸ hq)
    have h4 := hv.same q (by rw [h.core.vcells]; exact hq)
    have h5 := h.core.marks q hq
    have h6 := (Finset.mem_filter.mp h1).2
    simp only [hst, reduceCtorEq, false_and, or_false] at h5
    omega
  have hc : ∀ f : Pos → Int, ((grid s.row s.column).filter (fun p => f p ≠ -1)).card + ((grid s.row s.column).filter (fun p => f p = -1)).card =
      (grid s.row s.column).card := by
    intro f
    rw [← Finset.card_filter_add_card_filter_not (s := grid s.row s.column) (p := fun p => f p = -1), Nat.add_comm]
  have h1 := hc (val v)
  have h2 := hc (val s.board)
  have h3 := hv.count
  unfold mines at h3
  rw [hvc, h.core.vcells] at h3
  omega

/-- the new board with any pointer that passes -/
theorem swap_inv {s : MSB} (h : s.GInv) (hst : s.state = .playing) {v : View} (hv : ExplainsShown s v) {x y : Nat}
    (hx : 0 < s.row → x < s.row)
    (hptr : ∀ p ∈ grid s.row s.column, RBefore p (x, y) → val v p = -1 ∨ s.gb p = val v p) :
    GInv { s with board := v, pointerX := x, pointerY := y } := by
  have hvc : vcells v = grid s.row s.column := by
    rw [← h.core.vcells]; unfold Spec.vcells; rw [hv.row, hv.col]
  refine ⟨⟨hv.row.trans h.core.hrow, hv.col.trans h.core.hcol, h.core.rect, hv.numbered, fun p hp => ?_, h.core.flag, hptr, hx⟩,
    fun hh => ?_, fun hh => ?_, fun hh => ?_, fun _ => explains_playing h hst hv, fun hh => ?_, fun hh => ?_, fun hh => ?_, h.nd⟩
  · have h1 := h.core.marks p hp
    have h2 := h.core.bd_range hp
    have h3 := hv.same p (by rw [h.core.vcells]; exact hp)
    simp only [hst, reduceCtorEq, false_and, or_false] at h1
    rcases h1 with h1 | h1 | h1
    · exact .inl h1
    · exact .inr (.inl h1)
    · right; right; left
      have h4 : shown s.gameBoard p = s.gb p := rfl
      have h5 := h3 (by omega)
      exact ⟨by rw [bd_val]; exact (h5.trans h4).symm, by rw [bd_val]; show val v p ≠ -1; omega⟩
  all_goals simp [hst] at hh

end Ms.MSB
