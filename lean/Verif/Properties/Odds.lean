import Verif.SpecOdds
import Verif.Properties.Secret

/-!
# Property C100: the probability is the chance of losing

`cal_possibility_onboard` (base/src/algorithms.rs) sees only the board shown; the game machine knows the mines.
-/

namespace Ms.Properties
open Spec MSB

/-- what a click on a covered cell shows -/
private theorem left_shows {s : MSB} (hi : s.GInv) (hst : s.state = .ready ∨ s.state = .playing) (hm : s.mouse = .upUp) {p : Pos}
    (hp : p ∈ grid s.row s.column) (h10 : s.gb p = 10) :
    ∃ t, playOn s (leftOn p) = some t ∧ (t.state = .loss ↔ s.bd p = -1) ∧ (s.bd p ≠ -1 → t.gb p = s.bd p) ∧
      (s.bd p = -1 → t.gb p ≠ 0) := by
  have main : ∀ x : MSB, x.Core → x.board = s.board → x.gameBoard = s.gameBoard → x.row = s.row → x.column = s.column → x.state = .playing →
      (s.stepFlow (leftOn p) = match x.leftClick p with
      | none => none
      | some (t', none) => some (t', false)
      | some (t', some _) => some (t', true)) →
      ∃ t, playOn s (leftOn p) = some t ∧ (t.state = .loss ↔ s.bd p = -1) ∧ (s.bd p ≠ -1 → t.gb p = s.bd p) ∧
      (s.bd p = -1 → t.gb p ≠ 0) := by
    intro x hc e1 e2 e3 e4 e5 hf
    have hxp : p ∈ grid x.row x.column := by rw [e3, e4]; exact hp
    have hbd : x.bd p = s.bd p := by unfold MSB.bd; rw [e1]
    have hgb : x.gb p = 10 := by unfold MSB.gb at *; rw [e2]; exact h10
    have hsh : ∀ g', refreshBoard x.board x.gameBoard [p] = some g' → bval g' p = if x.bd p = -1 then 15 else x.bd p := by
      intro g' hg
      obtain ⟨g'', h1, -, h3⟩ := refresh_core hc (start := [p]) (by simpa using ⟨hxp, hgb⟩)
      rw [hg] at h1
      obtain rfl : g' = g'' := by simpa using h1
      have := h3 p hxp
      rw [if_pos (.click (by simp))] at this
      exact this
    obtain ⟨t, k, he, heff⟩ := leftClick_eff hc hxp
    rw [he] at hf
    cases heff with
    | none h => exact absurd hgb h
    | @mine g' _ hb hg =>
      rw [hbd] at hb
      refine ⟨_, playOn_flow hf, by simp [hb], fun h => absurd hb h, fun _ => ?_⟩
      have := hsh g' hg
      rw [hbd, if_pos hb] at this
      show bval g' p ≠ 0
      omega
    | @safe g' _ hb hg =>
      rw [hbd] at hb
      refine ⟨_, playOn_flow hf, ⟨fun h => ?_, fun h => absurd h hb⟩, fun _ => ?_, fun h => absurd h hb⟩
      · rcases checkWin_state { x with
            left := x.left + 1, gameBoard := g', ce := x.ce + 1,
            bbbvSolved := x.bbbvSolved + leftGain { x with left := x.left + 1 } p } with h' | h'
        · rw [h'] at h; cases h
        · rw [h', e5] at h; cases h
      · obtain ⟨-, f2, -⟩ := checkWin_frame { x with
            left := x.left + 1, gameBoard := g', ce := x.ce + 1,
            bbbvSolved := x.bbbvSolved + leftGain { x with left := x.left + 1 } p }
        unfold MSB.gb
        rw [f2]
        have := hsh g' hg
        rw [hbd, if_neg hb] at this
        exact this
  rcases hst with hst | hst
  · exact main { s with state := .playing } (hi.core.congr rfl rfl rfl rfl rfl rfl rfl (.inr (by rw [hst]; decide))) rfl rfl rfl rfl rfl
      (flow_first hst hm hp h10)
  · exact main s hi.core rfl rfl rfl rfl hst (flow_left hst hm hp)

section
variable {v : View} {ops : List (Ev × Pos)} {s : MSB} (hn : Numbered v) (hs : playOn (MSB.new v) ops = some s) (hl : s.state ≠ .loss)
include hn hs hl

theorem mem_alike {M : Finset Pos} : M ∈ alike v ops ↔ M ⊆ vcells v ∧ M.card = (mines v).card ∧ AgreesWith s.gameBoard M := by
  unfold alike
  rw [Finset.mem_filter, Finset.mem_powersetCard]
  constructor
  · rintro ⟨⟨h1, h2⟩, h3⟩
    have := C99_agrees v _ hn (dealt_of h1 h2) ops s hs hl h3
    rw [mines_withMines h1] at this
    exact ⟨h1, h2, this⟩
  · rintro ⟨h1, h2, h3⟩
    refine ⟨⟨h1, h2⟩, ?_⟩
    rw [C99_iff v _ hn (dealt_of h1 h2) ops s hs hl]
    intro p hp hlt
    obtain ⟨a1, a2⟩ := h3 p (of_grid hn hs hp) hlt
    rw [val_withMines, if_neg a1, a2]

/-- the mines of the board are among them -/
theorem mines_alike : mines v ∈ alike v ops := by
  rw [mem_alike hn hs hl]
  exact ⟨Finset.filter_subset _ _, rfl, C99_agrees v v hn ⟨rfl, rfl, rfl, hn⟩ ops s hs hl rfl⟩

private theorem cells_low {p : Pos} (hp : p ∈ grid s.gameBoard.row s.gameBoard.col) :
    shown s.gameBoard p = 10 ∨ shown s.gameBoard p = 11 ∨ (0 ≤ shown s.gameBoard p ∧ shown s.gameBoard p ≤ 8) := by
  have hi := (playOn_reach (.new hn) hs).inv
  obtain ⟨-, d2, d3⟩ := steps_dims (MSB.new_inv hn) hs
  have hps : p ∈ grid s.row s.column := by rw [d2, d3]; exact grid_of hn hs hp
  have h1 := hi.core.marks p hps
  have h2 := hi.core.bd_range hps
  have h3 : shown s.gameBoard p = s.gb p := rfl
  simp only [hl, false_and, or_false] at h1
  omega

/-- clicking on a board that looks the same -/
private theorem click_alike (hst : s.state = .ready ∨ s.state = .playing) (hm : s.mouse = .upUp) {M : Finset Pos} (hM : M ∈ alike v ops)
    {p : Pos} (hp : IsCovered s.gameBoard p) : ∃ t, playOn (MSB.new (withMines v.row v.col M)) (ops ++ leftOn p) = some t ∧
      (t.state = .loss ↔ p ∈ M) ∧ (shown t.gameBoard p = 0 ↔ p ∉ M ∧ adjCount M p = 0) := by
  obtain ⟨h1, h2, -⟩ := (mem_alike hn hs hl).mp hM
  have hd := dealt_of h1 h2
  have hw := (Finset.mem_filter.mp hM).2
  obtain ⟨u, u1, u2⟩ := watch_last (s := MSB.new v) (t := MSB.new (withMines v.row v.col M)) (by
    unfold sight
    rw [(new_same hd.row hd.col).gameBoard]; rfl) hs hw
  obtain ⟨d1, d2, d3⟩ := steps_dims (MSB.new_inv hd.numbered) u1
  have d1 : u.board = withMines v.row v.col M := d1
  have d2 : u.row = v.row := d2
  have d3 : u.column = v.col := d3
  have hg : u.gameBoard = s.gameBoard := congrArg Sight.board u2
  have hs' : u.state = s.state := congrArg Sight.state u2
  have hm' : u.mouse = s.mouse := congrArg Sight.mouse u2
  have hpv := grid_of hn hs hp.1
  obtain ⟨t, t1, t2, t3, t4⟩ := left_shows (playOn_reach (.new hd.numbered) u1).inv (by rw [hs']; exact hst) (by rw [hm']; exact hm)
    (p := p) (by rw [d2, d3]; exact hpv) (by unfold MSB.gb; rw [hg]; exact hp.2)
  have hb : u.bd p = if p ∈ M then -1 else (adjCount M p : Int) := by rw [MSB.bd_val, d1, val_withMines]
  have hsh : shown t.gameBoard p = t.gb p := rfl
  refine ⟨t, by rw [playOn_append, u1]; exact t1, t2.trans ?_, ?_⟩
  · rw [hb]
    split <;> rename_i h
    · simp [h]
    · simp only [h, iff_false]; omega
  · rw [hsh]
    rw [hb] at t3 t4
    by_cases h : p ∈ M
    · rw [if_pos h] at t4
      simp only [h, not_true_eq_false, false_and, iff_false]
      exact t4 rfl
    · rw [if_neg h] at t3
      rw [t3 (by omega)]
      simp [h]

end

section
variable {v : View} {ops : List (Ev × Pos)} {s : MSB} (hn : Numbered v) (hs : playOn (MSB.new v) ops = some s) (hl : s.state ≠ .loss)
  (hf : ∀ q ∈ vcells v, shown s.gameBoard q = 11 → ∀ M ∈ alike v ops, q ∈ M)
include hn hs hl hf

private theorem marked_sub {M : Finset Pos} (hM : M ∈ alike v ops) : markedSet s.gameBoard ⊆ M := by
  intro q hq
  exact hf q (grid_of hn hs (Finset.mem_filter.mp hq).1) (Finset.mem_filter.mp hq).2 M hM

/-- without the flagged cells, they are the possible sets of mines of the board shown -/
private theorem possible_of {M : Finset Pos} (hM : M ∈ alike v ops) :
    Possible s.gameBoard ((mines v).card - (markedSet s.gameBoard).card) (M \ markedSet s.gameBoard) := by
  obtain ⟨h1, h2, h3⟩ := (mem_alike hn hs hl).mp hM
  have hsub := marked_sub hn hs hl hf hM
  have hcov : ∀ q ∈ M, q ∈ grid s.gameBoard.row s.gameBoard.col ∧ (shown s.gameBoard q = 10 ∨ shown s.gameBoard q = 11) := by
    intro q hq
    have hqg := of_grid hn hs (h1 hq)
    refine ⟨hqg, ?_⟩
    have hc := cells_low hn hs hl hqg
    by_contra hno
    exact (h3 q hqg (by omega)).1 hq
  refine ⟨fun q hq => ?_, by rw [Finset.card_sdiff_of_subset hsub, h2], fun p hp => ?_⟩
  · obtain ⟨q1, q2⟩ := Finset.mem_sdiff.mp hq
    obtain ⟨q3, q4⟩ := hcov q q1
    refine ⟨q3, ?_⟩
    rcases q4 with q4 | q4
    · exact q4
    · exact absurd (Finset.mem_filter.mpr ⟨q3, q4⟩) q2
  · have hlt : shown s.gameBoard p < 10 := by
      have := hp.2
      unfold shown; omega
    obtain ⟨p1, p2⟩ := h3 p hp.1 hlt
    have : s.gameBoard.get p.1 p.2 = shown s.gameBoard p := rfl
    rw [this, p2]
    congr 1
    unfold minesNear adjCount
    congr 1
    ext q
    simp only [Finset.mem_filter, decide_eq_true_eq, Finset.mem_sdiff]
    unfold Adj
    constructor
    · rintro ⟨q1, q2, q3⟩
      refine ⟨(hcov q q1).1, q2, ?_⟩
      rcases (hcov q q1).2 with h | h
      · refine .inr ⟨h, q1, fun hh => ?_⟩
        have := (Finset.mem_filter.mp hh).2
        have h : s.gameBoard.get q.1 q.2 = 10 := h
        omega
      · exact .inl h
    · rintro ⟨q1, q2, q3⟩
      have hq : q ∈ M := by
        rcases q3 with q3 | q3
        · exact hf q (grid_of hn hs q1) q3 M hM
        · exact q3.2.1
      refine ⟨hq, q2, ?_⟩
      rintro rfl
      exact p1 hq

private theorem alike_of {A : Finset Pos}
    (hA : Possible s.gameBoard ((mines v).card - (markedSet s.gameBoard).card) A) :
    A ∪ markedSet s.gameBoard ∈ alike v ops ∧ Disjoint A (markedSet s.gameBoard) := by
  obtain ⟨a1, a2, a3⟩ := hA
  have hle : (markedSet s.gameBoard).card ≤ (mines v).card :=
    Finset.card_le_card (marked_sub hn hs hl hf (mines_alike hn hs hl))
  have e : ((coveredSet s.gameBoard).filter fun p => decide (p ∈ A) = true) = A := by
    ext q
    simp only [Finset.mem_filter, decide_eq_true_eq]
    exact ⟨And.right, fun h => ⟨mem_coveredSet.mpr (a1 q h), h⟩⟩
  have hdis : Disjoint A (markedSet s.gameBoard) := by
    rw [Finset.disjoint_left]
    intro q q1 q2
    have h1 := (a1 q q1).2
    have h2 := (Finset.mem_filter.mp q2).2
    omega
  obtain ⟨b1, b2⟩ := allows_agrees (n := (mines v).card) (σ := fun q => decide (q ∈ A)) (fun p hp => cells_low hn hs hl hp)
    ⟨a3, by rw [e, a2]; omega⟩
  rw [e] at b1 b2
  refine ⟨(mem_alike hn hs hl).mpr ⟨?_, b1, b2⟩, hdis⟩
  intro q hq
  refine grid_of hn hs ?_
  rcases Finset.mem_union.mp hq with hq | hq
  · exact (a1 q hq).1
  · exact (Finset.mem_filter.mp hq).1

private theorem count_alike (hr : ∀ q, IsNumber s.gameBoard q → InReach s.gameBoard q) (P : Finset Pos → Prop) (Q : Finset Pos → Prop)
    [DecidablePred P] [DecidablePred Q] (h : ∀ A, Disjoint A (markedSet s.gameBoard) → A ∪ markedSet s.gameBoard ∈ alike v ops →
      (P A ↔ Q (A ∪ markedSet s.gameBoard))) :
    ((layouts s.gameBoard ((mines v).card - (markedSet s.gameBoard).card)).filter P).card = ((alike v ops).filter Q).card := by
  have hmem : ∀ A, A ∈ layouts s.gameBoard ((mines v).card - (markedSet s.gameBoard).card) ↔
      Possible s.gameBoard ((mines v).card - (markedSet s.gameBoard).card) A := fun A =>
    layouts_explain (possible_of hn hs hl hf (mines_alike hn hs hl)).2.2 hr _ A
  refine Finset.card_nbij' (fun A => A ∪ markedSet s.gameBoard) (fun M => M \ markedSet s.gameBoard) ?_ ?_ ?_ ?_
  · intro A hA
    obtain ⟨h1, h2⟩ := Finset.mem_filter.mp (Finset.mem_coe.mp hA)
    obtain ⟨h3, h4⟩ := alike_of hn hs hl hf ((hmem A).mp h1)
    exact Finset.mem_coe.mpr (Finset.mem_filter.mpr ⟨h3, (h A h4 h3).mp h2⟩)
  · intro M hM
    obtain ⟨h1, h2⟩ := Finset.mem_filter.mp (Finset.mem_coe.mp hM)
    have e := Finset.sdiff_union_of_subset (marked_sub hn hs hl hf h1)
    refine Finset.mem_coe.mpr (Finset.mem_filter.mpr ⟨(hmem _).mpr (possible_of hn hs hl hf h1), (h _ Finset.sdiff_disjoint ?_).mpr ?_⟩)
    · rw [e]; exact h1
    · rw [e]; exact h2
  · intro A hA
    obtain ⟨h1, h2⟩ := Finset.mem_filter.mp (Finset.mem_coe.mp hA)
    obtain ⟨-, h4⟩ := alike_of hn hs hl hf ((hmem A).mp h1)
    exact Finset.union_sdiff_cancel_right h4
  · intro M hM
    obtain ⟨h1, h2⟩ := Finset.mem_filter.mp (Finset.mem_coe.mp hM)
    exact Finset.sdiff_union_of_subset (marked_sub hn hs hl hf h1)

end

/-- **C100** the probability is the chance of losing: at any moment of any game, before the first click or while it is running, with no
button down, flags only on cells that hold a mine with all sets of mines that look the same (in particular, without flags), and the
numbers within the limit of the enumeration, `cal_possibility_onboard`, given the board shown and the number of mines, answers
with a table for this number; for every covered cell the table has the number of sets of mines with which the whole game
looks the same and a click on the cell now loses, divided by the number of all sets with which it looks the same. -/
theorem C100_chance (v : View) (hn : Numbered v) (h1 : 1 ≤ (mines v).card) (ops : List (Ev × Pos)) (s : MSB)
    (hs : playOn (MSB.new v) ops = some s) (hst : s.state = .ready ∨ s.state = .playing) (hm : s.mouse = .upUp)
    (hf : ∀ q ∈ vcells v, shown s.gameBoard q = 11 → ∀ M ∈ alike v ops, q ∈ M)
    (hr : ∀ q, IsNumber s.gameBoard q → InReach s.gameBoard q) :
    ∃ P lo hi, calPossibilityOnboard s.gameBoard ((mines v).card : ℚ) = some (.ok (P, lo, (mines v).card, hi)) ∧
      ∀ p, IsCovered s.gameBoard p →
        cellProb P p = some (((losing v ops p).card : ℚ) / ((alike v ops).card : ℚ)) := by
  classical
  have hl : s.state ≠ .loss := by rcases hst with h | h <;> rw [h] <;> decide
  have hsub := marked_sub hn hs hl hf (mines_alike hn hs hl)
  have hle : (markedSet s.gameBoard).card ≤ (mines v).card := Finset.card_le_card hsub
  obtain ⟨q0, hq0⟩ := Finset.card_pos.mp h1
  have hg0 := of_grid hn hs (Finset.mem_filter.mp hq0).1
  have hne : s.gameBoard ≠ [] := by
    intro e
    rw [e] at hg0
    simp [grid, Board.row] at hg0
  have hlay : (layouts s.gameBoard ((mines v).card - (markedSet s.gameBoard).card)).Nonempty :=
    ⟨_, (layouts_explain (possible_of hn hs hl hf (mines_alike hn hs hl)).2.2 hr _ _).mpr
      (possible_of hn hs hl hf (mines_alike hn hs hl))⟩
  obtain ⟨P, lo, hi', -, -, a3, a4⟩ := onboard_fractions hne (fun p hp => by
      have := cells_low hn hs hl hp
      unfold shown at this
      omega) (n := ((mines v).card : ℚ))
    (m := (mines v).card - (markedSet s.gameBoard).card) (by exact_mod_cast h1)
    (by rw [Int.floor_natCast]; omega) hlay
  rw [Nat.sub_add_cancel hle] at a3
  refine ⟨P, _, _, a3, fun p hp => ?_⟩
  rw [a4 p hp.1]
  have hpm : p ∉ markedSet s.gameBoard := fun h => by
    have h1 := (Finset.mem_filter.mp h).2
    have h2 := hp.2
    omega
  have e1 : (withMine s.gameBoard ((mines v).card - (markedSet s.gameBoard).card) p).card = (losing v ops p).card := by
    unfold withMine losing
    refine count_alike hn hs hl hf hr _ _ fun A _ hA => ?_
    obtain ⟨t, t1, t2, -⟩ := click_alike hn hs hl hst hm hA hp
    rw [t1]
    simp only [Option.map_some, Option.some.injEq, t2, Finset.mem_union, hpm, or_false, hp.2]
    simp
  have e2 : (layouts s.gameBoard ((mines v).card - (markedSet s.gameBoard).card)).card = (alike v ops).card := by
    have := count_alike hn hs hl hf hr (fun _ => True) (fun _ => True) (fun _ _ _ => Iff.rfl)
    simpa using this
  rw [e1, e2]

/-- **C100** the chance of an opening: at the same moments `cal_is_op_possibility_cells` gives for every covered cell the number of sets of mines
with which the whole game looks the same and a click on the cell now opens an area (it shows 0), divided by the number of
all sets with which it looks the same; in place of 0 it may answer NaN (C32). -/
theorem C100_opening (v : View) (hn : Numbered v) (h1 : 1 ≤ (mines v).card) (ops : List (Ev × Pos)) (s : MSB)
    (hs : playOn (MSB.new v) ops = some s) (hst : s.state = .ready ∨ s.state = .playing) (hm : s.mouse = .upUp)
    (hf : ∀ q ∈ vcells v, shown s.gameBoard q = 11 → ∀ M ∈ alike v ops, q ∈ M)
    (hr : ∀ q, IsNumber s.gameBoard q → InReach s.gameBoard q) (cs : List Pos) (hcs : ∀ p ∈ cs, IsCovered s.gameBoard p) :
    ∃ out, calIsOpPossibility s.gameBoard ((mines v).card : ℚ) cs = some out ∧
      List.Forall₂ (fun p x => x = some (((opening v ops p).card : ℚ) / ((alike v ops).card : ℚ)) ∨
        ((opening v ops p).card = 0 ∧ x = none)) cs out := by
  classical
  have hl : s.state ≠ .loss := by rcases hst with h | h <;> rw [h] <;> decide
  have hsub := marked_sub hn hs hl hf (mines_alike hn hs hl)
  have hle : (markedSet s.gameBoard).card ≤ (mines v).card := Finset.card_le_card hsub
  obtain ⟨q0, hq0⟩ := Finset.card_pos.mp h1
  have hg0 := of_grid hn hs (Finset.mem_filter.mp hq0).1
  have hne : s.gameBoard ≠ [] := by
    intro e
    rw [e] at hg0
    simp [grid, Board.row] at hg0
  have hlay : (layouts s.gameBoard ((mines v).card - (markedSet s.gameBoard).card)).Nonempty :=
    ⟨_, (layouts_explain (possible_of hn hs hl hf (mines_alike hn hs hl)).2.2 hr _ _).mpr
      (possible_of hn hs hl hf (mines_alike hn hs hl))⟩
  have hpos : ((alike v ops).card : ℚ) ≠ 0 := by
    have := Finset.card_pos.mpr ⟨_, mines_alike hn hs hl⟩
    exact_mod_cast this.ne'
  obtain ⟨out, o1, o2⟩ := cal_is_op_possibility_exact s.gameBoard (playOn_reach (.new hn) hs).inv.core.rect hne (fun p hp => by
      have := cells_low hn hs hl hp
      unfold shown at this
      omega) hr ((mines v).card : ℚ) (by exact_mod_cast h1)
    ((mines v).card - (markedSet s.gameBoard).card) (by rw [Int.floor_natCast]; omega) hlay cs (fun c hc => (hcs c hc).1)
  refine ⟨out, o1, ?_⟩
  have key : ∀ p, IsCovered s.gameBoard p → openChance s.gameBoard ((mines v).card - (markedSet s.gameBoard).card) p =
      ((opening v ops p).card : ℚ) / ((alike v ops).card : ℚ) := by
    intro p hp
    unfold openChance
    have hop : ∀ M ∈ alike v ops, (M ∈ opening v ops p ↔ ∀ q ∈ M, ¬ Near p q) := by
      intro M hM
      obtain ⟨t, t1, -, t3⟩ := click_alike hn hs hl hst hm hM hp
      unfold opening
      rw [Finset.mem_filter, t1]
      simp only [Option.map_some, Option.some.injEq, t3, hM, true_and]
      unfold adjCount
      rw [Finset.card_eq_zero, Finset.filter_eq_empty_iff]
      unfold Adj
      constructor
      · rintro ⟨h1, h2⟩ q hq hnear
        exact h2 hq ⟨hnear, fun e => h1 (e ▸ hq)⟩
      · intro h
        exact ⟨fun hp' => h p hp' ⟨by omega, by omega, by omega, by omega⟩, fun q hq hq' => h q hq hq'.1⟩
    have e2 : (layouts s.gameBoard ((mines v).card - (markedSet s.gameBoard).card)).card = (alike v ops).card := by
      have := count_alike hn hs hl hf hr (fun _ => True) (fun _ => True) (fun _ _ _ => Iff.rfl)
      simpa using this
    split
    · rename_i hc
      have : opening v ops p = ∅ := by
        rw [Finset.eq_empty_iff_forall_notMem]
        intro M hM
        have hMa := (Finset.mem_filter.mp hM).1
        rcases hc with hc | ⟨q, hq, q1, q2⟩
        · have := hp.2; omega
        · exact (hop M hMa).mp hM q (hf q (grid_of hn hs hq) q2 M hMa) q1
      rw [this]
      simp
    · rename_i hc
      push Not at hc
      have e1 : ((layouts s.gameBoard ((mines v).card - (markedSet s.gameBoard).card)).filter fun A => ∀ q ∈ A, ¬ Near p q).card =
          (opening v ops p).card := by
        have := count_alike hn hs hl hf hr (fun A => ∀ q ∈ A, ¬ Near p q) (fun M => M ∈ opening v ops p) (fun A _ hA => by
          rw [hop _ hA]
          constructor
          · intro h q hq
            rcases Finset.mem_union.mp hq with hq | hq
            · exact h q hq
            · obtain ⟨q1, q2⟩ := Finset.mem_filter.mp hq
              exact fun hne => hc.2 q q1 hne q2
          · exact fun h q hq => h q (Finset.mem_union_left _ hq))
        rw [this]
        congr 1
        ext M
        rw [Finset.mem_filter]
        exact ⟨And.right, fun h => ⟨(Finset.mem_filter.mp h).1, h⟩⟩
      rw [← e2, ← e1]
  have hall : ∀ {cs : List Pos} {out : List (Option ℚ)}, (∀ p ∈ cs, IsCovered s.gameBoard p) →
      List.Forall₂ (fun c x => x = some (openChance s.gameBoard ((mines v).card - (markedSet s.gameBoard).card) c) ∨
        (openChance s.gameBoard ((mines v).card - (markedSet s.gameBoard).card) c = 0 ∧ x = none)) cs out →
      List.Forall₂ (fun p x => x = some (((opening v ops p).card : ℚ) / ((alike v ops).card : ℚ)) ∨
        ((opening v ops p).card = 0 ∧ x = none)) cs out := by
    intro cs out hc h
    induction h with
    | nil => exact .nil
    | @cons c x cs out h _ ih =>
      refine .cons ?_ (ih fun p hp => hc p (List.mem_cons_of_mem _ hp))
      rw [key c (hc c List.mem_cons_self)] at h
      rcases h with h | ⟨h, h'⟩
      · exact .inl h
      · refine .inr ⟨?_, h'⟩
        rw [div_eq_zero_iff] at h
        rcases h with h | h
        · exact_mod_cast h
        · exact absurd h hpos
  exact hall hcs o2


/-- **C100** the counting player's flags (C98) are of this kind: at every moment of their games, whatever events led there, the
probabilities are the chances of losing. -/
theorem C100_counting (hrect : Rect b r c) (hnum : Numbered b.view) (hs : s ∈ grid r c) (hsafe : b.get s.1 s.2 ≠ -1)
    (hm : 1 ≤ (mines b.view).card) (t u : MSB) (h1 : (MSB.new b.view).stepFlow (leftOn s) = some (t, true))
    (h2 : CountingGame (mines b.view).card t u) (hst : u.state = .playing)
    (hr : ∀ q, IsNumber u.gameBoard q → InReach u.gameBoard q) :
    (∃ ops, playOn (MSB.new b.view) ops = some u) ∧ ∀ ops, playOn (MSB.new b.view) ops = some u →
      ∃ P lo hi, calPossibilityOnboard u.gameBoard ((mines b.view).card : ℚ) = some (.ok (P, lo, (mines b.view).card, hi)) ∧
        ∀ p, IsCovered u.gameBoard p →
          cellProb P p = some (((losing b.view ops p).card : ℚ) / ((alike b.view ops).card : ℚ)) := by
  have hb : BoardOK r c b := by
    have := mem_grid.mp hs
    exact ⟨hrect, by omega, by omega, hnum⟩
  have hcard : ((grid r c).filter fun p => layout b p = true).card = (mines b.view).card := by
    unfold mines
    rw [hb.vcells]
    congr 1
    apply Finset.filter_congr
    intro q _
    rw [layout_iff]
    rfl
  obtain ⟨t', e1, e2⟩ := count_first (n := (mines b.view).card) hb (layout_false.mpr hsafe) hs
  rw [h1] at e1
  obtain rfl : t = t' := by simpa using e1
  obtain ⟨hi, -⟩ := e2.game hb hcard h2
  have hup : u.mouse = .upUp := by
    rcases hi.st with h | h
    · exact h.2
    · rw [hst] at h; cases h
  have hl : u.state ≠ .loss := by rw [hst]; decide
  constructor
  · obtain ⟨ops, o1⟩ := events_of h2
    exact ⟨leftOn s ++ ops, by rw [playOn_append, playOn_flow h1]; exact o1⟩
  intro ops ho
  refine C100_chance b.view hnum hm ops u ho (.inr hst) hup (fun q hq h11 M hM => ?_) hr
  obtain ⟨m1, m2, m3⟩ := (mem_alike hnum ho hl).mp hM
  rw [hb.vcells] at hq m1
  have hnear : ∀ (N : Finset Pos), N ⊆ grid r c → ∀ p, p ∉ N → layoutNear r c (fun q => decide (q ∈ N)) p = adjCount N p := by
    intro N hN p hp
    unfold layoutNear adjCount
    congr 1
    ext x
    simp only [Finset.mem_filter, decide_eq_true_eq]
    unfold Adj
    exact ⟨fun h => ⟨h.2.2, h.2.1, fun e => hp (e ▸ h.2.2)⟩, fun h => ⟨hN h.1, h.2.1, h.1⟩⟩
  have := hi.know.flags q hq h11 (fun x => decide (x ∈ M)) ⟨fun p hp => ?_, ?_⟩
  · simpa using this
  · obtain ⟨o1, o2⟩ := hi.know.opened p hp
    have hpg := (mem_shownSet.mp hp).1
    have hrange := hb.range hpg o2
    have hlt : shown u.gameBoard p < 10 := by
      show bval u.gameBoard p < 10
      omega
    obtain ⟨n1, n2⟩ := m3 p (of_grid hnum ho (by rw [hb.vcells]; exact hpg)) hlt
    have hpm : p ∉ mines b.view := fun hh => layout_false.mp o2 (Finset.mem_filter.mp hh).2
    have hsub : mines b.view ⊆ grid r c := by
      intro x hx
      rw [← hb.vcells]
      exact (Finset.mem_filter.mp hx).1
    have n3 := hnum p (by rw [hb.vcells]; exact hpg) (layout_false.mp o2)
    refine ⟨by simpa using n1, ?_⟩
    have n4 : layoutNear r c (layout b) p = layoutNear r c (fun q => decide (q ∈ mines b.view)) p := by
      unfold layoutNear
      congr 1
      apply Finset.filter_congr
      intro x hx
      rw [layout_iff]
      simp only [decide_eq_true_eq]
      unfold mines
      rw [Finset.mem_filter, hb.vcells]
      have : val b.view x = bval b x := rfl
      rw [this]
      tauto
    rw [n4, hnear _ hsub p hpm, hnear M m1 p n1]
    have n5 : shown u.gameBoard p = bval b p := o1
    have n6 : val b.view p = bval b p := rfl
    omega
  · rw [← m2]
    congr 1
    ext x
    simp only [Finset.mem_filter, decide_eq_true_eq]
    exact ⟨And.right, fun h => ⟨m1 h, h⟩⟩

/-! ### examples -/

/-- In the example of C99 two boards look the same and a click on the left cell loses on one of them; the table says 1/2. -/
theorem exSecret_chance : (alike exSecret (leftOn (0, 1))).card = 2 ∧ (losing exSecret (leftOn (0, 1)) (0, 0)).card = 1 ∧
    calPossibilityOnboard [[10, 1, 10]] 1 = some (.ok ([[some (1/2), some 0, some (1/2)]], 1, 1, 1)) := by decide +kernel

/-- The hypotheses of `C100_chance` and `C100_opening` are met there. -/
example : ∃ s P lo hi, playOn (MSB.new exSecret) (leftOn (0, 1)) = some s ∧
    calPossibilityOnboard s.gameBoard 1 = some (.ok (P, lo, 1, hi)) ∧ cellProb P (0, 0) = some (1 / 2) ∧
    ∃ out, calIsOpPossibility s.gameBoard 1 [(0, 0)] = some out ∧ out.length = 1 := by
  obtain ⟨s, h1, h2, h3, h4⟩ := exSecret_seen
  have hn : Numbered exSecret := numbered_withMines (by decide)
  have hm : (mines exSecret).card = 1 := by decide
  have hf : ∀ q ∈ vcells exSecret, shown s.gameBoard q = 11 → ∀ M ∈ alike exSecret (leftOn (0, 1)), q ∈ M := by
    intro q hq h11
    rw [h4] at h11
    revert h11
    revert q
    decide
  have hr : ∀ q, IsNumber s.gameBoard q → InReach s.gameBoard q := fun q _ => by
    rw [h4]
    exact inReach_small _ (by decide) q
  have hc : IsCovered s.gameBoard (0, 0) := by rw [h4]; exact ⟨by decide, by decide⟩
  obtain ⟨P, lo, hi, a1, a2⟩ := C100_chance exSecret hn (by rw [hm]) _ s h1 (.inr h2) h3 hf hr
  obtain ⟨out, o1, o2⟩ := C100_opening exSecret hn (by rw [hm]) _ s h1 (.inr h2) h3 hf hr [(0, 0)] (by simpa using hc)
  rw [hm, Nat.cast_one] at a1 o1
  refine ⟨s, P, lo, hi, h1, a1, ?_, out, o1, o2.length_eq.symm⟩
  rw [a2 _ hc, exSecret_chance.1, exSecret_chance.2.1]
  norm_num

/-- The hypothesis on the flags is needed: after a wrong flag the table says a cell is free on which the game is lost. -/
theorem C100_wrong_flag : ∃ s, playOn (MSB.new exSecret) (leftOn (0, 1) ++ rightOn (0, 2)) = some s ∧ s.gameBoard = [[10, 1, 11]] ∧
    calPossibilityOnboard s.gameBoard 1 = some (.ok ([[some 0, some 0, some 1]], 1, 1, 1)) ∧
    {(0, 0)} ∈ losing exSecret (leftOn (0, 1) ++ rightOn (0, 2)) (0, 0) ∧ mines exSecret = {(0, 0)} :=
  ⟨_, rfl, by decide +kernel, by decide +kernel, by decide +kernel, by decide +kernel⟩

end Ms.Properties
