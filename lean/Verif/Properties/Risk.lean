import Verif.SpecRisk
import Verif.Properties.Odds
import Verif.Properties.Several

/-!
# Property C102: what the analyses call a risk is the chance of losing
-/

namespace Ms.Properties
open Spec MSB

variable {dist : Pos → Pos → ℚ} {v : View} {pix : Nat} {evs : List RawEv} {A : Replay}

theorem moves_snoc (e : RawEv) : moves pix (evs ++ [e]) = moves pix evs ++ [(e.ev, (e.y / pix, e.x / pix))] := by
  simp [moves]

theorem play_moves {m : MSB} : play pix v evs = some m → playOn (MSB.new v) (moves pix evs) = some m := by
  induction evs using List.reverseRecOn generalizing m with
  | nil =>
    intro h
    simpa [play, moves, playOn] using h
  | append_singleton evs e ih =>
    intro h
    unfold play at h ih
    rw [List.foldlM_append] at h
    obtain ⟨m0, h0, h1⟩ := Option.bind_eq_some_iff.mp h
    rw [moves_snoc, playOn_append, ih h0]
    simp only [List.foldlM_cons, List.foldlM_nil, Option.bind_eq_bind, Option.pure_def, Option.bind_some] at h1
    simp only [Option.bind_some, playOn]
    split at h1
    · rename_i m1 k e1
      rw [e1]
      simpa using h1
    · cases h1

/-- what the records say happened -/
theorem analyse_steps (hv : Numbered v) : ∀ {evs : List RawEv} {A : Replay}, analyse dist v v.row v.col pix evs = some A →
    ∀ (i : Nat) (r : Rec), A.recs[i]? = some r → ∃ m0 m1, play pix v (evs.take i) = some m0 ∧
      m0.step r.ev (r.cell pix) = some (m1, some r.useful) := by
  intro evs
  induction evs using List.reverseRecOn with
  | nil =>
    intro A hA i r hr
    simp only [analyse, List.foldlM_nil, Option.pure_def, Option.some.injEq] at hA
    subst hA
    simp at hr
  | append_singleton evs e ih =>
    intro A' hA i r hr
    rw [analyse_snoc, Option.bind_eq_some_iff] at hA
    obtain ⟨A, hA, hn⟩ := hA
    have I := analyse_inv hv hA
    have hlen : evs.length = A.recs.length := by rw [← I.raw]; simp
    obtain ⟨m, a, path, n1, n2, n3, -, n5⟩ := next_eff hn
    rw [n5, List.getElem?_append] at hr
    split at hr
    · rename_i hi
      obtain ⟨m0, m1, h0, h1⟩ := ih hA i r hr
      exact ⟨m0, m1, by rw [List.take_append_of_le_length (by omega)]; exact h0, h1⟩
    · rw [List.getElem?_singleton] at hr
      split at hr
      · simp only [Option.some.injEq] at hr
        subst hr
        have hi : i = evs.length := by omega
        exact ⟨A.msb, m, by rw [hi, List.take_left]; exact I.plays, n1⟩
      · cases hr

/-- only the release of the left button over a covered cell is answered with 2 -/
theorem two_left {s t : MSB} {e : Ev} {p : Pos} (hi : s.GInv) (hs : s.step e p = some (t, some 2)) :
    s.mouse = .downUp ∧ (s.state = .playing ∨ (s.state = .preFlaging ∧ s.gb p = 10)) ∧ s.bd p ≠ -1 := by
  have heff := MSB.step_eff hs
  generalize hra : some 2 = ra at heff
  cases heff with
  | idle m mh r hr _ => subst hra; rcases hr with hr | hr <;> cases hr
  | start => cases hra
  | back => cases hra
  | backClear => cases hra
  | unflagLast => cases hra
  | miss => cases hra
  | preFlag m j _ _ h _ hp _ _ hc =>
    obtain ⟨-, -, heff⟩ := right_eff hi (by rcases h with h | h <;> rw [h] <;> decide) (by decide) hc
    generalize hrb : ra = rb at heff
    subst hra
    cases heff <;> cases hrb
  | preUnflag m j _ _ h _ hp _ _ _ hc =>
    obtain ⟨-, -, heff⟩ := right_eff (st := s.state) hi (by rw [h]; decide) (by rw [h]; decide) hc
    subst hra
    generalize hrb : some 2 = rb at heff
    cases heff <;> cases hrb
  | right m _ _ h _ hp hc =>
    obtain ⟨-, -, heff⟩ := right_eff (st := s.state) (k := s.preFlagNum) hi (by rw [h]; decide) (by rw [h]; decide) hc
    subst hra
    generalize hrb : some 2 = rb at heff
    cases heff <;> cases hrb
  | left m _ _ h _ hm' hc =>
    obtain ⟨-, -, heff⟩ := left_eff hi h hc
    subst hra
    generalize hrb : some 2 = rb at heff
    cases heff with
    | none _ => cases hrb
    | mine _ _ _ => cases hrb
    | safe _ hb _ => exact ⟨hm', h, hb⟩
  | chord m mh dec _ _ _ _ _ hc =>
    obtain ⟨-, -, heff⟩ := chord_eff hi hc
    subst hra
    generalize hrb : some 2 = rb at heff
    cases heff <;> cases hrb

/-- the release over a covered cell loses iff there is a mine -/
private theorem release_loses {u : MSB} {p : Pos} (hi : u.GInv) (hm : u.mouse = .downUp) (hst : u.state = .playing ∨ u.state = .preFlaging)
    (hp : p ∈ grid u.row u.column) (h10 : u.gb p = 10) :
    ∃ t k, u.step .lr p = some (t, k) ∧ (t.state = .loss ↔ u.bd p = -1) := by
  have hc : Core { u with mouse := .upUp, state := .playing } :=
    hi.core.congr rfl rfl rfl rfl rfl rfl rfl (.inr (by rcases hst with h | h <;> rw [h] <;> decide))
  have ho : ∀ m st, MSB.atOutside { u with mouse := m, state := st } p = false := by
    intro m st
    have := mem_grid.mp hp
    simp only [atOutside, Bool.and_eq_false_iff, decide_eq_false_iff_not]
    left; omega
  have ho' : MSB.atOutside u p = false := by
    have := mem_grid.mp hp
    simp only [atOutside, Bool.and_eq_false_iff, decide_eq_false_iff_not]
    left; omega
  have hin : MSB.inRange u p = true := inRange_iff.mpr hp
  have hstep : u.step .lr p = ({ u with mouse := .upUp, state := .playing } : MSB).leftClick p := by
    rcases hst with hst | hst
    · simp only [step, hst, stepPlaying, hm, releaseLeft]
      rw [if_neg (by rw [ho]; decide)]
    · simp only [step, hst, stepPreFlaging, hm, ho', hin, h10, Bool.false_eq_true, if_false, if_true, stepPlaying, releaseLeft]
      rw [if_neg (by rw [ho]; decide)]
  obtain ⟨t, k, he, heff⟩ := leftClick_eff hc hp
  rw [hstep]
  refine ⟨t, k, he, ?_⟩
  have hbd : MSB.bd { u with mouse := .upUp, state := .playing } p = u.bd p := rfl
  cases heff with
  | none h => exact absurd h10 h
  | @mine g' _ hb _ => exact ⟨fun _ => hb, fun _ => rfl⟩
  | @safe g' _ hb hg =>
    refine ⟨fun h => ?_, fun h => absurd h hb⟩
    rcases checkWin_state { ({ u with mouse := .upUp, state := .playing } : MSB) with
        left := u.left + 1, gameBoard := g', ce := u.ce + 1,
        bbbvSolved := u.bbbvSolved + leftGain { ({ u with mouse := .upUp, state := .playing } : MSB) with left := u.left + 1 } p } with h' | h'
    · rw [h'] at h; cases h
    · rw [h'] at h; cases h

/-- the layouts the analyses count are the sets of mines with which the game looks the same -/
private theorem layouts_alike (hn : Numbered v) {ops : List (Ev × Pos)} {s : MSB} (hs : playOn (MSB.new v) ops = some s)
    (hl : s.state ≠ .loss) (hrow : 0 < v.row) {g : Board} (ha : Askable v g) (hsame : SameNumbers g s.gameBoard v.row v.col)
    (hre : ∀ p, IsNumber (unmark g) p → InReach (unmark g) p) : layouts (unmark g) (mines v).card = alike v ops := by
  obtain ⟨u1, u2⟩ := unmark_spec g v.row v.col ha.rect
  have hd := rect_dims u1 hrow
  have hdg := rect_dims ha.rect hrow
  have hu : ∀ p ∈ vcells v, (unmark g).get p.1 p.2 = if g.get p.1 p.2 > 10 then 10 else g.get p.1 p.2 := fun p hp =>
    u2 p (mem_grid.mp hp).1 (mem_grid.mp hp).2
  have hcells : ∀ {p}, p ∈ grid (unmark g).row (unmark g).col ↔ p ∈ vcells v := by
    intro p; rw [hd.1, hd.2]; rfl
  have hpos : ∀ p ∈ vcells v, 0 ≤ g.get p.1 p.2 := fun p hp => ha.shown p (by rw [hdg.1, hdg.2]; exact hp)
  have hnear : ∀ (M : Finset Pos), (∀ q ∈ M, IsCovered (unmark g) q) → ∀ p, p ∉ M →
      minesNear (unmark g) (fun q => decide (q ∈ M)) p = adjCount M p := by
    intro M hM p hp
    unfold minesNear adjCount
    congr 1
    ext q
    simp only [Finset.mem_filter, decide_eq_true_eq]
    unfold Adj
    constructor
    · rintro ⟨q1, q2, q3⟩
      have hq : q ∈ M := by
        rcases q3 with q3 | q3
        · rw [hu q (hcells.mp q1)] at q3
          split at q3 <;> omega
        · exact q3.2
      refine ⟨hq, q2, ?_⟩
      rintro rfl
      exact hp hq
    · rintro ⟨q1, q2, q3⟩
      exact ⟨(hM q q1).1, q2, .inr ⟨(hM q q1).2, q1⟩⟩
  ext M
  rw [layouts_mem hre ha.cons, mem_alike hn hs hl]
  constructor
  · rintro ⟨h1, h2, h3⟩
    refine ⟨fun q hq => hcells.mp (h1 q hq).1, h2, fun p hp hlt => ?_⟩
    have hpv := grid_of hn hs hp
    have e1 : g.get p.1 p.2 = shown s.gameBoard p := hsame p hpv (.inr hlt)
    have e2 := hu p hpv
    have e3 := hpos p hpv
    rw [if_neg (by omega)] at e2
    have hpM : p ∉ M := fun h => by
      have := (h1 p h).2
      omega
    have := h3 p ⟨hcells.mpr hpv, by omega, by omega⟩
    rw [hnear M h1 p hpM, e2, e1] at this
    exact ⟨hpM, this⟩
  · rintro ⟨h1, h2, h3⟩
    have hcov : ∀ q ∈ M, IsCovered (unmark g) q := by
      intro q hq
      refine ⟨hcells.mpr (h1 hq), ?_⟩
      rw [hu q (h1 hq)]
      by_contra hno
      have hlt : g.get q.1 q.2 < 10 := by
        split at hno <;> omega
      have e1 : g.get q.1 q.2 = shown s.gameBoard q := hsame q (h1 hq) (.inl hlt)
      exact (h3 q (of_grid hn hs (h1 hq)) (by omega)).1 hq
    refine ⟨hcov, h2, fun p hp => ?_⟩
    have hpv := hcells.mp hp.1
    have e2 := hu p hpv
    have hlt : g.get p.1 p.2 < 10 := by
      have := hp.2
      rw [e2] at this
      split at this <;> omega
    rw [if_neg (by omega)] at e2
    have e1 : g.get p.1 p.2 = shown s.gameBoard p := hsame p hpv (.inl hlt)
    obtain ⟨a1, a2⟩ := h3 p (of_grid hn hs hpv) (by omega)
    rw [hnear M hcov p a1, e2, e1, a2]

/-- what is needed of an opening -/
private theorem opening_facts (h : GoodVideo dist v pix evs A) {i : Nat} {r : Rec} (hr : A.recs[i]? = some r) (hu : r.useful = 2)
    (he : r.ev = .lr) :
    ∃ g, A.stream.getD r.prior [] = g ∧ 10 ≤ g.get (r.cell pix).1 (r.cell pix).2 ∧
      layouts (unmark g) (mines v).card = alike v (moves pix (evs.take i)) ∧
      mines v ∈ alike v (moves pix (evs.take i)) ∧ r.cell pix ∉ mines v ∧
      ∀ M ∈ alike v (moves pix (evs.take i)), (M ∈ losingBy v (moves pix (evs.take i)) (r.ev, r.cell pix) ↔ r.cell pix ∈ M) := by
  have hn := h.numbers
  obtain ⟨g, m0, q1, q2, q3, q4, -, q5, -⟩ := C56_position h hr (by omega)
  obtain ⟨m0', m1, s1, s2⟩ := analyse_steps hn h.analysed i r hr
  rw [q2] at s1
  obtain rfl : m0 = m0' := by simpa using s1
  rw [hu] at s2
  have hs := play_moves q2
  have hi := (playOn_reach (.new hn) hs).inv
  obtain ⟨hm, hst, hbd⟩ := two_left hi s2
  have hl : m0.state ≠ .loss := by rcases hst with h | ⟨h, -⟩ <;> rw [h] <;> decide
  have hst' : m0.state = .playing ∨ m0.state = .preFlaging := hst.imp id And.left
  obtain ⟨-, c2, -⟩ := step_level_cell hi s2
  have h10 := c2 rfl
  obtain ⟨g', hm', ha, hg', hre⟩ := feat_met h hr (by omega)
  have hgg : A.stream.getD r.prior [] = g := by rw [List.getD_eq_getElem?_getD, q1]; rfl
  rw [hgg] at hg'
  subst hg'
  refine ⟨g, hgg, q5 hu, layouts_alike hn hs hl h.row ha q3 hre, mines_alike hn hs hl, fun hin => ?_, fun M hM => ?_⟩
  · obtain ⟨e1, -⟩ := steps_dims (MSB.new_inv hn) hs
    have e1 : m0.board = v := e1
    exact hbd (by rw [MSB.bd_val, e1]; exact (Finset.mem_filter.mp hin).2)
  obtain ⟨k1, k2, -⟩ := (mem_alike hn hs hl).mp hM
  have hd : Dealt v (withMines v.row v.col M) :=
    ⟨rfl, rfl, by rw [mines_withMines k1]; exact k2, numbered_withMines k1⟩
  have hw := (Finset.mem_filter.mp hM).2
  obtain ⟨u, u1, u2⟩ := watch_last (s := MSB.new v) (t := MSB.new (withMines v.row v.col M)) (by
    unfold sight
    rw [(new_same hd.row hd.col).gameBoard]; rfl) hs hw
  obtain ⟨d1, d2, d3⟩ := steps_dims (MSB.new_inv hd.numbered) u1
  have d1 : u.board = withMines v.row v.col M := d1
  have d2 : u.row = v.row := d2
  have d3 : u.column = v.col := d3
  have hg : u.gameBoard = m0.gameBoard := congrArg Sight.board u2
  have hs' : u.state = m0.state := congrArg Sight.state u2
  have hms : u.mouse = m0.mouse := congrArg Sight.mouse u2
  obtain ⟨t, k, t1, t2⟩ := release_loses (playOn_reach (.new hd.numbered) u1).inv (hms.trans hm) (by rw [hs']; exact hst')
    (p := r.cell pix) (by rw [d2, d3]; exact q4) (by unfold MSB.gb; rw [hg]; exact h10)
  have hb : u.bd (r.cell pix) = if r.cell pix ∈ M then -1 else (adjCount M (r.cell pix) : Int) := by rw [MSB.bd_val, d1, val_withMines]
  unfold losingBy
  rw [Finset.mem_filter, playOn_append, u1, he]
  simp only [Option.bind_some, playOn, t1, Option.map_some, Option.some.injEq, hM, true_and]
  rw [t2, hb]
  split <;> rename_i hin
  · simp [hin]
  · simp only [hin, iff_false]; omega

/-- **C102** the risk of an opening is the chance of losing: for an event of an analysed video that opened cells by the release of the left
button, the risk that the analyses reckon with is the number of sets of mines with which everything up to then would have looked
the same and the event would have lost the game, divided by the number of all sets with which everything would have looked the same. -/
theorem C102_risk (h : GoodVideo dist v pix evs A) {i : Nat} {r : Rec} (hr : A.recs[i]? = some r) (hu : r.useful = 2) (he : r.ev = .lr) :
    A.risk (mines v).card pix r = ((losingBy v (moves pix (evs.take i)) (r.ev, r.cell pix)).card : ℚ) /
      ((alike v (moves pix (evs.take i))).card : ℚ) := by
  classical
  obtain ⟨g, hgg, h10, hlay, -, -, hM⟩ := opening_facts h hr hu he
  unfold Replay.risk mineShare
  rw [hgg, if_neg (not_lt.mpr h10), hlay]
  congr 2
  apply congrArg Finset.card
  ext M
  rw [Finset.mem_filter]
  constructor
  · rintro ⟨h1, h2⟩
    exact (hM M h1).mpr h2
  · intro h1
    have h2 := (Finset.mem_filter.mp h1).1
    exact ⟨h2, (hM M h2).mp h1⟩

/-- **C102** in particular it is never 1: the board played is one of the sets counted, and the event did not lose there. -/
theorem C102_below_one (h : GoodVideo dist v pix evs A) {i : Nat} {r : Rec} (hr : A.recs[i]? = some r) (hu : r.useful = 2)
    (he : r.ev = .lr) : mines v ∈ alike v (moves pix (evs.take i)) ∧ 0 ≤ A.risk (mines v).card pix r ∧ A.risk (mines v).card pix r < 1 ∧
      (A.risk (mines v).card pix r = 0 ↔ losingBy v (moves pix (evs.take i)) (r.ev, r.cell pix) = ∅) := by
  obtain ⟨g, hgg, h10, hlay, hmem, hno, hM⟩ := opening_facts h hr hu he
  have hpos : 0 < (alike v (moves pix (evs.take i))).card := Finset.card_pos.mpr ⟨_, hmem⟩
  have hsub : losingBy v (moves pix (evs.take i)) (r.ev, r.cell pix) ⊆ alike v (moves pix (evs.take i)) := Finset.filter_subset _ _
  have hlt := Finset.card_lt_card ((Finset.ssubset_iff_of_subset hsub).mpr ⟨_, hmem, fun h => hno ((hM _ hmem).mp h)⟩)
  rw [C102_risk h hr hu he]
  have hq : (0 : ℚ) < ((alike v (moves pix (evs.take i))).card : ℚ) := by exact_mod_cast hpos
  refine ⟨hmem, by positivity, ?_, ?_⟩
  · rw [div_lt_one hq]; exact_mod_cast hlt
  · rw [div_eq_zero_iff]
    simp [hq.ne', Finset.card_eq_zero]

open Classical in
/-- **C102** `needless_guess` comments, from the third event on, exactly the openings by the left button that would have lost the game with
some set of mines with which everything would have looked the same up to then. -/
theorem C102_needless (h : GoodVideo dist v pix evs A) {F : Feat} (hF : Annotated dist A (mines v).card pix F) :
    ∃ F', F.run dist .needlessGuess = some F' ∧ ∀ (i : Nat) r cs, A.recs[i]? = some r → F.comments[i]? = some cs →
      F'.comments[i]? = some (cs ++ if 2 ≤ i ∧ r.useful = 2 ∧ r.ev = .lr ∧
        (losingBy v (moves pix (evs.take i)) (r.ev, r.cell pix)).Nonempty then [.needless] else []) := by
  obtain ⟨F', f1, f2⟩ := C56_needless_guess h hF
  refine ⟨F', f1, fun i r cs hr hcs => ?_⟩
  rw [f2 i r cs hr hcs]
  congr 2
  apply if_congr _ rfl rfl
  refine and_congr_right fun _ => and_congr_right fun hu => and_congr_right fun he => ?_
  obtain ⟨-, b1, -, b3⟩ := C102_below_one h hr hu he
  rw [Finset.nonempty_iff_ne_empty, ne_eq, ← b3]
  exact ⟨fun h => h.ne', fun h => lt_of_le_of_ne b1 (Ne.symm h)⟩

/-- **C102** `high_risk_guess` comments, from the third event on, such an opening exactly if it would have lost with at least 51 % of
the sets of mines with which everything would have looked the same, and names the percentage with which it would not. -/
theorem C102_high_risk (h : GoodVideo dist v pix evs A) {F : Feat} (hF : Annotated dist A (mines v).card pix F) :
    ∃ F', F.run dist .highRiskGuess = some F' ∧ ∀ (i : Nat) r cs, A.recs[i]? = some r → F.comments[i]? = some cs → r.ev = .lr →
      F'.comments[i]? = some (cs ++ if 2 ≤ i ∧ r.useful = 2 ∧
          51 * (alike v (moves pix (evs.take i))).card ≤ 100 * (losingBy v (moves pix (evs.take i)) (r.ev, r.cell pix)).card then
        [.risky (1 - ((losingBy v (moves pix (evs.take i)) (r.ev, r.cell pix)).card : ℚ) /
          ((alike v (moves pix (evs.take i))).card : ℚ))] else []) := by
  obtain ⟨F', f1, f2⟩ := C56_high_risk h hF
  refine ⟨F', f1, fun i r cs hr hcs he => ?_⟩
  rw [f2 i r cs hr hcs]
  by_cases hu : r.useful = 2
  · have e := C102_risk h hr hu he
    have hpos : 0 < (alike v (moves pix (evs.take i))).card := Finset.card_pos.mpr ⟨_, (C102_below_one h hr hu he).1⟩
    have hq : (0 : ℚ) < ((alike v (moves pix (evs.take i))).card : ℚ) := by exact_mod_cast hpos
    rw [e]
    congr 2
    apply if_congr _ rfl rfl
    refine and_congr_right fun _ => and_congr_right fun _ => ?_
    rw [div_le_div_iff₀ (by norm_num) hq, mul_comm ((losingBy v (moves pix (evs.take i)) (r.ev, r.cell pix)).card : ℚ)]
    exact_mod_cast Iff.rfl
  · simp [hu]

private theorem left_not_one {s t : MSB} {p : Pos} : s.leftClick p ≠ some (t, some 1) := by
  intro h
  unfold leftClick at h
  simp only [] at h
  split at h
  · cases h
  split at h
  · cases h
  split at h
  · obtain ⟨r, -, h⟩ := Option.bind_eq_some_iff.mp h
    simp at h
  split at h
  · simp at h
  · simp at h

private theorem chord_not_one {s t : MSB} {p : Pos} : s.chordingClick p ≠ some (t, some 1) := by
  intro h
  unfold chordingClick at h
  simp only [] at h
  split at h
  · cases h
  split at h
  · cases h
  split at h
  · obtain ⟨r, -, h⟩ := Option.bind_eq_some_iff.mp h
    simp at h
  · simp at h

private theorem playing_not_one {s t : MSB} {p : Pos} : s.stepPlaying .lr p ≠ some (t, some 1) := by
  intro h
  unfold stepPlaying at h
  simp only [] at h
  split at h
  · unfold releaseLeft at h
    split at h
    · simp at h
    · exact left_not_one h
  · unfold releaseChord at h
    split at h
    · simp at h
    · exact chord_not_one h
  · simp at h
  · unfold releaseNotFlag at h
    simp only [] at h
    split at h
    · cases h
    split at h
    · simp at h
    · exact chord_not_one h
  all_goals simp at h

theorem lr_not_one {s t : MSB} {p : Pos} : s.step .lr p ≠ some (t, some 1) := by
  intro h
  unfold step at h
  simp only [] at h
  split at h
  · cases h
  · rename_i s' k e
    simp only [Option.some.injEq, Prod.mk.injEq] at h
    obtain ⟨rfl, rfl⟩ := h
    split at e
    · unfold stepReady at e
      simp only [] at e
      split at e <;> simp [ok0] at e
    · unfold stepPreFlaging at e
      simp only [] at e
      split at e
      · split at e
        · split at e <;> simp [ok0] at e
        · split at e
          · split at e <;> simp at e
          · cases e
      all_goals simp at e
    · cases e
    · simp at e
  · exact playing_not_one h
open Classical in
/-- **C102** `survive_poss` names, for the second and every later event that opened something by the release of the left button, the
fraction of the sets of mines (with which everything would have looked the same) with which the event would not have lost - unless this is
1 or the event was a chord - and their product. -/
theorem C102_survive (h : GoodVideo dist v pix evs A) {F : Feat} (hF : Annotated dist A (mines v).card pix F) (hne : evs ≠ []) :
    ∃ F' fs, F.run dist .survivePoss = some F' ∧
      fs = ((A.recs.zipIdx.filter fun x => decide (x.1.ev = .lr ∧ x.1.useful > 0)).tail.flatMap fun x =>
        if x.1.useful = 2 ∧ (losingBy v (moves pix (evs.take x.2)) (x.1.ev, x.1.cell pix)).Nonempty then
          [1 - ((losingBy v (moves pix (evs.take x.2)) (x.1.ev, x.1.cell pix)).card : ℚ) / ((alike v (moves pix (evs.take x.2))).card : ℚ)]
        else []) ∧
      F'.comments = F.comments.set (evs.length - 1) [.luck fs fs.prod] := by
  obtain ⟨F', fs, f1, f2, f3⟩ := (C56_survive h hF).2 hne
  refine ⟨F', fs, f1, ?_, f3⟩
  rw [f2]
  have e : A.recs.filter (fun r => decide (r.ev = .lr ∧ r.useful > 0)) =
      (A.recs.zipIdx.filter fun x => decide (x.1.ev = .lr ∧ x.1.useful > 0)).map Prod.fst := by
    rw [show (fun x : Rec × Nat => decide (x.1.ev = .lr ∧ x.1.useful > 0)) =
      (fun r : Rec => decide (r.ev = .lr ∧ r.useful > 0)) ∘ Prod.fst from rfl, ← List.filter_map, List.zipIdx_map_fst]
  rw [e, ← List.map_tail, List.flatMap_map]
  apply List.flatMap_congr
  intro x hx
  obtain ⟨x1, x2⟩ := List.mem_filter.mp (List.mem_of_mem_tail hx)
  have hr : A.recs[x.2]? = some x.1 := List.mem_zipIdx_iff_getElem?.mp x1
  obtain ⟨he, hpos⟩ := of_decide_eq_true x2
  by_cases hu : x.1.useful = 2
  · obtain ⟨-, b1, b2, b3⟩ := C102_below_one h hr hu he
    rw [C102_risk h hr hu he] at b1 b2 b3 ⊢
    apply if_congr _ rfl rfl
    rw [Finset.nonempty_iff_ne_empty, ne_eq, ← b3]
    exact ⟨fun h => ⟨hu, h.1.ne'⟩, fun h => ⟨lt_of_le_of_ne b1 (Ne.symm h.2), b2⟩⟩
  · obtain ⟨m0, m1, s1, s2⟩ := analyse_steps h.numbers h.analysed x.2 x.1 hr
    have h1 : x.1.useful ≠ 1 := fun h1 => by
      rw [h1, he] at s2
      exact lr_not_one s2
    obtain ⟨-, -, -, -, -, -, h3, -⟩ := C56_position h hr (by omega)
    rw [feat_risk_three h hr (by omega)]
    simp [hu]

/-- **C102** an event that opened cells by a chord is given no risk. -/
theorem C102_chord (h : GoodVideo dist v pix evs A) {i : Nat} {r : Rec} (hr : A.recs[i]? = some r) (hu : r.useful = 3) :
    A.risk (mines v).card pix r = 0 := feat_risk_three h hr hu

/-- a mine on one side of a 1: the player flags that side and chords on the 1 -/
def chordEvents : List RawEv :=
  clicksAt [(.mv, 0, 1), (.lc, 0, 1), (.lr, 0, 1), (.rc, 0, 0), (.rr, 0, 0), (.lc, 0, 1), (.rc, 0, 1), (.lr, 0, 1)]

def coinView : View := Board.view [[-1, 1, 0]]

/-- **C102** chords are never risky for the analyses (a finding): after the flag the chord loses with one of the two sets of mines with which
everything would have looked the same, but nothing is said about it, and the only factor of survival is left out. -/
theorem C102_chord_free :
    (alike coinView (moves 10 (chordEvents.take 7))).card = 2 ∧
    (losingBy coinView (moves 10 (chordEvents.take 7)) (.lr, (0, 1))).card = 1 ∧
    ((analyse taxi coinView 1 3 10 chordEvents).bind fun A =>
      (features taxi (A.feat 1 10) [.needlessGuess, .highRiskGuess, .jumpJudge]).map fun F => F.comments) =
      some [[], [], [.needless], [], [], [], [], []] ∧
    ((analyse taxi coinView 1 3 10 chordEvents).bind fun A =>
      (features taxi (A.feat 1 10) [.survivePoss]).map fun F => F.comments) =
      some [[], [], [], [], [], [], [], [.luck [] 1]] := by
  refine ⟨by decide +kernel, by decide +kernel, by decide +kernel, by decide +kernel⟩

/-- Non-vacuity: the same video is a good video, its third event is an opening, and its risk is 1/3: one of three sets of mines loses. -/
theorem coin_risk : ∃ A r, GoodVideo taxi coinView 10 chordEvents A ∧ A.recs[2]? = some r ∧ r.useful = 2 ∧ r.ev = .lr ∧
    A.risk (mines coinView).card 10 r = 1 / 3 := by
  have hs : ((analyse taxi coinView 1 3 10 chordEvents).bind fun A => A.recs[2]?.map fun r => (r.useful, r.ev, r.cell 10)) =
      some (2, .lr, (0, 1)) := by decide +kernel
  obtain ⟨A, hA, hs⟩ := Option.bind_eq_some_iff.mp hs
  obtain ⟨r, hr, hs⟩ := Option.map_eq_some_iff.mp hs
  simp only [Prod.mk.injEq] at hs
  obtain ⟨h1, h2, h3⟩ := hs
  have hg : GoodVideo taxi coinView 10 chordEvents A :=
    goodVideo_small ⟨by unfold Numbered; decide +kernel, by decide +kernel, by decide, hA⟩ (by decide +kernel) (by decide +kernel)
  refine ⟨A, r, hg, hr, h1, h2, ?_⟩
  rw [C102_risk hg hr h1 h2, h2, h3]
  have e1 : (losingBy coinView (moves 10 (chordEvents.take 2)) (.lr, (0, 1))).card = 1 := by decide +kernel
  have e2 : (alike coinView (moves 10 (chordEvents.take 2))).card = 3 := by decide +kernel
  rw [e1, e2]
  norm_num

end Ms.Properties
