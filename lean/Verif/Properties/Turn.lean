import Verif.Lemmas.Turn
import Verif.Properties.Metrics
import Verif.Properties.Laymine
import Verif.Properties.Poss
import Verif.Properties.PossOpen
import Verif.Properties.Solvable

/-! # C87: turned and mirrored boards get turned and mirrored answers -/

namespace Ms.Properties
open Ms.Spec

/-! ### the symmetries -/

theorem rect_dims {b : Board} {r c : Nat} (h : Rect b r c) (hr : 0 < r) : b.row = r ∧ b.col = c := by
  refine ⟨h.len, ?_⟩
  unfold Board.col
  cases b with
  | nil => have := h.len; simp at this; omega
  | cons l b => exact h.rows l (by simp)

/-- **C87** left and right exchanged -/
theorem C87_mirror (b : Board) (r c : Nat) (h : Rect b r c) (hr : 0 < r) :
    Rect (mirror b) r c ∧ Turned (fun p => (p.1, c - 1 - p.2)) (fun p => (p.1, c - 1 - p.2)) b.view (mirror b).view := by
  have hm : Rect (mirror b) r c := by
    refine ⟨by simp [mirror, h.len], fun l hl => ?_⟩
    obtain ⟨k, hk, rfl⟩ := List.mem_map.mp hl
    rw [List.length_reverse]
    exact h.rows k hk
  obtain ⟨h1, h2⟩ := rect_dims h hr
  obtain ⟨h3, h4⟩ := rect_dims hm hr
  refine ⟨hm, ⟨?_, ?_⟩⟩
  · change Turn b.row b.col (mirror b).row (mirror b).col _ _
    rw [h1, h2, h3, h4]
    refine ⟨?_, ?_, ?_⟩
    · intro p hp
      rw [mem_grid] at hp ⊢
      exact ⟨⟨hp.1, by simp only; omega⟩, Prod.ext rfl (by simp only; omega)⟩
    · intro p hp
      rw [mem_grid] at hp ⊢
      exact ⟨⟨hp.1, by simp only; omega⟩, Prod.ext rfl (by simp only; omega)⟩
    · intro p hp q hq
      rw [mem_grid] at hp hq
      unfold Near
      simp only
      omega
  · intro p hp
    change p ∈ grid b.row b.col at hp
    rw [h1, h2, mem_grid] at hp
    have hi : p.1 < b.length := by rw [h.len]; exact hp.1
    have hl := h.rows _ (List.getElem_mem hi)
    change Board.get (mirror b) p.1 (c - 1 - p.2) = Board.get b p.1 p.2
    unfold Board.get mirror
    have e1 : (b.map List.reverse).getD p.1 [] = b[p.1].reverse := by
      rw [List.getD_eq_getElem?_getD, List.getElem?_map, List.getElem?_eq_getElem hi]
      rfl
    have e2 : List.getD b p.1 [] = b[p.1] := by
      rw [List.getD_eq_getElem?_getD, List.getElem?_eq_getElem hi]
      rfl
    rw [e1, e2, List.getD_eq_getElem?_getD, List.getD_eq_getElem?_getD, List.getElem?_reverse (by omega)]
    congr 2
    omega

/-- **C87** upper and lower exchanged -/
theorem C87_upside_down (b : Board) (r c : Nat) (h : Rect b r c) (hr : 0 < r) :
    Rect (upsideDown b) r c ∧
      Turned (fun p => (r - 1 - p.1, p.2)) (fun p => (r - 1 - p.1, p.2)) b.view (upsideDown b).view := by
  have hm : Rect (upsideDown b) r c := by
    refine ⟨by simp [upsideDown, h.len], fun l hl => ?_⟩
    exact h.rows l (List.mem_reverse.mp hl)
  obtain ⟨h1, h2⟩ := rect_dims h hr
  obtain ⟨h3, h4⟩ := rect_dims hm hr
  refine ⟨hm, ⟨?_, ?_⟩⟩
  · change Turn b.row b.col (upsideDown b).row (upsideDown b).col _ _
    rw [h1, h2, h3, h4]
    refine ⟨?_, ?_, ?_⟩
    · intro p hp
      rw [mem_grid] at hp ⊢
      exact ⟨⟨by simp only; omega, hp.2⟩, Prod.ext (by simp only; omega) rfl⟩
    · intro p hp
      rw [mem_grid] at hp ⊢
      exact ⟨⟨by simp only; omega, hp.2⟩, Prod.ext (by simp only; omega) rfl⟩
    · intro p hp q hq
      rw [mem_grid] at hp hq
      unfold Near
      simp only
      omega
  · intro p hp
    change p ∈ grid b.row b.col at hp
    rw [h1, h2, mem_grid] at hp
    change Board.get (upsideDown b) (r - 1 - p.1) p.2 = Board.get b p.1 p.2
    unfold Board.get upsideDown
    have hlen := h.len
    have e1 : (List.reverse b).getD (r - 1 - p.1) [] = List.getD b p.1 [] := by
      rw [List.getD_eq_getElem?_getD, List.getD_eq_getElem?_getD, List.getElem?_reverse (by omega)]
      congr 2
      omega
    rw [e1]

/-- **C87** rows and columns exchanged -/
theorem C87_flipped (b : Board) (r c : Nat) (h : Rect b r c) (hr : 0 < r) (hc : 0 < c) :
    Rect (flipped b) c r ∧ Turned (fun p => (p.2, p.1)) (fun p => (p.2, p.1)) b.view (flipped b).view := by
  obtain ⟨h1, h2⟩ := rect_dims h hr
  have hm : Rect (flipped b) c r := by
    refine ⟨by simp [flipped, h2], fun l hl => ?_⟩
    obtain ⟨k, hk, rfl⟩ := List.mem_map.mp hl
    simp [h1]
  obtain ⟨h3, h4⟩ := rect_dims hm hc
  refine ⟨hm, ⟨?_, ?_⟩⟩
  · change Turn b.row b.col (flipped b).row (flipped b).col _ _
    rw [h1, h2, h3, h4]
    refine ⟨?_, ?_, ?_⟩
    · intro p hp
      rw [mem_grid] at hp ⊢
      exact ⟨⟨hp.2, hp.1⟩, rfl⟩
    · intro p hp
      rw [mem_grid] at hp ⊢
      exact ⟨⟨hp.2, hp.1⟩, rfl⟩
    · intro p hp q hq
      unfold Near
      simp only
      omega
  · intro p hp
    change p ∈ grid b.row b.col at hp
    rw [mem_grid] at hp
    change Board.get (flipped b) p.2 p.1 = Board.get b p.1 p.2
    unfold flipped
    conv_lhs => unfold Board.get
    have e1 : ((List.range b.col).map fun j => (List.range b.row).map fun i => (List.getD b i []).getD j 0).getD p.2 [] =
        (List.range b.row).map fun i => (List.getD b i []).getD p.2 0 := by
      rw [List.getD_eq_getElem?_getD, List.getElem?_map, List.getElem?_range hp.2]
      rfl
    rw [e1, List.getD_eq_getElem?_getD, List.getElem?_map, List.getElem?_range hp.1]
    rfl

/-- **C87** turns can be done one after the other (a quarter turn is two of the three) and undone. -/
theorem C87_group {u v w : View} {σ τ σ' τ' : Pos → Pos} (h : Turned σ τ u v) (k : Turned σ' τ' v w) :
    Turned (fun p => σ' (σ p)) (fun p => τ (τ' p)) u w ∧ Turned τ σ v u := ⟨h.comp k, h.symm⟩

/-! ### counting -/

/-- **C87** `cal_op`, `cal_isl`, `cal_bbbv`, `cal_cell_nums` do not change. -/
theorem C87_counts {v w : View} {σ τ : Pos → Pos} (h : Turned σ τ v w) :
    calOp? w = calOp? v ∧ calIsl w = calIsl v ∧ calBbbv w = calBbbv v ∧ calCellNums w = calCellNums v := by
  have hz := (turned_zeros h).components h.turn
  refine ⟨?_, ?_, ?_, ?_⟩
  · rw [C04_cal_op, C04_cal_op, hz]
  · rw [C05_cal_isl, C05_cal_isl, (turned_isolated h).components h.turn]
  · rw [C07_cal_bbbv, C07_cal_bbbv, hz, (turned_isolated h).card h.turn]
  · by_cases hm : ∃ p ∈ vcells v, 8 < val v p
    · rw [C06_cal_cell_nums_panics v hm]
      obtain ⟨p, hp, h8⟩ := hm
      exact C06_cal_cell_nums_panics w ⟨σ p, (h.turn.there p hp).1, by rw [turned_val h hp]; exact h8⟩
    · have hv : ∀ p ∈ vcells v, val v p ≤ 8 := fun p hp => by
        by_contra h8
        exact hm ⟨p, hp, by omega⟩
      have hw : ∀ p ∈ vcells w, val w p ≤ 8 := fun p hp => by
        have hb := h.turn.back p hp
        rw [← hb.2, turned_val h hb.1]
        exact hv _ hb.1
      rw [C06_cal_cell_nums v hv, C06_cal_cell_nums w hw]
      refine congrArg some (List.map_congr_left fun k _ => ?_)
      exact Pair.card h.turn (turned_filter h _ _ fun p hp => by rw [turned_val h hp])

/-- **C87** `cal_board_numbers` of the turned layout of mines is the turned board. -/
theorem C87_numbers {b b' : Board} {r c r' c' : Nat} {σ τ : Pos → Pos} (h : Turned σ τ b.view b'.view)
    (hb : Rect b r c) (hr : 0 < r) (hb' : Rect b' r' c') (hr' : 0 < r')
    (h0 : ∀ p ∈ vcells b.view, val b.view p = 0 ∨ val b.view p = -1) :
    ∃ d d', calBoardNumbers b = some d ∧ calBoardNumbers b' = some d' ∧ Turned σ τ d.view d'.view := by
  obtain ⟨d, e1, e2, e3, e4, _⟩ := C03_cal_board_numbers b r c hr hb h0
  obtain ⟨d', f1, f2, f3, f4, _⟩ := C03_cal_board_numbers b' r' c' hr' hb' (fun p hp => by
    have hk := h.turn.back p hp
    rw [← hk.2, turned_val h hk.1]
    exact h0 _ hk.1)
  obtain ⟨a1, a2⟩ := rect_dims hb hr
  obtain ⟨a3, a4⟩ := rect_dims hb' hr'
  obtain ⟨a5, a6⟩ := rect_dims e2 hr
  obtain ⟨a7, a8⟩ := rect_dims f2 hr'
  have ht : Turn d.view.row d.view.col d'.view.row d'.view.col σ τ := by
    have := h.turn
    change Turn b.row b.col b'.row b'.col σ τ at this
    change Turn d.row d.col d'.row d'.col σ τ
    rw [a5, a6, a7, a8]
    rw [a1, a2, a3, a4] at this
    exact this
  refine ⟨d, d', e1, f1, ht, ?_⟩
  have hpair : Pair d.view.row d.view.col d'.view.row d'.view.col σ (mines d.view) (mines d'.view) := by
    have := turned_mines h
    rw [e3, f3]
    change Pair b.row b.col b'.row b'.col σ _ _ at this
    change Pair d.row d.col d'.row d'.col σ _ _
    rw [a5, a6, a7, a8]
    rw [a1, a2, a3, a4] at this
    exact this
  have hmine : ∀ {v : View} {q : Pos}, q ∈ vcells v → (q ∈ mines v ↔ val v q = -1) := by
    intro v q hq
    unfold mines
    rw [Finset.mem_filter]
    exact ⟨fun k => k.2, fun k => ⟨hq, k⟩⟩
  intro p hp
  change val d'.view (σ p) = val d.view p
  have hp' := (ht.there p hp).1
  by_cases hm : val d.view p = -1
  · rw [hm]
    exact (hmine hp').mp ((hpair.iff p hp).mp ((hmine hp).mpr hm))
  · have hm' : val d'.view (σ p) ≠ -1 := fun k => hm ((hmine hp).mp ((hpair.iff p hp).mpr ((hmine hp').mpr k)))
    rw [e4 p hp hm, f4 _ hp' hm']
    unfold adjCount
    refine congrArg Nat.cast (Pair.card ht (hpair.filter _ _ fun q hq => ?_))
    have hq' := hpair.sub hq
    unfold Adj
    rw [ht.near p hp q hq', Ne, Ne, turn_inj ht hp hq']

/-! ### probabilities -/

theorem nonneg_turned {g g' : Board} {σ τ : Pos → Pos} (h : Turned σ τ g.view g'.view)
    (hv : ∀ p ∈ grid g.row g.col, 0 ≤ g.get p.1 p.2) : ∀ p ∈ grid g'.row g'.col, 0 ≤ g'.get p.1 p.2 := by
  intro p hp
  have hk := h.turn.back p hp
  have := h.cells _ hk.1
  rw [hk.2] at this
  change g'.get _ _ = g.get _ _ at this
  rw [this]
  exact hv _ hk.1

theorem onboard_error {g : Board} {n : ℚ} {e : Nat} (h : calPossibility g n = some (.error e)) :
    calPossibilityOnboard g n = some (.error e) := by
  unfold calPossibilityOnboard
  rw [h]

theorem onboard_panic {g : Board} {n : ℚ} (h : calPossibility g n = none) : calPossibilityOnboard g n = none := by
  unfold calPossibilityOnboard
  rw [h]

/-- **C87** `cal_possibility_onboard` gives corresponding cells the same probability, on every board that some layout of mines
explains, for every number of mines or density. -/
theorem C87_probabilities {g g' : Board} {σ τ : Pos → Pos} (h : Turned σ τ g.view g'.view) (hne : g ≠ []) (hne' : g' ≠ [])
    (hv : ∀ p ∈ grid g.row g.col, 0 ≤ g.get p.1 p.2) (hc : ∃ s, ReachConsistent g s) (minenum : ℚ) :
    SameAnswer g.row g.col σ (calPossibilityOnboard g minenum) (calPossibilityOnboard g' minenum) := by
  have hv' := nonneg_turned h hv
  have hc' : ∃ s, ReachConsistent g' s := by
    obtain ⟨s, hs⟩ := hc
    exact ⟨fun q => s (τ q), turned_reachConsistent h (fun p hp => by rw [(h.turn.there p hp).2]) hs⟩
  have hcard : (markedSet g').card = (markedSet g).card := (pair_marked h).card h.turn
  have harea := turned_area h
  obtain ⟨lo, hi, hlo, hhi, key⟩ := cal_possibility_onboard_exact g hne hv hc minenum
  obtain ⟨lo', hi', hlo', hhi', key'⟩ := cal_possibility_onboard_exact g' hne' hv' hc' minenum
  have hset : {k | (layouts g' k).Nonempty} = {k | (layouts g k).Nonempty} := by
    ext k; exact turned_layouts_nonempty h k
  rw [hset] at hlo' hhi'
  obtain rfl : lo' = lo := hlo'.unique hlo
  obtain rfl : hi' = hi := hhi'.unique hhi
  have hle : lo' ≤ hi' := hlo.2 hhi.1
  have hncard : Set.ncard {q | IsCovered g' q ∧ ¬ Fringe g' q} = Set.ncard {q | IsCovered g q ∧ ¬ Fringe g q} := by
    symm
    refine Set.ncard_congr (fun q _ => σ q) ?_ ?_ ?_
    · rintro q ⟨a, b⟩
      exact ⟨turned_covered h a, by rw [turned_fringe h a.1]; exact b⟩
    · rintro a b ⟨ha, _⟩ ⟨hb, _⟩ e
      exact (turn_inj h.turn ha.1 hb.1).mp e
    · rintro q ⟨a, b⟩
      have hk := h.turn.back q a.1
      refine ⟨τ q, ⟨turned_covered h.symm a, ?_⟩, hk.2⟩
      rw [← turned_fringe h hk.1, hk.2]
      exact b
  have hml : ∀ m, MinesLeft g minenum lo' hi' m → MinesLeft g' minenum lo' hi' m := by
    intro m hm
    unfold MinesLeft at hm ⊢
    rw [hcard, harea]
    exact hm
  have main : ∀ m, MinesLeft g minenum lo' hi' m →
      SameAnswer g.row g.col σ (calPossibilityOnboard g minenum) (calPossibilityOnboard g' minenum) := by
    intro m hm
    obtain ⟨a1, a2⟩ := key m hm
    obtain ⟨b1, b2⟩ := key' m (hml m hm)
    by_cases hlt : m < lo'
    · rw [a1 hlt, b1 hlt]
      exact .error 3
    · obtain ⟨P, e1, _, _, e4⟩ := a2 (by omega)
      obtain ⟨P', f1, _, _, f4⟩ := b2 (by omega)
      rw [e1, f1, hcard, hncard]
      refine .ok _ fun p hp => ?_
      have hp' := (h.turn.there p hp).1
      change σ p ∈ grid g'.row g'.col at hp'
      have hpg := hp
      rw [mem_grid] at hp hp'
      have hcell := h.cells p hpg
      change g'.get _ _ = g.get _ _ at hcell
      rw [e4 p.1 p.2 hp.1 hp.2, f4 _ _ hp'.1 hp'.2, hcell, turned_chance h m hpg]
  by_cases h1 : 1 ≤ minenum
  · by_cases h2 : ⌊minenum⌋ < (markedSet g).card
    · rw [onboard_error (cal_possibility_too_few_mines g hne hv hc minenum h1 h2),
        onboard_error (cal_possibility_too_few_mines g' hne' hv' hc' minenum h1 (by rw [hcard]; exact h2))]
      exact .error 17
    · refine main (⌊minenum⌋ - (markedSet g).card).toNat ?_
      unfold MinesLeft
      rw [if_pos h1]
      omega
  · by_cases h2 : ⌊((g.row * g.col : Nat) : ℚ) * minenum⌋.toNat < (markedSet g).card
    · rw [onboard_panic (cal_possibility_density_panics g hne hv hc minenum (by linarith) h2),
        onboard_panic (cal_possibility_density_panics g' hne' hv' hc' minenum (by linarith) (by rw [harea, hcard]; exact h2))]
      exact .panic
    · refine main (min (max (⌊((g.row * g.col : Nat) : ℚ) * minenum⌋.toNat - (markedSet g).card) lo') hi') ?_
      unfold MinesLeft
      rw [if_neg h1]
      exact ⟨by omega, rfl⟩

/-- **C87** a board that no layout explains is refused whichever way it is turned. -/
theorem C87_contradiction {g g' : Board} {σ τ : Pos → Pos} (h : Turned σ τ g.view g'.view) (hne : g ≠ []) (hne' : g' ≠ [])
    (hr : ∀ p, IsNumber g p → (∃ q, IsCovered g q ∧ Near p q) → (minesNear g (fun _ => false) p : ℤ) ≤ g.get p.1 p.2)
    (hc : ¬ ∃ s, ReachConsistent g s) (minenum : ℚ) :
    calPossibilityOnboard g minenum = some (.error 1) ∧ calPossibilityOnboard g' minenum = some (.error 1) := by
  refine ⟨onboard_error (cal_possibility_contradiction g hne hr hc minenum),
    onboard_error (cal_possibility_contradiction g' hne' ?_ ?_ minenum)⟩
  · rintro p hp ⟨q, hq, hn⟩
    have hk := h.turn.back p hp.1
    have := hr (τ p) (turned_number h.symm hp) ⟨τ q, turned_covered h.symm hq, (h.turn.symm.near p hp.1 q hq.1).mpr hn⟩
    have hcell := h.cells _ hk.1
    rw [hk.2] at hcell
    change g'.get _ _ = g.get _ _ at hcell
    rw [← turned_minesNear h (s := fun _ => false) (s' := fun _ => false) (fun _ _ => rfl) hk.1, hk.2] at this
    rw [hcell]
    exact this
  · rintro ⟨s, hs⟩
    exact hc ⟨fun q => s (σ q), turned_reachConsistent h.symm (fun p hp => by
      show s (σ (τ p)) = s p
      rw [(h.turn.back p hp).2]) hs⟩

/-! ### solvability -/

/-- **C87** on boards of any size: what `is_solvable` accepts can be solved without guessing whichever way it is turned. -/
theorem C87_solvable_sound {b b' : Board} {r c r' c' : Nat} {σ τ : Pos → Pos} (h : Turn r c r' c' σ τ)
    (hcell : ∀ p ∈ grid r c, b'.get (σ p).1 (σ p).2 = b.get p.1 p.2) (hb : Rect b r c) (hnum : Numbered b.view) (hr : 3 ≤ r)
    (hc : 3 ≤ c) (s : Pos) (hs : s ∈ grid r c) (hsafe : b.get s.1 s.2 ≠ -1) (hok : isSolvable b s.1 s.2 = some true) :
    NoGuess r' c' b' (σ s) := by
  obtain ⟨v, hv, hn⟩ := is_solvable_sound r c b s hb hnum hr hc hs hsafe
  rw [hok, Option.some.injEq] at hv
  exact turned_noGuess h hcell hs (hn hv.symm)

/-! ### examples -/

example : mirror [[1, 2, 3], [4, 5, 6]] = [[3, 2, 1], [6, 5, 4]] ∧ upsideDown [[1, 2, 3], [4, 5, 6]] = [[4, 5, 6], [1, 2, 3]] ∧
    flipped [[1, 2, 3], [4, 5, 6]] = [[1, 4], [2, 5], [3, 6]] := by decide

example : (calPossibilityOnboard [[1, 10, 10]] 1).bind Except.toOption = some ([[some 0, some 1, some 0]], 1, 1, 2) ∧
    (calPossibilityOnboard (mirror [[1, 10, 10]]) 1).bind Except.toOption = some ([[some 0, some 1, some 0]], 1, 1, 2) := by
  decide +kernel

/-- every hypothesis of `C87_probabilities` is met by a board and its mirror image -/
example : SameAnswer 1 3 (fun p => (p.1, 3 - 1 - p.2)) (calPossibilityOnboard [[1, 10, 10]] 1)
    (calPossibilityOnboard (mirror [[1, 10, 10]]) 1) := by
  refine C87_probabilities (C87_mirror [[1, 10, 10]] 1 3 ⟨by decide, by decide⟩ (by omega)).2 (by decide) (by decide) (by decide)
    ⟨fun p => decide (p = (0, 1)), ?_⟩ 1
  intro p hp _ _
  have key : ∀ p ∈ grid 1 3, Board.get [[1, 10, 10]] p.1 p.2 ≠ 10 →
      Board.get [[1, 10, 10]] p.1 p.2 = minesNear [[1, 10, 10]] (fun p => decide (p = (0, 1))) p := by decide
  have hn : Board.get [[1, 10, 10]] p.1 p.2 ≠ 10 := by
    have := hp.2
    omega
  exact key p hp.1 hn

end Ms.Properties
