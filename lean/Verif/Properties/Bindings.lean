import Verif.Lemmas.Bindings
import Verif.Lemmas.ReplayAny
import Verif.Properties.Player

/-! # C68: probabilities through the Python and wasm packages -/

namespace Ms.Properties
open Ms Ms.Spec

section
variable {r c : Nat} {g h : Board} {bn bi en : List Pos}

theorem certain_chance {m : Nat} {q : Pos} {v : Bool} (hre : ∀ p, IsNumber g p → InReach g p)
    (hc : ∃ σ, Consistent g σ) (hl : (layouts g m).Nonempty) (hq : Certain g q v) :
    chance g m q = some (if v = true then 1 else 0) := by
  classical
  have hpos : (layouts g m).card ≠ 0 := Finset.card_ne_zero.mpr hl
  unfold chance
  rw [if_neg hpos]
  congr 1
  cases v with
  | true =>
    have : (layouts g m).filter (fun A => q ∈ A) = layouts g m := by
      apply Finset.filter_true_of_mem
      intro A hA
      rw [layouts_mem hre hc] at hA
      simpa using hq _ hA.2.2
    rw [show ((layouts g m).filter fun A => q ∈ A).card = (layouts g m).card by
      convert congrArg Finset.card this using 2, div_self (by exact_mod_cast hpos), if_pos rfl]
  | false =>
    have : (layouts g m).filter (fun A => q ∈ A) = ∅ := by
      apply Finset.filter_false_of_mem
      intro A hA
      rw [layouts_mem hre hc] at hA
      simpa using hq _ hA.2.2
    rw [show ((layouts g m).filter fun A => q ∈ A).card = 0 by
      rw [← Finset.card_empty, ← this]]
    simp

/-- What the engine says about the marked board, in terms of the original one. -/
theorem marked_poss (M : Marking r c g h bn bi en) (hrect : Rect g r c) (hr : 0 < r) (hv : Shown g)
    (hre : ∀ p, IsNumber g p → InReach g p) (hc : ∃ σ, Consistent g σ) (minenum : ℚ) :
    ∃ lo hi, IsLeast {k | (layouts g k).Nonempty} lo ∧ IsGreatest {k | (layouts g k).Nonempty} hi ∧
      (1 ≤ minenum → ⌊minenum⌋ < lo + (markedSet g).card →
        ∃ e, e ≠ 1 ∧ calPossibility h minenum = some (.error e)) ∧
      ∀ m, MinesLeft g minenum lo hi m → lo ≤ m →
        (minenum < 1 → lo + (markedSet g).card ≤ ⌊((r * c : Nat) : ℚ) * minenum⌋.toNat) →
        ∃ t, calPossibility h minenum = some (.ok t) ∧ (t.front.map fun e => e.1).Nodup ∧
          (∀ q, q ∈ (t.front.map fun e => e.1) ↔ Fringe h q) ∧
          (∀ e ∈ t.front, e.2 = chance g m e.1) ∧
          (∀ q, IsCovered g q → ¬ Frontier g q → t.rest = chance g m q) ∧
          ((∀ q, IsCovered g q → Frontier g q) → t.rest = none) ∧
          t.range = (lo + (markedSet g).card, m + (markedSet g).card,
            min hi (m + Set.ncard {q | IsCovered g q ∧ ¬ Frontier g q}) + (markedSet g).card) := by
  obtain ⟨d1, d2, d3, d4⟩ := M.dims hrect hr
  have hne := M.ne_nil hr
  have hvh := M.shown hrect hr hv
  have hch : ∃ τ, ReachConsistent h τ := by
    obtain ⟨σ, hσ⟩ := M.explained hrect hr hc
    exact ⟨σ, fun p hp _ _ => hσ p hp⟩
  have hcg : ∃ τ, ReachConsistent g τ := by
    obtain ⟨σ, hσ⟩ := hc
    exact ⟨σ, fun p hp _ _ => hσ p hp⟩
  have hgne : g ≠ [] := by
    intro hh
    have := hrect.len
    rw [hh] at this
    simp at this
    omega
  obtain ⟨lo, hi, g1, g2, -⟩ := cal_possibility_exact g hgne hv hcg minenum
  obtain ⟨lo', hi', e1, e2, e3⟩ := cal_possibility_exact h hne hvh hch minenum
  obtain ⟨k1, k2⟩ := M.least hrect hr hre hc g1
  obtain ⟨k3, k4⟩ := M.greatest hrect hr hre hc g2
  obtain rfl := e1.unique k2
  obtain rfl := e2.unique k4
  have hcard := M.marked_card hrect hr
  have hfr : ∀ q, Fringe g q ↔ Frontier g q := fun q =>
    ⟨fun ⟨h1, p, h2, _, h3⟩ => ⟨h1, p, h2, h3⟩, fun ⟨h1, p, h2, h3⟩ => ⟨h1, p, h2, hre p h2, h3⟩⟩
  have haway : {q | IsCovered h q ∧ ¬ Fringe h q} = {q | IsCovered g q ∧ ¬ Frontier g q} := by
    ext q
    show IsCovered h q ∧ ¬ Fringe h q ↔ IsCovered g q ∧ ¬ Frontier g q
    rw [M.away hrect hr hre q, hfr]
  refine ⟨lo, hi, g1, g2, fun h1 h2 => ?_, fun m hm hlo hs => ?_⟩
  · have hf : 0 ≤ ⌊minenum⌋ := by rw [Int.floor_nonneg]; linarith
    by_cases h3 : ⌊minenum⌋ < (markedSet h).card
    · exact ⟨17, by omega, cal_possibility_too_few_mines h hne hvh hch minenum h1 h3⟩
    · refine ⟨3, by omega, (e3 (⌊minenum⌋.toNat - (markedSet h).card) ?_).1 ?_⟩
      · unfold MinesLeft
        rw [if_pos h1]
        omega
      · omega
  · have hML := M.minesLeft hrect hr hre hc g1 g2 hm hlo (by rw [d1, d2]; exact hs)
    obtain ⟨t, t1, t2, t3, t4, t5, t6, t7, -⟩ := (e3 _ hML).2 (by omega)
    refine ⟨t, t1, t2, t3, fun e he => ?_, fun q h1 h2 => ?_, fun hall => ?_, ?_⟩
    · have hf := (t3 e.1).mp (List.mem_map.mpr ⟨e, he, rfl⟩)
      have hcv := (M.covered hrect hr _).mp hf.1
      rw [t4 e he, M.chance hrect hr hre hc _ _ hcv.2.2, Nat.sub_add_cancel (by omega)]
    · have h3 : IsCovered h q ∧ ¬ Fringe h q := by rw [M.away hrect hr hre q, hfr]; exact ⟨h1, h2⟩
      have hcv := (M.covered hrect hr _).mp h3.1
      rw [t5 q h3.1 h3.2, M.chance hrect hr hre hc _ _ hcv.2.2, Nat.sub_add_cancel (by omega)]
    · apply t6
      intro q hq
      exact (M.fringe hrect hr hre hq).mpr (hall q ((M.covered hrect hr q).mp hq).1)
    · rw [t7, haway, hcard]
      simp only [Prod.mk.injEq]
      refine ⟨by omega, by omega, by omega⟩

end

/-- **C68** The probabilities the Python function `cal_possibility` lists: on a board (marks of mines and of safe cells
allowed, and taken to be right) that some layout explains, with every number within the reach of the enumeration and a mine
number of at least 1 - or a density that gives at least as many mines as are needed - the listed cells are covered cells
next to a number, none twice, each with its exact probability (the fraction of the layouts with the right number of mines
that have a mine there); the cells next to numbers that are *not* listed are mines in every layout or safe in every layout;
the probability of the other covered cells is exact; and the three mine numbers are the least number possible, the number
used, and the upper bound, counting the marks.  A mine number below the least possible raises a `RuntimeError`. -/
theorem C68_list_partial (g : Board) (r c : Nat) (hrect : Rect g r c) (hr : 0 < r) (hv : Shown g)
    (hre : ∀ p, IsNumber g p → InReach g p) (hc : ∃ σ, Consistent g σ) (minenum : ℚ) :
    ∃ lo hi, IsLeast {k | (layouts g k).Nonempty} lo ∧ IsGreatest {k | (layouts g k).Nonempty} hi ∧
      (1 ≤ minenum → ⌊minenum⌋ < lo + (markedSet g).card → pyCalPossibility g minenum = some (.error .unknown)) ∧
      ∀ m, MinesLeft g minenum lo hi m → lo ≤ m →
        (minenum < 1 → lo + (markedSet g).card ≤ ⌊((r * c : Nat) : ℚ) * minenum⌋.toNat) →
        ∃ t, pyCalPossibility g minenum = some (.ok t) ∧ (t.front.map fun e => e.1).Nodup ∧
          (∀ e ∈ t.front, Frontier g e.1 ∧ e.2 = chance g m e.1) ∧
          (∀ q, Frontier g q → q ∉ (t.front.map fun e => e.1) → Certain g q true ∨ Certain g q false) ∧
          (∀ q, IsCovered g q → ¬ Frontier g q → t.rest = chance g m q) ∧
          ((∀ q, IsCovered g q → Frontier g q) → t.rest = none) ∧
          t.range = (lo + (markedSet g).card, m + (markedSet g).card,
            min hi (m + Set.ncard {q | IsCovered g q ∧ ¬ Frontier g q}) + (markedSet g).card) := by
  obtain ⟨h, bn, bi, en, hm, M⟩ := markBoard_marking hrect hr hc
  obtain ⟨lo, hi, h1, h2, h3, h4⟩ := marked_poss M hrect hr hv hre hc minenum
  refine ⟨lo, hi, h1, h2, fun k1 k2 => ?_, fun m k1 k2 k3 => ?_⟩
  · obtain ⟨e, e1, e2⟩ := h3 k1 k2
    simp only [pyCalPossibility, pyMarked, hm, e2, e1, if_false]
  · obtain ⟨t, t1, t2, t3, t4, t5, t6, t7⟩ := h4 m k1 k2 k3
    refine ⟨t, by simp only [pyCalPossibility, pyMarked, hm, t1], t2, fun e he => ⟨?_, t4 e he⟩, fun q hq hn => ?_, t5, t6, t7⟩
    · have hf := (t3 e.1).mp (List.mem_map.mpr ⟨e, he, rfl⟩)
      exact (M.fringe hrect hr hre hf.1).mp hf
    · by_cases hb : q ∈ bi
      · exact .inl (M.basicIs q hb).2
      · by_cases hb2 : q ∈ bn
        · exact .inr (M.basicNot q hb2).2
        · exfalso
          have hcv := (M.covered hrect hr q).mpr ⟨hq.1, hb2, hb⟩
          exact hn ((t3 q).mpr ((M.fringe hrect hr hre hcv).mpr hq))


/-- The matrix of probabilities of the marked board, in terms of the original one. -/
theorem marked_onboard {r c : Nat} {g h : Board} {bn bi en : List Pos} (M : Marking r c g h bn bi en) (hrect : Rect g r c)
    (hr : 0 < r) (hv : Shown g) (hre : ∀ p, IsNumber g p → InReach g p) (hc : ∃ σ, Consistent g σ) (minenum : ℚ) :
    ∃ lo hi, IsLeast {k | (layouts g k).Nonempty} lo ∧ IsGreatest {k | (layouts g k).Nonempty} hi ∧
      (1 ≤ minenum → ⌊minenum⌋ < lo + (markedSet g).card → ∃ e, calPossibilityOnboard h minenum = some (.error e)) ∧
      ∀ m, MinesLeft g minenum lo hi m → lo ≤ m →
        (minenum < 1 → lo + (markedSet g).card ≤ ⌊((r * c : Nat) : ℚ) * minenum⌋.toNat) →
        ∃ P, calPossibilityOnboard h minenum = some (.ok (P, lo + (markedSet g).card, m + (markedSet g).card,
            min hi (m + Set.ncard {q | IsCovered g q ∧ ¬ Frontier g q}) + (markedSet g).card)) ∧
          P.length = r ∧ (∀ l ∈ P, l.length = c) ∧ ∀ i j, i < r → j < c →
            (g.get i j = 11 → (P.getD i []).getD j none = some 1) ∧
            (g.get i j ≠ 10 → g.get i j ≠ 11 → (P.getD i []).getD j none = some 0) ∧
            (g.get i j = 10 → (P.getD i []).getD j none = chance g m (i, j) ∨
              (Certain g (i, j) true ∧ (P.getD i []).getD j none = some 1) ∨
              (Certain g (i, j) false ∧ (P.getD i []).getD j none = some 0)) := by
  obtain ⟨d1, d2, d3, d4⟩ := M.dims hrect hr
  obtain ⟨lo, hi, g1, g2, g3, g4⟩ := marked_poss M hrect hr hv hre hc minenum
  refine ⟨lo, hi, g1, g2, fun h1 h2 => ?_, fun m hm hlo hs => ?_⟩
  · obtain ⟨e, -, he⟩ := g3 h1 h2
    exact ⟨e, by unfold calPossibilityOnboard; rw [he]⟩
  · obtain ⟨t, t1, -, -, -, -, -, t7⟩ := g4 m hm hlo hs
    have hch : ∃ τ, ReachConsistent h τ := by
      obtain ⟨σ, hσ⟩ := M.explained hrect hr hc
      exact ⟨σ, fun p hp _ _ => hσ p hp⟩
    obtain ⟨lo', hi', e1, e2, e3⟩ := cal_possibility_onboard_exact h (M.ne_nil hr) (M.shown hrect hr hv) hch minenum
    obtain ⟨k1, k2⟩ := M.least hrect hr hre hc g1
    obtain ⟨k3, k4⟩ := M.greatest hrect hr hre hc g2
    obtain rfl := e1.unique k2
    obtain rfl := e2.unique k4
    have hML := M.minesLeft hrect hr hre hc g1 g2 hm hlo (by rw [d1, d2]; exact hs)
    obtain ⟨P, p1, p2, p3, p4⟩ := (e3 _ hML).2 (by omega)
    refine ⟨P, ?_, p2.trans d3, fun l hl => (p3 l hl).trans d4, fun i j hi' hj' => ?_⟩
    · rw [p1]
      unfold calPossibilityOnboard at p1
      rw [t1] at p1
      simp only [Option.some.injEq, Except.ok.injEq, Prod.mk.injEq] at p1
      rw [← t7, p1.2]
    · have hp := p4 i j (by rw [d3]; exact hi') (by rw [d4]; exact hj')
      have hget := M.get (i, j) hi' hj'
      simp only at hget
      refine ⟨fun h11 => ?_, fun h10 h11 => ?_, fun h10 => ?_⟩
      · rw [hp, hget]
        have h1 : (i, j) ∉ bn := fun hb => by have := (M.basicNot _ hb).1.1.2; simp only at this; omega
        by_cases hb : (i, j) ∈ bi
        · rw [if_pos hb, if_pos rfl]
        · rw [if_neg hb, if_neg h1, h11, if_pos rfl]
      · have h1 : (i, j) ∉ bn := fun hb => h10 (M.basicNot _ hb).1.1.2
        have h2 : (i, j) ∉ bi := fun hb => h10 (M.basicIs _ hb).1.1.2
        rw [hp, hget, if_neg h2, if_neg h1, if_neg h11, if_neg h10]
      · by_cases hb : (i, j) ∈ bi
        · exact .inr (.inl ⟨(M.basicIs _ hb).2, by rw [hp, hget, if_pos hb, if_pos rfl]⟩)
        · by_cases hb2 : (i, j) ∈ bn
          · exact .inr (.inr ⟨(M.basicNot _ hb2).2, by rw [hp, hget, if_neg hb, if_pos hb2]; rfl⟩)
          · left
            rw [hp, hget, if_neg hb, if_neg hb2, h10, if_neg (by omega), if_pos rfl,
              M.chance hrect hr hre hc _ _ hb, Nat.sub_add_cancel (by omega)]

/-- **C68** The matrix of the Python function `cal_possibility_onboard`, under the same assumptions: 1 on the marked mines,
0 on the cells that show a number or are marked safe, the exact probability on each covered cell; the three mine numbers as
for `C68_list_partial`.  (If the numbers allow mine numbers on both sides but not this one, there is no layout and the entries
are NaN, except where the numbers alone decide.)  A mine number below the least possible raises a `RuntimeError`.  The function
of the wasm package returns the same, and an empty matrix with three zeros instead of the error. -/
theorem C68_matrix_partial (g : Board) (r c : Nat) (hrect : Rect g r c) (hr : 0 < r) (hv : Shown g)
    (hre : ∀ p, IsNumber g p → InReach g p) (hc : ∃ σ, Consistent g σ) (minenum : ℚ) :
    ∃ lo hi, IsLeast {k | (layouts g k).Nonempty} lo ∧ IsGreatest {k | (layouts g k).Nonempty} hi ∧
      (1 ≤ minenum → ⌊minenum⌋ < lo + (markedSet g).card →
        pyCalPossibilityOnboard g minenum = some (.error .enumeration) ∧
        ∀ n : Int, minenum = n → wasmCalPossibilityOnboard g n = some ([], 0, 0, 0)) ∧
      ∀ m, MinesLeft g minenum lo hi m → lo ≤ m →
        (minenum < 1 → lo + (markedSet g).card ≤ ⌊((r * c : Nat) : ℚ) * minenum⌋.toNat) →
        ∃ P rng, pyCalPossibilityOnboard g minenum = some (.ok (P, rng)) ∧
          (∀ n : Int, minenum = n → wasmCalPossibilityOnboard g n = some (P, rng)) ∧
          rng = (lo + (markedSet g).card, m + (markedSet g).card,
            min hi (m + Set.ncard {q | IsCovered g q ∧ ¬ Frontier g q}) + (markedSet g).card) ∧
          P.length = r ∧ (∀ l ∈ P, l.length = c) ∧ ∀ i j, i < r → j < c →
            ((layouts g m).Nonempty → (P.getD i []).getD j none =
              if g.get i j = 11 then some 1 else if g.get i j = 10 then chance g m (i, j) else some 0) ∧
            (layouts g m = ∅ → (P.getD i []).getD j none =
                (if g.get i j = 11 then some 1 else if g.get i j = 10 then none else some 0) ∨
              (Certain g (i, j) true ∧ (P.getD i []).getD j none = some 1) ∨
              (Certain g (i, j) false ∧ (P.getD i []).getD j none = some 0)) := by
  obtain ⟨h, bn, bi, en, hm, M⟩ := markBoard_marking hrect hr hc
  obtain ⟨lo, hi, h1, h2, h3, h4⟩ := marked_onboard M hrect hr hv hre hc minenum
  refine ⟨lo, hi, h1, h2, fun k1 k2 => ?_, fun m k1 k2 k3 => ?_⟩
  · obtain ⟨e, e2⟩ := h3 k1 k2
    refine ⟨by simp only [pyCalPossibilityOnboard, pyMarked, hm, e2], fun n hn => ?_⟩
    rw [hn] at e2
    simp only [wasmCalPossibilityOnboard, hm, e2]
  · obtain ⟨P, t1, t2, t3, t4⟩ := h4 m k1 k2 k3
    refine ⟨P, _, by simp only [pyCalPossibilityOnboard, pyMarked, hm, t1], fun n hn => ?_, rfl, t2, t3, fun i j hi' hj' => ?_⟩
    · rw [hn] at t1
      simp only [wasmCalPossibilityOnboard, hm, t1]
    · obtain ⟨a1, a2, a3⟩ := t4 i j hi' hj'
      by_cases h11 : g.get i j = 11
      · rw [if_pos h11, if_pos h11]
        exact ⟨fun _ => a1 h11, fun _ => .inl (a1 h11)⟩
      · by_cases h10 : g.get i j = 10
        · simp only [h10, if_true]
          rw [if_neg (by omega)]
          refine ⟨fun hl => ?_, fun hl => ?_⟩
          · rcases a3 h10 with hq | ⟨hq, e⟩ | ⟨hq, e⟩
            · exact hq
            · rw [e, certain_chance hre hc hl hq]; simp
            · rw [e, certain_chance hre hc hl hq]; simp
          · have hno : chance g m (i, j) = none := by unfold chance; rw [hl]; simp
            rw [hno] at a3
            exact a3 h10
        · rw [if_neg h11, if_neg h10, if_neg h11, if_neg h10]
          exact ⟨fun _ => a2 h10 h11, fun _ => .inl (a2 h10 h11)⟩

/-- **C68** On a board some layout with the given number of mines explains, marking first changes nothing: the Python and
the wasm function return what the engine returns for the caller's board. -/
theorem C68_marking_harmless (g : Board) (r c : Nat) (hrect : Rect g r c) (hr : 0 < r) (hv : Shown g)
    (hre : ∀ p, IsNumber g p → InReach g p) (hc : ∃ σ, Consistent g σ) (m n : Nat) (hn : 1 ≤ n)
    (hm : m + (markedSet g).card = n) (hl : (layouts g m).Nonempty) :
    ∃ P rng, calPossibilityOnboard g n = some (.ok (P, rng)) ∧ pyCalPossibilityOnboard g n = some (.ok (P, rng)) ∧
      wasmCalPossibilityOnboard g n = some (P, rng) := by
  have hgne : g ≠ [] := by
    intro hh
    have := hrect.len
    rw [hh] at this
    simp at this
    omega
  have hcg : ∃ τ, ReachConsistent g τ := by
    obtain ⟨σ, hσ⟩ := hc
    exact ⟨σ, fun p hp _ _ => hσ p hp⟩
  have h1 : (1 : ℚ) ≤ n := by exact_mod_cast hn
  have hd := rect_dims hrect hr
  have hfr : ∀ q, Fringe g q ↔ Frontier g q := fun q =>
    ⟨fun ⟨h1, p, h2, _, h3⟩ => ⟨h1, p, h2, h3⟩, fun ⟨h1, p, h2, h3⟩ => ⟨h1, p, h2, hre p h2, h3⟩⟩
  obtain ⟨lo, hi, e1, e2, -, e4⟩ := C68_matrix_partial g r c hrect hr hv hre hc (n : ℚ)
  obtain ⟨lo', hi', k1, k2, k3⟩ := cal_possibility_onboard_exact g hgne hv hcg (n : ℚ)
  obtain rfl := e1.unique k1
  obtain rfl := e2.unique k2
  have hML : ∀ lo hi, MinesLeft g (n : ℚ) lo hi m := by
    intro lo hi
    unfold MinesLeft
    rw [if_pos h1, Int.floor_natCast]
    exact_mod_cast hm
  obtain ⟨P, rng, p1, p2, p3, p4, p5, p6⟩ := e4 m (hML _ _) (e1.2 hl) (fun h => absurd h (not_lt.mpr h1))
  obtain ⟨Q, q1, q2, q3, q4⟩ := (k3 m (hML _ _)).2 (e1.2 hl)
  refine ⟨P, rng, ?_, p1, p2 (n : Int) (by simp)⟩
  have hPQ : P = Q := by
    rw [hd.1] at q2
    rw [hd.2] at q3
    apply List.ext_getElem (p4.trans q2.symm)
    intro i hi1 hi2
    apply List.ext_getElem ((p5 _ (List.getElem_mem _)).trans (q3 _ (List.getElem_mem _)).symm)
    intro j hj1 hj2
    have hi3 : i < r := by omega
    have hj3 : j < c := by have := p5 _ (List.getElem_mem hi1); omega
    have h1 := (p6 i j hi3 hj3).1 hl
    have h2 := q4 i j (by rw [hd.1]; exact hi3) (by rw [hd.2]; exact hj3)
    rw [← h2] at h1
    simpa [List.getD_eq_getElem?_getD, List.getElem?_eq_getElem hi1, List.getElem?_eq_getElem hi2,
      List.getElem?_eq_getElem hj1, List.getElem?_eq_getElem hj2] using h1
  rw [q1, p3, hPQ]
  simp only [hfr]

/-- **C68** Finding: a board that no layout explains is not always reported.  The marking removes the contradiction - it
marks every covered cell as safe - and the answer is 0 everywhere, next to a 1; without the marking the engine reports it. -/
theorem C68_contradiction_missed : (∀ σ, ¬ Consistent [[1, 1, 10, 1], [10, 10, 10, 1]] σ) ∧
    (∃ t, pyCalPossibility [[1, 1, 10, 1], [10, 10, 10, 1]] 1 = some (.ok t)) ∧
    pyCalPossibilityOnboard [[1, 1, 10, 1], [10, 10, 10, 1]] 1 =
      some (.ok ([[some 0, some 0, some 0, some 0], [some 0, some 0, some 0, some 0]], 0, 1, 0)) ∧
    calPossibilityOnboard [[1, 1, 10, 1], [10, 10, 10, 1]] 1 = some (.error 1) := by
  have hx : calPossibilityOnboard [[1, 1, 10, 1], [10, 10, 10, 1]] 1 = some (.error 1) := by decide +kernel
  refine ⟨fun σ hσ => ?_, ?_, by decide +kernel, hx⟩
  · have hcg : ∃ τ, ReachConsistent [[1, 1, 10, 1], [10, 10, 10, 1]] τ := ⟨σ, fun p hp _ _ => hσ p hp⟩
    obtain ⟨lo, hi, e1, e2, e3⟩ := cal_possibility_onboard_exact [[1, 1, 10, 1], [10, 10, 10, 1]] (by decide)
      (by decide +kernel) hcg 1
    have hk : (markedSet [[1, 1, 10, 1], [10, 10, 10, 1]]).card = 0 := by decide +kernel
    have hML : MinesLeft [[1, 1, 10, 1], [10, 10, 10, 1]] 1 lo hi 1 := by
      unfold MinesLeft
      rw [if_pos le_rfl, hk]
      simp
    by_cases hlo : 1 < lo
    · have := (e3 1 hML).1 hlo
      rw [hx] at this
      simp at this
    · obtain ⟨P, hP, -⟩ := (e3 1 hML).2 (by omega)
      rw [hx] at hP
      simp at hP
  · have h : (match pyCalPossibility [[1, 1, 10, 1], [10, 10, 10, 1]] 1 with | some (.ok _) => true | _ => false) = true := by
      decide +kernel
    revert h
    split
    · intro _; exact ⟨_, ‹_›⟩
    · simp

/-- **C68** Finding: with a density that gives fewer mines than the marking finds, the functions panic (in a release build the
subtraction wraps), although the engine alone raises the number to the least possible one. -/
theorem C68_density_panics : pyCalPossibilityOnboard [[1, 10]] (2/5) = none ∧ wasmCalPossibilityOnboard [[1, 10]] 0 = none ∧
    calPossibilityOnboard [[1, 10]] (2/5) = some (.ok ([[some 0, some 1]], 1, 1, 1)) := by
  have h1 : (pyCalPossibilityOnboard [[1, 10]] (2/5)).isNone = true := by decide +kernel
  have h2 : (wasmCalPossibilityOnboard [[1, 10]] 0).isNone = true := by decide +kernel
  exact ⟨by simpa using h1, by simpa using h2, by decide +kernel⟩

/-- **C68** Finding: `cal_possibility` of the Python package does not tell certain mines from certain safe cells: both are
missing from the list. -/
theorem C68_list_silent :
    pyCalPossibility [[10, 1, 0, 0, 10]] 1 = some (.ok ⟨[], none, (1, 1, 1), 0⟩) ∧
    pyCalPossibility [[10, 0, 0, 1, 10]] 1 = some (.ok ⟨[], none, (1, 1, 1), 0⟩) := by
  refine ⟨?_, ?_⟩ <;> decide +kernel

/-- **C68** When `mark_board` reports the caller's board as contradictory, both Python functions raise the error of the marking
stage, whatever the mine number, and indeed no layout explains the board. -/
theorem C68_marking_error (g : Board) (r c : Nat) (hrect : Rect g r c) (hr : 0 < r) {e : Nat} {h : Board}
    (hm : markBoard g = some (.error e, h)) :
    (∀ σ, ¬ Consistent g σ) ∧ ∀ n, pyCalPossibility g n = some (.error .marking) ∧
      pyCalPossibilityOnboard g n = some (.error .marking) := by
  refine ⟨fun σ hσ => ?_, fun n => ⟨?_, ?_⟩⟩
  · obtain ⟨h', _, _, _, e1, -⟩ := markBoard_marking hrect hr ⟨σ, hσ⟩
    rw [hm] at e1
    simp at e1
  · simp only [pyCalPossibility, pyMarked, hm]
  · simp only [pyCalPossibilityOnboard, pyMarked, hm]

/-- such boards: a number larger than its covered neighbours, a zero next to a mark -/
example : markBoard [[2, 10]] = some (.error 7, [[2, 10]]) ∧
    markBoard [[0, 11, 0, 10]] = some (.error 6, [[0, 11, 0, 10]]) := by
  constructor
  · have h : (match markBoard [[2, 10]] with | some (.error e, h) => some (e, h) | _ => none) = some (7, [[2, 10]]) := by
      decide +kernel
    revert h
    split
    · rename_i e h he
      intro hh
      simp only [Option.some.injEq, Prod.mk.injEq] at hh
      rw [he, hh.1, hh.2]
    · simp
  · have h : (match markBoard [[0, 11, 0, 10]] with | some (.error e, h) => some (e, h) | _ => none) =
        some (6, [[0, 11, 0, 10]]) := by decide +kernel
    revert h
    split
    · rename_i e h he
      intro hh
      simp only [Option.some.injEq, Prod.mk.injEq] at hh
      rw [he, hh.1, hh.2]
    · simp

/-- **C68** Finding: the wasm function ignores what `mark_board` reports: for a 2 next to a single covered cell it returns the
empty matrix only because the engine finds the contradiction again; for the 0 next to a mark the engine panics (an upper limit
of -1 mines overflows; without overflow checks it wraps to an empty range). -/
theorem C68_wasm_ignores : wasmCalPossibilityOnboard [[2, 10]] 2 = some ([], 0, 0, 0) ∧
    wasmCalPossibilityOnboard [[0, 11, 0, 10]] 1 = none := by
  have h : (wasmCalPossibilityOnboard [[0, 11, 0, 10]] 1).isNone = true := by decide +kernel
  exact ⟨by decide +kernel, by simpa using h⟩

/-- A board with a right mark, and a covered cell next to it. -/
def markSample : Board := [[1, 11, 10, 10], [1, 10, 2, 10]]

/-- The hypotheses of the C68 theorems hold for it ... -/
example : Rect markSample 2 4 ∧ Shown markSample ∧ (∃ σ, Consistent markSample σ) ∧
    (∀ p, IsNumber markSample p → InReach markSample p) ∧ (layouts markSample 1).Nonempty := by
  have hcons : Consistent markSample (fun p => decide (p = (0, 2))) := by
    intro p hp
    have hg : p ∈ grid 2 4 := hp.1
    have : ∀ p ∈ grid 2 4, Board.get markSample p.1 p.2 < 10 →
        Board.get markSample p.1 p.2 = minesNear markSample (fun p => decide (p = (0, 2))) p := by decide +kernel
    exact this p hg hp.2.2
  have hreach : ∀ p, IsNumber markSample p → InReach markSample p := fun p _ => inReach_small _ (by decide +kernel) p
  refine ⟨⟨rfl, by decide⟩, by unfold Shown; decide +kernel, ⟨_, hcons⟩, hreach, {(0, 2)}, ?_⟩
  refine (layouts_mem hreach ⟨_, hcons⟩ 1 _).mpr ⟨?_, by decide, ?_⟩
  · have : ∀ q ∈ ({(0, 2)} : Finset Pos), q ∈ grid 2 4 ∧ Board.get markSample q.1 q.2 = 10 := by decide +kernel
    exact this
  · simpa using hcons

/-- ... and the answer. -/
example : pyCalPossibilityOnboard markSample 2 =
    some (.ok ([[some 0, some 1, some (1/3), some (1/3)], [some 0, some 0, some 0, some (1/3)]], 2, 2, 2)) := by decide +kernel

end Ms.Properties
