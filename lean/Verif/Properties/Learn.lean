import Verif.Lemmas.Learn

/-! # C89: what the probabilities mean as the game goes on

`calPossibilityOnboard g n` is the table of probabilities of the player's board `g` with `n` mines, with the least possible,
the assumed and the greatest possible number of mines (exact arithmetic; C77 is about rounding). -/

namespace Ms.Properties
open Ms Ms.Spec Finset

/-- the answer of `cal_possibility_onboard` on a board with a possible set of `m` further mines -/
theorem onboard_fractions {g : Board} (hne : g ≠ []) (hv : ∀ p ∈ grid g.row g.col, 0 ≤ g.get p.1 p.2) {n : ℚ} {m : Nat}
    (h1 : 1 ≤ n) (hm : (m : ℤ) + (markedSet g).card = ⌊n⌋) (hl : (layouts g m).Nonempty) :
    ∃ P lo hi, IsLeast {k | (layouts g k).Nonempty} lo ∧ IsGreatest {k | (layouts g k).Nonempty} hi ∧
      calPossibilityOnboard g n = some (.ok (P, lo + (markedSet g).card, m + (markedSet g).card,
        min hi (m + Set.ncard {q | IsCovered g q ∧ ¬ Fringe g q}) + (markedSet g).card)) ∧ Fractions g m P := by
  obtain ⟨A, hA⟩ := hl
  obtain ⟨lo, hi, hlo, hhi, key⟩ := cal_possibility_onboard_exact g hne hv ⟨_, (mem_layouts.mp hA).2.2⟩ n
  have hml : MinesLeft g n lo hi m := by
    unfold MinesLeft
    rw [if_pos h1]
    exact hm
  obtain ⟨P, e, _, _, f⟩ := (key m hml).2 (hlo.2 ⟨A, hA⟩)
  exact ⟨P, lo, hi, hlo, hhi, e, fractions_of ⟨A, hA⟩ f⟩

/-- **C89** the probabilities are numbers from 0 to 1 and add up to the number of mines assumed (the number given, or the one
found from the density), on every board with a covered cell `q`, unless
the probability of `q` (and of all other covered cells) is NaN. -/
theorem C89_total {g : Board} (hne : g ≠ []) (hv : ∀ p ∈ grid g.row g.col, 0 ≤ g.get p.1 p.2) (hc : ∃ s, ReachConsistent g s)
    {n : ℚ} {P : List (List (Option ℚ))} {lo t hi : Nat} (hans : calPossibilityOnboard g n = some (.ok (P, lo, t, hi)))
    {q : Pos} (hq : IsCovered g q) :
    (total P g.row g.col = t ∧ ∀ p ∈ grid g.row g.col, ∃ x, cellProb P p = some x ∧ 0 ≤ x ∧ x ≤ 1) ∨
      cellProb P q = none := by
  classical
  obtain ⟨a, b, ha, hb, key⟩ := cal_possibility_onboard_exact g hne hv hc n
  have main : ∀ m, MinesLeft g n a b m →
      (total P g.row g.col = t ∧ ∀ p ∈ grid g.row g.col, ∃ x, cellProb P p = some x ∧ 0 ≤ x ∧ x ≤ 1) ∨
      cellProb P q = none := by
    intro m hm
    obtain ⟨k1, k2⟩ := key m hm
    by_cases hlt : m < a
    · rw [k1 hlt] at hans
      exact absurd hans (by simp)
    · obtain ⟨P', e, _, _, f⟩ := k2 (by omega)
      rw [e] at hans
      simp only [Option.some.injEq, Except.ok.injEq, Prod.mk.injEq] at hans
      obtain ⟨rfl, -, rfl, -⟩ := hans
      by_cases hl : (layouts g m).Nonempty
      · left
        have hf := fractions_of hl f
        refine ⟨fractions_total hl hf, fun p hp => ⟨_, hf p hp, by positivity, ?_⟩⟩
        have hpos : (0 : ℚ) < ((layouts g m).card : ℚ) := by exact_mod_cast hl.card_pos
        rw [div_le_one hpos]
        exact_mod_cast Finset.card_le_card (Finset.filter_subset _ _)
      · right
        have hq' := mem_grid.mp hq.1
        unfold cellProb
        rw [f q.1 q.2 hq'.1 hq'.2, if_neg (by rw [hq.2]; decide), if_pos hq.2]
        unfold chance
        rw [if_pos (by rw [Finset.card_eq_zero]; exact Finset.not_nonempty_iff_eq_empty.mp hl)]
  by_cases h1 : 1 ≤ n
  · by_cases h2 : ⌊n⌋ < (markedSet g).card
    · rw [onboard_error (cal_possibility_too_few_mines g hne hv hc n h1 h2)] at hans
      exact absurd hans (by simp)
    · refine main (⌊n⌋ - (markedSet g).card).toNat ?_
      unfold MinesLeft
      rw [if_pos h1]
      omega
  · by_cases h2 : ⌊((g.row * g.col : Nat) : ℚ) * n⌋.toNat < (markedSet g).card
    · rw [onboard_panic (cal_possibility_density_panics g hne hv hc n (by linarith) h2)] at hans
      exact absurd hans (by simp)
    · refine main (min (max (⌊((g.row * g.col : Nat) : ℚ) * n⌋.toNat - (markedSet g).card) a) b) ?_
      unfold MinesLeft
      rw [if_neg h1]
      exact ⟨by omega, rfl⟩

/-- **C89** what is certain stays certain.  `g'` shows more than `g`, a set of `m` covered cells of it is possible, and the
given number `n` of mines is `m` and the marked ones.  Then both boards get tables, and a cell with probability 0 (1) before
has probability 0 (1) after: in particular it has not been marked as a mine (opened) meanwhile.  And the three numbers of
mines only get closer.  (`hr`: within the limit of 55 linked cells.) -/
theorem C89_certain {g g' : Board} (hne : g ≠ []) (hv : ∀ p ∈ grid g.row g.col, 0 ≤ g.get p.1 p.2) (h : Learned g g')
    (hr : ∀ p, IsNumber g' p → InReach g' p) {m : Nat} {A : Finset Pos} (hA : Possible g' m A) {n : ℚ} (h1 : 1 ≤ n)
    (hm : (m : ℤ) + (markedSet g').card = ⌊n⌋) :
    ∃ P P' lo lo' t hi hi', calPossibilityOnboard g n = some (.ok (P, lo, t, hi)) ∧
      calPossibilityOnboard g' n = some (.ok (P', lo', t, hi')) ∧ lo ≤ lo' ∧ hi' ≤ hi ∧
      ∀ p ∈ grid g.row g.col,
        (cellProb P p = some 0 → cellProb P' p = some 0 ∧ g'.get p.1 p.2 ≠ 11) ∧
        (cellProb P p = some 1 → cellProb P' p = some 1 ∧ (g'.get p.1 p.2 = 10 ∨ g'.get p.1 p.2 = 11)) := by
  have hne' : g' ≠ [] := by
    rintro rfl
    have := h.rows
    cases g with
    | nil => exact hne rfl
    | cons a l => simp [Board.row] at this
  have hv' : ∀ p ∈ grid g'.row g'.col, 0 ≤ g'.get p.1 p.2 := by
    intro p hp
    rw [h.rows, h.cols] at hp
    have := hv p hp
    rcases h.cells p hp with e | ⟨_, e⟩ <;> omega
  have hs := hA.2.2
  have hL' : (layouts g' m).Nonempty := ⟨A, (layouts_explain hs hr m A).mpr hA⟩
  have hmk := learned_marked h
  have hup : ∀ {k B}, B ∈ layouts g' k → B ∪ newMarks g g' ∈ layouts g (k + (newMarks g g').card) :=
    fun hB => (learned_layout h hs hr hB).1
  have hL : (layouts g (m + (newMarks g g').card)).Nonempty := ⟨_, hup hL'.choose_spec⟩
  obtain ⟨P, lo, hi, a1, a2, a3, a4⟩ := onboard_fractions hne hv h1 (by push_cast; omega) hL
  obtain ⟨P', lo', hi', b1, b2, b3, b4⟩ := onboard_fractions hne' hv' h1 hm hL'
  have e : m + (newMarks g g').card + (markedSet g).card = m + (markedSet g').card := by omega
  rw [e] at a3
  refine ⟨P, P', _, _, _, _, _, a3, b3, ?_, ?_, fun p hp => ⟨fun hz => ?_, fun hz => ?_⟩⟩
  · obtain ⟨B, hB⟩ := b1.1
    have := a1.2 ⟨_, hup hB⟩
    omega
  · obtain ⟨B, hB⟩ := b2.1
    have h2 := a2.2 ⟨_, hup hB⟩
    have h3 : Set.ncard {q | IsCovered g' q ∧ ¬ Fringe g' q} ≤ Set.ncard {q | IsCovered g q ∧ ¬ Fringe g q} := by
      refine Set.ncard_le_ncard ?_ ?_
      · rintro q ⟨c1, c2⟩
        refine ⟨learned_covered h c1, fun ⟨_, p, hp, _, hn⟩ => c2 ⟨c1, p, (learned_number h hp).1, hr p (learned_number h hp).1, hn⟩⟩
      · refine (coveredSet g).finite_toSet.subset fun q hq => ?_
        exact mem_coveredSet.mpr hq.1
    omega
  · rw [fractions_zero hL a4 hp] at hz
    have hg : g'.get p.1 p.2 ≠ 11 := by
      intro e
      rcases h.cells p hp with f | ⟨f, _⟩
      · exact hz.1 (by omega)
      · exact hz.2 _ (hup hL'.choose_spec) (Finset.mem_union_right _ (by
          unfold newMarks; rw [Finset.mem_filter]; exact ⟨hp, f, e⟩))
    refine ⟨(fractions_zero hL' b4 (by rw [h.rows, h.cols]; exact hp)).mpr ⟨hg, fun B hB k => ?_⟩, hg⟩
    exact hz.2 _ (hup hB) (Finset.mem_union_left _ k)
  · rw [fractions_one hL a4 hp] at hz
    have hN : ∀ {B}, B ∈ layouts g' m → g'.get p.1 p.2 = 11 ∨ p ∈ B := by
      intro B hB
      rcases hz with hz | hz
      · left
        rcases h.cells p hp with f | ⟨f, _⟩ <;> omega
      · rcases Finset.mem_union.mp (hz _ (hup hB)) with k | k
        · exact .inr k
        · exact .inl (Finset.mem_filter.mp k).2.2
    refine ⟨(fractions_one hL' b4 (by rw [h.rows, h.cols]; exact hp)).mpr ?_, ?_⟩
    · by_cases e : g'.get p.1 p.2 = 11
      · exact .inl e
      · exact .inr fun B hB => (hN hB).resolve_left e
    · rcases hN hL'.choose_spec with k | k
      · exact .inr k
      · exact .inl (mem_coveredSet.mp ((mem_layouts.mp hL'.choose_spec).1 k)).2


/-- **C89** the probability now is the average of the probabilities after a click.  `c` is covered; `h v` is the board with `v` in
the cell `c`: a number, or 11 for a mine.  If the set of possible layouts is not empty, then for every cell `q` the probability
of a mine is the sum, over all that `c` can turn out to be, of the chance of that times the probability the function then gives
for `q`; and these chances add up to 1.  (Where the chance is 0 the board `h v` is impossible and nothing is claimed about the
answer for it.) -/
theorem C89_average {g : Board} (hne : g ≠ []) (hv : ∀ p ∈ grid g.row g.col, 0 ≤ g.get p.1 p.2) {c : Pos} (hc : IsCovered g c)
    {h : Int → Board} (hput : ∀ v, Put g (h v) c v) (hr : ∀ p, IsNumber g p → InReach g p)
    (hrh : ∀ v, 0 ≤ v → v ≤ 11 → ∀ p, IsNumber (h v) p → InReach (h v) p) {m : Nat} {A : Finset Pos} (hA : Possible g m A)
    {n : ℚ} (h1 : 1 ≤ n) (hm : (m : ℤ) + (markedSet g).card = ⌊n⌋) :
    ∃ (P : List (List (Option ℚ))) (Q : Int → List (List (Option ℚ))) (x : Pos → ℚ) (y : Int → Pos → ℚ),
      (∃ r, calPossibilityOnboard g n = some (.ok (P, r))) ∧ (∀ q ∈ grid g.row g.col, cellProb P q = some (x q)) ∧
      (x c ≠ 0 → (∃ r, calPossibilityOnboard (h 11) n = some (.ok (Q 11, r))) ∧
        ∀ q ∈ grid g.row g.col, cellProb (Q 11) q = some (y 11 q)) ∧
      (∀ k < 9, showChance g m c k ≠ 0 → (∃ r, calPossibilityOnboard (h k) n = some (.ok (Q k, r))) ∧
        ∀ q ∈ grid g.row g.col, cellProb (Q k) q = some (y k q)) ∧
      (∀ q ∈ grid g.row g.col, x q = x c * y 11 q + ∑ k ∈ range 9, showChance g m c k * y k q) ∧
      x c + ∑ k ∈ range 9, showChance g m c k = 1 := by
  classical
  have hs := hA.2.2
  have hL : (layouts g m).Nonempty := ⟨A, (layouts_explain hs hr m A).mpr hA⟩
  have hN : (0 : ℚ) < ((layouts g m).card : ℚ) := by exact_mod_cast hL.card_pos
  obtain ⟨P, lo, hi, -, -, a3, a4⟩ := onboard_fractions hne hv h1 hm hL
  have hneh : ∀ v, h v ≠ [] := by
    intro v e
    have := (hput v).rows
    rw [e] at this
    cases g with
    | nil => exact hne rfl
    | cons a l => simp [Board.row] at this
  have hvh : ∀ v, 0 ≤ v → ∀ p ∈ grid (h v).row (h v).col, 0 ≤ (h v).get p.1 p.2 := by
    intro v h0 p hp
    rw [(hput v).rows, (hput v).cols] at hp
    by_cases e : p = c
    · rw [e, (hput v).here]; exact h0
    · rw [(hput v).there p hp e]; exact hv p hp
  -- the layouts in which `c` is free and has `k` mines around it
  have hfree : ∀ k : Nat, k < 9 → (∃ B ∈ layouts g m, c ∉ B ∧ minesNear g (fun q => decide (q ∈ B)) c = k) →
      layouts (h k) m = (layouts g m).filter fun B => c ∉ B ∧ minesNear g (fun q => decide (q ∈ B)) c = k := by
    rintro k hk ⟨B, hB, hB'⟩
    have hBp := (layouts_explain hs hr m B).mp hB
    have hBh := (put_free (hput k) hc hk).mpr ⟨hBp, hB'⟩
    ext D
    rw [Finset.mem_filter, layouts_explain hs hr, layouts_explain hBh.2.2 (hrh k (by omega) (by omega)), put_free (hput k) hc hk]
  have hmine : ∀ B ∈ layouts g m, c ∈ B → 1 ≤ m ∧
      layouts (h 11) (m - 1) = ((layouts g m).filter fun B => c ∈ B).image fun B => B.erase c := by
    intro B hB hcB
    have hBp := (layouts_explain hs hr m B).mp hB
    have hm1 : 1 ≤ m := by
      rw [← hBp.2.1]
      exact Finset.card_pos.mpr ⟨c, hcB⟩
    refine ⟨hm1, ?_⟩
    have hBh : Possible (h 11) (m - 1) (B.erase c) := (put_mine (hput 11) hc).mpr
      ⟨by rw [Finset.insert_erase hcB, Nat.sub_add_cancel hm1]; exact hBp, Finset.notMem_erase _ _⟩
    ext D
    rw [layouts_explain hBh.2.2 (hrh 11 (by omega) (by omega)), put_mine (hput 11) hc, Nat.sub_add_cancel hm1, Finset.mem_image]
    constructor
    · rintro ⟨d1, d2⟩
      exact ⟨insert c D, Finset.mem_filter.mpr ⟨(layouts_explain hs hr m _).mpr d1, Finset.mem_insert_self _ _⟩,
        Finset.erase_insert d2⟩
    · rintro ⟨E, hE, rfl⟩
      obtain ⟨e1, e2⟩ := Finset.mem_filter.mp hE
      rw [Finset.insert_erase e2]
      exact ⟨(layouts_explain hs hr m E).mp e1, Finset.notMem_erase _ _⟩
  -- the table for the board `h v`, with the fractions it contains
  let mv : Int → Nat := fun v => if v = 11 then m - 1 else m
  let Q : Int → List (List (Option ℚ)) := fun v => match calPossibilityOnboard (h v) n with
    | some (.ok (T, _)) => T
    | _ => []
  have hQ : ∀ v, 0 ≤ v → v ≤ 11 → (mv v : ℤ) + (markedSet (h v)).card = ⌊n⌋ → (layouts (h v) (mv v)).Nonempty →
      (∃ r, calPossibilityOnboard (h v) n = some (.ok (Q v, r))) ∧
        ∀ q ∈ grid g.row g.col, cellProb (Q v) q =
          some (((withMine (h v) (mv v) q).card : ℚ) / ((layouts (h v) (mv v)).card : ℚ)) := by
    intro v h0 h11 hmv hlv
    obtain ⟨T, lo', hi', -, -, b3, b4⟩ := onboard_fractions (hneh v) (hvh v h0) h1 hmv hlv
    have e : Q v = T := by
      show (match calPossibilityOnboard (h v) n with | some (.ok (T, _)) => T | _ => []) = T
      rw [b3]
    rw [e]
    refine ⟨⟨_, b3⟩, fun q hq => b4 q ?_⟩
    rw [(hput v).rows, (hput v).cols]
    exact hq
  have hmarkfree : ∀ k : Nat, k < 9 → (markedSet (h k)).card = (markedSet g).card := by
    intro k hk
    congr 1
    unfold markedSet
    rw [(hput k).rows, (hput k).cols]
    refine Finset.filter_congr fun q hq => ?_
    by_cases e : q = c
    · rw [e, (hput k).here, hc.2]; omega
    · rw [(hput k).there q hq e]
  have hmarkmine : (markedSet (h 11)).card = (markedSet g).card + 1 := by
    have hnot : c ∉ markedSet g := by
      intro k
      have a := (Finset.mem_filter.mp k).2
      have b := hc.2
      omega
    rw [← Finset.card_insert_of_notMem hnot]
    congr 1
    ext q
    unfold markedSet
    rw [Finset.mem_insert, Finset.mem_filter, Finset.mem_filter, (hput 11).rows, (hput 11).cols]
    by_cases e : q = c
    · rw [e, (hput 11).here]
      simp only [and_true, true_or, iff_true]
      exact hc.1
    · constructor
      · rintro ⟨a, b⟩; exact .inr ⟨a, by rw [← (hput 11).there q a e]; exact b⟩
      · rintro (a | ⟨a, b⟩)
        · exact absurd a e
        · exact ⟨a, by rw [(hput 11).there q a e]; exact b⟩
  have hshow : ∀ k, showChance g m c k = (((layouts g m).filter fun B => c ∉ B ∧
      minesNear g (fun q => decide (q ∈ B)) c = k).card : ℚ) / ((layouts g m).card : ℚ) := by
    intro k
    unfold showChance
    have e1 : ((coveredSet g).powerset.filter fun A => Possible g m A) = layouts g m := by
      ext B
      rw [Finset.mem_filter, Finset.mem_powerset, layouts_explain hs hr]
      exact ⟨fun k => k.2, fun k => ⟨fun q hq => mem_coveredSet.mpr (k.1 q hq), k⟩⟩
    have e2 : ((coveredSet g).powerset.filter fun A => Possible g m A ∧ c ∉ A ∧
        minesNear g (fun q => decide (q ∈ A)) c = k) = (layouts g m).filter fun B => c ∉ B ∧
          minesNear g (fun q => decide (q ∈ B)) c = k := by
      rw [← e1, Finset.filter_filter]
    congr 2
    · rw [← e2]
    · rw [← e1]
  have hcnt : ∀ q ∈ grid g.row g.col, (withMine g m q).card =
      ((withMine g m q).filter fun B => c ∈ B).card +
        ∑ k ∈ range 9, ((withMine g m q).filter fun B => c ∉ B ∧ minesNear g (fun q => decide (q ∈ B)) c = k).card := by
    intro q _
    rw [← Finset.card_filter_add_card_filter_not (s := withMine g m q) (fun B => c ∈ B)]
    congr 1
    rw [Finset.card_eq_sum_card_fiberwise (f := fun B => minesNear g (fun q => decide (q ∈ B)) c) (t := range 9)]
    · refine Finset.sum_congr rfl fun k _ => ?_
      rw [Finset.filter_filter]
    · intro B hB
      simp only [Finset.mem_coe, Finset.mem_filter, Finset.mem_range] at hB ⊢
      exact minesNear_free_lt hc hB.2
  have hxc : ∀ q ∈ grid g.row g.col, cellProb P q = some (((withMine g m q).card : ℚ) / ((layouts g m).card : ℚ)) := a4
  have hwc : withMine g m c = (layouts g m).filter fun B => c ∈ B := by
    unfold withMine
    refine Finset.filter_congr fun B _ => ?_
    rw [hc.2]
    simp
  -- the case of a mine
  have hM : ∀ q ∈ grid g.row g.col, (((withMine g m q).filter fun B => c ∈ B).card : ℚ) =
      ((withMine g m c).card : ℚ) * (((withMine (h 11) (mv 11) q).card : ℚ) / ((layouts (h 11) (mv 11)).card : ℚ)) := by
    intro q hq
    by_cases hex : ∃ B ∈ layouts g m, c ∈ B
    · obtain ⟨B, hB, hcB⟩ := hex
      obtain ⟨hm1, hlay⟩ := hmine B hB hcB
      have hinj : Set.InjOn (fun B : Finset Pos => B.erase c) {B | c ∈ B} := by
        intro D hD E hE e
        rw [← Finset.insert_erase (show c ∈ D from hD), ← Finset.insert_erase (show c ∈ E from hE)]
        exact congrArg (insert c) e
      have hmv : mv 11 = m - 1 := rfl
      have hcard : (layouts (h 11) (mv 11)).card = (withMine g m c).card := by
        rw [hmv, hlay, hwc, Finset.card_image_of_injOn]
        exact hinj.mono fun D hD => (Finset.mem_filter.mp hD).2
      have hcardq : (withMine (h 11) (mv 11) q).card = ((withMine g m q).filter fun B => c ∈ B).card := by
        rw [← Finset.card_image_of_injOn (f := fun B : Finset Pos => B.erase c)
          (s := (withMine g m q).filter fun B => c ∈ B) (hinj.mono fun D hD => (Finset.mem_filter.mp hD).2)]
        congr 1
        ext D
        unfold withMine
        rw [Finset.mem_filter, hmv, hlay, Finset.mem_image, Finset.mem_image]
        constructor
        · rintro ⟨⟨E, hE, rfl⟩, hD⟩
          obtain ⟨e1, e2⟩ := Finset.mem_filter.mp hE
          refine ⟨E, Finset.mem_filter.mpr ⟨Finset.mem_filter.mpr ⟨e1, ?_⟩, e2⟩, rfl⟩
          by_cases e : q = c
          · exact .inr (e ▸ e2)
          · rw [(hput 11).there q hq e, Finset.mem_erase] at hD
            exact hD.imp_right fun k => k.2
        · rintro ⟨E, hE, rfl⟩
          obtain ⟨e1, e2⟩ := Finset.mem_filter.mp hE
          obtain ⟨e1, e3⟩ := Finset.mem_filter.mp e1
          refine ⟨⟨E, Finset.mem_filter.mpr ⟨e1, e2⟩, rfl⟩, ?_⟩
          by_cases e : q = c
          · left; rw [e]; exact (hput 11).here
          · rw [(hput 11).there q hq e, Finset.mem_erase]
            exact e3.imp_right fun k => ⟨e, k⟩
      rw [hcard, hcardq, mul_div_cancel₀]
      have : 0 < (withMine g m c).card := Finset.card_pos.mpr ⟨B, by rw [hwc]; exact Finset.mem_filter.mpr ⟨hB, hcB⟩⟩
      exact_mod_cast this.ne'
    · have z1 : (withMine g m c).card = 0 := by
        rw [hwc, Finset.card_eq_zero, Finset.filter_eq_empty_iff]
        exact fun B hB k => hex ⟨B, hB, k⟩
      have z2 : ((withMine g m q).filter fun B => c ∈ B).card = 0 := by
        rw [Finset.card_eq_zero, Finset.filter_eq_empty_iff]
        exact fun B hB k => hex ⟨B, (Finset.mem_filter.mp hB).1, k⟩
      rw [z1, z2]
      simp
  -- the case of a number
  have hF : ∀ k, k < 9 → ∀ q ∈ grid g.row g.col,
      (((withMine g m q).filter fun B => c ∉ B ∧ minesNear g (fun q => decide (q ∈ B)) c = k).card : ℚ) =
      (((layouts g m).filter fun B => c ∉ B ∧ minesNear g (fun q => decide (q ∈ B)) c = k).card : ℚ) *
        (((withMine (h k) (mv k) q).card : ℚ) / ((layouts (h k) (mv k)).card : ℚ)) := by
    intro k hk q hq
    have hmv : mv k = m := if_neg (by omega)
    by_cases hex : ∃ B ∈ layouts g m, c ∉ B ∧ minesNear g (fun q => decide (q ∈ B)) c = k
    · have hlay := hfree k hk hex
      obtain ⟨B, hB, hcB⟩ := hex
      have hq' : (withMine (h k) (mv k) q) =
          (withMine g m q).filter fun B => c ∉ B ∧ minesNear g (fun q => decide (q ∈ B)) c = k := by
        unfold withMine
        rw [hmv, hlay]
        ext D
        simp only [Finset.mem_filter]
        by_cases e : q = c
        · subst e
          rw [(hput k).here, hc.2]
          constructor
          · rintro ⟨⟨d1, d2, d3⟩, d4 | d4⟩
            · omega
            · exact absurd d4 d2
          · rintro ⟨⟨d1, d4 | d4⟩, d2, d3⟩
            · omega
            · exact absurd d4 d2
        · rw [(hput k).there q hq e]
          tauto
      rw [hq', hmv, hlay, mul_div_cancel₀]
      have : 0 < ((layouts g m).filter fun B => c ∉ B ∧ minesNear g (fun q => decide (q ∈ B)) c = k).card :=
        Finset.card_pos.mpr ⟨B, Finset.mem_filter.mpr ⟨hB, hcB⟩⟩
      exact_mod_cast this.ne'
    · have z1 : ((layouts g m).filter fun B => c ∉ B ∧ minesNear g (fun q => decide (q ∈ B)) c = k).card = 0 := by
        rw [Finset.card_eq_zero, Finset.filter_eq_empty_iff]
        exact fun B hB k => hex ⟨B, hB, k⟩
      have z2 : ((withMine g m q).filter fun B => c ∉ B ∧ minesNear g (fun q => decide (q ∈ B)) c = k).card = 0 := by
        rw [Finset.card_eq_zero, Finset.filter_eq_empty_iff]
        exact fun B hB k => hex ⟨B, (Finset.mem_filter.mp hB).1, k⟩
      rw [z1, z2]
      simp
  refine ⟨P, Q, fun q => ((withMine g m q).card : ℚ) / ((layouts g m).card : ℚ),
    fun v q => ((withMine (h v) (mv v) q).card : ℚ) / ((layouts (h v) (mv v)).card : ℚ), ⟨_, a3⟩, hxc, ?_, ?_, ?_, ?_⟩
  · intro hx
    have : (withMine g m c).Nonempty := by
      rw [Finset.nonempty_iff_ne_empty]
      intro e
      apply hx
      show ((withMine g m c).card : ℚ) / _ = 0
      rw [e]
      simp
    obtain ⟨B, hB⟩ := this
    rw [hwc, Finset.mem_filter] at hB
    obtain ⟨hm1, hlay⟩ := hmine B hB.1 hB.2
    have hmv : mv 11 = m - 1 := rfl
    refine hQ 11 (by omega) (by omega) (by rw [hmv, hmarkmine]; push_cast; omega) ?_
    rw [hmv, hlay]
    exact ⟨_, Finset.mem_image_of_mem _ (Finset.mem_filter.mpr hB)⟩
  · intro k hk hx
    have hmv : mv k = m := if_neg (by omega)
    have : ((layouts g m).filter fun B => c ∉ B ∧ minesNear g (fun q => decide (q ∈ B)) c = k).Nonempty := by
      rw [Finset.nonempty_iff_ne_empty]
      intro e
      apply hx
      rw [hshow, e]
      simp
    obtain ⟨B, hB⟩ := this
    have hB' := Finset.mem_filter.mp hB
    refine hQ k (by omega) (by omega) (by rw [hmv, hmarkfree k hk]; exact hm) ?_
    rw [hmv, hfree k hk ⟨B, hB'⟩]
    exact ⟨B, hB⟩
  · intro q hq
    show ((withMine g m q).card : ℚ) / _ = _
    rw [hcnt q hq]
    push_cast
    rw [add_div, hM q hq, Finset.sum_div]
    congr 1
    · rw [div_mul_eq_mul_div]
    · refine Finset.sum_congr rfl fun k hk => ?_
      rw [hF k (Finset.mem_range.mp hk) q hq, hshow, div_mul_eq_mul_div]
  · have h2 : (layouts g m).card = ((layouts g m).filter fun B => c ∈ B).card +
        ∑ k ∈ range 9, ((layouts g m).filter fun B => c ∉ B ∧ minesNear g (fun q => decide (q ∈ B)) c = k).card := by
      rw [← Finset.card_filter_add_card_filter_not (s := layouts g m) (fun B => c ∈ B)]
      congr 1
      rw [Finset.card_eq_sum_card_fiberwise (f := fun B => minesNear g (fun q => decide (q ∈ B)) c) (t := range 9)]
      · refine Finset.sum_congr rfl fun k _ => ?_
        rw [Finset.filter_filter]
      · intro B hB
        simp only [Finset.mem_coe, Finset.mem_filter, Finset.mem_range] at hB ⊢
        exact minesNear_free_lt hc hB.2
    show ((withMine g m c).card : ℚ) / _ + _ = 1
    rw [Finset.sum_congr rfl fun k _ => hshow k, ← Finset.sum_div, ← add_div, div_eq_one_iff_eq hN.ne', hwc]
    exact_mod_cast h2.symm

/-! ### beyond the limit -/

/-- one row of 117 cells, of which the odd ones up to `k` are opened and show 0 -/
def stripBoard (k : Nat) : Board := [(List.range 117).map fun j => if j % 2 = 1 ∧ j < k then 0 else 10]

theorem strip_get (k j : Nat) (hj : j < 117) : (stripBoard k).get 0 j = if j % 2 = 1 ∧ j < k then 0 else 10 := by
  unfold stripBoard Board.get
  simp [List.getD_eq_getElem?_getD, List.getElem?_map, List.getElem?_range hj]

theorem strip_row (k : Nat) : (stripBoard k).row = 1 := rfl

theorem strip_col (k : Nat) : (stripBoard k).col = 117 := by
  simp [stripBoard, Board.col]

theorem strip_grid {k : Nat} {p : Pos} : p ∈ grid (stripBoard k).row (stripBoard k).col ↔ p.1 = 0 ∧ p.2 < 117 := by
  rw [mem_grid, strip_row, strip_col]
  omega

theorem strip_number {k : Nat} {p : Pos} (hp : IsNumber (stripBoard k) p) : p.1 = 0 ∧ p.2 < 117 ∧ p.2 % 2 = 1 ∧ p.2 < k := by
  obtain ⟨a, _, b⟩ := hp
  obtain ⟨a1, a2⟩ := strip_grid.mp a
  rw [a1, strip_get k _ a2] at b
  split at b
  · rename_i h; exact ⟨a1, a2, h⟩
  · omega

theorem strip_is_number {k j : Nat} (hj : j < 117) (h2 : j % 2 = 1) (hk : j < k) : IsNumber (stripBoard k) (0, j) := by
  refine ⟨strip_grid.mpr ⟨rfl, hj⟩, ?_, ?_⟩ <;> (rw [strip_get k _ hj, if_pos ⟨h2, hk⟩]; try decide)

theorem strip_covered {k j : Nat} (hj : j < 117) (h2 : ¬ (j % 2 = 1 ∧ j < k)) : IsCovered (stripBoard k) (0, j) :=
  ⟨strip_grid.mpr ⟨rfl, hj⟩, by rw [strip_get k _ hj, if_neg h2]⟩

theorem strip_not_marked {k : Nat} {p : Pos} (hp : p ∈ grid (stripBoard k).row (stripBoard k).col) :
    (stripBoard k).get p.1 p.2 ≠ 11 := by
  obtain ⟨a1, a2⟩ := strip_grid.mp hp
  rw [a1, strip_get k _ a2]
  split <;> decide

theorem strip_mines {k : Nat} {s : Pos → Bool} {p : Pos} : minesNear (stripBoard k) s p = 0 ↔
    ∀ q, IsCovered (stripBoard k) q → Near p q → s q = false := by
  unfold minesNear
  rw [Finset.card_eq_zero, Finset.filter_eq_empty_iff]
  constructor
  · intro h q hq hn
    have := h hq.1
    simp only [hn, hq.2, true_and] at this
    simpa using this
  · rintro h q hq ⟨hn, e | ⟨e, f⟩⟩
    · exact strip_not_marked hq e
    · rw [h q ⟨hq, e⟩ hn] at f
      exact absurd f (by decide)

theorem strip_possible {k : Nat} (hk : k ≤ 115) : Possible (stripBoard k) 1 {(0, 116)} := by
  refine ⟨fun q hq => ?_, rfl, fun p hp => ?_⟩
  · rw [Finset.mem_singleton.mp hq]
    exact strip_covered (by omega) (by omega)
  · obtain ⟨a1, a2, a3, a4⟩ := strip_number hp
    rw [a1, strip_get k _ a2, if_pos ⟨a3, a4⟩]
    symm
    rw [Nat.cast_eq_zero, strip_mines]
    intro q _ hn
    rw [decide_eq_false_iff_not, Finset.mem_singleton]
    rintro rfl
    have := hn.2.2.2
    simp only at this
    omega

theorem strip_linked {i j : Nat} (hi : i ≤ 57) (hj : j ≤ 57) : SharesNumbers (stripBoard 114) (0, 2 * i) (0, 2 * j) := by
  have up : ∀ j, j ≤ 57 → SharesNumbers (stripBoard 114) (0, 0) (0, 2 * j) := by
    intro j
    induction j with
    | zero => exact fun _ => .refl
    | succ j ih =>
      intro h
      refine .tail (ih (by omega)) ⟨strip_covered (by omega) (by omega), (0, 2 * j + 1), strip_is_number (by omega) (by omega) (by omega), ?_, ?_⟩ <;>
      · unfold Near; simp only; omega
  have down : ∀ i, i ≤ 57 → SharesNumbers (stripBoard 114) (0, 2 * i) (0, 0) := by
    intro i
    induction i with
    | zero => exact fun _ => .refl
    | succ i ih =>
      intro h
      refine .head ⟨strip_covered (j := 2 * i) (by omega) (by omega), (0, 2 * i + 1), strip_is_number (by omega) (by omega) (by omega), ?_, ?_⟩ (ih (by omega)) <;>
      · unfold Near; simp only; omega
  exact (down i hi).trans (up j hj)

theorem strip_out_of_reach {p : Pos} (hp : IsNumber (stripBoard 114) p) : ¬ InReach (stripBoard 114) p := by
  intro h
  obtain ⟨a1, a2, a3, a4⟩ := strip_number hp
  have := h ((List.range 58).map fun i => (0, 2 * i)) ?_ ?_
  · simp at this
  · refine (List.nodup_range).map fun a b e => ?_
    simpa using e
  · intro q hq
    obtain ⟨i, hi, rfl⟩ := List.mem_map.mp hq
    rw [List.mem_range] at hi
    refine ⟨(0, 2 * (p.2 / 2)), strip_covered (by omega) (by omega), ?_, strip_linked (by omega) (by omega)⟩
    unfold Near
    simp only
    omega

theorem strip_in_reach {p : Pos} (hp : IsNumber (stripBoard 2) p) : InReach (stripBoard 2) p := by
  have hp1 : ∀ {p}, IsNumber (stripBoard 2) p → p = (0, 1) := by
    intro p hp
    obtain ⟨a1, a2, a3, a4⟩ := strip_number hp
    ext
    · exact a1
    · show p.2 = 1; omega
  intro l hl hq
  have : l.toFinset ⊆ {(0, 0), (0, 2)} := by
    intro q hq'
    obtain ⟨a, ha, hna, hsh⟩ := hq q (List.mem_toFinset.mp hq')
    have hnear : IsCovered (stripBoard 2) q ∧ Near (0, 1) q := by
      cases hsh with
      | refl => rw [hp1 hp] at hna; exact ⟨ha, hna⟩
      | tail _ h2 =>
        obtain ⟨c1, n, c2, _, c4⟩ := h2
        rw [hp1 c2] at c4
        exact ⟨c1, c4⟩
    obtain ⟨⟨b1, b2⟩, _, _, b5, b6⟩ := hnear
    obtain ⟨b1, b3⟩ := strip_grid.mp b1
    rw [b1, strip_get _ _ b3] at b2
    simp only at b5 b6
    have : q.2 = 0 ∨ q.2 = 2 := by
      split at b2
      · omega
      · omega
    rw [Finset.mem_insert, Finset.mem_singleton]
    rcases this with e | e
    · left; ext <;> simp [b1, e]
    · right; ext <;> simp [b1, e]
  have h1 := Finset.card_le_card this
  rw [List.toFinset_card_of_nodup hl] at h1
  have h2 : ({(0, 0), (0, 2)} : Finset Pos).card ≤ 2 := Finset.card_le_two
  omega

/-- **C89, refuted beyond the limit** what is certain need not stay certain when more than 55 cells are linked: on a row of 117
cells with one mine, the number 0 in the second cell makes the first cell safe (probability 0); after opening 56 more cells, all
showing 0, the first cell has a probability that is not 0, though the board is still explained by the mine in the last cell. -/
theorem C89_forgets : ∃ g g' P P' r r', Learned g g' ∧ Possible g' 1 {(0, 116)} ∧
    calPossibilityOnboard g 1 = some (.ok (P, r)) ∧ calPossibilityOnboard g' 1 = some (.ok (P', r')) ∧
    cellProb P (0, 0) = some 0 ∧ ∃ x, cellProb P' (0, 0) = some x ∧ 0 < x := by
  have hmark : ∀ k, markedSet (stripBoard k) = ∅ := by
    intro k
    unfold markedSet
    rw [Finset.filter_eq_empty_iff]
    exact fun p hp => strip_not_marked hp
  have hm : ∀ k, ((1 : Nat) : ℤ) + (markedSet (stripBoard k)).card = ⌊(1 : ℚ)⌋ := by
    intro k
    rw [hmark]
    simp
  have hv : ∀ k, ∀ p ∈ grid (stripBoard k).row (stripBoard k).col, 0 ≤ (stripBoard k).get p.1 p.2 := by
    intro k p hp
    obtain ⟨a1, a2⟩ := strip_grid.mp hp
    rw [a1, strip_get k _ a2]
    split <;> decide
  have hlay : ∀ k, k ≤ 115 → {(0, 116)} ∈ layouts (stripBoard k) 1 := by
    intro k hk
    obtain ⟨b1, b2, b3⟩ := strip_possible hk
    exact mem_layouts.mpr ⟨fun q hq => mem_coveredSet.mpr (b1 q hq), b2, fun p hp _ _ => b3 p hp⟩
  have hfar : {(0, 0)} ∈ layouts (stripBoard 114) 1 := by
    refine mem_layouts.mpr ⟨?_, rfl, fun p hp _ hr => absurd hr (strip_out_of_reach hp)⟩
    intro q hq
    rw [Finset.mem_singleton.mp hq]
    exact mem_coveredSet.mpr (strip_covered (by omega) (by omega))
  obtain ⟨P, lo, hi, -, -, a3, a4⟩ := onboard_fractions (g := stripBoard 2) (by simp [stripBoard]) (hv 2) (le_refl 1) (hm 2)
    ⟨_, hlay 2 (by omega)⟩
  obtain ⟨P', lo', hi', -, -, b3, b4⟩ := onboard_fractions (g := stripBoard 114) (by simp [stripBoard]) (hv 114) (le_refl 1)
    (hm 114) ⟨_, hlay 114 (by omega)⟩
  have h0 : ∀ k, ((0, 0) : Pos) ∈ grid (stripBoard k).row (stripBoard k).col := fun k => strip_grid.mpr ⟨rfl, by omega⟩
  refine ⟨stripBoard 2, stripBoard 114, P, P', _, _, ⟨rfl, by rw [strip_col, strip_col], fun p hp => ?_⟩, strip_possible (by omega),
    a3, b3, (fractions_zero ⟨_, hlay 2 (by omega)⟩ a4 (h0 2)).mpr ⟨strip_not_marked (h0 2), fun A hA k => ?_⟩, _, b4 _ (h0 114), ?_⟩
  · obtain ⟨a1, a2⟩ := strip_grid.mp hp
    rw [a1, strip_get _ _ a2, strip_get _ _ a2]
    by_cases e : p.2 % 2 = 1 ∧ p.2 < 2
    · left
      rw [if_pos e, if_pos (by omega)]
    · rw [if_neg e]
      split
      · right; exact ⟨rfl, .inl (by decide)⟩
      · left; rfl
  · have hn := strip_is_number (k := 2) (j := 1) (by omega) (by omega) (by omega)
    have h1 := (mem_layouts.mp hA).2.2 (0, 1) hn ⟨(0, 0), strip_covered (by omega) (by omega), by decide⟩ (strip_in_reach hn)
    rw [strip_get _ _ (by omega), if_pos (by omega)] at h1
    have h2 := strip_mines.mp (by exact_mod_cast h1.symm) (0, 0) (strip_covered (by omega) (by omega)) (by decide)
    simp [k] at h2
  · have h1 : 0 < (withMine (stripBoard 114) 1 (0, 0)).card := by
      classical
      refine Finset.card_pos.mpr ⟨{(0, 0)}, ?_⟩
      unfold withMine
      exact Finset.mem_filter.mpr ⟨hfar, .inr (Finset.mem_singleton_self _)⟩
    have h2 : 0 < (layouts (stripBoard 114) 1).card := Finset.card_pos.mpr ⟨_, hfar⟩
    exact div_pos (Nat.cast_pos.mpr h1) (Nat.cast_pos.mpr h2)

/-! ### examples -/

/-- not void: the number 1 in a corner of a row of three, then its other end opened -/
example : ∃ P P' lo lo' t hi hi', calPossibilityOnboard [[1, 10, 10]] 1 = some (.ok (P, lo, t, hi)) ∧
    calPossibilityOnboard [[1, 10, 1]] 1 = some (.ok (P', lo', t, hi')) ∧ lo ≤ lo' ∧ hi' ≤ hi ∧
    cellProb P' (0, 1) = some 1 := by
  have hpos : Possible [[1, 10, 1]] 1 {(0, 1)} := by
    refine ⟨by intro q hq; rw [Finset.mem_singleton.mp hq]; exact ⟨by decide, by decide⟩, by decide, fun p hp => ?_⟩
    have h3 : ∀ p ∈ grid 1 3, Board.get [[1, 10, 1]] p.1 p.2 < 10 →
        Board.get [[1, 10, 1]] p.1 p.2 = minesNear [[1, 10, 1]] (fun q => decide (q ∈ ({(0, 1)} : Finset Pos))) p := by
      decide +kernel
    exact h3 p hp.1 hp.2.2
  have hm : ((1 : Nat) : ℤ) + (markedSet [[1, 10, 1]]).card = ⌊(1 : ℚ)⌋ := by
    rw [show (markedSet [[1, 10, 1]]).card = 0 by decide +kernel]; simp
  obtain ⟨P, P', lo, lo', t, hi, hi', a, b, c, d, e⟩ := C89_certain (g := [[1, 10, 10]]) (by simp) (by decide +kernel)
    ⟨by decide, by decide, by decide +kernel⟩ (fun p _ => inReach_small _ (by decide +kernel) p) hpos (le_refl 1) hm
  refine ⟨P, P', lo, lo', t, hi, hi', a, b, c, d, ((e (0, 1) (by decide)).2 ?_).1⟩
  have h2 : calPossibilityOnboard [[1, 10, 10]] 1 = some (.ok ([[some 0, some 1, some 0]], 1, 1, 2)) := by decide +kernel
  rw [h2] at a
  simp only [Option.some.injEq, Except.ok.injEq, Prod.mk.injEq] at a
  obtain ⟨rfl, -⟩ := a
  decide +kernel

/-- not void: a click in the corner of a board of two rows, with two mines -/
example : ∃ (P : List (List (Option ℚ))) (Q : Int → List (List (Option ℚ))) (x : Pos → ℚ) (y : Int → Pos → ℚ),
    (∃ r, calPossibilityOnboard [[1, 10, 10], [10, 10, 10]] 2 = some (.ok (P, r))) ∧ x (0, 2) = 1 / 2 ∧
    (∃ r, calPossibilityOnboard [[1, 10, 11], [10, 10, 10]] 2 = some (.ok (Q 11, r))) ∧
    x (0, 1) = x (0, 2) * y 11 (0, 1) + ∑ k ∈ range 9, showChance [[1, 10, 10], [10, 10, 10]] 2 (0, 2) k * y k (0, 1) := by
  have hpos : Possible [[1, 10, 10], [10, 10, 10]] 2 {(0, 1), (0, 2)} := by
    refine ⟨?_, by decide, fun p hp => ?_⟩
    · have : ∀ q ∈ ({(0, 1), (0, 2)} : Finset Pos), q ∈ grid 2 3 ∧ Board.get [[1, 10, 10], [10, 10, 10]] q.1 q.2 = 10 := by
        decide +kernel
      exact this
    · have h3 : ∀ p ∈ grid 2 3, Board.get [[1, 10, 10], [10, 10, 10]] p.1 p.2 < 10 →
          Board.get [[1, 10, 10], [10, 10, 10]] p.1 p.2 =
            minesNear [[1, 10, 10], [10, 10, 10]] (fun q => decide (q ∈ ({(0, 1), (0, 2)} : Finset Pos))) p := by
        decide +kernel
      exact h3 p hp.1 hp.2.2
  have hm : ((2 : Nat) : ℤ) + (markedSet [[1, 10, 10], [10, 10, 10]]).card = ⌊(2 : ℚ)⌋ := by
    rw [show (markedSet [[1, 10, 10], [10, 10, 10]]).card = 0 by decide +kernel]
    norm_num
  have small : ∀ b : Board, b.row = 2 → b.col = 3 → (coveredSet b).card ≤ 55 := by
    intro b h1 h2
    refine (Finset.card_le_card (Finset.filter_subset _ _)).trans ?_
    rw [h1, h2]
    decide
  obtain ⟨P, Q, x, y, ⟨r, a⟩, b, c, -, e, -⟩ := C89_average (g := [[1, 10, 10], [10, 10, 10]]) (c := (0, 2))
    (h := fun v => [[1, 10, v], [10, 10, 10]]) (by simp) (by decide +kernel) ⟨by decide, by decide⟩
    (fun v => ⟨rfl, rfl, rfl, fun p hp hne => by
      have h3 : ∀ p ∈ grid 2 3, p ≠ (0, 2) → p = (0, 0) ∨ p = (0, 1) ∨ p = (1, 0) ∨ p = (1, 1) ∨ p = (1, 2) := by decide +kernel
      rcases h3 p hp hne with rfl | rfl | rfl | rfl | rfl <;> rfl⟩)
    (fun p _ => inReach_small _ (small _ rfl rfl) p) (fun v _ _ p _ => inReach_small _ (small _ rfl rfl) p) hpos
    (n := 2) (by norm_num) hm
  have h2 : calPossibilityOnboard [[1, 10, 10], [10, 10, 10]] 2 =
      some (.ok ([[some 0, some (1/3), some (1/2)], [some (1/3), some (1/3), some (1/2)]], 1, 2, 3)) := by decide +kernel
  have hx : x (0, 2) = 1 / 2 := by
    have h3 := b (0, 2) (by decide)
    rw [h2] at a
    simp only [Option.some.injEq, Except.ok.injEq, Prod.mk.injEq] at a
    obtain ⟨rfl, -⟩ := a
    simpa [cellProb] using h3.symm
  exact ⟨P, Q, x, y, ⟨r, a⟩, hx, (c (by rw [hx]; norm_num)).1, e (0, 1) (by decide)⟩

/-- not void: the sum over a board of two numbers, with the engine run -/
example : ∃ P, calPossibilityOnboard [[1, 10, 10], [10, 10, 10]] 2 = some (.ok (P, 1, 2, 3)) ∧ total P 2 3 = 2 := by
  refine ⟨[[some 0, some (1/3), some (1/2)], [some (1/3), some (1/3), some (1/2)]], by decide +kernel, by decide +kernel⟩

end Ms.Properties
