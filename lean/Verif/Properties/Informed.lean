import Verif.Lemmas.Informed
import Verif.Properties.Careful
import Verif.Properties.Learn
import Verif.Properties.Mark

/-! # C98: programs that play what the library tells them

The players of `SpecInformed` know the number of mines.  Programs that ask `cal_possibility_onboard` or `mark_board` about
the board the game shows, and do as they are told, are such players. -/

namespace Ms.Properties
open Ms Ms.Spec Ms.MSB

variable {r c : Nat} {b : Board} {s : Pos}

private theorem ok_of (hrect : Rect b r c) (hnum : Numbered b.view) (hs : s ∈ grid r c) : BoardOK r c b := by
  have := mem_grid.mp hs
  exact ⟨hrect, by omega, by omega, hnum⟩

private theorem mines_card (hb : BoardOK r c b) : ((grid r c).filter fun p => layout b p = true).card = (mines b.view).card := by
  unfold mines
  rw [hb.vcells]
  congr 1
  apply Finset.filter_congr
  intro q _
  rw [layout_iff]
  rfl

private theorem start_of (hb : BoardOK r c b) (hs : s ∈ grid r c) (hsafe : b.get s.1 s.2 ≠ -1) {t : MSB} (n : Nat)
    (h1 : (MSB.new b.view).stepFlow (leftOn s) = some (t, true)) : CountGame r c b n t := by
  obtain ⟨t', e1, e2⟩ := count_first (n := n) hb (layout_false.mpr hsafe) hs
  rw [h1] at e1
  obtain rfl : t = t' := by simpa using e1
  exact e2

private theorem game_of (hb : BoardOK r c b) (hs : s ∈ grid r c) (hsafe : b.get s.1 s.2 ≠ -1) {t u : MSB}
    (h1 : (MSB.new b.view).stepFlow (leftOn s) = some (t, true)) (h2 : CountingGame (mines b.view).card t u) :
    CountGame r c b (mines b.view).card u :=
  ((start_of hb hs hsafe _ h1).game hb (mines_card hb) h2).1

/-- **C98** a player who counts never loses: on any correctly numbered board, after a first click on a safe cell, whatever
cells that are safe in all layouts with the right number of mines are opened, mines in all these layouts flagged, flags
removed and chords made, and in whatever order, the game is running or won. -/
theorem C98_never_lost (hrect : Rect b r c) (hnum : Numbered b.view) (hs : s ∈ grid r c) (hsafe : b.get s.1 s.2 ≠ -1)
    (t u : MSB) (h1 : (MSB.new b.view).stepFlow (leftOn s) = some (t, true))
    (h2 : CountingGame (mines b.view).card t u) : u.state = .playing ∨ u.state = .win :=
  (game_of (ok_of hrect hnum hs) hs hsafe h1 h2).st.imp And.left id

/-- **C98** the machine accepts every one of these moves. -/
theorem C98_accepted (hrect : Rect b r c) (hnum : Numbered b.view) (hs : s ∈ grid r c) (hsafe : b.get s.1 s.2 ≠ -1)
    (t u : MSB) (h1 : (MSB.new b.view).stepFlow (leftOn s) = some (t, true))
    (h2 : CountingGame (mines b.view).card t u) (p : Pos) :
    (SafeAmong u.gameBoard (mines b.view).card p →
      ∃ w, u.stepFlow (leftOn p) = some (w, true) ∧ (u.state = .playing → w.gameBoard.get p.1 p.2 = b.get p.1 p.2)) ∧
    (MineAmong u.gameBoard (mines b.view).card p → ∃ w, u.stepFlow (rightOn p) = some (w, true)) ∧
    (p ∈ grid r c → u.gameBoard.get p.1 p.2 = 11 → ∃ w, u.stepFlow (rightOn p) = some (w, true)) ∧
    (p ∈ grid r c → ∃ w, u.stepFlow (chordOn p) = some (w, true)) := by
  have hb := ok_of hrect hnum hs
  have hi := game_of hb hs hsafe h1 h2
  refine ⟨fun h => ?_, fun h => ?_, fun h h' => ?_, fun h => ?_⟩
  · obtain ⟨s1, s2, s3⟩ := (hi.know.safe_iff hb).mp h
    obtain ⟨w, w1, -, -, w4⟩ := hi.click hb s1 s2 (s3 _ (hi.know.truth (mines_card hb)))
    exact ⟨w, w1, w4⟩
  · obtain ⟨w, w1, -⟩ := hi.flag hb (.inl h); exact ⟨w, w1⟩
  · obtain ⟨w, w1, -⟩ := hi.flag hb (.inr ⟨h, h'⟩); exact ⟨w, w1⟩
  · obtain ⟨w, w1, -⟩ := hi.chord hb (mines_card hb) h; exact ⟨w, w1⟩

/-- **C98** knowledge lasts: what was safe (a mine) at one moment is, at every later one, open already, or (flagged
already, or) still known to be safe (a mine).  So all the answers of one moment can be played one after the other. -/
theorem C98_lasting (hrect : Rect b r c) (hnum : Numbered b.view) (hs : s ∈ grid r c) (hsafe : b.get s.1 s.2 ≠ -1)
    (t u w : MSB) (h1 : (MSB.new b.view).stepFlow (leftOn s) = some (t, true))
    (h2 : CountingGame (mines b.view).card t u) (h3 : CountingGame (mines b.view).card u w) (p : Pos) :
    (SafeAmong u.gameBoard (mines b.view).card p →
      SafeAmong w.gameBoard (mines b.view).card p ∨ w.gameBoard.get p.1 p.2 = b.get p.1 p.2) ∧
    (MineAmong u.gameBoard (mines b.view).card p →
      MineAmong w.gameBoard (mines b.view).card p ∨ w.gameBoard.get p.1 p.2 = 11) := by
  have hb := ok_of hrect hnum hs
  have hn := mines_card hb
  have hi := game_of hb hs hsafe h1 h2
  obtain ⟨hj, hsub⟩ := hi.game hb hn h3
  have k := hj.know
  refine ⟨fun h => ?_, fun h => ?_⟩
  · obtain ⟨s1, -, s3⟩ := (hi.know.safe_iff hb).mp h
    by_cases h10 : bval w.gameBoard p = 10
    · exact .inl ((k.safe_iff hb).mpr ⟨s1, h10, fun σ hσ => s3 σ (explainsAll_mono hsub hσ)⟩)
    · by_cases h11 : bval w.gameBoard p = 11
      · have e1 := k.flags p s1 h11 _ (k.truth hn)
        rw [s3 _ (hi.know.truth hn)] at e1
        cases e1
      · exact .inr (k.opened p (mem_shownSet.mpr ⟨s1, h10, h11⟩)).1
  · obtain ⟨s1, -, s3⟩ := (hi.know.mine_iff hb).mp h
    by_cases h10 : bval w.gameBoard p = 10
    · exact .inl ((k.mine_iff hb).mpr ⟨s1, h10, fun σ hσ => s3 σ (explainsAll_mono hsub hσ)⟩)
    · by_cases h11 : bval w.gameBoard p = 11
      · exact .inr h11
      · have e1 := (k.opened p (mem_shownSet.mpr ⟨s1, h10, h11⟩)).2
        rw [s3 _ (hi.know.truth hn)] at e1
        cases e1

/-- if all safe cells are open the game is won -/
private theorem won_of_shown (hb : BoardOK r c b) (hs : s ∈ grid r c) (hsafe : layout b s = false) {n : Nat} {t : MSB}
    (h : CountGame r c b n t) (hO : ∀ p ∈ grid r c, layout b p = false → p ∈ shownSet r c t.gameBoard) : t.state = .win := by
  have hv : vcells t.board = grid r c := by rw [h.bd]; exact hb.vcells
  have hval : ∀ p, val t.board p = bval b p := fun p => by rw [h.bd]; rfl
  refine (C13_win_iff t h.reach ⟨s, by rw [hv]; exact hs, by rw [hval]; exact layout_false.mp hsafe⟩).mpr fun p hp hne => ?_
  rw [hv] at hp
  rw [hval] at hne ⊢
  exact (h.know.opened p (hO p hp (layout_false.mpr hne))).1

private theorem dead_end (hb : BoardOK r c b) (hs : s ∈ grid r c) (hsafe : layout b s = false) (hno : NoGuess r c b s)
    {t : MSB} (h : CountGame r c b (mines b.view).card t) (hst : s ∈ shownSet r c t.gameBoard) :
    t.state = .win ∨ ∃ p, SafeAmong t.gameBoard (mines b.view).card p := by
  have hn := mines_card hb
  have k := h.know
  by_cases hex : ∃ p, SafeAmong t.gameBoard (mines b.view).card p
  · exact .inr hex
  left
  obtain ⟨O, o1, o2⟩ := hno
  have hsub : O ⊆ shownSet r c t.gameBoard := by
    clear o2
    induction o1 with
    | start => intro q hq; rw [Finset.mem_singleton] at hq; subst hq; exact hst
    | @step O p _ hp hf ih =>
      intro q hq
      rcases Finset.mem_insert.mp hq with rfl | hq
      · have hall : ∀ σ, ExplainsAll r c b (shownSet r c t.gameBoard) (mines b.view).card σ → σ q = false :=
          fun σ hσ => hf σ fun x hx => hσ.1 x (ih hx)
        by_cases h10 : bval t.gameBoard q = 10
        · exact absurd ⟨q, (k.safe_iff hb).mpr ⟨hp, h10, hall⟩⟩ hex
        · by_cases h11 : bval t.gameBoard q = 11
          · have e1 := k.flags q hp h11 _ (k.truth hn)
            rw [hall _ (k.truth hn)] at e1
            cases e1
          · exact mem_shownSet.mpr ⟨hp, h10, h11⟩
      · exact ih hq
  exact won_of_shown hb hs hsafe h fun p hp hl => hsub (o2 p hp hl)

/-- the start is open after the first click -/
private theorem start_shown (hb : BoardOK r c b) (hs : s ∈ grid r c) (hsafe : b.get s.1 s.2 ≠ -1) {t : MSB}
    (h1 : (MSB.new b.view).stepFlow (leftOn s) = some (t, true)) : s ∈ shownSet r c t.gameBoard := by
  have h0 := start_of hb hs hsafe 0 h1
  obtain ⟨t', e1, e2⟩ := careful_first hb (layout_false.mpr hsafe) hs
  rw [h1] at e1
  obtain rfl : t = t' := by simpa using e1
  obtain ⟨O, k⟩ := e2.know
  have hO := openable_start k.openable
  have h2 := k.opened s hO
  have h3 := hb.range hs (layout_false.mpr hsafe)
  exact mem_shownSet.mpr ⟨hs, by omega, by omega⟩

/-- **C98** on a board that can be solved without guessing a player who counts never gets stuck either: until the game is
won, some cell is safe. -/
theorem C98_no_dead_end (hrect : Rect b r c) (hnum : Numbered b.view) (hs : s ∈ grid r c) (hsafe : b.get s.1 s.2 ≠ -1)
    (hno : NoGuess r c b s) (t u : MSB) (h1 : (MSB.new b.view).stepFlow (leftOn s) = some (t, true))
    (h2 : CountingGame (mines b.view).card t u) :
    u.state = .win ∨ ∃ p, SafeAmong u.gameBoard (mines b.view).card p := by
  have hb := ok_of hrect hnum hs
  have h0 := start_of hb hs hsafe (mines b.view).card h1
  obtain ⟨hi, hsub⟩ := h0.game hb (mines_card hb) h2
  exact dead_end hb hs (layout_false.mpr hsafe) hno hi (hsub (start_shown hb hs hsafe h1))

/-- **C98** every move of a careful player (who does not count) is a move of a player who counts. -/
theorem C98_careful (n : Nat) (t u : MSB) (h : CarefulGame t u) : CountingGame n t u := by
  induction h with
  | refl => exact .refl
  | tail _ hm ih =>
    refine ih.tail ?_
    cases hm with
    | opens h1 h2 => exact .opens ⟨h1.1, fun σ hσ => h1.2 σ hσ.1⟩ h2
    | flags h1 h2 => exact .flags ⟨h1.1, fun σ hσ => h1.2 σ hσ.1⟩ h2
    | unflags h1 h1' h2 => exact .unflags h1 h1' h2
    | chords h1 h2 => exact .chords h1 h2

/-! ### asking the library -/

private theorem minesNear_filter (g : Board) (σ : Pos → Bool) (p : Pos) :
    minesNear g (fun q => decide (q ∈ (coveredSet g).filter fun p => σ p = true)) p = minesNear g σ p := by
  unfold minesNear
  congr 1
  apply Finset.filter_congr
  intro q hq
  simp only [decide_eq_true_eq, Finset.mem_filter, mem_coveredSet, IsCovered]
  tauto

private theorem allows_layouts {g : Board} {n : Nat} {σ : Pos → Bool} (h : Allows g n σ) :
    ((coveredSet g).filter fun p => σ p = true) ∈ layouts g (n - (markedSet g).card) := by
  rw [mem_layouts]
  refine ⟨Finset.filter_subset _ _, ?_, fun p hp _ _ => ?_⟩
  · have := h.2; omega
  · rw [minesNear_filter]
    exact h.1 p hp

/-- **C98** asking for the probabilities: at every moment of the game `cal_possibility_onboard`, given the board shown and
the number of mines, answers with a table (never an error, never a panic), and this number of mines; a covered cell with
probability 0 holds no mine in any layout of this many mines the shown board allows, and a covered cell with probability 1
holds one in all of them.  (No limit on the size of the board.) -/
theorem C98_ask (hrect : Rect b r c) (hnum : Numbered b.view) (hs : s ∈ grid r c) (hsafe : b.get s.1 s.2 ≠ -1)
    (hm : 1 ≤ (mines b.view).card) (t u : MSB) (h1 : (MSB.new b.view).stepFlow (leftOn s) = some (t, true))
    (h2 : CountingGame (mines b.view).card t u) :
    ∃ P lo hi, calPossibilityOnboard u.gameBoard ((mines b.view).card : ℚ) = some (.ok (P, lo, (mines b.view).card, hi)) ∧
      ∀ p, IsCovered u.gameBoard p →
        (cellProb P p = some 0 → SafeAmong u.gameBoard (mines b.view).card p) ∧
        (cellProb P p = some 1 → MineAmong u.gameBoard (mines b.view).card p) ∧
        ((∀ q, IsNumber u.gameBoard q → InReach u.gameBoard q) →
          (SafeAmong u.gameBoard (mines b.view).card p → cellProb P p = some 0) ∧
          (MineAmong u.gameBoard (mines b.view).card p → cellProb P p = some 1)) := by
  have hb := ok_of hrect hnum hs
  have hn := mines_card hb
  have hi := game_of hb hs hsafe h1 h2
  have k := hi.know
  have hd := rect_dims k.rect hb.rpos
  have htrue := k.allows hb (k.truth hn)
  have hle : (markedSet u.gameBoard).card ≤ (mines b.view).card := by have := htrue.2; omega
  have hne : u.gameBoard ≠ [] := by
    intro e
    have := hd.1
    rw [e] at this
    have := hb.rpos
    simp [Board.row] at *
    omega
  have hv : ∀ p ∈ grid u.gameBoard.row u.gameBoard.col, 0 ≤ u.gameBoard.get p.1 p.2 := by
    intro p hp
    rw [hd.1, hd.2] at hp
    have e : u.gameBoard.get p.1 p.2 = bval u.gameBoard p := rfl
    rw [e]
    by_cases h10 : bval u.gameBoard p = 10
    · omega
    · by_cases h11 : bval u.gameBoard p = 11
      · omega
      · have h3 := k.opened p (mem_shownSet.mpr ⟨hp, h10, h11⟩)
        have := hb.range hp h3.2
        omega
  have hl : (layouts u.gameBoard ((mines b.view).card - (markedSet u.gameBoard).card)).Nonempty := ⟨_, allows_layouts htrue⟩
  obtain ⟨P, lo, hi', -, -, a3, a4⟩ := onboard_fractions hne hv (n := ((mines b.view).card : ℚ))
    (m := (mines b.view).card - (markedSet u.gameBoard).card) (by exact_mod_cast hm)
    (by rw [Int.floor_natCast]; omega) hl
  rw [Nat.sub_add_cancel hle] at a3
  refine ⟨P, _, _, a3, fun p hp => ⟨fun hz => ⟨hp, fun σ hσ => ?_⟩, fun hz => ⟨hp, fun σ hσ => ?_⟩, fun hre => ⟨fun hz => ?_, fun hz => ?_⟩⟩⟩
  · have h3 := ((fractions_zero hl a4 hp.1).mp hz).2 _ (allows_layouts hσ)
    by_contra hc
    exact h3 (Finset.mem_filter.mpr ⟨mem_coveredSet.mpr hp, by simpa using hc⟩)
  · rcases (fractions_one hl a4 hp.1).mp hz with h3 | h3
    · rw [hp.2] at h3; omega
    · exact (Finset.mem_filter.mp (h3 _ (allows_layouts hσ))).2
  all_goals
    have hallow : ∀ A ∈ layouts u.gameBoard ((mines b.view).card - (markedSet u.gameBoard).card),
        Allows u.gameBoard (mines b.view).card fun q => decide (q ∈ A) := by
      intro A hA
      have hA' := (layouts_explain htrue.1 hre _ A).mp hA
      refine ⟨hA'.2.2, ?_⟩
      have e : ((coveredSet u.gameBoard).filter fun p => decide (p ∈ A) = true) = A := by
        ext q
        simp only [Finset.mem_filter, decide_eq_true_eq]
        exact ⟨And.right, fun h => ⟨mem_coveredSet.mpr (hA'.1 q h), h⟩⟩
      rw [e, hA'.2.1]
      omega
  · rw [fractions_zero hl a4 hp.1]
    refine ⟨by rw [hp.2]; omega, fun A hA hpA => ?_⟩
    have := hz.2 _ (hallow A hA)
    simp [hpA] at this
  · rw [fractions_one hl a4 hp.1]
    refine .inr fun A hA => ?_
    have := hz.2 _ (hallow A hA)
    simpa using this

/-- **C98** asking `mark_board`: at every moment of the game it answers `Ok`; a covered cell it marks 12 holds no mine in
any layout agreeing with the numbers, and a covered cell it marks 11 holds one in all of them; all else is left as it is. -/
theorem C98_mark (hrect : Rect b r c) (hnum : Numbered b.view) (hs : s ∈ grid r c) (hsafe : b.get s.1 s.2 ≠ -1)
    (t u : MSB) (h1 : (MSB.new b.view).stepFlow (leftOn s) = some (t, true))
    (h2 : CountingGame (mines b.view).card t u) :
    ∃ g, markBoard u.gameBoard = some (.ok (), g) ∧ ∀ p,
      g.get p.1 p.2 = u.gameBoard.get p.1 p.2 ∨ (SureMine u.gameBoard p ∧ g.get p.1 p.2 = 11) ∨
        (SureSafe u.gameBoard p ∧ g.get p.1 p.2 = 12) := by
  have hb := ok_of hrect hnum hs
  have hi := game_of hb hs hsafe h1 h2
  obtain ⟨g, g1, -, g3, -⟩ := mark_board_exact u.gameBoard r c hi.know.rect hb.rpos
    ⟨_, (hi.know.allows hb (hi.know.truth (mines_card hb))).1⟩
  refine ⟨g, g1, fun p => ?_⟩
  rcases g3 p with h | ⟨h, h', h''⟩ | ⟨h, h', h''⟩
  · exact .inl h
  · exact .inr (.inl ⟨⟨h.1, h''⟩, h'⟩)
  · exact .inr (.inr ⟨⟨h.1, h''⟩, h'⟩)

/-- What a program does that asks the library about the shown board, and the number `n` of mines: it opens covered cells
that `cal_possibility_onboard` gives the probability 0 or `mark_board` marks 12, and flags covered cells with probability 1
or marked 11. -/
inductive AskingMove (n : Nat) : MSB → MSB → Prop
  | zero {s t : MSB} {p : Pos} {P : List (List (Option ℚ))} {x : Nat × Nat × Nat} :
      calPossibilityOnboard s.gameBoard (n : ℚ) = some (.ok (P, x)) → IsCovered s.gameBoard p → cellProb P p = some 0 →
      s.stepFlow (leftOn p) = some (t, true) → AskingMove n s t
  | one {s t : MSB} {p : Pos} {P : List (List (Option ℚ))} {x : Nat × Nat × Nat} :
      calPossibilityOnboard s.gameBoard (n : ℚ) = some (.ok (P, x)) → IsCovered s.gameBoard p → cellProb P p = some 1 →
      s.stepFlow (rightOn p) = some (t, true) → AskingMove n s t
  | free {s t : MSB} {p : Pos} {g : Board} :
      markBoard s.gameBoard = some (.ok (), g) → IsCovered s.gameBoard p → g.get p.1 p.2 = 12 →
      s.stepFlow (leftOn p) = some (t, true) → AskingMove n s t
  | mine {s t : MSB} {p : Pos} {g : Board} :
      markBoard s.gameBoard = some (.ok (), g) → IsCovered s.gameBoard p → g.get p.1 p.2 = 11 →
      s.stepFlow (rightOn p) = some (t, true) → AskingMove n s t
  | chord {s t : MSB} {p : Pos} : p ∈ grid s.row s.column → s.stepFlow (chordOn p) = some (t, true) → AskingMove n s t

/-- **C98** a program that plays the library's answers never loses: it is a player who counts. -/
theorem C98_program (hrect : Rect b r c) (hnum : Numbered b.view) (hs : s ∈ grid r c) (hsafe : b.get s.1 s.2 ≠ -1)
    (hm : 1 ≤ (mines b.view).card) (t u : MSB) (h1 : (MSB.new b.view).stepFlow (leftOn s) = some (t, true))
    (h2 : Relation.ReflTransGen (AskingMove (mines b.view).card) t u) :
    CountingGame (mines b.view).card t u ∧ (u.state = .playing ∨ u.state = .win) := by
  suffices CountingGame (mines b.view).card t u from ⟨this, C98_never_lost hrect hnum hs hsafe t u h1 this⟩
  induction h2 with
  | refl => exact .refl
  | @tail v w _ hmv ih =>
    refine ih.tail ?_
    obtain ⟨P, lo, hi, a1, a2⟩ := C98_ask hrect hnum hs hsafe hm t v h1 ih
    obtain ⟨g, b1, b2⟩ := C98_mark hrect hnum hs hsafe t v h1 ih
    cases hmv with
    | zero e1 e2 e3 e4 =>
      rw [a1] at e1
      simp only [Option.some.injEq, Except.ok.injEq, Prod.mk.injEq] at e1
      obtain ⟨rfl, -⟩ := e1
      exact .opens ((a2 _ e2).1 e3) e4
    | one e1 e2 e3 e4 =>
      rw [a1] at e1
      simp only [Option.some.injEq, Except.ok.injEq, Prod.mk.injEq] at e1
      obtain ⟨rfl, -⟩ := e1
      exact .flags ((a2 _ e2).2.1 e3) e4
    | @free p g' e1 e2 e3 e4 =>
      rw [b1] at e1
      simp only [Option.some.injEq, Prod.mk.injEq, true_and] at e1
      subst e1
      have h10 := e2.2
      rcases b2 p with h | ⟨-, h⟩ | ⟨h, -⟩
      · omega
      · omega
      · exact .opens ⟨h.1, fun σ hσ => h.2 σ hσ.1⟩ e4
    | @mine p g' e1 e2 e3 e4 =>
      rw [b1] at e1
      simp only [Option.some.injEq, Prod.mk.injEq, true_and] at e1
      subst e1
      have h10 := e2.2
      rcases b2 p with h | ⟨h, -⟩ | ⟨-, h⟩
      · omega
      · exact .flags ⟨h.1, fun σ hσ => h.2 σ hσ.1⟩ e4
      · omega
    | chord e1 e2 => exact .chords e1 e2

/-! ### examples -/

/-- A board that needs counting. -/
def exCount : Board := [[0, 1, -1, 1]]

theorem exCount_rect : Rect exCount 1 4 := ⟨rfl, by decide⟩
theorem exCount_numbered : Numbered exCount.view := by unfold Numbered; decide
theorem exCount_mines : (mines exCount.view).card = 1 := by decide

/-- After the first click the last two cells are covered ... -/
theorem exCount_first : ((MSB.new exCount.view).stepFlow (leftOn (0, 0))).map (fun x => (x.1.state, x.1.gameBoard, x.2)) =
    some (.playing, [[0, 1, 10, 10]], true) := by decide +kernel

/-- ... a careful player who does not count is stuck there ... -/
theorem exCount_stuck (p : Pos) : ¬ SureSafe [[0, 1, 10, 10]] p := by
  rintro ⟨hp, h⟩
  have := h (fun _ => true) (by
    rintro q ⟨hq, hq'⟩
    have hq : q ∈ grid 1 4 := hq
    revert hq'
    revert q
    decide)
  cases this

/-- ... but the table for one mine shows the last cell to be free, and opening it wins the game. -/
theorem exCount_asked : calPossibilityOnboard [[0, 1, 10, 10]] 1 = some (.ok ([[some 0, some 0, some 1, some 0]], 1, 1, 2)) ∧
    ((MSB.new exCount.view).stepFlow (leftOn (0, 0) ++ leftOn (0, 3))).map (fun x => (x.1.state, x.2)) = some (.win, true) := by
  decide +kernel

/-- So the hypotheses of `C98_ask` and `C98_program` are met, the table is not empty, and the knowledge is more than a careful
player's. -/
example : ∃ t, (MSB.new exCount.view).stepFlow (leftOn (0, 0)) = some (t, true) ∧
    SafeAmong t.gameBoard 1 (0, 3) ∧ MineAmong t.gameBoard 1 (0, 2) ∧ ∀ p, ¬ SureSafe t.gameBoard p := by
  obtain ⟨t, h1, -⟩ := C96_first (s := (0, 0)) exCount_rect exCount_numbered (by decide) (by decide)
  have h2 := exCount_first
  rw [h1] at h2
  simp only [Option.map_some, Option.some.injEq, Prod.mk.injEq, and_true] at h2
  obtain ⟨P, lo, hi, a1, a2⟩ := C98_ask (s := (0, 0)) exCount_rect exCount_numbered (by decide) (by decide)
    (by rw [exCount_mines]) t t h1 .refl
  rw [exCount_mines, h2.2] at a1 a2
  rw [Nat.cast_one, exCount_asked.1] at a1
  simp only [Option.some.injEq, Except.ok.injEq, Prod.mk.injEq] at a1
  obtain ⟨rfl, -⟩ := a1
  refine ⟨t, h1, ?_, ?_, ?_⟩
  · rw [h2.2]; exact (a2 (0, 3) ⟨by decide, by decide⟩).1 (by decide)
  · rw [h2.2]; exact (a2 (0, 2) ⟨by decide, by decide⟩).2.1 (by decide)
  · rw [h2.2]; exact exCount_stuck

end Ms.Properties
