import Verif.Lemmas.Careful
import Verif.Properties.Gen

/-! # C96: a careful player in the game machine

The generators promise boards that can be won without guessing.  What a player gets from this promise is stated here in
terms of the game machine alone: the clicks, and the board it shows. -/

namespace Ms.Properties
open Ms Ms.Spec Ms.MSB

variable {r c : Nat} {b : Board} {s : Pos}

private theorem ok_of (hrect : Rect b r c) (hnum : Numbered b.view) (hs : s ∈ grid r c) : BoardOK r c b := by
  have := mem_grid.mp hs
  exact ⟨hrect, by omega, by omega, hnum⟩

private theorem careful_game (hb : BoardOK r c b) (hs : layout b s = false) (hsg : s ∈ grid r c) {t t' : MSB}
    (h : CareInv r c b s t) (hg : CarefulGame t t') : CareInv r c b s t' := by
  induction hg with
  | refl => exact h
  | tail _ hm ih =>
    have det : ∀ {x y z : MSB} {ops : List (Ev × Pos)}, x.stepFlow ops = some (y, true) → x.stepFlow ops = some (z, true) → y = z := by
      intro x y z ops h1 h2
      rw [h1] at h2
      simpa using h2
    cases hm with
    | opens h1 h2 => obtain ⟨w, w1, w2, -⟩ := ih.click hb hs hsg h1; exact det w1 h2 ▸ w2
    | flags h1 h2 => obtain ⟨w, w1, w2⟩ := ih.flag hb hs hsg (.inl h1); exact det w1 h2 ▸ w2
    | unflags h1 h1' h2 =>
      rw [ih.row, ih.col] at h1
      obtain ⟨w, w1, w2⟩ := ih.flag hb hs hsg (.inr ⟨h1, h1'⟩)
      exact det w1 h2 ▸ w2
    | chords h1 h2 =>
      rw [ih.row, ih.col] at h1
      obtain ⟨w, w1, w2⟩ := ih.chord hb hs hsg h1
      exact det w1 h2 ▸ w2

/-- **C96** the first click on a safe cell is accepted and starts (or wins) the game. -/
theorem C96_first (hrect : Rect b r c) (hnum : Numbered b.view) (hs : s ∈ grid r c) (hsafe : b.get s.1 s.2 ≠ -1) :
    ∃ t, (MSB.new b.view).stepFlow (leftOn s) = some (t, true) ∧ (t.state = .playing ∨ t.state = .win) := by
  obtain ⟨t, h1, h2⟩ := careful_first (ok_of hrect hnum hs) (layout_false.mpr hsafe) hs
  exact ⟨t, h1, h2.st.imp And.left id⟩

/-- **C96** a careful player never loses: on any correctly numbered board, after a first click on a safe cell, whatever
surely safe cells are opened, sure mines flagged, flags removed and chords made, and in whatever order, the game is
running or won. -/
theorem C96_never_lost (hrect : Rect b r c) (hnum : Numbered b.view) (hs : s ∈ grid r c) (hsafe : b.get s.1 s.2 ≠ -1)
    (t u : MSB) (h1 : (MSB.new b.view).stepFlow (leftOn s) = some (t, true)) (h2 : CarefulGame t u) :
    u.state = .playing ∨ u.state = .win := by
  have hb := ok_of hrect hnum hs
  obtain ⟨t', e1, e2⟩ := careful_first hb (layout_false.mpr hsafe) hs
  rw [h1] at e1
  obtain rfl : t = t' := by simpa using e1
  exact (careful_game hb (layout_false.mpr hsafe) hs e2 h2).st.imp And.left id

/-- **C96** and the machine accepts every one of these moves. -/
theorem C96_accepted (hrect : Rect b r c) (hnum : Numbered b.view) (hs : s ∈ grid r c) (hsafe : b.get s.1 s.2 ≠ -1)
    (t u : MSB) (h1 : (MSB.new b.view).stepFlow (leftOn s) = some (t, true)) (h2 : CarefulGame t u) (p : Pos) :
    (SureSafe u.gameBoard p → ∃ w, u.stepFlow (leftOn p) = some (w, true)) ∧
    (SureMine u.gameBoard p → ∃ w, u.stepFlow (rightOn p) = some (w, true)) ∧
    (p ∈ grid r c → u.gameBoard.get p.1 p.2 = 11 → ∃ w, u.stepFlow (rightOn p) = some (w, true)) ∧
    (p ∈ grid r c → ∃ w, u.stepFlow (chordOn p) = some (w, true)) := by
  have hb := ok_of hrect hnum hs
  have hl := layout_false.mpr hsafe
  obtain ⟨t', e1, e2⟩ := careful_first hb hl hs
  rw [h1] at e1
  obtain rfl : t = t' := by simpa using e1
  have hi := careful_game hb hl hs e2 h2
  refine ⟨fun h => ?_, fun h => ?_, fun h h' => ?_, fun h => ?_⟩
  · obtain ⟨w, w1, -⟩ := hi.click hb hl hs h; exact ⟨w, w1⟩
  · obtain ⟨w, w1, -⟩ := hi.flag hb hl hs (.inl h); exact ⟨w, w1⟩
  · obtain ⟨w, w1, -⟩ := hi.flag hb hl hs (.inr ⟨h, h'⟩); exact ⟨w, w1⟩
  · obtain ⟨w, w1, -⟩ := hi.chord hb hl hs h; exact ⟨w, w1⟩

/-- if all safe cells are open the game is won -/
private theorem won_of_open (hb : BoardOK r c b) (hs : layout b s = false) (hsg : s ∈ grid r c) {t : MSB}
    (h : CareInv r c b s t) {O : Finset Pos} (k : KInv r c b s O t.gameBoard)
    (hO : ∀ p ∈ grid r c, layout b p = false → p ∈ O) : t.state = .win := by
  have hv : vcells t.board = grid r c := by rw [h.bd]; exact hb.vcells
  have hval : ∀ p, val t.board p = bval b p := fun p => by rw [h.bd]; rfl
  refine (C13_win_iff t h.reach ⟨s, by rw [hv]; exact hsg, by rw [hval]; exact layout_false.mp hs⟩).mpr fun p hp hne => ?_
  rw [hv] at hp
  rw [hval] at hne ⊢
  exact k.opened p (hO p hp (layout_false.mpr hne))

private theorem sure_of_forced (hb : BoardOK r c b) (hs : layout b s = false) (hsg : s ∈ grid r c) {g : Board}
    {O : Finset Pos} (k : KInv r c b s O g) {p : Pos} (hp : p ∈ grid r c) (hpO : p ∉ O)
    (hf : ∀ σ, Explains r c b O σ → σ p = false) : SureSafe g p := by
  rcases k.covered p hp hpO with h10 | ⟨_, h⟩
  · refine ⟨(k.isCovered hb hs hsg).mpr ⟨hp, h10⟩, fun σ hσ => ?_⟩
    have := hf _ (k.explains hb hs hsg hσ)
    unfold extend at this
    simp [h10] at this
    simpa using this
  · have h1 := h _ (layout_explains (openable_safe hs k.openable))
    have h2 := hf _ (layout_explains (openable_safe hs k.openable))
    rw [h1] at h2
    cases h2

/-- **C96** no dead end: on a board that can be solved without guessing, whatever a careful player has done so far,
unless the game is won already some cell is surely safe. -/
theorem C96_no_dead_end (hrect : Rect b r c) (hnum : Numbered b.view) (hs : s ∈ grid r c) (hsafe : b.get s.1 s.2 ≠ -1)
    (hno : NoGuess r c b s) (t u : MSB) (h1 : (MSB.new b.view).stepFlow (leftOn s) = some (t, true))
    (h2 : CarefulGame t u) : u.state = .win ∨ ∃ p, SureSafe u.gameBoard p := by
  have hb := ok_of hrect hnum hs
  have hl := layout_false.mpr hsafe
  obtain ⟨t', e1, e2⟩ := careful_first hb hl hs
  rw [h1] at e1
  obtain rfl : t = t' := by simpa using e1
  have hi := careful_game hb hl hs e2 h2
  obtain ⟨O, k⟩ := hi.know
  by_cases hex : ∃ p, SureSafe u.gameBoard p
  · exact .inr hex
  · left
    obtain ⟨O', o1, o2⟩ := hno
    have hsub := openable_le (openable_start k.openable) (fun p hp hf => by
      by_contra hpO
      exact hex ⟨p, sure_of_forced hb hl hs k hp hpO hf⟩) o1
    exact won_of_open hb hl hs hi k fun p hp hlp => hsub (o2 p hp hlp)

/-- a safe cell that is covered -/
private def safeCovered (r c : Nat) (b g : Board) : Finset Pos :=
  (grid r c).filter fun p => layout b p = false ∧ ¬ (bval g p = bval b p)

private theorem kept (hb : BoardOK r c b) (hs : layout b s = false) (hsg : s ∈ grid r c) {t u : MSB}
    (h : CareInv r c b s t) {p q : Pos} (hp : SureSafe t.gameBoard p) (hf : t.stepFlow (leftOn p) = some (u, true))
    (hst : t.state = .playing) (hq : q ∈ grid r c) (hqv : bval t.gameBoard q = bval b q) (hql : layout b q = false) :
    bval u.gameBoard q = bval b q := by
  have hre := h.reach
  obtain ⟨O, k⟩ := h.know
  obtain ⟨hpg, hp10⟩ := (k.isCovered hb hs hsg).mp hp.1
  have hps : ∀ σ, Explains r c b O σ → σ p = false := fun σ hσ => hp.2 σ (k.consistent hb hs hsg hσ)
  have hpl := hps _ (layout_explains (openable_safe hs k.openable))
  rcases h.st with ⟨-, hm⟩ | hw
  · rw [flow_left hst hm (by rw [h.row, h.col]; exact hpg)] at hf
    have hp' : p ∈ grid t.row t.column := by rw [h.row, h.col]; exact hpg
    have hq' : q ∈ grid t.row t.column := by rw [h.row, h.col]; exact hq
    obtain ⟨t', kk, he, heff⟩ := leftClick_eff hre.inv.core hp'
    rw [he] at hf
    have hbp : ∀ x, t.bd x = bval b x := fun x => by unfold MSB.bd; rw [h.bd]; rfl
    cases heff with
    | none hn => exact absurd hp10 hn
    | mine _ hmine _ => exact absurd (hbp p ▸ hmine) (layout_false.mp hpl)
    | @safe g' _ _ hg =>
      simp only [Option.some.injEq, Prod.mk.injEq] at hf
      obtain ⟨rfl, -⟩ := hf
      rw [(checkWin_frame _).2.1]
      obtain ⟨g'', e1, -, e3⟩ := refresh_core hre.inv.core (start := [p]) (by simpa using ⟨hp', hp10⟩)
      rw [hg] at e1
      obtain rfl : g' = g'' := by simpa using e1
      change bval g' q = _
      rw [e3 q hq', hbp]
      split
      · rw [if_neg (layout_false.mp hql)]
      · rw [if_neg]
        · exact hqv
        · rintro ⟨⟨m, hm1, hm2⟩, -⟩
          simp only [List.mem_singleton] at hm1
          subst hm1
          exact layout_false.mp hpl (hbp m ▸ hm2)
  · rw [hw] at hst; cases hst

/-- **C96** so the game can be won from there by opening surely safe cells only. -/
theorem C96_can_win (hrect : Rect b r c) (hnum : Numbered b.view) (hs : s ∈ grid r c) (hsafe : b.get s.1 s.2 ≠ -1)
    (hno : NoGuess r c b s) (t u : MSB) (h1 : (MSB.new b.view).stepFlow (leftOn s) = some (t, true))
    (h2 : CarefulGame t u) : ∃ w, Relation.ReflTransGen SureClick u w ∧ w.state = .win := by
  have hb := ok_of hrect hnum hs
  have hl := layout_false.mpr hsafe
  obtain ⟨t', e1, e2⟩ := careful_first hb hl hs
  have e1' := e1
  rw [h1] at e1
  obtain rfl : t = t' := by simpa using e1
  suffices ∀ n u, CarefulGame t u → (safeCovered r c b u.gameBoard).card ≤ n →
      ∃ w, Relation.ReflTransGen SureClick u w ∧ w.state = .win from this _ u h2 le_rfl
  intro n
  induction n with
  | zero =>
    intro u hu hn
    have hi := careful_game hb hl hs e2 hu
    obtain ⟨O, k⟩ := hi.know
    refine ⟨u, .refl, won_of_open hb hl hs hi k fun p hp hlp => ?_⟩
    by_contra hpO
    have : p ∈ safeCovered r c b u.gameBoard := by
      refine Finset.mem_filter.mpr ⟨hp, hlp, fun hv => ?_⟩
      have := hb.range hp hlp
      rcases k.covered p hp hpO with h | ⟨h, -⟩ <;> omega
    have := Finset.card_pos.mpr ⟨p, this⟩
    omega
  | succ n ih =>
    intro u hu hn
    have hi := careful_game hb hl hs e2 hu
    rcases C96_no_dead_end hrect hnum hs hsafe hno t u h1 hu with hw | ⟨p, hp⟩
    · exact ⟨u, .refl, hw⟩
    · obtain ⟨v, f1, f2, f3⟩ := hi.click hb hl hs hp
      rcases hi.st with ⟨hst, -⟩ | hw
      · obtain ⟨O, k⟩ := hi.know
        obtain ⟨hpg, hp10⟩ := (k.isCovered hb hl hs).mp hp.1
        have hpl : layout b p = false :=
          hp.2 _ (k.consistent hb hl hs (layout_explains (openable_safe hl k.openable)))
        have hlt : (safeCovered r c b v.gameBoard).card < (safeCovered r c b u.gameBoard).card := by
          apply Finset.card_lt_card
          rw [Finset.ssubset_iff_of_subset]
          · refine ⟨p, Finset.mem_filter.mpr ⟨hpg, hpl, ?_⟩, fun hc => ?_⟩
            · have := hb.range hpg hpl; omega
            · obtain ⟨-, -, h5⟩ := Finset.mem_filter.mp hc
              exact h5 (f3 hst)
          · intro q hq
            obtain ⟨q1, q2, q3⟩ := Finset.mem_filter.mp hq
            exact Finset.mem_filter.mpr ⟨q1, q2, fun hqv => q3 (kept hb hl hs hi hp f1 hst q1 hqv q2)⟩
        obtain ⟨w, w1, w2⟩ := ih v (hu.tail (.opens hp f1)) (by omega)
        exact ⟨w, .head ⟨p, hp, f1⟩ w1, w2⟩
      · exact ⟨u, .refl, hw⟩

/-- **C96** exactly: some careful game wins if and only if the board can be solved without guessing. -/
theorem C96_win_iff (hrect : Rect b r c) (hnum : Numbered b.view) (hs : s ∈ grid r c) (hsafe : b.get s.1 s.2 ≠ -1)
    (t : MSB) (h1 : (MSB.new b.view).stepFlow (leftOn s) = some (t, true)) :
    (∃ u, CarefulGame t u ∧ u.state = .win) ↔ NoGuess r c b s := by
  have hb := ok_of hrect hnum hs
  have hl := layout_false.mpr hsafe
  obtain ⟨t', e1, e2⟩ := careful_first hb hl hs
  rw [h1] at e1
  obtain rfl : t = t' := by simpa using e1
  constructor
  · rintro ⟨u, hu, hw⟩
    have hi := careful_game hb hl hs e2 hu
    obtain ⟨O, k⟩ := hi.know
    refine ⟨O, k.openable, fun p hp hlp => ?_⟩
    by_contra hpO
    have hv := hi.reach.inv.win hw p (by rw [hi.row, hi.col]; exact hp)
    have hbp : u.bd p = bval b p := by unfold MSB.bd; rw [hi.bd]; rfl
    rw [hbp] at hv
    have h3 := hv (layout_false.mp hlp)
    change bval u.gameBoard p = _ at h3
    have := hb.range hp hlp
    rcases k.covered p hp hpO with h | ⟨h, -⟩ <;> omega
  · intro hno
    obtain ⟨w, w1, w2⟩ := C96_can_win hrect hnum hs hsafe hno t t h1 .refl
    refine ⟨w, ?_, w2⟩
    clear w2
    induction w1 with
    | refl => exact .refl
    | tail _ hc ih => obtain ⟨p, p1, p2⟩ := hc; exact ih.tail (.opens p1 p2)

/-- **C96** for `is_solvable`: on a board it accepts, a careful player can win from wherever they are. -/
theorem C96_solvable (hrect : Rect b r c) (hnum : Numbered b.view) (hr : 3 ≤ r) (hc : 3 ≤ c) (hs : s ∈ grid r c)
    (hsafe : b.get s.1 s.2 ≠ -1) (hok : isSolvable b s.1 s.2 = some true) (t u : MSB)
    (h1 : (MSB.new b.view).stepFlow (leftOn s) = some (t, true)) (h2 : CarefulGame t u) :
    (u.state = .win ∨ ∃ p, SureSafe u.gameBoard p) ∧ ∃ w, Relation.ReflTransGen SureClick u w ∧ w.state = .win := by
  obtain ⟨v, hv, hno⟩ := is_solvable_sound r c b s hrect hnum hr hc hs hsafe
  rw [hok, Option.some.injEq] at hv
  exact ⟨C96_no_dead_end hrect hnum hs hsafe (hno hv.symm) t u h1 h2, C96_can_win hrect hnum hs hsafe (hno hv.symm) t u h1 h2⟩

/-- **C96** the other way round: on a board of at most 55 cells with a start showing 0 that `is_solvable` rejects, no
careful game is won. -/
theorem C96_rejected (hrect : Rect b r c) (hnum : Numbered b.view) (hr : 3 ≤ r) (hc : 3 ≤ c) (hrc : r * c ≤ 55)
    (hs : s ∈ grid r c) (hsafe : b.get s.1 s.2 = 0) (hno : isSolvable b s.1 s.2 = some false) (t u : MSB)
    (h1 : (MSB.new b.view).stepFlow (leftOn s) = some (t, true)) (h2 : CarefulGame t u) : u.state = .playing := by
  have hsafe' : b.get s.1 s.2 ≠ -1 := by omega
  rcases C96_never_lost hrect hnum hs hsafe' t u h1 h2 with h | h
  · exact h
  · have := (is_solvable_exact_small r c b s hrect hnum hr hc hrc hs hsafe).mpr
      ((C96_win_iff hrect hnum hs hsafe' t h1).mp ⟨u, h2, h⟩)
    rw [hno] at this
    cases this

/-- **C96** for `laymine_solvable`: whatever the shuffles, on the board it returns with the flag set the first click is
accepted, no careful player ever loses or gets stuck, and each can win. -/
theorem C96_laid (sh : Nat → List Int → List Int) (hsh : ∀ k l, (sh k l).Perm l) (r c m x0 y0 maxTimes : Nat)
    (hr : 3 ≤ r) (hc : 3 ≤ c) (hx : x0 < r) (hy : y0 < c) (hm : m ≤ r * c - (startBlock r c x0 y0).card) :
    ∃ b f, laymineSolvable sh r c m x0 y0 maxTimes = some (b, f) ∧ (f = true →
      ∃ t, (MSB.new b.view).stepFlow (leftOn (x0, y0)) = some (t, true) ∧ ∀ u, CarefulGame t u →
        (u.state = .win ∨ (u.state = .playing ∧ ∃ p, SureSafe u.gameBoard p)) ∧
        ∃ w, Relation.ReflTransGen SureClick u w ∧ w.state = .win) := by
  obtain ⟨b, f, h1, h2, h3, -⟩ := laymine_solvable_spec sh hsh r c m x0 y0 maxTimes hr hc hx hy hm
  refine ⟨b, f, h1, fun hf => ?_⟩
  have hs : (x0, y0) ∈ grid r c := mem_grid.mpr ⟨hx, hy⟩
  have hsafe : b.get x0 y0 ≠ -1 := by rw [h2.start]; decide
  obtain ⟨t, ht, -⟩ := C96_first (s := (x0, y0)) h2.rect h2.numbered hs hsafe
  refine ⟨t, ht, fun u hu => ⟨?_, C96_can_win h2.rect h2.numbered hs hsafe (h3 hf).2 t u ht hu⟩⟩
  rcases C96_never_lost h2.rect h2.numbered hs hsafe t u ht hu with h | h
  · rcases C96_no_dead_end h2.rect h2.numbered hs hsafe (h3 hf).2 t u ht hu with h' | h'
    · exact .inl h'
    · exact .inr ⟨h, h'⟩
  · exact .inl h

/-- **C96** for the eight threads: whatever the schedule. -/
theorem C96_laid_thread (r c m x0 y0 maxTimes : Nat)
    (hr : 3 ≤ r) (hc : 3 ≤ c) (hx : x0 < r) (hy : y0 < c) (hm : m ≤ r * c - (startBlock r c x0 y0).card)
    (n : Nat) (st : Par) (hst : ParSteps r c m x0 y0 maxTimes n Par.init st) (hd : ∀ i, st.ph i = .done) :
    ∃ b f, st.Returns b f ∧ (f = true →
      ∃ t, (MSB.new b.view).stepFlow (leftOn (x0, y0)) = some (t, true) ∧ ∀ u, CarefulGame t u →
        (u.state = .win ∨ (u.state = .playing ∧ ∃ p, SureSafe u.gameBoard p)) ∧
        ∃ w, Relation.ReflTransGen SureClick u w ∧ w.state = .win) := by
  obtain ⟨b, f, h1, h2, h3⟩ := (laymine_solvable_thread_sound r c m x0 y0 maxTimes hr hc hx hy hm n st hst).2 hd
  refine ⟨b, f, h1, fun hf => ?_⟩
  have hs : (x0, y0) ∈ grid r c := mem_grid.mpr ⟨hx, hy⟩
  have hsafe : b.get x0 y0 ≠ -1 := by rw [h2.start]; decide
  obtain ⟨t, ht, -⟩ := C96_first (s := (x0, y0)) h2.rect h2.numbered hs hsafe
  refine ⟨t, ht, fun u hu => ⟨?_, C96_can_win h2.rect h2.numbered hs hsafe (h3 hf).2 t u ht hu⟩⟩
  rcases C96_never_lost h2.rect h2.numbered hs hsafe t u ht hu with h | h
  · rcases C96_no_dead_end h2.rect h2.numbered hs hsafe (h3 hf).2 t u ht hu with h' | h'
    · exact .inl h'
    · exact .inr ⟨h, h'⟩
  · exact .inl h

/-! ### examples -/

/-- The first click on `exSolvable` does not win the game; a careful player has something to open, flag or chord, and
can win. -/
example : ∃ t, (MSB.new exSolvable.view).stepFlow (leftOn (0, 0)) = some (t, true) ∧ t.state = .playing ∧
    (∃ p, SureSafe t.gameBoard p) ∧ ∃ w, Relation.ReflTransGen SureClick t w ∧ w.state = .win := by
  obtain ⟨t, h1, -⟩ := C96_first (s := (0, 0)) exSolvable_rect exSolvable_numbered (by decide) (by decide)
  have h2 : ((MSB.new exSolvable.view).stepFlow (leftOn (0, 0))).map (fun x => x.1.state) = some .playing := by decide +kernel
  rw [h1] at h2
  have h2 : t.state = .playing := by simpa using h2
  obtain ⟨h3, h4⟩ := C96_solvable exSolvable_rect exSolvable_numbered (by decide) (by decide) (by decide) (by decide)
    (by decide +kernel : isSolvable exSolvable 0 0 = some true) t t h1 .refl
  exact ⟨t, h1, h2, h3.resolve_left (by rw [h2]; decide), h4⟩

/-- The same game, click by click, with a flag and a chord: `(3,1)` is a mine because of the 1 on `(2,2)`, so `(3,0)` is
safe because of the 1 on `(2,0)`; ... -/
example : ((MSB.new exSolvable.view).stepFlow (leftOn (0, 0) ++ leftOn (3, 0) ++ rightOn (3, 1) ++ chordOn (3, 0) ++
    leftOn (4, 1) ++ leftOn (4, 3))).map (fun x => (x.1.state, x.1.gameBoard, x.2)) =
    some (.win, [[0, 0, 0, 0], [0, 0, 0, 0], [1, 1, 1, 0], [2, 11, 2, 1], [10, 3, 10, 1]], true) := by decide +kernel

/-- On `exUnsolvable` a careful player gets stuck whatever they do. -/
example (t u : MSB) (h1 : (MSB.new exUnsolvable.view).stepFlow (leftOn (0, 0)) = some (t, true)) (h2 : CarefulGame t u) :
    u.state = .playing :=
  C96_rejected exUnsolvable_rect exUnsolvable_numbered (by decide) (by decide) (by decide) (by decide) (by decide)
    (by decide +kernel) t u h1 h2

end Ms.Properties
