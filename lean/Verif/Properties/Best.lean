import Verif.Lemmas.Best
import Verif.Properties.Program
import Verif.Properties.Gen

/-!
# Property C101, continued: no program that never loses does better
-/

namespace Ms.Properties
open Spec MSB

variable {r c n : Nat} {b : Board} {s : Pos} {f : Board → Option Pos} {m : Mind}

private theorem ok_of (hrect : Rect b r c) (hnum : Numbered b.view) (hs : s ∈ grid r c) : BoardOK r c b := by
  have := mem_grid.mp hs
  exact ⟨hrect, by omega, by omega, hnum⟩

private theorem mines_card (hb : BoardOK r c b) : ((grid r c).filter fun p => layout b p = true).card = (mines b.view).card := by
  unfold mines
  rw [hb.vcells]
  congr 1
  apply Finset.filter_congr
  intro q _
  rw [layout_iff]
  rfl

/-- **C101** the program that plays by honest advice is faultless: on no board that could be dealt does it lose or make the machine
panic. -/
theorem C101_faultless (hf : Honest r c n s f) (v : View) (hr : v.row = r) (hc : v.col = c) (hm : (mines v).card = n)
    (hs : s ∈ grid r c) : Faultless (follow s f) v s := by
  intro v' hd h0 ops hch
  have hrow : v'.row = r := hd.row.trans hr
  have hcol : v'.col = c := hd.col.trans hc
  have hgrid := mem_grid.mp hs
  have hM : mines v' ⊆ grid r c := by
    intro q hq
    have : q ∈ grid v'.row v'.col := (Finset.mem_filter.mp hq).1
    rw [hrow, hcol] at this
    exact this
  obtain ⟨b, hrect, hnum, hmines⟩ := exists_board (r := r) (c := c) (by omega) hM
  have hbd := rect_dims hrect (by omega)
  have hsafe : b.get s.1 s.2 ≠ -1 := by
    intro h
    refine h0 (hmines ▸ Finset.mem_filter.mpr ⟨?_, h⟩)
    show s ∈ grid b.row b.col
    rw [hbd.1, hbd.2]; exact hs
  have hn : (mines b.view).card = n := by rw [hmines, hd.count, hm]
  exact (same_mind (v := b.view) (v' := v') hnum ⟨hrow.trans hbd.1.symm, hcol.trans hbd.2.symm, by rw [hmines], hd.numbered⟩ hmines.symm
    (follow s f) (not_lost hrect hnum hn hs hsafe hf) ops hch).2

private theorem near_congr {σ τ : Pos → Bool} (h : ∀ q ∈ grid r c, σ q = τ q) (p : Pos) : layoutNear r c σ p = layoutNear r c τ p :=
  congrArg Finset.card (Finset.filter_congr fun q hq => by rw [h q hq])

/-- a faultless program opens only cells that can be opened by counting -/
private theorem opens_only (hrect : Rect b r c) (hnum : Numbered b.view) (hn : (mines b.view).card = n) (hs : s ∈ grid r c)
    (hm : Faultless m b.view s) {O : Finset Pos} (hF : Full r c b n O) (hsO : s ∈ O) (ops : List (Ev × Pos)) :
    Chooses m (MSB.new b.view) ops → ∀ x, playOn (MSB.new b.view) ops = some x → shownSet r c x.gameBoard ⊆ O := by
  have hb := ok_of hrect hnum hs
  have hd0 : Dealt b.view b.view := ⟨rfl, rfl, rfl, hnum⟩
  have hs0 : s ∉ mines b.view := by
    intro h
    have h1 : b.get s.1 s.2 = -1 := (Finset.mem_filter.mp h).2
    exact layout_false.mp (hF.sub s hsO).2 h1
  have hv := hb.view
  induction ops using List.reverseRecOn with
  | nil =>
    intro _ x hx
    simp only [playOn, Option.some.injEq] at hx
    subst hx
    intro q hq
    have h1 := mem_shownSet.mp hq
    have h10 : ∀ q ∈ grid r c, (MSB.new b.view).gb q = 10 := by
      have := (Reach.new hnum).inv.ready rfl
      simp only [MSB.new, hv.1, hv.2] at this ⊢
      exact this
    exact absurd (h10 q h1.1) h1.2.1
  | append_singleton ops op ih =>
    intro hch x hx
    have hch0 := (chooses_snoc.mp hch).1
    obtain ⟨x1, y1, y2⟩ := hm _ hd0 hs0 ops hch0
    have hO := ih hch0 x1 y1
    obtain ⟨x', z1, z2⟩ := hm _ hd0 hs0 _ hch
    rw [hx] at z1
    obtain rfl : x = x' := by simpa using z1
    have hx0 := hx
    rw [playOn_append, y1] at hx
    simp only [Option.bind_some, playOn] at hx
    split at hx
    · cases hx
    rename_i x' k e
    simp only [Option.some.injEq] at hx
    subst hx
    have hi := (playOn_reach (.new hnum) y1).inv
    obtain ⟨d1, d2, d3⟩ := steps_dims (MSB.new_inv hnum) y1
    have d1 : x1.board = b.view := d1
    have d2 : x1.row = r := d2.trans hv.1
    have d3 : x1.column = c := d3.trans hv.2
    rcases hF.step hb hi d1 d2 d3 e z2 hO with h | ⟨⟨q, hq, hqO⟩, hall⟩
    · exact h
    -- a board on which `q` holds a mine
    have hqg := (hall q hq).1
    have hex : ∃ σ, ExplainsAll r c b O n σ ∧ σ q = true := by
      by_contra hno
      push Not at hno
      exact hqO (hF.closed q hqg fun σ hσ => by simpa using hno σ hσ)
    obtain ⟨σ, hσ, hσq⟩ := hex
    obtain ⟨b', hrect', hnum', hmines'⟩ := exists_board (r := r) (c := c) hb.rpos (M := (grid r c).filter fun q => σ q = true)
      (Finset.filter_subset _ _)
    have hb' := ok_of hrect' hnum' hs
    have hlay : ∀ q ∈ grid r c, layout b' q = σ q := by
      intro q hq
      have h1 : q ∈ mines b'.view ↔ layout b' q = true := by
        unfold mines
        rw [Finset.mem_filter, hb'.vcells, layout_iff]
        exact ⟨fun h => h.2, fun h => ⟨hq, h⟩⟩
      rw [hmines', Finset.mem_filter] at h1
      have h2 : layout b' q = true ↔ σ q = true := by rw [← h1]; exact ⟨fun h => h.2, fun h => ⟨hq, h⟩⟩
      exact Bool.eq_iff_iff.mpr h2
    have hn' : (mines b'.view).card = n := by rw [hmines']; exact hσ.2
    have hd : Dealt b.view b'.view := by
      have hv' := hb'.view
      exact ⟨hv'.1.trans hv.1.symm, hv'.2.trans hv.2.symm, hn'.trans hn.symm, hnum'⟩
    have hd' : Dealt b'.view b.view := ⟨hd.row.symm, hd.col.symm, hd.count.symm, hnum⟩
    have hs' : s ∉ mines b'.view := by
      rw [hmines', Finset.mem_filter]
      rintro ⟨-, h⟩
      rw [(hσ.1 s hsO).1] at h
      cases h
    have hnear : ∀ p ∈ O, layoutNear r c (layout b') p = layoutNear r c (layout b) p := by
      intro p hp
      rw [near_congr hlay p]
      exact (hσ.1 p hp).2
    have hval : ∀ p ∈ O, bval b' p = bval b p := by
      intro p hp
      have h1 := hF.sub p hp
      rw [hb.number h1.1 h1.2, hb'.number h1.1 (by rw [hlay p h1.1]; exact (hσ.1 p hp).1), hnear p hp]
    have hF' : Full r c b' n O := by
      refine ⟨fun p hp => ⟨(hF.sub p hp).1, by rw [hlay p (hF.sub p hp).1]; exact (hσ.1 p hp).1⟩, fun p hp hall => ?_⟩
      refine hF.closed p hp fun τ hτ => hall τ ⟨fun x hx => ⟨(hτ.1 x hx).1, ?_⟩, hτ.2⟩
      rw [hnear x hx]; exact (hτ.1 x hx).2
    -- what is shown is right on the other board, too
    have agree : ∀ (a a' : Board), BoardOK r c a → (∀ p ∈ O, bval a' p = bval a p) → ∀ (o : List (Ev × Pos)) (y : MSB),
        playOn (MSB.new a.view) o = some y → y.state ≠ .loss → shownSet r c y.gameBoard ⊆ O →
        ∀ p ∈ vcells a.view, shown y.gameBoard p < 10 → val a'.view p = shown y.gameBoard p := by
      intro a a' ha hval o y hy hl hsub p hp hlt
      rw [ha.vcells] at hp
      have hlt' : bval y.gameBoard p < 10 := hlt
      have hpO := hsub (mem_shownSet.mpr ⟨hp, by omega, by omega⟩)
      have hiy := (playOn_reach (.new ha.numbered) hy).inv
      obtain ⟨d1, d2, d3⟩ := steps_dims (MSB.new_inv ha.numbered) hy
      have d1 : y.board = a.view := d1
      have d2 : y.row = r := d2.trans ha.view.1
      have d3 : y.column = c := d3.trans ha.view.2
      have hpy : p ∈ grid y.row y.column := by rw [d2, d3]; exact hp
      have h1 := hiy.core.marks p hpy
      have h2 := hiy.core.bd_range hpy
      have h3 : shown y.gameBoard p = y.gb p := rfl
      have h4 : y.bd p = bval a p := by unfold MSB.bd; rw [d1]; rfl
      have h5 := hval p hpO
      have h6 : val a'.view p = bval a' p := rfl
      simp only [hl, false_and, or_false] at h1
      omega
    have hw : watch (MSB.new b'.view) ops = watch (MSB.new b.view) ops :=
      (C99_iff b.view b'.view hnum hd ops x1 y1 y2).mpr (agree b b' hb hval ops x1 y1 y2 hO)
    have hch' := C99_chooses m b.view b'.view ops op x1 y1 hw hch
    obtain ⟨t', t1, t2⟩ := hm _ hd hs' _ hch'
    have hx1 : sight (MSB.new b.view) = sight (MSB.new b'.view) := by
      unfold sight
      rw [(new_same hd.row hd.col).gameBoard]; rfl
    obtain ⟨u, u1, u2⟩ := watch_last hx1 y1 hw
    have t1' := t1
    rw [playOn_append, u1] at t1'
    simp only [Option.bind_some, playOn] at t1'
    split at t1'
    · cases t1'
    rename_i u' k' e'
    simp only [Option.some.injEq] at t1'
    subst t1'
    have hiu := (playOn_reach (.new hnum') u1).inv
    obtain ⟨c1, c2, c3⟩ := steps_dims (MSB.new_inv hnum') u1
    have c1 : u.board = b'.view := c1
    have c2 : u.row = r := c2.trans hb'.view.1
    have c3 : u.column = c := c3.trans hb'.view.2
    have hgb : u.gameBoard = x1.gameBoard := congrArg Sight.board u2
    rcases hF'.step hb' hiu c1 c2 c3 e' t2 (by rw [hgb]; exact hO) with h | ⟨-, h⟩
    · have hw' := (C99_iff b'.view b.view hnum' hd' _ u' t1 t2).mpr
        (agree b' b hb' (fun p hp => (hval p hp).symm) _ u' t1 t2 h)
      obtain ⟨w, w1, w2⟩ := watch_last hx1.symm t1 hw'
      rw [hx0] at w1
      have hxw := Option.some.inj w1
      have : w.gameBoard = u'.gameBoard := congrArg Sight.board w2
      rw [hxw, this]
      exact h
    · have h1 := (h q (by rw [firsts_congr hgb (c2.trans d2.symm) (c3.trans d3.symm)]; exact hq)).2
      rw [hlay q hqg, hσq] at h1
      cases h1

/-- **C101** no program does better without risk: take any program whatsoever - it may press, release, chord and flag as it likes - that
loses on no board that could be dealt, and makes the machine panic on none.  Every board that it wins can be solved by counting. -/
theorem C101_optimal (hrect : Rect b r c) (hnum : Numbered b.view) (hn : (mines b.view).card = n) (hs : s ∈ grid r c)
    (hsafe : b.get s.1 s.2 ≠ -1) (hm : Faultless m b.view s) (hw : WinsOn m b.view) : NoGamble r c b s n := by
  have hb := ok_of hrect hnum hs
  have hcard := (mines_card hb).trans hn
  obtain ⟨O, o1, hF⟩ := exists_full (n := n) hcard hs (layout_false.mpr hsafe)
  have hsO : s ∈ O := by
    have : ∀ {O : Finset Pos}, CountOpen r c b s n O → s ∈ O := by
      intro O h
      induction h with
      | start => simp
      | step _ _ _ ih => exact Finset.mem_insert_of_mem ih
    exact this o1
  obtain ⟨ops, x, h1, h2, h3⟩ := hw
  have hsub := opens_only hrect hnum hn hs hm hF hsO ops h1 x h2
  have hre := playOn_reach (.new hnum) h2
  obtain ⟨d1, -, -⟩ := steps_dims (MSB.new_inv hnum) h2
  have d1 : x.board = b.view := d1
  have hv : vcells x.board = grid r c := by rw [d1]; exact hb.vcells
  have hval : ∀ p, val x.board p = bval b p := fun p => by rw [d1]; rfl
  have hwin := (C13_win_iff x hre ⟨s, by rw [hv]; exact hs, by rw [hval]; exact hsafe⟩).mp h3
  refine ⟨O, o1, fun p hp hne => hsub ?_⟩
  have h3 := hwin p (by rw [hv]; exact hp) (by rw [hval]; exact hne)
  rw [hval] at h3
  have h4 := hb.range hp (layout_false.mpr hne)
  have h3 : bval x.gameBoard p = bval b p := h3
  exact mem_shownSet.mpr ⟨hp, by omega, by omega⟩

/-- **C101** so on boards of at most 55 cells the program that opens the cells which `cal_possibility_onboard` calls free is the best
there is: it is faultless, and it wins every board that any faultless program wins. -/
theorem C101_table_best (hrect : Rect b r c) (hnum : Numbered b.view) (hn : (mines b.view).card = n) (h1 : 1 ≤ n) (hs : s ∈ grid r c)
    (hsafe : b.get s.1 s.2 ≠ -1) (hsize : r * c ≤ 55) :
    Faultless (follow s (byTable n)) b.view s ∧ ∀ m, Faultless m b.view s → WinsOn m b.view → WinsOn (follow s (byTable n)) b.view := by
  obtain ⟨hf, hh⟩ := C101_table hs h1 hsize
  have hv := (ok_of hrect hnum hs).view
  exact ⟨C101_faultless hf b.view hv.1 hv.2 hn hs, fun m hm hw =>
    (C101_best hf hh hrect hnum hn hs hsafe).1.mpr (C101_optimal hrect hnum hn hs hsafe hm hw)⟩

/-- what the program makes of a board laid with the flag set -/
private theorem laid_game (hf : Honest r c n s f) (hh : Helpful r c n s f) (hr : 3 ≤ r) (hc : 3 ≤ c)
    (ho : Ordered r c n s.1 s.2 b) (hs : s ∈ grid r c) (hok : isSolvable b s.1 s.2 = some true) :
    WinsOn (follow s f) b.view ∧ ∀ ops, Chooses (follow s f) (MSB.new b.view) ops → 2 * (r * c - n) ≤ ops.length →
      ∃ t, playOn (MSB.new b.view) ops = some t ∧ t.state = .win := by
  have hsafe : b.get s.1 s.2 ≠ -1 := by rw [ho.start]; decide
  have hcard : 2 * (safeCells b).card ≤ 2 * (r * c - n) := by
    have hbd := rect_dims ho.rect (by omega)
    have h1 : (safeCells b).card + (mines b.view).card = (grid r c).card := by
      have h2 : safeCells b = (grid r c).filter fun p => ¬ val b.view p = -1 := by
        unfold safeCells; rw [hbd.1, hbd.2]; rfl
      have h3 : mines b.view = (grid r c).filter fun p => val b.view p = -1 := by
        show (grid b.row b.col).filter _ = _
        rw [hbd.1, hbd.2]
      rw [h2, h3, add_comm]
      exact Finset.card_filter_add_card_filter_not _
    have h2 : (grid r c).card = r * c := by simp [grid]
    have h3 := ho.mines
    omega
  have main := fun ops hch hl => C101_solvable hf hh hr hc ho.rect ho.numbered ho.mines hs hsafe hok ops hch (hcard.trans hl)
  obtain ⟨ops, o1, o2⟩ := (C101_wins hf hh ho.rect ho.numbered ho.mines hs hsafe).1 (2 * (r * c - n))
  obtain ⟨t, t1, t2⟩ := main ops o2 (by rw [o1])
  exact ⟨⟨ops, t, o2, t1, t2⟩, main⟩

/-- **C101** for `laymine_solvable`: whatever the shuffles, on the board it returns with the flag set the program wins, within two events
for each cell without a mine. -/
theorem C101_laid (sh : Nat → List Int → List Int) (hsh : ∀ k l, (sh k l).Perm l) (r c m x0 y0 maxTimes : Nat)
    (hr : 3 ≤ r) (hc : 3 ≤ c) (hx : x0 < r) (hy : y0 < c) (hm : m ≤ r * c - (startBlock r c x0 y0).card)
    (f : Board → Option Pos) (hf : Honest r c m (x0, y0) f) (hh : Helpful r c m (x0, y0) f) :
    ∃ b flag, laymineSolvable sh r c m x0 y0 maxTimes = some (b, flag) ∧ (flag = true →
      WinsOn (follow (x0, y0) f) b.view ∧
      ∀ ops, Chooses (follow (x0, y0) f) (MSB.new b.view) ops → 2 * (r * c - m) ≤ ops.length →
        ∃ t, playOn (MSB.new b.view) ops = some t ∧ t.state = .win) := by
  obtain ⟨b, flag, h1, h2, h3, -⟩ := laymine_solvable_spec sh hsh r c m x0 y0 maxTimes hr hc hx hy hm
  exact ⟨b, flag, h1, fun e => laid_game hf hh hr hc h2 (mem_grid.mpr ⟨hx, hy⟩) (h3 e).1⟩

/-- **C101** for the eight threads: whatever the schedule. -/
theorem C101_laid_thread (r c m x0 y0 maxTimes : Nat)
    (hr : 3 ≤ r) (hc : 3 ≤ c) (hx : x0 < r) (hy : y0 < c) (hm : m ≤ r * c - (startBlock r c x0 y0).card)
    (f : Board → Option Pos) (hf : Honest r c m (x0, y0) f) (hh : Helpful r c m (x0, y0) f)
    (k : Nat) (st : Par) (hst : ParSteps r c m x0 y0 maxTimes k Par.init st) (hd : ∀ i, st.ph i = .done) :
    ∃ b flag, st.Returns b flag ∧ (flag = true →
      WinsOn (follow (x0, y0) f) b.view ∧
      ∀ ops, Chooses (follow (x0, y0) f) (MSB.new b.view) ops → 2 * (r * c - m) ≤ ops.length →
        ∃ t, playOn (MSB.new b.view) ops = some t ∧ t.state = .win) := by
  obtain ⟨b, flag, h1, h2, h3⟩ := (laymine_solvable_thread_sound r c m x0 y0 maxTimes hr hc hx hy hm k st hst).2 hd
  exact ⟨b, flag, h1, fun e => laid_game hf hh hr hc h2 (mem_grid.mpr ⟨hx, hy⟩) (h3 e).1⟩

/-- Non-vacuity: a faultless program that wins. -/
theorem exCount_best : Faultless (follow (0, 0) (byTable 1)) exCount.view (0, 0) ∧ WinsOn (follow (0, 0) (byTable 1)) exCount.view := by
  obtain ⟨ops, t, -, h1, h2, h3⟩ := exCount_program
  exact ⟨(C101_table_best exCount_rect exCount_numbered exCount_mines (by decide) (by decide) (by decide) (by decide)).1,
    ops, t, h1, h2, h3⟩

/-- a mine on one side of a 1 -/
def exCoin : Board := [[-1, 1, 0]]

/-- No faultless program wins `exCoin`: the cells beside the 1 look alike. -/
theorem exCoin_none (m : Mind) (hm : Faultless m exCoin.view (0, 1)) : ¬ WinsOn m exCoin.view := by
  intro hw
  have hnum : Numbered exCoin.view := by unfold Numbered; decide
  obtain ⟨O, h1, h2⟩ := C101_optimal (r := 1) (c := 3) (n := 1) (s := (0, 1)) ⟨rfl, by decide⟩ hnum (by decide) (by decide) (by decide) hm hw
  have key : ∀ {O : Finset Pos}, CountOpen 1 3 exCoin (0, 1) 1 O → O = {(0, 1)} := by
    intro O h
    induction h with
    | start => rfl
    | @step O p _ hp hs ih =>
      subst ih
      have h3 : p = (0, 0) ∨ p = (0, 1) ∨ p = (0, 2) := by
        have := mem_grid.mp hp
        obtain ⟨a, d⟩ := p
        simp only [Prod.mk.injEq] at this ⊢
        omega
      rcases h3 with rfl | rfl | rfl
      · have := hs (fun q => decide (q = (0, 0))) (by unfold Explains; decide) (by decide)
        exact absurd this (by decide)
      · rfl
      · have := hs (fun q => decide (q = (0, 2))) (by unfold Explains; decide) (by decide)
        exact absurd this (by decide)
  have h3 := h2 (0, 2) (by decide) (by decide)
  rw [key h1] at h3
  exact absurd h3 (by decide)

/-- A board that `laymine_solvable` lays and accepts at the first try, and the program wins. -/
example : ∃ b, laymineSolvable (fun _ => id) 5 4 2 0 0 1 = some (b, true) ∧ WinsOn (follow (0, 0) (byTable 2)) b.view := by
  obtain ⟨hf, hh⟩ := C101_table (r := 5) (c := 4) (n := 2) (s := (0, 0)) (by decide) (by decide) (by decide)
  obtain ⟨b, flag, h1, h2⟩ := C101_laid (fun _ => id) (fun _ _ => .refl _) 5 4 2 0 0 1 (by decide) (by decide) (by decide) (by decide)
    (by decide) _ hf hh
  have h3 : (laymineSolvable (fun _ => id) 5 4 2 0 0 1).map Prod.snd = some true := by decide +kernel
  rw [h1] at h3
  have h3 : flag = true := by simpa using h3
  exact ⟨b, h3 ▸ h1, (h2 h3).1⟩

end Ms.Properties
