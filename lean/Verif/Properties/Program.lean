import Verif.SpecProgram
import Verif.Lemmas.CountOpen
import Verif.Properties.Secret

/-!
# Property C101: one program wins every board that can be solved
-/

namespace Ms.Properties
open Spec MSB

/-! ### playing event by event -/

theorem chooses_snoc {m : Mind} {s : MSB} {ops : List (Ev × Pos)} {op : Ev × Pos} :
    Chooses m s (ops ++ [op]) ↔ Chooses m s ops ∧ ∃ w, watch s ops = some w ∧ op = m w := by
  constructor
  · intro h
    exact ⟨fun before o later e => h before o (later ++ [op]) (by rw [e]; simp), h ops op [] rfl⟩
  · rintro ⟨h1, h2⟩ before o later e
    rcases List.eq_nil_or_concat later with rfl | ⟨l, x, rfl⟩
    · have e' := List.append_inj' (t₁ := [op]) (t₂ := [o]) e rfl
      obtain ⟨e1, e2⟩ := e'
      subst e1
      simp only [List.cons.injEq, and_true] at e2
      subst e2
      exact h2
    · rw [List.concat_eq_append, ← List.cons_append, ← List.append_assoc] at e
      exact h1 before o l (List.append_inj' e rfl).1

theorem watch_snoc {ops : List (Ev × Pos)} {op : Ev × Pos} : ∀ {s t u : MSB} {r : Option Nat}, playOn s ops = some t →
    t.step op.1 op.2 = some (u, r) → ∃ w, watch s (ops ++ [op]) = some (w ++ [(r, sight u)]) := by
  induction ops with
  | nil =>
    intro s t u r h e
    simp only [playOn, Option.some.injEq] at h
    subst h
    exact ⟨[], by simp [watch, e]⟩
  | cons o ops ih =>
    intro s t u r h e
    unfold playOn at h
    split at h
    · cases h
    rename_i s' r' e'
    obtain ⟨w, w1⟩ := ih h e
    exact ⟨(r', sight s') :: w, by simp [watch, e', w1]⟩

theorem playOn_snoc {ops : List (Ev × Pos)} {op : Ev × Pos} {s t u : MSB} {r : Option Nat} (h : playOn s ops = some t)
    (e : t.step op.1 op.2 = some (u, r)) : playOn s (ops ++ [op]) = some u := by
  rw [playOn_append, h]
  simp [playOn, e]

theorem watch_sees {ops : List (Ev × Pos)} (hne : ops ≠ []) {s t : MSB} (h : playOn s ops = some t) {w : List (Option Nat × Sight)}
    (hw : watch s ops = some w) : ∃ r, w.getLast? = some (r, sight t) := by
  rcases List.eq_nil_or_concat ops with rfl | ⟨ops, op, rfl⟩
  · exact absurd rfl hne
  rw [List.concat_eq_append] at h hw
  rw [playOn_append] at h
  rcases h1 : playOn s ops with _ | t'
  · rw [h1] at h; cases h
  rw [h1] at h
  simp only [Option.bind_some, playOn] at h
  split at h
  · cases h
  rename_i u r e
  simp only [Option.some.injEq] at h
  subst h
  obtain ⟨w', w1⟩ := watch_snoc h1 e
  rw [w1] at hw
  simp only [Option.some.injEq] at hw
  subst hw
  exact ⟨r, by simp⟩

/-! ### the states of a game played by advice -/

variable {r c n : Nat} {b : Board} {s : Pos} {f : Board → Option Pos}

private theorem ok_of (hrect : Rect b r c) (hnum : Numbered b.view) (hs : s ∈ grid r c) : BoardOK r c b := by
  have := mem_grid.mp hs
  exact ⟨hrect, by omega, by omega, hnum⟩

private theorem mines_card (hb : BoardOK r c b) : ((grid r c).filter fun p => layout b p = true).card = (mines b.view).card := by
  unfold mines
  rw [hb.vcells]
  congr 1
  apply Finset.filter_congr
  intro q _
  rw [layout_iff]
  rfl

/-- where the game stands after the events `ops` -/
private inductive Along (r c n : Nat) (b : Board) (s : Pos) (f : Board → Option Pos) : List (Ev × Pos) → MSB → Prop
  | start : Along r c n b s f [] (MSB.new b.view)
  | pressed {x : MSB} : playOn (MSB.new b.view) [(.lc, s)] = some x → x.state = .preFlaging → Along r c n b s f [(.lc, s)] x
  | rest {ops : List (Ev × Pos)} {t u : MSB} : (MSB.new b.view).stepFlow (leftOn s) = some (t, true) → CountingGame n t u →
      (NoGamble r c b s n → Helpful r c n s f → u.state = .win ∨ ops.length ≤ 2 * (shownSet r c u.gameBoard).card) →
      Along r c n b s f ops u
  | held {ops : List (Ev × Pos)} {t u : MSB} {p : Pos} : (MSB.new b.view).stepFlow (leftOn s) = some (t, true) → CountingGame n t u →
      u.state = .playing → u.mouse = .upUp → SafeAmong u.gameBoard n p → f u.gameBoard = some p →
      (NoGamble r c b s n → Helpful r c n s f → ops.length ≤ 2 * (shownSet r c u.gameBoard).card + 1) →
      Along r c n b s f ops { u with mouse := .downUp }

private theorem start_shown (hb : BoardOK r c b) (hs : s ∈ grid r c) (hsafe : b.get s.1 s.2 ≠ -1) {t : MSB}
    (h1 : (MSB.new b.view).stepFlow (leftOn s) = some (t, true)) : s ∈ shownSet r c t.gameBoard := by
  obtain ⟨t', e1, e2⟩ := careful_first hb (layout_false.mpr hsafe) hs
  rw [h1] at e1
  obtain rfl : t = t' := by simpa using e1
  obtain ⟨O, k⟩ := e2.know
  have hO := openable_start k.openable
  have h2 := k.opened s hO
  have h3 := hb.range hs (layout_false.mpr hsafe)
  exact mem_shownSet.mpr ⟨hs, by omega, by omega⟩

/-- what can be opened without counting can be opened with it -/
theorem countOpen_of {O : Finset Pos} (h : Openable r c b s O) : CountOpen r c b s n O := by
  induction h with
  | start => exact .start
  | step _ h1 h2 ih => exact .step ih h1 fun σ hσ _ => h2 σ hσ

/-- **C101** boards that can be solved without guessing can be solved by counting, too. -/
theorem C101_noGuess (h : NoGuess r c b s) : NoGamble r c b s n := by
  obtain ⟨O, h1, h2⟩ := h
  exact ⟨O, countOpen_of h1, fun p hp hne => h2 p hp (layout_false.mpr hne)⟩

/-- **C101** on a board that can be solved by counting a player who counts never gets stuck: until the game is won, some cell is safe. -/
theorem C101_no_dead_end (hrect : Rect b r c) (hnum : Numbered b.view) (hm : (mines b.view).card = n) (hs : s ∈ grid r c)
    (hsafe : b.get s.1 s.2 ≠ -1) (hno : NoGamble r c b s n) (t u : MSB)
    (h1 : (MSB.new b.view).stepFlow (leftOn s) = some (t, true)) (h2 : CountingGame n t u) :
    u.state = .win ∨ ∃ p, SafeAmong u.gameBoard n p := by
  have hb := ok_of hrect hnum hs
  have hn := (mines_card hb).trans hm
  obtain ⟨t', e1, e2⟩ := count_first (n := n) hb (layout_false.mpr hsafe) hs
  rw [h1] at e1
  obtain rfl : t = t' := by simpa using e1
  obtain ⟨hi, hsub0⟩ := e2.game hb hn h2
  have hst := hsub0 (start_shown hb hs hsafe h1)
  have k := hi.know
  by_cases hex : ∃ p, SafeAmong u.gameBoard n p
  · exact .inr hex
  left
  obtain ⟨O, o1, o2⟩ := hno
  have hsub : O ⊆ shownSet r c u.gameBoard := by
    clear o2
    induction o1 with
    | start => intro q hq; rw [Finset.mem_singleton] at hq; subst hq; exact hst
    | @step O p _ hp hf ih =>
      intro q hq
      rcases Finset.mem_insert.mp hq with rfl | hq
      · have hall : ∀ σ, ExplainsAll r c b (shownSet r c u.gameBoard) n σ → σ q = false :=
          fun σ hσ => hf σ (fun x hx => hσ.1 x (ih hx)) hσ.2
        by_cases h10 : bval u.gameBoard q = 10
        · exact absurd ⟨q, (k.safe_iff hb).mpr ⟨hp, h10, hall⟩⟩ hex
        · by_cases h11 : bval u.gameBoard q = 11
          · have e1 := k.flags q hp h11 _ (k.truth hn)
            rw [hall _ (k.truth hn)] at e1
            cases e1
          · exact mem_shownSet.mpr ⟨hp, h10, h11⟩
      · exact ih hq
  have hv : vcells u.board = grid r c := by rw [hi.bd]; exact hb.vcells
  have hval : ∀ p, val u.board p = bval b p := fun p => by rw [hi.bd]; rfl
  refine (C13_win_iff u hi.reach ⟨s, by rw [hv]; exact hs, by rw [hval]; exact hsafe⟩).mpr fun p hp hne => ?_
  rw [hv] at hp
  rw [hval] at hne ⊢
  exact (k.opened p (hsub (o2 p hp hne))).1

private theorem along (hrect : Rect b r c) (hnum : Numbered b.view) (hm : (mines b.view).card = n) (hs : s ∈ grid r c)
    (hsafe : b.get s.1 s.2 ≠ -1) (hf : Honest r c n s f) (ops : List (Ev × Pos)) : Chooses (follow s f) (MSB.new b.view) ops →
    ∃ x, playOn (MSB.new b.view) ops = some x ∧ Along r c n b s f ops x := by
  have hb := ok_of hrect hnum hs
  have hcard := (mines_card hb).trans hm
  obtain ⟨t, t1, t2⟩ := count_first (n := n) hb (layout_false.mpr hsafe) hs
  induction ops using List.reverseRecOn with
  | nil => exact fun _ => ⟨_, rfl, .start⟩
  | append_singleton ops op ih =>
    intro h
    obtain ⟨h1, w, w1, rfl⟩ := chooses_snoc.mp h
    obtain ⟨x, x1, x2⟩ := ih h1
    have ext : ∀ op u r', x.step op.1 op.2 = some (u, r') → Along r c n b s f (ops ++ [op]) u →
        ∃ x, playOn (MSB.new b.view) (ops ++ [op]) = some x ∧ Along r c n b s f (ops ++ [op]) x :=
      fun op u r' e ha => ⟨u, playOn_snoc x1 e, ha⟩
    have key := t1
    have hsplit : playOn (MSB.new b.view) ([(.lc, s)] ++ [(.lr, s)]) = some t := playOn_flow t1
    cases x2 with
    | start =>
      simp only [watch, Option.some.injEq] at w1
      subst w1
      have hop : follow s f [] = (.lc, s) := rfl
      rw [hop]
      have hin : MSB.inRange { (MSB.new b.view) with mouse := .downUp } s = true := inRange_iff.mpr (by
        have hv := hb.view
        simp only [MSB.new, hv.1, hv.2]; exact hs)
      have e : (MSB.new b.view).step .lc s = some ({ (MSB.new b.view) with mouse := .downUp, state := .preFlaging }, some 0) := by
        simp only [MSB.new] at hin
        simp [MSB.step, MSB.new, stepReady, ok0, hin]
      refine ext (.lc, s) _ _ e (.pressed ?_ rfl)
      simp [playOn, e]
    | @pressed x y1 y2 =>
      obtain ⟨r', l⟩ := watch_sees (by simp) x1 w1
      have hop : follow s f w = (.lr, s) := by
        unfold follow
        rw [l]
        simp [sight, y2]
      rw [hop]
      refine ⟨t, hsplit, .rest t1 .refl fun _ _ => .inr ?_⟩
      have : 0 < (shownSet r c t.gameBoard).card := Finset.card_pos.mpr ⟨s, start_shown hb hs hsafe t1⟩
      show 2 ≤ _
      omega
    | @rest _ t' x y1 y2 y3 =>
      rw [t1] at y1
      obtain rfl : t = t' := by simpa using y1
      obtain ⟨hi, -⟩ := t2.game hb hcard y2
      rcases hi.st with ⟨hst, hmo⟩ | hw
      · have hne : ops ≠ [] := by
          rintro rfl
          simp only [playOn, Option.some.injEq] at x1
          rw [← x1] at hst
          simp [MSB.new] at hst
        obtain ⟨r', l⟩ := watch_sees hne x1 w1
        have hmeet : Meets r c n s x.gameBoard := ⟨b, t, x, hrect, hnum, hm, hsafe, t1, y2, rfl⟩
        rcases hfx : f x.gameBoard with _ | p
        · have hop : follow s f w = (.mv, s) := by
            unfold follow
            rw [l]
            simp [sight, hst, hfx]
          rw [hop]
          refine ext (.mv, s) x (some 0) (by simp [MSB.step, hst, stepPlaying]) (.rest t1 y2 fun hno hh => ?_)
          subst hm
          rcases C101_no_dead_end hrect hnum rfl hs hsafe hno t x t1 y2 with h' | h'
          · exact .inl h'
          · have := hh _ hmeet h'
            rw [hfx] at this
            cases this
        · have hop : follow s f w = (.lc, p) := by
            unfold follow
            rw [l]
            simp [sight, hst, hfx, hmo]
          rw [hop]
          refine ext (.lc, p) { x with mouse := .downUp } (some 0) (by simp [MSB.step, hst, stepPlaying, hmo])
            (.held t1 y2 hst hmo (hf _ hmeet p hfx) hfx fun hno hh => ?_)
          rcases y3 hno hh with h' | h'
          · rw [hst] at h'; cases h'
          · simp; omega
      · exact ext _ x (some 0) (C15_terminal_frozen x _ _ (.inl hw)) (.rest t1 y2 fun _ _ => .inl hw)
    | @held _ t' u p y1 y2 hst hmo hp hfp y3 =>
      rw [t1] at y1
      obtain rfl : t = t' := by simpa using y1
      have hne : ops ≠ [] := by
        rintro rfl
        simp only [playOn, Option.some.injEq] at x1
        have := congrArg MSB.state x1
        simp [MSB.new, hst] at this
      obtain ⟨r', l⟩ := watch_sees hne x1 w1
      have hop : follow s f w = (.lr, p) := by
        unfold follow
        rw [l]
        simp [sight, hst, hfp]
      rw [hop]
      subst hm
      obtain ⟨v, v1, v2⟩ := (C98_accepted hrect hnum hs hsafe t u t1 y2 p).1 hp
      have e1 : u.step .lc p = some ({ u with mouse := .downUp }, some 0) := by simp [MSB.step, hst, stepPlaying, hmo]
      have v1' := v1
      simp only [leftOn, stepFlow, e1] at v1'
      have hg : CountingGame (mines b.view).card t v := y2.tail (.opens hp v1)
      split at v1'
      · cases v1'
      · simp at v1'
      rename_i v' k e2
      simp only [Option.some.injEq, Prod.mk.injEq, and_true] at v1'
      subst v1'
      refine ext (.lr, p) _ _ e2 (.rest t1 hg fun hno hh => .inr ?_)
      have hle := y3 hno hh
      obtain ⟨hi, -⟩ := t2.game hb hcard y2
      obtain ⟨hj, hsub⟩ := hi.game hb hcard (Relation.ReflTransGen.single (.opens hp v1))
      obtain ⟨p1, p2, p3⟩ := (hi.know.safe_iff hb).mp hp
      have hsafe' := p3 _ (hi.know.truth hcard)
      have hr := hb.range p1 hsafe'
      have hv : bval v'.gameBoard p = bval b p := v2 hst
      have hlt : (shownSet r c u.gameBoard).card < (shownSet r c v'.gameBoard).card := by
        refine Finset.card_lt_card ⟨hsub, fun hh => ?_⟩
        have := mem_shownSet.mp (hh (mem_shownSet.mpr ⟨p1, by omega, by omega⟩))
        exact this.2.1 p2
      simp; omega

/-! ### never losing -/

/-- a program that never loses on a board never loses on a board with the same mines -/
theorem same_mind {v v' : View} (hn : Numbered v) (hd : Dealt v v') (hv : mines v' = mines v) (m : Mind)
    (hall : ∀ ops, Chooses m (MSB.new v) ops → ∃ t, playOn (MSB.new v) ops = some t ∧ t.state ≠ .loss) (ops : List (Ev × Pos)) :
    Chooses m (MSB.new v') ops →
    watch (MSB.new v') ops = watch (MSB.new v) ops ∧ ∃ t, playOn (MSB.new v') ops = some t ∧ t.state ≠ .loss := by
  induction ops using List.reverseRecOn with
  | nil => exact fun _ => ⟨rfl, _, rfl, by simp [MSB.new]⟩
  | append_singleton ops op ih =>
    intro h
    obtain ⟨i1, t, i2, i3⟩ := ih fun before o later e => h before o (later ++ [op]) (by rw [e]; simp)
    obtain ⟨u, u1, u2⟩ := hall _ (C99_chooses m v' v ops op t i2 i1.symm h)
    have hx := same_cells hn hd hv u1 u2
    refine ⟨hx, ?_⟩
    obtain ⟨u', x1, x2⟩ := watch_last (s := MSB.new v) (t := MSB.new v') (by
      unfold sight
      rw [(new_same hd.row hd.col).gameBoard]; rfl) u1 hx
    refine ⟨u', x1, ?_⟩
    have : u'.state = u.state := congrArg Sight.state x2
    rw [this]; exact u2

theorem not_lost (hrect : Rect b r c) (hnum : Numbered b.view) (hm : (mines b.view).card = n) (hs : s ∈ grid r c)
    (hsafe : b.get s.1 s.2 ≠ -1) (hf : Honest r c n s f) (ops : List (Ev × Pos)) (h : Chooses (follow s f) (MSB.new b.view) ops) :
    ∃ x, playOn (MSB.new b.view) ops = some x ∧ x.state ≠ .loss := by
  obtain ⟨x, x1, x2⟩ := along hrect hnum hm hs hsafe hf ops h
  refine ⟨x, x1, ?_⟩
  cases x2 with
  | start => simp [MSB.new]
  | pressed _ y => rw [y]; decide
  | rest y1 y2 _ =>
    subst hm
    rcases C98_never_lost hrect hnum hs hsafe _ _ y1 y2 with h | h <;> rw [h] <;> decide
  | held _ _ y _ _ _ _ => show _ ≠ _; rw [y]; decide

/-- **C101** a program that plays by honest advice never loses, on no board that could be dealt (of the given size, with the given
number of mines, and none on the cell it starts with). -/
theorem C101_never_loses (hf : Honest r c n s f) (v : View) (hr : v.row = r) (hc : v.col = c) (hm : (mines v).card = n)
    (hs : s ∈ grid r c) : NeverLoses (follow s f) v s := by
  intro v' hd h0 ops t hch ht
  have hrow : v'.row = r := hd.row.trans hr
  have hcol : v'.col = c := hd.col.trans hc
  have hgrid := mem_grid.mp hs
  have hM : mines v' ⊆ grid r c := by
    intro q hq
    have : q ∈ grid v'.row v'.col := (Finset.mem_filter.mp hq).1
    rw [hrow, hcol] at this
    exact this
  let b : Board := Board.build r c (withMines r c (mines v')).get
  have hrect : Rect b r c := rect_build ..
  have hbd := rect_dims hrect (by omega)
  have hcell : ∀ q ∈ grid r c, val b.view q = val (withMines r c (mines v')) q := by
    intro q hq
    have := mem_grid.mp hq
    exact get_build _ this.1 this.2
  have hcells : vcells b.view = grid r c := by
    show grid b.row b.col = _
    rw [hbd.1, hbd.2]
  have hmines : mines b.view = mines v' := by
    ext q
    unfold mines
    rw [Finset.mem_filter, hcells]
    constructor
    · rintro ⟨h1, h2⟩
      rw [hcell q h1, val_withMines] at h2
      by_contra hq
      have hq : q ∉ mines v' := hq
      rw [if_neg hq] at h2
      omega
    · intro h
      have h : q ∈ mines v' := h
      refine ⟨hM h, ?_⟩
      rw [hcell q (hM h), val_withMines, if_pos h]
  have hnum : Numbered b.view := by
    intro q hq hne
    rw [hcells] at hq
    rw [hcell q hq] at hne ⊢
    rw [hmines]
    have := numbered_withMines hM q hq hne
    rw [mines_withMines hM] at this
    exact this
  have hsafe : b.get s.1 s.2 ≠ -1 := by
    intro h
    refine h0 (hmines ▸ Finset.mem_filter.mpr ⟨?_, h⟩)
    rw [hcells]; exact hs
  have hn : (mines b.view).card = n := by rw [hmines, hd.count, hm]
  obtain ⟨-, u, u1, u2⟩ := same_mind (v := b.view) (v' := v') hnum
    ⟨hrow.trans hbd.1.symm, hcol.trans hbd.2.symm, by rw [hmines], hd.numbered⟩ hmines.symm (follow s f)
    (not_lost hrect hnum hn hs hsafe hf) ops hch
  rw [ht] at u1
  obtain rfl : t = u := by simpa using u1
  exact u2

/-! ### winning -/

/-- the program never stops, and no event makes the machine panic -/
private theorem goes_on (hrect : Rect b r c) (hnum : Numbered b.view) (hm : (mines b.view).card = n) (hs : s ∈ grid r c)
    (hsafe : b.get s.1 s.2 ≠ -1) (hf : Honest r c n s f) (k : Nat) :
    ∃ ops, ops.length = k ∧ Chooses (follow s f) (MSB.new b.view) ops := by
  induction k with
  | zero => exact ⟨[], rfl, fun before op later e => by simp at e⟩
  | succ k ih =>
    obtain ⟨ops, h1, h2⟩ := ih
    obtain ⟨x, x1, -⟩ := along hrect hnum hm hs hsafe hf ops h2
    obtain ⟨w, w1, -⟩ := playOn_watch x1
    exact ⟨ops ++ [follow s f w], by simp [h1], chooses_snoc.mpr ⟨h2, w, w1, rfl⟩⟩

/-- **C101** one program wins every board that can be solved without guessing: take any advice that is honest and helpful.  The
program that follows it, which sees nothing but the game, plays on for ever on any correctly numbered board, with no panic, and on
every board that can be solved without guessing by a player who knows the number of mines, from the cell it starts with, it has won the game after at most two events for
each safe cell. -/
theorem C101_wins (hf : Honest r c n s f) (hh : Helpful r c n s f) (hrect : Rect b r c) (hnum : Numbered b.view)
    (hm : (mines b.view).card = n) (hs : s ∈ grid r c) (hsafe : b.get s.1 s.2 ≠ -1) :
    (∀ k, ∃ ops, ops.length = k ∧ Chooses (follow s f) (MSB.new b.view) ops) ∧
    ∀ ops, Chooses (follow s f) (MSB.new b.view) ops → ∃ t, playOn (MSB.new b.view) ops = some t ∧
      (NoGamble r c b s n → 2 * (safeCells b).card ≤ ops.length → t.state = .win) := by
  refine ⟨goes_on hrect hnum hm hs hsafe hf, fun ops hch => ?_⟩
  obtain ⟨x, x1, x2⟩ := along hrect hnum hm hs hsafe hf ops hch
  refine ⟨x, x1, fun hno hlen => ?_⟩
  have hb := ok_of hrect hnum hs
  have hd := rect_dims hrect hb.rpos
  have hcard := (mines_card hb).trans hm
  have hsS : s ∈ safeCells b := Finset.mem_filter.mpr ⟨by rw [hd.1, hd.2]; exact hs, hsafe⟩
  have hpos : 0 < (safeCells b).card := Finset.card_pos.mpr ⟨s, hsS⟩
  obtain ⟨t, t1, t2⟩ := count_first (n := n) hb (layout_false.mpr hsafe) hs
  have hmax : ∀ {u : MSB} {p : Pos}, CountingGame n t u → SafeAmong u.gameBoard n p →
      (shownSet r c u.gameBoard).card < (safeCells b).card := by
    intro u p hg hp
    obtain ⟨hi, -⟩ := t2.game hb hcard hg
    obtain ⟨p1, p2, p3⟩ := (hi.know.safe_iff hb).mp hp
    refine Finset.card_lt_card ⟨fun q hq => ?_, fun h => ?_⟩
    · refine Finset.mem_filter.mpr ⟨?_, layout_false.mp (hi.know.opened q hq).2⟩
      rw [hd.1, hd.2]
      exact (mem_shownSet.mp hq).1
    · have : p ∈ safeCells b := Finset.mem_filter.mpr ⟨by rw [hd.1, hd.2]; exact p1, layout_false.mp (p3 _ (hi.know.truth hcard))⟩
      exact (mem_shownSet.mp (h this)).2.1 p2
  cases x2 with
  | start =>
    have : 2 * (safeCells b).card ≤ 0 := hlen
    omega
  | pressed _ _ =>
    have : 2 * (safeCells b).card ≤ 1 := hlen
    omega
  | @rest _ t' x y1 y2 y3 =>
    rw [t1] at y1
    obtain rfl : t = t' := by simpa using y1
    subst hm
    rcases C101_no_dead_end hrect hnum rfl hs hsafe hno t x t1 y2 with h | ⟨p, hp⟩
    · exact h
    rcases y3 hno hh with h | h
    · exact h
    have := hmax y2 hp
    omega
  | @held _ t' u p y1 y2 hst hmo hp hfp y3 =>
    rw [t1] at y1
    obtain rfl : t = t' := by simpa using y1
    have := hmax y2 hp
    have := y3 hno hh
    omega

/-- **C101** `is_solvable` promises it: on every board with at least three rows and columns for which it answers `true` the program
wins. -/
theorem C101_solvable (hf : Honest r c n s f) (hh : Helpful r c n s f) (hr : 3 ≤ r) (hc : 3 ≤ c) (hrect : Rect b r c)
    (hnum : Numbered b.view) (hm : (mines b.view).card = n) (hs : s ∈ grid r c) (hsafe : b.get s.1 s.2 ≠ -1)
    (hsol : isSolvable b s.1 s.2 = some true) (ops : List (Ev × Pos)) (hch : Chooses (follow s f) (MSB.new b.view) ops)
    (hlen : 2 * (safeCells b).card ≤ ops.length) : ∃ t, playOn (MSB.new b.view) ops = some t ∧ t.state = .win := by
  obtain ⟨v, h1, h2⟩ := is_solvable_sound r c b s hrect hnum hr hc hs hsafe
  rw [hsol] at h1
  obtain ⟨t, t1, t2⟩ := (C101_wins hf hh hrect hnum hm hs hsafe).2 ops hch
  exact ⟨t, t1, t2 (C101_noGuess (h2 (by simpa using h1.symm))) hlen⟩

/-- **C101** and only those: a player who counts can reach the end of a game, whatever they do, only if the board can be solved by
counting. -/
theorem C101_won (hrect : Rect b r c) (hnum : Numbered b.view) (hm : (mines b.view).card = n) (hs : s ∈ grid r c)
    (hsafe : b.get s.1 s.2 ≠ -1) (t u : MSB) (h1 : (MSB.new b.view).stepFlow (leftOn s) = some (t, true))
    (h2 : CountingGame n t u) (hw : u.state = .win) : NoGamble r c b s n := by
  have hb := ok_of hrect hnum hs
  have hn := (mines_card hb).trans hm
  have hl := layout_false.mpr hsafe
  obtain ⟨O, o1, o2⟩ := exists_full (n := n) hn hs hl
  have hsO : s ∈ O := by
    have : ∀ {O : Finset Pos}, CountOpen r c b s n O → s ∈ O := by
      intro O h
      induction h with
      | start => simp
      | step _ _ _ ih => exact Finset.mem_insert_of_mem ih
    exact this o1
  obtain ⟨t', e1, e2⟩ := count_first (n := n) hb hl hs
  rw [h1] at e1
  obtain rfl : t = t' := by simpa using e1
  have h0 : shownSet r c t.gameBoard ⊆ O := by
    obtain ⟨t', e1, e3⟩ := careful_first hb hl hs
    rw [h1] at e1
    obtain rfl : t = t' := by simpa using e1
    obtain ⟨O', k⟩ := e3.know
    intro q hq
    refine o2.all hsO (countOpen_of k.openable) ?_
    by_contra hc
    obtain ⟨q1, q2, q3⟩ := mem_shownSet.mp hq
    rcases k.covered q q1 hc with h | h
    · exact q2 h
    · exact q3 h.1
  have hsub := o2.game hb hn e2 h2 h0
  obtain ⟨hi, -⟩ := e2.game hb hn h2
  have hv : vcells u.board = grid r c := by rw [hi.bd]; exact hb.vcells
  have hval : ∀ p, val u.board p = bval b p := fun p => by rw [hi.bd]; rfl
  have hwin := (C13_win_iff u hi.reach ⟨s, by rw [hv]; exact hs, by rw [hval]; exact hsafe⟩).mp hw
  refine ⟨O, o1, fun p hp hne => hsub ?_⟩
  have h3 := hwin p (by rw [hv]; exact hp) (by rw [hval]; exact hne)
  rw [hval] at h3
  have h4 := hb.range hp (layout_false.mpr hne)
  have h3 : bval u.gameBoard p = bval b p := h3
  exact mem_shownSet.mpr ⟨hp, by omega, by omega⟩

/-- **C101** no player who counts does better than the program: it wins exactly the boards on which some game of some player who counts
is won, and these are the boards that can be solved by counting. -/
theorem C101_best (hf : Honest r c n s f) (hh : Helpful r c n s f) (hrect : Rect b r c) (hnum : Numbered b.view)
    (hm : (mines b.view).card = n) (hs : s ∈ grid r c) (hsafe : b.get s.1 s.2 ≠ -1) :
    ((∃ ops t, Chooses (follow s f) (MSB.new b.view) ops ∧ playOn (MSB.new b.view) ops = some t ∧ t.state = .win) ↔
      NoGamble r c b s n) ∧
    ((∃ t u, (MSB.new b.view).stepFlow (leftOn s) = some (t, true) ∧ CountingGame n t u ∧ u.state = .win) ↔ NoGamble r c b s n) := by
  have hwins := C101_wins hf hh hrect hnum hm hs hsafe
  have main : ∀ ops t, Chooses (follow s f) (MSB.new b.view) ops → playOn (MSB.new b.view) ops = some t → t.state = .win →
      ∃ t0, (MSB.new b.view).stepFlow (leftOn s) = some (t0, true) ∧ CountingGame n t0 t := by
    intro ops t h1 h2 h3
    obtain ⟨x, x1, x2⟩ := along hrect hnum hm hs hsafe hf ops h1
    rw [h2] at x1
    obtain rfl : t = x := by simpa using x1
    cases x2 with
    | start => simp [MSB.new] at h3
    | pressed _ y => rw [y] at h3; cases h3
    | rest y1 y2 _ => exact ⟨_, y1, y2⟩
    | held _ _ y _ _ _ _ =>
      have h3 : _ = GState.win := h3
      rw [y] at h3; cases h3
  have one : NoGamble r c b s n → ∃ ops t, Chooses (follow s f) (MSB.new b.view) ops ∧ playOn (MSB.new b.view) ops = some t ∧
      t.state = .win := by
    intro hno
    obtain ⟨ops, o1, o2⟩ := hwins.1 (2 * (safeCells b).card)
    obtain ⟨t, t1, t2⟩ := hwins.2 ops o2
    exact ⟨ops, t, o2, t1, t2 hno o1.ge⟩
  refine ⟨⟨?_, one⟩, ⟨?_, fun hno => ?_⟩⟩
  · rintro ⟨ops, t, h1, h2, h3⟩
    obtain ⟨t0, y1, y2⟩ := main ops t h1 h2 h3
    exact C101_won hrect hnum hm hs hsafe t0 t y1 y2 h3
  · rintro ⟨t, u, h1, h2, h3⟩
    exact C101_won hrect hnum hm hs hsafe t u h1 h2 h3
  · obtain ⟨ops, t, h1, h2, h3⟩ := one hno
    obtain ⟨t0, y1, y2⟩ := main ops t h1 h2 h3
    exact ⟨t0, t, y1, y2, h3⟩

/-! ### the advice -/

/-- **C101** there is honest and helpful advice, whatever the size of the board and the number of mines. -/
theorem C101_advice (r c n : Nat) (s : Pos) : ∃ f, Honest r c n s f ∧ Helpful r c n s f := by
  classical
  refine ⟨fun g => if h : ∃ p, SafeAmong g n p then some h.choose else none, fun g _ p hp => ?_, fun g _ h => ?_⟩
  · beta_reduce at hp
    split at hp
    · rename_i h
      simp only [Option.some.injEq] at hp
      subst hp
      exact h.choose_spec
    · cases hp
  · simp [h]

/-- **C101** the table of `cal_possibility_onboard` is honest advice on boards of any size ... -/
theorem C101_table_honest (hs : s ∈ grid r c) (hn : 1 ≤ n) : Honest r c n s (byTable n) := by
  rintro g ⟨b, t, u, hrect, hnum, rfl, hsafe, h1, h2, rfl⟩ p hp
  obtain ⟨P, lo, hi, a1, a2⟩ := C98_ask hrect hnum hs hsafe hn t u h1 h2
  unfold byTable at hp
  rw [a1] at hp
  have h3 := List.find?_some hp
  have h4 := List.mem_of_find?_eq_some hp
  simp only [Bool.and_eq_true, decide_eq_true_eq] at h3
  exact (a2 p ⟨mem_cells_grid.mp h4, h3.1⟩).1 h3.2

/-- ... and helpful as well if all numbers shown in such games are in the reach of the enumeration ... -/
theorem C101_table_helpful (hs : s ∈ grid r c) (hn : 1 ≤ n)
    (hre : ∀ g, Meets r c n s g → ∀ q, IsNumber g q → InReach g q) : Helpful r c n s (byTable n) := by
  rintro g hg ⟨p, hp⟩
  have hre := hre g hg
  obtain ⟨b, t, u, hrect, hnum, rfl, hsafe, h1, h2, rfl⟩ := hg
  obtain ⟨P, lo, hi, a1, a2⟩ := C98_ask hrect hnum hs hsafe hn t u h1 h2
  unfold byTable
  rw [a1]
  have h0 := ((a2 p hp.1).2.2 hre).1 hp
  simp only [List.find?_isSome]
  exact ⟨p, mem_cells_grid.mpr hp.1.1, by simp [hp.1.2, h0]⟩

/-- the boards shown have the size of the board -/
private theorem meets_dims (hs : s ∈ grid r c) {g : Board} (h : Meets r c n s g) : g.row = r ∧ g.col = c := by
  obtain ⟨b, t, u, hrect, hnum, rfl, hsafe, h1, h2, rfl⟩ := h
  have hb := ok_of hrect hnum hs
  obtain ⟨t', t1, t2⟩ := count_first (n := (mines b.view).card) hb (layout_false.mpr hsafe) hs
  rw [h1] at t1
  obtain rfl : t = t' := by simpa using t1
  obtain ⟨hi, -⟩ := t2.game hb (mines_card hb) h2
  exact rect_dims hi.know.rect hb.rpos

/-- ... as on all boards with at most 55 cells: there the program that opens the cells which the table calls free wins, without
ever having seen the board, every game that can be won without guessing, and loses none. -/
theorem C101_table (hs : s ∈ grid r c) (hn : 1 ≤ n) (hsize : r * c ≤ 55) :
    Honest r c n s (byTable n) ∧ Helpful r c n s (byTable n) := by
  refine ⟨C101_table_honest hs hn, C101_table_helpful hs hn fun g hg q _ => inReach_small g ?_ q⟩
  have hd := meets_dims hs hg
  have h1 : (coveredSet g).card ≤ (grid g.row g.col).card := Finset.card_filter_le ..
  rw [hd.1, hd.2] at h1
  have h2 : (grid r c).card = r * c := by simp [grid]
  omega

/-! ### examples -/

private def four (a b c d : Bool) : Pos → Bool := fun p =>
  if p = (0, 0) then a else if p = (0, 1) then b else if p = (0, 2) then c else d

private theorem four_eq (σ : Pos → Bool) : ∀ q ∈ grid 1 4, σ q = four (σ (0, 0)) (σ (0, 1)) (σ (0, 2)) (σ (0, 3)) q := by
  intro q hq
  have : q = (0, 0) ∨ q = (0, 1) ∨ q = (0, 2) ∨ q = (0, 3) := by
    revert hq
    revert q
    decide
  rcases this with rfl | rfl | rfl | rfl <;> rfl

private theorem four_near (σ : Pos → Bool) (p : Pos) :
    layoutNear 1 4 σ p = layoutNear 1 4 (four (σ (0, 0)) (σ (0, 1)) (σ (0, 2)) (σ (0, 3))) p := by
  exact congrArg Finset.card (Finset.filter_congr fun q hq => by rw [four_eq σ q hq])

private theorem four_card (σ : Pos → Bool) : ((grid 1 4).filter fun q => σ q = true).card =
    ((grid 1 4).filter fun q => four (σ (0, 0)) (σ (0, 1)) (σ (0, 2)) (σ (0, 3)) q = true).card := by
  exact congrArg Finset.card (Finset.filter_congr fun q hq => by rw [four_eq σ q hq])

/-- `exCount` can be solved by counting ... -/
theorem exCount_noGamble : NoGamble 1 4 exCount (0, 0) 1 := by
  refine ⟨{(0, 3), (0, 1), (0, 0)}, ?_, by decide⟩
  refine .step (.step .start (by decide) fun σ h _ => ?_) (by decide) fun σ h hc => ?_
  · have h1 := (h (0, 0) (by simp)).2
    rw [four_near] at h1
    generalize σ (0, 0) = x0 at *
    generalize σ (0, 1) = x1 at *
    generalize σ (0, 2) = x2 at *
    generalize σ (0, 3) = x3 at *
    clear h
    revert x0 x1 x2 x3
    decide
  · have h0 := (h (0, 0) (by simp)).1
    have h1 := h (0, 1) (by simp)
    rw [four_near] at h1
    rw [four_card] at hc
    generalize σ (0, 0) = x0 at *
    generalize σ (0, 1) = x1 at *
    generalize σ (0, 2) = x2 at *
    generalize σ (0, 3) = x3 at *
    clear h
    revert x0 x1 x2 x3
    decide

/-- ... but not without. -/
theorem exCount_guess : ¬ NoGuess 1 4 exCount (0, 0) := by
  intro h
  obtain ⟨t, h1, -⟩ := C96_first (s := (0, 0)) exCount_rect exCount_numbered (by decide) (by decide)
  have h2 := exCount_first
  rw [h1] at h2
  simp only [Option.map_some, Option.some.injEq, Prod.mk.injEq, and_true] at h2
  rcases C96_no_dead_end exCount_rect exCount_numbered (by decide) (by decide) h t t h1 .refl with h3 | ⟨p, h3⟩
  · rw [h2.1] at h3; cases h3
  · rw [h2.2] at h3; exact exCount_stuck p h3

/-- So there the program that asks the table for one mine wins, within six events. -/
theorem exCount_program : ∃ ops t, ops.length = 6 ∧ Chooses (follow (0, 0) (byTable 1)) (MSB.new exCount.view) ops ∧
    playOn (MSB.new exCount.view) ops = some t ∧ t.state = .win := by
  obtain ⟨hf, hh⟩ := C101_table (r := 1) (c := 4) (n := 1) (s := (0, 0)) (by decide) (by decide) (by decide)
  obtain ⟨h1, h2⟩ := C101_wins hf hh exCount_rect exCount_numbered exCount_mines (by decide) (by decide)
  obtain ⟨ops, o1, o2⟩ := h1 6
  obtain ⟨t, t1, t2⟩ := h2 ops o2
  exact ⟨ops, t, o1, o2, t1, t2 exCount_noGamble (by rw [o1]; decide)⟩

/-- The hypotheses of `C101_solvable`, with the table as advice, are met by a board of five rows. -/
example : ∃ ops t, Chooses (follow (0, 0) (byTable 3)) (MSB.new exSolvable.view) ops ∧
    playOn (MSB.new exSolvable.view) ops = some t ∧ t.state = .win := by
  obtain ⟨hf, hh⟩ := C101_table (r := 5) (c := 4) (n := 3) (s := (0, 0)) (by decide) (by decide) (by decide)
  have hm : (mines exSolvable.view).card = 3 := by decide +kernel
  obtain ⟨ops, o1, o2⟩ := (C101_wins hf hh exSolvable_rect exSolvable_numbered hm (by decide) (by decide)).1 (2 * (safeCells exSolvable).card)
  obtain ⟨t, t1, t2⟩ := C101_solvable hf hh (by decide) (by decide) exSolvable_rect exSolvable_numbered hm (by decide) (by decide)
    (by decide +kernel) ops o2 (by rw [o1])
  exact ⟨ops, t, o2, t1, t2⟩

end Ms.Properties
