import Verif.SpecInformed
import Verif.Lemmas.Careful

namespace Ms
open Spec MSB

variable {r c : Nat} {b : Board} {s : Pos} {g : Board} {n : Nat}

/-- the open cells of a shown board -/
def shownSet (r c : Nat) (g : Board) : Finset Pos := (grid r c).filter fun p => bval g p ≠ 10 ∧ bval g p ≠ 11

/-- a layout of `n` mines agreeing with the open cells -/
def ExplainsAll (r c : Nat) (b : Board) (O : Finset Pos) (n : Nat) (σ : Pos → Bool) : Prop :=
  Explains r c b O σ ∧ ((grid r c).filter fun p => σ p = true).card = n

/-- what holds of the shown board -/
structure CountInv (r c : Nat) (b : Board) (n : Nat) (g : Board) : Prop where
  rect : Rect g r c
  opened : ∀ p ∈ shownSet r c g, bval g p = bval b p ∧ layout b p = false
  flags : ∀ p ∈ grid r c, bval g p = 11 → ∀ σ, ExplainsAll r c b (shownSet r c g) n σ → σ p = true

theorem mem_shownSet {p : Pos} : p ∈ shownSet r c g ↔ p ∈ grid r c ∧ bval g p ≠ 10 ∧ bval g p ≠ 11 := by
  unfold shownSet; rw [Finset.mem_filter]

theorem CountInv.truth (k : CountInv r c b n g) (hn : ((grid r c).filter fun p => layout b p = true).card = n) :
    ExplainsAll r c b (shownSet r c g) n (layout b) := ⟨fun p hp => ⟨(k.opened p hp).2, rfl⟩, hn⟩

section
variable (hb : BoardOK r c b) (k : CountInv r c b n g)
include hb k

theorem CountInv.isNumber {p : Pos} : IsNumber g p ↔ p ∈ shownSet r c g := by
  have hd := rect_dims k.rect hb.rpos
  have e : bval g p = g.get p.1 p.2 := rfl
  unfold IsNumber
  rw [hd.1, hd.2, mem_shownSet]
  constructor
  · rintro ⟨h1, h2, h3⟩
    exact ⟨h1, by omega, by omega⟩
  · rintro h
    have h1 := k.opened p (mem_shownSet.mpr h)
    have h2 := hb.range h.1 h1.2
    rw [← h1.1] at h2
    exact ⟨h.1, by omega, by omega⟩

theorem CountInv.isCovered {p : Pos} : IsCovered g p ↔ p ∈ grid r c ∧ bval g p = 10 := by
  have hd := rect_dims k.rect hb.rpos
  unfold IsCovered
  rw [hd.1, hd.2]
  rfl

/-- a layout that explains the open cells is allowed by the shown board -/
theorem CountInv.allows {σ : Pos → Bool} (hσ : ExplainsAll r c b (shownSet r c g) n σ) : Allows g n σ := by
  have hd := rect_dims k.rect hb.rpos
  have hcell : ∀ q ∈ grid r c, (σ q = true ↔ bval g q = 11 ∨ (bval g q = 10 ∧ σ q = true)) := by
    intro q hq
    by_cases h : bval g q = 10
    · simp [h]
    by_cases h' : bval g q = 11
    · simp [h', k.flags q hq h' σ hσ]
    · simp [h, h', (hσ.1 q (mem_shownSet.mpr ⟨hq, h, h'⟩)).1]
  refine ⟨fun p hp => ?_, ?_⟩
  · have hO := (k.isNumber hb).mp hp
    have h1 := k.opened p hO
    have h2 := hb.number (mem_shownSet.mp hO).1 h1.2
    change bval g p = _
    rw [h1.1, h2, ← (hσ.1 p hO).2]
    unfold layoutNear minesNear
    rw [hd.1, hd.2]
    congr 2
    apply Finset.filter_congr
    intro q hq
    exact and_congr_right fun _ => hcell q hq
  · rw [← hσ.2]
    unfold coveredSet markedSet
    rw [hd.1, hd.2, ← Finset.card_union_of_disjoint]
    · congr 1
      ext q
      simp only [Finset.mem_union, Finset.mem_filter]
      have e : bval g q = g.get q.1 q.2 := rfl
      rw [← e]
      constructor
      · rintro (⟨⟨h1, h2⟩, h3⟩ | ⟨h1, h2⟩)
        · exact ⟨h1, h3⟩
        · exact ⟨h1, (hcell q h1).mpr (.inl h2)⟩
      · rintro ⟨h1, h2⟩
        rcases (hcell q h1).mp h2 with h | h
        · exact .inr ⟨h1, h⟩
        · exact .inl ⟨⟨h1, h.1⟩, h2⟩
    · rw [Finset.disjoint_left]
      intro q h1 h2
      have h1 := (Finset.mem_filter.mp (Finset.mem_filter.mp h1).1).2
      have h2 := (Finset.mem_filter.mp h2).2
      omega

/-- a layout the shown board allows explains the open cells -/
theorem CountInv.explains {σ : Pos → Bool} (hσ : Allows g n σ) : ExplainsAll r c b (shownSet r c g) n (extend g σ) := by
  have hd := rect_dims k.rect hb.rpos
  refine ⟨fun p hO => ⟨?_, ?_⟩, ?_⟩
  · have := mem_shownSet.mp hO
    unfold extend
    simp [this.2.1, this.2.2]
  · have h1 := hσ.1 p ((k.isNumber hb).mpr hO)
    have h3 := k.opened p hO
    have h2 := hb.number (mem_shownSet.mp hO).1 h3.2
    rw [← h3.1] at h2
    change bval g p = _ at h1
    rw [h1] at h2
    have h3 : minesNear g σ p = layoutNear r c (layout b) p := by exact_mod_cast h2
    rw [← h3]
    unfold layoutNear minesNear extend
    rw [hd.1, hd.2]
    congr 1
    apply Finset.filter_congr
    intro q _
    simp only [Bool.or_eq_true, Bool.and_eq_true, decide_eq_true_eq]
    rfl
  · rw [← hσ.2]
    unfold coveredSet markedSet
    rw [hd.1, hd.2, ← Finset.card_union_of_disjoint]
    · congr 1
      ext q
      simp only [Finset.mem_union, Finset.mem_filter, extend, Bool.or_eq_true, Bool.and_eq_true, decide_eq_true_eq]
      have e : bval g q = g.get q.1 q.2 := rfl
      rw [← e]
      tauto
    · rw [Finset.disjoint_left]
      intro q h1 h2
      have h1 := (Finset.mem_filter.mp (Finset.mem_filter.mp h1).1).2
      have h2 := (Finset.mem_filter.mp h2).2
      omega

theorem CountInv.safe_iff {p : Pos} : SafeAmong g n p ↔ p ∈ grid r c ∧ bval g p = 10 ∧
    ∀ σ, ExplainsAll r c b (shownSet r c g) n σ → σ p = false := by
  unfold SafeAmong
  rw [k.isCovered hb]
  constructor
  · rintro ⟨⟨h1, h2⟩, h3⟩
    exact ⟨h1, h2, fun σ hσ => h3 σ (k.allows hb hσ)⟩
  · rintro ⟨h1, h2, h3⟩
    refine ⟨⟨h1, h2⟩, fun σ hσ => ?_⟩
    have := h3 _ (k.explains hb hσ)
    unfold extend at this
    simpa [h2] using this

theorem CountInv.mine_iff {p : Pos} : MineAmong g n p ↔ p ∈ grid r c ∧ bval g p = 10 ∧
    ∀ σ, ExplainsAll r c b (shownSet r c g) n σ → σ p = true := by
  unfold MineAmong
  rw [k.isCovered hb]
  constructor
  · rintro ⟨⟨h1, h2⟩, h3⟩
    exact ⟨h1, h2, fun σ hσ => h3 σ (k.allows hb hσ)⟩
  · rintro ⟨h1, h2, h3⟩
    refine ⟨⟨h1, h2⟩, fun σ hσ => ?_⟩
    have := h3 _ (k.explains hb hσ)
    unfold extend at this
    simpa [h2] using this

end

theorem explainsAll_mono {O O' : Finset Pos} (h : O ⊆ O') {σ : Pos → Bool} (hσ : ExplainsAll r c b O' n σ) :
    ExplainsAll r c b O n σ := ⟨fun p hp => hσ.1 p (h hp), hσ.2⟩

/-- opening cells that hold no mine -/
theorem CountInv.refresh (hb : BoardOK r c b) {t : MSB} (hcore : t.Core) (hbd : t.board = b.view) (hrow : t.row = r)
    (hcol : t.column = c) (k : CountInv r c b n t.gameBoard) {start : List Pos}
    (hst : ∀ p ∈ start, p ∈ grid r c ∧ t.gb p = 10 ∧ layout b p = false) {g' : Board}
    (hg : refreshBoard t.board t.gameBoard start = some g') :
    CountInv r c b n g' ∧ shownSet r c t.gameBoard ⊆ shownSet r c g' ∧
      (∀ q ∈ shownSet r c t.gameBoard, bval g' q = bval t.gameBoard q) ∧
      (∀ q ∈ grid r c, bval g' q = bval t.gameBoard q ∨ (bval t.gameBoard q = 10 ∧ q ∈ shownSet r c g')) ∧
      ∀ p ∈ start, bval g' p = bval b p := by
  have hst' : ∀ p ∈ start, p ∈ grid t.row t.column ∧ t.gb p = 10 := by
    rw [hrow, hcol]; exact fun p hp => ⟨(hst p hp).1, (hst p hp).2.1⟩
  obtain ⟨g'', e1, e2, e3⟩ := refresh_core hcore hst'
  rw [hg] at e1
  obtain rfl : g' = g'' := by simpa using e1
  have hbv : ∀ q, t.bd q = bval b q := fun q => by unfold MSB.bd; rw [hbd]; rfl
  have hval : ∀ q, val t.board q = bval b q := fun q => by rw [hbd]; rfl
  have hcells : vcells t.board = grid r c := by rw [hbd]; exact hb.vcells
  have hsafe : ∀ q, Opens t.board t.gameBoard start q → q ∈ grid r c ∧ layout b q = false := by
    intro q ho
    induction ho with
    | click h => exact ⟨(hst _ h).1, (hst _ h).2.2⟩
    | @spread p q hp h0 hq hadj hsh ih =>
      rw [hcells] at hq
      refine ⟨hq, ?_⟩
      by_contra hm
      have hm : layout b q = true := by simpa using hm
      have h1 := hb.number ih.1 ih.2
      rw [← hval, h0] at h1
      have h2 : 0 < layoutNear r c (layout b) p := by
        unfold layoutNear
        exact Finset.card_pos.mpr ⟨q, Finset.mem_filter.mpr ⟨hq, hadj.1, hm⟩⟩
      omega
  have hopen : ∀ q ∈ grid r c, Opens t.board t.gameBoard start q → bval g' q = bval b q := by
    intro q hq ho
    rw [e3 q (by rw [hrow, hcol]; exact hq), if_pos ho, hbv, if_neg (layout_false.mp (hsafe q ho).2)]
  have hclosed : ∀ q ∈ grid r c, ¬ Opens t.board t.gameBoard start q → bval g' q = bval t.gameBoard q := by
    intro q hq ho
    rw [e3 q (by rw [hrow, hcol]; exact hq), if_neg ho, if_neg]
    · rfl
    · rintro ⟨⟨m, hm1, hm2⟩, -⟩
      rw [hbv] at hm2
      exact layout_false.mp (hst m hm1).2.2 hm2
  have hcov : ∀ q, Opens t.board t.gameBoard start q → bval t.gameBoard q = 10 := fun q ho => (opens_covered hcore hst' ho).2
  have hin : ∀ q, Opens t.board t.gameBoard start q → q ∈ shownSet r c g' := by
    intro q ho
    have h1 := hsafe q ho
    have h2 := hb.range h1.1 h1.2
    rw [← hopen q h1.1 ho] at h2
    exact mem_shownSet.mpr ⟨h1.1, by omega, by omega⟩
  have hkeep : ∀ q ∈ shownSet r c t.gameBoard, bval g' q = bval t.gameBoard q := fun q hq =>
    hclosed q (mem_shownSet.mp hq).1 fun ho => (mem_shownSet.mp hq).2.1 (hcov q ho)
  have hsub : shownSet r c t.gameBoard ⊆ shownSet r c g' := by
    intro q hq
    rw [mem_shownSet, hkeep q hq]
    exact mem_shownSet.mp hq
  refine ⟨⟨by rw [← hrow, ← hcol]; exact e2, fun q hq => ?_, fun q hq h11 σ hσ => ?_⟩, hsub, hkeep, fun q hq => ?_, fun p hp => ?_⟩
  · have hq' := (mem_shownSet.mp hq).1
    by_cases ho : Opens t.board t.gameBoard start q
    · exact ⟨hopen q hq' ho, (hsafe q ho).2⟩
    · have h1 := hclosed q hq' ho
      rw [mem_shownSet, h1] at hq
      have h2 := k.opened q (mem_shownSet.mpr hq)
      exact ⟨h1.trans h2.1, h2.2⟩
  · by_cases ho : Opens t.board t.gameBoard start q
    · exact absurd h11 (mem_shownSet.mp (hin q ho)).2.2
    · rw [hclosed q hq ho] at h11
      exact k.flags q hq h11 σ (explainsAll_mono hsub hσ)
  · by_cases ho : Opens t.board t.gameBoard start q
    · exact .inr ⟨hcov q ho, hin q ho⟩
    · exact .inl (hclosed q hq ho)
  · exact hopen p (hst p hp).1 (.click hp)

/-- setting and removing flags -/
theorem CountInv.set (k : CountInv r c b n g) {p : Pos} (hp : p ∈ grid r c) (hpO : bval g p = 10 ∨ bval g p = 11) {v : Int}
    (hv : v = 10 ∨ (v = 11 ∧ ∀ σ, ExplainsAll r c b (shownSet r c g) n σ → σ p = true)) :
    CountInv r c b n (g.set p.1 p.2 v) ∧ shownSet r c (g.set p.1 p.2 v) = shownSet r c g := by
  have hs : shownSet r c (g.set p.1 p.2 v) = shownSet r c g := by
    ext q
    rw [mem_shownSet, mem_shownSet, bval_set k.rect hp]
    by_cases e : q = p
    · subst e
      rw [if_pos rfl]
      constructor <;> rintro ⟨_, h2, h3⟩ <;> omega
    · rw [if_neg e]
  refine ⟨⟨rect_set k.rect _ _ _, fun q hq => ?_, fun q hq h11 => ?_⟩, hs⟩
  · rw [hs] at hq
    rw [bval_set k.rect hp, if_neg]
    · exact k.opened q hq
    · rintro rfl
      have := mem_shownSet.mp hq
      omega
  · rw [hs]
    rw [bval_set k.rect hp] at h11
    by_cases e : q = p
    · subst e
      rw [if_pos rfl] at h11
      exact (hv.resolve_left (by omega)).2
    · rw [if_neg e] at h11
      exact k.flags q hq h11

/-- What holds at every moment of a counting game on the board `b`. -/
structure CountGame (r c : Nat) (b : Board) (n : Nat) (t : MSB) : Prop where
  reach : Reach t
  bd : t.board = b.view
  row : t.row = r
  col : t.column = c
  st : (t.state = .playing ∧ t.mouse = .upUp) ∨ t.state = .win
  know : CountInv r c b n t.gameBoard

/-- what a left click does on a covered cell without a mine -/
theorem leftClick_count (hb : BoardOK r c b) {t : MSB} (hcore : t.Core) (hbd : t.board = b.view) (hrow : t.row = r)
    (hcol : t.column = c) (hst : t.state = .playing) (hm : t.mouse = .upUp) (k : CountInv r c b n t.gameBoard)
    {p : Pos} (hp : p ∈ grid r c) (h10 : t.gb p = 10) (hsafe : layout b p = false) :
    ∃ t', t.leftClick p = some (t', some 2) ∧ t'.board = b.view ∧ t'.row = r ∧ t'.column = c ∧
      ((t'.state = .playing ∧ t'.mouse = .upUp) ∨ t'.state = .win) ∧ CountInv r c b n t'.gameBoard ∧
      shownSet r c t.gameBoard ⊆ shownSet r c t'.gameBoard ∧
      (∀ q ∈ grid r c, bval t'.gameBoard q = bval t.gameBoard q ∨ (bval t.gameBoard q = 10 ∧ q ∈ shownSet r c t'.gameBoard)) ∧
      t'.gb p = bval b p := by
  have hp' : p ∈ grid t.row t.column := by rw [hrow, hcol]; exact hp
  have hbp : t.bd p = bval b p := by unfold MSB.bd; rw [hbd]; rfl
  obtain ⟨t', kk, he, heff⟩ := leftClick_eff hcore hp'
  cases heff with
  | none h => exact absurd h10 h
  | mine _ hmine _ => exact absurd (hbp ▸ hmine) (layout_false.mp hsafe)
  | @safe g' _ _ hg =>
    refine ⟨_, he, ?_⟩
    obtain ⟨f1, f2, f3, f4, -, f6, -⟩ := checkWin_frame { t with
        left := t.left + 1, gameBoard := g', ce := t.ce + 1,
        bbbvSolved := t.bbbvSolved + leftGain { t with left := t.left + 1 } p }
    obtain ⟨k1, k2, -, k4, k5⟩ := k.refresh hb hcore hbd hrow hcol (start := [p]) (by simpa using ⟨hp, h10, hsafe⟩) hg
    refine ⟨f1.trans hbd, f3.trans hrow, f4.trans hcol, ?_, ?_, ?_, ?_, ?_⟩
    · rcases checkWin_state { t with
        left := t.left + 1, gameBoard := g', ce := t.ce + 1,
        bbbvSolved := t.bbbvSolved + leftGain { t with left := t.left + 1 } p } with h | h
      · exact .inr h
      · exact .inl ⟨h.trans hst, f6.trans hm⟩
    · rw [f2]; exact k1
    · rw [f2]; exact k2
    · rw [f2]; exact k4
    · unfold MSB.gb
      rw [f2]
      exact k5 p (by simp)

/-- the first click of a game on `b` -/
theorem count_first (hb : BoardOK r c b) (hs : layout b s = false) (hsg : s ∈ grid r c) :
    ∃ t, (MSB.new b.view).stepFlow (leftOn s) = some (t, true) ∧ CountGame r c b n t := by
  have hv := hb.view
  have hre : Reach (MSB.new b.view) := .new hb.numbered
  have hcore := hre.inv.core
  have h10 : ∀ p ∈ grid r c, (MSB.new b.view).gb p = 10 := by
    have := hre.inv.ready rfl
    simp only [MSB.new, hv.1, hv.2] at this ⊢
    exact this
  have hcore' : Core { (MSB.new b.view) with state := GState.playing } :=
    hcore.congr rfl rfl rfl rfl rfl rfl rfl (.inr (by simp [MSB.new]))
  have hgr : Rect (MSB.new b.view).gameBoard r c := by
    have := hcore.rect
    simp only [MSB.new, hv.1, hv.2] at this ⊢
    exact this
  have h10' : ∀ p ∈ grid r c, bval (MSB.new b.view).gameBoard p = 10 := h10
  have k : CountInv r c b n (MSB.new b.view).gameBoard := by
    refine ⟨hgr, fun p hp => ?_, fun p hp h11 => ?_⟩
    · have := mem_shownSet.mp hp
      exact absurd (h10' p this.1) this.2.1
    · have := h10' p hp
      omega
  obtain ⟨t, h1, h2, h3, h4, h5, h6, -⟩ := leftClick_count (t := { (MSB.new b.view) with state := GState.playing }) hb
    hcore' rfl hv.1 hv.2 rfl rfl k hsg (h10 s hsg) hs
  have hp : s ∈ grid (MSB.new b.view).row (MSB.new b.view).column := by simp only [MSB.new, hv.1, hv.2]; exact hsg
  have hf : (MSB.new b.view).stepFlow (leftOn s) = some (t, true) := by
    rw [flow_first rfl rfl hp (h10 s hsg), h1]
  exact ⟨t, hf, reach_flow hre hf, h2, h3, h4, h5, h6⟩

/-- opening a covered cell without a mine -/
theorem CountGame.click (hb : BoardOK r c b) {t : MSB} (h : CountGame r c b n t) {p : Pos} (hpg : p ∈ grid r c)
    (hp10 : t.gb p = 10) (hsafe : layout b p = false) :
    ∃ t', t.stepFlow (leftOn p) = some (t', true) ∧ CountGame r c b n t' ∧
      shownSet r c t.gameBoard ⊆ shownSet r c t'.gameBoard ∧ (t.state = .playing → t'.gb p = bval b p) := by
  rcases h.st with ⟨hst, hm⟩ | hw
  · obtain ⟨t', h1, h2, h3, h4, h5, h6, h7, -, h8⟩ := leftClick_count hb h.reach.inv.core h.bd h.row h.col hst hm h.know hpg
      hp10 hsafe
    have hflow : t.stepFlow (leftOn p) = some (t', true) := by
      rw [flow_left hst hm (by rw [h.row, h.col]; exact hpg), h1]
    exact ⟨t', hflow, ⟨reach_flow h.reach hflow, h2, h3, h4, h5, h6⟩, h7, fun _ => h8⟩
  · exact ⟨t, Properties.C15_terminal_frozen_flow t _ (.inl hw), h, Finset.Subset.refl _, fun hc => by rw [hw] at hc; cases hc⟩

/-- setting a flag on a mine that is known, and removing any flag -/
theorem CountGame.flag (hb : BoardOK r c b) {t : MSB} (h : CountGame r c b n t) {p : Pos}
    (hp : MineAmong t.gameBoard n p ∨ (p ∈ grid r c ∧ t.gb p = 11)) :
    ∃ t', t.stepFlow (rightOn p) = some (t', true) ∧ CountGame r c b n t' ∧
      shownSet r c t'.gameBoard = shownSet r c t.gameBoard := by
  rcases h.st with ⟨hst, hm⟩ | hw
  · have k := h.know
    have hpg : p ∈ grid r c := hp.elim (fun hp => ((k.mine_iff hb).mp hp).1) And.left
    have hval : t.gb p = 10 ∨ t.gb p = 11 := hp.imp (fun hp => ((k.mine_iff hb).mp hp).2.1) And.right
    obtain ⟨t', hf, f1, f2, f3, f4, f6, f5⟩ := flow_right h.reach.inv.core hst hm (by rw [h.row, h.col]; exact hpg) (by omega)
    rcases f5 with ⟨h10, f5⟩ | ⟨h11, f5⟩
    · obtain ⟨k1, k2⟩ := k.set hpg hval (v := 11) (.inr ⟨rfl, by
        rcases hp with hp | hp
        · exact ((k.mine_iff hb).mp hp).2.2
        · omega⟩)
      rw [← f5] at k1 k2
      exact ⟨t', hf, ⟨reach_flow h.reach hf, f1.trans h.bd, f2.trans h.row, f3.trans h.col, .inl ⟨f4, f6⟩, k1⟩, k2⟩
    · obtain ⟨k1, k2⟩ := k.set hpg hval (v := 10) (.inl rfl)
      rw [← f5] at k1 k2
      exact ⟨t', hf, ⟨reach_flow h.reach hf, f1.trans h.bd, f2.trans h.row, f3.trans h.col, .inl ⟨f4, f6⟩, k1⟩, k2⟩
  · exact ⟨t, Properties.C15_terminal_frozen_flow t _ (.inl hw), h, rfl⟩

/-- the covered neighbours of a number with all its mines flagged hold no mine -/
theorem CountInv.around (hb : BoardOK r c b) {t : MSB} (hrow : t.row = r) (hcol : t.column = c)
    (k : CountInv r c b n t.gameBoard) {p : Pos} (hp : p ∈ grid r c) (hc : t.Chordable p) :
    ∀ q ∈ t.chordCells p, q ∈ grid r c ∧ t.gb q = 10 ∧ ∀ σ, ExplainsAll r c b (shownSet r c t.gameBoard) n σ → σ q = false := by
  intro q hq
  obtain ⟨hqg, ha, h10⟩ := mem_chordCells.mp hq
  rw [hrow, hcol] at hqg
  refine ⟨hqg, h10, fun σ hσ => ?_⟩
  have hd := rect_dims k.rect hb.rpos
  have hnum : IsNumber t.gameBoard p := by
    refine ⟨by rw [hd.1, hd.2]; exact hp, ?_, ?_⟩
    · have := hc.1; unfold MSB.gb at this; omega
    · have := hc.2.1; unfold MSB.gb at this; omega
  have h1 := (k.allows hb hσ).1 p hnum
  have h2 := hc.2.2.1
  rw [flagsAround_eq, hrow, hcol] at h2
  change t.gb p = _ at h1
  rw [← h2] at h1
  unfold minesNear at h1
  rw [hd.1, hd.2] at h1
  have h1 : ((grid r c).filter fun q => Adj p q ∧ t.gb q = 11).card = ((grid r c).filter fun q =>
    Near p q ∧ (t.gameBoard.get q.1 q.2 = 11 ∨ (t.gameBoard.get q.1 q.2 = 10 ∧ σ q = true))).card := by exact_mod_cast h1
  have hsub : ((grid r c).filter fun q => Adj p q ∧ t.gb q = 11) ⊆ ((grid r c).filter fun q =>
    Near p q ∧ (t.gameBoard.get q.1 q.2 = 11 ∨ (t.gameBoard.get q.1 q.2 = 10 ∧ σ q = true))) := by
    intro x hx
    obtain ⟨x1, x2, x3⟩ := Finset.mem_filter.mp hx
    exact Finset.mem_filter.mpr ⟨x1, x2.1, .inl x3⟩
  have heq := Finset.eq_of_subset_of_card_le hsub h1.ge
  by_contra hne
  have hmem : q ∈ ((grid r c).filter fun q =>
    Near p q ∧ (t.gameBoard.get q.1 q.2 = 11 ∨ (t.gameBoard.get q.1 q.2 = 10 ∧ σ q = true))) :=
    Finset.mem_filter.mpr ⟨hqg, ha.1, .inr ⟨h10, by simpa using hne⟩⟩
  rw [← heq] at hmem
  have := (Finset.mem_filter.mp hmem).2.2
  omega

/-- chording anywhere on the board -/
theorem CountGame.chord (hb : BoardOK r c b) (hn : ((grid r c).filter fun p => layout b p = true).card = n) {t : MSB}
    (h : CountGame r c b n t) {p : Pos} (hp : p ∈ grid r c) :
    ∃ t', t.stepFlow (chordOn p) = some (t', true) ∧ CountGame r c b n t' ∧
      shownSet r c t.gameBoard ⊆ shownSet r c t'.gameBoard := by
  rcases h.st with ⟨hst, hm⟩ | hw
  · have k := h.know
    have hcore' : Core { t with mouse := .upDown } :=
      h.reach.inv.core.congr rfl rfl rfl rfl rfl rfl rfl (.inl rfl)
    have hp' : p ∈ grid t.row t.column := by rw [h.row, h.col]; exact hp
    obtain ⟨t1, r1, he, heff⟩ := chordingClick_eff hcore' hp'
    have key : ∃ kk, r1 = some kk ∧ (t1.state = .playing ∨ t1.state = .win) ∧ t1.mouse = .upDown ∧ t1.board = b.view ∧
        t1.row = r ∧ t1.column = c ∧ CountInv r c b n t1.gameBoard ∧
        shownSet r c t.gameBoard ⊆ shownSet r c t1.gameBoard := by
      cases heff with
      | none _ => exact ⟨0, rfl, .inl hst, rfl, h.bd, h.row, h.col, k, Finset.Subset.refl _⟩
      | @opens g' n' hc hn' hg =>
        have hsafe := CountInv.around (t := { t with mouse := .upDown }) hb h.row h.col k hp hc
        have hstart : ∀ q ∈ t.chordCells p, q ∈ grid r c ∧ t.gb q = 10 ∧ layout b q = false := fun q hq =>
          ⟨(hsafe q hq).1, (hsafe q hq).2.1, (hsafe q hq).2.2 _ (k.truth hn)⟩
        obtain ⟨k1, k2, -⟩ := k.refresh hb h.reach.inv.core h.bd h.row h.col hstart hg
        have hno : (t.chordCells p).any (fun q => decide (t.bd q = -1)) = false := by
          rw [List.any_eq_false]
          intro q hq
          have hbq : t.bd q = bval b q := by unfold MSB.bd; rw [h.bd]; rfl
          rw [decide_eq_true_eq, hbq]
          exact layout_false.mp (hstart q hq).2.2
        obtain ⟨f1, f2, f3, f4, -, f6, -⟩ := checkWin_frame { ({ t with mouse := .upDown } : MSB).preChord p with
          bbbvSolved := (({ t with mouse := .upDown } : MSB).preChord p).bbbvSolved + n', gameBoard := g' }
        refine ⟨3, rfl, ?_, f6, f1.trans h.bd, f3.trans h.row, f4.trans h.col, by rw [f2]; exact k1, by rw [f2]; exact k2⟩
        rcases checkWin_state { ({ t with mouse := .upDown } : MSB).preChord p with
            bbbvSolved := (({ t with mouse := .upDown } : MSB).preChord p).bbbvSolved + n', gameBoard := g' } with hh | hh
        · exact .inr hh
        · refine .inl (hh.trans ?_)
          change (if (t.chordCells p).any (fun q => decide (t.bd q = -1)) then GState.loss else t.state) = _
          rw [hno]
          exact hst
    obtain ⟨kk, rfl, g1, g2, g3, g4, g5, g6, g7⟩ := key
    have hf := flow_chord hst hm hp' he g1 g2
    have hre := reach_flow h.reach hf
    refine ⟨_, hf, ?_⟩
    by_cases hpl : t1.state = .playing
    · rw [if_pos hpl] at hre ⊢
      exact ⟨⟨hre, g3, g4, g5, .inl ⟨hpl, rfl⟩, g6⟩, g7⟩
    · rw [if_neg hpl] at hre ⊢
      exact ⟨⟨hre, g3, g4, g5, .inr (g1.resolve_left hpl), g6⟩, g7⟩
  · exact ⟨t, Properties.C15_terminal_frozen_flow t _ (.inl hw), h, Finset.Subset.refl _⟩

/-- one move of a player who counts -/
theorem CountGame.move (hb : BoardOK r c b) (hn : ((grid r c).filter fun p => layout b p = true).card = n) {t u : MSB}
    (h : CountGame r c b n t) (hm : CountingMove n t u) :
    CountGame r c b n u ∧ shownSet r c t.gameBoard ⊆ shownSet r c u.gameBoard := by
  have det : ∀ {x y z : MSB} {ops : List (Ev × Pos)}, x.stepFlow ops = some (y, true) → x.stepFlow ops = some (z, true) → y = z := by
    intro x y z ops h1 h2
    rw [h1] at h2
    simpa using h2
  cases hm with
  | opens h1 h2 =>
    obtain ⟨s1, s2, s3⟩ := (h.know.safe_iff hb).mp h1
    obtain ⟨w, w1, w2, w3, -⟩ := h.click hb s1 s2 (s3 _ (h.know.truth hn))
    exact det w1 h2 ▸ ⟨w2, w3⟩
  | flags h1 h2 =>
    obtain ⟨w, w1, w2, w3⟩ := h.flag hb (.inl h1)
    exact det w1 h2 ▸ ⟨w2, w3.ge⟩
  | unflags h1 h1' h2 =>
    rw [h.row, h.col] at h1
    obtain ⟨w, w1, w2, w3⟩ := h.flag hb (.inr ⟨h1, h1'⟩)
    exact det w1 h2 ▸ ⟨w2, w3.ge⟩
  | chords h1 h2 =>
    rw [h.row, h.col] at h1
    obtain ⟨w, w1, w2, w3⟩ := h.chord hb hn h1
    exact det w1 h2 ▸ ⟨w2, w3⟩

/-- any number of moves -/
theorem CountGame.game (hb : BoardOK r c b) (hn : ((grid r c).filter fun p => layout b p = true).card = n) {t u : MSB}
    (h : CountGame r c b n t) (hm : CountingGame n t u) :
    CountGame r c b n u ∧ shownSet r c t.gameBoard ⊆ shownSet r c u.gameBoard := by
  induction hm with
  | refl => exact ⟨h, Finset.Subset.refl _⟩
  | tail _ hm ih =>
    obtain ⟨i1, i2⟩ := ih
    obtain ⟨j1, j2⟩ := i1.move hb hn hm
    exact ⟨j1, i2.trans j2⟩

end Ms
