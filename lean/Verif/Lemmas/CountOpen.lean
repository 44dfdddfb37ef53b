import Mathlib.Data.Finset.Max
import Verif.SpecProgram
import Verif.Lemmas.Informed

/-! Games of a player who counts open only what can be opened by counting (for C101). -/

namespace Ms
open Spec MSB

variable {r c n : Nat} {b : Board} {s : Pos}

/-- the cells that can be opened by counting, all of them -/
structure Full (r c : Nat) (b : Board) (n : Nat) (O : Finset Pos) : Prop where
  sub : ∀ p ∈ O, p ∈ grid r c ∧ layout b p = false
  closed : ∀ p ∈ grid r c, (∀ σ, ExplainsAll r c b O n σ → σ p = false) → p ∈ O

theorem countOpen_safe (hn : ((grid r c).filter fun p => layout b p = true).card = n) (hs : s ∈ grid r c) (hsafe : layout b s = false)
    {O : Finset Pos} (h : CountOpen r c b s n O) : ∀ p ∈ O, p ∈ grid r c ∧ layout b p = false := by
  induction h with
  | start => intro p hp; rw [Finset.mem_singleton] at hp; subst hp; exact ⟨hs, hsafe⟩
  | step _ h1 h2 ih =>
    intro p hp
    rcases Finset.mem_insert.mp hp with rfl | hp
    · exact ⟨h1, h2 _ (fun q hq => ⟨(ih q hq).2, rfl⟩) hn⟩
    · exact ih p hp

theorem exists_full (hn : ((grid r c).filter fun p => layout b p = true).card = n) (hs : s ∈ grid r c) (hsafe : layout b s = false) :
    ∃ O, CountOpen r c b s n O ∧ Full r c b n O := by
  classical
  obtain ⟨O, h1, h2⟩ := Finset.exists_max_image ((grid r c).powerset.filter fun O => CountOpen r c b s n O) Finset.card
    ⟨{s}, Finset.mem_filter.mpr ⟨Finset.mem_powerset.mpr (by simpa using hs), .start⟩⟩
  obtain ⟨h0, h1⟩ := Finset.mem_filter.mp h1
  refine ⟨O, h1, countOpen_safe hn hs hsafe h1, fun p hp hf => ?_⟩
  by_contra hno
  have h3 := h2 (insert p O) (Finset.mem_filter.mpr ⟨Finset.mem_powerset.mpr (Finset.insert_subset hp (Finset.mem_powerset.mp h0)),
    .step h1 hp fun σ e1 e2 => hf σ ⟨e1, e2⟩⟩)
  rw [Finset.card_insert_of_notMem hno] at h3
  omega

/-- whatever can be opened by counting is in it -/
theorem Full.all {O O' : Finset Pos} (h : Full r c b n O) (hs : s ∈ O) (h' : CountOpen r c b s n O') : O' ⊆ O := by
  induction h' with
  | start => simpa using hs
  | step _ h1 h2 ih =>
    exact Finset.insert_subset (h.closed _ h1 fun σ hσ => h2 σ (fun q hq => hσ.1 q (ih hq)) hσ.2) ih

/-- what spreads from it stays in it -/
theorem Full.opens (hb : BoardOK r c b) {O : Finset Pos} (h : Full r c b n O) {g : Board} {start : List Pos} (hst : ∀ p ∈ start, p ∈ O)
    {q : Pos} (ho : Opens b.view g start q) : q ∈ O := by
  induction ho with
  | click h1 => exact hst _ h1
  | @spread p q _ h0 hq hadj _ ih =>
    rw [hb.vcells] at hq
    obtain ⟨p1, p2⟩ := h.sub p ih
    refine h.closed q hq fun σ hσ => ?_
    by_contra hc
    have h1 := (hσ.1 p ih).2
    have h2 := hb.number p1 p2
    have h3 : bval b p = 0 := h0
    have h4 : 0 < layoutNear r c σ p := Finset.card_pos.mpr ⟨q, Finset.mem_filter.mpr ⟨hq, hadj.1, by simpa using hc⟩⟩
    omega

/-- opening cells in it shows only cells in it -/
theorem Full.refresh (hb : BoardOK r c b) {O : Finset Pos} (h : Full r c b n O) {t : MSB} (hcore : t.Core) (hbd : t.board = b.view)
    (hrow : t.row = r) (hcol : t.column = c) {start : List Pos} (hst : ∀ p ∈ start, p ∈ O ∧ t.gb p = 10)
    (hO : shownSet r c t.gameBoard ⊆ O) {g' : Board} (hg : refreshBoard t.board t.gameBoard start = some g') :
    shownSet r c g' ⊆ O := by
  have hst' : ∀ p ∈ start, p ∈ grid t.row t.column ∧ t.gb p = 10 := by
    rw [hrow, hcol]; exact fun p hp => ⟨(h.sub p (hst p hp).1).1, (hst p hp).2⟩
  obtain ⟨g'', e1, -, e3⟩ := refresh_core hcore hst'
  rw [hg] at e1
  obtain rfl : g' = g'' := by simpa using e1
  intro q hq
  have hq' := mem_shownSet.mp hq
  by_cases ho : Opens t.board t.gameBoard start q
  · rw [hbd] at ho
    exact h.opens hb (fun p hp => (hst p hp).1) ho
  · have h1 := e3 q (by rw [hrow, hcol]; exact hq'.1)
    rw [if_neg ho, if_neg] at h1
    · refine hO (mem_shownSet.mpr ⟨hq'.1, ?_, ?_⟩)
      · intro h2; exact hq'.2.1 (h1.trans h2)
      · intro h2; exact hq'.2.2 (h1.trans h2)
    · rintro ⟨⟨m, hm1, hm2⟩, -⟩
      have h2 := (h.sub m (hst m hm1).1).2
      have h3 : t.bd m = bval b m := by unfold MSB.bd; rw [hbd]; rfl
      exact layout_false.mp h2 (h3 ▸ hm2)

/-- a move of a player who counts shows only cells in it -/
theorem Full.move (hb : BoardOK r c b) (hn : ((grid r c).filter fun p => layout b p = true).card = n) {O : Finset Pos}
    (hF : Full r c b n O) {t u : MSB} (h : CountGame r c b n t) (hm : CountingMove n t u) (hO : shownSet r c t.gameBoard ⊆ O) :
    shownSet r c u.gameBoard ⊆ O := by
  have k := h.know
  have hin : ∀ q ∈ grid r c, (∀ σ, ExplainsAll r c b (shownSet r c t.gameBoard) n σ → σ q = false) → q ∈ O :=
    fun q hq hf => hF.closed q hq fun σ hσ => hf σ (explainsAll_mono hO hσ)
  rcases h.st with ⟨hst, hmo⟩ | hw
  swap
  · have same : ∀ {ops : List (Ev × Pos)}, t.stepFlow ops = some (u, true) → u = t := by
      intro ops e
      rw [Properties.C15_terminal_frozen_flow t ops (.inl hw)] at e
      simpa using e.symm
    cases hm with
    | opens _ e => rw [same e]; exact hO
    | flags _ e => rw [same e]; exact hO
    | unflags _ _ e => rw [same e]; exact hO
    | chords _ e => rw [same e]; exact hO
  have flagged : ∀ {p : Pos}, (MineAmong t.gameBoard n p ∨ (p ∈ grid r c ∧ t.gb p = 11)) → t.stepFlow (rightOn p) = some (u, true) →
      shownSet r c u.gameBoard ⊆ O := by
    intro p hp e
    obtain ⟨w, w1, -, w3⟩ := h.flag hb hp
    rw [w1] at e
    obtain rfl : w = u := by simpa using e
    rw [w3]; exact hO
  cases hm with
  | flags h1 h2 => exact flagged (.inl h1) h2
  | unflags h1 h1' h2 =>
    rw [h.row, h.col] at h1
    exact flagged (.inr ⟨h1, h1'⟩) h2
  | @opens p h1 h2 =>
    obtain ⟨s1, s2, s3⟩ := (k.safe_iff hb).mp h1
    have hsafe := s3 _ (k.truth hn)
    have hp' : p ∈ grid t.row t.column := by rw [h.row, h.col]; exact s1
    have hbp : t.bd p = bval b p := by unfold MSB.bd; rw [h.bd]; rfl
    obtain ⟨t', kk, he, heff⟩ := leftClick_eff h.reach.inv.core hp'
    rw [flow_left hst hmo hp', he] at h2
    cases heff with
    | none h => exact absurd s2 h
    | mine _ hmine _ => exact absurd (hbp ▸ hmine) (layout_false.mp hsafe)
    | @safe g' _ _ hg =>
      simp only [Option.some.injEq, Prod.mk.injEq, and_true] at h2
      obtain ⟨-, f2, -⟩ := checkWin_frame { t with
          left := t.left + 1, gameBoard := g', ce := t.ce + 1,
          bbbvSolved := t.bbbvSolved + leftGain { t with left := t.left + 1 } p }
      rw [← h2, f2]
      exact hF.refresh hb h.reach.inv.core h.bd h.row h.col (start := [p]) (by simpa using ⟨hin p s1 s3, s2⟩) hO hg
  | @chords p h1 h2 =>
    rw [h.row, h.col] at h1
    have hcore' : Core { t with mouse := .upDown } :=
      h.reach.inv.core.congr rfl rfl rfl rfl rfl rfl rfl (.inl rfl)
    have hp' : p ∈ grid t.row t.column := by rw [h.row, h.col]; exact h1
    obtain ⟨t1, r1, he, heff⟩ := chordingClick_eff hcore' hp'
    have key : ∃ kk, r1 = some kk ∧ (t1.state = .playing ∨ t1.state = .win) ∧ t1.mouse = .upDown ∧ shownSet r c t1.gameBoard ⊆ O := by
      cases heff with
      | none _ => exact ⟨0, rfl, .inl hst, rfl, hO⟩
      | @opens g' n' hc hn' hg =>
        have hsafe := CountInv.around (t := { t with mouse := .upDown }) hb h.row h.col k h1 hc
        have hno : (t.chordCells p).any (fun q => decide (t.bd q = -1)) = false := by
          rw [List.any_eq_false]
          intro q hq
          have hbq : t.bd q = bval b q := by unfold MSB.bd; rw [h.bd]; rfl
          rw [decide_eq_true_eq, hbq]
          exact layout_false.mp ((hsafe q hq).2.2 _ (k.truth hn))
        obtain ⟨f1, f2, f3, f4, -, f6, -⟩ := checkWin_frame { ({ t with mouse := .upDown } : MSB).preChord p with
          bbbvSolved := (({ t with mouse := .upDown } : MSB).preChord p).bbbvSolved + n', gameBoard := g' }
        refine ⟨3, rfl, ?_, f6, ?_⟩
        · rcases checkWin_state { ({ t with mouse := .upDown } : MSB).preChord p with
              bbbvSolved := (({ t with mouse := .upDown } : MSB).preChord p).bbbvSolved + n', gameBoard := g' } with hh | hh
          · exact .inr hh
          · refine .inl (hh.trans ?_)
            change (if (t.chordCells p).any (fun q => decide (t.bd q = -1)) then GState.loss else t.state) = _
            rw [hno]
            exact hst
        · rw [f2]
          exact hF.refresh hb h.reach.inv.core h.bd h.row h.col (start := t.chordCells p)
            (fun q hq => ⟨hin q (hsafe q hq).1 (hsafe q hq).2.2, (hsafe q hq).2.1⟩) hO hg
    obtain ⟨kk, rfl, g1, g2, g3⟩ := key
    rw [flow_chord hst hmo hp' he g1 g2] at h2
    simp only [Option.some.injEq, Prod.mk.injEq, and_true] at h2
    rw [← h2]
    split
    · exact g3
    · exact g3

/-- a whole game of a player who counts shows only cells in it -/
theorem Full.game (hb : BoardOK r c b) (hn : ((grid r c).filter fun p => layout b p = true).card = n) {O : Finset Pos}
    (hF : Full r c b n O) {t u : MSB} (h : CountGame r c b n t) (hm : CountingGame n t u) (hO : shownSet r c t.gameBoard ⊆ O) :
    shownSet r c u.gameBoard ⊆ O := by
  induction hm with
  | refl => exact hO
  | tail hg hm ih => exact hF.move hb hn (h.game hb hn hg).1 hm ih

end Ms
