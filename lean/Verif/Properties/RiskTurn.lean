import Verif.Properties.Risk
import Verif.Properties.GameTurn

/-!
# Property C104: a video seen in a mirror shows the same risks
-/

namespace Ms.Properties
open Spec MSB

variable {σ τ : Pos → Pos} {v w : View} {ops ops' : List (Ev × Pos)} {dist : Pos → Pos → ℚ}

/-- **C104** any events, refused ones included, at corresponding places of games that look alike. -/
theorem C104_play : ∀ {ops ops' : List (Ev × Pos)} {s t : MSB}, Reach s → Reach t → SameGame σ τ s t →
    SameOps s.row s.column t.row t.column σ ops ops' →
    (playOn s ops = none ∧ playOn t ops' = none) ∨ ∃ s' t', playOn s ops = some s' ∧ playOn t ops' = some t' ∧ SameGame σ τ s' t'
  | [], _, s, t, _, _, h, hk => by
    cases hk
    exact .inr ⟨s, t, rfl, rfl, h⟩
  | a :: ops, _, s, t, hs, ht, h, hk => by
    cases hk with
    | cons hab hr =>
      rename_i b ops'
      have hstep := C88_step hs ht h a.1 hab.2
      unfold playOn
      rw [hab.1]
      rcases hstep with ⟨e1, e2⟩ | ⟨s', t', r, e1, e2, h'⟩
      · rw [e1, e2]; exact .inl ⟨rfl, rfl⟩
      · have d1 := flow_dims hs e1
        have d2 := flow_dims ht e2
        rw [e1, e2]
        refine C104_play (hs.step e1) (ht.step e2) h' ?_
        rw [d1.1, d1.2, d2.1, d2.2]
        exact hr

private theorem sameOps_symm {r c r' c' : Nat} (h : Turn r c r' c' σ τ) (hk : SameOps r c r' c' σ ops ops') :
    SameOps r' c' r c τ ops' ops := by
  unfold SameOps at hk ⊢
  induction hk with
  | nil => exact .nil
  | cons hab _ ih =>
    refine .cons ⟨hab.1.symm, ?_⟩ ih
    rcases hab.2 with ⟨p1, p2⟩ | ⟨p1, p2⟩ | ⟨p1, p2, p3, p4⟩
    · rw [p2]; exact .inl ⟨(h.there _ p1).1, (h.there _ p1).2.symm⟩
    · exact .inr (.inl ⟨p2, p1⟩)
    · exact .inr (.inr ⟨p3, p4, p1, p2⟩)

private theorem turned_withMines (h : Turn v.row v.col w.row w.col σ τ) {M : Finset Pos} (hM : M ⊆ vcells v) :
    Turned σ τ (withMines v.row v.col M) (withMines w.row w.col (M.image σ)) := by
  refine ⟨h, fun p hp => ?_⟩
  have hp : p ∈ grid v.row v.col := hp
  have hpair := pair_image h hM
  have hi : σ p ∈ M.image σ ↔ p ∈ M := (hpair.iff p hp).symm
  have hc : adjCount (M.image σ) (σ p) = adjCount M p := by
    unfold adjCount
    refine Pair.card h (hpair.filter _ _ fun q hq => ?_)
    have hq' := hpair.sub hq
    unfold Adj
    rw [h.near p hp q hq', Ne, Ne, turn_inj h hp hq']
  show (if σ p ∈ M.image σ then (-1 : Int) else (adjCount (M.image σ) (σ p) : Int)) = if p ∈ M then -1 else (adjCount M p : Int)
  rw [hc]
  by_cases hpM : p ∈ M
  · rw [if_pos hpM, if_pos (hi.mpr hpM)]
  · rw [if_neg hpM, if_neg (fun hh => hpM (hi.mp hh))]

private theorem alike_image (h : Turned σ τ v w) (hn : Numbered v) (hk : SameOps v.row v.col w.row w.col σ ops ops') {s : MSB}
    (hs : playOn (MSB.new v) ops = some s) (hl : s.state ≠ .loss) {M : Finset Pos} (hM : M ∈ alike v ops) : M.image σ ∈ alike w ops' := by
  have hnw := turned_numbered h hn
  rcases C104_play (.new hn) (.new hnw) (C88_new h) hk with ⟨e1, -⟩ | ⟨s', t, e1, e2, hst⟩
  · rw [hs] at e1; cases e1
  rw [hs, Option.some.injEq] at e1
  subst e1
  have hlt : t.state ≠ .loss := by rw [hst.state]; exact hl
  unfold alike at hM ⊢
  rw [Finset.mem_filter, Finset.mem_powersetCard] at hM ⊢
  obtain ⟨⟨m1, m2⟩, hw⟩ := hM
  have hpair := pair_image h.turn m1
  have hcard : (M.image σ).card = (mines w).card := by
    rw [Pair.card h.turn hpair, Pair.card h.turn (turned_mines h), m2]
  refine ⟨⟨hpair.sub', hcard⟩, ?_⟩
  rw [C99_iff v _ hn (dealt_of m1 m2) ops s hs hl] at hw
  rw [C99_iff w _ hnw (dealt_of hpair.sub' hcard) ops' t e2 hlt]
  obtain ⟨-, d2, d3⟩ := steps_dims (MSB.new_inv hn) hs
  have d2 : s.row = v.row := d2
  have d3 : s.column = v.col := d3
  have hT := turned_withMines h.turn m1
  intro q hq hlt
  obtain ⟨b1, b2⟩ := h.turn.back q hq
  have hg : shown t.gameBoard (σ (τ q)) = shown s.gameBoard (τ q) := hst.gb (τ q) (by rw [d2, d3]; exact b1)
  have hv := turned_val hT (p := τ q) b1
  rw [b2] at hg hv
  rw [hv, hg]
  exact hw (τ q) b1 (by rw [← hg]; exact hlt)

private theorem image_inj (h : Turned σ τ v w) : Set.InjOn (fun M : Finset Pos => M.image σ) {M | M ⊆ vcells v} := by
  intro M hM N hN e
  have e : M.image σ = N.image σ := e
  ext p
  constructor
  · intro hp
    exact ((pair_image h.turn hN).iff p (hM hp)).mpr (by rw [← e]; exact Finset.mem_image_of_mem _ hp)
  · intro hp
    exact ((pair_image h.turn hM).iff p (hN hp)).mpr (by rw [e]; exact Finset.mem_image_of_mem _ hp)

private theorem alike_sub {M : Finset Pos} (hM : M ∈ alike v ops) : M ⊆ vcells v := by
  unfold alike at hM
  exact (Finset.mem_powersetCard.mp (Finset.mem_filter.mp hM).1).1

private theorem losing_image (h : Turned σ τ v w) (hn : Numbered v) {op op' : Ev × Pos}
    (hk : SameOps v.row v.col w.row w.col σ ops ops') (hop : op'.1 = op.1 ∧ SamePlace v.row v.col w.row w.col σ op.2 op'.2) {s : MSB}
    (hs : playOn (MSB.new v) ops = some s) (hl : s.state ≠ .loss) {M : Finset Pos} (hM : M ∈ losingBy v ops op) :
    M.image σ ∈ losingBy w ops' op' := by
  unfold losingBy at hM ⊢
  rw [Finset.mem_filter] at hM ⊢
  obtain ⟨hM, hloss⟩ := hM
  refine ⟨alike_image h hn hk hs hl hM, ?_⟩
  have m1 := alike_sub hM
  have hT := turned_withMines h.turn m1
  have hk' : SameOps v.row v.col w.row w.col σ (ops ++ [op]) (ops' ++ [op']) := List.rel_append hk (.cons hop .nil)
  rcases C104_play (.new (numbered_withMines m1)) (.new (turned_numbered hT (numbered_withMines m1))) (C88_new hT) hk' with
    ⟨e1, -⟩ | ⟨s', t', e1, e2, hst⟩
  · rw [e1] at hloss; cases hloss
  · rw [e1] at hloss
    rw [e2, ← hloss]
    simp [hst.state]

/-- **C104** the numbers of sets of mines with which a game would look the same, and of those with which the next event would lose it, are the
same for a game (not yet lost) and for its image in a mirror. -/
theorem C104_counts (h : Turned σ τ v w) (hn : Numbered v) {op op' : Ev × Pos}
    (hk : SameOps v.row v.col w.row w.col σ ops ops') (hop : op'.1 = op.1 ∧ SamePlace v.row v.col w.row w.col σ op.2 op'.2) {s : MSB}
    (hs : playOn (MSB.new v) ops = some s) (hl : s.state ≠ .loss) :
    (alike w ops').card = (alike v ops).card ∧ (losingBy w ops' op').card = (losingBy v ops op).card := by
  have hnw := turned_numbered h hn
  obtain ⟨t, e2, hst⟩ : ∃ t, playOn (MSB.new w) ops' = some t ∧ SameGame σ τ s t := by
    rcases C104_play (.new hn) (.new hnw) (C88_new h) hk with ⟨e1, -⟩ | ⟨s', t, e1, e2, hst⟩
    · rw [hs] at e1; cases e1
    rw [hs, Option.some.injEq] at e1
    subst e1
    exact ⟨t, e2, hst⟩
  have hlt : t.state ≠ .loss := by rw [hst.state]; exact hl
  have hk2 := sameOps_symm h.turn hk
  have hop2 : op.1 = op'.1 ∧ SamePlace w.row w.col v.row v.col τ op'.2 op.2 := by
    have := sameOps_symm h.turn (ops := [op]) (ops' := [op']) (.cons hop .nil)
    cases this with
    | cons x _ => exact x
  constructor
  · refine le_antisymm ?_ ?_
    · exact Finset.card_le_card_of_injOn _ (fun M hM => alike_image h.symm hnw hk2 e2 hlt hM)
        ((image_inj h.symm).mono fun M hM => alike_sub hM)
    · exact Finset.card_le_card_of_injOn _ (fun M hM => alike_image h hn hk hs hl hM)
        ((image_inj h).mono fun M hM => alike_sub hM)
  · refine le_antisymm ?_ ?_
    · exact Finset.card_le_card_of_injOn _ (fun M hM => losing_image h.symm hnw hk2 hop2 e2 hlt hM)
        ((image_inj h.symm).mono fun M hM => alike_sub (Finset.mem_filter.mp hM).1)
    · exact Finset.card_le_card_of_injOn _ (fun M hM => losing_image h hn hk hop hs hl hM)
        ((image_inj h).mono fun M hM => alike_sub (Finset.mem_filter.mp hM).1)

/-! ### videos -/

variable {pix pix' : Nat} {evs evs' : List RawEv} {A A' : Replay}

private theorem raw_rec (hv : Numbered v) (hA : analyse dist v v.row v.col pix evs = some A) {i : Nat} {r : Rec}
    (hr : A.recs[i]? = some r) : (moves pix evs)[i]? = some (r.ev, r.cell pix) := by
  have h := (analyse_inv hv hA).raw
  unfold moves
  rw [← h, List.map_map, List.getElem?_map, hr]; rfl

/-- **C104** two videos of which the second shows the first in a mirror (or turned), in cells of whatever size: at corresponding events
the same happened, with the same usefulness, and to the openings the analyses give the same risk. -/
theorem C104_risk (ht : Turned σ τ v w) (h : GoodVideo dist v pix evs A) (h' : GoodVideo dist w pix' evs' A')
    (hk : SameOps v.row v.col w.row w.col σ (moves pix evs) (moves pix' evs')) {i : Nat} {r r' : Rec}
    (hr : A.recs[i]? = some r) (hr' : A'.recs[i]? = some r') :
    r'.ev = r.ev ∧ r'.useful = r.useful ∧
      (r.ev = .lr → 0 < r.useful → A'.risk (mines w).card pix' r' = A.risk (mines v).card pix r) := by
  have hn := h.numbers
  obtain ⟨m0, m1, s1, s2⟩ := analyse_steps hn h.analysed i r hr
  obtain ⟨n0, n1, t1, t2⟩ := analyse_steps h'.numbers h'.analysed i r' hr'
  have p1 := play_moves s1
  have p2 := play_moves t1
  have hkt : SameOps v.row v.col w.row w.col σ (moves pix (evs.take i)) (moves pix' (evs'.take i)) := by
    unfold moves
    rw [List.map_take, List.map_take]
    exact List.forall₂_take i hk
  have hop := (List.forall₂_iff_get.mp hk).2 i (List.getElem?_eq_some_iff.mp (raw_rec hn h.analysed hr)).1
    (List.getElem?_eq_some_iff.mp (raw_rec h'.numbers h'.analysed hr')).1
  rw [List.get_eq_getElem, List.get_eq_getElem, (List.getElem?_eq_some_iff.mp (raw_rec hn h.analysed hr)).2,
    (List.getElem?_eq_some_iff.mp (raw_rec h'.numbers h'.analysed hr')).2] at hop
  have hst : SameGame σ τ m0 n0 := by
    rcases C104_play (.new hn) (.new h'.numbers) (C88_new ht) hkt with ⟨e1, -⟩ | ⟨s', t, e1, e2, hst⟩
    · rw [p1] at e1; cases e1
    rw [p1, Option.some.injEq] at e1
    rw [p2, Option.some.injEq] at e2
    subst e1 e2
    exact hst
  have R1 := playOn_reach (.new hn) p1
  have R2 := playOn_reach (.new h'.numbers) p2
  obtain ⟨-, d2, d3⟩ := steps_dims (MSB.new_inv hn) p1
  obtain ⟨-, d5, d6⟩ := steps_dims (MSB.new_inv h'.numbers) p2
  have d2 : m0.row = v.row := d2
  have d3 : m0.column = v.col := d3
  have d5 : n0.row = w.row := d5
  have d6 : n0.column = w.col := d6
  have hev : r'.ev = r.ev := hop.1
  have hus : r'.useful = r.useful := by
    rcases C88_step R1 R2 hst r.ev (p := r.cell pix) (p' := r'.cell pix') (by rw [d2, d3, d5, d6]; exact hop.2) with
      ⟨e1, -⟩ | ⟨s', t', k, e1, e2, -⟩
    · rw [s2] at e1; cases e1
    · rw [s2, Option.some.injEq, Prod.mk.injEq] at e1
      rw [hev] at t2
      rw [t2, Option.some.injEq, Prod.mk.injEq] at e2
      exact Option.some.inj (e2.2.trans e1.2.symm)
  refine ⟨hev, hus, fun he hu => ?_⟩
  have h1 : r.useful ≠ 1 := fun h1 => by
    rw [h1, he] at s2
    exact lr_not_one s2
  obtain ⟨-, -, -, -, -, -, h3, -⟩ := C56_position h hr (by omega)
  by_cases hu2 : r.useful = 2
  · rw [C102_risk h hr hu2 he, C102_risk h' hr' (hus.trans hu2) (hev.trans he)]
    rw [hu2] at s2
    have hl : m0.state ≠ .loss := by
      rcases (two_left R1.inv s2).2.1 with hh | ⟨hh, -⟩ <;> rw [hh] <;> decide
    obtain ⟨c1, c2⟩ := C104_counts ht hn hkt hop p1 hl
    rw [c1, c2]
  · rw [C102_chord h hr (by omega), C102_chord h' hr' (by omega)]

private theorem recs_len (hv : Numbered v) (hA : analyse dist v v.row v.col pix evs = some A) : A.recs.length = (moves pix evs).length := by
  unfold moves
  rw [List.length_map, ← (analyse_inv hv hA).raw, List.length_map]

/-- **C104** so `needless_guess` and, about left clicks, `high_risk_guess` say the same about corresponding events. -/
theorem C104_comments (ht : Turned σ τ v w) (h : GoodVideo dist v pix evs A) (h' : GoodVideo dist w pix' evs' A')
    (hk : SameOps v.row v.col w.row w.col σ (moves pix evs) (moves pix' evs'))
    {F F' : Feat} (hF : Annotated dist A (mines v).card pix F) (hF' : Annotated dist A' (mines w).card pix' F')
    {f : Feature} (hf : f = .needlessGuess ∨ f = .highRiskGuess) :
    ∃ G G', F.run dist f = some G ∧ F'.run dist f = some G' ∧
      ∀ (i : Nat) r r' cs cs', A.recs[i]? = some r → A'.recs[i]? = some r' → F.comments[i]? = some cs → F'.comments[i]? = some cs' →
        (f = .highRiskGuess → r.ev = .lr) →
        ∃ said, G.comments[i]? = some (cs ++ said) ∧ G'.comments[i]? = some (cs' ++ said) := by
  rcases hf with rfl | rfl
  · obtain ⟨G, a1, a2⟩ := C56_needless_guess h hF
    obtain ⟨G', b1, b2⟩ := C56_needless_guess h' hF'
    refine ⟨G, G', a1, b1, fun i r r' cs cs' hr hr' hc hc' _ => ⟨_, a2 i r cs hr hc, ?_⟩⟩
    obtain ⟨e1, e2, e3⟩ := C104_risk ht h h' hk hr hr'
    rw [b2 i r' cs' hr' hc', e1, e2]
    congr 2
    refine if_congr (and_congr_right fun _ => and_congr_right fun hu => and_congr_right fun he => ?_) rfl rfl
    rw [e3 he (by omega)]
  · obtain ⟨H, a3, a4⟩ := C56_high_risk h hF
    obtain ⟨H', b3, b4⟩ := C56_high_risk h' hF'
    refine ⟨H, H', a3, b3, fun i r r' cs cs' hr hr' hc hc' he => ⟨_, a4 i r cs hr hc, ?_⟩⟩
    obtain ⟨e1, e2, e3⟩ := C104_risk ht h h' hk hr hr'
    rw [b4 i r' cs' hr' hc', e2]
    by_cases hu : 0 < r.useful
    · rw [e3 (he rfl) hu]
    · congr 2
      rw [if_neg (by omega), if_neg (by omega)]

/-- **C104** and `survive_poss` reports the same chances. -/
theorem C104_survive (ht : Turned σ τ v w) (h : GoodVideo dist v pix evs A) (h' : GoodVideo dist w pix' evs' A')
    (hk : SameOps v.row v.col w.row w.col σ (moves pix evs) (moves pix' evs')) (hne : evs ≠ []) (hne' : evs' ≠ [])
    {F F' : Feat} (hF : Annotated dist A (mines v).card pix F) (hF' : Annotated dist A' (mines w).card pix' F') :
    ∃ G G' fs, F.run dist .survivePoss = some G ∧ F'.run dist .survivePoss = some G' ∧
      G.comments = F.comments.set (evs.length - 1) [.luck fs fs.prod] ∧
      G'.comments = F'.comments.set (evs'.length - 1) [.luck fs fs.prod] := by
  obtain ⟨G, fs, a1, a2, a3⟩ := (C56_survive h hF).2 hne
  obtain ⟨G', fs', b1, b2, b3⟩ := (C56_survive h' hF').2 hne'
  have key : ∀ (n p : Nat) (B : Replay) (l : List Rec),
      (l.filter fun r => decide (r.ev = .lr ∧ r.useful > 0)).tail.flatMap (fun r =>
        if 0 < B.risk n p r ∧ B.risk n p r < 1 then [1 - B.risk n p r] else []) =
      ((l.map fun r => (decide (r.ev = .lr ∧ r.useful > 0), if r.ev = .lr ∧ r.useful > 0 then B.risk n p r else 0)).filter
        (·.1)).tail.flatMap (fun x => if 0 < x.2 ∧ x.2 < 1 then [1 - x.2] else []) := by
    intro n p B l
    rw [List.filter_map, ← List.map_tail, List.flatMap_map]
    refine List.flatMap_congr fun r hr => ?_
    have := (List.mem_filter.mp (List.mem_of_mem_tail hr)).2
    rw [decide_eq_true_eq] at this
    simp only [if_pos this]
  have e : fs' = fs := by
    rw [a2, b2, key, key]
    congr 3
    apply List.ext_getElem?
    intro i
    have hlen : A'.recs.length = A.recs.length := by
      rw [recs_len h.numbers h.analysed, recs_len h'.numbers h'.analysed, hk.length_eq]
    rw [List.getElem?_map, List.getElem?_map]
    by_cases hi : i < A.recs.length
    · have hr := List.getElem?_eq_getElem hi
      have hr' := List.getElem?_eq_getElem (show i < A'.recs.length by omega)
      obtain ⟨e1, e2, e3⟩ := C104_risk ht h h' hk hr hr'
      rw [hr, hr', Option.map_some, Option.map_some, e1, e2]
      by_cases hc : (A.recs[i]'hi).ev = .lr ∧ (A.recs[i]'hi).useful > 0
      · rw [if_pos hc, if_pos hc, e3 hc.1 hc.2]
      · rw [if_neg hc, if_neg hc]
    · rw [List.getElem?_eq_none (by omega), List.getElem?_eq_none (by omega)]; rfl
  subst e
  exact ⟨G, G', fs', a1, b1, a3, b3⟩

/-! ### an example -/

/-- The guess of `chordEvents` between three cells, and its mirror image: the picture reflected, pixel by pixel. -/
def mirrorEvents : List RawEv := chordEvents.map fun e => { e with x := 29 - e.x }

/-- The hypotheses hold of them, and the risk is 1/3 in both. -/
theorem C104_applies : ∃ A A' r r', Turned (fun p => (p.1, 3 - 1 - p.2)) (fun p => (p.1, 3 - 1 - p.2)) coinView (mirror [[-1, 1, 0]]).view ∧
    GoodVideo taxi coinView 10 chordEvents A ∧ GoodVideo taxi (mirror [[-1, 1, 0]]).view 10 mirrorEvents A' ∧
    SameOps 1 3 1 3 (fun p => (p.1, 3 - 1 - p.2)) (moves 10 chordEvents) (moves 10 mirrorEvents) ∧
    A.recs[2]? = some r ∧ A'.recs[2]? = some r' ∧ r.ev = .lr ∧ r.useful = 2 ∧
    A.risk (mines coinView).card 10 r = 1 / 3 ∧ A'.risk (mines (mirror [[-1, 1, 0]]).view).card 10 r' = 1 / 3 := by
  obtain ⟨A, r, h, hr, hu, he, hrisk⟩ := coin_risk
  have hT := (C87_mirror [[-1, 1, 0]] 1 3 ⟨rfl, by decide⟩ (by decide)).2
  have hs : ((analyse taxi (mirror [[-1, 1, 0]]).view 1 3 10 mirrorEvents).any fun A => decide (3 ≤ A.recs.length)) = true := by decide +kernel
  rcases hA : analyse taxi (mirror [[-1, 1, 0]]).view 1 3 10 mirrorEvents with _ | A'
  · rw [hA] at hs; cases hs
  rw [hA, Option.any_some, decide_eq_true_eq] at hs
  have h' : GoodVideo taxi (mirror [[-1, 1, 0]]).view 10 mirrorEvents A' :=
    goodVideo_small ⟨by unfold Numbered; decide +kernel, by decide +kernel, by decide, hA⟩ (by decide +kernel) (by decide +kernel)
  have hk : SameOps 1 3 1 3 (fun p => (p.1, 3 - 1 - p.2)) (moves 10 chordEvents) (moves 10 mirrorEvents) := by
    unfold SameOps SamePlace
    decide +kernel
  have hr' : A'.recs[2]? = some (A'.recs[2]'(by omega)) := List.getElem?_eq_getElem (by omega)
  refine ⟨A, A', r, _, hT, h, h', hk, hr, hr', he, hu, hrisk, ?_⟩
  exact ((C104_risk hT h h' hk hr hr').2.2 he (by omega)).trans hrisk

end Ms.Properties
