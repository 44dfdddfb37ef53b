import Verif.Properties.Risk
import Verif.Properties.Best

/-!
# Property C103: a recorded game of a program that never loses is not blamed for gambling
-/

namespace Ms.Properties
open Spec MSB

variable {dist : Pos → Pos → ℚ} {v : View} {pix : Nat} {evs : List RawEv} {A : Replay} {m : Mind} {c0 : Pos}

/-- what has been opened holds no mine in any of the sets with which everything looked the same -/
private theorem opened_out (hn : Numbered v) {ops1 : List (Ev × Pos)} {op : Ev × Pos} {rest : List (Ev × Pos)} {s1 u1 s : MSB}
    (h1 : playOn (MSB.new v) ops1 = some s1) (h2 : s1.step op.1 op.2 = some (u1, some 2))
    (hs : playOn (MSB.new v) (ops1 ++ [op] ++ rest) = some s) {M : Finset Pos} (hM : M ∈ alike v (ops1 ++ [op] ++ rest)) : op.2 ∉ M := by
  unfold alike at hM
  rw [Finset.mem_filter, Finset.mem_powersetCard] at hM
  obtain ⟨⟨m1, m2⟩, hw⟩ := hM
  have hd := dealt_of m1 m2
  have hsight : sight (MSB.new v) = sight (MSB.new (withMines v.row v.col M)) := by
    unfold sight
    rw [(new_same hd.row hd.col).gameBoard]; rfl
  obtain ⟨w, w1, -⟩ := playOn_watch hs
  rw [w1] at hw
  have e1 : watch (MSB.new (withMines v.row v.col M)) (ops1 ++ [op]) = watch (MSB.new v) (ops1 ++ [op]) := by
    rw [watch_prefix hw, watch_prefix w1]
  rw [List.append_assoc] at hw w1
  have e2 : watch (MSB.new (withMines v.row v.col M)) ops1 = watch (MSB.new v) ops1 := by
    rw [watch_prefix hw, watch_prefix w1]
  obtain ⟨t1, t2, -⟩ := watch_last hsight h1 e2
  obtain ⟨t3, t4, -⟩ := watch_last hsight (playOn_snoc h1 h2) e1
  rw [playOn_append, t2] at t4
  simp only [Option.bind_some, playOn] at t4
  split at t4
  · cases t4
  rename_i t5 r e3
  obtain ⟨x, x1⟩ := watch_snoc t2 e3
  obtain ⟨y, y1⟩ := watch_snoc h1 h2
  rw [x1, y1, Option.some.injEq] at e1
  have e4 := (List.append_inj' e1 rfl).2
  simp only [List.cons.injEq, Prod.mk.injEq, and_true] at e4
  rw [e4.1] at e3
  obtain ⟨-, -, hb⟩ := two_left (playOn_reach (.new hd.numbered) t2).inv e3
  obtain ⟨d1, -, -⟩ := steps_dims (MSB.new_inv hd.numbered) t2
  have d1 : t1.board = withMines v.row v.col M := d1
  intro hin
  rw [MSB.bd_val, d1, val_withMines, if_pos hin] at hb
  exact hb rfl

private theorem take_split {i j : Nat} (hj : j < i) {e : RawEv} (he : evs[j]? = some e) :
    ∃ rest, moves pix (evs.take i) = moves pix (evs.take j) ++ [(e.ev, (e.y / pix, e.x / pix))] ++ rest := by
  have h1 : (evs.take i).take j = evs.take j := by rw [List.take_take, min_eq_left hj.le]
  have h2 : (evs.take i)[j]? = some e := by rw [List.getElem?_take, if_pos hj, he]
  obtain ⟨hl, hg⟩ := List.getElem?_eq_some_iff.mp h2
  refine ⟨moves pix ((evs.take i).drop (j + 1)), ?_⟩
  rw [← moves_snoc, ← h1, ← hg, ← List.take_succ_eq_append_getElem hl]
  unfold moves
  rw [← List.map_append, List.take_append_drop]

private theorem chooses_prefix {s : MSB} {a b : List (Ev × Pos)} (h : Chooses m s (a ++ b)) : Chooses m s a := by
  intro before o later e
  exact h before o (later ++ b) (by rw [e]; simp)

/-- the event of a record -/
private theorem raw_of_rec (hv : Numbered v) (hA : analyse dist v v.row v.col pix evs = some A) {i : Nat} {r : Rec}
    (hr : A.recs[i]? = some r) : ∃ e, evs[i]? = some e ∧ e.ev = r.ev ∧ (e.y / pix, e.x / pix) = r.cell pix := by
  have I := analyse_inv hv hA
  have h := I.raw
  refine ⟨r.raw, ?_, rfl, rfl⟩
  rw [← h, List.getElem?_map, hr]; rfl

/-- **C103** take any program, however it decides, that loses on no board with as many mines (and none on a given cell, say the one it
starts with), and a video of a game it played.  An event of this video that opened cells by the release of the left button, after
the given cell had been opened, would not have lost the game with any set of mines with which everything would have looked the
same: the risk that the analyses reckon with is 0. -/
theorem C103_no_risk (h : GoodVideo dist v pix evs A) (hm : NeverLoses m v c0) (hch : Chooses m (MSB.new v) (moves pix evs))
    {i j : Nat} {q r : Rec} (hq : A.recs[j]? = some q) (hq2 : q.useful = 2) (hqc : q.cell pix = c0) (hj : j < i)
    (hr : A.recs[i]? = some r) (hu : r.useful = 2) (he : r.ev = .lr) :
    losingBy v (moves pix (evs.take i)) (r.ev, r.cell pix) = ∅ ∧ A.risk (mines v).card pix r = 0 := by
  have hn := h.numbers
  have hempty : losingBy v (moves pix (evs.take i)) (r.ev, r.cell pix) = ∅ := by
    obtain ⟨sj, uj, s1, s2⟩ := analyse_steps hn h.analysed j q hq
    obtain ⟨si, ui, s3, -⟩ := analyse_steps hn h.analysed i r hr
    rw [hq2] at s2
    obtain ⟨ej, e1, e2, e3⟩ := raw_of_rec hn h.analysed hq
    obtain ⟨ei, e4, e5, e6⟩ := raw_of_rec hn h.analysed hr
    obtain ⟨rest, hrest⟩ := take_split (pix := pix) hj e1
    obtain ⟨rest', hrest'⟩ := take_split (pix := pix) (List.getElem?_eq_some_iff.mp e4).1 e4
    rw [List.take_length, e5, e6] at hrest'
    have hp := play_moves s3
    rw [Finset.eq_empty_iff_forall_notMem]
    intro M hM
    unfold losingBy at hM
    rw [Finset.mem_filter] at hM
    obtain ⟨hM, hloss⟩ := hM
    have hc0 : c0 ∉ M := by
      have := opened_out hn (op := (ej.ev, (ej.y / pix, ej.x / pix))) (rest := rest) (play_moves s1)
        (by rw [e2, e3]; exact s2) (by rw [← hrest]; exact hp) (by rw [← hrest]; exact hM)
      rw [e3] at this
      rwa [← hqc]
    have hM' := hM
    unfold alike at hM'
    rw [Finset.mem_filter, Finset.mem_powersetCard] at hM'
    obtain ⟨⟨m1, m2⟩, hw⟩ := hM'
    have hch' : Chooses m (MSB.new v) (moves pix (evs.take i) ++ [(r.ev, r.cell pix)]) := chooses_prefix (hrest' ▸ hch)
    obtain ⟨t, t1, t2⟩ := Option.map_eq_some_iff.mp hloss
    exact hm _ (dealt_of m1 m2) (by rw [mines_withMines m1]; exact hc0) _ t (C99_chooses m v _ _ _ si hp hw hch') t1 t2
  exact ⟨hempty, (C102_below_one h hr hu he).2.2.2.mpr hempty⟩

/-- **C103** neither `needless_guess` nor, about left clicks, `high_risk_guess` says anything about such a game, once the given cell has
been opened. -/
theorem C103_no_comment (h : GoodVideo dist v pix evs A) (hm : NeverLoses m v c0) (hch : Chooses m (MSB.new v) (moves pix evs))
    {j : Nat} {q : Rec} (hq : A.recs[j]? = some q) (hq2 : q.useful = 2) (hqc : q.cell pix = c0)
    {F : Feat} (hF : Annotated dist A (mines v).card pix F) :
    ∃ F' F'', F.run dist .needlessGuess = some F' ∧ F.run dist .highRiskGuess = some F'' ∧
      ∀ (i : Nat) r cs, j < i → A.recs[i]? = some r → F.comments[i]? = some cs →
        F'.comments[i]? = some cs ∧ (r.ev = .lr → F''.comments[i]? = some cs) := by
  obtain ⟨F', f1, f2⟩ := C102_needless h hF
  obtain ⟨F'', g1, g2⟩ := C102_high_risk h hF
  refine ⟨F', F'', f1, g1, fun i r cs hj hr hcs => ⟨?_, fun he => ?_⟩⟩
  · rw [f2 i r cs hr hcs, if_neg, List.append_nil]
    rintro ⟨-, hu, he, hne⟩
    exact hne.ne_empty (C103_no_risk h hm hch hq hq2 hqc hj hr hu he).1
  · rw [g2 i r cs hr hcs he, if_neg, List.append_nil]
    rintro ⟨-, hu, hle⟩
    rw [(C103_no_risk h hm hch hq hq2 hqc hj hr hu he).1, Finset.card_empty, mul_zero, Nat.le_zero, Nat.mul_eq_zero] at hle
    have := Finset.card_pos.mpr ⟨_, (C102_below_one h hr hu he).1⟩
    omega

private theorem tail_later {P : Rec × Nat → Bool} {l : List Rec} {j : Nat} (hP : ∀ x ∈ l.zipIdx, P x = true → j ≤ x.2) :
    ∀ x ∈ (l.zipIdx.filter P).tail, j < x.2 := by
  have hs : (l.zipIdx.filter P).Pairwise (fun a b => a.2 < b.2) := by
    refine List.Pairwise.filter _ ?_
    have : (l.zipIdx.map Prod.snd).Pairwise (· < ·) := by
      rw [List.zipIdx_map_snd]
      exact List.pairwise_lt_range'
    rwa [List.pairwise_map] at this
  intro x hx
  rcases hl : l.zipIdx.filter P with _ | ⟨y, ys⟩
  · rw [hl] at hx; cases hx
  rw [hl] at hx hs
  have h1 := (List.pairwise_cons.mp hs).1 x hx
  have hy : y ∈ l.zipIdx.filter P := by rw [hl]; exact List.mem_cons_self
  have := hP y (List.mem_filter.mp hy).1 (List.mem_filter.mp hy).2
  omega

/-- **C103** if the given cell is the first that the video opens with the left button, `survive_poss` reports that the player survived for
certain: no chances, and the product 1. -/
theorem C103_survives (h : GoodVideo dist v pix evs A) (hm : NeverLoses m v c0) (hch : Chooses m (MSB.new v) (moves pix evs))
    {j : Nat} {q : Rec} (hq : A.recs[j]? = some q) (hq2 : q.useful = 2) (hqc : q.cell pix = c0)
    (hfirst : ∀ l r, l < j → A.recs[l]? = some r → r.ev = .lr → r.useful = 0)
    {F : Feat} (hF : Annotated dist A (mines v).card pix F) :
    ∃ F', F.run dist .survivePoss = some F' ∧ F'.comments = F.comments.set (evs.length - 1) [.luck [] 1] := by
  have hne : evs ≠ [] := by
    rintro rfl
    have := (analyse_inv h.numbers h.analysed).raw
    rw [List.map_eq_nil_iff.mp this] at hq
    simp at hq
  obtain ⟨F', fs, f1, f2, f3⟩ := C102_survive h hF hne
  have hfs : fs = [] := by
    rw [f2, List.flatMap_eq_nil_iff]
    intro x hx
    have hj := tail_later (j := j) (fun y hy hP => by
      rw [decide_eq_true_eq] at hP
      by_contra hlt
      have := hfirst y.2 y.1 (by omega) (List.mem_zipIdx_iff_getElem?.mp hy) hP.1
      omega) x hx
    have hxm := List.mem_filter.mp (List.mem_of_mem_tail hx)
    have hr := List.mem_zipIdx_iff_getElem?.mp hxm.1
    have he := hxm.2
    rw [decide_eq_true_eq] at he
    rw [if_neg]
    rintro ⟨hu, hne⟩
    exact hne.ne_empty (C103_no_risk h hm hch hq hq2 hqc hj hr hu he.1).1
  subst hfs
  exact ⟨F', f1, by rw [f3]; rfl⟩

/-! ### an example -/

/-- the program with the table of probabilities on `exCount`: it begins in the corner, counts the mines, and opens the far end -/
def countEvents : List RawEv := clicksAt [(.lc, 0, 0), (.lr, 0, 0), (.lc, 0, 3), (.lr, 0, 3)]

private theorem chooses_of {s : MSB} {ops : List (Ev × Pos)}
    (h : (List.range ops.length).all (fun k => decide ((watch s (ops.take k)).map m = ops[k]?)) = true) : Chooses m s ops := by
  rintro before op later rfl
  have := List.all_eq_true.mp h before.length (by simp)
  rw [decide_eq_true_eq, List.take_left, List.getElem?_append_right le_rfl] at this
  simp only [Nat.sub_self, List.getElem?_cons_zero, Option.map_eq_some_iff] at this
  obtain ⟨w, w1, w2⟩ := this
  exact ⟨w, w1, w2.symm⟩

/-- All the hypotheses hold of this program, its recorded game (which is won), and the event that opens the corner. -/
theorem C103_applies : NeverLoses (follow (0, 0) (byTable 1)) exCount.view (0, 0) ∧
    Chooses (follow (0, 0) (byTable 1)) (MSB.new exCount.view) (moves 10 countEvents) ∧
    (play 10 exCount.view countEvents).map (·.state) = some .win ∧
    ∃ A q r, GoodVideo taxi exCount.view 10 countEvents A ∧ Annotated taxi A (mines exCount.view).card 10 (A.feat 1 10) ∧
      A.recs[1]? = some q ∧ q.useful = 2 ∧ q.cell 10 = (0, 0) ∧ A.recs[3]? = some r ∧ r.useful = 2 ∧ r.ev = .lr ∧
      r.cell 10 = (0, 3) ∧ ∀ l x, l < 1 → A.recs[l]? = some x → x.ev = .lr → x.useful = 0 := by
  refine ⟨fun v' h1 h2 ops t h3 h4 => ?_, chooses_of (by decide +kernel), by decide +kernel, ?_⟩
  · have hf := (C101_table (r := 1) (c := 4) (n := 1) (s := (0, 0)) (by decide) (by decide) (by decide)).1
    exact C101_never_loses hf exCount.view rfl rfl exCount_mines (by decide) v' h1 h2 ops t h3 h4
  · have hs : ((analyse taxi exCount.view 1 4 10 countEvents).any fun A =>
        decide ((A.recs[1]?.map fun q => (q.useful, q.cell 10)) = some (2, (0, 0))) &&
        decide ((A.recs[3]?.map fun q => (q.useful, q.ev, q.cell 10)) = some (2, .lr, (0, 3))) &&
        decide ((A.recs[0]?.map fun q => q.ev) = some .lc)) = true := by decide +kernel
    rcases hA : analyse taxi exCount.view 1 4 10 countEvents with _ | A
    · rw [hA] at hs; cases hs
    rw [hA] at hs
    simp only [Option.any_some, Bool.and_eq_true, decide_eq_true_eq, Option.map_eq_some_iff, Prod.mk.injEq] at hs
    obtain ⟨⟨⟨q, q1, q2, q3⟩, r, r1, r2, r3, r4⟩, x, x1, x2⟩ := hs
    refine ⟨A, q, r, goodVideo_small ⟨exCount_numbered, by decide, by decide, hA⟩ (by decide +kernel) (by decide), ?_, q1, q2, q3, r1, r2, r3, r4, ?_⟩
    · rw [exCount_mines]; exact .start
    · intro l y hl hy he
      obtain rfl : l = 0 := by omega
      rw [x1, Option.some.injEq] at hy
      subst hy
      rw [x2] at he; cases he

end Ms.Properties
