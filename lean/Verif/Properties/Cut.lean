import Verif.Properties.Several
import Verif.Properties.Zoom

/-! # C97: a video cut short

A file of which only the first events are left is analysed to the beginning of the analysis of the whole file. -/

namespace Ms.Properties
open Ms Ms.Spec Ms.MSB

variable {dist : Pos → Pos → ℚ} {v : View} {h w pix : Nat}

private theorem cut_append (hv : Numbered v) {evs : List RawEv} {A1 : Replay} (h1 : analyse dist v h w pix evs = some A1) :
    ∀ {more : List RawEv} {A : Replay}, analyse dist v h w pix (evs ++ more) = some A →
      A1.recs <+: A.recs ∧ A1.stream <+: A.stream ∧ ((∃ r ∈ A1.recs, 2 ≤ r.useful) → A1.delta = A.delta) := by
  intro more
  induction more using List.reverseRecOn with
  | nil =>
    intro A hA
    rw [List.append_nil, h1, Option.some.injEq] at hA
    subst hA
    exact ⟨List.prefix_refl _, List.prefix_refl _, fun _ => rfl⟩
  | append_singleton more r ih =>
    intro A' hA'
    rw [← List.append_assoc, analyse_snoc, Option.bind_eq_some_iff] at hA'
    obtain ⟨A, hA, hn⟩ := hA'
    obtain ⟨i1, i2, i3⟩ := ih hA
    have I := analyse_inv hv hA
    obtain ⟨m, a, path, n1, n2, n3, n4, n5⟩ := next_eff hn
    refine ⟨i1.trans (by rw [n5]; exact List.prefix_append _ _), i2.trans (by rw [n3]; exact List.prefix_append _ _), fun hb => ?_⟩
    rw [i3 hb, n4, if_neg]
    rintro ⟨ha, hst⟩
    obtain ⟨q, hq, hq2⟩ := hb
    have hq' : q ∈ A.recs := i1.subset hq
    cases hs : A.msb.state with
    | ready => have := I.waiting (.inl hs) q hq'; omega
    | preFlaging => have := I.waiting (.inr hs) q hq'; omega
    | playing => exact hst hs
    | win => have := (step_level_playing n1 (.inl hs)).1; omega
    | loss => have := (step_level_playing n1 (.inr hs)).1; omega
    | display => exact absurd hs I.reach.inv.nd

/-- the beginning of a file that can be analysed can be analysed -/
private theorem cut_some {evs more : List RawEv} {A : Replay} (hA : analyse dist v h w pix (evs ++ more) = some A) :
    ∃ A1, analyse dist v h w pix evs = some A1 := by
  unfold analyse at hA ⊢
  rw [List.foldlM_append] at hA
  obtain ⟨A1, h1, -⟩ := Option.bind_eq_some_iff.mp hA
  exact ⟨A1, h1⟩

/-- **C97** if a file is analysed without a panic, so is the file cut off after `k` events; the events are those of the
whole file, with everything the analysis says about them, the boards are the first boards of the whole file, and if the
game had begun by then, it began at the same time. -/
theorem C97_cut (hv : Numbered v) {evs : List RawEv} {A : Replay} (hA : analyse dist v h w pix evs = some A) (k : Nat) :
    ∃ A1, analyse dist v h w pix (evs.take k) = some A1 ∧ A1.recs = A.recs.take k ∧ A1.stream <+: A.stream ∧
      play pix v (evs.take k) = some A1.msb ∧ ((∃ r ∈ A1.recs, 2 ≤ r.useful) → A1.delta = A.delta) := by
  have hA' : analyse dist v h w pix (evs.take k ++ evs.drop k) = some A := by rw [List.take_append_drop]; exact hA
  obtain ⟨A1, h1⟩ := cut_some hA'
  obtain ⟨c1, c2, c3⟩ := cut_append hv h1 hA'
  have I1 := analyse_inv hv h1
  have I := analyse_inv hv hA
  refine ⟨A1, h1, ?_, c2, I1.plays, c3⟩
  have hl1 : A1.recs.length = (evs.take k).length := by rw [← I1.raw, List.length_map]
  have hl : A.recs.length = evs.length := by rw [← I.raw, List.length_map]
  obtain ⟨x, hx⟩ := c1
  rw [← hx]
  by_cases hk : k ≤ evs.length
  · rw [List.length_take, Nat.min_eq_left hk] at hl1
    rw [← hl1, List.take_left]
  · have h0 : x = [] := by
      have := congrArg List.length hx
      rw [List.length_append, hl1, hl, List.length_take] at this
      exact List.eq_nil_of_length_eq_zero (by omega)
    rw [h0, List.append_nil, List.take_of_length_le (by rw [hl1, List.length_take]; omega)]

/-- **C97** in the player, the cut video shows on each of its events the board the whole video shows there, and, if the
game had begun by the cut, at the same time. -/
theorem C97_player (hv : Numbered v) {evs : List RawEv} {A A1 : Replay} (hA : analyse dist v h w pix evs = some A) {k : Nat}
    (h1 : analyse dist v h w pix (evs.take k) = some A1) (mines id : Nat) (hid : id < k) (hid' : id < evs.length) :
    ∃ P P1 g, (A.player h w mines).setEvent id = some (P, true) ∧ (A1.player h w mines).setEvent id = some (P1, true) ∧
      P.gameBoard = some g ∧ P1.gameBoard = some g ∧ P.cur = id ∧ P1.cur = id ∧
      ((∃ r ∈ A1.recs, 2 ≤ r.useful) → P.curTime = P1.curTime) := by
  obtain ⟨A1', e1, e2, e3, -, e5⟩ := C97_cut hv hA k
  rw [h1, Option.some.injEq] at e1
  subst e1
  have I := analyse_inv hv hA
  have I1 := analyse_inv hv h1
  have hl : id < A.recs.length := by rw [← List.length_map (f := Rec.raw), I.raw]; exact hid'
  have hr : A.recs[id]? = some A.recs[id] := List.getElem?_eq_getElem hl
  have hr1 : A1.recs[id]? = some A.recs[id] := by rw [e2, List.getElem?_take, if_pos hid, hr]
  obtain ⟨P, p1, p2, p3⟩ := (C38_jump (Playing.start (A := A) (h := h) (w := w) (mines := mines)) id).1 _ hr
  obtain ⟨P1, q1, q2, q3⟩ := (C38_jump (Playing.start (A := A1) (h := h) (w := w) (mines := mines)) id).1 _ hr1
  have hne : evs ≠ [] := by rintro rfl; simp at hid'
  have hne1 : evs.take k ≠ [] := by
    intro hh
    have := congrArg List.length hh
    simp only [List.length_take, List.length_nil] at this
    omega
  obtain ⟨r, g, s1, s2, s3⟩ := C52_shows hv hA hne (.jump .start p1)
  obtain ⟨r1, g1, t1, t2, t3⟩ := C52_shows hv h1 hne1 (.jump .start q1)
  rw [p2, hr, Option.some.injEq] at s1
  rw [q2, hr1, Option.some.injEq] at t1
  subst s1
  subst t1
  have hg : A.stream[A.recs[id].next]? = some g1 := by
    obtain ⟨x, hx⟩ := e3
    rw [← hx, List.getElem?_append_left (List.getElem?_eq_some_iff.mp t2).1]
    exact t2
  rw [s2, Option.some.injEq] at hg
  subst hg
  exact ⟨P, P1, g, p1, q1, s3, t3, p2, q2, fun hb => by rw [p3, q3, e5 hb]⟩

/-! ## what is said about the events -/

variable {evs : List RawEv} {A A1 : Replay} {k : Nat}

theorem C97_good (h : GoodVideo dist v pix evs A) (h1 : analyse dist v v.row v.col pix (evs.take k) = some A1) :
    GoodVideo dist v pix (evs.take k) A1 := by
  obtain ⟨A1', e1, -, e3, -, -⟩ := C97_cut h.numbers h.analysed k
  rw [h1, Option.some.injEq] at e1
  subst e1
  exact ⟨⟨h.numbers, h.row, h.pixPos, h1⟩, h.mine, fun g hg => h.reach g (e3.subset hg)⟩

private theorem cut_risk (h : PlainVideo dist v pix evs A) (h1 : analyse dist v v.row v.col pix (evs.take k) = some A1)
    {i : Nat} {r : Rec} (hr : A1.recs[i]? = some r) :
    A.recs[i]? = some r ∧ A.stream.getD r.prior [] = A1.stream.getD r.prior [] := by
  obtain ⟨A1', e1, e2, e3, -, -⟩ := C97_cut h.numbers h.analysed k
  rw [h1, Option.some.injEq] at e1
  subst e1
  obtain ⟨_, _, -, -, -, -, -, -, -, -, -, hnx, hlt, -⟩ := (analyse_inv h.numbers h1).events i r hr
  refine ⟨?_, ?_⟩
  · rw [e2, List.getElem?_take] at hr
    split at hr
    · exact hr
    · cases hr
  · have hp : r.prior < A1.stream.length := by
      have : r.prior ≤ r.next := by rw [hnx]; exact Nat.le_add_right _ _
      omega
    obtain ⟨x, hx⟩ := e3
    rw [← hx, List.getD_eq_getElem?_getD, List.getElem?_append_left hp, ← List.getD_eq_getElem?_getD]

/-- **C97** `high_risk_guess`, `jump_judge` and `needless_guess` say about an event of the cut video what they say about it in
the whole video. -/
theorem C97_guesses (h : GoodVideo dist v pix evs A) (h1 : analyse dist v v.row v.col pix (evs.take k) = some A1)
    {F F1 : Feat} (hF : Annotated dist A (mines v).card pix F) (hF1 : Annotated dist A1 (mines v).card pix F1)
    {f : Feature} (hf : f = .highRiskGuess ∨ f = .jumpJudge ∨ f = .needlessGuess) :
    ∃ F' F1', F.run dist f = some F' ∧ F1.run dist f = some F1' ∧
      ∀ (i : Nat) r cs cs1, A1.recs[i]? = some r → F.comments[i]? = some cs → F1.comments[i]? = some cs1 →
        ∃ said, F'.comments[i]? = some (cs ++ said) ∧ F1'.comments[i]? = some (cs1 ++ said) := by
  have g1 := C97_good h h1
  rcases hf with rfl | rfl | rfl
  · obtain ⟨F', a1, a2⟩ := C56_high_risk h hF
    obtain ⟨F1', b1, b2⟩ := C56_high_risk g1 hF1
    refine ⟨F', F1', a1, b1, fun i r cs cs1 hr hc hc1 => ?_⟩
    obtain ⟨hr', hs⟩ := cut_risk h.toPlainVideo h1 hr
    refine ⟨_, a2 i r cs hr' hc, ?_⟩
    rw [b2 i r cs1 hr hc1]
    unfold Replay.risk
    rw [hs]
  · obtain ⟨F', a1, a2⟩ := C56_jump_judge h hF
    obtain ⟨F1', b1, b2⟩ := C56_jump_judge g1 hF1
    refine ⟨F', F1', a1, b1, fun i r cs cs1 hr hc hc1 => ?_⟩
    obtain ⟨hr', hs⟩ := cut_risk h.toPlainVideo h1 hr
    refine ⟨_, a2 i r cs hr' hc, ?_⟩
    rw [b2 i r cs1 hr hc1, hs]
  · obtain ⟨F', a1, a2⟩ := C56_needless_guess h hF
    obtain ⟨F1', b1, b2⟩ := C56_needless_guess g1 hF1
    refine ⟨F', F1', a1, b1, fun i r cs cs1 hr hc hc1 => ?_⟩
    obtain ⟨hr', hs⟩ := cut_risk h.toPlainVideo h1 hr
    refine ⟨_, a2 i r cs hr' hc, ?_⟩
    rw [b2 i r cs1 hr hc1]
    unfold Replay.risk
    rw [hs]

private theorem cut_pixel (h2 : A1.recs = A.recs.take k) {i : Nat} (hi : i < A1.recs.length) : pixelAt A1.recs i = pixelAt A.recs i := by
  have hk : i < k := by rw [h2, List.length_take] at hi; omega
  unfold pixelAt
  rw [h2, List.getElem?_take, if_pos hk]

private theorem cut_click (h2 : A1.recs = A.recs.take k) {i : Nat} : ClickAt A1.recs i ↔ i < k ∧ ClickAt A.recs i := by
  unfold ClickAt
  rw [h2]
  constructor
  · rintro ⟨r, hr, hc⟩
    rw [List.getElem?_take] at hr
    split at hr
    · exact ⟨by assumption, r, hr, hc⟩
    · cases hr
  · rintro ⟨hk, r, hr, hc⟩
    exact ⟨r, by rw [List.getElem?_take, if_pos hk]; exact hr, hc⟩

/-- **C97** `mouse_trace` says about an event of the cut video what it says about it in the whole video, or nothing: if the
next click has been cut off. -/
theorem C97_mouse_trace (h : GoodVideo dist v pix evs A) (h1 : analyse dist v v.row v.col pix (evs.take k) = some A1)
    (hd : ∀ p, dist p p = 0) (hd' : ∀ p q, 0 ≤ dist p q)
    {F F1 F' F1' : Feat} {n : Nat} (hF : Annotated dist A n pix F) (hF1 : Annotated dist A1 n pix F1)
    (hr : F.run dist .mouseTrace = some F') (hr1 : F1.run dist .mouseTrace = some F1') (j : Nat) (cs cs1 : List Comment)
    (hc : F.comments[j]? = some cs) (hc1 : F1.comments[j]? = some cs1) :
    F1'.comments[j]? = some cs1 ∨
      ∃ said, F'.comments[j]? = some (cs ++ said) ∧ F1'.comments[j]? = some (cs1 ++ said) := by
  obtain ⟨A1', e1, e2, -⟩ := C97_cut h.numbers h.analysed k
  rw [h1, Option.some.injEq] at e1
  subst e1
  obtain ⟨t1, t2⟩ := C57_mouse_trace hd hd' hF1
  obtain ⟨u1, u2⟩ := C57_mouse_trace hd hd' hF
  have hne1 : A1.recs ≠ [] := fun hh => by rw [t1 hh] at hr1; cases hr1
  have hne : A.recs ≠ [] := fun hh => by rw [u1 hh] at hr; cases hr
  obtain ⟨G1, g1, g2, g3⟩ := t2 hne1
  obtain ⟨G, k1, k2, -⟩ := u2 hne
  rw [g1, Option.some.injEq] at hr1
  rw [k1, Option.some.injEq] at hr
  subst hr hr1
  by_cases hm : ∃ m, Consecutive (ClickAt A1.recs) j m
  · right
    obtain ⟨m, hm⟩ := hm
    obtain ⟨m1, m2, m3, m4⟩ := hm
    obtain ⟨mk, m3'⟩ := (cut_click e2).mp m3
    have hmA : Consecutive (ClickAt A.recs) j m := by
      refine ⟨m1.imp id fun x => ((cut_click e2).mp x).2, m2, m3', fun l hl hl' hc => m4 l hl hl' ((cut_click e2).mpr ⟨by omega, hc⟩)⟩
    obtain ⟨rm, hrm, -⟩ := m3
    have hml := (List.getElem?_eq_some_iff.mp hrm).1
    refine ⟨_, k2 j m cs hmA hc, ?_⟩
    rw [g2 j m cs1 ⟨m1, m2, (cut_click e2).mpr ⟨mk, m3'⟩, m4⟩ hc1]
    have hw : wayLength dist A1.recs j m = wayLength dist A.recs j m := by
      unfold wayLength
      refine Finset.sum_congr rfl fun l hl => ?_
      obtain ⟨-, hl2⟩ := Finset.mem_Ico.mp hl
      rw [cut_pixel e2 (by omega), cut_pixel e2 (by omega)]
    rw [hw, cut_pixel e2 (show j < A1.recs.length by omega), cut_pixel e2 hml]
  · left
    rw [g3 j fun m hh => hm ⟨m, hh⟩, hc1]

private theorem cut_open (h2 : A1.recs = A.recs.take k) {i : Nat} : OpenAt A1.recs i ↔ i < k ∧ OpenAt A.recs i := by
  unfold OpenAt
  rw [h2]
  constructor
  · rintro ⟨r, hr, hc⟩
    rw [List.getElem?_take] at hr
    split at hr
    · exact ⟨by assumption, r, hr, hc⟩
    · cases hr
  · rintro ⟨hk, r, hr, hc⟩
    exact ⟨r, by rw [List.getElem?_take, if_pos hk]; exact hr, hc⟩

/-- **C97** `vision_transfer` too says about an event of the cut video what it says about it in the whole video, or nothing: if
the next opening has been cut off. -/
theorem C97_vision_transfer (h : GoodVideo dist v pix evs A) (h1 : analyse dist v v.row v.col pix (evs.take k) = some A1)
    {F F1 F' F1' : Feat} (hF : Annotated dist A (mines v).card pix F) (hF1 : Annotated dist A1 (mines v).card pix F1)
    (hr : F.run dist .visionTransfer = some F') (hr1 : F1.run dist .visionTransfer = some F1') (j : Nat) (cs cs1 : List Comment)
    (hc : F.comments[j]? = some cs) (hc1 : F1.comments[j]? = some cs1) :
    ((∀ m, ¬ Consecutive (OpenAt A1.recs) j m) → F1'.comments[j]? = some cs1) ∧
    ((∃ m, Consecutive (OpenAt A1.recs) j m) →
      ∃ said, F'.comments[j]? = some (cs ++ said) ∧ F1'.comments[j]? = some (cs1 ++ said)) := by
  classical
  obtain ⟨A1', e1, e2, -⟩ := C97_cut h.numbers h.analysed k
  rw [h1, Option.some.injEq] at e1
  subst e1
  obtain ⟨t1, t2⟩ := C57_vision_transfer (C97_good h h1) hF1
  obtain ⟨u1, u2⟩ := C57_vision_transfer h hF
  have hne1 : A1.recs ≠ [] := fun hh => by rw [t1 hh] at hr1; cases hr1
  have hne : A.recs ≠ [] := fun hh => by rw [u1 hh] at hr; cases hr
  obtain ⟨G1, g1, g2, g3⟩ := t2 hne1
  obtain ⟨G, k1, k2, -⟩ := u2 hne
  rw [g1, Option.some.injEq] at hr1
  rw [k1, Option.some.injEq] at hr
  subst hr hr1
  refine ⟨fun hno => by rw [g3 j hno, hc1], ?_⟩
  rintro ⟨m, hm⟩
  obtain ⟨m1, m2, m3, m4⟩ := hm
  obtain ⟨mk, m3'⟩ := (cut_open e2).mp m3
  have hmA : Consecutive (OpenAt A.recs) j m :=
    ⟨m1.imp id fun x => ((cut_open e2).mp x).2, m2, m3', fun l hl hl' hc => m4 l hl hl' ((cut_open e2).mpr ⟨by omega, hc⟩)⟩
  obtain ⟨rm, hrm, hrm2⟩ := m3
  have hml := (List.getElem?_eq_some_iff.mp hrm).1
  have hrj : A1.recs[j]? = some (A1.recs[j]'(by omega)) := List.getElem?_eq_getElem (by omega)
  obtain ⟨hjA, -⟩ := cut_risk h.toPlainVideo h1 hrj
  obtain ⟨hmA', hs⟩ := cut_risk h.toPlainVideo h1 hrm
  refine ⟨_, k2 j m _ rm cs hmA hjA hmA' hc, ?_⟩
  rw [g2 j m _ rm cs1 ⟨m1, m2, ⟨rm, hrm, hrm2⟩, m4⟩ hrj hrm hc1, hs]

private theorem prefix_tail {l1 l2 : List Rec} (h : l1 <+: l2) : l1.tail <+: l2.tail := by
  obtain ⟨t, rfl⟩ := h
  cases l1 with
  | nil => exact List.nil_prefix
  | cons a l => exact ⟨t, rfl⟩

private theorem prod_unit {l : List ℚ} (h : ∀ q ∈ l, 0 ≤ q ∧ q ≤ 1) : 0 ≤ l.prod ∧ l.prod ≤ 1 := by
  induction l with
  | nil => simp
  | cons a l ih =>
    obtain ⟨a1, a2⟩ := h a (by simp)
    obtain ⟨b1, b2⟩ := ih fun q hq => h q (by simp [hq])
    rw [List.prod_cons]
    exact ⟨mul_nonneg a1 b1, mul_le_one₀ a2 b1 b2⟩

/-- **C97** the chances that `survive_poss` multiplies in the cut video are the first ones of those it multiplies in the whole
video; the chance to have survived can only have got smaller since. -/
theorem C97_survive_poss (h : GoodVideo dist v pix evs A) (h1 : analyse dist v v.row v.col pix (evs.take k) = some A1)
    {F F1 F' F1' : Feat} (hF : Annotated dist A (mines v).card pix F) (hF1 : Annotated dist A1 (mines v).card pix F1)
    (hr : F.run dist .survivePoss = some F') (hr1 : F1.run dist .survivePoss = some F1') :
    ∃ fs fs1, F'.comments = F.comments.set (evs.length - 1) [.luck fs fs.prod] ∧
      F1'.comments = F1.comments.set ((evs.take k).length - 1) [.luck fs1 fs1.prod] ∧ fs1 <+: fs ∧ fs.prod ≤ fs1.prod := by
  obtain ⟨A1', e1, e2, -⟩ := C97_cut h.numbers h.analysed k
  rw [h1, Option.some.injEq] at e1
  subst e1
  obtain ⟨t1, t2⟩ := C56_survive (C97_good h h1) hF1
  obtain ⟨u1, u2⟩ := C56_survive h hF
  have hne1 : evs.take k ≠ [] := fun hh => by rw [t1 hh] at hr1; cases hr1
  have hne : evs ≠ [] := fun hh => by rw [u1 hh] at hr; cases hr
  obtain ⟨G1, fs1, g1, g2, g3⟩ := t2 hne1
  obtain ⟨G, fs, k1, k2, k3⟩ := u2 hne
  rw [g1, Option.some.injEq] at hr1
  rw [k1, Option.some.injEq] at hr
  subst hr hr1
  have hfs : fs1 = (A1.recs.filter fun r => decide (r.ev = .lr ∧ r.useful > 0)).tail.flatMap (fun r =>
        if 0 < A.risk (mines v).card pix r ∧ A.risk (mines v).card pix r < 1 then [1 - A.risk (mines v).card pix r] else []) := by
    rw [g2]
    refine List.flatMap_congr fun r hr => ?_
    obtain ⟨i, hi⟩ := List.mem_iff_getElem?.mp (List.mem_filter.mp (List.mem_of_mem_tail hr)).1
    have := (cut_risk h.toPlainVideo h1 hi).2
    unfold Replay.risk
    rw [this]
  have hpre : fs1 <+: fs := by
    rw [hfs, k2, e2]
    exact (prefix_tail (List.IsPrefix.filter _ (List.take_prefix k A.recs))).flatMap _
  refine ⟨fs, fs1, k3, g3, hpre, ?_⟩
  obtain ⟨t, ht⟩ := hpre
  have hall : ∀ q ∈ fs, 0 ≤ q ∧ q ≤ 1 := by
    intro q hq
    rw [k2] at hq
    obtain ⟨r, -, hq⟩ := List.mem_flatMap.mp hq
    split at hq
    · rename_i hc
      rw [List.mem_singleton] at hq
      subst hq
      exact ⟨by linarith [hc.2], by linarith [hc.1]⟩
    · cases hq
  have hp1 := (prod_unit fun q hq => hall q (by rw [← ht]; exact List.mem_append_left _ hq) : 0 ≤ fs1.prod ∧ fs1.prod ≤ 1).1
  have hp2 := (prod_unit fun q hq => hall q (by rw [← ht]; exact List.mem_append_right _ hq) : 0 ≤ t.prod ∧ t.prod ≤ 1).2
  rw [← ht, List.prod_append]
  exact mul_le_of_le_one_right hp1 hp2

section runs
variable (hrec : A1.recs = A.recs.take k)
  (hcut : ∀ (i : Nat) (r : Rec), A1.recs[i]? = some r → A.recs[i]? = some r ∧ A.stream.getD r.prior [] = A1.stream.getD r.prior [])
include hrec

private theorem cut_rec {i : Nat} {r : Rec} : A1.recs[i]? = some r ↔ i < k ∧ A.recs[i]? = some r := by
  rw [hrec, List.getElem?_take]
  split <;> simp_all

private theorem cut_noMove {i : Nat} : NoMove A1.recs i ↔ i < k ∧ NoMove A.recs i := by
  simp only [NoMove, cut_rec hrec, and_assoc, exists_and_left]

omit hrec in
private theorem cut_consecutive {mk mk1 : Nat → Prop} (hm : ∀ i, mk1 i ↔ i < k ∧ mk i) {j m : Nat} :
    Consecutive mk1 j m ↔ m < k ∧ Consecutive mk j m := by
  unfold Consecutive
  constructor
  · rintro ⟨a, b, c, d⟩
    have := ((hm m).mp c).1
    exact ⟨this, a.imp id fun x => ((hm j).mp x).2, b, ((hm m).mp c).2, fun l l1 l2 l3 => d l l1 l2 ((hm l).mpr ⟨by omega, l3⟩)⟩
  · rintro ⟨e, a, b, c, d⟩
    exact ⟨a.imp id fun x => (hm j).mpr ⟨by omega, x⟩, b, (hm m).mpr ⟨e, c⟩, fun l l1 l2 l3 => d l l1 l2 ((hm l).mp l3).2⟩

private theorem cut_far {i : Nat} : FarStep A1 pix i ↔ i < k ∧ FarStep A pix i := by
  unfold FarStep
  constructor
  · rintro ⟨l, r, q, a, b, c, d⟩
    obtain ⟨a1, a2⟩ := (cut_consecutive fun i => cut_noMove hrec).mp a
    exact ⟨a1, l, r, q, a2, ((cut_rec hrec).mp b).2, ((cut_rec hrec).mp c).2, d⟩
  · rintro ⟨a1, l, r, q, a2, b, c, d⟩
    exact ⟨l, r, q, (cut_consecutive fun i => cut_noMove hrec).mpr ⟨a1, a2⟩, (cut_rec hrec).mpr ⟨a1, b⟩,
      (cut_rec hrec).mpr ⟨by have := a2.2.1; omega, c⟩, d⟩

include hcut

private theorem cut_flag {i : Nat} : FlagStep A1 pix i ↔ i < k ∧ FlagStep A pix i := by
  unfold FlagStep
  constructor
  · rintro ⟨r, a, b⟩
    rw [← (hcut i r a).2] at b
    exact ⟨((cut_rec hrec).mp a).1, r, ((cut_rec hrec).mp a).2, b⟩
  · rintro ⟨hk, r, a, b⟩
    have a1 := (cut_rec hrec).mpr ⟨hk, a⟩
    exact ⟨r, a1, by rw [← (hcut i r a1).2]; exact b⟩

private theorem cut_chord {i : Nat} : ChordStep A1 pix i ↔ i < k ∧ ChordStep A pix i := by
  unfold ChordStep
  constructor
  · rintro ⟨r, a, b⟩
    rw [← (hcut i r a).2] at b
    exact ⟨((cut_rec hrec).mp a).1, r, ((cut_rec hrec).mp a).2, b⟩
  · rintro ⟨hk, r, a, b⟩
    have a1 := (cut_rec hrec).mpr ⟨hk, a⟩
    exact ⟨r, a1, by rw [← (hcut i r a1).2]; exact b⟩

private theorem cut_break {i : Nat} : BreakStep A1 pix i ↔ i < k ∧ BreakStep A pix i := by
  unfold BreakStep
  constructor
  · rintro ⟨l, r, q, a, b, c, d⟩
    obtain ⟨a1, a2⟩ := (cut_consecutive fun i => cut_noMove hrec).mp a
    rw [← (hcut i r b).2] at d
    exact ⟨a1, l, r, q, a2, ((cut_rec hrec).mp b).2, ((cut_rec hrec).mp c).2, d⟩
  · rintro ⟨a1, l, r, q, a2, b, c, d⟩
    have b1 := (cut_rec hrec).mpr ⟨a1, b⟩
    exact ⟨l, r, q, (cut_consecutive fun i => cut_noMove hrec).mpr ⟨a1, a2⟩, b1,
      (cut_rec hrec).mpr ⟨by have := a2.2.1; omega, c⟩, by rw [← (hcut i r b1).2]; exact d⟩

private theorem cut_endAt {a i : Nat} : EndAt A1 pix a i ↔ i < k ∧ EndAt A pix a i := by
  unfold EndAt
  rw [cut_break hrec hcut, cut_far hrec]
  simp only [cut_flag hrec hcut, cut_chord hrec hcut]
  constructor
  · rintro (⟨h1, h2⟩ | ⟨⟨h1, h2⟩, b, b1, b2, b3⟩)
    · exact ⟨h1, .inl h2⟩
    · exact ⟨h1, .inr ⟨h2, b, b1, b2, b3.imp And.right And.right⟩⟩
  · rintro ⟨h1, h2 | ⟨h2, b, b1, b2, b3⟩⟩
    · exact .inl ⟨h1, h2⟩
    · exact .inr ⟨⟨h1, h2⟩, b, b1, b2, b3.imp (fun x => ⟨by omega, x⟩) fun x => ⟨by omega, x⟩⟩

private theorem cut_ends {a i : Nat} : RunEnds A1 pix a i ↔ i < k ∧ RunEnds A pix a i := by
  unfold RunEnds
  simp only [cut_endAt hrec hcut]
  constructor
  · rintro ⟨h1, ⟨h2, h3⟩, h4⟩
    exact ⟨h2, h1, h3, fun l l1 l2 l3 => h4 l l1 l2 ⟨by omega, l3⟩⟩
  · rintro ⟨h2, h1, h3, h4⟩
    exact ⟨h1, ⟨h2, h3⟩, fun l l1 l2 l3 => h4 l l1 l2 l3.2⟩

private theorem cut_begins {a : Nat} : RunBegins A1 pix a ↔ a < k ∧ RunBegins A pix a := by
  constructor
  · intro h
    induction h with
    | first h1 h2 h3 =>
      obtain ⟨hk, h2⟩ := (cut_flag hrec hcut).mp h2
      exact ⟨hk, .first h1 h2 fun l l1 l2 l3 => h3 l l1 l2 ((cut_flag hrec hcut).mpr ⟨by omega, l3⟩)⟩
    | next _ h2 h3 h4 h5 ih =>
      obtain ⟨hk, h4⟩ := (cut_flag hrec hcut).mp h4
      exact ⟨hk, .next ih.2 ((cut_ends hrec hcut).mp h2).2 h3 h4 fun l l1 l2 l3 =>
        h5 l l1 l2 ((cut_flag hrec hcut).mpr ⟨by omega, l3⟩)⟩
  · rintro ⟨hk, h⟩
    induction h with
    | first h1 h2 h3 =>
      exact .first h1 ((cut_flag hrec hcut).mpr ⟨hk, h2⟩) fun l l1 l2 l3 => h3 l l1 l2 ((cut_flag hrec hcut).mp l3).2
    | next _ h2 h3 h4 h5 ih =>
      have := h2.1
      exact .next (ih (by omega)) ((cut_ends hrec hcut).mpr ⟨by omega, h2⟩) h3 ((cut_flag hrec hcut).mpr ⟨hk, h4⟩)
        fun l l1 l2 l3 => h5 l l1 l2 ((cut_flag hrec hcut).mp l3).2

private theorem cut_count {a e : Nat} (he : e < k) : stepCount A1 pix a e = stepCount A pix a e := by
  classical
  unfold stepCount
  congr 1
  refine Finset.filter_congr fun l hl => ?_
  have := (Finset.mem_Icc.mp hl).2
  rw [cut_flag hrec hcut, cut_chord hrec hcut]
  exact or_congr (and_iff_right (by omega)) (and_iff_right (by omega))

private theorem cut_run {a n : Nat} (h : FLRun A1 pix a n) : FLRun A pix a n := by
  obtain ⟨h1, i, e, h2, ⟨e', e1, e2, e3, e4⟩, h4, h5, h6, h7, h8⟩ := h
  obtain ⟨hk, h2⟩ := (cut_ends hrec hcut).mp h2
  refine ⟨((cut_begins hrec hcut).mp h1).2, i, e, h2, ⟨e', e1, e2, ((cut_chord hrec hcut).mp e3).2, ?_⟩, h4, h5,
    ((cut_chord hrec hcut).mp h6).2, fun l l1 l2 l3 => h7 l l1 l2 ((cut_chord hrec hcut).mpr ⟨by omega, l3⟩), ?_⟩
  · rw [← cut_count hrec hcut (by omega)]; exact e4
  · rw [← cut_count hrec hcut (by omega)]; exact h8

end runs

/-- **C97** `super_fl_local` too says about an event of the cut video what it says about it in the whole video, or nothing; and what
makes it panic on the cut video makes it panic on the whole one. -/
theorem C97_super_fl (h : PlainVideo dist v pix evs A) (h1 : analyse dist v v.row v.col pix (evs.take k) = some A1)
    {F F1 F' : Feat} {n n1 : Nat} (hF : Annotated dist A n pix F) (hF1 : Annotated dist A1 n1 pix F1)
    (hr : F.run dist .superFLLocal = some F') :
    ∃ F1', F1.run dist .superFLLocal = some F1' ∧ ∀ (j : Nat) (cs cs1 : List Comment),
      F.comments[j]? = some cs → F1.comments[j]? = some cs1 → F1'.comments[j]? = some cs1 ∨
        ∃ said, F'.comments[j]? = some (cs ++ said) ∧ F1'.comments[j]? = some (cs1 ++ said) := by
  obtain ⟨A1', e1, e2, -⟩ := C97_cut h.numbers h.analysed k
  rw [h1, Option.some.injEq] at e1
  subst e1
  have hcut : ∀ (i : Nat) (r : Rec), A1.recs[i]? = some r → A.recs[i]? = some r ∧ A.stream.getD r.prior [] = A1.stream.getD r.prior [] :=
    fun i r hi => cut_risk h h1 hi
  obtain ⟨t1, t2⟩ := C58_super_fl ⟨h.numbers, h.row, h.pixPos, h1⟩ hF1
  obtain ⟨u1, u2⟩ := C58_super_fl h hF
  have hok : F1.run dist .superFLLocal ≠ none := by
    intro hno
    obtain ⟨i, r, hi, hri, hp⟩ := t1.mp hno
    obtain ⟨hrA, hs⟩ := hcut i r hri
    have : F.run dist .superFLLocal = none := by
      refine u1.mpr ⟨i, r, hi, hrA, hp.imp (fun hp => ?_) fun hp => ?_⟩
      · unfold FLPanic at hp ⊢
        rw [hs]; exact hp
      · obtain ⟨l, r', q, a, b, c, d⟩ := hp
        obtain ⟨-, a⟩ := (cut_consecutive fun i => cut_noMove e2).mp a
        exact ⟨l, r', q, a, (hcut _ _ b).1, (hcut _ _ c).1, d⟩
    rw [this] at hr; cases hr
  obtain ⟨F1', hr1⟩ := Option.ne_none_iff_exists'.mp hok
  refine ⟨F1', hr1, fun j cs cs1 hc hc1 => ?_⟩
  obtain ⟨a1, a2⟩ := t2 F1' hr1 j cs1 hc1
  obtain ⟨b1, -⟩ := u2 F' hr j cs hc
  by_cases hm : ∃ n, FLRun A1 pix j n
  · obtain ⟨n, hn⟩ := hm
    exact .inr ⟨_, b1 n (cut_run e2 hcut hn), a1 n hn⟩
  · exact .inl (a2 fun n hn => hm ⟨n, hn⟩)

/-! ### an example -/

/-- A video of a game with flags and chords, and the same cut off after 14 events: fewer events and fewer boards, but the
game has begun in both. -/
example : ((analyse taxi flBoard.view 4 5 10 (flEvents false)).bind fun A =>
      (analyse taxi flBoard.view 4 5 10 ((flEvents false).take 14)).map fun A1 =>
        (decide (A1.recs.length < A.recs.length), decide (A1.stream.length < A.stream.length), A1.recs.any fun r => decide (2 ≤ r.useful),
          decide (A1.delta = A.delta))) = some (true, true, true, true) := by decide +kernel

/-- The run of flags in it is reported in the whole video of 16 events, the last of which ends the run, and not when that is cut
off. -/
example : ([16, 15].map fun k => (analyse taxi flBoard.view 4 5 10 ((flEvents false).take k)).bind fun A =>
      ((A.feat 5 10).run taxi .superFLLocal).map fun F => F.comments[2]?) =
    [some (some [.superFL 5]), some (some [])] := by decide +kernel

/-- A video without risks: the chances multiplied are none in either, and both analyses return. -/
example : ([16, 9].map fun k => (analyse taxi flBoard.view 4 5 10 ((flEvents false).take k)).bind fun A =>
      ((A.feat 5 10).run taxi .survivePoss).map fun F => F.comments[k - 1]?) =
    [some (some [.luck [] 1]), some (some [.luck [] 1])] := by decide +kernel

/-- A move of 112 pixels and more away from a safe cell is blamed on the second event of the video, and not when the opening that ends
it is cut off. -/
example : ([4, 3].map fun k => (analyse taxi strideBoard.view 4 8 20 ((strideEvents 20).take k)).bind fun A =>
      ((A.feat 2 20).run taxi .visionTransfer).map fun F => F.comments[1]?) =
    [some (some [.transfer]), some (some [])] := by decide +kernel

end Ms.Properties
