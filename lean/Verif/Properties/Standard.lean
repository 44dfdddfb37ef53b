import Verif.SpecStandard
import Verif.Lemmas.EvfLayout
import Verif.Properties.Evf

/-! # C84: EVF files and the published standard -/

namespace Ms.Properties
open Ms Ms.Spec Ms.Evf

/-- **C84** A file is accepted exactly when it is laid out like version 0.2 of the standard - with any version number, any
low bits in the summary, any kinds of operations except 0 and 255 - and has at least one row; and then the video says what
the file says (kinds beyond 9 come out as "ub"), the three flags are the highest bits of the summary, bytes after the end
are left, and the level is that of the three standard sizes or custom. -/
theorem C84_accepts (bs r : Bytes) (hbs : ∀ b ∈ bs, b < 256) (out : Parsed) : parseVideo bs = .ok (out, r) ↔
    ∃ (ver sum : Nat) (f : StdVideo) (bm : Bytes), 0 < f.height ∧ f.Fits 255 ∧ Bitmap f.height f.width f.mine bm ∧
      (f.completed, f.official, f.fair) = (sum.testBit 7, sum.testBit 6, sum.testBit 5) ∧
      bs = [ver, sum] ++ f.body (f.texts ++ [f.uuid]) bm ++ r ∧
      Told f out ∧ out.strs.deviceUuid = f.uuid ∧
      out.level = (if f.height = 8 ∧ f.width = 8 ∧ f.mineNum = 10 then 3
        else if f.height = 16 ∧ f.width = 16 ∧ f.mineNum = 40 then 4
        else if f.height = 16 ∧ f.width = 30 ∧ f.mineNum = 99 then 5 else 6) :=
  parseVideo_iff hbs

theorem told_exists {f : StdVideo} (hh : 0 < f.height) : ∃ out, Told f out ∧ out.strs.deviceUuid = f.uuid ∧
    out.level = levelOf f.height f.width f.mineNum := by
  let b0 : Board := Board.build f.height f.width fun i j => if f.mine i j then -1 else 0
  have hR0 : Rect b0 f.height f.width := rect_build _ _ _
  have hval : ∀ p ∈ vcells b0.view, val b0.view p = 0 ∨ val b0.view p = -1 := by
    intro p hp
    have hp' : p.1 < f.height ∧ p.2 < f.width := by
      simpa [vcells, grid, Board.view, hR0.row_eq, hR0.col_eq hh] using hp
    show b0.get p.1 p.2 = 0 ∨ b0.get p.1 p.2 = -1
    rw [get_build _ hp'.1 hp'.2]
    split
    · right; rfl
    · left; rfl
  obtain ⟨b, c1, c2, c3, c4, -⟩ := C03_cal_board_numbers b0 _ _ hh hR0 hval
  refine ⟨⟨⟨f.completed, f.official, f.fair, f.height, f.width, f.mineNum, f.pixel, f.mode, f.bbbv, f.rtime⟩, _,
    ⟨f.software, f.player, f.race, f.unique, f.startTime, f.endTime, f.country, f.uuid⟩, b,
    f.events.map fun e => ⟨e.ms, stdNames.getD (e.code - 1) "ub", e.x, e.y⟩, f.checksum.getD (List.replicate 32 0)⟩,
    ⟨rfl, rfl, rfl, rfl, ⟨c2, c4, ?_⟩, rfl, rfl⟩, rfl, rfl⟩
  intro i j hi hj
  have e1 : (i, j) ∈ mines b.view ↔ b.get i j = -1 := by
    simp [mines, vcells, grid, Board.view, c2.row_eq, c2.col_eq hh, val, hi, hj]
  have e2 : (i, j) ∈ mines b0.view ↔ b0.get i j = -1 := by
    simp [mines, vcells, grid, Board.view, hR0.row_eq, hR0.col_eq hh, val, hi, hj]
  show b.get i j = -1 ↔ _
  rw [← e1, c3, e2, get_build _ hi hj]
  split <;> simp_all

theorem bytes_big2 {n : Nat} (h : n < 65536) : ∀ b ∈ big2 n, b < 256 := by
  intro b hb
  simp only [big2, List.mem_cons, List.not_mem_nil, or_false] at hb
  omega

theorem bytes_big3 {n : Nat} (h : n < 16777216) : ∀ b ∈ big3 n, b < 256 := by
  intro b hb
  simp only [big3, List.mem_cons, List.not_mem_nil, or_false] at hb
  omega

theorem _root_.Ms.Spec.StdVideo.Fits.bytes {f : StdVideo} {n : Nat} (hn : n ≤ 256) (hf : f.Fits n) {ts : List Bytes}
    (hts : ∀ t ∈ ts, t ∈ f.uuid :: f.texts) {bm : Bytes} (hbm : ∀ b ∈ bm, b < 256) : ∀ b ∈ f.body ts bm, b < 256 := by
  intro b hb
  unfold StdVideo.body at hb
  simp only [List.mem_append] at hb
  rcases hb with (((hb | hb) | hb) | hb) | hb
  · unfold StdVideo.numbers at hb
    simp only [List.mem_append, List.mem_cons, List.not_mem_nil, or_false] at hb
    obtain ⟨s1, s2, s3⟩ := hf.sizes
    rcases hb with (((((rfl | rfl) | hb) | rfl) | hb) | hb) | hb
    · exact s1
    · exact s2
    · exact bytes_big2 hf.words.1 b hb
    · exact s3
    · exact bytes_big2 hf.words.2.1 b hb
    · exact bytes_big2 hf.words.2.2.1 b hb
    · exact bytes_big3 hf.words.2.2.2 b hb
  · unfold zeroEnded at hb
    obtain ⟨t, ht, hbt⟩ := List.mem_flatMap.mp hb
    simp only [List.mem_append, List.mem_cons, List.not_mem_nil, or_false] at hbt
    rcases hbt with hbt | rfl
    · exact (hf.texts t (hts t ht) b hbt).2
    · omega
  · exact hbm b hb
  · obtain ⟨e, he, hbe⟩ := List.mem_flatMap.mp hb
    obtain ⟨e1, e2, e3, e4, e5⟩ := hf.events e he
    unfold StdEvent.bytes at hbe
    simp only [List.mem_append, List.mem_cons, List.not_mem_nil, or_false] at hbe
    rcases hbe with ((rfl | hbe) | hbe) | hbe
    · omega
    · exact bytes_big3 e3 b hbe
    · exact bytes_big2 e4 b hbe
    · exact bytes_big2 e5 b hbe
  · unfold StdVideo.ending at hb
    cases hc : f.checksum with
    | none => rw [hc] at hb; simp at hb; omega
    | some c =>
      rw [hc] at hb
      simp only [List.mem_cons] at hb
      rcases hb with rfl | hb
      · omega
      · exact (hf.checksum c hc).2 b hb

theorem summary_bits (f : StdVideo) (ver : Nat) : f.summary ver < 256 ∧
    (f.completed, f.official, f.fair) = ((f.summary ver).testBit 7, (f.summary ver).testBit 6, (f.summary ver).testBit 5) := by
  unfold StdVideo.summary
  by_cases h : 1 ≤ ver
  · rw [if_pos h]
    generalize f.completed = a, f.official = b, f.fair = c, f.nf = d
    revert a b c d
    decide
  · rw [if_neg h]
    generalize f.completed = a, f.official = b, f.fair = c
    revert a b c
    decide

theorem fits_mono {f : StdVideo} {m n : Nat} (h : m ≤ n) (hf : f.Fits m) : f.Fits n :=
  ⟨hf.sizes, hf.words, hf.texts, fun e he => ⟨(hf.events e he).1, by have := (hf.events e he).2.1; omega,
    (hf.events e he).2.2⟩, hf.checksum⟩

/-- **C84** Every file of version 0.2 with at least one row, whatever bytes come after it, is read, and the video says what
the file says, the uuid included. -/
theorem C84_reads_v2 (f : StdVideo) (bs r : Bytes) (hh : 0 < f.height) (hf : Std 2 f bs) (hr : ∀ b ∈ r, b < 256) :
    ∃ out, parseVideo (bs ++ r) = .ok (out, r) ∧ Told f out ∧ out.strs.deviceUuid = f.uuid := by
  obtain ⟨hfit, bm, hbm, e⟩ := hf
  obtain ⟨out, t1, t2, t3⟩ := told_exists hh
  refine ⟨out, ?_, t1, t2⟩
  have e' : bs = [2, f.summary 2] ++ f.body (f.texts ++ [f.uuid]) bm := e
  have hb : ∀ b ∈ bs ++ r, b < 256 := by
    intro b hb
    rw [e'] at hb
    simp only [List.mem_append, List.mem_cons, List.not_mem_nil, or_false] at hb
    rcases hb with ((rfl | rfl) | hb) | hb
    · omega
    · exact (summary_bits f 2).1
    · refine hfit.bytes (by omega) ?_ hbm.2.1 b hb
      intro t ht
      simp only [List.mem_append, List.mem_cons, List.not_mem_nil, or_false] at ht ⊢
      tauto
    · exact hr b hb
  exact (parseVideo_iff hb).mpr ⟨2, f.summary 2, f, bm, hh, fits_mono (by omega) hfit, hbm, (summary_bits f 2).2,
    by rw [e'], t1, t2, t3⟩

/-! ## the other versions -/

theorem stdNames_inj {a b : Nat} (ha : a < 9) (h : stdNames.getD a "ub" = stdNames.getD b "ub") : a = b := by
  by_cases hb : b < 9
  · have : ∀ a < 9, ∀ b < 9, stdNames.getD a "ub" = stdNames.getD b "ub" → a = b := by decide
    exact this a ha b hb h
  · have h1 : stdNames.getD b "ub" = "ub" := by
      rw [List.getD_eq_getElem?_getD, List.getElem?_eq_none (by show 9 ≤ b; omega)]
      rfl
    have : ∀ a < 9, stdNames.getD a "ub" ≠ "ub" := by decide
    exact absurd (h.trans h1) (this a ha)

theorem events_inj : ∀ (es es' : List StdEvent), (∀ e ∈ es, 1 ≤ e.code ∧ e.code < 10) → (∀ e ∈ es', 1 ≤ e.code) →
    es.map stdRead = es'.map stdRead → es = es' := by
  intro es
  induction es with
  | nil =>
    intro es' _ _ h
    cases es' with
    | nil => rfl
    | cons e es' => cases h
  | cons e es ih =>
    intro es' h1 h2 h
    cases es' with
    | nil => cases h
    | cons e' es' =>
      simp only [List.map_cons, List.cons.injEq] at h
      simp only [List.forall_mem_cons] at h1 h2
      obtain ⟨k1, k2⟩ := h
      rw [ih es' h1.2 h2.2 k2]
      simp only [stdRead, Event.mk.injEq] at k1
      have hc : e.code = e'.code := by
        have := stdNames_inj (by omega) k1.2.1
        omega
      obtain ⟨c, m, x, y⟩ := e
      obtain ⟨c', m', x', y'⟩ := e'
      simp only at hc k1
      rw [hc, k1.1, k1.2.2.1, k1.2.2.2]

theorem told_agree {f f' : StdVideo} {out : Parsed} (hf : f.Fits 10) (hf' : f'.Fits 255) (h : Told f out) (h' : Told f' out) :
    f.numbers = f'.numbers ∧ f.texts = f'.texts ∧ f.events = f'.events ∧ f.height = f'.height ∧ f.width = f'.width ∧
      f.checksum.getD (List.replicate 32 0) = f'.checksum.getD (List.replicate 32 0) := by
  have h2 := h.sizes.symm.trans h'.sizes
  have h3 := h.words.symm.trans h'.words
  simp only [Prod.mk.injEq] at h2 h3
  refine ⟨?_, h.texts.symm.trans h'.texts, ?_, h2.1, h2.2.1, h.checksum.symm.trans h'.checksum⟩
  · unfold StdVideo.numbers
    rw [h2.1, h2.2.1, h2.2.2.1, h2.2.2.2, h3.1, h3.2.1, h3.2.2]
  · exact events_inj _ _ (fun e he => ⟨(hf.events e he).1, (hf.events e he).2.1⟩) (fun e he => (hf'.events e he).1)
      (h.events.symm.trans h'.events)

theorem const_of_shift {s : Nat} : ∀ {A X Y : Bytes}, s :: A ++ X = A ++ Y → ∀ a ∈ A, a = s := by
  intro A
  induction A generalizing s with
  | nil => intro _ _ _ a ha; cases ha
  | cons b A ih =>
    intro X Y h a ha
    simp only [List.cons_append, List.cons.injEq] at h
    obtain ⟨rfl, h⟩ := h
    rcases List.mem_cons.mp ha with rfl | ha
    · rfl
    · exact ih h a ha

theorem zeroEnded_append (a b : List Bytes) : zeroEnded (a ++ b) = zeroEnded a ++ zeroEnded b := by
  unfold zeroEnded
  rw [List.flatMap_append]

theorem zeroEnded_one (t : Bytes) : zeroEnded [t] = t ++ [0] := by simp [zeroEnded]

/-- **C84** (finding) Files of the other versions are not understood: a file of version 0.0, 0.1 or 0.3 is either refused or
read as something else than what it says. -/
theorem C84_reads_no_other (ver : Nat) (hv : ver = 0 ∨ ver = 1 ∨ ver = 3) (f : StdVideo) (bs : Bytes) (hh : 0 < f.height)
    (hf : Std ver f bs) (out : Parsed) (r : Bytes) (hp : parseVideo bs = .ok (out, r)) : ¬ Told f out := by
  intro htold
  have hset : f.settings < 256 := by
    unfold StdVideo.settings
    generalize f.noMarks = a, f.confined = b, f.restart = c
    revert a b c
    decide
  obtain ⟨hfit, bm, hbm, e⟩ := hf
  have hb : ∀ b ∈ bs, b < 256 := by
    intro b hb
    rw [e] at hb
    simp only [List.mem_append, List.mem_cons, List.not_mem_nil, or_false] at hb
    rcases hb with ((rfl | rfl) | hb) | hb
    · omega
    · exact (summary_bits f _).1
    · split at hb
      · simp only [List.mem_cons, List.not_mem_nil, or_false] at hb
        omega
      · cases hb
    · refine hfit.bytes (by omega) ?_ hbm.2.1 b hb
      intro t ht
      simp only [List.mem_append, List.mem_cons] at ht ⊢
      rcases ht with ht | ht
      · exact .inr ht
      · split at ht
        · simp only [List.mem_cons, List.not_mem_nil, or_false] at ht
          exact .inl ht
        · cases ht
  obtain ⟨ver', sum', f', bm', -, hfit', hbm', -, e', htold', -, -⟩ := (parseVideo_iff hb).mp hp
  obtain ⟨a1, a2, a3, a4, a5, a6⟩ := told_agree hfit hfit' htold htold'
  rw [e] at e'
  unfold StdVideo.body at e'
  rw [zeroEnded_append f'.texts, zeroEnded_one, ← a1, ← a2, ← a3] at e'
  by_cases h3 : ver = 3
  · rw [if_pos h3, zeroEnded_append] at e'
    simp only [List.cons_append, List.nil_append, List.cons.injEq, List.append_assoc] at e'
    have e2 := e'.2.2
    rw [← List.append_assoc f.numbers, ← List.append_assoc f.numbers] at e2
    have hall := const_of_shift e2
    have h0 : (0 : Nat) = f.settings := by
      refine hall 0 ?_
      simp [zeroEnded, StdVideo.texts]
    have h1 : f.height = f.settings := hall _ (by simp [StdVideo.numbers])
    omega
  · have hver : ¬ 2 ≤ ver := by omega
    rw [if_neg h3, if_neg hver, List.append_nil, List.append_nil] at e'
    simp only [List.cons_append, List.nil_append, List.cons.injEq, List.append_assoc, List.append_cancel_left_eq] at e'
    have e2 := e'.2.2
    have hlen : bm.length = bm'.length := by rw [hbm.1, hbm'.1, a4, a5]
    have hl := congrArg List.length e2
    simp only [List.length_append, List.length_cons] at hl
    cases hc : f.checksum with
    | none =>
      have h1 : f.ending.length = 1 := by unfold StdVideo.ending; rw [hc]; rfl
      have h2 : 1 ≤ f'.ending.length := by unfold StdVideo.ending; cases f'.checksum <;> simp
      omega
    | some c =>
      have hcl := (hfit.checksum c hc).1
      have h1 : f.ending.length = 33 := by unfold StdVideo.ending; rw [hc]; simp [hcl]
      cases hc' : f'.checksum with
      | some c' =>
        have hcl' := (hfit'.checksum c' hc').1
        have h2 : f'.ending.length = 33 := by unfold StdVideo.ending; rw [hc']; simp [hcl']
        omega
      | none =>
        have h2 : f'.ending = [255] := by unfold StdVideo.ending; rw [hc']
        rw [h2] at hl
        rw [hc, hc'] at a6
        simp only [Option.getD_some, Option.getD_none] at a6
        have hz : ∀ b ∈ f.ending, b = 0 := by
          unfold StdVideo.ending
          rw [hc, a6]
          intro b hb
          simp only [List.mem_cons, List.mem_replicate] at hb
          omega
        have hdrop := congrArg (List.drop (bm.length + (f.events.flatMap StdEvent.bytes).length)) e2
        rw [← List.append_assoc, List.drop_left' (by simp)] at hdrop
        have hmem : 255 ∈ f.ending := by
          rw [hdrop, h2]
          have e3 : f'.uuid ++ 0 :: (bm' ++ (f.events.flatMap StdEvent.bytes ++ ([255] ++ r))) =
              (f'.uuid ++ 0 :: (bm' ++ f.events.flatMap StdEvent.bytes)) ++ 255 :: r := by simp
          rw [e3, List.drop_append_of_le_length (by simp; omega)]
          simp
        have := hz _ hmem
        omega

/-! ## writing -/

theorem or_one_lt {a : Nat} (h : a < 256) : a ||| 1 < 256 := Nat.or_lt_two_pow (n := 8) h (by omega)

theorem pack_bytes (ms : List Bool) : ∀ st : Bytes × Nat × Nat, (∀ b ∈ st.1, b < 256) →
    ∀ b ∈ (ms.foldl packCell st).1, b < 256 := by
  induction ms with
  | nil => intro st h; exact h
  | cons m ms ih =>
    intro st h
    refine ih _ ?_
    unfold packCell
    have hx : (if m = true then st.2.1 * 2 % 256 ||| 1 else st.2.1 * 2 % 256) < 256 := by
      have : st.2.1 * 2 % 256 < 256 := Nat.mod_lt _ (by omega)
      split
      · exact or_one_lt this
      · exact this
    simp only
    split
    · intro b hb
      simp only [List.mem_append, List.mem_cons, List.not_mem_nil, or_false] at hb
      rcases hb with hb | rfl
      · exact h b hb
      · exact hx
    · exact h

theorem genBoard_bytes (h w : Nat) (f : Nat → Nat → Int) : ∀ b ∈ genBoard h w f, b < 256 := by
  unfold genBoard
  have := pack_bytes ((cells h w).map fun p => decide (f p.1 p.2 = -1)) ([], 0, 0) (by simp)
  simp only
  split
  · intro b hb
    simp only [List.mem_append, List.mem_cons, List.not_mem_nil, or_false] at hb
    rcases hb with hb | rfl
    · exact this b hb
    · exact Nat.mod_lt _ (by omega)
  · exact this

theorem genBoard_bitmap {h w : Nat} (hh : 0 < h) (f : Nat → Nat → Int) :
    Bitmap h w (fun i j => decide (f i j = -1)) (genBoard h w f) := by
  let b0 : Board := Board.build h w fun i j => if f i j = -1 then -1 else 0
  have hR0 : Rect b0 h w := rect_build _ _ _
  have hval : ∀ p ∈ vcells b0.view, val b0.view p = 0 ∨ val b0.view p = -1 := by
    intro p hp
    have hp' : p.1 < h ∧ p.2 < w := by
      simpa [vcells, grid, Board.view, hR0.row_eq, hR0.col_eq hh] using hp
    show b0.get p.1 p.2 = 0 ∨ b0.get p.1 p.2 = -1
    rw [get_build _ hp'.1 hp'.2]
    split
    · right; rfl
    · left; rfl
  obtain ⟨b, c1, c2, c3, c4, -⟩ := C03_cal_board_numbers b0 _ _ hh hR0 hval
  have hg : getBoard h w (genBoard h w f ++ []) = .ok (b, []) := by
    obtain ⟨x, y, k1, k2⟩ := bitmap_round h w f []
    unfold getBoard
    rw [bind_ok k1]
    show (match calBoardNumbers x with | some b => pure b | none => P.fail .panic) _ = _
    rw [k2, c1]
    rfl
  rw [List.append_nil] at hg
  obtain ⟨bm, mine, g1, g2, -, -, g3⟩ := (getBoard_iff hh (genBoard_bytes h w f)).mp hg
  rw [List.append_nil] at g2
  rw [g2]
  refine ⟨g1.1, g1.2.1, fun i j hi hj => (g1.2.2 i j hi hj).trans ?_⟩
  have e1 : (i, j) ∈ mines b.view ↔ b.get i j = -1 := by
    simp [mines, vcells, grid, Board.view, c2.row_eq, c2.col_eq hh, val, hi, hj]
  have e2 : (i, j) ∈ mines b0.view ↔ b0.get i j = -1 := by
    simp [mines, vcells, grid, Board.view, hR0.row_eq, hR0.col_eq hh, val, hi, hj]
  have := g3 i j hi hj
  rw [← e1, c3, e2, get_build _ hi hj] at this
  show mine i j = decide (f i j = -1)
  by_cases hf : f i j = -1
  · rw [if_pos hf] at this
    rw [decide_eq_true hf]
    exact this.mp rfl
  · rw [if_neg hf] at this
    rw [decide_eq_false hf]
    cases hm : mine i j with
    | false => rfl
    | true => exact absurd (this.mpr hm) (by decide)

theorem codeOf_std {m : String} (h : m ∈ stdNames) : codeOf m = stdNames.idxOf m + 1 ∧ stdNames.idxOf m < 9 := by
  have : ∀ m ∈ stdNames, codeOf m = stdNames.idxOf m + 1 ∧ stdNames.idxOf m < 9 := by decide
  exact this m h

theorem genEvents_std : ∀ {es : List Event}, (∀ e ∈ es, e.Fits) → genEvents es =
    some ((es.map fun e => (⟨stdNames.idxOf e.mouse + 1, e.ms, e.x, e.y⟩ : StdEvent)).flatMap StdEvent.bytes) := by
  intro es
  induction es with
  | nil => intro _; rfl
  | cons e es ih =>
    intro h
    simp only [List.forall_mem_cons] at h
    rw [genEvents, genEvent_some h.1.ms h.1.x h.1.y, ih h.2, (codeOf_std h.1.mouse).1]
    rfl

theorem flagByte_std (h : Hdr) (f : StdVideo) (hf : (f.completed, f.official, f.fair, f.nf) = (h.completed, h.offical, h.fair, false))
    (ver : Nat) : flagByte h = f.summary ver := by
  simp only [Prod.mk.injEq] at hf
  unfold flagByte StdVideo.summary
  rw [hf.1, hf.2.1, hf.2.2.1, hf.2.2.2]
  by_cases hv : 1 ≤ ver
  · rw [if_pos hv]
    generalize h.completed = a, h.offical = b, h.fair = c
    revert a b c
    decide
  · rw [if_neg hv]
    generalize h.completed = a, h.offical = b, h.fair = c
    revert a b c
    decide

/-- **C84** What is written is, but for the version number, which is 0, a file of version 0.2 that says what the video
holds, the bit for "no flags" always being 0. -/
theorem C84_writes (v : Evf.Rec) (hv : FitsEvf v) (hb : ByteRec v) :
    ∃ t, generate v = some (0 :: t) ∧ Std 2 (stdOf v false) (2 :: t) := by
  have hH : genHdr v.hdr = some ([0, flagByte v.hdr] ++ (stdOf v false).numbers) := by
    have h1 := hv.mineNum; have h2 := hv.mode; have h3 := hv.bbbv; have h4 := hv.rtime
    unfold genHdr
    rw [u8?_of_lt (n := v.hdr.mineNum / 256) (by omega), u8?_of_lt (n := v.hdr.mineNum % 256) (by omega),
      u8?_of_lt (n := v.hdr.mode / 256) (by omega), u8?_of_lt (n := v.hdr.mode % 256) (by omega),
      u8?_of_lt (n := v.hdr.bbbv / 256) (by omega), u8?_of_lt (n := v.hdr.bbbv % 256) (by omega),
      u8?_of_lt (n := v.hdr.rtimeMs / 65536) (by omega), u8?_of_lt (n := v.hdr.rtimeMs / 256 % 256) (by omega),
      u8?_of_lt (n := v.hdr.rtimeMs % 256) (by omega), Nat.mod_eq_of_lt hv.height, Nat.mod_eq_of_lt hv.width]
    rfl
  refine ⟨flagByte v.hdr :: (stdOf v false).body ((stdOf v false).texts ++ [(stdOf v false).uuid])
    (genBoard v.hdr.height v.hdr.width v.board), ?_, ?_, genBoard v.hdr.height v.hdr.width v.board,
    genBoard_bitmap hv.height_pos v.board, ?_⟩
  · unfold generate
    rw [hH, genEvents_std hv.events]
    have hs : genStrs v.strs = zeroEnded ((stdOf v false).texts ++ [(stdOf v false).uuid]) := by
      simp [genStrs, zeroEnded, StdVideo.texts, stdOf]
    have he : genEnd v.hasChecksum v.checksum = (stdOf v false).ending := by
      unfold genEnd StdVideo.ending stdOf
      cases v.hasChecksum <;> rfl
    rw [hs, he]
    simp only [Option.bind_eq_bind, Option.bind_some, Option.pure_def, Option.some.injEq, StdVideo.body, List.append_assoc,
      List.cons_append, List.nil_append]
    rfl
  · refine ⟨⟨hv.height, hv.width, hb.pixel⟩, ⟨hv.mineNum, hv.mode, hv.bbbv, hv.rtime⟩, ?_, ?_, ?_⟩
    · intro t ht b hbt
      obtain ⟨n1, n2, n3, n4, n5, n6, n7, n8⟩ := hv.strs
      have h256 := hb.texts t (by
        simp only [StdVideo.texts, stdOf, List.mem_cons, List.not_mem_nil, or_false] at ht ⊢
        tauto) b hbt
      refine ⟨Nat.pos_of_ne_zero ?_, h256⟩
      simp only [StdVideo.texts, stdOf, List.mem_cons, List.not_mem_nil, or_false] at ht
      rcases ht with rfl | rfl | rfl | rfl | rfl | rfl | rfl | rfl
      · exact n8 b hbt
      · exact n1 b hbt
      · exact n2 b hbt
      · exact n3 b hbt
      · exact n4 b hbt
      · exact n5 b hbt
      · exact n6 b hbt
      · exact n7 b hbt
    · intro e he
      obtain ⟨e', he', rfl⟩ := List.mem_map.mp he
      have hf := hv.events e' he'
      have hc := (codeOf_std hf.mouse).2
      exact ⟨by show 1 ≤ stdNames.idxOf e'.mouse + 1; omega, by show stdNames.idxOf e'.mouse + 1 < 10; omega, hf.ms, hf.x, hf.y⟩
    · intro c hc
      simp only [stdOf] at hc
      split at hc
      · simp only [Option.some.injEq] at hc
        rw [← hc]
        exact ⟨hv.checksum, hb.checksum⟩
      · cases hc
  · show _ = [2, (stdOf v false).summary 2] ++ [] ++ _
    rw [← flagByte_std v.hdr (stdOf v false) rfl 2]
    rfl

/-- **C84** (finding) So what is written is a file of no version: never does it follow the standard and say what the video
holds. -/
theorem C84_writes_none (v : Evf.Rec) (hv : FitsEvf v) (hb : ByteRec v) (bs : Bytes) (hg : generate v = some bs) (ver : Nat)
    (nf : Bool) : ¬ Std ver (stdOf v nf) bs := by
  obtain ⟨t, h1, h2⟩ := C84_writes v hv hb
  obtain rfl : bs = 0 :: t := Option.some.inj (hg ▸ h1)
  rintro ⟨-, bm, hbm, e⟩
  obtain ⟨-, bm2, hbm2, e2⟩ := h2
  have h0 : ver = 0 := by
    simp only [List.cons_append, List.cons.injEq] at e
    exact e.1.symm
  subst h0
  have hl := congrArg List.length e
  have hl2 := congrArg List.length e2
  have hbl : bm.length = bm2.length := hbm.1.trans hbm2.1.symm
  have k1 : (stdOf v nf).numbers = (stdOf v false).numbers := rfl
  have k2 : (stdOf v nf).texts = (stdOf v false).texts := rfl
  have k3 : (stdOf v nf).events = (stdOf v false).events := rfl
  have k4 : (stdOf v nf).ending = (stdOf v false).ending := rfl
  simp only [StdVideo.body, zeroEnded_append, zeroEnded_one, k1, k2, k3, k4, hbl, List.length_append, List.length_cons,
    List.length_nil, if_neg (show ¬ (0 : Nat) = 3 by omega), if_neg (show ¬ (2 : Nat) = 3 by omega),
    if_neg (show ¬ 2 ≤ (0 : Nat) by omega), if_pos (show 2 ≤ (2 : Nat) by omega)] at hl hl2
  simp only [zeroEnded, List.flatMap_nil, List.length_nil] at hl hl2
  omega

theorem sampleRec_bytes : ByteRec sampleRec := ⟨by decide, by decide, by decide⟩

/-- A file that the library writes, read as the standard of version 0.2 has it. -/
example : ∃ t, generate sampleRec = some (0 :: t) ∧ Std 2 (stdOf sampleRec false) (2 :: t) ∧
    ∃ out, parseVideo (2 :: t ++ []) = .ok (out, []) ∧ Told (stdOf sampleRec false) out := by
  obtain ⟨t, h1, h2⟩ := C84_writes _ sampleRec_fits sampleRec_bytes
  obtain ⟨out, h3, h4, -⟩ := C84_reads_v2 _ _ [] (by decide) h2 (by simp)
  exact ⟨t, h1, h2, out, h3, h4⟩

/-- An old file: one row of eight safe cells, the mouse moved five times, no checksum. -/
def oldVideo : StdVideo where
  completed := true
  official := false
  fair := false
  nf := false
  noMarks := false
  confined := false
  restart := false
  height := 1
  width := 8
  mineNum := 0
  pixel := 16
  mode := 0
  bbbv := 1
  rtime := 0
  software := []
  player := []
  race := []
  unique := []
  startTime := []
  endTime := []
  country := []
  uuid := []
  mine := fun _ _ => false
  events := List.replicate 5 ⟨1, 0, 0, 0⟩
  checksum := none

def oldFile : Bytes := [0, oldVideo.summary 0] ++ oldVideo.body oldVideo.texts [0]

theorem oldFile_std : Std 0 oldVideo oldFile := by
  refine ⟨⟨by decide, by decide, by decide, by decide, ?_⟩, [0], ⟨rfl, by decide, fun i j hi hj => ?_⟩, rfl⟩
  · intro c hc; cases hc
  · show ([0].getD ((i * 8 + j) / 8) 0).testBit (7 - (i * 8 + j) % 8) = false
    obtain rfl : i = 0 := by have : i < 1 := hi; omega
    have hj' : j < 8 := hj
    rw [show (0 * 8 + j) / 8 = 0 by omega]
    exact Nat.zero_testBit _

/-- It is accepted, with a mine on the board, without a single event, and with a checksum that is not in the file. -/
example : ∃ out r, parseVideo oldFile = .ok (out, r) ∧ out.board = [[0, 0, 0, 0, 0, 0, 1, -1]] ∧ out.events = [] ∧
    out.checksum ≠ List.replicate 32 0 ∧ ¬ Told oldVideo out := by
  have h : ∃ out r, parseVideo oldFile = .ok (out, r) ∧ out.board = [[0, 0, 0, 0, 0, 0, 1, -1]] ∧ out.events = [] ∧
      out.checksum ≠ List.replicate 32 0 := by
    have : (match parseVideo oldFile with
      | .ok (out, _) => decide (out.board = [[0, 0, 0, 0, 0, 0, 1, -1]] ∧ out.events = [] ∧
          out.checksum ≠ List.replicate 32 0)
      | .error _ => false) = true := by decide +kernel
    cases hp : parseVideo oldFile with
    | error e => rw [hp] at this; cases this
    | ok x =>
      rw [hp] at this
      exact ⟨x.1, x.2, rfl, of_decide_eq_true this⟩
  obtain ⟨out, r, h1, h2, h3, h4⟩ := h
  exact ⟨out, r, h1, h2, h3, h4, C84_reads_no_other 0 (.inl rfl) _ _ (by decide) oldFile_std _ _ h1⟩

end Ms.Properties
