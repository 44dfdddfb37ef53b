import Verif.Lemmas.LayoutMvf

/-! # Where the parsers of AVF, RMV and MVF files panic -/

namespace Ms.Vid
open Ms.Spec

theorem bind_panic {α β : Type} {p : Rd α} {f : α → Rd β} {l : Bytes} {e : Fail} (hp : Never e p) :
    (p >>= f) l = .error e ↔ ∃ a r', p l = .ok (a, r') ∧ f a r' = .error e := by
  rw [bind_error]
  constructor
  · rintro (h | h)
    · exact absurd h (hp l)
    · exact h
  · exact .inr

theorem run_bind {α β : Type} {p : Rd α} {f : α → Rd β} {l r : Bytes} {a : α} (h : p l = .ok (a, r)) :
    (p >>= f) l = f a r := by
  rw [bind_eq, h]

theorem readMines_error {bad : Nat → Nat → Bool} {e : Fail} {cell : Nat → Nat → Pos} (he : e ≠ .tooShort) (n : Nat) (b : Board)
    (l : Bytes) : readMines bad e cell n b l = .error e ↔
    ∃ (ps : List (Nat × Nat)) (c d : Nat) (r : Bytes), ps.length < n ∧ (∀ q ∈ ps, bad q.1 q.2 = false) ∧ bad c d = true ∧
      l = flat2 ps ++ c :: d :: r := by
  induction n generalizing b l with
  | zero =>
    constructor
    · intro h; cases h
    · rintro ⟨ps, _, _, _, h, _⟩; omega
  | succ n ih =>
    by_cases hl : l.length < 2
    · rw [readMines_short n b l hl]
      constructor
      · intro h; simp only [Except.error.injEq] at h; exact absurd h.symm he
      · rintro ⟨ps, c, d, r, -, -, -, rfl⟩
        simp at hl
        omega
    · obtain ⟨c, d, r, rfl⟩ := two_le hl
      rw [readMines_two]
      by_cases hb : bad c d = true
      · rw [if_pos hb]
        simp only [true_iff]
        exact ⟨[], c, d, r, by simp, by simp, hb, rfl⟩
      · rw [if_neg hb, ih]
        have hb' : bad c d = false := by simpa using hb
        constructor
        · rintro ⟨ps, c', d', r', h1, h2, h3, rfl⟩
          refine ⟨(c, d) :: ps, c', d', r', by simp; omega, ?_, h3, rfl⟩
          intro q hq
          rcases List.mem_cons.mp hq with rfl | hq
          · exact hb'
          · exact h2 q hq
        · rintro ⟨ps, c', d', r', h1, h2, h3, h4⟩
          cases ps with
          | nil =>
            simp only [flat2, List.flatMap_nil, List.nil_append, List.cons.injEq] at h4
            obtain ⟨rfl, rfl, rfl⟩ := h4
            exact absurd h3 hb
          | cons q ps =>
            simp only [flat2, List.flatMap_cons, List.cons_append, List.nil_append, List.cons.injEq] at h4
            obtain ⟨rfl, rfl, rfl⟩ := h4
            exact ⟨ps, c', d', r', by simpa using h1, fun q hq => h2 q (by simp [hq]), h3, rfl⟩

theorem never_avfToB {e : Fail} (h : e ≠ .tooShort) : Never e avfToB := by
  refine never_bind (never_u8 h) fun v => ?_
  split
  · exact never_avfB h _ _
  split
  · exact never_avfB h _ _
  · exact never_avfB h _ _

/-- the closure of `Never .panic` -/
macro "never" : tactic => `(tactic| repeat' first
  | exact never_pure _ _ | exact never_fail (by decide) | exact never_u8 (by decide) | exact never_u16 (by decide)
  | exact never_u24 (by decide) | exact never_skip (by decide) _ | exact never_take (by decide) _ | exact never_upTo (by decide) _
  | exact never_avfMark (by decide) _ _ | exact never_avfB (by decide) _ _ | exact never_avfStart (by decide) _ _ _
  | exact never_avfToB (by decide) | exact never_avfEvents (by decide) (by decide) _ | exact never_avfSize (by decide) (by decide)
  | exact never_expect (by decide) _ | exact never_rmvFlags (by decide) _ | exact never_rmvEvents _ _ _
  | exact never_mvfEvents (by decide) _ _ _ | assumption
  | refine never_bind ?_ fun _ => ?_ | split)

theorem parseAvf_panic (parseF64 : Bytes → Option (Option ℚ)) (l : Bytes) (hl : ∀ b ∈ l, b < 256) :
    parseAvf parseF64 l = .error .panic ↔ AvfBadMine l := by
  constructor
  · intro h
    unfold parseAvf at h
    split at h
    · cases h
    obtain ⟨c0, r0, h0, g1⟩ := (bind_panic (never_u8 (by decide))).mp h
    obtain ⟨u1, r1, h1, g2⟩ := (bind_panic (never_skip (by decide) _)).mp g1
    obtain ⟨⟨lv, w, hh, m⟩, r2, h2, g3⟩ := (bind_panic (never_avfSize (by decide) (by decide))).mp g2
    rcases bind_error.mp g3 with g4 | ⟨b, r3, h3, g4⟩
    · obtain ⟨sk, hsk, h1⟩ := skip_ok.mp h1
      rw [u8_ok] at h0
      have hr1 : ∀ b ∈ r1, b < 256 := fun b hb => hl b (by rw [h0, h1]; simp [hb])
      obtain ⟨h2, h2'⟩ := (avfSize_ok _ _ _ _ _ _ hr1).mp h2
      rw [avfMines_eq, readMines_error (by decide)] at g4
      obtain ⟨ps, c, d, r, k1, k2, k3, k4⟩ := g4
      refine ⟨⟨c0 :: sk, lv, w, hh, m, ps, [], [], [], [], [], [], [], ⟨0, 0, 0, 0, 0, 0, 0, 0⟩, [], ⟨0, 0, 0, 0, 0, 0, 0, 0⟩,
        [], [], [], [], [], [], []⟩, c, d, r, by simp [hsk], h2, k1, ?_, ?_, ?_⟩
      · intro q hq
        have := k2 q hq
        rw [decide_eq_false_iff_not] at this
        simp only
        omega
      · rw [decide_eq_true_eq] at k3
        simp only
        omega
      · rw [h0, h1, h2', k4]
        simp only [AvfFile.sizeBytes, List.flatten_cons, List.flatten_nil, List.append_nil, List.cons_append, List.nil_append]
    · exfalso
      revert g4
      refine (?_ : Never .panic _) r3
      never
  · rintro ⟨f, c, d, r, h1, h2, h3, h4, h5, h6⟩
    rw [h6] at hl ⊢
    clear h6 l
    simp only [List.flatten_cons, List.flatten_nil, List.append_nil] at hl ⊢
    obtain ⟨c0, sk, hc0⟩ : ∃ c s, f.head = c :: s := by
      cases hq : f.head with
      | nil => simp [hq] at h1
      | cons c s => exact ⟨c, s, rfl⟩
    rw [hc0] at h1
    unfold parseAvf
    rw [if_neg (by rw [hc0]; exact List.cons_ne_nil _ _), hc0, List.cons_append]
    rw [run_bind (u8_ok.mpr rfl), run_bind (a := ()) (skip_ok.mpr ⟨sk, by simpa using h1, rfl⟩)]
    have hsz : avfSize (f.sizeBytes ++ (flat2 f.mines ++ ([c, d] ++ r))) =
        .ok ((f.level, f.width, f.height, f.mineNum), flat2 f.mines ++ ([c, d] ++ r)) :=
      (avfSize_ok _ _ _ _ _ _ (fun b hb => hl b (List.mem_append_right _ hb))).mpr ⟨h2, rfl⟩
    rw [run_bind hsz]
    refine bind_error.mpr (.inl ?_)
    rw [avfMines_eq, readMines_error (by decide)]
    refine ⟨f.mines, c, d, r, h3, ?_, ?_, rfl⟩
    · intro q hq
      have := h4 q hq
      rw [decide_eq_false_iff_not]
      omega
    · rw [decide_eq_true_eq]
      omega

theorem never_rmvMagic : Never .panic rmvMagic := by
  refine never_guard (by decide) ?_
  never

theorem never_rmvResult (n : Nat) : Never .panic (rmvResult n) := by
  unfold rmvResult
  never

theorem never_rmvStr (b : Bool) : Never .panic (rmvStr b) := by
  unfold rmvStr
  never

theorem never_rmvPre (n : Nat) : Never .panic (rmvPre n) := by
  unfold rmvPre
  never

theorem never_rmvMines (h w n : Nat) (b : Board) : Never .panic (rmvMines h w n b) := by
  rw [rmvMines_eq]
  exact readMines_never (by decide) (by decide) _ _

theorem rmvMines_rect {h w n : Nat} {l r : Bytes} {b : Board} (hok : rmvMines h w n (Board.build h w fun _ _ => 0) l = .ok (b, r)) :
    Rect b h w := by
  rw [rmvMines_eq] at hok
  exact (readMines_ok (h := h) (w := w) (by
    intro c d hcd
    rw [decide_eq_false_iff_not] at hcd
    simp only; omega) _ _ _ _ _ (rect_build h w _) hok).2.2.1

theorem mvfMines_rect {h w n : Nat} {l r : Bytes} {b : Board} (hok : mvfMines h w n (Board.build h w fun _ _ => 0) l = .ok (b, r)) :
    Rect b h w := by
  rw [mvfMines_eq] at hok
  exact (readMines_ok (h := h) (w := w) (by
    intro c d hcd
    rw [decide_eq_false_iff_not] at hcd
    simp only; omega) _ _ _ _ _ (rect_build h w _) hok).2.2.1

theorem calBoardNumbers_none {b : Board} : calBoardNumbers b = none ↔ b.row = 0 := by
  unfold calBoardNumbers
  split
  · simp_all
  · simp_all

set_option maxHeartbeats 1000000 in
theorem parseRmv_panic_causes (l : Bytes) (hl : ∀ b ∈ l, b < 256) (h : parseRmv l = .error .panic) :
    RmvShortResult l ∨ RmvNoRows l ∨ RmvBadProps l ∨ RmvNoEvents l := by
  unfold parseRmv at h
  obtain ⟨u0, r0, h0, g0⟩ := (bind_panic never_rmvMagic).mp h
  obtain ⟨u1, r1, h1, g1⟩ := (bind_panic (never_skip (by decide) _)).mp g0
  obtain ⟨rs, r2, h2, g2⟩ := (bind_panic (never_u16 (by decide))).mp g1
  obtain ⟨vs, r3, h3, g3⟩ := (bind_panic (never_u16 (by decide))).mp g2
  obtain ⟨u4, r4, h4, g4⟩ := (bind_panic (never_skip (by decide) _)).mp g3
  obtain ⟨ps, r5, h5, g5⟩ := (bind_panic (never_u16 (by decide))).mp g4
  obtain ⟨pr, r6, h6, g6⟩ := (bind_panic (never_u16 (by decide))).mp g5
  clear h g0 g1 g2 g3 g4 g5
  rw [rmvMagic_ok] at h0
  obtain ⟨k1, hk1, h1⟩ := skip_ok.mp h1
  have m1 : ∀ b ∈ r1, b < 256 := fun b hb => hl b (by rw [h0, h1]; simp [hb])
  rw [u16_two m1] at h2
  have m2 : ∀ b ∈ r2, b < 256 := fun b hb => m1 b (by rw [h2]; simp [hb])
  rw [u16_two m2] at h3
  obtain ⟨k2, hk2, h4⟩ := skip_ok.mp h4
  have m4 : ∀ b ∈ r4, b < 256 := fun b hb => m2 b (by rw [h3, h4]; simp [hb])
  rw [u16_two m4] at h5
  have m5 : ∀ b ∈ r5, b < 256 := fun b hb => m4 b (by rw [h5]; simp [hb])
  rw [u16_two m5] at h6
  have m6 : ∀ b ∈ r6, b < 256 := fun b hb => m5 b (by rw [h6]; simp [hb])
  split at g6
  · rename_i hrs
    left
    refine ⟨k1, k2, r6, rs, vs, ps, pr, hk1, hk2, hrs, ?_⟩
    rw [h0, h1, h2, h3, h4, h5, h6]
    simp only [List.flatten_cons, List.flatten_nil, List.append_nil, List.append_assoc]
  rename_i hrs
  right
  obtain ⟨u7, r7, h7, g7⟩ := (bind_panic (never_skip (by decide) _)).mp g6
  obtain ⟨⟨bbbv, st⟩, r8, h8, g8⟩ := (bind_panic (never_rmvResult _)).mp g7
  obtain ⟨u9, r9, h9, g9⟩ := (bind_panic (never_skip (by decide) _)).mp g8
  obtain ⟨info, r10, h10, g10⟩ := (bind_panic (never_u16 (by decide))).mp g9
  obtain ⟨p1, r11, h11, g11⟩ := (bind_panic (never_rmvStr _)).mp g10
  obtain ⟨p2, r12, h12, g12⟩ := (bind_panic (never_rmvStr _)).mp g11
  obtain ⟨p3, r13, h13, g13⟩ := (bind_panic (never_rmvStr _)).mp g12
  obtain ⟨p4, r14, h14, g14⟩ := (bind_panic (never_rmvStr _)).mp g13
  obtain ⟨u15, r15, h15, g15⟩ := (bind_panic (never_skip (by decide) _)).mp g14
  unfold rmvTail at g15
  obtain ⟨w, r16, h16, g16⟩ := (bind_panic (never_u8 (by decide))).mp g15
  obtain ⟨hh, r17, h17, g17⟩ := (bind_panic (never_u8 (by decide))).mp g16
  obtain ⟨m, r18, h18, g18⟩ := (bind_panic (never_u16 (by decide))).mp g17
  obtain ⟨b0, r19, h19, g19⟩ := (bind_panic (never_rmvMines _ _ _ _)).mp g18
  clear g6 g7 g8 g9 g10 g11 g12 g13 g14 g15 g16 g17 g18
  obtain ⟨k3, hk3, h7⟩ := skip_ok.mp h7
  obtain ⟨res, hres, h8, hresult⟩ := (rmvResult_ok (by omega) _ _ _ _).mp h8
  obtain ⟨ver, hver, h9⟩ := skip_ok.mp h9
  have m9 : ∀ b ∈ r9, b < 256 := fun b hb => m6 b (by rw [h7, h8, h9]; simp [hb])
  rw [u16_two m9] at h10
  have m10 : ∀ b ∈ r10, b < 256 := fun b hb => m9 b (by rw [h10]; simp [hb])
  obtain ⟨texts, ht1, ht0, -⟩ := (rmvTexts_ok info r10 r14 p1 p2 p3 p4).mp ⟨_, _, _, h11, h12, h13, h14⟩
  obtain ⟨k4, hk4, h15⟩ := skip_ok.mp h15
  rw [u8_ok] at h16 h17
  have m17 : ∀ b ∈ r17, b < 256 := fun b hb => m10 b (by rw [ht0, h15, h16, h17]; simp [hb])
  have hwh : w < 256 ∧ hh < 256 :=
    ⟨m10 w (by rw [ht0, h15, h16]; simp), m10 hh (by rw [ht0, h15, h16, h17]; simp)⟩
  rw [u16_two m17] at h18
  have m18 : ∀ b ∈ r18, b < 256 := fun b hb => m17 b (by rw [h18]; simp [hb])
  have hR := rmvMines_rect h19
  have hlen : ver.length - 2 = vs := by omega
  have hver2 : 2 ≤ ver.length := by omega
  have hhead : ∀ f : RmvFile, f.skip1 = k1 → f.skip2 = k2 → f.skip3 = k3 → f.result = res → f.version = ver → f.info = info →
      f.texts = texts → f.skip4 = k4 → f.preSize = ps → f.HeadValid ∧ l = f.headBytes pr ++ w :: hh :: (two m ++ r18) := by
    rintro ⟨a1, a2, a3, a4, a5, a6, a7, a8, a9, a10, a11, a12, a13, a14, a15, a16, a17, a18, a19, a20⟩
    rintro rfl rfl rfl rfl rfl rfl rfl rfl rfl
    refine ⟨⟨⟨hk1, hk2, hk3, hk4⟩, hver2, ht1, bbbv, st, hresult⟩, ?_⟩
    simp only [RmvFile.headBytes, List.flatten_cons, List.flatten_nil, List.append_nil, List.append_assoc, hres, hlen]
    rw [h0, h1, h2, h3, h4, h5, h6, h7, h8, h9, h10, ht0, h15, h16, h17, h18]
  cases hb : calBoardNumbers b0 with
  | none =>
    left
    have hrow := calBoardNumbers_none.mp hb
    rw [hR.row_eq] at hrow
    obtain ⟨hv, hbytes⟩ := hhead ⟨k1, k2, k3, res, ver, info, texts, k4, w, hh, [], ps, [], 0, 0, 0, 0, [], [], 0⟩
      rfl rfl rfl rfl rfl rfl rfl rfl rfl
    refine ⟨_, pr, r18, hv, ?_⟩
    have hm : m = 0 := by
      rw [rmvMines_eq, readMines_layout] at h19
      obtain ⟨qs, hq1, hq2, -⟩ := h19
      cases qs with
      | nil => exact hq1.symm
      | cons q qs =>
        have := hq2 q (by simp)
        rw [decide_eq_false_iff_not] at this
        omega
    rw [hbytes, hrow, hm]
    simp [two]
  | some b =>
  right
  rw [hb] at g19
  have hpos : 0 < hh := by
    by_contra hc
    have : calBoardNumbers b0 = none := calBoardNumbers_none.mpr (by rw [hR.row_eq]; omega)
    rw [hb] at this
    cases this
  obtain ⟨ms, hm1, hms, hm2, hboard⟩ := (rmvMines_boardOf hpos _ _ b).mp ⟨b0, h19, hb⟩
  obtain ⟨pre, r20, h20, g20⟩ := (bind_panic (never_rmvPre _)).mp g19
  obtain ⟨u21, r21, h21, g21⟩ := (bind_panic (never_skip (by decide) _)).mp g20
  obtain ⟨nf, r22, h22, g22⟩ := (bind_panic (never_u8 (by decide))).mp g21
  obtain ⟨mode, r23, h23, g23⟩ := (bind_panic (never_u8 (by decide))).mp g22
  obtain ⟨level, r24, h24, g24⟩ := (bind_panic (never_u8 (by decide))).mp g23
  clear g19 g20 g21 g22 g23
  have m19 : ∀ b ∈ r19, b < 256 := fun b hb => m18 b (by rw [hm2]; simp [hb])
  obtain ⟨fl, hfl, hf2, hf3⟩ := (rmvPre_ok _ _ _ m19).mp h20
  obtain ⟨k5, hk5, h21⟩ := skip_ok.mp h21
  obtain ⟨un, rfl⟩ := List.length_eq_one_iff.mp hk5
  rw [u8_ok] at h22 h23 h24
  split at g24
  · rename_i hlp
    left
    obtain ⟨hv, hbytes⟩ := hhead ⟨k1, k2, k3, res, ver, info, texts, k4, w, hh, ms, ps, fl, un, nf, mode, level, [], [], 0⟩
      rfl rfl rfl rfl rfl rfl rfl rfl rfl
    refine ⟨_, pr, r24, hv, hpos, hms, hfl, by simp only; omega, ?_⟩
    simp only [List.flatten_cons, List.flatten_nil, List.append_nil, List.append_assoc, List.cons_append, List.nil_append, hm1]
    rw [hbytes, hm2, hf2, h21, h22, h23, h24]
    simp only [List.append_assoc, List.cons_append, List.nil_append]
  · rename_i hlp
    right
    obtain ⟨u25, r25, h25, g25⟩ := (bind_panic (never_skip (by decide) _)).mp g24
    obtain ⟨es, r26, h26, g26⟩ := (bind_panic (never_rmvEvents _ _ _)).mp g25
    obtain ⟨props, hprops, h25⟩ := skip_ok.mp h25
    have m25 : ∀ b ∈ r25, b < 256 := fun b hb => m19 b (by rw [hf2, h21, h22, h23, h24, h25]; simp [hb])
    obtain ⟨items, stop, h26, hit, hstop, hes⟩ := (rmvEvents_ok hwh.1 hwh.2 _ _ _ _ m25).mp h26
    cases hlast : (pre ++ es).getLast? with
    | some last => rw [hlast] at g26; cases g26
    | none =>
      rw [List.getLast?_eq_none_iff, List.append_eq_nil_iff] at hlast
      have hfl0 : fl = [] := by
        rw [hf3] at hlast
        exact List.map_eq_nil_iff.mp hlast.1
      obtain ⟨hv, hbytes⟩ := hhead ⟨k1, k2, k3, res, ver, info, texts, k4, w, hh, ms, ps, fl, un, nf, mode, level, props, items,
        stop⟩ rfl rfl rfl rfl rfl rfl rfl rfl rfl
      refine ⟨_, r26, hv, hpos, hms, by simp only; omega, hit, hstop, hfl0, ?_, ?_⟩
      · have := hlast.2
        rw [hes] at this
        exact this
      · have e3 : props.length + 4 = pr := by omega
        have : l = _ := hbytes
        rw [this, hm2, hf2, h21, h22, h23, h24, h25, h26]
        simp only [RmvFile.bytes, RmvFile.headBytes, List.flatten_cons, List.flatten_nil, List.append_nil, List.append_assoc,
          List.cons_append, List.nil_append, e3, hm1]

/-- what the first part of an RMV file amounts to -/
theorem parseRmv_head {f : RmvFile} (hf : f.HeadValid) (q : Nat) : ∃ bbbv startTime player country, ∀ rest,
    parseRmv (f.headBytes q ++ rest) = rmvTail f.preSize q bbbv startTime player country rest := by
  obtain ⟨⟨k1, k2, k3, k4⟩, hver, htx, bbbv, st, hres⟩ := hf
  refine ⟨bbbv, st, f.texts.getD 0 [], f.texts.getD 2 [], fun rest => ?_⟩
  simp only [RmvFile.headBytes, List.flatten_cons, List.flatten_nil, List.append_nil, List.append_assoc]
  obtain ⟨r1, r2, r3, g1, g2, g3, g4⟩ := (rmvTexts_ok f.info _ (f.skip4 ++ rest) _ _ _ _).mpr ⟨f.texts, htx, rfl, rfl, rfl, rfl, rfl⟩
  unfold parseRmv
  refine Eq.trans (run_bind (a := ()) (rmvMagic_ok.mpr rfl)) ?_
  try beta_reduce
  refine Eq.trans (run_bind (a := ()) (skip_ok.mpr ⟨_, k1, rfl⟩)) ?_
  try beta_reduce
  refine Eq.trans (run_bind (p := u16) (u16_run _ _)) ?_
  try beta_reduce
  refine Eq.trans (run_bind (p := u16) (u16_run _ _)) ?_
  try beta_reduce
  try beta_reduce
  refine Eq.trans (run_bind (a := ()) (skip_ok.mpr ⟨_, k2, rfl⟩)) ?_
  try beta_reduce
  refine Eq.trans (run_bind (p := u16) (u16_run _ _)) ?_
  try beta_reduce
  try beta_reduce
  refine Eq.trans (run_bind (p := u16) (u16_run _ _)) ?_
  try beta_reduce
  try beta_reduce
  rw [if_neg (by omega)]
  refine Eq.trans (run_bind (a := ()) (skip_ok.mpr ⟨_, k3, rfl⟩)) ?_
  try beta_reduce
  refine Eq.trans (run_bind ((rmvResult_ok (by omega) _ _ bbbv st).mpr ⟨f.result, rfl, rfl, hres⟩)) ?_
  try beta_reduce
  simp only
  refine Eq.trans (run_bind (a := ()) (skip_ok.mpr ⟨f.version, by omega, rfl⟩)) ?_
  try beta_reduce
  refine Eq.trans (run_bind (p := u16) (u16_run _ _)) ?_
  try beta_reduce
  try beta_reduce
  refine Eq.trans (run_bind g1) ?_
  try beta_reduce
  refine Eq.trans (run_bind g2) ?_
  try beta_reduce
  refine Eq.trans (run_bind g3) ?_
  try beta_reduce
  refine Eq.trans (run_bind g4) ?_
  try beta_reduce
  refine Eq.trans (run_bind (a := ()) (skip_ok.mpr ⟨_, k4, rfl⟩)) ?_
  try beta_reduce
  rfl

theorem boardOf_exists {h w : Nat} (hpos : 0 < h) (M : List Pos) (hM : ∀ p ∈ M, p.1 < h ∧ p.2 < w) : ∃ bd, BoardOf h w M bd := by
  cases hc : calBoardNumbers (M.foldl (fun b q => b.set q.1 q.2 (-1)) (Board.build h w fun _ _ => 0)) with
  | none =>
    rw [calBoardNumbers_none, (setMines_spec _ _ (rect_build h w _) hM).1.row_eq] at hc
    omega
  | some bd => exact ⟨bd, (calBoardNumbers_boardOf hpos _ hM bd).mp hc⟩

theorem rmv_board_exists (f : RmvFile) (hpos : 0 < f.height) (hms : ∀ m ∈ f.mines, m.1 < f.width ∧ m.2 < f.height) :
    ∃ bd, BoardOf f.height f.width (f.mines.map fun q => (q.2, q.1)) bd := by
  refine boardOf_exists hpos _ ?_
  intro p hp
  obtain ⟨q, hq, rfl⟩ := List.mem_map.mp hp
  exact ⟨(hms q hq).2, (hms q hq).1⟩

theorem parseRmv_panic (l : Bytes) (hl : ∀ b ∈ l, b < 256) : parseRmv l = .error .panic ↔
    RmvShortResult l ∨ RmvNoRows l ∨ RmvBadProps l ∨ RmvNoEvents l := by
  refine ⟨parseRmv_panic_causes l hl, ?_⟩
  rintro (⟨s1, s2, r, n, v, p, q, h1, h2, h3, h4⟩ | ⟨f, q, r, hf, h4⟩ | ⟨f, q, r, hf, hpos, hms, hpre, hbad, h4⟩ |
    ⟨f, r, hf, hpos, hms, hlev, hit, hstop, hpre, hpl, h4⟩)
  · rw [h4]
    simp only [List.flatten_cons, List.flatten_nil, List.append_nil]
    unfold parseRmv
    refine Eq.trans (run_bind (a := ()) (rmvMagic_ok.mpr rfl)) ?_
    try beta_reduce
    refine Eq.trans (run_bind (a := ()) (skip_ok.mpr ⟨_, h1, rfl⟩)) ?_
    try beta_reduce
    refine Eq.trans (run_bind (p := u16) (u16_run _ _)) ?_
    try beta_reduce
    refine Eq.trans (run_bind (p := u16) (u16_run _ _)) ?_
    try beta_reduce
    try beta_reduce
    refine Eq.trans (run_bind (a := ()) (skip_ok.mpr ⟨_, h2, rfl⟩)) ?_
    try beta_reduce
    refine Eq.trans (run_bind (p := u16) (u16_run _ _)) ?_
    try beta_reduce
    try beta_reduce
    refine Eq.trans (run_bind (p := u16) (u16_run _ _)) ?_
    try beta_reduce
    try beta_reduce
    rw [if_pos h3]
    rfl
  · obtain ⟨b, st, pl, co, hrun⟩ := parseRmv_head hf q
    rw [h4, List.append_assoc, hrun]
    unfold rmvTail
    simp only [List.cons_append, List.nil_append]
    refine Eq.trans (run_bind (u8_ok.mpr rfl)) ?_
    try beta_reduce
    refine Eq.trans (run_bind (u8_ok.mpr rfl)) ?_
    try beta_reduce
    refine Eq.trans (run_bind (u16_ok.mpr ⟨0, 0, rfl, rfl⟩)) ?_
    try beta_reduce
    rfl
  · obtain ⟨b, st, pl, co, hrun⟩ := parseRmv_head hf q
    rw [h4] at hl ⊢
    simp only [List.flatten_cons, List.flatten_nil, List.append_nil, List.cons_append, List.nil_append] at hl ⊢
    rw [hrun]
    unfold rmvTail
    obtain ⟨bd, hbd⟩ := rmv_board_exists f hpos hms
    obtain ⟨b0, g5, g6⟩ := (rmvMines_boardOf hpos _ _ bd).mpr ⟨f.mines, rfl, hms, rfl, hbd⟩
    refine Eq.trans (run_bind (u8_ok.mpr rfl)) ?_
    try beta_reduce
    refine Eq.trans (run_bind (u8_ok.mpr rfl)) ?_
    try beta_reduce
    refine Eq.trans (run_bind (p := u16) (u16_run _ _)) ?_
    try beta_reduce
    try beta_reduce
    refine Eq.trans (run_bind g5) ?_
    try beta_reduce
    rw [g6]
    simp only
    refine (run_bind ((rmvPre_ok _ _ _ (fun b hb => hl b (by
      simp only [List.mem_append, List.mem_cons] at hb ⊢; right; right; right; right; right; exact hb))).mpr ⟨f.pre, hpre, rfl, rfl⟩)).trans ?_
    refine Eq.trans (run_bind (a := ()) (skip_ok.mpr ⟨[f.unused], rfl, rfl⟩)) ?_
    try beta_reduce
    refine Eq.trans (run_bind (u8_ok.mpr rfl)) ?_
    try beta_reduce
    refine Eq.trans (run_bind (u8_ok.mpr rfl)) ?_
    try beta_reduce
    refine Eq.trans (run_bind (u8_ok.mpr rfl)) ?_
    try beta_reduce
    rw [if_pos (by omega)]
    rfl
  · obtain ⟨b, st, pl, co, hrun⟩ := parseRmv_head hf (f.props.length + 4)
    have hbytes : f.bytes ++ r = f.headBytes (f.props.length + 4) ++ ([f.width, f.height] ++ (two f.mines.length ++
        (flat2 f.mines ++ ((if 0 < f.preSize then two f.pre.length ++ flat2 f.pre else []) ++
        ([f.unused, f.nf, f.mode, f.level] ++ (f.props ++ (f.items.flatMap RmvItem.bytes ++ f.stop :: r))))))) := by
      simp only [RmvFile.bytes, RmvFile.headBytes, List.flatten_cons, List.flatten_nil, List.append_nil, List.append_assoc,
        List.cons_append, List.nil_append]
    rw [h4, hbytes] at hl ⊢
    rw [hrun]
    unfold rmvTail
    obtain ⟨bd, hbd⟩ := rmv_board_exists f hpos hms
    obtain ⟨b0, g5, g6⟩ := (rmvMines_boardOf hpos _ _ bd).mpr ⟨f.mines, rfl, hms, rfl, hbd⟩
    have hw : f.width < 256 := hl _ (by simp)
    have hh : f.height < 256 := hl _ (by simp)
    simp only [List.cons_append, List.nil_append] at hl ⊢
    refine Eq.trans (run_bind (u8_ok.mpr rfl)) ?_
    try beta_reduce
    refine Eq.trans (run_bind (u8_ok.mpr rfl)) ?_
    try beta_reduce
    refine Eq.trans (run_bind (p := u16) (u16_run _ _)) ?_
    try beta_reduce
    try beta_reduce
    refine Eq.trans (run_bind g5) ?_
    try beta_reduce
    rw [g6]
    simp only
    refine (run_bind ((rmvPre_ok _ _ _ (fun b hb => hl b (by
      simp only [List.mem_append, List.mem_cons] at hb ⊢; right; right; right; right; right; exact hb))).mpr
        ⟨f.pre, fun _ => hpre, rfl, rfl⟩)).trans ?_
    refine Eq.trans (run_bind (a := ()) (skip_ok.mpr ⟨[f.unused], rfl, rfl⟩)) ?_
    try beta_reduce
    refine Eq.trans (run_bind (u8_ok.mpr rfl)) ?_
    try beta_reduce
    refine Eq.trans (run_bind (u8_ok.mpr rfl)) ?_
    try beta_reduce
    refine Eq.trans (run_bind (u8_ok.mpr rfl)) ?_
    try beta_reduce
    rw [if_neg (by omega)]
    refine Eq.trans (run_bind (a := ()) (skip_ok.mpr ⟨f.props, by omega, rfl⟩)) ?_
    try beta_reduce
    refine (run_bind ((rmvEvents_ok hw hh true _ _ _ (fun b hb => hl b (by
        simp only [List.mem_append, List.mem_cons] at hb ⊢; tauto))).mpr ⟨f.items, f.stop, rfl, hit, hstop, rfl⟩)).trans ?_
    have : f.pre.map (fun q => (⟨0, "pf", q.2 * 16, q.1 * 16⟩ : FileEv)) ++ rmvLeft f.width f.height true f.items = [] := by
      rw [hpre]
      exact hpl
    rw [this]
    rfl

/-! ## MVF -/

theorem mvfBoard_panic (l : Bytes) (hl : ∀ b ∈ l, b < 256) : mvfBoard l = .error .panic ↔
    (∃ (w h n c d : Nat) (ps : List (Nat × Nat)) (r : Bytes), ps.length < n ∧
      (∀ q ∈ ps, 1 ≤ q.1 ∧ q.1 ≤ w ∧ 1 ≤ q.2 ∧ q.2 ≤ h) ∧ ¬ (1 ≤ c ∧ c ≤ w ∧ 1 ≤ d ∧ d ≤ h) ∧
      l = w :: h :: (two n ++ (flat2 ps ++ c :: d :: r))) ∨
    ∃ (w : Nat) (r : Bytes), l = w :: 0 :: 0 :: 0 :: r := by
  constructor
  · intro h
    unfold mvfBoard at h
    obtain ⟨w, r1, h1, g1⟩ := (bind_panic (never_u8 (by decide))).mp h
    obtain ⟨hh, r2, h2, g2⟩ := (bind_panic (never_u8 (by decide))).mp g1
    obtain ⟨m, r3, h3, g3⟩ := (bind_panic (never_u16 (by decide))).mp g2
    rw [u8_ok] at h1 h2
    rw [u16_two (fun b hb => hl b (by rw [h1, h2]; simp [hb]))] at h3
    rcases bind_error.mp g3 with g4 | ⟨b, r4, h4, g4⟩
    · left
      rw [mvfMines_eq, readMines_error (by decide)] at g4
      obtain ⟨ps, c, d, r, k1, k2, k3, k4⟩ := g4
      refine ⟨w, hh, m, c, d, ps, r, k1, ?_, ?_, by rw [h1, h2, h3, k4]⟩
      · intro q hq
        have := k2 q hq
        rw [decide_eq_false_iff_not] at this
        omega
      · rw [decide_eq_true_eq] at k3
        omega
    · right
      have hR := mvfMines_rect h4
      cases hb : calBoardNumbers b with
      | some b => rw [hb] at g4; cases g4
      | none =>
        rw [calBoardNumbers_none, hR.row_eq] at hb
        have hm : m = 0 := by
          rw [mvfMines_eq, readMines_layout] at h4
          obtain ⟨qs, hq1, hq2, -⟩ := h4
          cases qs with
          | nil => exact hq1.symm
          | cons q qs =>
            have := hq2 q (by simp)
            rw [decide_eq_false_iff_not] at this
            omega
        exact ⟨w, r3, by rw [h1, h2, h3, hb, hm]; rfl⟩
  · rintro (⟨w, h, n, c, d, ps, r, h1, h2, h3, rfl⟩ | ⟨w, r, rfl⟩)
    · unfold mvfBoard
      refine Eq.trans (run_bind (u8_ok.mpr rfl)) ?_
      refine Eq.trans (run_bind (u8_ok.mpr rfl)) ?_
      refine Eq.trans (run_bind (p := u16) (u16_run _ _)) ?_
      refine bind_error.mpr (.inl ?_)
      rw [mvfMines_eq, readMines_error (by decide)]
      refine ⟨ps, c, d, r, h1, ?_, ?_, rfl⟩
      · intro q hq
        have := h2 q hq
        rw [decide_eq_false_iff_not]
        omega
      · rw [decide_eq_true_eq]
        omega
    · rfl

theorem mvfBoard_ok (l r : Bytes) (w h m : Nat) (b : Board) (hl : ∀ b ∈ l, b < 256) :
    mvfBoard l = .ok ((w, h, m, b), r) ↔ 0 < h ∧ ∃ ps : List (Nat × Nat), ps.length = m ∧
      (∀ q ∈ ps, 1 ≤ q.1 ∧ q.1 ≤ w ∧ 1 ≤ q.2 ∧ q.2 ≤ h) ∧ l = w :: h :: (two m ++ (flat2 ps ++ r)) ∧
      BoardOf h w (ps.map fun q => (q.2 - 1, q.1 - 1)) b := by
  constructor
  · intro h12
    unfold mvfBoard at h12
    obtain ⟨w', q1, e1, i1⟩ := bind_ok.mp h12
    obtain ⟨hh', q2, e2, i2⟩ := bind_ok.mp i1
    obtain ⟨m', q3, e3, i3⟩ := bind_ok.mp i2
    obtain ⟨b0, q4, e4, i4⟩ := bind_ok.mp i3
    clear i1 i2 i3 h12
    rw [u8_ok] at e1 e2
    rw [u16_two (fun b hb => hl b (by rw [e1, e2]; simp [hb]))] at e3
    have hR := mvfMines_rect e4
    cases hb : calBoardNumbers b0 with
    | none => rw [hb] at i4; cases i4
    | some bd =>
    rw [hb] at i4
    simp only [pure_ok, Prod.mk.injEq] at i4
    obtain ⟨⟨rfl, rfl, rfl, rfl⟩, h12⟩ := i4
    have hpos : 0 < hh' := by
      by_contra hc
      have : calBoardNumbers b0 = none := calBoardNumbers_none.mpr (by rw [hR.row_eq]; omega)
      rw [hb] at this
      cases this
    obtain ⟨ms, hms1, hms2, hms3, hboard⟩ := (mvfMines_boardOf hpos _ _ bd).mp ⟨b0, e4, hb⟩
    exact ⟨hpos, ms, hms1, hms2, by rw [e1, e2, e3, hms3, h12], hboard⟩
  · rintro ⟨hpos, ps, h1, h2, rfl, h4⟩
    obtain ⟨b0, g5, g6⟩ := (mvfMines_boardOf hpos _ r b).mpr ⟨ps, h1, h2, rfl, h4⟩
    unfold mvfBoard
    refine bind_ok.mpr ⟨_, _, u8_ok.mpr rfl, ?_⟩
    refine bind_ok.mpr ⟨_, _, u8_ok.mpr rfl, ?_⟩
    refine bind_ok.mpr ⟨_, _, u16_run _ _, ?_⟩
    refine bind_ok.mpr ⟨_, _, g5, ?_⟩
    rw [g6, pure_ok]
    exact ⟨rfl, rfl⟩

theorem parseMvf_panic_causes (magic : Nat → Fin 40 → Fin 10) (l : Bytes) (hl : ∀ b ∈ l, b < 256)
    (h : parseMvf magic l = .error .panic) : MvfBadLevel l ∨ MvfBadMine l ∨ MvfNoRows l ∨ MvfNoEvents l := by
  unfold parseMvf at h
  obtain ⟨a, r0, h0, g0⟩ := (bind_panic (never_u8 (by decide))).mp h
  obtain ⟨b, r1, h1, g1⟩ := (bind_panic (never_u8 (by decide))).mp g0
  split at g1
  swap
  · cases g1
  rename_i hab
  obtain ⟨u2, r2, h2, g2⟩ := (bind_panic (never_skip (by decide) _)).mp g1
  obtain ⟨c, r3, h3, g3⟩ := (bind_panic (never_u8 (by decide))).mp g2
  split at g3
  swap
  · cases g3
  rename_i hc
  obtain ⟨u4, r4, h4, g4⟩ := (bind_panic (never_skip (by decide) _)).mp g3
  unfold mvf097 at g4
  obtain ⟨u5, r5, h5, g5⟩ := (bind_panic (never_skip (by decide) _)).mp g4
  obtain ⟨level, r6, h6, g6⟩ := (bind_panic (never_u8 (by decide))).mp g5
  clear h g0 g1 g2 g3 g4 g5
  rw [u8_ok] at h0 h1 h3 h6
  obtain ⟨k1, hk1, h2⟩ := skip_ok.mp h2
  obtain ⟨k2, hk2, h4⟩ := skip_ok.mp h4
  obtain ⟨k3, hk3, h5⟩ := skip_ok.mp h5
  have hstart : l = List.flatten [[17, 77], k1, [53], k2, k3] ++ level :: r6 := by
    simp only [List.flatten_cons, List.flatten_nil, List.append_nil, List.append_assoc, List.cons_append, List.nil_append]
    rw [h0, h1, h2, h3, h4, h5, h6, hab.1, hab.2, hc]
  split at g6
  · left
    refine ⟨⟨k1, k2, k3, level, 0, 0, 0, 0, List.replicate 9 0, 0, 0, [], [], 0, [], []⟩, r6, ⟨hk1, hk2, hk3, rfl⟩, ?_, hstart⟩
    simp only; omega
  rename_i hlev
  right
  obtain ⟨mode, r7, h7, g7⟩ := (bind_panic (never_u8 (by decide))).mp g6
  obtain ⟨sec, r8, h8, g8⟩ := (bind_panic (never_u16 (by decide))).mp g7
  obtain ⟨hund, r9, h9, g9⟩ := (bind_panic (never_u8 (by decide))).mp g8
  obtain ⟨bbbv, r10, h10, g10⟩ := (bind_panic (never_u16 (by decide))).mp g9
  obtain ⟨u11, r11, h11, g11⟩ := (bind_panic (never_skip (by decide) _)).mp g10
  clear g6 g7 g8 g9 g10
  rw [u8_ok] at h7 h9
  obtain ⟨k4, hk4, h11⟩ := skip_ok.mp h11
  have hm6 : ∀ x ∈ r6, x < 256 := fun x hx => hl x (by rw [hstart]; simp [hx])
  rw [u16_two (fun x hx => hm6 x (by rw [h7]; simp [hx]))] at h8
  rw [u16_two (fun x hx => hm6 x (by rw [h7, h8, h9]; simp [hx]))] at h10
  have hm11 : ∀ x ∈ r11, x < 256 := fun x hx => hm6 x (by rw [h7, h8, h9, h10, h11]; simp [hx])
  have hmid : r6 = List.flatten [[mode], two sec, [hund], two bbbv, k4] ++ r11 := by
    simp only [List.flatten_cons, List.flatten_nil, List.append_nil, List.append_assoc, List.cons_append, List.nil_append]
    rw [h7, h8, h9, h10, h11]
  rcases bind_error.mp g11 with g12 | ⟨⟨w, hh, m, bd⟩, r12, h12, g12⟩
  · rcases (mvfBoard_panic _ hm11).mp g12 with ⟨w, h, n, c, d, ps, r, j1, j2, j3, j4⟩ | ⟨w, r, j4⟩
    · left
      refine ⟨⟨k1, k2, k3, level, mode, sec, hund, bbbv, k4, w, h, ps, [], 0, [], []⟩, n, c, d, r, ⟨hk1, hk2, hk3, hk4⟩,
        by simp only; omega, j1, j2, j3, ?_⟩
      rw [hstart, hmid, j4]
      simp only [MvfFile.startBytes, MvfFile.midBytes, List.flatten_cons, List.flatten_nil, List.append_nil, List.append_assoc,
        List.cons_append, List.nil_append]
    · right; left
      refine ⟨⟨k1, k2, k3, level, mode, sec, hund, bbbv, k4, w, 0, [], [], 0, [], []⟩, r, ⟨hk1, hk2, hk3, hk4⟩,
        by simp only; omega, ?_⟩
      rw [hstart, hmid, j4]
      simp only [MvfFile.startBytes, MvfFile.midBytes, List.flatten_cons, List.flatten_nil, List.append_nil, List.append_assoc,
        List.cons_append, List.nil_append]
  · right; right
    obtain ⟨hpos, ms, hm1, hm2, hm3, -⟩ := (mvfBoard_ok _ _ _ _ _ _ hm11).mp h12
    obtain ⟨n, r13, h13, g13⟩ := (bind_panic (never_u8 (by decide))).mp g12
    obtain ⟨player, r14, h14, g14⟩ := (bind_panic (never_take (by decide) _)).mp g13
    obtain ⟨leading, r15, h15, g15⟩ := (bind_panic (never_u16 (by decide))).mp g14
    obtain ⟨size, r16, h16, g16⟩ := (bind_panic (never_u24 (by decide))).mp g15
    obtain ⟨e, r17, h17, g17⟩ := (bind_panic (never_take (by decide) _)).mp g16
    clear g11 g12 g13 g14 g15 g16
    split at g17
    swap
    · exfalso
      revert g17
      refine (?_ : Never .panic _) r17
      never
    rename_i hsz
    rw [u8_ok] at h13
    obtain ⟨hpl, h14⟩ := take_ok.mp h14
    rw [u16_two (fun x hx => hm11 x (by rw [hm3, h13, h14]; simp [hx]))] at h15
    obtain ⟨z1, z2, z3, h16, hz⟩ := u24_ok.mp h16
    obtain ⟨hel, h17⟩ := take_ok.mp h17
    have z : z1 = 0 ∧ z2 = 0 ∧ z3 = 0 := by omega
    refine ⟨⟨k1, k2, k3, level, mode, sec, hund, bbbv, k4, w, hh, ms, player, leading, e, []⟩, r17, ⟨hk1, hk2, hk3, hk4⟩,
      by simp only; omega, hpos, hel, hm2, ?_⟩
    rw [hstart, hmid, hm3, h13, h14, h15, h16, h17, z.1, z.2.1, z.2.2]
    simp only [MvfFile.startBytes, MvfFile.midBytes, List.flatten_cons, List.flatten_nil, List.append_nil, List.append_assoc,
      List.cons_append, List.nil_append, hm1, hpl]

/-- what the first part of an MVF file amounts to -/
theorem parseMvf_start (magic : Nat → Fin 40 → Fin 10) {f : MvfFile} (hf : f.Skips) (rest : Bytes) :
    parseMvf magic (f.startBytes ++ f.level :: rest) = mvf097 magic (f.date ++ f.level :: rest) := by
  obtain ⟨k1, k2, k3, k4⟩ := hf
  simp only [MvfFile.startBytes, List.flatten_cons, List.flatten_nil, List.append_nil, List.append_assoc, List.cons_append,
    List.nil_append]
  unfold parseMvf
  refine Eq.trans (run_bind (u8_ok.mpr rfl)) ?_
  refine Eq.trans (run_bind (u8_ok.mpr rfl)) ?_
  beta_reduce
  rw [if_pos ⟨rfl, rfl⟩]
  refine Eq.trans (run_bind (a := ()) (skip_ok.mpr ⟨_, k1, rfl⟩)) ?_
  refine Eq.trans (run_bind (u8_ok.mpr rfl)) ?_
  beta_reduce
  rw [if_pos rfl]
  exact run_bind (a := ()) (skip_ok.mpr ⟨_, k2, rfl⟩)

theorem parseMvf_panic (magic : Nat → Fin 40 → Fin 10) (l : Bytes) (hl : ∀ b ∈ l, b < 256) :
    parseMvf magic l = .error .panic ↔ MvfBadLevel l ∨ MvfBadMine l ∨ MvfNoRows l ∨ MvfNoEvents l := by
  refine ⟨parseMvf_panic_causes magic l hl, ?_⟩
  have mid : ∀ (f : MvfFile) (x : Bytes), f.Skips → f.level ≤ 253 → ∃ g, mvf097 magic (f.date ++ f.level :: (f.midBytes ++ x)) =
      (mvfBoard >>= g) x ∧ ∀ w h m b, (g (w, h, m, b) : Rd FileVideo) = (do
        let n ← u8
        let player ← take n
        let leading ← u16
        let s := magic leading
        let size ← u24
        let e ← take 5
        let r := mvfRaw s e
        if size = 0 then Rd.fail .panic
        else do
          let es ← mvfEvents s (size - 1) { r with x := 0, y := 0 }
          pure { software := "0.97 beta".toList.map Char.toNat, width := w, height := h, mineNum := m, level := f.level + 2,
                 mode := mvfMode f.mode, bbbv := f.bbbv, rtime := some ((f.sec : ℚ) + (f.hund : ℚ) / 100), board := b, player,
                 events := mvfFirst r :: es }) := by
    intro f x hf hlev
    refine ⟨fun (w, h, m, b) => do
        let n ← u8
        let player ← take n
        let leading ← u16
        let s := magic leading
        let size ← u24
        let e ← take 5
        let r := mvfRaw s e
        if size = 0 then Rd.fail .panic
        else do
          let es ← mvfEvents s (size - 1) { r with x := 0, y := 0 }
          pure { software := "0.97 beta".toList.map Char.toNat, width := w, height := h, mineNum := m, level := f.level + 2,
                 mode := mvfMode f.mode, bbbv := f.bbbv, rtime := some ((f.sec : ℚ) + (f.hund : ℚ) / 100), board := b, player,
                 events := mvfFirst r :: es }, ?_, fun w h m b => rfl⟩
    obtain ⟨k1, k2, k3, k4⟩ := hf
    simp only [MvfFile.midBytes, List.flatten_cons, List.flatten_nil, List.append_nil, List.append_assoc, List.cons_append,
      List.nil_append]
    unfold mvf097
    refine Eq.trans (run_bind (a := ()) (skip_ok.mpr ⟨_, k3, rfl⟩)) ?_
    refine Eq.trans (run_bind (u8_ok.mpr rfl)) ?_
    beta_reduce
    rw [if_neg (by omega)]
    refine Eq.trans (run_bind (u8_ok.mpr rfl)) ?_
    refine Eq.trans (run_bind (p := u16) (u16_run _ _)) ?_
    refine Eq.trans (run_bind (u8_ok.mpr rfl)) ?_
    refine Eq.trans (run_bind (p := u16) (u16_run _ _)) ?_
    refine Eq.trans (run_bind (a := ()) (skip_ok.mpr ⟨_, k4, rfl⟩)) ?_
    rfl
  rintro (⟨f, r, hf, hlev, h4⟩ | ⟨f, n, c, d, r, hf, hlev, h1, h2, h3, h4⟩ | ⟨f, r, hf, hlev, h4⟩ |
    ⟨f, r, hf, hlev, hpos, hfirst, hms, h4⟩)
  · rw [h4, parseMvf_start magic hf]
    unfold mvf097
    refine Eq.trans (run_bind (a := ()) (skip_ok.mpr ⟨_, hf.2.2.1, rfl⟩)) ?_
    refine Eq.trans (run_bind (u8_ok.mpr rfl)) ?_
    beta_reduce
    rw [if_pos (by omega)]
    rfl
  · rw [h4] at hl ⊢
    simp only [List.flatten_cons, List.flatten_nil, List.append_nil, List.cons_append, List.nil_append] at hl ⊢
    rw [parseMvf_start magic hf]
    obtain ⟨g, hg, -⟩ := mid f (f.width :: f.height :: (two n ++ (flat2 f.mines ++ c :: d :: r))) hf hlev
    rw [hg]
    refine bind_error.mpr (.inl ((mvfBoard_panic _ (fun b hb => hl b ?_)).mpr (.inl ⟨_, _, _, _, _, f.mines, r, h1, h2, h3, rfl⟩)))
    exact List.mem_append_right _ (List.mem_cons_of_mem _ (List.mem_append_right _ hb))
  · rw [h4] at hl ⊢
    simp only [List.flatten_cons, List.flatten_nil, List.append_nil, List.cons_append, List.nil_append] at hl ⊢
    rw [parseMvf_start magic hf]
    obtain ⟨g, hg, -⟩ := mid f (f.width :: 0 :: 0 :: 0 :: r) hf hlev
    rw [hg]
    refine bind_error.mpr (.inl ((mvfBoard_panic _ (fun b hb => hl b ?_)).mpr (.inr ⟨_, r, rfl⟩)))
    exact List.mem_append_right _ (List.mem_cons_of_mem _ (List.mem_append_right _ hb))
  · rw [h4] at hl ⊢
    simp only [List.flatten_cons, List.flatten_nil, List.append_nil, List.cons_append, List.nil_append] at hl ⊢
    rw [parseMvf_start magic hf]
    obtain ⟨g, hg, hg'⟩ := mid f (f.width :: f.height :: (two f.mines.length ++ (flat2 f.mines ++ f.player.length :: (f.player ++
      (two f.leading ++ 0 :: 0 :: 0 :: (f.first ++ r)))))) hf hlev
    obtain ⟨bd, hbd⟩ := boardOf_exists hpos (f.mines.map fun q => (q.2 - 1, q.1 - 1)) (w := f.width) (by
      intro p hp
      obtain ⟨q, hq, rfl⟩ := List.mem_map.mp hp
      have := hms q hq
      simp only; omega)
    rw [hg]
    refine Eq.trans (run_bind ((mvfBoard_ok _ _ _ _ _ bd (fun b hb => hl b ?_)).mpr ⟨hpos, f.mines, rfl, hms, rfl, hbd⟩)) ?_
    · exact List.mem_append_right _ (List.mem_cons_of_mem _ (List.mem_append_right _ hb))
    rw [hg']
    refine Eq.trans (run_bind (u8_ok.mpr rfl)) ?_
    refine Eq.trans (run_bind (take_ok.mpr ⟨rfl, rfl⟩)) ?_
    refine Eq.trans (run_bind (p := u16) (u16_run _ _)) ?_
    refine Eq.trans (run_bind (p := u24) (a := 0) (u24_ok.mpr ⟨0, 0, 0, rfl, rfl⟩)) ?_
    refine Eq.trans (run_bind (take_ok.mpr ⟨hfirst, rfl⟩)) ?_
    rfl

end Ms.Vid
