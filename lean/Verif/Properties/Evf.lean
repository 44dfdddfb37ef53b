import Verif.Lemmas.EvfRound

/-! # C23, C24, C25, C46: the EVF codec -/

namespace Ms.Properties
open Ms Ms.Evf Ms.Spec

/-! ## C23 generation followed by parsing -/

/-- A record within the field widths of the format: at least one row, sizes in one byte, mine count, mode and
3BV in two, result time in three, no zero byte inside a string, the nine mouse events, and a 32-byte
checksum. -/
structure FitsEvf (v : Rec) : Prop where
  height_pos : 0 < v.hdr.height
  height : v.hdr.height < 256
  width : v.hdr.width < 256
  mineNum : v.hdr.mineNum < 2 ^ 16
  mode : v.hdr.mode < 2 ^ 16
  bbbv : v.hdr.bbbv < 2 ^ 16
  rtime : v.hdr.rtimeMs < 2 ^ 24
  strs : v.strs.NoNul
  events : ∀ e ∈ v.events, e.Fits
  checksum : v.checksum.length = 32

/-- **C23** For every record within the field widths, `generate_evf_v0_raw_data` succeeds and parsing its
output (whatever follows it) gives back the header fields, the strings, a correctly numbered board of the
recorded size with exactly the recorded mines, every event in order, and the checksum (zeros when none was
set).  A recorded board that was correctly numbered comes back cell by cell. -/
theorem C23_evf_roundtrip (v : Rec) (hv : FitsEvf v) :
    ∃ bs out, generate v = some bs ∧ (∀ r, parseVideo (bs ++ r) = .ok (out, r)) ∧
      out.hdr = v.hdr ∧ out.strs = v.strs ∧ out.events = v.events ∧
      out.checksum = (if v.hasChecksum then v.checksum else List.replicate 32 0) ∧
      Rect out.board v.hdr.height v.hdr.width ∧ Numbered out.board.view ∧
      (∀ i j, i < v.hdr.height → j < v.hdr.width → (out.board.get i j = -1 ↔ v.board i j = -1)) ∧
      (Numbered ⟨v.hdr.height, v.hdr.width, v.board⟩ →
        ∀ i j, i < v.hdr.height → j < v.hdr.width → out.board.get i j = v.board i j) := by
  set H := v.hdr.height with hH
  set W := v.hdr.width with hW
  have hpos : 0 < H := hv.height_pos
  obtain ⟨hb, g1, p1⟩ := hdr_round hv.height hv.width hv.mineNum hv.mode hv.bbbv hv.rtime
  obtain ⟨eb, g2, p2⟩ := events_round hv.events
  let b0 : Board := Board.build H W fun i j => if v.board i j = -1 then -1 else 0
  have hR0 : Rect b0 H W := rect_build _ _ _
  have hval : ∀ p ∈ vcells b0.view, val b0.view p = 0 ∨ val b0.view p = -1 := by
    intro p hp
    have hp' : p.1 < H ∧ p.2 < W := by
      simpa [vcells, grid, Board.view, hR0.row_eq, hR0.col_eq hpos] using hp
    show b0.get p.1 p.2 = 0 ∨ b0.get p.1 p.2 = -1
    rw [get_build _ hp'.1 hp'.2]
    split
    · right; rfl
    · left; rfl
  obtain ⟨b, c1, c2, c3, c4, -⟩ := C03_cal_board_numbers b0 H W hpos hR0 hval
  have hmine : ∀ i j, i < H → j < W → (b.get i j = -1 ↔ v.board i j = -1) := by
    intro i j hi hj
    have e1 : (i, j) ∈ mines b.view ↔ b.get i j = -1 := by
      simp [mines, vcells, grid, Board.view, c2.row_eq, c2.col_eq hpos, val, hi, hj]
    have e2 : (i, j) ∈ mines b0.view ↔ b0.get i j = -1 := by
      simp [mines, vcells, grid, Board.view, hR0.row_eq, hR0.col_eq hpos, val, hi, hj]
    rw [← e1, c3, e2, get_build _ hi hj]
    split <;> simp_all
  let sum := if v.hasChecksum then v.checksum else List.replicate 32 0
  refine ⟨hb ++ genStrs v.strs ++ genBoard H W v.board ++ eb ++ genEnd v.hasChecksum v.checksum,
    ⟨v.hdr, levelOf v.hdr.height v.hdr.width v.hdr.mineNum, v.strs, b, v.events, sum⟩, ?_, ?_, rfl, rfl,
    rfl, rfl, c2, c4, hmine, ?_⟩
  · unfold generate
    rw [g1, g2]; rfl
  · intro r
    simp only [List.append_assoc]
    unfold parseVideo
    rw [bind_ok (p1 _), bind_ok (strs_round hv.strs _)]
    have hbd : getBoard H W (genBoard H W v.board ++ (eb ++ (genEnd v.hasChecksum v.checksum ++ r))) =
        .ok (b, eb ++ (genEnd v.hasChecksum v.checksum ++ r)) := by
      obtain ⟨x, y, k1, k2⟩ := bitmap_round H W v.board (eb ++ (genEnd v.hasChecksum v.checksum ++ r))
      unfold getBoard
      rw [bind_ok k1]
      show (match calBoardNumbers x with | some b => pure b | none => P.fail .panic) _ = _
      rw [k2, c1]
      rfl
    rw [bind_ok hbd]
    unfold getTail
    have hlen := genEvents_len g2
    have := p2 v.hasChecksum v.checksum r
      ((eb ++ (genEnd v.hasChecksum v.checksum ++ r)).length + 1) (by simp only [List.length_append]; omega)
    rw [bind_ok this]
    cases hcs : v.hasChecksum with
    | false => simp [sum, hcs, bind_def]
    | true =>
      have := bytes_round v.checksum r
      rw [hv.checksum] at this
      simp [sum, hcs, bind_def, this]
  · intro hnum i j hi hj
    by_cases hm : v.board i j = -1
    · rw [hm]; exact (hmine i j hi hj).mpr hm
    · have hm' : b.get i j ≠ -1 := fun h => hm ((hmine i j hi hj).mp h)
      have hin : (i, j) ∈ vcells b.view := by
        simp [vcells, grid, Board.view, c2.row_eq, c2.col_eq hpos, hi, hj]
      have hin' : (i, j) ∈ vcells ⟨H, W, v.board⟩ := by simp [vcells, grid, hi, hj]
      have a1 := c4 (i, j) hin hm'
      have a2 := hnum (i, j) hin' hm
      have hM : mines b.view = mines ⟨H, W, v.board⟩ := by
        ext q
        have e1 : q ∈ mines b.view ↔ (q.1 < H ∧ q.2 < W) ∧ b.get q.1 q.2 = -1 := by
          simp [mines, vcells, grid, Board.view, c2.row_eq, c2.col_eq hpos, val]
        have e2 : q ∈ mines ⟨H, W, v.board⟩ ↔ (q.1 < H ∧ q.2 < W) ∧ v.board q.1 q.2 = -1 := by
          unfold mines; rw [Finset.mem_filter]; simp [vcells, grid, val]
        rw [e1, e2]
        constructor
        · rintro ⟨h1, h2⟩; exact ⟨h1, (hmine _ _ h1.1 h1.2).mp h2⟩
        · rintro ⟨h1, h2⟩; exact ⟨h1, (hmine _ _ h1.1 h1.2).mpr h2⟩
      show val b.view (i, j) = val ⟨H, W, v.board⟩ (i, j)
      rw [a1, a2, hM]

/-- The generator panics exactly when the mine count or the 3BV needs more than two bytes or a time more than
three (for the `u16` fields `mode`, `x`, `y`). -/
theorem C23_generate_panics_iff (v : Rec) (hmode : v.hdr.mode < 2 ^ 16)
    (hxy : ∀ e ∈ v.events, e.x < 2 ^ 16 ∧ e.y < 2 ^ 16) :
    generate v = none ↔ 2 ^ 16 ≤ v.hdr.mineNum ∨ 2 ^ 16 ≤ v.hdr.bbbv ∨ 2 ^ 24 ≤ v.hdr.rtimeMs ∨
      ∃ e ∈ v.events, 2 ^ 24 ≤ e.ms := by
  have hE : ∀ es : List Event, (∀ e ∈ es, e.x < 2 ^ 16 ∧ e.y < 2 ^ 16) →
      (genEvents es = none ↔ ∃ e ∈ es, 2 ^ 24 ≤ e.ms) := by
    intro es
    induction es with
    | nil => intro _; simp [genEvents]
    | cons e es ih =>
      intro h
      have h1 := h e (by simp)
      have ih := ih (fun x hx => h x (by simp [hx]))
      rw [genEvents]
      by_cases hm : e.ms < 2 ^ 24
      · rw [genEvent_some hm h1.1 h1.2]
        cases hg : genEvents es with
        | none =>
          rw [hg] at ih
          obtain ⟨e', he', hm'⟩ := ih.mp rfl
          simp only [Option.bind_eq_bind, Option.bind_none, Option.bind_some, true_iff]
          exact ⟨e', by simp [he'], hm'⟩
        | some bs =>
          rw [hg] at ih
          simp only [Option.bind_eq_bind, Option.bind_some, Option.pure_def, reduceCtorEq, false_iff]
          rintro ⟨e', he', hm'⟩
          rcases List.mem_cons.mp he' with rfl | he'
          · omega
          · exact absurd (ih.mpr ⟨e', he', hm'⟩) (by simp)
      · have : u8? (e.ms / 65536) = none := if_neg (by omega)
        simp only [genEvent, this, Option.bind_eq_bind, Option.bind_none, true_iff]
        exact ⟨e, by simp, by omega⟩
  have hH : genHdr v.hdr = none ↔
      2 ^ 16 ≤ v.hdr.mineNum ∨ 2 ^ 16 ≤ v.hdr.bbbv ∨ 2 ^ 24 ≤ v.hdr.rtimeMs := by
    unfold genHdr
    rw [u8?_of_lt (n := v.hdr.mineNum % 256) (by omega), u8?_of_lt (n := v.hdr.mode / 256) (by omega),
      u8?_of_lt (n := v.hdr.mode % 256) (by omega), u8?_of_lt (n := v.hdr.bbbv % 256) (by omega),
      u8?_of_lt (n := v.hdr.rtimeMs / 256 % 256) (by omega), u8?_of_lt (n := v.hdr.rtimeMs % 256) (by omega)]
    by_cases h1 : v.hdr.mineNum < 2 ^ 16
    · rw [u8?_of_lt (n := v.hdr.mineNum / 256) (by omega)]
      by_cases h2 : v.hdr.bbbv < 2 ^ 16
      · rw [u8?_of_lt (n := v.hdr.bbbv / 256) (by omega)]
        by_cases h3 : v.hdr.rtimeMs < 2 ^ 24
        · rw [u8?_of_lt (n := v.hdr.rtimeMs / 65536) (by omega)]
          simp; omega
        · have : u8? (v.hdr.rtimeMs / 65536) = none := if_neg (by omega)
          rw [this]; simp; omega
      · have : u8? (v.hdr.bbbv / 256) = none := if_neg (by omega)
        rw [this]; simp; omega
    · have : u8? (v.hdr.mineNum / 256) = none := if_neg (by omega)
      rw [this]; simp; omega
  have hE := hE v.events hxy
  unfold generate
  cases h1 : genHdr v.hdr with
  | none =>
    rw [h1] at hH
    have := hH.mp rfl
    simp only [Option.bind_eq_bind, Option.bind_none, true_iff]
    tauto
  | some hb =>
    rw [h1] at hH
    cases h2 : genEvents v.events with
    | none =>
      rw [h2] at hE
      have := hE.mp rfl
      simp only [Option.bind_eq_bind, Option.bind_none, Option.bind_some, true_iff]
      tauto
    | some eb =>
      rw [h2] at hE
      simp only [Option.bind_eq_bind, Option.bind_some, Option.pure_def, reduceCtorEq, false_iff]
      simp only [reduceCtorEq, false_iff] at hH hE
      rintro (h | h | h | h)
      · exact hH (.inl h)
      · exact hH (.inr (.inl h))
      · exact hH (.inr (.inr h))
      · exact hE h

/-- A small record: 2×3 board, three events, a checksum. -/
def sampleRec : Rec where
  hdr := ⟨true, false, true, 2, 3, 2, 16, 0, 4, 70001⟩
  strs := ⟨[77, 78], [], [65], [], [49, 50], [51], [67, 78], []⟩
  board := fun i j => if (i, j) = (0, 1) ∨ (i, j) = (1, 2) then -1 else if j = 0 then 1 else 2
  events := [⟨0, "mv", 300, 4⟩, ⟨12, "lc", 300, 4⟩, ⟨70001, "lr", 17, 65535⟩]
  hasChecksum := true
  checksum := List.replicate 32 7

theorem sampleRec_fits : FitsEvf sampleRec where
  height_pos := by decide
  height := by decide
  width := by decide
  mineNum := by decide
  mode := by decide
  bbbv := by decide
  rtime := by decide
  strs := by constructor <;> decide
  events := by
    intro e he
    simp only [sampleRec, List.mem_cons, List.not_mem_nil, or_false] at he
    rcases he with rfl | rfl | rfl <;> constructor <;> decide
  checksum := by decide

example : ((generate sampleRec).map (·.take 16)) =
    some [0, 160, 2, 3, 0, 2, 16, 0, 0, 0, 4, 1, 17, 113, 77, 78] := by decide

/-! ## C24 totality and truncation -/

theorem getStr_count : ∀ l : Bytes,
    (∃ s r, getStr l = .ok (s, r) ∧ l.count 0 = r.count 0 + 1) ∨
      (getStr l = .error .tooShort ∧ l.count 0 = 0) := by
  intro l
  induction l with
  | nil => exact .inr ⟨rfl, rfl⟩
  | cons b l ih =>
    rw [getStr]
    by_cases hb : b = 0
    · subst hb; exact .inl ⟨[], l, by simp, by simp⟩
    · rw [if_neg hb, List.count_cons_of_ne hb]
      rcases ih with ⟨s, r, h1, h2⟩ | ⟨h1, h2⟩
      · exact .inl ⟨b :: s, r, by rw [h1], h2⟩
      · exact .inr ⟨by rw [h1], h2⟩

theorem getStrs_ok_iff (l : Bytes) : (∃ s r, getStrs l = .ok (s, r)) ↔ 8 ≤ l.count 0 := by
  have step : ∀ {α : Type} (n : Nat) (f : Bytes → P α) (l : Bytes),
      (∀ s r, (∃ x r', f s r = .ok (x, r')) ↔ n ≤ r.count 0) →
      ((∃ x r', (getStr >>= f) l = .ok (x, r')) ↔ n + 1 ≤ l.count 0) := by
    intro α n f l hf
    rcases getStr_count l with ⟨s, r, h1, h2⟩ | ⟨h1, h2⟩
    · rw [bind_ok h1, hf, h2]; omega
    · rw [bind_err h1, h2]; simp
  unfold getStrs
  refine step 7 _ _ fun _ _ => step 6 _ _ fun _ _ => step 5 _ _ fun _ _ => step 4 _ _ fun _ _ =>
    step 3 _ _ fun _ _ => step 2 _ _ fun _ _ => step 1 _ _ fun _ _ => step 0 _ _ fun _ _ => ?_
  simp

theorem getHdr_long (l : Bytes) (h : 14 ≤ l.length) :
    ∃ hd, getHdr l = .ok (hd, l.drop 14) ∧ l[2]? = some hd.height := by
  match l, h with
  | a0 :: a1 :: a2 :: a3 :: a4 :: a5 :: a6 :: a7 :: a8 :: a9 :: a10 :: a11 :: a12 :: a13 :: r, _ =>
    exact ⟨_, rfl, rfl⟩

theorem getHdr_ok {l r : Bytes} {hd : Hdr} (h : getHdr l = .ok (hd, r)) :
    14 ≤ l.length ∧ r = l.drop 14 ∧ l[2]? = some hd.height := by
  have h14 : 14 ≤ l.length := by
    by_contra hlt
    have hb : ∀ m : Nat, ∃ hd, getHdr (l ++ List.replicate (14 - l.length) 0 ++ List.replicate m 0) =
        .ok (hd, List.replicate m 0) := by
      intro m
      obtain ⟨hd, e, -⟩ := getHdr_long (l ++ List.replicate (14 - l.length) 0 ++ List.replicate m 0)
        (by simp; omega)
      refine ⟨hd, ?_⟩
      rw [e]; congr 2
      rw [List.drop_append_of_le_length (by simp; omega)]
      rw [List.drop_eq_nil_of_le (by simp; omega)]; rfl
    obtain ⟨c, hc, k1, -⟩ := good_hdr l hd r h
    obtain ⟨hd', e⟩ := hb 0
    have := k1 (r ++ List.replicate (14 - l.length) 0)
    rw [← List.append_assoc, ← hc] at this
    simp only [List.replicate_zero, List.append_nil] at e
    rw [this] at e
    simp only [Except.ok.injEq, Prod.mk.injEq, List.append_eq_nil_iff, List.replicate_eq_nil_iff] at e
    omega
  obtain ⟨hd', e, e2⟩ := getHdr_long l h14
  rw [h] at e
  simp only [Except.ok.injEq, Prod.mk.injEq] at e
  obtain ⟨rfl, rfl⟩ := e
  exact ⟨h14, rfl, e2⟩

/-- What `parse_video` does on an arbitrary input: it panics exactly when the 14-byte header and the eight
strings are all present and the height byte is zero; otherwise it returns `Ok` or `Err(FileIsTooShort)`. -/
theorem C24_panic_iff (l : Bytes) :
    (parseVideo l = .error .panic ↔ 14 ≤ l.length ∧ l[2]? = some 0 ∧ 8 ≤ (l.drop 14).count 0) ∧
      parseVideo l ≠ .error .fuel := by
  unfold parseVideo
  by_cases h14 : 14 ≤ l.length
  · obtain ⟨hd, e1, e2⟩ := getHdr_long l h14
    rw [bind_ok e1]
    by_cases h8 : 8 ≤ (l.drop 14).count 0
    · obtain ⟨s, r, e3⟩ := (getStrs_ok_iff _).mpr h8
      rw [bind_ok e3]
      by_cases h0 : hd.height = 0
      · have : getBoard hd.height hd.width r = .error .panic := by
          rw [h0]; rfl
        rw [bind_err this, e2, h0]
        simp [h14, h8]
      · have hc : Clean ((getBoard hd.height hd.width >>= fun board => getTail hd s board) r) := by
          refine clean_bind ?_ fun _ _ _ => clean_tail _ _ _ _
          unfold getBoard
          refine clean_bind (clean_foldP clean_readCell _ _ _) fun st r' hst => ?_
          have hlen : st.1.row = hd.height := by
            have hinv : ∀ (ps : List Pos) (st0 : Board × Nat × Nat) (l0 r0 : Bytes) (st1 : Board × Nat × Nat),
                foldP readCell st0 ps l0 = .ok (st1, r0) → st1.1.length = st0.1.length := by
              intro ps
              induction ps with
              | nil =>
                intro st0 l0 r0 st1 h
                simp only [foldP, pure_def, Except.ok.injEq, Prod.mk.injEq] at h
                rw [h.1]
              | cons p ps ih =>
                intro st0 l0 r0 st1 h
                rw [foldP, bind_def] at h
                cases hx : readCell st0 p l0 with
                | error e => rw [hx] at h; simp at h
                | ok x =>
                  rw [hx] at h
                  rw [ih _ _ _ _ h]
                  unfold readCell at hx
                  rw [bind_def] at hx
                  split at hx
                  · rename_i a rr _
                    simp only [pure_def, Except.ok.injEq] at hx
                    rw [← hx]
                    dsimp only
                    split
                    · simp [Board.set]
                    · rfl
                  · simp at hx
            have := hinv _ _ _ _ _ hst
            rw [Board.row, this]
            simp [Board.build]
          have : ∃ b, calBoardNumbers st.1 = some b := by
            unfold calBoardNumbers; rw [hlen, if_neg h0]; exact ⟨_, rfl⟩
          obtain ⟨b, hb⟩ := this
          rw [hb]
          exact clean_ok _
        refine ⟨⟨fun h => absurd h hc.1, fun h => ?_⟩, hc.2⟩
        rw [e2] at h
        exact absurd (Option.some.inj h.2.1) h0
    · have : getStrs (l.drop 14) = .error .tooShort := by
        have hc := clean_strs (l.drop 14)
        cases hx : getStrs (l.drop 14) with
        | ok x => exact absurd ((getStrs_ok_iff _).mp ⟨x.1, x.2, hx⟩) h8
        | error e =>
          rw [hx] at hc
          cases e with
          | tooShort => rfl
          | panic => exact absurd rfl hc.1
          | fuel => exact absurd rfl hc.2
      rw [bind_err this]
      simp [h8]
  · have : getHdr l = .error .tooShort := by
      have hc := clean_hdr l
      cases hx : getHdr l with
      | ok x => exact absurd (getHdr_ok hx).1 h14
      | error e =>
        rw [hx] at hc
        cases e with
        | tooShort => rfl
        | panic => exact absurd rfl hc.1
        | fuel => exact absurd rfl hc.2
    rw [bind_err this]
    simp [h14]

/-- **C24** (partial: the claim "for every byte string" is false, see `C24_refuted`; proved for every byte
string whose third byte, the height, is not zero.)  Parsing returns `Ok` or `Err(FileIsTooShort)`. -/
theorem C24_parse_total_partial (l : Bytes) (h : l[2]? ≠ some 0) :
    (∃ out r, parseVideo l = .ok (out, r)) ∨ parseVideo l = .error .tooShort := by
  obtain ⟨h1, h2⟩ := C24_panic_iff l
  cases hx : parseVideo l with
  | ok x => exact .inl ⟨x.1, x.2, rfl⟩
  | error e =>
    rw [hx] at h1 h2
    cases e with
    | tooShort => exact .inr rfl
    | panic => exact absurd (h1.mp rfl).2.1 h
    | fuel => exact absurd rfl h2

/-- There are byte strings on which the parser panics: a header announcing no rows. -/
theorem C24_refuted : ∃ l : Bytes, (∀ b ∈ l, b < 256) ∧ parseVideo l = .error .panic :=
  ⟨List.replicate 22 0, by decide, by rfl⟩

/-- **C24** Every proper prefix of a generated file is rejected with `FileIsTooShort`: cut in the header, a
string, the bitmap, an event or the checksum. -/
theorem C24_truncation (v : Rec) (hv : FitsEvf v) (bs pre cut : Bytes) (hg : generate v = some bs)
    (hcut : bs = pre ++ cut) (hne : cut ≠ []) : parseVideo pre = .error .tooShort := by
  obtain ⟨bs', out, g1, g2, -⟩ := C23_evf_roundtrip v hv
  obtain rfl : bs = bs' := Option.some.inj (hg ▸ g1)
  have h0 := g2 []
  obtain ⟨c, hc, -, k⟩ := good_parse _ _ _ h0
  simp only [List.append_nil] at hc
  exact k pre cut (hc ▸ hcut) hne

example : ∃ bs, generate sampleRec = some bs ∧ parseVideo (bs.take 40) = .error .tooShort := by
  obtain ⟨bs, -, h, -⟩ := C23_evf_roundtrip _ sampleRec_fits
  refine ⟨bs, h, C24_truncation _ sampleRec_fits bs _ (bs.drop 40) h (List.take_append_drop 40 bs).symm ?_⟩
  have : (generate sampleRec).map (fun b => decide (b.drop 40 = [])) = some false := by decide
  rw [h] at this
  simpa using this

/-! ## C25 set_checksum -/

/-- Call `set_checksum` once per element; all calls have to return `Ok`. -/
def setChecksums (v : Vid) : List Bytes → Option Vid
  | [] => some v
  | s :: ss => match v.setChecksum s with
    | some (.ok, v') => setChecksums v' ss
    | _ => none

theorem generate_split {v : Rec} {bs : Bytes} (h : generate v = some bs) :
    ∃ body, bs = body ++ genEnd v.hasChecksum v.checksum ∧
      ∀ has sum, generate { v with hasChecksum := has, checksum := sum } = some (body ++ genEnd has sum) := by
  unfold generate at h ⊢
  cases h1 : genHdr v.hdr with
  | none => rw [h1] at h; simp at h
  | some hb =>
    cases h2 : genEvents v.events with
    | none => rw [h1, h2] at h; simp at h
    | some eb =>
      rw [h1, h2] at h
      simp only [Option.bind_eq_bind, Option.bind_some, Option.pure_def, Option.some.injEq] at h
      refine ⟨_, h.symm, fun has sum => ?_⟩
      simp [h1, h2]

/-- **C25** After generating, any non-empty sequence of `set_checksum` calls on a finished game succeeds and
leaves exactly the bytes that generation with the last checksum would have produced; the bytes before the
event terminator never change. -/
theorem C25_set_checksum (v v1 : Vid) (hover : v.over = true)
    (hsum : v.content.checksum.length = 32) (hg : v.generate = some v1)
    (sums : List Bytes) (last : Bytes) (hs : ∀ s ∈ sums, s.length = 32) (hl : last.length = 32) :
    ∃ v2 body, setChecksums v1 (sums ++ [last]) = some v2 ∧
      Evf.generate { v.content with hasChecksum := true, checksum := last } = some v2.rawData ∧
      v1.rawData = body ++ (if v.content.hasChecksum then 0 :: v.content.checksum else [255]) ∧
      v2.rawData = body ++ 0 :: last := by
  obtain ⟨bs, hbs, rfl⟩ : ∃ bs, Evf.generate v.content = some bs ∧ { v with rawData := bs } = v1 := by
    unfold Vid.generate at hg
    cases h : Evf.generate v.content with
    | none => rw [h] at hg; simp at hg
    | some bs => rw [h] at hg; exact ⟨bs, rfl, by simpa using hg⟩
  obtain ⟨body, e1, e2⟩ := generate_split hbs
  -- once a checksum is there, each call replaces it
  have rep : ∀ (ss : List Bytes) (w : Vid) (old : Bytes), (∀ s ∈ ss, s.length = 32) → w.over = true →
      w.content.hasChecksum = true → old.length = 32 → w.rawData = body ++ 0 :: old →
      ∃ w', setChecksums w ss = some w' ∧ w'.rawData = body ++ 0 :: (ss.getLast?.getD old) := by
    intro ss
    induction ss with
    | nil => intro w old _ _ _ _ hw; exact ⟨w, rfl, by simpa using hw⟩
    | cons s ss ih =>
      intro w old hss ho hh hold hw
      have hs32 := hss s (by simp)
      have hlen : ¬ w.rawData.length < 32 := by rw [hw]; simp; omega
      have hset : w.setChecksum s =
          some (.ok, { w with rawData := w.rawData.take (w.rawData.length - 32) ++ s }) := by
        unfold Vid.setChecksum
        rw [if_neg (by simp [ho]), if_neg (by simp [hh]), if_neg hlen]
      have hraw : w.rawData.take (w.rawData.length - 32) ++ s = body ++ 0 :: s := by
        have : w.rawData = (body ++ [0]) ++ old := by rw [hw]; simp
        rw [this, List.take_append_of_le_length (by simp; omega)]
        rw [List.take_of_length_le (by simp; omega)]
        simp
      obtain ⟨w', k1, k2⟩ := ih { w with rawData := w.rawData.take (w.rawData.length - 32) ++ s } s
        (fun x hx => hss x (by simp [hx])) ho hh hs32 hraw
      refine ⟨w', by rw [setChecksums, hset]; exact k1, ?_⟩
      rw [k2]
      cases ss with
      | nil => simp
      | cons a t => simp [List.getLast?_eq_some_getLast]
  have hfin : ∃ v2, setChecksums { v with rawData := bs } (sums ++ [last]) = some v2 ∧
      v2.rawData = body ++ 0 :: last := by
    have hall : ∀ s ∈ sums ++ [last], s.length = 32 := by
      intro s h
      rcases List.mem_append.mp h with h | h
      · exact hs s h
      · rw [List.mem_singleton.mp h]; exact hl
    cases hh : v.content.hasChecksum with
    | true =>
      obtain ⟨w', k1, k2⟩ := rep (sums ++ [last]) { v with rawData := bs } v.content.checksum hall hover hh
        hsum (by rw [e1, hh]; rfl)
      exact ⟨w', k1, by simpa using k2⟩
    | false =>
      have hbs' : bs = body ++ [255] := by rw [e1, hh]; rfl
      have first : ∀ s : Bytes, Vid.setChecksum { v with rawData := bs } s = some (.ok,
          { v with
            rawData := body ++ 0 :: s
            content := { v.content with checksum := s, hasChecksum := true } }) := by
        intro s
        unfold Vid.setChecksum
        rw [if_neg (by simp [hover]), if_pos (by simp [hh]), if_neg (by simp [hbs'])]
        simp [hbs']
      cases sums with
      | nil =>
        refine ⟨_, by rw [List.nil_append, setChecksums, first]; rfl, rfl⟩
      | cons s ss =>
        obtain ⟨w', k1, k2⟩ := rep (ss ++ [last])
          { v with
            rawData := body ++ 0 :: s
            content := { v.content with checksum := s, hasChecksum := true } } s
          (fun x hx => hall x (by simp only [List.cons_append, List.mem_cons]; exact .inr hx)) hover rfl
          (hs s (by simp)) rfl
        refine ⟨w', by rw [List.cons_append, setChecksums, first]; exact k1, by simpa using k2⟩
  obtain ⟨v2, k1, k2⟩ := hfin
  refine ⟨v2, body, k1, ?_, ?_, k2⟩
  · rw [e2 true last, k2]; rfl
  · rw [e1]; rfl

/-- `set_checksum` on an unfinished game is refused and changes nothing. -/
theorem C25_refused_before_end (v : Vid) (h : v.over = false) (s : Bytes) :
    v.setChecksum s = some (.err, v) := by
  unfold Vid.setChecksum; simp [h]

example : ∃ v1, (⟨sampleRec, [], true⟩ : Vid).generate = some v1 := by
  obtain ⟨bs, -, h, -⟩ := C23_evf_roundtrip _ sampleRec_fits
  exact ⟨_, by unfold Vid.generate; rw [h]; rfl⟩

/-! ## C46 set_checksum and regeneration -/

/-- **C46** (partial: the claim fails after a second `set_checksum`, see `C46_refuted`; proved when the video
had no checksum before.)  Generating again after `set_checksum` reproduces the same bytes. -/
theorem C46_regenerate_partial (v v1 v2 : Vid) (sum : Bytes) (hover : v.over = true)
    (hno : v.content.hasChecksum = false) (hg : v.generate = some v1)
    (hset : v1.setChecksum sum = some (.ok, v2)) :
    v2.generate = some v2 ∧ v2.content.checksum = sum := by
  obtain ⟨bs, hbs, rfl⟩ : ∃ bs, Evf.generate v.content = some bs ∧ { v with rawData := bs } = v1 := by
    unfold Vid.generate at hg
    cases h : Evf.generate v.content with
    | none => rw [h] at hg; simp at hg
    | some bs => rw [h] at hg; exact ⟨bs, rfl, by simpa using hg⟩
  obtain ⟨body, e1, e2⟩ := generate_split hbs
  have hbs' : bs = body ++ [255] := by rw [e1, hno]; rfl
  unfold Vid.setChecksum at hset
  rw [if_neg (by simp [hover]), if_pos (by simp [hno]), if_neg (by simp [hbs'])] at hset
  simp only [Option.some.injEq, Prod.mk.injEq, true_and] at hset
  subst hset
  refine ⟨?_, rfl⟩
  unfold Vid.generate
  have := e2 true sum
  have h2 : Evf.generate { v.content with checksum := sum, hasChecksum := true } =
      some (body ++ genEnd true sum) := this
  simp only [h2, Option.map_some, Option.some.injEq]
  simp [hbs', genEnd]

/-- The full claim of C46 is false: after a second `set_checksum`, generating again writes the checksum of the
*first* call, for every record within the field widths. -/
theorem C46_refuted (v : Rec) (hv : FitsEvf v) (c1 c2 : Bytes) (h1 : c1.length = 32)
    (hne : c1 ≠ c2) (hno : v.hasChecksum = false) :
    ∃ v1 v2 v3, (⟨v, [], true⟩ : Vid).generate = some v1 ∧ setChecksums v1 [c1, c2] = some v2 ∧
      v2.generate = some v3 ∧ v3.rawData ≠ v2.rawData ∧ v3.content.checksum = c1 ∧
      ∃ body, v2.rawData = body ++ 0 :: c2 ∧ v3.rawData = body ++ 0 :: c1 := by
  obtain ⟨bs, -, hg, -⟩ := C23_evf_roundtrip v hv
  obtain ⟨body, e1, e2⟩ := generate_split hg
  have hbs' : bs = body ++ [255] := by rw [e1, hno]; rfl
  have s1 : Vid.setChecksum ⟨v, bs, true⟩ c1 =
      some (.ok, ⟨{ v with checksum := c1, hasChecksum := true }, body ++ 0 :: c1, true⟩) := by
    unfold Vid.setChecksum
    rw [if_neg (by simp), if_pos (by simp [hno]), if_neg (by simp [hbs'])]
    simp [hbs']
  have s2 : Vid.setChecksum ⟨{ v with checksum := c1, hasChecksum := true }, body ++ 0 :: c1, true⟩ c2 =
      some (.ok, ⟨{ v with checksum := c1, hasChecksum := true }, body ++ 0 :: c2, true⟩) := by
    unfold Vid.setChecksum
    rw [if_neg (by simp), if_neg (by simp), if_neg (by simp; omega)]
    have e : body ++ 0 :: c1 = (body ++ [0]) ++ c1 := by simp
    simp only [Option.some.injEq, Prod.mk.injEq, true_and]
    congr 1
    rw [e, List.take_append_of_le_length (by simp; omega), List.take_of_length_le (by simp; omega)]
    simp
  have g3 : Vid.generate ⟨{ v with checksum := c1, hasChecksum := true }, body ++ 0 :: c2, true⟩ =
      some ⟨{ v with checksum := c1, hasChecksum := true }, body ++ 0 :: c1, true⟩ := by
    unfold Vid.generate
    have : Evf.generate { v with checksum := c1, hasChecksum := true } = some (body ++ genEnd true c1) :=
      e2 true c1
    simp only [this, Option.map_some]
    rfl
  refine ⟨⟨v, bs, true⟩, _, _, by unfold Vid.generate; rw [hg]; rfl, ?_, g3, ?_, rfl, body, rfl, rfl⟩
  · rw [setChecksums, s1]
    show setChecksums _ [c2] = _
    rw [setChecksums, s2]
    rfl
  · simpa using hne

/-- `set_checksum` on a finished game whose data were never generated panics, with or without an earlier
checksum. -/
theorem C46_panics_without_data (v : Rec) (s : Bytes) : (⟨v, [], true⟩ : Vid).setChecksum s = none := by
  unfold Vid.setChecksum
  cases v.hasChecksum <;> simp

end Ms.Properties
