import Verif.Lemmas.Evf
import Verif.Properties.Laymine

namespace Ms.Evf

/-! ## fixed-width fields -/

theorem u8?_of_lt {n : Nat} (h : n < 256) : u8? n = some n := if_pos h

theorem u8_cons (b : Nat) (l : Bytes) : getU8 (b :: l) = .ok (b, l) := rfl

theorem u16_cons (a b : Nat) (l : Bytes) : getU16 (a :: b :: l) = .ok (a * 256 + b, l) := rfl

theorem u24_cons (a b c : Nat) (l : Bytes) :
    getU24 (a :: b :: c :: l) = .ok (a * 65536 + b * 256 + c, l) := rfl

theorem join16 (n : Nat) : n / 256 * 256 + n % 256 = n := by omega

theorem join24 (n : Nat) : n / 65536 * 65536 + n / 256 % 256 * 256 + n % 256 = n := by omega

theorem flagByte_bits (h : Hdr) : (flagByte h).testBit 7 = h.completed ∧
    (flagByte h).testBit 6 = h.offical ∧ (flagByte h).testBit 5 = h.fair := by
  unfold flagByte
  cases h.completed <;> cases h.offical <;> cases h.fair <;> decide

theorem hdr_round {h : Hdr} (h1 : h.height < 256) (h2 : h.width < 256) (h3 : h.mineNum < 65536)
    (h4 : h.mode < 65536) (h5 : h.bbbv < 65536) (h6 : h.rtimeMs < 2 ^ 24) :
    ∃ bs, genHdr h = some bs ∧ ∀ r, getHdr (bs ++ r) = .ok (h, r) := by
  obtain ⟨f1, f2, f3⟩ := flagByte_bits h
  refine ⟨[0, flagByte h, h.height % 256, h.width % 256, h.mineNum / 256, h.mineNum % 256, h.cellPixel,
    h.mode / 256, h.mode % 256, h.bbbv / 256, h.bbbv % 256, h.rtimeMs / 65536, h.rtimeMs / 256 % 256,
    h.rtimeMs % 256], ?_, ?_⟩
  · unfold genHdr
    rw [u8?_of_lt (n := h.mineNum / 256) (by omega), u8?_of_lt (n := h.mineNum % 256) (by omega),
      u8?_of_lt (n := h.mode / 256) (by omega), u8?_of_lt (n := h.mode % 256) (by omega),
      u8?_of_lt (n := h.bbbv / 256) (by omega), u8?_of_lt (n := h.bbbv % 256) (by omega),
      u8?_of_lt (n := h.rtimeMs / 65536) (by omega), u8?_of_lt (n := h.rtimeMs / 256 % 256) (by omega),
      u8?_of_lt (n := h.rtimeMs % 256) (by omega)]
    rfl
  · intro r
    unfold getHdr
    simp only [List.cons_append, List.nil_append]
    rw [bind_ok (u8_cons _ _), bind_ok (u8_cons _ _), bind_ok (u8_cons _ _), bind_ok (u8_cons _ _),
      bind_ok (u16_cons _ _ _), bind_ok (u8_cons _ _), bind_ok (u16_cons _ _ _), bind_ok (u16_cons _ _ _),
      bind_ok (u24_cons _ _ _ _)]
    rw [join16, join16, join16, join24, f1, f2, f3, Nat.mod_eq_of_lt h1, Nat.mod_eq_of_lt h2]
    rfl

/-! ## strings -/

theorem str_round {s : Bytes} (hs : ∀ b ∈ s, b ≠ 0) (r : Bytes) :
    getStr (s ++ [0] ++ r) = .ok (s, r) := by
  induction s with
  | nil => rfl
  | cons b s ih =>
    have hb := hs b (by simp)
    have := ih (fun x hx => hs x (by simp [hx]))
    rw [List.cons_append, List.cons_append, getStr, if_neg hb, this]

/-- No zero byte in any of the eight strings. -/
structure Strs.NoNul (s : Strs) : Prop where
  software : ∀ b ∈ s.software, b ≠ 0
  player : ∀ b ∈ s.player, b ≠ 0
  race : ∀ b ∈ s.race, b ≠ 0
  unique : ∀ b ∈ s.unique, b ≠ 0
  startTime : ∀ b ∈ s.startTime, b ≠ 0
  endTime : ∀ b ∈ s.endTime, b ≠ 0
  country : ∀ b ∈ s.country, b ≠ 0
  deviceUuid : ∀ b ∈ s.deviceUuid, b ≠ 0

theorem strs_round {s : Strs} (hs : s.NoNul) (r : Bytes) : getStrs (genStrs s ++ r) = .ok (s, r) := by
  have e : genStrs s ++ r = s.software ++ [0] ++ (s.player ++ [0] ++ (s.race ++ [0] ++ (s.unique ++ [0] ++
      (s.startTime ++ [0] ++ (s.endTime ++ [0] ++ (s.country ++ [0] ++ (s.deviceUuid ++ [0] ++ r))))))) := by
    unfold genStrs; simp only [List.append_assoc]
  rw [e]
  unfold getStrs
  rw [bind_ok (str_round hs.software _), bind_ok (str_round hs.player _), bind_ok (str_round hs.race _),
    bind_ok (str_round hs.unique _), bind_ok (str_round hs.startTime _), bind_ok (str_round hs.endTime _),
    bind_ok (str_round hs.country _), bind_ok (str_round hs.deviceUuid _)]
  rfl

/-! ## the bitmap -/

/-- The bytes `packCell` and the final flush add, from a state (`byte`, `ptr`). -/
def packRest : List Bool → Nat → Nat → Bytes
  | [], byte, ptr => if ptr > 0 then [byte * 2 ^ (8 - ptr) % 256] else []
  | m :: bs, byte, ptr =>
    let byte := byte * 2 % 256
    let byte := if m then byte ||| 1 else byte
    if ptr + 1 = 8 then byte :: packRest bs 0 0 else packRest bs byte (ptr + 1)

theorem packCell_foldl (bs : List Bool) : ∀ (out : Bytes) (byte ptr : Nat),
    (let st := bs.foldl packCell (out, byte, ptr)
      if st.2.2 > 0 then st.1 ++ [st.2.1 * 2 ^ (8 - st.2.2) % 256] else st.1) =
    out ++ packRest bs byte ptr := by
  induction bs with
  | nil => intro out byte ptr; simp only [List.foldl_nil, packRest]; split <;> simp <;> omega
  | cons m bs ih =>
    intro out byte ptr
    rw [List.foldl_cons, packRest]
    by_cases h : ptr + 1 = 8
    · have : packCell (out, byte, ptr) m =
          (out ++ [if m then byte * 2 % 256 ||| 1 else byte * 2 % 256], 0, 0) := by
        simp [packCell, h]
      rw [this, ih]
      simp [h]
    · have : packCell (out, byte, ptr) m =
          (out, if m then byte * 2 % 256 ||| 1 else byte * 2 % 256, ptr + 1) := by
        simp [packCell, h]
      rw [this, ih]
      simp [h]

/-- The bit-reading part of `readCell`. -/
def readBits : Nat → Nat → Nat → P (List Bool)
  | 0, _, _ => pure []
  | n + 1, byte, ptr => do
    let (byte, ptr) ← (if ptr = 0 then do let b ← getU8; pure (b, 7) else pure (byte, ptr - 1))
    let bs ← readBits n byte ptr
    pure (byte.testBit ptr :: bs)

theorem or_one_double {a : Nat} : (a * 2) ||| 1 = a * 2 + 1 := by
  have := Nat.two_pow_add_eq_or_of_lt (i := 1) (b := 1) (by decide) a
  rw [pow_one, Nat.mul_comm 2 a] at this
  exact this.symm

/-- Appending a bit to a byte under construction. -/
theorem push_bit {byte ptr : Nat} (m : Bool) (hp : ptr < 8) (hb : byte < 2 ^ ptr) :
    (if m then byte * 2 % 256 ||| 1 else byte * 2 % 256) = byte * 2 + m.toNat ∧
      byte * 2 + m.toNat < 2 ^ (ptr + 1) := by
  have h7 : 2 ^ ptr ≤ 2 ^ 7 := Nat.pow_le_pow_right (by decide) (by omega)
  have hlt : byte * 2 < 256 := by omega
  rw [Nat.mod_eq_of_lt hlt, pow_succ]
  cases m
  · simp; omega
  · simp only [if_true, or_one_double, Bool.toNat_true, true_and]; omega

theorem testBit_of_div {B k byte : Nat} {m : Bool} (h : B / 2 ^ k = byte * 2 + m.toNat) :
    B.testBit k = m := by
  rw [Nat.testBit_eq_decide_div_mod_eq, h]
  cases m <;> simp

theorem read_pack (bs : List Bool) : ∀ (byte ptr : Nat) (r : Bytes), ptr < 8 → byte < 2 ^ ptr →
    (ptr = 0 → ∀ b0, readBits bs.length b0 0 (packRest bs byte ptr ++ r) = .ok (bs, r)) ∧
    (0 < ptr → ∃ B L, packRest bs byte ptr = B :: L ∧ B / 2 ^ (8 - ptr) = byte ∧
      readBits bs.length B (8 - ptr) (L ++ r) = .ok (bs, r)) := by
  induction bs with
  | nil =>
    intro byte ptr r hp hb
    refine ⟨fun h b0 => ?_, fun h => ?_⟩
    · subst h; rfl
    · refine ⟨_, [], by rw [packRest, if_pos h], ?_, rfl⟩
      have : byte * 2 ^ (8 - ptr) < 2 ^ ptr * 2 ^ (8 - ptr) :=
        Nat.mul_lt_mul_of_pos_right hb (Nat.two_pow_pos _)
      rw [← pow_add, show ptr + (8 - ptr) = 8 by omega] at this
      rw [Nat.mod_eq_of_lt (by simpa using this), Nat.mul_div_cancel _ (Nat.two_pow_pos _)]
  | cons m bs ih =>
    intro byte ptr r hp hb
    obtain ⟨p1, p2⟩ := push_bit m hp hb
    -- the byte that comes out and how it is read on
    have key : ∃ B L, packRest (m :: bs) byte ptr = B :: L ∧ B / 2 ^ (7 - ptr) = byte * 2 + m.toNat ∧
        readBits bs.length B (7 - ptr) (L ++ r) = .ok (bs, r) := by
      rw [packRest, p1]
      by_cases h8 : ptr + 1 = 8
      · obtain rfl : ptr = 7 := by omega
        refine ⟨_, packRest bs 0 0, rfl, by simp, ?_⟩
        exact (ih 0 0 r (by omega) (by simp)).1 rfl _
      · simp only [h8, if_false]
        obtain ⟨B, L, e1, e2, e3⟩ := (ih _ (ptr + 1) r (by omega) p2).2 (by omega)
        refine ⟨B, L, e1, ?_, ?_⟩
        · rw [← e2]; congr 2; omega
        · rw [show 7 - ptr = 8 - (ptr + 1) by omega]; exact e3
    obtain ⟨B, L, e1, e2, e3⟩ := key
    refine ⟨fun h b0 => ?_, fun h => ?_⟩
    · subst h
      rw [e1, List.length_cons, readBits]
      rw [if_pos rfl]
      have : (do let b ← getU8; pure (b, 7) : P (Nat × Nat)) (B :: L ++ r) = .ok ((B, 7), L ++ r) := rfl
      rw [bind_ok this]
      show (readBits bs.length B 7 >>= _) _ = _
      rw [bind_ok e3, testBit_of_div e2]
      rfl
    · refine ⟨B, L, e1, ?_, ?_⟩
      · rw [show 8 - ptr = (7 - ptr) + 1 by omega, pow_succ, ← Nat.div_div_eq_div_mul, e2]
        cases m <;> simp <;> omega
      · rw [List.length_cons, readBits, if_neg (by omega)]
        have : (pure (B, 8 - ptr - 1) : P (Nat × Nat)) (L ++ r) = .ok ((B, 7 - ptr), L ++ r) := by
          rw [pure_def, show 8 - ptr - 1 = 7 - ptr by omega]
        rw [bind_ok this]
        show (readBits bs.length B (7 - ptr) >>= _) _ = _
        rw [bind_ok e3, testBit_of_div e2]
        rfl

/-- The board-building side of `readCell`. -/
def putBits (b : Board) : List Pos → List Bool → Board
  | p :: ps, m :: ms => putBits (if m then b.set p.1 p.2 (-1) else b) ps ms
  | _, _ => b

theorem readCell_bits (ps : List Pos) : ∀ (b : Board) (byte ptr : Nat) (l r : Bytes) (ms : List Bool),
    readBits ps.length byte ptr l = .ok (ms, r) →
    ∃ y, foldP readCell (b, byte, ptr) ps l = .ok ((putBits b ps ms, y), r) := by
  induction ps with
  | nil =>
    intro b byte ptr l r ms h
    simp only [List.length_nil, readBits, pure_def, Except.ok.injEq, Prod.mk.injEq] at h
    obtain ⟨rfl, rfl⟩ := h
    exact ⟨_, rfl⟩
  | cons p ps ih =>
    intro b byte ptr l r ms h
    rw [List.length_cons, readBits] at h
    rw [foldP]
    cases h1 : (if ptr = 0 then do let b ← getU8; pure (b, 7) else pure (byte, ptr - 1) : P (Nat × Nat)) l with
    | error e => rw [bind_err h1] at h; simp at h
    | ok x =>
      obtain ⟨⟨byte', ptr'⟩, l'⟩ := x
      rw [bind_ok h1] at h
      have hc : readCell (b, byte, ptr) p l =
          .ok ((if byte'.testBit ptr' then b.set p.1 p.2 (-1) else b, byte', ptr'), l') := by
        unfold readCell
        rw [bind_ok h1]
        rfl
      rw [bind_ok hc]
      change (readBits ps.length byte' ptr' >>= _) l' = _ at h
      cases h2 : readBits ps.length byte' ptr' l' with
      | error e => rw [bind_err h2] at h; simp at h
      | ok z =>
        obtain ⟨ms', r'⟩ := z
        rw [bind_ok h2] at h
        simp only [pure_def, Except.ok.injEq, Prod.mk.injEq] at h
        obtain ⟨rfl, rfl⟩ := h
        obtain ⟨y, hy⟩ := ih (if byte'.testBit ptr' then b.set p.1 p.2 (-1) else b) byte' ptr' l' _ _ h2
        exact ⟨y, hy⟩

theorem putBits_spec {h w : Nat} (f : Pos → Bool) (ps : List Pos) : ∀ (b : Board), Rect b h w →
    (∀ p ∈ ps, p.1 < h ∧ p.2 < w) →
    Rect (putBits b ps (ps.map f)) h w ∧ ∀ i j, i < h → j < w →
      (putBits b ps (ps.map f)).get i j = if (i, j) ∈ ps ∧ f (i, j) = true then -1 else b.get i j := by
  induction ps with
  | nil => intro b hb _; exact ⟨hb, by intro i j _ _; simp [putBits]⟩
  | cons p ps ih =>
    intro b hb hps
    rw [List.map_cons, putBits]
    have hp := hps p (by simp)
    have hb' : Rect (if f p then b.set p.1 p.2 (-1) else b) h w := by
      split
      · exact rect_set hb _ _ _
      · exact hb
    obtain ⟨k1, k2⟩ := ih _ hb' (fun q hq => hps q (by simp [hq]))
    refine ⟨k1, fun i j hi hj => ?_⟩
    rw [k2 i j hi hj]
    by_cases hq : (i, j) ∈ ps ∧ f (i, j) = true
    · rw [if_pos hq, if_pos ⟨by simp [hq.1], hq.2⟩]
    · rw [if_neg hq]
      by_cases hpe : (i, j) = p
      · subst hpe
        by_cases hf : f (i, j) = true
        · rw [if_pos hf, if_pos ⟨by simp, hf⟩, get_set_self hb hi hj]
        · rw [if_neg hf, if_neg (fun hh => hf hh.2)]
      · have hne : ¬ ((i, j) ∈ p :: ps ∧ f (i, j) = true) := by
          intro hh
          rcases List.mem_cons.mp hh.1 with e | e
          · exact hpe e
          · exact hq ⟨e, hh.2⟩
        rw [if_neg hne]
        split
        · rw [get_set_ne hb hp.1 hp.2]
          rintro ⟨rfl, rfl⟩; exact hpe rfl
        · rfl

/-- Bitmap round trip, before the numbers are computed. -/
theorem bitmap_round (h w : Nat) (f : Nat → Nat → Int) (r : Bytes) :
    ∃ b0 y, foldP readCell (Board.build h w fun _ _ => 0, 0, 0) (cells h w) (genBoard h w f ++ r) =
      .ok ((b0, y), r) ∧ b0 = Board.build h w fun i j => if f i j = -1 then -1 else 0 := by
  have e : genBoard h w f = packRest ((cells h w).map fun p => decide (f p.1 p.2 = -1)) 0 0 := by
    have := packCell_foldl ((cells h w).map fun p => decide (f p.1 p.2 = -1)) [] 0 0
    rw [List.nil_append] at this
    exact this
  have k := (read_pack ((cells h w).map fun p => decide (f p.1 p.2 = -1)) 0 0 r (by omega) (by simp)).1 rfl 0
  rw [List.length_map] at k
  rw [e]
  obtain ⟨y, hy⟩ := readCell_bits (cells h w) (Board.build h w fun _ _ => 0) 0 0 _ r _ k
  refine ⟨_, y, hy, ?_⟩
  obtain ⟨k1, k2⟩ := putBits_spec (fun p => decide (f p.1 p.2 = -1)) (cells h w) _
    (rect_build h w fun _ _ => 0) (fun p hp => mem_cells.mp hp)
  refine Board.ext_get k1 (rect_build _ _ _) fun i j hi hj => ?_
  rw [k2 i j hi hj, get_build _ hi hj, get_build _ hi hj]
  have : (i, j) ∈ cells h w := mem_cells.mpr ⟨hi, hj⟩
  by_cases hf : f i j = -1 <;> simp [this, hf]

/-! ## events and checksum -/

theorem mouse_round {m : String} (h : m ∈ ["mv", "lc", "lr", "rc", "rr", "mc", "mr", "pf", "cc"]) :
    mouseOf (codeOf m) = m ∧ codeOf m ≠ 0 ∧ codeOf m ≠ 255 := by
  simp only [List.mem_cons, List.not_mem_nil, or_false] at h
  rcases h with rfl | rfl | rfl | rfl | rfl | rfl | rfl | rfl | rfl <;> decide

/-- An event within the format's widths. -/
structure Event.Fits (e : Event) : Prop where
  mouse : e.mouse ∈ ["mv", "lc", "lr", "rc", "rr", "mc", "mr", "pf", "cc"]
  ms : e.ms < 2 ^ 24
  x : e.x < 2 ^ 16
  y : e.y < 2 ^ 16

theorem genEvent_some {e : Event} (h1 : e.ms < 2 ^ 24) (h2 : e.x < 2 ^ 16) (h3 : e.y < 2 ^ 16) :
    genEvent e = some [codeOf e.mouse, e.ms / 65536, e.ms / 256 % 256, e.ms % 256, e.x / 256, e.x % 256,
      e.y / 256, e.y % 256] := by
  unfold genEvent
  rw [u8?_of_lt (n := e.ms / 65536) (by omega), u8?_of_lt (n := e.ms / 256 % 256) (by omega),
    u8?_of_lt (n := e.ms % 256) (by omega), u8?_of_lt (n := e.x / 256) (by omega),
    u8?_of_lt (n := e.x % 256) (by omega), u8?_of_lt (n := e.y / 256) (by omega),
    u8?_of_lt (n := e.y % 256) (by omega)]
  rfl

theorem genEnd_read (has : Bool) (sum : Bytes) (r : Bytes) (n : Nat) :
    getEvents (n + 1) (genEnd has sum ++ r) = .ok (([], has), (if has then sum else []) ++ r) := by
  cases has <;> rfl

theorem events_round {es : List Event} (hes : ∀ e ∈ es, e.Fits) :
    ∃ bs, genEvents es = some bs ∧ ∀ (has : Bool) (sum r : Bytes) (n : Nat), es.length < n →
      getEvents n (bs ++ (genEnd has sum ++ r)) = .ok ((es, has), (if has then sum else []) ++ r) := by
  induction es with
  | nil =>
    refine ⟨[], rfl, fun has sum r n hn => ?_⟩
    obtain ⟨n, rfl⟩ : ∃ k, n = k + 1 := ⟨n - 1, by simp at hn; omega⟩
    exact genEnd_read has sum r n
  | cons e es ih =>
    obtain ⟨bs, h1, h2⟩ := ih (fun x hx => hes x (by simp [hx]))
    have he := hes e (by simp)
    refine ⟨[codeOf e.mouse, e.ms / 65536, e.ms / 256 % 256, e.ms % 256, e.x / 256, e.x % 256,
      e.y / 256, e.y % 256] ++ bs, ?_, ?_⟩
    · rw [genEvents, genEvent_some he.ms he.x he.y, h1]; rfl
    · intro has sum r n hn
      obtain ⟨n, rfl⟩ : ∃ k, n = k + 1 := ⟨n - 1, by simp at hn; omega⟩
      obtain ⟨m1, m2, m3⟩ := mouse_round he.mouse
      rw [getEvents]
      simp only [List.cons_append, List.nil_append]
      rw [bind_ok (u8_cons _ _), if_neg m2, if_neg m3, bind_ok (u24_cons _ _ _ _), bind_ok (u16_cons _ _ _),
        bind_ok (u16_cons _ _ _), bind_ok (h2 has sum r n (by simpa using hn)), join24, join16, join16, m1]
      rfl

theorem bytes_round (sum r : Bytes) : getBytes sum.length (sum ++ r) = .ok (sum, r) := by
  induction sum with
  | nil => rfl
  | cons b s ih =>
    rw [List.length_cons, getBytes, List.cons_append, bind_ok (u8_cons _ _), bind_ok ih]; rfl

theorem genEvents_len {es : List Event} {bs : Bytes} (h : genEvents es = some bs) :
    es.length ≤ bs.length := by
  induction es generalizing bs with
  | nil => simp
  | cons e es ih =>
    rw [genEvents] at h
    cases h1 : genEvent e with
    | none => rw [h1] at h; simp at h
    | some b =>
      cases h2 : genEvents es with
      | none => rw [h1, h2] at h; simp at h
      | some b' =>
        rw [h1, h2] at h
        simp only [Option.bind_eq_bind, Option.bind_some, Option.pure_def, Option.some.injEq] at h
        subst h
        have := ih h2
        have hb : b.length = 8 := by
          simp only [genEvent, Option.bind_eq_bind, Option.bind_eq_some_iff, Option.pure_def,
            Option.some.injEq] at h1
          obtain ⟨_, _, _, _, _, _, _, _, _, _, _, _, _, _, rfl⟩ := h1
          rfl
        simp; omega

end Ms.Evf
