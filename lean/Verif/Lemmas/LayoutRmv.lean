import Verif.Lemmas.LayoutAvf

/-! # The layout of RMV files -/

namespace Ms.Vid
open Ms.Spec

theorem rmvPoint_eq {w h x y : Nat} (hw : w < 256) (hh : h < 256) (hx : x < 65536) (hy : y < 65536) :
    rmvPoint w h x y = rmvAt w h x y := by
  unfold rmvPoint rmvAt
  simp only
  have e1 : (x + 65536 - 12) % 65536 = if 12 ≤ x then x - 12 else x + 65524 := by split <;> omega
  have e2 : (y + 65536 - 56) % 65536 = if 56 ≤ y then y - 56 else y + 65480 := by split <;> omega
  rw [e1, e2]
  by_cases a : 12 ≤ x
  · by_cases b : 56 ≤ y
    · rw [if_pos a, if_pos b]
      by_cases c : x < 12 + w * 16 ∧ y < 56 + h * 16
      · rw [if_neg (by omega), if_pos (by omega)]
      · rw [if_pos (by omega), if_neg (by omega)]
    · rw [if_neg b, if_pos (by omega), if_neg (by omega)]
  · rw [if_neg a, if_pos (by omega), if_neg (by omega)]

theorem byte2 {a b : Nat} (ha : a < 256) (hb : b < 256) : a * 256 + b < 65536 := by omega

theorem rmvName_eq {c : Nat} (h1 : 1 ≤ c) (h2 : c ≤ 7) :
    ["mv", "lc", "lr", "rc", "rr", "mc", "mr"].getD (c - 1) "" = rmvName c := by
  have : c = 1 ∨ c = 2 ∨ c = 3 ∨ c = 4 ∨ c = 5 ∨ c = 6 ∨ c = 7 := by omega
  rcases this with rfl | rfl | rfl | rfl | rfl | rfl | rfl <;> rfl

/-- the events of the records that are left, before (`true`) and after the first event -/
def rmvLeft (w h : Nat) (first : Bool) (items : List RmvItem) : List FileEv :=
  if first then rmvPlayed w h items else items.flatMap (RmvItem.event w h)

theorem rmvLeft_cons_nil {w h : Nat} {first : Bool} {i : RmvItem} (hi : i.event w h = []) (items : List RmvItem) :
    rmvLeft w h first (i :: items) = rmvLeft w h first items := by
  cases first <;> simp [rmvLeft, rmvPlayed, hi]

theorem rmvLeft_cons_event {w h : Nat} {first : Bool} {i : RmvItem} {e : FileEv} (hi : i.event w h = [e]) (items : List RmvItem) :
    rmvLeft w h first (i :: items) = (if first then [{ e with mouse := "lc" }] else []) ++ e :: rmvLeft w h false items := by
  cases first <;> simp [rmvLeft, rmvPlayed, hi]

theorem rmvItem_codes (i : RmvItem) (hi : i.Valid) (r : Bytes) : ∃ c r', i.bytes ++ r = c :: r' ∧
    (c ≤ 14 ∨ 18 ≤ c) := by
  cases i with
  | tick b => exact ⟨0, _, rfl, by omega⟩
  | mouse c t1 t2 t3 u x1 x2 y1 y2 => exact ⟨c, _, rfl, by simp only [RmvItem.Valid] at hi; omega⟩
  | other c a b => exact ⟨c, _, rfl, by simp only [RmvItem.Valid] at hi; omega⟩

theorem rmvEvents_ok {w h : Nat} (hw : w < 256) (hh : h < 256) (first : Bool) (l r : Bytes) (es : List FileEv)
    (hl : ∀ b ∈ l, b < 256) : rmvEvents w h first l = .ok (es, r) ↔
    ∃ (items : List RmvItem) (stop : Nat), l = items.flatMap RmvItem.bytes ++ stop :: r ∧ (∀ i ∈ items, i.Valid) ∧
      (15 ≤ stop ∧ stop ≤ 17) ∧ es = rmvLeft w h first items := by
  constructor
  · induction hn : l.length using Nat.strong_induction_on generalizing first l es with
    | _ n ih =>
      intro hok
      match l with
      | [] => rw [rmvEvents_nil] at hok; cases hok
      | c :: l =>
        rw [rmvEvents_cons] at hok
        split at hok
        · rename_i hc
          subst hc
          split at hok
          · rename_i t1 t2 t3 t4 l'
            obtain ⟨items, stop, rfl, h2, h3, rfl⟩ := ih _ (by subst hn; simp only [List.length_cons]; omega) first l' es
              (fun b hb => hl b (by simp [hb])) rfl hok
            refine ⟨.tick [t1, t2, t3, t4] :: items, stop, rfl, ?_, h3, (rmvLeft_cons_nil rfl _).symm⟩
            intro i hi
            rcases List.mem_cons.mp hi with rfl | hi
            · rfl
            · exact h2 i hi
          · cases hok
        split at hok
        · rename_i hc0 hc7
          split at hok
          · rename_i t1 t2 t3 u x1 x2 y1 y2 l'
            have hx : x1 * 256 + x2 < 65536 := byte2 (hl x1 (by simp)) (hl x2 (by simp))
            have hy : y1 * 256 + y2 < 65536 := byte2 (hl y1 (by simp)) (hl y2 (by simp))
            split at hok
            · rename_i es' r' he
              rw [ok_pair] at hok
              obtain ⟨rfl, rfl⟩ := hok
              obtain ⟨items, stop, rfl, h2, h3, rfl⟩ := ih _ (by subst hn; simp only [List.length_cons]; omega) false l' es'
                (fun b hb => hl b (by simp [hb])) rfl he
              refine ⟨.mouse c t1 t2 t3 u x1 x2 y1 y2 :: items, stop, rfl, ?_, h3, ?_⟩
              · intro i hi
                rcases List.mem_cons.mp hi with rfl | hi
                · exact ⟨by omega, hc7⟩
                · exact h2 i hi
              · rw [rmvLeft_cons_event rfl, rmvName_eq (by omega) hc7, rmvPoint_eq hw hh hx hy]
            · cases hok
          · cases hok
        split at hok
        · cases hok
        split at hok
        · rename_i hc0 hc7 hc8 hc
          split at hok
          · rename_i a b l'
            obtain ⟨items, stop, rfl, h2, h3, rfl⟩ := ih _ (by subst hn; simp only [List.length_cons]; omega) first l' es
              (fun b hb => hl b (by simp [hb])) rfl hok
            refine ⟨.other c a b :: items, stop, rfl, ?_, h3, (rmvLeft_cons_nil rfl _).symm⟩
            intro i hi
            rcases List.mem_cons.mp hi with rfl | hi
            · simp only [RmvItem.Valid]; omega
            · exact h2 i hi
          · cases hok
        split at hok
        · rename_i hc0 hc7 hc8 hc hc17
          rw [ok_pair] at hok
          obtain ⟨rfl, rfl⟩ := hok
          exact ⟨[], c, rfl, by simp, by omega, by cases first <;> rfl⟩
        · cases hok
  · rintro ⟨items, stop, rfl, h2, h3, rfl⟩
    induction items generalizing first with
    | nil =>
      rw [List.flatMap_nil, List.nil_append, rmvEvents_cons, if_neg (by omega), if_neg (by omega), if_neg (by omega),
        if_neg (by omega), if_pos (by omega)]
      cases first <;> rfl
    | cons i items ih =>
      have ih := fun first => ih first (fun b hb => hl b (by
        rw [List.flatMap_cons, List.append_assoc]; exact List.mem_append_right _ hb)) (fun i hi => h2 i (by simp [hi]))
      have hi := h2 i (by simp)
      rw [List.flatMap_cons, List.append_assoc] at hl ⊢
      cases i with
      | tick b =>
        obtain ⟨t1, t2, t3, t4, rfl⟩ : ∃ t1 t2 t3 t4, b = [t1, t2, t3, t4] := by
          simp only [RmvItem.Valid] at hi
          match b, hi with
          | [t1, t2, t3, t4], _ => exact ⟨t1, t2, t3, t4, rfl⟩
        rw [RmvItem.bytes, rmvLeft_cons_nil rfl, List.cons_append, rmvEvents_cons, if_pos rfl]
        exact ih first
      | mouse c t1 t2 t3 u x1 x2 y1 y2 =>
        obtain ⟨hc1, hc7⟩ := hi
        simp only [RmvItem.bytes, List.cons_append, List.nil_append] at hl ⊢
        have hx : x1 * 256 + x2 < 65536 := byte2 (hl x1 (by simp)) (hl x2 (by simp))
        have hy : y1 * 256 + y2 < 65536 := byte2 (hl y1 (by simp)) (hl y2 (by simp))
        rw [rmvEvents_cons, if_neg (by omega), if_pos hc7]
        simp only
        rw [ih false, rmvLeft_cons_event rfl, rmvName_eq (by omega) hc7, rmvPoint_eq hw hh hx hy]
      | other c a b =>
        simp only [RmvItem.Valid] at hi
        rw [RmvItem.bytes, rmvLeft_cons_nil rfl, List.cons_append, rmvEvents_cons, if_neg (by omega), if_neg (by omega),
          if_neg (by omega), if_pos (by omega)]
        exact ih first

theorem rmvFlags_ok (n : Nat) (l r : Bytes) (es : List FileEv) : rmvFlags n l = .ok (es, r) ↔
    ∃ ps : List (Nat × Nat), ps.length = n ∧ l = flat2 ps ++ r ∧ es = ps.map fun q => ⟨0, "pf", q.2 * 16, q.1 * 16⟩ := by
  induction n generalizing l r es with
  | zero =>
    rw [rmvFlags, pure_ok]
    constructor
    · rintro ⟨rfl, rfl⟩; exact ⟨[], rfl, rfl, rfl⟩
    · rintro ⟨ps, h1, h2, h3⟩
      obtain rfl := List.length_eq_zero_iff.mp h1
      exact ⟨h3.symm, h2⟩
  | succ n ih =>
    simp only [rmvFlags, bind_ok, u8_ok, pure_ok, ih]
    constructor
    · rintro ⟨c, r1, rfl, d, r2, rfl, es', r3, ⟨ps, h1, rfl, rfl⟩, rfl, rfl⟩
      exact ⟨(c, d) :: ps, by simp [h1], rfl, rfl⟩
    · rintro ⟨ps, h1, rfl, rfl⟩
      cases ps with
      | nil => simp at h1
      | cons q ps => exact ⟨q.1, _, rfl, q.2, _, rfl, _, _, ⟨ps, by simpa using h1, rfl, rfl⟩, rfl, rfl⟩

theorem rmvMines_boardOf {h w n : Nat} (hh : 0 < h) (l r : Bytes) (b : Board) :
    (∃ b0, rmvMines h w n (Board.build h w fun _ _ => 0) l = .ok (b0, r) ∧ calBoardNumbers b0 = some b) ↔
    ∃ ps : List (Nat × Nat), ps.length = n ∧ (∀ q ∈ ps, q.1 < w ∧ q.2 < h) ∧ l = flat2 ps ++ r ∧
      BoardOf h w (ps.map fun q => (q.2, q.1)) b := by
  have hgood : ∀ q : Nat × Nat, decide (w ≤ q.1 ∨ h ≤ q.2) = false ↔ q.1 < w ∧ q.2 < h := by
    intro q
    rw [decide_eq_false_iff_not]
    omega
  have hM : ∀ ps : List (Nat × Nat), (∀ q ∈ ps, q.1 < w ∧ q.2 < h) →
      ∀ p ∈ ps.map (fun q => (q.2, q.1)), p.1 < h ∧ p.2 < w := by
    intro ps hps p hp
    obtain ⟨q, hq, rfl⟩ := List.mem_map.mp hp
    have := hps q hq
    exact ⟨this.2, this.1⟩
  have hfold : ∀ ps : List (Nat × Nat), ps.foldl (fun b q => b.set q.2 q.1 (-1)) (Board.build h w fun _ _ => 0) =
      (ps.map fun q => (q.2, q.1)).foldl (fun b q => b.set q.1 q.2 (-1)) (Board.build h w fun _ _ => 0) := by
    intro ps; rw [List.foldl_map]
  rw [rmvMines_eq]
  simp only [readMines_layout, hgood]
  constructor
  · rintro ⟨b0, ⟨ps, h1, h2, h3, rfl⟩, h4⟩
    refine ⟨ps, h1, h2, h3, ?_⟩
    rwa [← calBoardNumbers_boardOf hh _ (hM ps h2), ← hfold]
  · rintro ⟨ps, h1, h2, h3, h4⟩
    refine ⟨_, ⟨ps, h1, h2, h3, rfl⟩, ?_⟩
    rwa [← calBoardNumbers_boardOf hh _ (hM ps h2), ← hfold] at h4

theorem mvfMines_boardOf {h w n : Nat} (hh : 0 < h) (l r : Bytes) (b : Board) :
    (∃ b0, mvfMines h w n (Board.build h w fun _ _ => 0) l = .ok (b0, r) ∧ calBoardNumbers b0 = some b) ↔
    ∃ ps : List (Nat × Nat), ps.length = n ∧ (∀ q ∈ ps, 1 ≤ q.1 ∧ q.1 ≤ w ∧ 1 ≤ q.2 ∧ q.2 ≤ h) ∧ l = flat2 ps ++ r ∧
      BoardOf h w (ps.map fun q => (q.2 - 1, q.1 - 1)) b := by
  have hgood : ∀ q : Nat × Nat, decide (q.1 = 0 ∨ w < q.1 ∨ q.2 = 0 ∨ h < q.2) = false ↔
      1 ≤ q.1 ∧ q.1 ≤ w ∧ 1 ≤ q.2 ∧ q.2 ≤ h := by
    intro q
    rw [decide_eq_false_iff_not]
    omega
  have hM : ∀ ps : List (Nat × Nat), (∀ q ∈ ps, 1 ≤ q.1 ∧ q.1 ≤ w ∧ 1 ≤ q.2 ∧ q.2 ≤ h) →
      ∀ p ∈ ps.map (fun q => (q.2 - 1, q.1 - 1)), p.1 < h ∧ p.2 < w := by
    intro ps hps p hp
    obtain ⟨q, hq, rfl⟩ := List.mem_map.mp hp
    have := hps q hq
    simp only
    omega
  have hfold : ∀ ps : List (Nat × Nat), ps.foldl (fun b q => b.set (q.2 - 1) (q.1 - 1) (-1)) (Board.build h w fun _ _ => 0) =
      (ps.map fun q => (q.2 - 1, q.1 - 1)).foldl (fun b q => b.set q.1 q.2 (-1)) (Board.build h w fun _ _ => 0) := by
    intro ps; rw [List.foldl_map]
  rw [mvfMines_eq]
  simp only [readMines_layout, hgood]
  constructor
  · rintro ⟨b0, ⟨ps, h1, h2, h3, rfl⟩, h4⟩
    refine ⟨ps, h1, h2, h3, ?_⟩
    rwa [← calBoardNumbers_boardOf hh _ (hM ps h2), ← hfold]
  · rintro ⟨ps, h1, h2, h3, h4⟩
    refine ⟨_, ⟨ps, h1, h2, h3, rfl⟩, ?_⟩
    rwa [← calBoardNumbers_boardOf hh _ (hM ps h2), ← hfold] at h4

theorem expect_ok {c : Nat} {l r : Bytes} {u : Unit} : expect c l = .ok (u, r) ↔ l = c :: r := by
  cases l with
  | nil => simp [expect]
  | cons b l =>
    simp only [expect]
    split
    · rename_i h; subst h; rw [ok_pair]; simp
    · rename_i h; simp [h]

theorem rmvMagic_ok {l r : Bytes} {u : Unit} : rmvMagic l = .ok (u, r) ↔ l = [42, 114, 109, 118, 0, 1] ++ r := by
  have : ∀ l : Bytes, (do expect 42; expect 114; expect 109; expect 118; expect 0; expect 1 : Rd Unit) l = .ok (u, r) ↔
      l = [42, 114, 109, 118, 0, 1] ++ r := by
    intro l
    simp only [bind_ok, expect_ok]
    constructor
    · rintro ⟨-, r1, rfl, -, r2, rfl, -, r3, rfl, -, r4, rfl, -, r5, rfl, rfl⟩; rfl
    · rintro rfl; exact ⟨(), _, rfl, (), _, rfl, (), _, rfl, (), _, rfl, (), _, rfl, rfl⟩
  unfold rmvMagic
  by_cases hl : l = []
  · rw [if_pos hl, hl]; simp
  · rw [if_neg hl]; exact this l

theorem rmvStr_false {l r s : Bytes} : rmvStr false l = .ok (s, r) ↔ s = [] ∧ l = r := by
  simp only [rmvStr, Bool.false_eq_true, if_false, pure_ok]
  exact and_congr_left fun _ => eq_comm

theorem rmvStr_true {l r s : Bytes} : rmvStr true l = .ok (s, r) ↔ l = s.length :: s ++ r := by
  simp only [rmvStr, if_true, bind_ok, u8_ok, take_ok]
  constructor
  · rintro ⟨n, r1, rfl, rfl, rfl⟩; rfl
  · rintro rfl; exact ⟨_, _, rfl, rfl, rfl⟩

/-- the four texts -/
theorem rmvTexts_ok (info : Nat) (l r p1 p2 p3 p4 : Bytes) :
    (∃ r1 r2 r3, rmvStr (0 < info) l = .ok (p1, r1) ∧ rmvStr (1 < info) r1 = .ok (p2, r2) ∧
      rmvStr (2 < info) r2 = .ok (p3, r3) ∧ rmvStr (3 < info) r3 = .ok (p4, r)) ↔
    ∃ texts : List Bytes, texts.length = min 4 info ∧ l = texts.flatMap (fun t => t.length :: t) ++ r ∧
      p1 = texts.getD 0 [] ∧ p2 = texts.getD 1 [] ∧ p3 = texts.getD 2 [] ∧ p4 = texts.getD 3 [] := by
  have hsplit : info = 0 ∨ info = 1 ∨ info = 2 ∨ info = 3 ∨ 4 ≤ info := by omega
  rcases hsplit with h | h | h | h | h
  · subst h
    simp only [Nat.lt_irrefl, Nat.not_lt_zero, decide_false, rmvStr_false]
    constructor
    · rintro ⟨r1, r2, r3, ⟨rfl, rfl⟩, ⟨rfl, rfl⟩, ⟨rfl, rfl⟩, ⟨rfl, rfl⟩⟩
      exact ⟨[], rfl, rfl, rfl, rfl, rfl, rfl⟩
    · rintro ⟨t, h1, rfl, rfl, rfl, rfl, rfl⟩
      obtain rfl : t = [] := List.length_eq_zero_iff.mp (by simpa using h1)
      exact ⟨_, _, _, ⟨rfl, rfl⟩, ⟨rfl, rfl⟩, ⟨rfl, rfl⟩, ⟨rfl, rfl⟩⟩
  · subst h
    simp only [show (0 : Nat) < 1 from by omega, show ¬ (1 : Nat) < 1 from by omega, show ¬ (2 : Nat) < 1 from by omega,
      show ¬ (3 : Nat) < 1 from by omega, decide_false, decide_true, rmvStr_false, rmvStr_true]
    constructor
    · rintro ⟨r1, r2, r3, rfl, ⟨rfl, rfl⟩, ⟨rfl, rfl⟩, ⟨rfl, rfl⟩⟩
      exact ⟨[p1], rfl, by simp, rfl, rfl, rfl, rfl⟩
    · rintro ⟨t, h1, rfl, rfl, rfl, rfl, rfl⟩
      match t, h1 with
      | [a], _ => exact ⟨_, _, _, by simp, ⟨rfl, rfl⟩, ⟨rfl, rfl⟩, ⟨rfl, rfl⟩⟩
  · subst h
    simp only [show (0 : Nat) < 2 from by omega, show (1 : Nat) < 2 from by omega, show ¬ (2 : Nat) < 2 from by omega,
      show ¬ (3 : Nat) < 2 from by omega, decide_false, decide_true, rmvStr_false, rmvStr_true]
    constructor
    · rintro ⟨r1, r2, r3, rfl, rfl, ⟨rfl, rfl⟩, ⟨rfl, rfl⟩⟩
      exact ⟨[p1, p2], rfl, by simp, rfl, rfl, rfl, rfl⟩
    · rintro ⟨t, h1, rfl, rfl, rfl, rfl, rfl⟩
      match t, h1 with
      | [a, b], _ => exact ⟨b.length :: b ++ r, _, _, by simp, rfl, ⟨rfl, rfl⟩, ⟨rfl, rfl⟩⟩
  · subst h
    simp only [show (0 : Nat) < 3 from by omega, show (1 : Nat) < 3 from by omega, show (2 : Nat) < 3 from by omega,
      show ¬ (3 : Nat) < 3 from by omega, decide_false, decide_true, rmvStr_false, rmvStr_true]
    constructor
    · rintro ⟨r1, r2, r3, rfl, rfl, rfl, ⟨rfl, rfl⟩⟩
      exact ⟨[p1, p2, p3], rfl, by simp, rfl, rfl, rfl, rfl⟩
    · rintro ⟨t, h1, rfl, rfl, rfl, rfl, rfl⟩
      match t, h1 with
      | [a, b, c], _ => exact ⟨b.length :: b ++ (c.length :: c ++ r), _, _, by simp, rfl, rfl, ⟨rfl, rfl⟩⟩
  · simp only [show 0 < info from by omega, show 1 < info from by omega, show 2 < info from by omega,
      show 3 < info from by omega, decide_true, rmvStr_true]
    constructor
    · rintro ⟨r1, r2, r3, rfl, rfl, rfl, rfl⟩
      exact ⟨[p1, p2, p3, p4], by simp; omega, by simp, rfl, rfl, rfl, rfl⟩
    · rintro ⟨t, h1, rfl, rfl, rfl, rfl, rfl⟩
      rw [Nat.min_eq_left h] at h1
      match t, h1 with
      | [a, b, c, d], _ =>
        exact ⟨b.length :: b ++ (c.length :: c ++ (d.length :: d ++ r)), _, _, by simp, rfl, rfl, rfl⟩

/-- the result text -/
theorem rmvResult_ok {size : Nat} (hs : 3 ≤ size) (l r : Bytes) (bbbv : Nat) (st : Bytes) :
    rmvResult size l = .ok ((bbbv, st), r) ↔ ∃ res : Bytes, res.length + 3 = size ∧ l = res ++ r ∧
      if 35 < res.length + 3 then
        parseUsize (((res.drop (res.length - 29)).take 3).filter fun c => 48 ≤ c ∧ c ≤ 57) = some bbbv ∧
        st = res.drop (res.length - 10)
      else bbbv = 0 ∧ st = [] := by
  unfold rmvResult
  split
  · rename_i h35
    simp only [bind_ok, skip_ok, take_ok]
    constructor
    · rintro ⟨-, r1, ⟨a, ha, rfl⟩, s, r2, ⟨hs3, rfl⟩, h⟩
      cases hn : rmvBbbv s with
      | none => rw [hn] at h; cases h
      | some n =>
        rw [hn] at h
        simp only [bind_ok, skip_ok, take_ok, pure_ok, Prod.mk.injEq] at h
        obtain ⟨-, r3, ⟨b, hb, rfl⟩, t, r4, ⟨ht, rfl⟩, ⟨rfl, rfl⟩, rfl⟩ := h
        refine ⟨a ++ s ++ b ++ t, by simp; omega, by simp, ?_⟩
        rw [if_pos (by simp; omega)]
        have e1 : (a ++ s ++ b ++ t).length - 29 = a.length := by simp; omega
        have e2 : (a ++ s ++ b ++ t).length - 10 = (a ++ s ++ b).length := by simp; omega
        rw [e1, e2]
        refine ⟨?_, by rw [List.drop_left]⟩
        rw [show a ++ s ++ b ++ t = a ++ (s ++ (b ++ t)) from by simp, List.drop_left, ← hs3, List.take_left]
        exact hn
    · rintro ⟨res, hres, rfl, h⟩
      rw [if_pos (by omega)] at h
      refine ⟨(), res.drop (size - 32) ++ r, ⟨res.take (size - 32), by simp; omega, by
        rw [← List.append_assoc, List.take_append_drop]⟩, (res.drop (size - 32)).take 3, (res.drop (size - 29)) ++ r,
        ⟨by simp; omega, ?_⟩, ?_⟩
      · rw [← List.append_assoc]
        congr 1
        have := (List.take_append_drop 3 (res.drop (size - 32))).symm
        rw [List.drop_drop, show size - 32 + 3 = size - 29 from by omega] at this
        exact this
      · have e : res.length - 29 = size - 32 := by omega
        rw [e] at h
        simp only [rmvBbbv, h.1]
        simp only [bind_ok, skip_ok, take_ok, pure_ok, Prod.mk.injEq]
        refine ⟨(), res.drop (size - 13) ++ r, ⟨(res.drop (size - 29)).take 16, by simp; omega, ?_⟩, st, r, ⟨?_, ?_⟩,
          ⟨trivial, rfl⟩, rfl⟩
        · rw [← List.append_assoc]
          congr 1
          have := (List.take_append_drop 16 (res.drop (size - 29))).symm
          rw [List.drop_drop, show size - 29 + 16 = size - 13 from by omega] at this
          exact this
        · rw [h.2]; simp; omega
        · rw [h.2, show res.length - 10 = size - 13 from by omega]
  · rename_i h35
    simp only [bind_ok, take_ok, pure_ok, Prod.mk.injEq]
    constructor
    · rintro ⟨s, r1, ⟨h1, rfl⟩, ⟨rfl, rfl⟩, rfl⟩
      exact ⟨s, by omega, rfl, by rw [if_neg (by omega)]; exact ⟨rfl, rfl⟩⟩
    · rintro ⟨res, h1, rfl, h2⟩
      rw [if_neg (by omega)] at h2
      exact ⟨res, _, ⟨by omega, rfl⟩, ⟨h2.1.symm, h2.2.symm⟩, rfl⟩

/-- the flags before the game -/
theorem rmvPre_ok {preSize : Nat} (l r : Bytes) (es : List FileEv) (hl : ∀ b ∈ l, b < 256) :
    rmvPre preSize l = .ok (es, r) ↔
    ∃ ps : List (Nat × Nat), (preSize = 0 → ps = []) ∧
      l = (if 0 < preSize then two ps.length ++ flat2 ps else []) ++ r ∧ es = ps.map fun q => ⟨0, "pf", q.2 * 16, q.1 * 16⟩ := by
  unfold rmvPre
  by_cases h : 0 < preSize
  · rw [if_pos h]
    simp only [bind_ok, u16_two hl, rmvFlags_ok]
    constructor
    · rintro ⟨n, r1, rfl, ps, rfl, rfl, rfl⟩
      exact ⟨ps, by omega, by rw [if_pos h]; simp, rfl⟩
    · rintro ⟨ps, -, rfl, rfl⟩
      exact ⟨ps.length, _, by rw [if_pos h]; simp, ps, rfl, rfl, rfl⟩
  · rw [if_neg h, pure_ok]
    constructor
    · rintro ⟨rfl, rfl⟩; exact ⟨[], fun _ => rfl, by rw [if_neg h]; rfl, rfl⟩
    · rintro ⟨ps, h1, rfl, rfl⟩
      rw [h1 (by omega), if_neg h]; exact ⟨rfl, rfl⟩

set_option maxHeartbeats 1000000 in
/-- The parser accepts exactly the files of the layout. -/
theorem parseRmv_layout (l r : Bytes) (v : FileVideo) (hl : ∀ b ∈ l, b < 256) :
    parseRmv l = .ok (v, r) ↔ ∃ f : RmvFile, f.Valid ∧ l = f.bytes ++ r ∧ f.Video v := by
  constructor
  · intro h
    unfold parseRmv at h
    obtain ⟨ur0, r0, h0, g1⟩ := bind_ok.mp h
    rw [rmvMagic_ok] at h0
    subst h0
    obtain ⟨ur1, r1, h1, g2⟩ := bind_ok.mp g1
    obtain ⟨k1, hk1, rfl⟩ := skip_ok.mp h1
    obtain ⟨rs, r2, h2, g3⟩ := bind_ok.mp g2
    rw [u16_two (fun b hb => hl b (by simp [hb]))] at h2
    subst h2
    obtain ⟨vs, r3, h3, g4⟩ := bind_ok.mp g3
    rw [u16_two (fun b hb => hl b (by simp [hb]))] at h3
    subst h3
    obtain ⟨ur4, r4, h4, g5⟩ := bind_ok.mp g4
    obtain ⟨k2, hk2, rfl⟩ := skip_ok.mp h4
    obtain ⟨ps, r5, h5, g6⟩ := bind_ok.mp g5
    rw [u16_two (fun b hb => hl b (by simp [hb]))] at h5
    subst h5
    obtain ⟨pr, r6, h6, g7⟩ := bind_ok.mp g6
    rw [u16_two (fun b hb => hl b (by simp [hb]))] at h6
    subst h6
    split at g7
    · cases g7
    rename_i hrs
    obtain ⟨ur7, r7, h7, g8⟩ := bind_ok.mp g7
    obtain ⟨k3, hk3, rfl⟩ := skip_ok.mp h7
    obtain ⟨⟨bbbv, st⟩, r8, h8, g9⟩ := bind_ok.mp g8
    obtain ⟨res, hres, rfl, hresult⟩ := (rmvResult_ok (by omega) _ _ _ _).mp h8
    obtain ⟨ur9, r9, h9, g10⟩ := bind_ok.mp g9
    obtain ⟨ver, hver, rfl⟩ := skip_ok.mp h9
    obtain ⟨info, r10, h10, g11⟩ := bind_ok.mp g10
    rw [u16_two (fun b hb => hl b (by simp [hb]))] at h10
    subst h10
    obtain ⟨p1, r11, h11, g12⟩ := bind_ok.mp g11
    obtain ⟨p2, r12, h12, g13⟩ := bind_ok.mp g12
    obtain ⟨p3, r13, h13, g14⟩ := bind_ok.mp g13
    obtain ⟨p4, r14, h14, g15⟩ := bind_ok.mp g14
    obtain ⟨texts, ht1, rfl, ht2, -, ht3, -⟩ := (rmvTexts_ok info r10 r14 p1 p2 p3 p4).mp ⟨_, _, _, h11, h12, h13, h14⟩
    obtain ⟨ur15, r15, h15, g16⟩ := bind_ok.mp g15
    unfold rmvTail at g16
    obtain ⟨k4, hk4, rfl⟩ := skip_ok.mp h15
    obtain ⟨w, r16, h16, g17⟩ := bind_ok.mp g16
    rw [u8_ok] at h16
    subst h16
    obtain ⟨hh, r17, h17, g18⟩ := bind_ok.mp g17
    rw [u8_ok] at h17
    subst h17
    obtain ⟨m, r18, h18, g19⟩ := bind_ok.mp g18
    rw [u16_two (fun b hb => hl b (by simp [hb]))] at h18
    subst h18
    obtain ⟨b0, r19, h19, g20⟩ := bind_ok.mp g19
    have hbd : ∀ b, calBoardNumbers b0 = some b → 0 < hh := by
      intro b hb
      rw [rmvMines_eq] at h19
      have hR := (readMines_ok (h := hh) (w := w) (by
        intro c d hcd
        rw [decide_eq_false_iff_not] at hcd
        simp only; omega) _ _ _ _ _ (rect_build hh w _) h19).2.2.1
      unfold calBoardNumbers at hb
      split at hb
      · cases hb
      · rename_i hr
        rw [hR.row_eq] at hr
        omega
    cases hb : calBoardNumbers b0 with
    | none => rw [hb] at g20; cases g20
    | some b =>
    rw [hb] at g20
    have hpos := hbd b hb
    obtain ⟨ms, rfl, hms, rfl, hboard⟩ := (rmvMines_boardOf hpos _ _ b).mp ⟨b0, h19, hb⟩
    obtain ⟨pre, r20, h20, g21⟩ := bind_ok.mp g20
    obtain ⟨fl, hfl, rfl, rfl⟩ := (rmvPre_ok _ _ _ (fun b hb => hl b (by simp [hb]))).mp h20
    obtain ⟨ur21, r21, h21, g22⟩ := bind_ok.mp g21
    obtain ⟨k5, hk5, rfl⟩ := skip_ok.mp h21
    obtain ⟨un, rfl⟩ := List.length_eq_one_iff.mp hk5
    obtain ⟨nf, r22, h22, g23⟩ := bind_ok.mp g22
    rw [u8_ok] at h22
    subst h22
    obtain ⟨mode, r23, h23, g24⟩ := bind_ok.mp g23
    rw [u8_ok] at h23
    subst h23
    obtain ⟨level, r24, h24, g25⟩ := bind_ok.mp g24
    rw [u8_ok] at h24
    subst h24
    split at g25
    · cases g25
    rename_i hlp
    obtain ⟨ur25, r25, h25, g26⟩ := bind_ok.mp g25
    obtain ⟨props, hprops, rfl⟩ := skip_ok.mp h25
    obtain ⟨es, r26, h26, g27⟩ := bind_ok.mp g26
    rw [rmvEvents_ok (hl w (by simp)) (hl hh (by simp)) _ _ _ _ (fun b hb => hl b (by simp [hb]))] at h26
    obtain ⟨items, stop, rfl, hit, hstop, rfl⟩ := h26
    cases hlast : (fl.map (fun q => (⟨0, "pf", q.2 * 16, q.1 * 16⟩ : FileEv)) ++ rmvLeft w hh true items).getLast? with
    | none => rw [hlast] at g27; cases g27
    | some last =>
    rw [hlast] at g27
    rw [pure_ok] at g27
    obtain ⟨rfl, rfl⟩ := g27
    refine ⟨⟨k1, k2, k3, res, ver, info, texts, k4, w, hh, ms, ps, fl, un, nf, mode, level, props, items, stop⟩, ?_, ?_, ?_⟩
    · refine ⟨⟨hk1, hk2, hk3, hk4⟩, by simp only; omega, ht1, hpos, hms, hfl, by simp only; omega, hit, hstop, ?_⟩
      by_contra hc
      simp only [not_or, not_not] at hc
      rw [hc.1] at hlast
      have : rmvLeft w hh true items = [] := hc.2
      simp [this] at hlast
    · have e1 : res.length + 3 = rs := hres
      have e2 : ver.length - 2 = vs := by omega
      have e3 : props.length + 4 = pr := by omega
      simp only [RmvFile.bytes, List.flatten_cons, List.flatten_nil, List.append_assoc, List.cons_append, List.nil_append, e1, e2, e3]
    · exact ⟨⟨rfl, rfl, rfl, rfl⟩, hboard, hresult, ⟨ht2, ht3⟩, rfl, ⟨last, hlast, rfl⟩, rfl, rfl, by simp, rfl⟩
  · rintro ⟨f, hf, hlf, hv⟩
    rw [hlf] at hl ⊢
    clear hlf l
    obtain ⟨⟨k1, k2, k3, k4⟩, hver, htx, hpos, hms, hpre, hlev, hit, hstop, hsome⟩ := hf
    obtain ⟨⟨s1, s2, s3, s4⟩, hboard, hres, ⟨t1, t2⟩, hev, ⟨last, hlast, hrt⟩, o1, o2, o3, o4⟩ := hv
    simp only [RmvFile.bytes, List.flatten_cons, List.flatten_nil, List.append_assoc, List.cons_append, List.nil_append] at hl ⊢
    unfold parseRmv
    refine bind_ok.mpr ⟨(), _, rmvMagic_ok.mpr rfl, ?_⟩
    refine bind_ok.mpr ⟨(), _, skip_ok.mpr ⟨_, k1, rfl⟩, ?_⟩
    refine bind_ok.mpr ⟨_, _, u16_run _ _, ?_⟩
    refine bind_ok.mpr ⟨_, _, u16_run _ _, ?_⟩
    refine bind_ok.mpr ⟨(), _, skip_ok.mpr ⟨_, k2, rfl⟩, ?_⟩
    refine bind_ok.mpr ⟨_, _, u16_run _ _, ?_⟩
    refine bind_ok.mpr ⟨_, _, u16_run _ _, ?_⟩
    rw [if_neg (by omega)]
    refine bind_ok.mpr ⟨(), _, skip_ok.mpr ⟨_, k3, rfl⟩, ?_⟩
    refine bind_ok.mpr ⟨(v.bbbv, v.startTime), _, (rmvResult_ok (by omega) _ _ _ _).mpr ⟨f.result, rfl, rfl, hres⟩, ?_⟩
    refine bind_ok.mpr ⟨(), _, skip_ok.mpr ⟨f.version, by omega, rfl⟩, ?_⟩
    refine bind_ok.mpr ⟨_, _, u16_run _ _, ?_⟩
    obtain ⟨r1, r2, r3, g1, g2, g3, g4⟩ := (rmvTexts_ok f.info _ _ _ _ _ _).mpr ⟨f.texts, htx, rfl, rfl, rfl, rfl, rfl⟩
    refine bind_ok.mpr ⟨_, _, g1, bind_ok.mpr ⟨_, _, g2, bind_ok.mpr ⟨_, _, g3, bind_ok.mpr ⟨_, _, g4, ?_⟩⟩⟩⟩
    refine bind_ok.mpr ⟨(), _, skip_ok.mpr ⟨_, k4, rfl⟩, ?_⟩
    unfold rmvTail
    refine bind_ok.mpr ⟨_, _, u8_ok.mpr rfl, ?_⟩
    refine bind_ok.mpr ⟨_, _, u8_ok.mpr rfl, ?_⟩
    refine bind_ok.mpr ⟨_, _, u16_run _ _, ?_⟩
    obtain ⟨b0, g5, g6⟩ := (rmvMines_boardOf hpos _ _ v.board).mpr ⟨f.mines, rfl, hms, rfl, hboard⟩
    refine bind_ok.mpr ⟨_, _, g5, ?_⟩
    rw [g6]
    refine bind_ok.mpr ⟨_, _, (rmvPre_ok _ _ _ (fun b hb => hl b (by simp only [List.mem_append, hb, or_true, true_or,
      List.mem_cons]))).mpr ⟨f.pre, hpre, rfl, rfl⟩, ?_⟩
    refine bind_ok.mpr ⟨(), _, skip_ok.mpr ⟨[f.unused], rfl, rfl⟩, ?_⟩
    refine bind_ok.mpr ⟨_, _, u8_ok.mpr rfl, ?_⟩
    refine bind_ok.mpr ⟨_, _, u8_ok.mpr rfl, ?_⟩
    refine bind_ok.mpr ⟨_, _, u8_ok.mpr rfl, ?_⟩
    rw [if_neg (by omega)]
    refine bind_ok.mpr ⟨(), _, skip_ok.mpr ⟨f.props, by omega, rfl⟩, ?_⟩
    refine bind_ok.mpr ⟨_, _, (rmvEvents_ok (hl f.width (by simp)) (hl f.height (by simp)) true _ _ _ (fun b hb => hl b (by
      simp only [List.mem_append, hb, or_true, true_or, List.mem_cons]))).mpr ⟨f.items, f.stop, rfl, hit, hstop, rfl⟩, ?_⟩
    have hev' : f.pre.map (fun q => (⟨0, "pf", q.2 * 16, q.1 * 16⟩ : FileEv)) ++ rmvLeft f.width f.height true f.items = v.events :=
      hev.symm
    rw [hev', hlast]
    rw [pure_ok]
    refine ⟨?_, rfl⟩
    have o3' : decide (f.nf = 1) = v.nf := by
      cases hvn : v.nf
      · rw [decide_eq_false_iff_not]; intro hx; rw [o3.mpr hx] at hvn; cases hvn
      · rw [decide_eq_true_eq]; exact o3.mp hvn
    obtain ⟨a1, a2, a3, a4, a5, a6, a7, a8, a9, a10, a11, a12, a13, a14, a15⟩ := v
    simp only at *
    subst s1 s2 s3 s4 t1 t2 hrt o1 o2 o3' o4
    rfl

end Ms.Vid
