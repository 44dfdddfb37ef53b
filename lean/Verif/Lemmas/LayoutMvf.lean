import Verif.Lemmas.LayoutRmv
import Mathlib.Order.WellFounded
import Mathlib.Data.List.NodupEquivFin

/-! # The layout of MVF files -/

namespace Ms.Vid
open Ms.Spec

/-! ## the order of the bits -/

/-- the comparison of places -/
def mvfKey (s : Fin 40 → Fin 10) (j : Fin 40) : Nat := 40 * (s j).val + j.val

theorem mvfKey_lt {s : Fin 40 → Fin 10} {i j : Fin 40} : mvfKey s i < mvfKey s j ↔ s i < s j ∨ s i = s j ∧ i < j := by
  unfold mvfKey
  rw [Fin.lt_def, Fin.lt_def, Fin.ext_iff]
  omega

theorem mvfKey_inj {s : Fin 40 → Fin 10} : Function.Injective (mvfKey s) := by
  intro i j h
  unfold mvfKey at h
  apply Fin.ext
  omega

theorem mvfOrder_unique {s : Fin 40 → Fin 10} {π ρ : Equiv.Perm (Fin 40)} (h1 : MvfOrder s π) (h2 : MvfOrder s ρ) : π = ρ := by
  have m1 : StrictMono fun i => mvfKey s (π i) := fun i j hij => mvfKey_lt.mpr (h1 i j hij)
  have m2 : StrictMono fun i => mvfKey s (ρ i) := fun i j hij => mvfKey_lt.mpr (h2 i j hij)
  have hr : Set.range (fun i => mvfKey s (π i)) = Set.range (fun i => mvfKey s (ρ i)) := by
    ext x
    constructor
    · rintro ⟨i, rfl⟩; exact ⟨ρ.symm (π i), by simp⟩
    · rintro ⟨i, rfl⟩; exact ⟨π.symm (ρ i), by simp⟩
  have := (StrictMono.range_inj m1 m2).mp hr
  ext i
  have hi := congrFun this i
  rw [mvfKey_inj hi]

theorem mvfPerm_mem (s : Fin 40 → Fin 10) (j : Fin 40) : j ∈ mvfPerm s := by
  simp [mvfPerm]

theorem mvfPerm_sorted (s : Fin 40 → Fin 10) : (mvfPerm s).Pairwise fun i j => s i < s j ∨ s i = s j ∧ i < j := by
  unfold mvfPerm
  rw [List.pairwise_flatMap]
  constructor
  · intro i _
    refine List.Pairwise.imp_of_mem ?_ ((List.pairwise_lt_finRange 40).filter _)
    intro a b ha hb hab
    simp only [List.mem_filter, decide_eq_true_eq] at ha hb
    exact .inr ⟨ha.2.trans hb.2.symm, hab⟩
  · refine (List.pairwise_lt_finRange 10).imp ?_
    intro a b hab x hx y hy
    simp only [List.mem_filter, decide_eq_true_eq] at hx hy
    left
    rw [hx.2, hy.2]
    exact hab

theorem mvfPerm_nodup (s : Fin 40 → Fin 10) : (mvfPerm s).Nodup := by
  refine (mvfPerm_sorted s).imp ?_
  rintro a b (h | ⟨-, h⟩) rfl
  · exact lt_irrefl _ h
  · exact lt_irrefl _ h

theorem mvfPerm_length (s : Fin 40 → Fin 10) : (mvfPerm s).length = 40 := by
  have h1 : (mvfPerm s).toFinset = Finset.univ := by
    ext j; simp [mvfPerm_mem]
  rw [← List.toFinset_card_of_nodup (mvfPerm_nodup s), h1]
  simp

/-- the code computes the order of the bits -/
theorem mvfPerm_order (s : Fin 40 → Fin 10) : ∃ π : Equiv.Perm (Fin 40), MvfOrder s π ∧
    ∀ i : Fin 40, (mvfPerm s)[i.val]? = some (π i) := by
  let f : Fin 40 → Fin 40 := fun i => (mvfPerm s)[i.val]'(by rw [mvfPerm_length]; exact i.2)
  have hf : Function.Injective f := by
    intro i j hij
    exact Fin.ext ((mvfPerm_nodup s).getElem_inj_iff.mp hij)
  refine ⟨Equiv.ofBijective f (Finite.injective_iff_bijective.mp hf), ?_, ?_⟩
  · intro i j hij
    exact List.pairwise_iff_getElem.mp (mvfPerm_sorted s) i.val j.val _ _ hij
  · intro i
    rw [List.getElem?_eq_getElem (by rw [mvfPerm_length]; exact i.2)]
    rfl

theorem mvfBit_eq {s : Fin 40 → Fin 10} {π : Equiv.Perm (Fin 40)} (h : MvfOrder s π) (e : Bytes) (n : Fin 40) :
    mvfBit s e n.val = mvfBitAt π e n := by
  obtain ⟨ρ, h1, h2⟩ := mvfPerm_order s
  obtain rfl := mvfOrder_unique h h1
  unfold mvfBit mvfBitAt
  rw [h2]

theorem mvfNum_spec (s : Fin 40 → Fin 10) (e : Bytes) (k n : Nat) : mvfNum s e k n < 2 ^ n ∧
    ∀ j, (mvfNum s e k n).testBit j = (decide (j < n) && mvfBit s e (k + j)) := by
  induction n with
  | zero => exact ⟨by simp [mvfNum], fun j => by simp [mvfNum]⟩
  | succ n ih =>
    obtain ⟨h1, h2⟩ := ih
    have hb : ∀ b : Bool, b.toNat <<< n < 2 ^ (n + 1) := by
      intro b
      cases b
      · simp
      · simp [Nat.shiftLeft_eq, Nat.pow_succ]
    refine ⟨Nat.or_lt_two_pow (h1.trans (Nat.pow_lt_pow_right (by omega) (by omega))) (hb _), fun j => ?_⟩
    rw [mvfNum, Nat.testBit_or, h2, Nat.testBit_shiftLeft]
    rcases Nat.lt_trichotomy j n with h | h | h
    · have h3 : ¬ n ≤ j := by omega
      have h4 : j < n + 1 := by omega
      simp [h, h3, h4]
    · subst h
      cases mvfBit s e (k + j) <;> simp
    · have h3 : ¬ j < n := by omega
      have h4 : ¬ j < n + 1 := by omega
      obtain ⟨m, rfl⟩ : ∃ m, j = n + (m + 1) := ⟨j - n - 1, by omega⟩
      have h5 : n ≤ n + (m + 1) := by omega
      have h6 : n + (m + 1) - n = m + 1 := by omega
      simp only [h3, h4, decide_false, Bool.false_and, Bool.false_or, h5, h6, decide_true, Bool.true_and]
      cases mvfBit s e (k + n) <;> simp [Nat.testBit_succ]

/-- the numbers of an event -/
theorem mvfNum_iff {s : Fin 40 → Fin 10} {π : Equiv.Perm (Fin 40)} (h : MvfOrder s π) (e : Bytes) (k n x : Nat)
    (hk : k + n ≤ 40) : (x < 2 ^ n ∧ ∀ j : Fin n, x.testBit j = mvfBitAt π e ⟨k + j.val, by omega⟩) ↔ x = mvfNum s e k n := by
  obtain ⟨h1, h2⟩ := mvfNum_spec s e k n
  constructor
  · rintro ⟨h3, h4⟩
    apply Nat.eq_of_testBit_eq
    intro j
    rw [h2]
    by_cases hj : j < n
    · have := h4 ⟨j, hj⟩
      simp only at this
      rw [this, ← mvfBit_eq h]
      simp [hj]
    · simp only [hj, decide_false, Bool.false_and]
      exact Nat.testBit_lt_two_pow (h3.trans_le (Nat.pow_le_pow_right (by omega) (by omega)))
  · rintro rfl
    refine ⟨h1, fun j => ?_⟩
    rw [h2, ← mvfBit_eq h]
    simp

theorem mvfMeans_iff {s : Fin 40 → Fin 10} {π : Equiv.Perm (Fin 40)} (h : MvfOrder s π) (e : Bytes) (r : MvfRaw) :
    MvfMeans π e r ↔ r = mvfRaw s e := by
  unfold MvfMeans mvfRaw
  rw [mvfNum_iff h e 3 9 r.y (by omega), mvfNum_iff h e 12 9 r.x (by omega), mvfNum_iff h e 21 7 r.ths (by omega),
    mvfNum_iff h e 28 10 r.sec (by omega), ← mvfBit_eq h, ← mvfBit_eq h, ← mvfBit_eq h]
  obtain ⟨a, b, c, d, f, g, i⟩ := r
  simp only [MvfRaw.mk.injEq]
  rfl

/-! ## the events -/

theorem mvfChanges_eq (p r : MvfRaw) : (mvfNames r p).map (fun m => (⟨r.ms, m, r.x, r.y⟩ : FileEv)) = mvfChanges p r := by
  obtain ⟨a1, a2, a3, y1, x1, t1, s1⟩ := p
  obtain ⟨b1, b2, b3, y2, x2, t2, s2⟩ := r
  have hxy : decide ((x2, y2) ≠ (x1, y1)) = decide (x2 ≠ x1 ∨ y2 ≠ y1) := by
    simp only [ne_eq, Prod.mk.injEq, decide_eq_decide]
    tauto
  simp only [mvfNames, mvfChanges, MvfRaw.ms, hxy]
  by_cases h : x2 ≠ x1 ∨ y2 ≠ y1
  · cases a1 <;> cases a2 <;> cases a3 <;> cases b1 <;> cases b2 <;> cases b3 <;> simp [h]
  · cases a1 <;> cases a2 <;> cases a3 <;> cases b1 <;> cases b2 <;> cases b3 <;> simp [h]

theorem mvfEvents_ok (s : Fin 40 → Fin 10) (n : Nat) (p : MvfRaw) (l r : Bytes) (es : List FileEv) :
    mvfEvents s n p l = .ok (es, r) ↔ ∃ others : List Bytes, others.length = n ∧ (∀ e ∈ others, e.length = 5) ∧
      l = others.flatten ++ r ∧ es = mvfPlayed p (others.map (mvfRaw s)) := by
  induction n generalizing p l r es with
  | zero =>
    rw [mvfEvents, pure_ok]
    constructor
    · rintro ⟨rfl, rfl⟩; exact ⟨[], rfl, by simp, rfl, rfl⟩
    · rintro ⟨o, h1, -, h2, h3⟩
      obtain rfl := List.length_eq_zero_iff.mp h1
      exact ⟨h3.symm, h2⟩
  | succ n ih =>
    simp only [mvfEvents, bind_ok, take_ok, pure_ok, ih]
    constructor
    · rintro ⟨e, r1, ⟨h1, rfl⟩, es', r2, ⟨o, h2, h3, rfl, rfl⟩, rfl, rfl⟩
      refine ⟨e :: o, by simp [h2], ?_, by simp, ?_⟩
      · intro x hx
        rcases List.mem_cons.mp hx with rfl | hx
        · exact h1
        · exact h3 x hx
      · rw [mvfChanges_eq]; rfl
    · rintro ⟨o, h1, h2, rfl, rfl⟩
      cases o with
      | nil => simp at h1
      | cons e o =>
        refine ⟨e, _, ⟨h2 e (by simp), List.append_assoc _ _ _⟩, _, _, ⟨o, by simpa using h1, fun x hx => h2 x (by simp [hx]), rfl, rfl⟩, ?_,
          rfl⟩
        rw [mvfChanges_eq]; rfl

theorem forall₂_eq_map {α β : Type} {f : α → β} {as : List α} {bs : List β} :
    List.Forall₂ (fun a b => b = f a) as bs ↔ bs = as.map f := by
  induction as generalizing bs with
  | nil => simp
  | cons a as ih =>
    cases bs with
    | nil => simp
    | cons b bs => simp [ih]

set_option maxHeartbeats 1000000 in
/-- The parser accepts exactly the files of the layout, and anything that does not announce itself as such a file, as an empty
video. -/
theorem parseMvf_layout (magic : Nat → Fin 40 → Fin 10) (l r : Bytes) (v : FileVideo) (hl : ∀ b ∈ l, b < 256) :
    parseMvf magic l = .ok (v, r) ↔ (∃ f : MvfFile, f.Valid ∧ l = f.bytes ++ r ∧ f.Video magic v) ∨
      (v = {} ∧ ((∃ a b, l = a :: b :: r ∧ ¬ (a = 17 ∧ b = 77)) ∨
        ∃ s c, s.length = 25 ∧ c ≠ 53 ∧ l = 17 :: 77 :: s ++ c :: r)) := by
  constructor
  · intro h
    unfold parseMvf at h
    obtain ⟨a, r0, h0, h⟩ := bind_ok.mp h
    obtain ⟨b, r1, h1, h⟩ := bind_ok.mp h
    rw [u8_ok] at h0 h1
    split at h
    swap
    · rename_i hab
      rw [pure_ok] at h
      exact .inr ⟨h.1.symm, .inl ⟨a, b, by rw [h0, h1, h.2], hab⟩⟩
    rename_i hab
    obtain ⟨u2, r2, h2, h⟩ := bind_ok.mp h
    obtain ⟨c, r3, h3, h⟩ := bind_ok.mp h
    obtain ⟨k1, hk1, h2⟩ := skip_ok.mp h2
    rw [u8_ok] at h3
    split at h
    swap
    · rename_i hc
      rw [pure_ok] at h
      refine .inr ⟨h.1.symm, .inr ⟨k1, c, hk1, hc, ?_⟩⟩
      rw [h0, h1, h2, h3, h.2, hab.1, hab.2]; rfl
    rename_i hc
    left
    obtain ⟨u4, r4, h4, h⟩ := bind_ok.mp h
    obtain ⟨k2, hk2, h4⟩ := skip_ok.mp h4
    unfold mvf097 at h
    obtain ⟨u5, r5, h5, h⟩ := bind_ok.mp h
    obtain ⟨k3, hk3, h5⟩ := skip_ok.mp h5
    obtain ⟨level, r6, h6, h⟩ := bind_ok.mp h
    rw [u8_ok] at h6
    split at h
    · cases h
    rename_i hlev
    obtain ⟨mode, r7, h7, h⟩ := bind_ok.mp h
    rw [u8_ok] at h7
    obtain ⟨sec, r8, h8, h⟩ := bind_ok.mp h
    obtain ⟨hund, r9, h9, h⟩ := bind_ok.mp h
    rw [u8_ok] at h9
    obtain ⟨bbbv, r10, h10, h⟩ := bind_ok.mp h
    obtain ⟨u11, r11, h11, h⟩ := bind_ok.mp h
    obtain ⟨k4, hk4, h11⟩ := skip_ok.mp h11
    obtain ⟨⟨w, hh, m, board⟩, r12, h12, h⟩ := bind_ok.mp h
    obtain ⟨n, r13, h13, h⟩ := bind_ok.mp h
    rw [u8_ok] at h13
    obtain ⟨player, r14, h14, h⟩ := bind_ok.mp h
    obtain ⟨hpl, h14⟩ := take_ok.mp h14
    obtain ⟨leading, r15, h15, h⟩ := bind_ok.mp h
    obtain ⟨size, r16, h16, h⟩ := bind_ok.mp h
    obtain ⟨z1, z2, z3, h16, hz⟩ := u24_ok.mp h16
    obtain ⟨e, r17, h17, h⟩ := bind_ok.mp h
    obtain ⟨hel, h17⟩ := take_ok.mp h17
    split at h
    · cases h
    rename_i hsz
    obtain ⟨es, r18, h18, h⟩ := bind_ok.mp h
    rw [pure_ok] at h
    obtain ⟨hv, hr⟩ := h
    obtain ⟨others, ho1, ho2, h18, hes⟩ := (mvfEvents_ok _ _ _ _ _ _).mp h18
    unfold mvfBoard at h12
    obtain ⟨w', q1, e1, i1⟩ := bind_ok.mp h12
    obtain ⟨hh', q2, e2, i2⟩ := bind_ok.mp i1
    obtain ⟨m', q3, e3, i3⟩ := bind_ok.mp i2
    obtain ⟨b0, q4, e4, i4⟩ := bind_ok.mp i3
    clear i1 i2 i3 h12
    rw [u8_ok] at e1 e2
    have hbd : ∀ b, calBoardNumbers b0 = some b → 0 < hh' := by
      intro b hb
      rw [mvfMines_eq] at e4
      have hR := (readMines_ok (h := hh') (w := w') (by
        intro c d hcd
        rw [decide_eq_false_iff_not] at hcd
        simp only; omega) _ _ _ _ _ (rect_build hh' w' _) e4).2.2.1
      unfold calBoardNumbers at hb
      split at hb
      · cases hb
      · rename_i hr
        rw [hR.row_eq] at hr
        omega
    cases hb : calBoardNumbers b0 with
    | none => rw [hb] at i4; cases i4
    | some bd =>
    rw [hb] at i4
    simp only [pure_ok, Prod.mk.injEq] at i4
    obtain ⟨⟨rfl, rfl, rfl, rfl⟩, h12⟩ := i4
    have hpos := hbd bd hb
    obtain ⟨ms, hms1, hms2, hms3, hboard⟩ := (mvfMines_boardOf hpos _ _ bd).mp ⟨b0, e4, hb⟩
    have hmem8 : ∀ x ∈ r7, x < 256 := fun x hx => hl x (by
      rw [h0, h1, h2, h3, h4, h5, h6, h7]
      simp only [List.mem_append, List.mem_cons, hx, or_true])
    rw [u16_two hmem8] at h8
    have hmem10 : ∀ x ∈ r9, x < 256 := fun x hx => hmem8 x (by
      rw [h8, h9]; simp only [List.mem_append, List.mem_cons, hx, or_true])
    rw [u16_two hmem10] at h10
    have hmemq : ∀ x ∈ q2, x < 256 := fun x hx => hmem10 x (by
      rw [h10, h11, e1, e2]; simp only [List.mem_append, List.mem_cons, hx, or_true])
    rw [u16_two hmemq] at e3
    have hmem15 : ∀ x ∈ r14, x < 256 := fun x hx => hmemq x (by
      rw [e3, hms3, h12, h13, h14]; simp only [List.mem_append, List.mem_cons, hx, or_true])
    rw [u16_two hmem15] at h15
    have hb3 : ∀ x ∈ r15, x < 256 := fun x hx => hmem15 x (by
      rw [h15]; simp only [List.mem_append, List.mem_cons, hx, or_true])
    have y1 := hb3 z1 (by rw [h16]; simp)
    have y2 := hb3 z2 (by rw [h16]; simp)
    have y3 := hb3 z3 (by rw [h16]; simp)
    refine ⟨⟨k1, k2, k3, level, mode, sec, hund, bbbv, k4, w', hh', ms, player, leading, e, others⟩, ?_, ?_, ?_⟩
    · exact ⟨⟨hk1, hk2, hk3, hk4⟩, by simp only; omega, hpos, hms2, hel, ho2⟩
    · have s1 : (others.length + 1) / 65536 = z1 := by omega
      have s2 : (others.length + 1) / 256 % 256 = z2 := by omega
      have s3 : (others.length + 1) % 256 = z3 := by omega
      simp only [MvfFile.bytes, List.flatten_cons, List.flatten_nil, List.append_assoc, List.cons_append, List.nil_append,
        s1, s2, s3, hms1]
      rw [h0, h1, h2, h3, h4, h5, h6, h7, h8, h9, h10, h11, e1, e2, e3, hms3, h12, h13, h14, h15, h16, h17, h18, hr,
        hab.1, hab.2, hc, hpl]
    · obtain ⟨π, hπ, -⟩ := mvfPerm_order (magic leading)
      subst hv
      refine ⟨⟨rfl, rfl, hms1.symm, rfl⟩, hboard, ⟨rfl, rfl, rfl⟩, ⟨?_, ?_, ?_, ?_⟩,
        ⟨π, hπ, mvfRaw (magic leading) e, others.map (mvfRaw (magic leading)), (mvfMeans_iff hπ _ _).mpr rfl, ?_, ?_⟩,
        rfl, rfl, rfl, rfl, rfl⟩
      · rintro h; simp only at h; simp [mvfMode, h]
      · rintro h; simp only at h; simp [mvfMode, h]
      · rintro h; simp only at h; simp [mvfMode, h]
      · rintro h
        simp only at h
        simp only [mvfMode]
        rw [if_neg (by omega), if_neg (by omega), if_neg (by omega)]
      · refine List.Forall₂.imp (fun a b hab => (mvfMeans_iff hπ a b).mpr hab) (forall₂_eq_map.mpr rfl)
      · simp only [hes]; rfl
  · rintro (⟨f, hf, hlf, hv⟩ | ⟨rfl, ⟨a, b, rfl, hab⟩ | ⟨s, c, hs, hc, rfl⟩⟩)
    · rw [hlf]
      clear hlf hl l
      obtain ⟨⟨k1, k2, k3, k4⟩, hlev, hpos, hms, hfirst, hothers⟩ := hf
      obtain ⟨⟨s1, s2, s3, s4⟩, hboard, ⟨t1, t2, t3⟩, ⟨m1, m2, m3, m4⟩, ⟨π, hπ, ra, rs, hra, hrs, hev⟩, o1, o2, o3, o4, o5⟩ := hv
      have hra := (mvfMeans_iff hπ _ _).mp hra
      have hrs := forall₂_eq_map.mp (List.Forall₂.imp (fun a b hab => (mvfMeans_iff hπ a b).mp hab) hrs)
      simp only [MvfFile.bytes, List.flatten_cons, List.flatten_nil, List.append_assoc, List.cons_append, List.nil_append]
      unfold parseMvf
      refine bind_ok.mpr ⟨_, _, u8_ok.mpr rfl, ?_⟩
      refine bind_ok.mpr ⟨_, _, u8_ok.mpr rfl, ?_⟩
      rw [if_pos ⟨rfl, rfl⟩]
      refine bind_ok.mpr ⟨(), _, skip_ok.mpr ⟨_, k1, rfl⟩, ?_⟩
      refine bind_ok.mpr ⟨_, _, u8_ok.mpr rfl, ?_⟩
      rw [if_pos rfl]
      refine bind_ok.mpr ⟨(), _, skip_ok.mpr ⟨_, k2, rfl⟩, ?_⟩
      unfold mvf097
      refine bind_ok.mpr ⟨(), _, skip_ok.mpr ⟨_, k3, rfl⟩, ?_⟩
      refine bind_ok.mpr ⟨_, _, u8_ok.mpr rfl, ?_⟩
      rw [if_neg (by omega)]
      refine bind_ok.mpr ⟨_, _, u8_ok.mpr rfl, ?_⟩
      refine bind_ok.mpr ⟨_, _, u16_run _ _, ?_⟩
      refine bind_ok.mpr ⟨_, _, u8_ok.mpr rfl, ?_⟩
      refine bind_ok.mpr ⟨_, _, u16_run _ _, ?_⟩
      refine bind_ok.mpr ⟨(), _, skip_ok.mpr ⟨_, k4, rfl⟩, ?_⟩
      obtain ⟨b0, g5, g6⟩ := (mvfMines_boardOf hpos _ _ v.board).mpr ⟨f.mines, rfl, hms, rfl, hboard⟩
      have hbd : mvfBoard (f.width :: f.height :: (two f.mines.length ++ (flat2 f.mines ++ f.player.length :: (f.player ++
          (two f.leading ++ (f.others.length + 1) / 65536 :: (f.others.length + 1) / 256 % 256 ::
          (f.others.length + 1) % 256 :: (f.first ++ (f.others.flatten ++ r))))))) =
          .ok ((f.width, f.height, f.mines.length, v.board), f.player.length :: (f.player ++
          (two f.leading ++ (f.others.length + 1) / 65536 :: (f.others.length + 1) / 256 % 256 ::
          (f.others.length + 1) % 256 :: (f.first ++ (f.others.flatten ++ r))))) := by
        unfold mvfBoard
        refine bind_ok.mpr ⟨_, _, u8_ok.mpr rfl, ?_⟩
        refine bind_ok.mpr ⟨_, _, u8_ok.mpr rfl, ?_⟩
        refine bind_ok.mpr ⟨_, _, u16_run _ _, ?_⟩
        refine bind_ok.mpr ⟨_, _, g5, ?_⟩
        rw [g6, pure_ok]
        exact ⟨rfl, rfl⟩
      refine bind_ok.mpr ⟨_, _, hbd, ?_⟩
      refine bind_ok.mpr ⟨_, _, u8_ok.mpr rfl, ?_⟩
      refine bind_ok.mpr ⟨_, _, take_ok.mpr ⟨rfl, rfl⟩, ?_⟩
      refine bind_ok.mpr ⟨_, _, u16_run _ _, ?_⟩
      refine bind_ok.mpr ⟨f.others.length + 1, _, u24_ok.mpr ⟨_, _, _, rfl, by omega⟩, ?_⟩
      refine bind_ok.mpr ⟨_, _, take_ok.mpr ⟨hfirst, rfl⟩, ?_⟩
      rw [if_neg (by omega)]
      refine bind_ok.mpr ⟨_, _, (mvfEvents_ok _ _ _ _ _ _).mpr ⟨f.others, by omega, hothers, rfl, rfl⟩, ?_⟩
      rw [pure_ok]
      refine ⟨?_, rfl⟩
      have hmode : v.mode = mvfMode f.mode := by
        unfold mvfMode
        split
        · rename_i h; exact m1 h
        split
        · rename_i h; exact m2 h
        split
        · rename_i h; exact m3 h
        · exact m4 (by omega)
      rw [hra, hrs] at hev
      obtain ⟨a1, a2, a3, a4, a5, a6, a7, a8, a9, a10, a11, a12, a13, a14, a15⟩ := v
      simp only at *
      subst s1 s2 s3 s4 t1 t2 t3 hmode hev o1 o2 o3 o4 o5
      rfl
    · unfold parseMvf
      refine bind_ok.mpr ⟨_, _, u8_ok.mpr rfl, bind_ok.mpr ⟨_, _, u8_ok.mpr rfl, ?_⟩⟩
      rw [if_neg hab, pure_ok]
      exact ⟨rfl, rfl⟩
    · unfold parseMvf
      refine bind_ok.mpr ⟨_, _, u8_ok.mpr rfl, bind_ok.mpr ⟨_, _, u8_ok.mpr rfl, ?_⟩⟩
      rw [if_pos ⟨rfl, rfl⟩]
      refine bind_ok.mpr ⟨(), _, skip_ok.mpr ⟨_, hs, rfl⟩, bind_ok.mpr ⟨_, _, u8_ok.mpr rfl, ?_⟩⟩
      rw [if_neg hc, pure_ok]
      exact ⟨rfl, rfl⟩

end Ms.Vid
