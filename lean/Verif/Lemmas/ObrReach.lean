import Verif.Lemmas.ObrPeaks

/-! # How far the samples of a picture reach -/

namespace Ms.Properties
open Ms Ms.Spec

/-- the end of the last cell lies at most nine places after the last line -/
theorem getLine_reach {x : List Nat} {p : ℚ} {i n : Nat} (h8 : 8 ≤ x.length) (h21 : x.length < 2 ^ 21) (h : getLine x = some (p, i, n))
    (hn : n < 2 ^ 62) : ∃ l b, findLines x = some l ∧ b ∈ l ∧
      ∃ y : Nat, p = (y : ℚ) / 4 ∧ 32 ≤ y ∧ y ≤ 800 ∧ 4 * i + n * y ≤ 4 * (b + 9) := by
  obtain ⟨l, hl⟩ := findLines_some h8
  have hg : gaps l ≠ [] := by
    intro e
    have := (getLine_none_iff h8).mpr ⟨l, hl, e⟩
    rw [this] at h
    cases h
  obtain ⟨s, s1, s2⟩ := size_some hg
  obtain ⟨l', t1, t2, t3⟩ := trimLines_some s2
  have h5 := (mem_gaps s2).1
  have hne : l' ≠ [] := by
    rintro rfl
    simp at t2
  unfold getLine at h
  simp only [hl, Option.bind_eq_bind, Option.bind_some, s1, t1] at h
  rw [if_neg (by omega), List.head?_eq_some_head hne, List.getLast?_eq_some_getLast hne] at h
  have hv := vote_range (lines := l') h5 (List.head_mem hne)
  simp only at hv
  have hb : l'.getLast hne < x.length := (findLines_sorted hl).2 _ (t3.subset (List.getLast_mem hne))
  have hab : l'.head hne ≤ l'.getLast hne := by
    have hs : l'.Pairwise (· < ·) := (findLines_sorted hl).1.sublist t3
    cases l' with
    | nil => exact absurd rfl hne
    | cons a l' =>
      rw [List.head_cons]
      rcases List.mem_cons.mp (List.getLast_mem hne) with e | e
      · omega
      · exact ((List.pairwise_cons.mp hs).1 _ e).le
  by_cases hs : 206 ≤ s
  · have e := hv.1 hs
    simp only [Option.bind_some] at h
    rw [e] at h
    cases h
    exact absurd hn (by rw [show cellCount (l'.getLast hne - l'.head hne + 2) ((0, 0) : Nat × Nat).2 = 2 ^ 64 - 1 from rfl]; omega)
  · obtain ⟨e1, e2, e3⟩ := hv.2 (by omega)
    simp only [Option.bind_some] at h
    cases h
    refine ⟨l, l'.getLast hne, hl, t3.subset (List.getLast_mem hne), _, fl32_quarter (by omega), by omega, by omega, ?_⟩
    have hle := cellCount_le (d := l'.getLast hne - l'.head hne + 2)
      (y := (bestVote (votes l' (max 8 (s - 5)) (min 200 (s + 5)) (l'.head hne + 7)) (List.range (l'.head hne + 8))
        (rng (max 8 (s - 5) * 4) (min 200 (s + 5) * 4 + 1))).2) (by omega) (by omega) (by omega)
    omega

/-- the places of the samples, for sizes in quarters -/
theorem sampleAt_quarter {b o y x a : Nat} (hy : y ≤ 800) (ha : a < 16) (h : 4 * (b + o) + (x + 1) * y < 2 ^ 19) :
    sampleAt b o ((y : ℚ) / 4) 16 x a = b + o + y * (32 * x + 2 * a + 1) / 128 := by
  have hs : (x + 1) * y = x * y + y := Nat.succ_mul x y
  have hx : x * y < 2 ^ 19 := by omega
  have hbo : b + o < 2 ^ 17 := by omega
  have hxy : x < 2 ^ 24 ∨ y = 0 := by
    rcases Nat.eq_zero_or_pos y with h0 | h0
    · exact .inr h0
    · exact .inl (by have := Nat.le_mul_of_pos_right x h0; omega)
  have hya : y * (2 * a + 1) ≤ y * 31 := Nat.mul_le_mul_left y (by omega)
  have e0 : fl32 (fl32 (b : ℚ) + fl32 (o : ℚ)) = ((b + o : Nat) : ℚ) := by
    rw [fl32_nat (n := b) (by omega), fl32_nat (n := o) (by omega), ← Nat.cast_add, fl32_nat (n := b + o) (by omega)]
  have e1 : fl32 ((y : ℚ) / 4 * fl32 (x : ℚ)) = ((x * y : Nat) : ℚ) / 4 := by
    rcases hxy with h' | h'
    · rw [fl32_nat (n := x) (by omega), show (y : ℚ) / 4 * x = ((x * y : Nat) : ℚ) / 4 by push_cast; ring]
      exact fl32_single ⟨(x * y : Nat), -2, by rw [Nat.abs_cast]; norm_cast; omega, by rw [zpow_neg, div_eq_mul_inv]; norm_num⟩
    · subst h'
      simp [fl32_zero]
  have e2 : fl32 (((b + o : Nat) : ℚ) + ((x * y : Nat) : ℚ) / 4) = ((4 * (b + o) + x * y : Nat) : ℚ) / 4 := by
    rw [show ((b + o : Nat) : ℚ) + ((x * y : Nat) : ℚ) / 4 = ((4 * (b + o) + x * y : Nat) : ℚ) / 4 by push_cast; ring]
    exact fl32_single ⟨(4 * (b + o) + x * y : Nat), -2, by rw [Nat.abs_cast]; norm_cast; omega, by
      rw [zpow_neg, div_eq_mul_inv]; norm_num⟩
  have half : fl32 ((y : ℚ) / 4 / 2) = (y : ℚ) / 8 := by
    rw [show (y : ℚ) / 4 / 2 = (y : ℚ) / 8 by ring]
    exact fl32_single ⟨y, -3, by rw [Nat.abs_cast]; norm_cast; omega, by rw [zpow_neg, div_eq_mul_inv]; norm_num⟩
  have e3 : fl32 (fl32 ((y : ℚ) / 4 / 2) / fl32 ((16 : Nat) : ℚ)) = (y : ℚ) / 128 := by
    rw [half, fl32_nat (n := 16) (by norm_num), show ((y : ℚ) / 8 / ((16 : Nat) : ℚ)) = (y : ℚ) / 128 by push_cast; ring]
    exact fl32_single ⟨y, -7, by rw [Nat.abs_cast]; norm_cast; omega, by rw [zpow_neg, div_eq_mul_inv]; norm_num⟩
  have e4 : fl32 (fl32 (fl32 (a : ℚ) * 2) + 1) = ((2 * a + 1 : Nat) : ℚ) := by
    rw [fl32_nat (n := a) (by omega), show (a : ℚ) * 2 = ((2 * a : Nat) : ℚ) by push_cast; ring, fl32_nat (n := 2 * a) (by omega),
      show ((2 * a : Nat) : ℚ) + 1 = ((2 * a + 1 : Nat) : ℚ) by push_cast; ring, fl32_nat (n := 2 * a + 1) (by omega)]
  have e5 : fl32 ((y : ℚ) / 128 * ((2 * a + 1 : Nat) : ℚ)) = ((y * (2 * a + 1) : Nat) : ℚ) / 128 := by
    rw [show (y : ℚ) / 128 * ((2 * a + 1 : Nat) : ℚ) = ((y * (2 * a + 1) : Nat) : ℚ) / 128 by push_cast; ring]
    exact fl32_single ⟨(y * (2 * a + 1) : Nat), -7, by rw [Nat.abs_cast]; norm_cast; omega, by
      rw [zpow_neg, div_eq_mul_inv]; norm_num⟩
  have e6 : fl32 (((4 * (b + o) + x * y : Nat) : ℚ) / 4 + ((y * (2 * a + 1) : Nat) : ℚ) / 128) =
      (((4 * (b + o) + x * y) * 32 + y * (2 * a + 1) : Nat) : ℚ) / 128 := by
    rw [show ((4 * (b + o) + x * y : Nat) : ℚ) / 4 + ((y * (2 * a + 1) : Nat) : ℚ) / 128 =
      (((4 * (b + o) + x * y) * 32 + y * (2 * a + 1) : Nat) : ℚ) / 128 by push_cast; ring]
    exact fl32_single ⟨((4 * (b + o) + x * y) * 32 + y * (2 * a + 1) : Nat), -7, by
      rw [Nat.abs_cast]; norm_cast; omega, by rw [zpow_neg, div_eq_mul_inv]; norm_num⟩
  unfold sampleAt
  rw [e0, e1, e2, e3, e4, e5, e6]
  unfold toIdx
  rw [show ((((4 * (b + o) + x * y) * 32 + y * (2 * a + 1) : Nat) : ℚ) / 128) =
    ((((4 * (b + o) + x * y) * 32 + y * (2 * a + 1) : Nat) : ℚ) / ((128 : Nat) : ℚ)) by norm_num, Rat.floor_natCast_div_natCast]
  have : y * (32 * x + 2 * a + 1) = x * y * 32 + y * (2 * a + 1) := by ring
  omega

/-- every sample lies before the end of the last cell -/
theorem sampleAt_reach {b o y n x a m : Nat} (hy : 1 ≤ y) (hy2 : y ≤ 800) (ha : a < 16) (hx : x < n) (h : 4 * o + n * y ≤ 4 * m)
    (hm : b + m < 2 ^ 17) : sampleAt b o ((y : ℚ) / 4) 16 x a < b + m := by
  have h1 : (x + 1) * y ≤ n * y := Nat.mul_le_mul_right y hx
  rw [sampleAt_quarter hy2 ha (by omega)]
  have h2 : y * (32 * x + 2 * a + 1) ≤ y * (32 * x + 31) := Nat.mul_le_mul_left y (by omega)
  have h3 : y * (32 * x + 31) + y = 32 * ((x + 1) * y) := by ring
  omega

/-- no line where the scores are faint -/
theorem findLines_faint {x l : List Nat} {H d j : Nat} (h0 : 0 < H) (h24 : H ≤ 2 ^ 24) (hx : ∀ v ∈ x, v ≤ H) (hH : H ∈ x)
    (hl : findLines x = some l) (hf : ∀ k, k < x.length → x.length ≤ k + d → 3 * x.getD k 0 ≤ H) (hj : j ∈ l) : j + d < x.length := by
  obtain ⟨th, t1, t2, t3⟩ := findLines_mem h0 h24 hx hH hl
  obtain ⟨j1, j2⟩ := (t3 j).mp hj
  by_contra hc
  have hlow : 3 * smooth x j ≤ H := by
    have := Properties.smooth_lt (x := x) (j := j) (c := H / 3 + 1) (by have := hf j j1 (by omega); omega)
      (.inr fun u _ _ hu => by have := hf (j + u) hu (by omega); omega)
    omega
  have := ((isLine_true j1).mp j2).1
  exact absurd this (not_le.mpr (t2 _ hlow))

end Ms.Properties
