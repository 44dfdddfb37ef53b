import Verif.SpecObr
import Verif.Properties.Time

/-! # Rounding to a `f32` -/

namespace Ms.Properties
open Ms Ms.Spec

theorem lastPlace32_le {x : ℚ} (hx : x ≠ 0) : (2 : ℚ) ^ 23 * 2 ^ lastPlace32 x ≤ |x| := by
  have h := Int.zpow_log_le_self (b := 2) (by norm_num) (abs_pos.mpr hx)
  unfold lastPlace32
  rw [zpow_sub₀ (by norm_num)]
  calc _ = (2 : ℚ) ^ Int.log 2 |x| := by norm_num [mul_div_assoc']
    _ ≤ _ := by exact_mod_cast h

theorem lt_lastPlace32 (x : ℚ) : |x| < (2 : ℚ) ^ 24 * 2 ^ lastPlace32 x := by
  have h := Int.lt_zpow_succ_log_self (b := 2) (by norm_num) |x|
  unfold lastPlace32
  rw [zpow_sub₀ (by norm_num)]
  calc |x| < (2 : ℚ) ^ (Int.log 2 |x| + 1) := by exact_mod_cast h
    _ = _ := by rw [zpow_add₀ (by norm_num)]; norm_num; ring

theorem fl32_zero : fl32 0 = 0 := by
  unfold fl32
  rw [zero_div]
  have := roundEven_int 0
  rw [Int.cast_zero] at this
  rw [this]
  simp

/-- the relative error of rounding is at most `2^-24` -/
theorem fl32_err (x : ℚ) : |fl32 x - x| ≤ |x| / 2 ^ 24 := by
  by_cases hx : x = 0
  · rw [hx, fl32_zero]; simp
  have hp := two_zpow_pos (lastPlace32 x)
  have h := roundEven_spec (x / 2 ^ lastPlace32 x)
  have e : fl32 x - x = (roundEven (x / 2 ^ lastPlace32 x) - x / 2 ^ lastPlace32 x) * 2 ^ lastPlace32 x := by
    unfold fl32
    rw [sub_mul, div_mul_cancel₀ _ hp.ne']
  rw [e, abs_mul, abs_of_pos hp]
  have h2 := lastPlace32_le hx
  rw [le_div_iff₀ (by norm_num)]
  nlinarith

/-- `fl32` is what IEEE 754 asks: a nearest single. -/
theorem C72_fl32_nearest (x : ℚ) : NearestSingle x (fl32 x) := by
  have hp := two_zpow_pos (lastPlace32 x)
  constructor
  · refine ⟨roundEven (x / 2 ^ lastPlace32 x), lastPlace32 x, ?_, rfl⟩
    have h1 : |x / 2 ^ lastPlace32 x| ≤ ((2 ^ 24 : ℤ) : ℚ) := by
      rw [abs_div, abs_of_pos hp, div_le_iff₀ hp]
      have := lt_lastPlace32 x
      push_cast
      linarith
    rw [abs_le] at h1 ⊢
    have a := roundEven_mono h1.2
    have b := roundEven_mono h1.1
    rw [roundEven_int] at a
    rw [show (-((2 ^ 24 : ℤ) : ℚ)) = ((-(2 ^ 24) : ℤ) : ℚ) by push_cast; ring, roundEven_int] at b
    exact ⟨b, a⟩
  · rintro y ⟨m, k, hm, rfl⟩
    by_cases hx : x = 0
    · rw [hx, fl32_zero, sub_self, abs_zero]; exact abs_nonneg _
    -- multiples of the last place
    have mult : ∀ n : ℤ, |x - fl32 x| ≤ |x - n * 2 ^ lastPlace32 x| := by
      intro n
      have h := roundEven_nearest (x / 2 ^ lastPlace32 x) n
      have e1 : x - fl32 x = (x / 2 ^ lastPlace32 x - roundEven (x / 2 ^ lastPlace32 x)) * 2 ^ lastPlace32 x := by
        unfold fl32
        rw [sub_mul, div_mul_cancel₀ _ hp.ne']
      have e2 : x - n * 2 ^ lastPlace32 x = (x / 2 ^ lastPlace32 x - n) * 2 ^ lastPlace32 x := by
        rw [sub_mul, div_mul_cancel₀ _ hp.ne']
      rw [e1, e2, abs_mul, abs_mul, abs_of_pos hp]
      exact mul_le_mul_of_nonneg_right h hp.le
    by_cases hk : lastPlace32 x ≤ k
    · obtain ⟨d, hd⟩ := Int.eq_ofNat_of_zero_le (sub_nonneg.mpr hk)
      have := mult (m * 2 ^ d)
      have e : ((m * 2 ^ d : ℤ) : ℚ) * 2 ^ lastPlace32 x = m * 2 ^ k := by
        push_cast
        rw [mul_assoc, ← zpow_natCast, ← zpow_add₀ (by norm_num), ← hd, sub_add_cancel]
      rwa [e] at this
    · push Not at hk
      have h1 := lastPlace32_le hx
      have hy : |(m : ℚ) * 2 ^ k| ≤ (2 : ℚ) ^ 23 * 2 ^ lastPlace32 x := by
        rw [abs_mul, abs_of_pos (two_zpow_pos k)]
        have hmq : |(m : ℚ)| ≤ 2 ^ 24 := by exact_mod_cast hm
        have hkk : (2 : ℚ) ^ k * 2 ≤ 2 ^ lastPlace32 x := by
          rw [← zpow_add_one₀ (by norm_num)]
          exact zpow_le_zpow_right₀ (by norm_num) (by omega)
        have := two_zpow_pos k
        nlinarith
      rw [abs_le] at hy
      rcases lt_or_gt_of_ne hx with hneg | hpos
      · rw [abs_of_neg hneg] at h1
        have := mult (-(2 ^ 23))
        refine le_trans this ?_
        push_cast
        rw [abs_of_nonpos (by linarith), abs_of_nonpos (by linarith)]
        linarith
      · rw [abs_of_pos hpos] at h1
        have := mult (2 ^ 23)
        refine le_trans this ?_
        push_cast
        rw [abs_of_nonneg (by linarith), abs_of_nonneg (by linarith)]
        linarith

/-- ... and of two equally near ones the even one: exactly half way between two neighbouring multiples of the last place, the
result is the even multiple. -/
theorem C72_fl32_ties_even (x : ℚ) (k : ℤ) (h : x = (k + 1 / 2) * 2 ^ (Int.log 2 |x| - 23)) :
    ∃ n : ℤ, n % 2 = 0 ∧ (n = k ∨ n = k + 1) ∧ fl32 x = n * 2 ^ (Int.log 2 |x| - 23) := by
  have hp := two_zpow_pos (lastPlace32 x)
  have hx : x / 2 ^ lastPlace32 x = k + 1 / 2 := by
    rw [div_eq_iff hp.ne']
    exact h
  have hf : ⌊(k : ℚ) + 1 / 2⌋ = k := by
    rw [Int.floor_eq_iff]
    constructor <;> linarith
  refine ⟨roundEven (k + 1 / 2), ?_, ?_, by unfold fl32; rw [hx]; rfl⟩
  · unfold roundEven
    rw [hf, if_neg (by rw [add_sub_cancel_left]; exact lt_irrefl _), if_neg (by rw [add_sub_cancel_left]; exact lt_irrefl _)]
    split <;> omega
  · unfold roundEven
    rw [hf, if_neg (by rw [add_sub_cancel_left]; exact lt_irrefl _), if_neg (by rw [add_sub_cancel_left]; exact lt_irrefl _)]
    split
    · exact .inl rfl
    · exact .inr rfl

/-- what a single holds is not changed -/
theorem fl32_single {x : ℚ} (h : Single x) : fl32 x = x := by
  have := (C72_fl32_nearest x).2 x h
  rw [sub_self, abs_zero, abs_nonpos_iff, sub_eq_zero] at this
  exact this.symm

theorem single_nat {n : Nat} (h : n ≤ 2 ^ 24) : Single n :=
  ⟨n, 0, by rw [abs_of_nonneg (by omega)]; exact_mod_cast h, by simp⟩

theorem fl32_mono {x y : ℚ} (h : x ≤ y) : fl32 x ≤ fl32 y := by
  by_contra hc
  push Not at hc
  have a := (C72_fl32_nearest x).2 _ (C72_fl32_nearest y).1
  have b := (C72_fl32_nearest y).2 _ (C72_fl32_nearest x).1
  have e : x = y := by
    rcases abs_cases (x - fl32 x) with ⟨p1, p2⟩ | ⟨p1, p2⟩ <;> rcases abs_cases (x - fl32 y) with ⟨q1, q2⟩ | ⟨q1, q2⟩ <;>
      rcases abs_cases (y - fl32 y) with ⟨r1, r2⟩ | ⟨r1, r2⟩ <;> rcases abs_cases (y - fl32 x) with ⟨s1, s2⟩ | ⟨s1, s2⟩ <;>
      linarith
  rw [e] at hc
  exact absurd hc (lt_irrefl _)

theorem fl32_nonneg {x : ℚ} (h : 0 ≤ x) : 0 ≤ fl32 x := by
  have := fl32_mono h
  rwa [fl32_zero] at this

theorem fl32_nonpos {x : ℚ} (h : x ≤ 0) : fl32 x ≤ 0 := by
  have := fl32_mono h
  rwa [fl32_zero] at this


/-- the rounding is relatively small -/
theorem fl32_le {x : ℚ} (h : 0 ≤ x) : fl32 x ≤ x * (1 + 1 / 2 ^ 24) := by
  have := (abs_le.mp (fl32_err x)).2
  rw [abs_of_nonneg h] at this
  linarith

theorem fl32_ge {x : ℚ} (h : 0 ≤ x) : x * (1 - 1 / 2 ^ 24) ≤ fl32 x := by
  have := (abs_le.mp (fl32_err x)).1
  rw [abs_of_nonneg h] at this
  linarith

theorem fl32_nat {n : Nat} (h : n ≤ 2 ^ 24) : fl32 n = n := fl32_single (single_nat h)

theorem toIdx_lt {x : ℚ} {n : Nat} (h0 : 0 ≤ x) (h : x < n) : toIdx x < n := by
  unfold toIdx
  have h1 : ⌊x⌋ < n := Int.floor_lt.mpr (by exact_mod_cast h)
  have h2 : 0 ≤ ⌊x⌋ := Int.floor_nonneg.mpr h0
  omega

/-- `(n as f32 * q) as usize` is below `n` when `q` is at most 0.9 -/
theorem toIdx_part {n : Nat} {q : ℚ} (hn : 0 < n) (h0 : 0 ≤ q) (h1 : q ≤ 9 / 10) : toIdx (fl32 (fl32 n * fl32 q)) < n := by
  have hq : (1 : ℚ) ≤ n := by exact_mod_cast hn
  have a := fl32_le (x := (n : ℚ)) (by linarith)
  have b := fl32_le h0
  have a0 := fl32_nonneg (x := (n : ℚ)) (by linarith)
  have b0 := fl32_nonneg h0
  have c := fl32_le (mul_nonneg a0 b0)
  refine toIdx_lt (fl32_nonneg (mul_nonneg a0 b0)) (lt_of_le_of_lt c ?_)
  have b2 : fl32 q ≤ 92 / 100 := by
    refine le_trans b ?_
    norm_num
    linarith
  have a2 : fl32 n ≤ n * (101 / 100) := by
    refine le_trans a ?_
    norm_num
    linarith
  have : fl32 n * fl32 q ≤ n * (101 / 100) * (92 / 100) := mul_le_mul a2 b2 b0 (by positivity)
  norm_num at this ⊢
  nlinarith

end Ms.Properties
