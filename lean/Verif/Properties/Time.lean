import Verif.SpecTime
import Verif.Model.Video
import Mathlib.Tactic.Linarith
import Mathlib.Tactic.FieldSimp
import Mathlib.Tactic.Ring
import Mathlib.Tactic.NormNum
import Mathlib.Tactic.Positivity

/-! # C65 seconds, milliseconds and rounding -/

namespace Ms.Properties
open Ms Ms.Spec

theorem roundEven_spec (y : ℚ) : |(roundEven y : ℚ) - y| ≤ 1 / 2 := by
  have h1 := Int.floor_le y
  have h2 := Int.lt_floor_add_one y
  unfold roundEven
  split
  · rw [abs_le]; constructor <;> linarith
  · split
    · push_cast; rw [abs_le]; constructor <;> linarith
    · split
      · rw [abs_le]; constructor <;> linarith
      · push_cast; rw [abs_le]; constructor <;> linarith

/-- no integer is nearer -/
theorem roundEven_nearest (y : ℚ) (n : ℤ) : |y - roundEven y| ≤ |y - n| := by
  have h := roundEven_spec y
  rw [abs_sub_comm] at h
  by_cases e : n = roundEven y
  · rw [e]
  · have h1 : (1 : ℚ) ≤ |(n : ℚ) - roundEven y| := by
      have : (1 : ℤ) ≤ |n - roundEven y| := Int.one_le_abs (sub_ne_zero.mpr e)
      exact_mod_cast this
    have h2 := abs_sub_le (n : ℚ) y (roundEven y)
    rw [abs_sub_comm (n : ℚ) y] at h2
    linarith

theorem roundEven_int (n : ℤ) : roundEven n = n := by
  have h := roundEven_nearest n n
  rw [sub_self, abs_zero] at h
  have := abs_nonpos_iff.mp h
  have h3 : ((n : ℚ)) = (roundEven n : ℚ) := by linarith
  exact (Int.cast_inj.mp h3).symm

theorem roundEven_mono {x y : ℚ} (h : x ≤ y) : roundEven x ≤ roundEven y := by
  by_contra hc
  push Not at hc
  have hx := abs_le.mp (roundEven_spec x)
  have hy := abs_le.mp (roundEven_spec y)
  have h1 : ((roundEven y : ℤ) : ℚ) + 1 ≤ roundEven x := by exact_mod_cast hc
  -- both at the half
  have e1 : x = y := by linarith [hx.1, hx.2, hy.1, hy.2]
  rw [e1] at hc
  exact absurd hc (lt_irrefl _)

theorem two_zpow_pos (e : ℤ) : (0 : ℚ) < 2 ^ e := zpow_pos (by norm_num) e

theorem lastPlace_le {x : ℚ} (hx : x ≠ 0) : (2 : ℚ) ^ 52 * 2 ^ lastPlace x ≤ |x| := by
  have h := Int.zpow_log_le_self (b := 2) (by norm_num) (abs_pos.mpr hx)
  unfold lastPlace
  rw [zpow_sub₀ (by norm_num)]
  calc _ = (2 : ℚ) ^ Int.log 2 |x| := by norm_num [mul_div_assoc']
    _ ≤ _ := by exact_mod_cast h

theorem lt_lastPlace (x : ℚ) : |x| < (2 : ℚ) ^ 53 * 2 ^ lastPlace x := by
  have h := Int.lt_zpow_succ_log_self (b := 2) (by norm_num) |x|
  unfold lastPlace
  rw [zpow_sub₀ (by norm_num)]
  calc |x| < (2 : ℚ) ^ (Int.log 2 |x| + 1) := by exact_mod_cast h
    _ = _ := by rw [zpow_add₀ (by norm_num)]; norm_num; ring

theorem fl64_zero : fl64 0 = 0 := by
  unfold fl64
  rw [zero_div]
  have := roundEven_int 0
  rw [Int.cast_zero] at this
  rw [this]
  simp

/-- the relative error of rounding is at most `2^-53` -/
theorem fl64_err (x : ℚ) : |fl64 x - x| ≤ |x| / 2 ^ 53 := by
  by_cases hx : x = 0
  · rw [hx, fl64_zero]; simp
  have hp := two_zpow_pos (lastPlace x)
  have h := roundEven_spec (x / 2 ^ lastPlace x)
  have e : fl64 x - x = (roundEven (x / 2 ^ lastPlace x) - x / 2 ^ lastPlace x) * 2 ^ lastPlace x := by
    unfold fl64
    rw [sub_mul, div_mul_cancel₀ _ hp.ne']
  rw [e, abs_mul, abs_of_pos hp]
  have h2 := lastPlace_le hx
  rw [le_div_iff₀ (by norm_num)]
  nlinarith

/-- `fl64` is what IEEE 754 asks: a nearest double. -/
theorem C65_fl64_nearest (x : ℚ) : NearestDouble x (fl64 x) := by
  have hp := two_zpow_pos (lastPlace x)
  constructor
  · refine ⟨roundEven (x / 2 ^ lastPlace x), lastPlace x, ?_, rfl⟩
    have h1 : |x / 2 ^ lastPlace x| ≤ ((2 ^ 53 : ℤ) : ℚ) := by
      rw [abs_div, abs_of_pos hp, div_le_iff₀ hp]
      have := lt_lastPlace x
      push_cast
      linarith
    rw [abs_le] at h1 ⊢
    have a := roundEven_mono h1.2
    have b := roundEven_mono h1.1
    rw [roundEven_int] at a
    rw [show (-((2 ^ 53 : ℤ) : ℚ)) = ((-(2 ^ 53) : ℤ) : ℚ) by push_cast; ring, roundEven_int] at b
    exact ⟨b, a⟩
  · rintro y ⟨m, k, hm, rfl⟩
    by_cases hx : x = 0
    · rw [hx, fl64_zero, sub_self, abs_zero]; exact abs_nonneg _
    -- multiples of the last place
    have mult : ∀ n : ℤ, |x - fl64 x| ≤ |x - n * 2 ^ lastPlace x| := by
      intro n
      have h := roundEven_nearest (x / 2 ^ lastPlace x) n
      have e1 : x - fl64 x = (x / 2 ^ lastPlace x - roundEven (x / 2 ^ lastPlace x)) * 2 ^ lastPlace x := by
        unfold fl64
        rw [sub_mul, div_mul_cancel₀ _ hp.ne']
      have e2 : x - n * 2 ^ lastPlace x = (x / 2 ^ lastPlace x - n) * 2 ^ lastPlace x := by
        rw [sub_mul, div_mul_cancel₀ _ hp.ne']
      rw [e1, e2, abs_mul, abs_mul, abs_of_pos hp]
      exact mul_le_mul_of_nonneg_right h hp.le
    by_cases hk : lastPlace x ≤ k
    · obtain ⟨d, hd⟩ := Int.eq_ofNat_of_zero_le (sub_nonneg.mpr hk)
      have := mult (m * 2 ^ d)
      have e : ((m * 2 ^ d : ℤ) : ℚ) * 2 ^ lastPlace x = m * 2 ^ k := by
        push_cast
        rw [mul_assoc, ← zpow_natCast, ← zpow_add₀ (by norm_num), ← hd, sub_add_cancel]
      rwa [e] at this
    · push Not at hk
      have h1 := lastPlace_le hx
      have hy : |(m : ℚ) * 2 ^ k| ≤ (2 : ℚ) ^ 52 * 2 ^ lastPlace x := by
        rw [abs_mul, abs_of_pos (two_zpow_pos k)]
        have hmq : |(m : ℚ)| ≤ 2 ^ 53 := by exact_mod_cast hm
        have hkk : (2 : ℚ) ^ k * 2 ≤ 2 ^ lastPlace x := by
          rw [← zpow_add_one₀ (by norm_num)]
          exact zpow_le_zpow_right₀ (by norm_num) (by omega)
        have := two_zpow_pos k
        nlinarith
      rw [abs_le] at hy
      rcases lt_or_gt_of_ne hx with hneg | hpos
      · rw [abs_of_neg hneg] at h1
        have := mult (-(2 ^ 52))
        refine le_trans this ?_
        push_cast
        rw [abs_of_nonpos (by linarith), abs_of_nonpos (by linarith)]
        linarith
      · rw [abs_of_pos hpos] at h1
        have := mult (2 ^ 52)
        refine le_trans this ?_
        push_cast
        rw [abs_of_nonneg (by linarith), abs_of_nonneg (by linarith)]
        linarith

/-- ... and of two equally near ones the even one: exactly half way between two neighbouring multiples of the last place, the
result is the even multiple. -/
theorem C65_fl64_ties_even (x : ℚ) (k : ℤ) (h : x = (k + 1 / 2) * 2 ^ (Int.log 2 |x| - 52)) :
    ∃ n : ℤ, n % 2 = 0 ∧ (n = k ∨ n = k + 1) ∧ fl64 x = n * 2 ^ (Int.log 2 |x| - 52) := by
  have hp := two_zpow_pos (lastPlace x)
  have hx : x / 2 ^ lastPlace x = k + 1 / 2 := by
    rw [div_eq_iff hp.ne']
    exact h
  have hf : ⌊(k : ℚ) + 1 / 2⌋ = k := by
    rw [Int.floor_eq_iff]
    constructor <;> linarith
  refine ⟨roundEven (k + 1 / 2), ?_, ?_, by unfold fl64; rw [hx]; rfl⟩
  · unfold roundEven
    rw [hf, if_neg (by rw [add_sub_cancel_left]; exact lt_irrefl _), if_neg (by rw [add_sub_cancel_left]; exact lt_irrefl _)]
    split <;> omega
  · unfold roundEven
    rw [hf, if_neg (by rw [add_sub_cancel_left]; exact lt_irrefl _), if_neg (by rw [add_sub_cancel_left]; exact lt_irrefl _)]
    split
    · exact .inl rfl
    · exact .inr rfl

/-- what a double holds is not changed -/
theorem fl64_double {x : ℚ} (h : Double x) : fl64 x = x := by
  have := (C65_fl64_nearest x).2 x h
  rw [sub_self, abs_zero, abs_nonpos_iff, sub_eq_zero] at this
  exact this.symm

theorem double_nat {n : Nat} (h : n ≤ 2 ^ 53) : Double n :=
  ⟨n, 0, by rw [abs_of_nonneg (by omega)]; exact_mod_cast h, by simp⟩

theorem fl64_mono {x y : ℚ} (h : x ≤ y) : fl64 x ≤ fl64 y := by
  by_contra hc
  push Not at hc
  have a := (C65_fl64_nearest x).2 _ (C65_fl64_nearest y).1
  have b := (C65_fl64_nearest y).2 _ (C65_fl64_nearest x).1
  have e : x = y := by
    rcases abs_cases (x - fl64 x) with ⟨p1, p2⟩ | ⟨p1, p2⟩ <;> rcases abs_cases (x - fl64 y) with ⟨q1, q2⟩ | ⟨q1, q2⟩ <;>
      rcases abs_cases (y - fl64 y) with ⟨r1, r2⟩ | ⟨r1, r2⟩ <;> rcases abs_cases (y - fl64 x) with ⟨s1, s2⟩ | ⟨s1, s2⟩ <;>
      linarith
  rw [e] at hc
  exact absurd hc (lt_irrefl _)

theorem fl64_nonneg {x : ℚ} (h : 0 ≤ x) : 0 ≤ fl64 x := by
  have := fl64_mono h
  rwa [fl64_zero] at this

theorem fl64_nonpos {x : ℚ} (h : x ≤ 0) : fl64 x ≤ 0 := by
  have := fl64_mono h
  rwa [fl64_zero] at this

theorem roundAway_mono {x y : ℚ} (h : x ≤ y) : roundAway x ≤ roundAway y := by
  unfold roundAway
  split
  · rw [if_pos (by linarith)]
    exact Int.floor_le_floor (by linarith)
  · rename_i hx
    push Not at hx
    have h1 : 0 ≤ ⌊-x + 1 / 2⌋ := Int.floor_nonneg.mpr (by linarith)
    split
    · rename_i hy
      have : 0 ≤ ⌊y + 1 / 2⌋ := Int.floor_nonneg.mpr (by linarith)
      omega
    · have := Int.floor_le_floor (show -y + 1 / 2 ≤ -x + 1 / 2 by linarith)
      omega

theorem satU32_mono {m n : ℤ} (h : m ≤ n) : satU32 m ≤ satU32 n := by
  unfold satU32
  omega

theorem roundAway_eq {y : ℚ} {n : Nat} (h1 : (n : ℚ) - 1 / 2 ≤ y) (h2 : y < n + 1 / 2) (h0 : n = 0 → -(1 / 2) < y) :
    roundAway y = n := by
  unfold roundAway
  split
  · rw [Int.floor_eq_iff]
    push_cast
    constructor <;> linarith
  · rename_i hy
    push Not at hy
    have hn : n = 0 := by
      by_contra hn
      have : (1 : ℚ) ≤ n := by exact_mod_cast Nat.one_le_iff_ne_zero.mpr hn
      linarith
    have := h0 hn
    have h3 : ⌊-y + 1 / 2⌋ = 0 := by
      rw [Int.floor_eq_iff]
      push_cast
      constructor <;> linarith
    rw [h3, hn]
    rfl

/-- A time within a tenth of a millisecond of a whole number of milliseconds is converted to it. -/
theorem sToMs_near {t : ℚ} {n : Nat} (hn : n < 2 ^ 32) (ht : |t - n / 1000| ≤ 1 / 10000) : sToMs t = n := by
  have hnq : (n : ℚ) ≤ 2 ^ 32 := by exact_mod_cast hn.le
  have hn0 : (0 : ℚ) ≤ n := by positivity
  have e := fl64_err (t * 1000)
  rw [abs_le] at ht
  have ha : |t * 1000| ≤ 2 ^ 33 := by
    rw [abs_le]
    constructor
    · linarith [ht.1]
    · linarith [ht.2]
  have hb : |t * 1000| / 2 ^ 53 ≤ 1 / 10 := by
    rw [div_le_iff₀ (by norm_num)]
    linarith
  have e' := abs_le.mp (le_trans e hb)
  unfold sToMs
  rw [roundAway_eq (n := n) (by linarith [e'.1, ht.1]) (by linarith [e'.2, ht.2]) (fun _ => by linarith [e'.1, ht.1])]
  unfold satU32
  omega

/-- **C65** `s_to_ms` undoes the division by 1000: every time stamp in milliseconds survives being kept in seconds. -/
theorem C65_round_trip (n : Nat) (hn : n < 2 ^ 32) : sToMs (msToS n) = n := by
  apply sToMs_near hn
  have hnq : (n : ℚ) ≤ 2 ^ 32 := by exact_mod_cast hn.le
  have hn0 : (0 : ℚ) ≤ n := by positivity
  refine le_trans (fl64_err _) ?_
  rw [abs_of_nonneg (by positivity), div_le_iff₀ (by norm_num)]
  linarith

/-- **C65** Later times do not get smaller numbers of milliseconds. -/
theorem C65_monotone {t u : ℚ} (h : t ≤ u) : sToMs t ≤ sToMs u :=
  satU32_mono (roundAway_mono (fl64_mono (by linarith)))

/-- **C65** The milliseconds are the nearest ones, up to the error of one `f64` product. -/
theorem C65_nearest {t : ℚ} (h0 : 0 ≤ t) (h1 : t ≤ 4294967) : |(sToMs t : ℚ) - 1000 * t| ≤ 1 / 2 + t * 1000 / 2 ^ 53 := by
  have e := fl64_err (t * 1000)
  rw [abs_of_nonneg (show 0 ≤ t * 1000 by linarith)] at e
  have e' := abs_le.mp e
  have hf := fl64_nonneg (show 0 ≤ t * 1000 by linarith)
  unfold sToMs roundAway satU32
  rw [if_pos hf]
  have f1 := Int.floor_le (fl64 (t * 1000) + 1 / 2)
  have f2 := Int.lt_floor_add_one (fl64 (t * 1000) + 1 / 2)
  have hup : ⌊fl64 (t * 1000) + 1 / 2⌋ ≤ 4294967295 := by
    have hle : fl64 (t * 1000) ≤ 4294967000 := by
      have := fl64_mono (show t * 1000 ≤ ((4294967000 : ℕ) : ℚ) by push_cast; linarith)
      rw [fl64_double (double_nat (by norm_num))] at this
      exact_mod_cast this
    have : ⌊fl64 (t * 1000) + 1 / 2⌋ ≤ ⌊(4294967001 : ℚ)⌋ := Int.floor_le_floor (by linarith)
    have h3 : ⌊(4294967001 : ℚ)⌋ = 4294967001 := by
      rw [Int.floor_eq_iff]; norm_num
    omega
  have hlow : 0 ≤ ⌊fl64 (t * 1000) + 1 / 2⌋ := Int.floor_nonneg.mpr (by linarith)
  generalize hF : ⌊fl64 (t * 1000) + 1 / 2⌋ = F at *
  rw [min_eq_left (by omega)]
  have hc : ((F.toNat : ℕ) : ℚ) = F := by
    have : ((F.toNat : ℕ) : ℤ) = F := Int.toNat_of_nonneg hlow
    exact_mod_cast this
  rw [hc, abs_le]
  constructor <;> linarith [e'.1, e'.2]

/-- **C65** Negative times become 0. -/
theorem C65_negative {t : ℚ} (h : t ≤ 0) : sToMs t = 0 := by
  have h1 := roundAway_mono (fl64_nonpos (show t * 1000 ≤ 0 by linarith))
  have h2 : roundAway 0 = 0 := roundAway_eq (n := 0) (by norm_num) (by norm_num) (by norm_num)
  rw [h2] at h1
  unfold sToMs satU32
  omega

/-- **C65** The nearest millisecond is not always taken: the double written `0.0045` is below 4.5 ms, `s_to_ms` says 5. -/
theorem C65_nearest_refuted : ∃ t : ℚ, Double t ∧ 1000 * t < 9 / 2 ∧ sToMs t = 5 := by
  refine ⟨5188146770730811 / 2 ^ 60, ⟨5188146770730811, -60, by norm_num, by norm_num⟩, by norm_num, ?_⟩
  decide +kernel

/-! ## time stamps of live events -/

/-- **C65** The time stamp of an event is the number of milliseconds nearest to the time passed. -/
theorem C65_time_between (micros : Nat) (h : nearestMs micros < 2 ^ 32) : timeMsBetweenF micros = nearestMs micros := by
  unfold nearestMs at *
  obtain ⟨k, r, hr, hm⟩ : ∃ k r, r < 1000 ∧ micros + 500 = 1000 * k + r :=
    ⟨(micros + 500) / 1000, (micros + 500) % 1000, Nat.mod_lt _ (by norm_num), by omega⟩
  have hk : (micros + 500) / 1000 = k := by omega
  rw [hk] at h ⊢
  have hkq : (k : ℚ) + 1 ≤ 2 ^ 32 := by exact_mod_cast h
  have hq : (micros : ℚ) = 1000 * k + r - 500 := by
    have : ((micros + 500 : ℕ) : ℚ) = ((1000 * k + r : ℕ) : ℚ) := by rw [hm]
    push_cast at this
    linarith
  unfold timeMsBetweenF
  rw [fl64_double (double_nat (by omega))]
  have hrq : (r : ℚ) ≤ 999 := by exact_mod_cast (by omega : r ≤ 999)
  have hr0 : (0 : ℚ) ≤ r := by positivity
  have hmn : (0 : ℚ) ≤ micros := by positivity
  have e := fl64_err ((micros : ℚ) / 1000)
  rw [abs_of_nonneg (show (0 : ℚ) ≤ (micros : ℚ) / 1000 by positivity)] at e
  have hb : (micros : ℚ) / 1000 / 2 ^ 53 ≤ 1 / 10000 := by
    rw [div_le_iff₀ (by norm_num)]
    linarith
  have e' := abs_le.mp (le_trans e hb)
  have lower : (k : ℚ) - 1 / 2 ≤ fl64 ((micros : ℚ) / 1000) := by
    by_cases k0 : k = 0
    · have := fl64_nonneg (show (0 : ℚ) ≤ (micros : ℚ) / 1000 by positivity)
      rw [k0]
      push_cast
      linarith
    have hd : Double ((k : ℚ) - 1 / 2) := by
      refine ⟨2 * k - 1, -1, ?_, ?_⟩
      · rw [abs_of_nonneg (by omega)]; omega
      · push_cast
        norm_num
        ring
    rw [← fl64_double hd]
    exact fl64_mono (by linarith)
  rw [roundAway_eq (n := k) lower (by linarith [e'.2]) (fun h0 => by
    have := fl64_nonneg (show (0 : ℚ) ≤ (micros : ℚ) / 1000 by positivity)
    linarith)]
  unfold satU32
  omega

/-- **C65** The milliseconds of the recording model (`Model/Video.lean`, whole numbers) are those of the `f64` computation. -/
theorem C65_model (now past : Nat) (h : nearestMs (now - past) < 2 ^ 32) : timeMsBetweenF (now - past) = timeMsBetween now past :=
  C65_time_between _ h

/-- **C65** Time stamps do not decrease. -/
theorem C65_time_between_mono {m n : Nat} (h : m ≤ n) : timeMsBetweenF m ≤ timeMsBetweenF n := by
  have h1 : fl64 (m : ℚ) ≤ fl64 (n : ℚ) := fl64_mono (by exact_mod_cast h)
  exact satU32_mono (roundAway_mono (fl64_mono (by linarith)))

/-- **C65** From the clock to the file: an event `micros` microseconds after the start is written with the nearest
millisecond. -/
theorem C65_event (micros : Nat) (h : nearestMs micros < 2 ^ 32) : sToMs (msToS (timeMsBetweenF micros)) = nearestMs micros := by
  rw [C65_time_between micros h, C65_round_trip _ h]

/-! ## times in files -/

theorem fl64_abs_err {x B : ℚ} (h : |x| ≤ B) : |fl64 x - x| ≤ B / 2 ^ 53 :=
  le_trans (fl64_err x) (div_le_div_of_nonneg_right h (by norm_num))

/-- **C65** The result of an MVF file (seconds and hundredths) in milliseconds. -/
theorem C65_mvf_result (sec h : Nat) (h1 : sec < 65536) (h2 : h < 256) : sToMs (mvfResult sec h) = 1000 * sec + 10 * h := by
  apply sToMs_near (by omega)
  have s0 : (sec : ℚ) ≤ 65535 := by exact_mod_cast (by omega : sec ≤ 65535)
  have s1 : (0 : ℚ) ≤ sec := by positivity
  have t0 : (h : ℚ) ≤ 255 := by exact_mod_cast (by omega : h ≤ 255)
  have t1 : (0 : ℚ) ≤ h := by positivity
  have a := fl64_abs_err (x := (h : ℚ) / 100) (B := 3) (by rw [abs_of_nonneg (by positivity)]; linarith)
  have a' := abs_le.mp a
  have b := fl64_abs_err (x := (sec : ℚ) + fl64 ((h : ℚ) / 100)) (B := 100000) (by
    rw [abs_le]; constructor <;> linarith [a'.1, a'.2])
  have b' := abs_le.mp b
  unfold mvfResult
  push_cast
  rw [abs_le]
  constructor <;> linarith [a'.1, a'.2, b'.1, b'.2]

/-- **C65** The time of an MVF event (seconds and thousandths) in milliseconds. -/
theorem C65_mvf_event (sec ths : Nat) (h1 : sec < 65536) (h2 : ths < 65536) : sToMs (mvfTime sec ths) = 1000 * sec + ths := by
  apply sToMs_near (by omega)
  have s0 : (sec : ℚ) ≤ 65535 := by exact_mod_cast (by omega : sec ≤ 65535)
  have s1 : (0 : ℚ) ≤ sec := by positivity
  have t0 : (ths : ℚ) ≤ 65535 := by exact_mod_cast (by omega : ths ≤ 65535)
  have t1 : (0 : ℚ) ≤ ths := by positivity
  have a := fl64_abs_err (x := (ths : ℚ) / 1000) (B := 66) (by rw [abs_of_nonneg (by positivity)]; linarith)
  have a' := abs_le.mp a
  have b := fl64_abs_err (x := fl64 ((ths : ℚ) / 1000) + sec) (B := 100000) (by
    rw [abs_le]; constructor <;> linarith [a'.1, a'.2])
  have b' := abs_le.mp b
  unfold mvfTime
  push_cast
  rw [abs_le]
  constructor <;> linarith [a'.1, a'.2, b'.1, b'.2]

/-- **C65** The time of an AVF event in milliseconds; events of second 0 (before the start) become 0. -/
theorem C65_avf_event (sec h : Nat) (h1 : sec < 65536) (h2 : h < 256) (h3 : 100 ≤ 100 * sec + h) :
    sToMs (avfTime ((sec : ℤ) - 1) h) = 1000 * sec + 10 * h - 1000 := by
  apply sToMs_near (by omega)
  have s0 : (sec : ℚ) ≤ 65535 := by exact_mod_cast (by omega : sec ≤ 65535)
  have s1 : (0 : ℚ) ≤ sec := by positivity
  have t0 : (h : ℚ) ≤ 255 := by exact_mod_cast (by omega : h ≤ 255)
  have t1 : (0 : ℚ) ≤ h := by positivity
  have a := fl64_abs_err (x := (h : ℚ) / 100) (B := 3) (by rw [abs_of_nonneg (by positivity)]; linarith)
  have a' := abs_le.mp a
  have b := fl64_abs_err (x := (((sec : ℤ) - 1 : ℤ) : ℚ) + fl64 ((h : ℚ) / 100)) (B := 100000) (by
    push_cast
    rw [abs_le]; constructor <;> linarith [a'.1, a'.2])
  have b' := abs_le.mp b
  have hc : ((1000 * sec + 10 * h - 1000 : ℕ) : ℚ) = 1000 * sec + 10 * h - 1000 := by
    rw [Nat.cast_sub (by omega)]
    push_cast
    ring
  unfold avfTime
  rw [hc]
  push_cast at b' ⊢
  rw [abs_le]
  constructor <;> linarith [a'.1, a'.2, b'.1, b'.2]

/-- **C65** The result of an AVF file: the text states it in hundredths (or thousandths), one second too many. -/
theorem C65_avf_result (n : Nat) (h1 : 1000 ≤ n) (h2 : n < 2 ^ 32) : sToMs (avfResult (n / 1000)) = n - 1000 := by
  apply sToMs_near (by omega)
  have s0 : (n : ℚ) ≤ 2 ^ 32 := by exact_mod_cast h2.le
  have s1 : (1000 : ℚ) ≤ n := by exact_mod_cast h1
  have a := fl64_abs_err (x := (n : ℚ) / 1000) (B := 2 ^ 23) (by rw [abs_of_nonneg (by positivity)]; linarith)
  have a' := abs_le.mp a
  have b := fl64_abs_err (x := fl64 ((n : ℚ) / 1000) - 1) (B := 2 ^ 24) (by
    rw [abs_le]; constructor <;> linarith [a'.1, a'.2])
  have b' := abs_le.mp b
  have hc : ((n - 1000 : ℕ) : ℚ) = n - 1000 := by
    rw [Nat.cast_sub h1]
    norm_num
  unfold avfResult
  rw [hc, abs_le]
  constructor <;> linarith [a'.1, a'.2, b'.1, b'.2]

/-- a time of 108 ms is kept as the double next to 0.108, which is not 108/1000 -/
example : msToS 108 ≠ 108 / 1000 ∧ sToMs (msToS 108) = 108 := ⟨by decide +kernel, by decide +kernel⟩

example : nearestMs 107500 < 2 ^ 32 ∧ timeMsBetweenF 107500 = 108 ∧ timeMsBetweenF 107499 = 107 := by decide +kernel

example : sToMs (mvfResult 12 34) = 12340 ∧ sToMs (mvfTime 12 345) = 12345 ∧ sToMs (avfTime 12 34) = 12340 ∧
    sToMs (avfResult (13340 / 1000)) = 12340 ∧ sToMs (avfTime (-1) 99) = 0 := by decide +kernel

end Ms.Properties
