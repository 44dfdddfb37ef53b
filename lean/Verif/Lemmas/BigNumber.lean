import Verif.Model.BigNumber
import Mathlib.Data.Nat.Choose.Basic
import Mathlib.Tactic.Ring
import Mathlib.Tactic.FieldSimp
import Mathlib.Tactic.Linarith
import Mathlib.Tactic.Positivity

namespace Ms.BigNumber

/-- the number denoted -/
def value (n : BigNumber) : ℚ := n.a * 10 ^ n.b

theorem value_shift (a : ℚ) (b : Int) : value ⟨a / 10, b + 1⟩ = value ⟨a, b⟩ := by
  unfold value
  simp only
  rw [zpow_add₀ (by norm_num), zpow_one]
  ring

theorem shrink_spec : ∀ (fuel : Nat) (n : BigNumber), n.a < 10 ^ (fuel + 1) →
    ∃ m, shrink fuel n = some m ∧ m.value = n.value ∧ m.a < 10 ∧ (10 ≤ n.a → 1 ≤ m.a) ∧
      (n.a < 10 → m = n) := by
  intro fuel
  induction fuel with
  | zero =>
    intro n h
    refine ⟨n, ?_, rfl, by simpa using h, fun h' => by linarith [h', (by simpa using h : n.a < 10)], fun _ => rfl⟩
    unfold shrink
    rw [if_neg (by simpa using h)]
  | succ fuel ih =>
    intro n h
    unfold shrink
    by_cases h10 : n.a ≥ 10
    · rw [if_pos h10]
      obtain ⟨m, h1, h2, h3, h4, h5⟩ := ih ⟨n.a / 10, n.b + 1⟩ (by
        simp only
        rw [div_lt_iff₀ (by norm_num)]
        calc n.a < 10 ^ (fuel + 1 + 1) := h
          _ = 10 ^ (fuel + 1) * 10 := by ring)
      refine ⟨m, h1, ?_, h3, fun _ => ?_, fun h' => by linarith⟩
      · rw [h2]; exact value_shift _ _
      · by_cases h' : (10 : ℚ) ≤ n.a / 10
        · exact h4 h'
        · rw [h5 (not_le.mp h')]
          simp only
          rw [le_div_iff₀ (by norm_num)]; linarith
    · rw [if_neg h10]
      exact ⟨n, rfl, rfl, not_le.mp h10, fun h' => absurd h' h10, fun _ => rfl⟩

theorem lt_pow_fuel (q : ℚ) : q < 10 ^ (fuelFor q + 1) := by
  have h1 : q ≤ (q.num.natAbs : ℚ) := by
    by_cases h : 0 ≤ q
    · have hn : 0 ≤ q.num := Rat.num_nonneg.mpr h
      have e : ((q.num.natAbs : ℕ) : ℚ) = (q.num : ℚ) := by
        have : ((q.num.natAbs : ℕ) : ℤ) = q.num := Int.natAbs_of_nonneg hn
        rw [← Int.cast_natCast, this]
      rw [e]
      have hd : (1 : ℚ) ≤ q.den := by exact_mod_cast q.den_pos
      calc q = q.num / q.den := (Rat.num_div_den q).symm
        _ ≤ q.num / 1 := by
          apply div_le_div_of_nonneg_left _ (by norm_num) hd
          exact_mod_cast hn
        _ = q.num := by simp
    · have : (0 : ℚ) ≤ (q.num.natAbs : ℚ) := by positivity
      linarith
  have h2 : q.num.natAbs < 10 ^ q.num.natAbs := Nat.lt_pow_self (by norm_num)
  have h3 : (q.num.natAbs : ℚ) < 10 ^ q.num.natAbs := by exact_mod_cast h2
  have h4 : (10 : ℚ) ^ q.num.natAbs ≤ 10 ^ (q.num.natAbs + 1) :=
    pow_le_pow_right₀ (by norm_num) (by omega)
  unfold fuelFor
  linarith

theorem becomeSmaller_spec (n : BigNumber) (thrd : ℚ) (ht : 10 ≤ thrd) :
    ∃ m, becomeSmaller n thrd = some m ∧ m.value = n.value ∧ m.a < thrd ∧ (1 ≤ n.a → 1 ≤ m.a) ∧
      (0 ≤ n.a → 0 ≤ m.a) := by
  unfold becomeSmaller
  by_cases h : n.a < thrd
  · rw [if_pos h]; exact ⟨n, rfl, rfl, h, fun h => h, fun h => h⟩
  · rw [if_neg h]
    obtain ⟨m, h1, h2, h3, h4, h5⟩ := shrink_spec (fuelFor n.a) n (lt_pow_fuel _)
    have := h4 (by linarith)
    exact ⟨m, h1, h2, by linarith, fun _ => this, fun _ => by linarith⟩

theorem lower_eq (d : Nat) (x : ℚ) : lower d x = x * 10 ^ (-(d : Int)) := by
  induction d generalizing x with
  | zero => simp [lower]
  | succ d ih =>
    unfold lower
    rw [ih]
    push_cast
    rw [neg_add, zpow_add₀ (by norm_num)]
    ring

theorem raise_eq (d : Nat) (x : ℚ) : raise d x = x * 10 ^ (d : Int) := by
  induction d generalizing x with
  | zero => simp [raise]
  | succ d ih =>
    unfold raise
    rw [ih]
    push_cast
    rw [zpow_add₀ (by norm_num)]
    ring

theorem lower_nonneg {d : Nat} {x : ℚ} (h : 0 ≤ x) : 0 ≤ lower d x := by
  rw [lower_eq]; exact mul_nonneg h (zpow_nonneg (by norm_num) _)

theorem value_align (a : ℚ) (b kb : Int) (h : b ≤ kb) :
    lower (kb - b).toNat a * 10 ^ kb = a * 10 ^ b := by
  rw [lower_eq, Int.toNat_of_nonneg (by omega), mul_assoc, ← zpow_add₀ (by norm_num)]
  congr 2; omega

theorem add_spec (n k : BigNumber) :
    ∃ m, add n k = some m ∧ m.value = n.value + k.value ∧ m.a < 10 := by
  unfold add
  simp only
  obtain ⟨m, h1, h2, h3, -⟩ := becomeSmaller_spec
    ⟨lower (max n.b k.b - n.b).toNat n.a + lower (n.b - k.b).toNat k.a, max n.b k.b⟩ 10 (le_refl _)
  refine ⟨m, h1, ?_, h3⟩
  rw [h2]
  have e : (n.b - k.b).toNat = (max n.b k.b - k.b).toNat := by omega
  rw [e]
  unfold value
  simp only
  rw [add_mul, value_align _ _ _ (le_max_left _ _), value_align _ _ _ (le_max_right _ _)]

theorem mul_spec (n k : BigNumber) :
    ∃ m, mul n k = some m ∧ m.value = n.value * k.value ∧ m.a < 10 := by
  unfold mul
  obtain ⟨m, h1, h2, h3, -⟩ := becomeSmaller_spec ⟨n.a * k.a, n.b + k.b⟩ 10 (le_refl _)
  refine ⟨m, h1, ?_, h3⟩
  rw [h2]
  unfold value
  simp only
  rw [zpow_add₀ (by norm_num)]
  ring

theorem mulUsize_spec (n : BigNumber) (k : Nat) :
    ∃ m, mulUsize n k = some m ∧ m.value = n.value * k ∧ m.a < 10 := by
  unfold mulUsize
  by_cases h : k = 0
  · rw [if_pos h]
    exact ⟨_, rfl, by simp [value, h], by norm_num⟩
  · rw [if_neg h]
    obtain ⟨m, h1, h2, h3, -⟩ := becomeSmaller_spec ⟨n.a * k, n.b⟩ 10 (le_refl _)
    refine ⟨m, h1, ?_, h3⟩
    rw [h2]
    unfold value
    simp only
    ring

theorem divBig_spec (n k : BigNumber) (hk : k.a ≠ 0) :
    divBig n k = some (n.value / k.value) := by
  unfold divBig
  rw [if_neg hk]
  simp only
  congr 1
  unfold value
  have h10 : (10 : ℚ) ≠ 0 := by norm_num
  rw [lower_eq, raise_eq, mul_assoc, ← zpow_add₀ h10]
  have e : -((k.b - n.b).toNat : Int) + ((n.b - k.b).toNat : Int) = n.b - k.b := by omega
  rw [e, zpow_sub₀ h10]
  have : (10 : ℚ) ^ k.b ≠ 0 := zpow_ne_zero _ h10
  field_simp

theorem grow_spec : ∀ (fuel : Nat) (n : BigNumber), 0 < n.a → 1 ≤ n.a * 10 ^ fuel →
    ∃ m, grow fuel n = some m ∧ m.value = n.value ∧ 1 ≤ m.a := by
  intro fuel
  induction fuel with
  | zero =>
    intro n _ h
    refine ⟨n, ?_, rfl, by simpa using h⟩
    unfold grow; rw [if_neg (not_lt.mpr (by simpa using h))]
  | succ fuel ih =>
    intro n h0 h
    unfold grow
    by_cases h1 : n.a < 1
    · rw [if_pos h1]
      obtain ⟨m, e1, e2, e3⟩ := ih ⟨n.a * 10, n.b - 1⟩ (by simp only; linarith) (by
        simp only
        calc 1 ≤ n.a * 10 ^ (fuel + 1) := h
          _ = n.a * 10 * 10 ^ fuel := by ring)
      refine ⟨m, e1, ?_, e3⟩
      rw [e2]
      have := value_shift (n.a * 10) (n.b - 1)
      rw [← this]
      congr 1
      · congr 1
        · field_simp
        · omega
    · rw [if_neg h1]
      exact ⟨n, rfl, rfl, not_lt.mp h1⟩

theorem divUsize_spec (n : BigNumber) (k : Nat) (hk : k ≠ 0) (hn : 1 ≤ n.a) :
    ∃ m, divUsize n k = some m ∧ m.value = n.value / k ∧ 1 ≤ m.a := by
  unfold divUsize
  rw [if_neg (by rintro ⟨h, -⟩; linarith [h, (by norm_num : (1 : ℚ) / 100000000 < 1)]), if_neg hk]
  have hk' : (0 : ℚ) < k := by exact_mod_cast Nat.pos_of_ne_zero hk
  have hpos : 0 < n.a / k := by apply div_pos _ hk'; linarith
  obtain ⟨m, h1, h2, h3⟩ := grow_spec (n.a / k).den ⟨n.a / k, n.b⟩ hpos (by
    simp only
    set q := n.a / k with hq
    have hnum : 1 ≤ q.num := Rat.num_pos.mpr hpos
    have hden : (0 : ℚ) < q.den := by exact_mod_cast q.den_pos
    have hlt : (q.den : ℚ) ≤ 10 ^ q.den := by
      have : q.den < 10 ^ q.den := Nat.lt_pow_self (by norm_num)
      exact_mod_cast this.le
    have e : q * q.den = q.num := Rat.mul_den_eq_num q
    have h1 : (1 : ℚ) ≤ q.num := by exact_mod_cast hnum
    calc (1 : ℚ) ≤ q.num := h1
      _ = q * q.den := e.symm
      _ ≤ q * 10 ^ q.den := by apply mul_le_mul_of_nonneg_left hlt hpos.le)
  refine ⟨m, h1, ?_, h3⟩
  rw [h2]
  unfold value
  simp only
  ring

end Ms.BigNumber

namespace Ms
open BigNumber

theorem chooseLoop_spec (n : Nat) : ∀ (m i : Nat) (c : BigNumber), i + m ≤ n →
    2 * (i + m) ≤ n + 1 → c.value = n.choose i → 1 ≤ c.a →
    ∃ c', chooseLoop n m i c = some c' ∧ c'.value = n.choose (i + m) ∧ 1 ≤ c'.a := by
  intro m
  induction m with
  | zero => intro i c _ _ h1 h2; exact ⟨c, rfl, h1, h2⟩
  | succ m ih =>
    intro i c hn hn2 h1 h2
    unfold chooseLoop
    obtain ⟨d, hd, hv, -, hge, -⟩ := becomeSmaller_spec
      ⟨c.a * ((n - i : Nat) : ℚ) / ((i + 1 : Nat) : ℚ), c.b⟩ (10 ^ 208) (by norm_num)
    rw [hd, Option.bind_some]
    have hval : d.value = n.choose (i + 1) := by
      rw [hv]
      have e : n.choose (i + 1) * (i + 1) = n.choose i * (n - i) := Nat.choose_succ_right_eq n i
      have e' : ((n.choose (i + 1) : Nat) : ℚ) * ((i + 1 : Nat) : ℚ) =
          (n.choose i : ℚ) * ((n - i : Nat) : ℚ) := by exact_mod_cast e
      rw [← h1] at e'
      have hne : ((i + 1 : Nat) : ℚ) ≠ 0 := by exact_mod_cast Nat.succ_ne_zero i
      unfold value at e' ⊢
      simp only
      rw [div_mul_eq_mul_div, div_eq_iff hne, e']
      ring
    have hd1 : 1 ≤ d.a := by
      apply hge
      simp only
      have hpos : (0 : ℚ) < ((i + 1 : Nat) : ℚ) := by positivity
      rw [le_div_iff₀ hpos, one_mul]
      have hle : ((i + 1 : Nat) : ℚ) ≤ ((n - i : Nat) : ℚ) := by exact_mod_cast (by omega)
      have hnn : (0 : ℚ) ≤ ((n - i : Nat) : ℚ) := by positivity
      nlinarith
    obtain ⟨c', h3, h4, h5⟩ := ih (i + 1) d (by omega) (by omega) hval hd1
    exact ⟨c', h3, by rw [h4]; congr 2; omega, h5⟩

theorem chooseCore_spec (n k : Nat) (h : 2 * k ≤ n) :
    ∃ c, chooseCore n k = some c ∧ c.value = n.choose k ∧ 1 ≤ c.a ∧ c.a < 10 := by
  unfold chooseCore
  obtain ⟨c, h1, h2, h3⟩ := chooseLoop_spec n k 0 ⟨1, 0⟩ (by omega) (by omega)
    (by simp [value]) (by simp)
  rw [h1, Option.bind_some]
  obtain ⟨d, e1, e2, e3, e4, -⟩ := becomeSmaller_spec c 10 (le_refl _)
  exact ⟨d, e1, by rw [e2, h2, Nat.zero_add], e4 h3, e3⟩

theorem bigC_spec (n k : Nat) (h : k ≤ n) :
    ∃ c, bigC n k = some c ∧ c.value = n.choose k ∧ 1 ≤ c.a ∧ c.a < 10 := by
  unfold bigC
  by_cases h2 : n < k + k
  · rw [if_pos h2, if_neg (by omega), if_neg (by omega)]
    obtain ⟨c, e1, e2, e3⟩ := chooseCore_spec n (n - k) (by omega)
    exact ⟨c, e1, by rw [e2, Nat.choose_symm h], e3⟩
  · rw [if_neg h2]
    exact chooseCore_spec n k (by omega)

end Ms
